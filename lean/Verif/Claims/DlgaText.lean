import Verif.Dlga.BaseText
/-!
# C173: the equation text of the base class
-/
namespace Verif.Dlga.BaseText.Claims
open Verif.Dlga.BaseText

/-- A gene of the table. -/
def Legal (g : Int) : Prop := 0 ≤ g ∧ g < 6

/-- A term as one writes it: the coefficient and the names of the factors, joined by stars. -/
def term (c : String) (m : List Int) : String := "*".intercalate (c :: m.map fun g => geneNames.getD g.toNat "")

theorem join_append (a b : List String) : String.join (a ++ b) = String.join a ++ String.join b := by
  apply String.toList_injective
  simp [String.toList_join]

/-- The pieces of a module with its coefficient. -/
def starred (c : String) (m : List Int) : List String := [c] ++ m.flatMap fun g => ["*", geneNames.getD g.toNat ""]

theorem genePieces_eq (m : List Int) (hm : ∀ g ∈ m, Legal g) (acc : List String) :
    genePieces m acc = acc ++ m.flatMap fun g => [geneNames.getD g.toNat "", "*"] := by
  induction m generalizing acc with
  | nil => simp [genePieces]
  | cons g gs ih =>
    have hg := hm g List.mem_cons_self
    have hb : ¬ (g < 0 ∨ g ≥ (geneNames.length : Int)) := by
      unfold Legal at hg
      simp only [geneNames, List.length_cons, List.length_nil]
      omega
    rw [genePieces, if_neg hb, ih fun x hx => hm x (List.mem_cons_of_mem _ hx)]
    simp

theorem rotate (m : List Int) (acc : List String) :
    acc ++ "*" :: (m.flatMap fun g => [geneNames.getD g.toNat "", "*"]) = acc ++ (m.flatMap fun g => ["*", geneNames.getD g.toNat ""]) ++ ["*"] := by
  have : ∀ m : List Int, "*" :: (m.flatMap fun g => [geneNames.getD g.toNat "", "*"]) = (m.flatMap fun g => ["*", geneNames.getD g.toNat ""]) ++ ["*"] := by
    intro m
    induction m with
    | nil => rfl
    | cons g gs ih =>
      rw [List.flatMap_cons, List.flatMap_cons, List.append_assoc, ← ih]
      rfl
  rw [this m, List.append_assoc]

theorem module_step (m : List Int) (hm : ∀ g ∈ m, Legal g) (acc : List String) (c : String) :
    (genePieces m (acc ++ [c, "*"])).dropLast = acc ++ starred c m := by
  rw [genePieces_eq m hm]
  have h1 : acc ++ [c, "*"] ++ (m.flatMap fun g => [geneNames.getD g.toNat "", "*"]) =
      (acc ++ [c]) ++ "*" :: (m.flatMap fun g => [geneNames.getD g.toNat "", "*"]) := by simp
  rw [h1, rotate, List.dropLast_concat]
  simp [starred]

theorem modulePieces_eq (ms : List (List Int)) (cs : List String) (hm : ∀ m ∈ ms, m ≠ [] ∧ ∀ g ∈ m, Legal g) (acc : List String) :
    modulePieces ms cs acc = acc ++ ((ms.zip cs).flatMap fun p => starred p.2 p.1 ++ ["+"]) := by
  induction ms generalizing cs acc with
  | nil => simp [modulePieces]
  | cons m ms ih =>
    cases cs with
    | nil => simp [modulePieces]
    | cons c cs =>
      have h := hm m List.mem_cons_self
      rw [modulePieces, if_neg h.1, module_step m h.2, ih cs fun x hx => hm x (List.mem_cons_of_mem _ hx)]
      simp

theorem join_starred (c : String) (m : List Int) : String.join (starred c m) = term c m := by
  apply String.toList_injective
  unfold term starred
  induction m generalizing c with
  | nil => simp [String.toList_join]
  | cons g gs ih =>
    have h := ih (geneNames.getD g.toNat "")
    rw [List.map_cons, String.intercalate_cons_cons]
    simp only [String.toList_append, String.toList_join, List.flatMap_cons, List.flatMap_append, List.singleton_append, List.cons_append] at h ⊢
    rw [← h]
    simp

theorem join_plus (ts : List (List Int × String)) :
    String.join (ts.flatMap fun p => starred p.2 p.1 ++ ["+"]).dropLast = "+".intercalate (ts.map fun p => term p.2 p.1) := by
  induction ts with
  | nil => rfl
  | cons p ts ih =>
    cases ts with
    | nil =>
      rw [List.flatMap_cons, List.flatMap_nil, List.append_nil, List.dropLast_concat, join_starred]
      simp
    | cons q qs =>
      have hne : ((q :: qs).flatMap fun p => starred p.2 p.1 ++ ["+"]) ≠ [] := by simp [List.flatMap_cons]
      rw [List.flatMap_cons, List.dropLast_append_of_ne_nil hne, join_append, ih, join_append, join_starred]
      show _ = "+".intercalate (term p.2 p.1 :: term q.2 q.1 :: qs.map fun p => term p.2 p.1)
      rw [String.intercalate_cons_cons]
      simp [String.join]

/-- For a genome with genes of the table and no empty module the text is the left-hand side, an equals sign and the terms, coefficient first, joined by
plus signs, in the order of the modules; modules without coefficient are left out. -/
theorem C173_text (chrom : List (List Int)) (lhs : String) (coefs : List String) (h : ∀ m ∈ chrom, m ≠ [] ∧ ∀ g ∈ m, Legal g) :
    convert chrom lhs coefs = lhs ++ "=" ++ "+".intercalate ((chrom.zip coefs).map fun p => term p.2 p.1) := by
  unfold convert
  rw [modulePieces_eq chrom coefs h, List.nil_append, join_plus]

/-- The names of all genes, and a genome of two modules. -/
theorem C173_concrete : convert [[0, 1, 2, 3, 4, 5]] "v" ["1.0"] = "v=1.0*u*ux*uxx*uxxx*ut*utt" ∧
    convert [[0, 1], [2]] "ut" ["-1.0", "0.1"] = "ut=-1.0*u*ux+0.1*uxx" := ⟨by decide +kernel, by decide +kernel⟩

/-- An empty module (which no genome of the search has) would glue its coefficient to the next term. -/
theorem C173_empty_module : convert [[], [2]] "ut" ["5.0", "0.1"] = "ut=5.0*0.1*uxx" := by decide +kernel

end Verif.Dlga.BaseText.Claims
