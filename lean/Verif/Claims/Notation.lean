import Verif.Discover.Notation
import Verif.Claims.Adapter
/-!
# C203: the axes named in a displayed DISCOVER equation

## Specification
-/
namespace Verif.Discover.Notation.Claims
open Verif.Data Verif.Discover Verif.Discover.Adapter Verif.Discover.Adapter.Claims Verif.Discover.Notation

/-- The equation names the axes of the data: the left-hand side is the derivative along `lhs`, and coordinate number `i` of the search (the token `x1`, `x2`, …) is written as the name of
the axis it stands for. -/
def Named (ax : List String) (lhs : String) : Prop :=
  figureLhs = "u_" ++ lhs ∧ ∀ (i : Nat) (a : String), (spaceAxes ax lhs)[i]? = some a → shown ("x" ++ toString (i + 1)) = a

/-- The differentiations one after the other. -/
def sequence (vs : List (String × Nat)) : List String := vs.flatMap fun v => List.replicate v.2 v.1

/-- The letter of a coordinate: x1, x2, x3 are written x, y, z. -/
def letter (v : String) : Char := if v = "x1" then 'x' else if v = "x2" then 'y' else 'z'

/-- LaTeX refuses a second subscript on the same symbol. -/
def DoubleSubscript (s : List Char) : Prop := ∃ a b c, s = a ++ ['_', '{'] ++ b ++ ['}', '_', '{'] ++ c ∧ '{' ∉ b ∧ '}' ∉ b

/-! ## Lemmas -/

theorem shown_x1 : shown "x1" = "x" := by decide
theorem shown_x2 : shown "x2" = "y" := by decide
theorem shown_x3 : shown "x3" = "z" := by decide

theorem join_toList (l : List String) : (String.join l).toList = l.flatMap String.toList := by
  induction l with
  | nil => rfl
  | cons a l ih => simp [String.join_cons, ih]

theorem shown_letter {v : String} (h : v = "x1" ∨ v = "x2" ∨ v = "x3") : (shown v).toList = [letter v] := by
  rcases h with rfl | rfl | rfl <;> decide

theorem letter_inj {v w : String} (hv : v = "x1" ∨ v = "x2" ∨ v = "x3") (hw : w = "x1" ∨ w = "x2" ∨ w = "x3") (h : letter v = letter w) : v = w := by
  rcases hv with rfl | rfl | rfl <;> rcases hw with rfl | rfl | rfl <;> first | rfl | (exact absurd h (by decide))

theorem subscript_letters (vs : List (String × Nat)) (h : ∀ v ∈ vs, v.1 = "x1" ∨ v.1 = "x2" ∨ v.1 = "x3") :
    (subscript vs).toList = (sequence vs).map letter := by
  unfold subscript sequence
  rw [join_toList]
  induction vs with
  | nil => rfl
  | cons v vs ih =>
    rw [List.map_cons, List.flatMap_cons, ih (fun w hw => h w (by simp [hw])), List.flatMap_cons, List.map_append, join_toList]
    congr 1
    generalize v.2 = n
    induction n with
    | zero => rfl
    | succ n ihn => rw [List.replicate_succ, List.flatMap_cons, ihn, shown_letter (h v (by simp)), List.replicate_succ]; rfl

theorem letters_clean (vs : List (String × Nat)) (c : Char) (hc : c ∈ (sequence vs).map letter) : c = 'x' ∨ c = 'y' ∨ c = 'z' := by
  obtain ⟨v, -, rfl⟩ := List.mem_map.1 hc
  unfold letter
  split
  · exact .inl rfl
  · split
    · exact .inr (.inl rfl)
    · exact .inr (.inr rfl)

theorem map_letter_inj : ∀ (l m : List String), (∀ v ∈ l, v = "x1" ∨ v = "x2" ∨ v = "x3") → (∀ v ∈ m, v = "x1" ∨ v = "x2" ∨ v = "x3") →
    l.map letter = m.map letter → l = m := by
  intro l
  induction l with
  | nil => intro m _ _ h; cases m with | nil => rfl | cons => simp at h
  | cons a l ih =>
    intro m hl hm h
    cases m with
    | nil => simp at h
    | cons b m =>
      simp only [List.map_cons, List.cons.injEq] at h
      rw [letter_inj (hl a (by simp)) (hm b (by simp)) h.1, ih m (fun v hv => hl v (by simp [hv])) (fun v hv => hm v (by simp [hv])) h.2]

theorem sequence_mem {vs : List (String × Nat)} (h : ∀ v ∈ vs, v.1 = "x1" ∨ v.1 = "x2" ∨ v.1 = "x3") : ∀ v ∈ sequence vs, v = "x1" ∨ v = "x2" ∨ v = "x3" := by
  intro v hv
  simp only [sequence, List.mem_flatMap, List.mem_replicate] at hv
  obtain ⟨w, hw, -, rfl⟩ := hv
  exact h w hw

theorem prefix_unique (x : Char) : ∀ (S T A B : List Char), x ∉ S → x ∉ T → S ++ x :: A = T ++ x :: B → S = T ∧ A = B := by
  intro S
  induction S with
  | nil =>
    intro T A B _ hT h
    cases T with
    | nil => simp at h; exact ⟨rfl, h⟩
    | cons t T => simp at h; exact absurd h.1 (by rintro rfl; simp at hT)
  | cons s S ih =>
    intro T A B hS hT h
    cases T with
    | nil => simp at h; exact absurd h.1 (by rintro rfl; simp at hS)
    | cons t T =>
      simp only [List.cons_append, List.cons.injEq] at h
      obtain ⟨a, b⟩ := ih T A B (by simp at hS; exact hS.2) (by simp at hT; exact hT.2) h.2
      exact ⟨by rw [h.1, a], b⟩

theorem derivative_toList (f : Func) (vs : List (String × Nat)) : (derivative f vs).toList = f.text.toList ++ '_' :: '{' :: ((subscript vs).toList ++ ['}']) := by
  simp [derivative]

/-! ## C203 -/

/-- **C203** (part): coordinate number `i` of the search has the coordinates of space axis number `i` of the data set, and the displayed equation names the axes of the data exactly if the left-hand side
is along `t` and the space axes are called x, y (, z) in this order. -/
theorem C203_axes_partial {d : DS ℚ ℚ} {ax : List String} {lhs : String} {c : String → List ℚ} {u : Arr ℚ} (h : NdSet d ax lhs c u)
    (fin : ℚ → Bool) (enforce : Bool) (nInput : Option Nat) (r : Regular) (hr : regular fin enforce nInput d = .ok r) :
    r.X = (spaceAxes ax lhs).map c ∧
    (Named ax lhs ↔ lhs = "t" ∧ (spaceAxes ax lhs = ["x", "y"] ∨ spaceAxes ax lhs = ["x", "y", "z"])) := by
  refine ⟨(C77_values_nd h fin enforce nInput r hr).2.2.1, ?_⟩
  obtain ⟨_, h2, h3, _⟩ := (regular_nd h fin enforce nInput r).1 hr
  generalize hs : spaceAxes ax lhs = s at h2 h3
  unfold Named
  rw [hs]
  constructor
  · rintro ⟨hl, hn⟩
    refine ⟨?_, ?_⟩
    · have e : ("u_t" : String).toList = ("u_" ++ lhs).toList := by rw [← hl]; rfl
      rw [String.toList_append] at e
      have e' : lhs.toList = ['t'] := by
        have : ("u_t" : String).toList = ("u_" : String).toList ++ ['t'] := by decide
        rw [this] at e
        exact (List.append_cancel_left e).symm
      rw [← String.toList_inj, e']
      rfl
    · match s, h2, h3 with
      | [a, b], _, _ =>
        left
        have e1 := hn 0 a rfl
        have e2 := hn 1 b rfl
        rw [show ("x" ++ toString (0 + 1) : String) = "x1" from by decide, shown_x1] at e1
        rw [show ("x" ++ toString (1 + 1) : String) = "x2" from by decide, shown_x2] at e2
        rw [← e1, ← e2]
      | [a, b, e], _, _ =>
        right
        have e1 := hn 0 a rfl
        have e2 := hn 1 b rfl
        have e3 := hn 2 e rfl
        rw [show ("x" ++ toString (0 + 1) : String) = "x1" from by decide, shown_x1] at e1
        rw [show ("x" ++ toString (1 + 1) : String) = "x2" from by decide, shown_x2] at e2
        rw [show ("x" ++ toString (2 + 1) : String) = "x3" from by decide, shown_x3] at e3
        rw [← e1, ← e2, ← e3]
      | a :: b :: e :: f :: g, _, h3 => simp at h3
  · rintro ⟨rfl, hs'⟩
    refine ⟨by decide, fun i a ha => ?_⟩
    rcases hs' with rfl | rfl
    · match i, ha with
      | 0, ha => simp at ha; rw [← ha]; decide
      | 1, ha => simp at ha; rw [← ha]; decide
    · match i, ha with
      | 0, ha => simp at ha; rw [← ha]; decide
      | 1, ha => simp at ha; rw [← ha]; decide
      | 2, ha => simp at ha; rw [← ha]; decide

theorem filter_rename {ρ : String → String} {lhs : String} : ∀ ax : List String, (∀ a ∈ ax, ρ a = ρ lhs → a = lhs) →
    spaceAxes (ax.map ρ) (ρ lhs) = (spaceAxes ax lhs).map ρ := by
  intro ax
  induction ax with
  | nil => intro _; rfl
  | cons a ax ih =>
    intro h
    have ih' := ih (fun b hb => h b (by simp [hb]))
    unfold spaceAxes at ih' ⊢
    rw [List.map_cons, List.filter_cons, List.filter_cons]
    by_cases e : a = lhs
    · subst e; simpa using ih'
    · have e' : ρ a ≠ ρ lhs := fun x => e (h a (by simp) x)
      simp only [bne_iff_ne, ne_eq, e, e', not_false_eq_true, if_true, List.map_cons]
      rw [ih']

theorem idxOf_rename {ρ : String → String} {a : String} : ∀ ax : List String, (∀ b ∈ ax, ρ b = ρ a → b = a) → (ax.map ρ).idxOf (ρ a) = ax.idxOf a := by
  intro ax
  induction ax with
  | nil => intro _; rfl
  | cons b ax ih =>
    intro h
    rw [List.map_cons, List.idxOf_cons, List.idxOf_cons, ih (fun c hc => h c (by simp [hc]))]
    by_cases e : b = a
    · subst e; simp
    · have e' : ρ b ≠ ρ a := fun x => e (h b (by simp) x)
      simp [beq_eq_false_iff_ne.2 e, beq_eq_false_iff_ne.2 e']

/-- **C203 (violated).** The search, and so the displayed equation, does not depend on the names of the axes: a data set whose axes are renamed (any different names, also for the left-hand-side
axis) gives the same data to the search. -/
theorem C203_renamed {d d' : DS ℚ ℚ} {ax : List String} {lhs : String} {c c' : String → List ℚ} {u : Arr ℚ} (ρ : String → String)
    (h : NdSet d ax lhs c u) (h' : NdSet d' (ax.map ρ) (ρ lhs) c' u) (hc : ∀ a ∈ ax, c' (ρ a) = c a) (hp : d'.params = d.params)
    (hi : ∀ a ∈ ax, ∀ b ∈ ax, ρ a = ρ b → a = b) (fin : ℚ → Bool) (enforce : Bool) (nInput : Option Nat) (r : Regular) :
    regular fin enforce nInput d' = .ok r ↔ regular fin enforce nInput d = .ok r := by
  have hsp : spaceAxes (ax.map ρ) (ρ lhs) = (spaceAxes ax lhs).map ρ := filter_rename ax (fun a ha => hi a ha lhs h.mem)
  have hin : ∀ a ∈ spaceAxes ax lhs, a ∈ ax := fun a ha => (List.mem_filter.1 ha).1
  have e1 : (spaceAxes (ax.map ρ) (ρ lhs)).map c' = (spaceAxes ax lhs).map c := by
    rw [hsp, List.map_map]
    exact List.map_congr_left fun a ha => hc a (hin a ha)
  have e2 : ((ρ lhs :: spaceAxes (ax.map ρ) (ρ lhs)).map fun a => (ax.map ρ).idxOf a) = (lhs :: spaceAxes ax lhs).map fun a => ax.idxOf a := by
    rw [hsp, ← List.map_cons (f := ρ), List.map_map]
    apply List.map_congr_left
    intro a ha
    have ha' : a ∈ ax := by rcases List.mem_cons.1 ha with rfl | ha; exacts [h.mem, hin a ha]
    exact idxOf_rename ax (fun b hb e => hi b hb a ha' e)
  have e3 : (spaceAxes (ax.map ρ) (ρ lhs)).length = (spaceAxes ax lhs).length := by rw [hsp, List.length_map]
  have e4 : (∀ a ∈ spaceAxes (ax.map ρ) (ρ lhs), 4 ≤ (c' a).length ∧ ∀ e ∈ diffs (c' a), close e 0 = false) ↔
      ∀ a ∈ spaceAxes ax lhs, 4 ≤ (c a).length ∧ ∀ e ∈ diffs (c a), close e 0 = false := by
    rw [hsp]
    simp only [List.mem_map, forall_exists_index, and_imp, forall_apply_eq_imp_iff₂]
    constructor
    · intro H a ha; have := H a ha; rwa [hc a (hin a ha)] at this
    · intro H a ha; rw [hc a (hin a ha)]; exact H a ha
  rw [regular_nd h', regular_nd h, e1, e2, e3, e4, hc lhs h.mem, hp]

/-- **C203**: in the index notation different derivatives are written differently – the text of the function and the sequence of the differentiations can be read off. -/
theorem C203_unique (f g : Func) (vs ws : List (String × Nat)) (hv : ∀ v ∈ vs, v.1 = "x1" ∨ v.1 = "x2" ∨ v.1 = "x3")
    (hw : ∀ v ∈ ws, v.1 = "x1" ∨ v.1 = "x2" ∨ v.1 = "x3") (h : derivative f vs = derivative g ws) : f.text = g.text ∧ sequence vs = sequence ws := by
  have h' : (derivative f vs).toList = (derivative g ws).toList := by rw [h]
  rw [derivative_toList, derivative_toList, subscript_letters vs hv, subscript_letters ws hw] at h'
  have hr := congrArg List.reverse h'
  simp only [List.reverse_append, List.reverse_cons, List.reverse_nil, List.nil_append, List.append_assoc, List.singleton_append, List.cons_append, List.cons.injEq, true_and] at hr
  have no : ∀ us : List (String × Nat), '{' ∉ ((sequence us).map letter).reverse := by
    intro us hmem
    rcases letters_clean us '{' (List.mem_reverse.1 hmem) with e | e | e <;> exact absurd e (by decide)
  obtain ⟨a, b⟩ := prefix_unique '{' _ _ _ _ (no vs) (no ws) hr
  simp only [List.cons.injEq, true_and] at b
  refine ⟨?_, ?_⟩
  · rw [← String.toList_inj]
    exact List.reverse_injective b
  · exact map_letter_inj _ _ (sequence_mem hv) (sequence_mem hw) (List.reverse_injective a)

/-- **C203**: the state and an expression are never confused, and the text of the expression can be read off. -/
theorem C203_function (s s' : String) : (Func.compound s).text ≠ (Func.symbol "u1").text ∧ ((Func.compound s).text = (Func.compound s').text → s = s') := by
  constructor
  · intro h
    have h' := congrArg String.toList h
    have e : (Func.symbol "u1").text.toList = ['u'] := by decide
    rw [e] at h'
    simp [Func.text] at h'
  · intro h
    have h' := congrArg String.toList h
    simp only [Func.text, String.toList_append] at h'
    rw [← String.toList_inj]
    simpa using h'

/-- **C203**: a derivative of order `n` of the state along a coordinate is written `u` with the letter of the coordinate `n` times. -/
theorem C203_derivative (v : String) (n : Nat) (hv : v = "x1" ∨ v = "x2" ∨ v = "x3") :
    (derivative (.symbol "u1") [(v, n)]).toList = ['u', '_', '{'] ++ List.replicate n (letter v) ++ ['}'] ∧ ¬ DoubleSubscript (derivative (.symbol "u1") [(v, n)]).toList := by
  have e : (derivative (.symbol "u1") [(v, n)]).toList = ['u', '_', '{'] ++ List.replicate n (letter v) ++ ['}'] := by
    rw [derivative_toList, subscript_letters _ (by simpa using hv)]
    have : (Func.symbol "u1").text.toList = ['u'] := by decide
    rw [this]
    simp [sequence]
  refine ⟨e, ?_⟩
  rintro ⟨a, b, c, h, -, -⟩
  rw [e] at h
  have hc := congrArg (List.count '{') h
  have h0 : List.count '{' (List.replicate n (letter v)) = 0 := by
    rw [List.count_eq_zero]
    intro hm
    have := (List.mem_replicate.1 hm).2
    rcases hv with rfl | rfl | rfl <;> exact absurd this (by decide)
  simp only [List.count_append, h0] at hc
  simp at hc
  omega

/-- **C203 (violated).** The derivative of a parameter field has two subscripts in a row, which LaTeX (and matplotlib) refuses. -/
theorem C203_parameter_counterexample (p : String) (hp : p = "p1" ∨ p = "p2" ∨ p = "p3") (vs : List (String × Nat)) : DoubleSubscript (derivative (.symbol p) vs).toList := by
  rw [derivative_toList]
  rcases hp with rfl | rfl | rfl
  · exact ⟨['p'], ['1'], (subscript vs).toList ++ ['}'], by
      rw [show (Func.symbol "p1").text.toList = ['p', '_', '{', '1', '}'] from by decide]; simp, by decide, by decide⟩
  · exact ⟨['p'], ['2'], (subscript vs).toList ++ ['}'], by
      rw [show (Func.symbol "p2").text.toList = ['p', '_', '{', '2', '}'] from by decide]; simp, by decide, by decide⟩
  · exact ⟨['p'], ['3'], (subscript vs).toList ++ ['}'], by
      rw [show (Func.symbol "p3").text.toList = ['p', '_', '{', '3', '}'] from by decide]; simp, by decide, by decide⟩

/-! ## A data set -/

/-- Four points per axis. -/
def four : String → List ℚ := fun _ => [0, 1, 2, 3]

/-- Data on a 4 × 4 × 4 grid with the given axis names. -/
def demo (ax : List String) (lhs : String) : DS ℚ ℚ :=
  ⟨none, none, ⟨[4, 4, 4], fun _ => 0⟩, some [("u", ⟨[4, 4, 4], fun _ => 0⟩)], some (ax.map fun a => (a, four a)), some ax, some "u", some lhs, []⟩

theorem demo_nd (a b e : String) (hab : a ≠ b) (hae : a ≠ e) (hbe : b ≠ e) (lhs : String) (hl : lhs = a ∨ lhs = b ∨ lhs = e) :
    NdSet (demo [a, b, e] lhs) [a, b, e] lhs four ⟨[4, 4, 4], fun _ => 0⟩ := by
  refine ⟨⟨_, _, _, rfl, rfl, rfl, rfl, ?_⟩, rfl, rfl, by simp [hab, hae, hbe], by simpa using hl, rfl, by simp [demo]⟩
  intro x hx
  simp only [List.mem_cons, List.not_mem_nil, or_false] at hx
  have h1 : (b == a) = false := by simp [Ne.symm hab]
  have h2 : (e == a) = false := by simp [Ne.symm hae]
  have h3 : (e == b) = false := by simp [Ne.symm hbe]
  rcases hx with rfl | rfl | rfl <;> simp [List.lookup, h1, h2, h3]

/-- **C203 (violated).** u_x = … over t and y: the equation is shown with u_t on the left and writes x for the axis t. -/
theorem C203_axes_counterexample : ∃ d r, NdSet d ["x", "t", "y"] "x" four ⟨[4, 4, 4], fun _ => 0⟩ ∧ regular (fun _ => true) true none d = .ok r ∧
    spaceAxes ["x", "t", "y"] "x" = ["t", "y"] ∧ figureLhs = "u_t" ∧ shown "x1" = "x" ∧ ¬ Named ["x", "t", "y"] "x" := by
  have hn := demo_nd "x" "t" "y" (by decide) (by decide) (by decide) "x" (.inl rfl)
  have hsp : spaceAxes ["x", "t", "y"] "x" = ["t", "y"] := by decide
  have hr := (regular_nd hn (fun _ => true) true none ⟨_, _, _, _, _⟩).2 ⟨by simp [allFinite], by rw [hsp]; decide, by rw [hsp]; decide,
    by
      intro a _
      refine ⟨by simp [four], ?_⟩
      intro e he
      have : e = 1 := by
        simp [four, diffs] at he
        norm_num at he
        exact he
      subst this
      decide +kernel, by simp, 1, by decide +kernel, rfl⟩
  refine ⟨_, _, hn, hr, hsp, rfl, shown_x1, ?_⟩
  rw [(C203_axes_partial hn _ _ _ _ hr).2]
  rintro ⟨h, -⟩
  exact absurd h (by decide)

end Verif.Discover.Notation.Claims
