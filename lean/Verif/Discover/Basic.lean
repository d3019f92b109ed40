import Verif.Discover.Spec
/-! Helper lemmas about expression trees (no claims). -/
namespace Verif.Discover
namespace Tree

theorem WFL_iff {ar : Nat → Nat} {ts : List Tree} : WFL ar ts ↔ ∀ t ∈ ts, WF ar t := by
  induction ts with
  | nil => simp [WFL]
  | cons c cs ih => simp [WFL, ih]

theorem WFL_append {ar : Nat → Nat} {as bs : List Tree} :
    WFL ar (as ++ bs) ↔ WFL ar as ∧ WFL ar bs := by
  simp only [WFL_iff, List.mem_append]; grind

theorem preorderL_append (as bs : List Tree) :
    preorderL (as ++ bs) = preorderL as ++ preorderL bs := by
  induction as with
  | nil => simp [preorderL]
  | cons c cs ih => simp [preorderL, ih]

theorem preorder_eq (t : Tree) : t.preorder = t.root :: preorderL t.children := by
  cases t; simp [preorder]

theorem preorder_ne_nil (t : Tree) : t.preorder ≠ [] := by
  simp [preorder_eq]

theorem preorderL_singleton (t : Tree) : preorderL [t] = t.preorder := by simp [preorderL]

theorem WFL_singleton {ar : Nat → Nat} (t : Tree) : WFL ar [t] ↔ WF ar t := by simp [WFL]

theorem subtreesL_append (as bs : List Tree) :
    subtreesL (as ++ bs) = subtreesL as ++ subtreesL bs := by
  induction as with
  | nil => simp [subtreesL]
  | cons c cs ih => simp [subtreesL, ih]

theorem mem_subtreesL {s : Tree} {ts : List Tree} : s ∈ subtreesL ts ↔ ∃ t ∈ ts, s ∈ t.subtrees := by
  induction ts with
  | nil => simp [subtreesL]
  | cons c cs ih => simp [subtreesL, ih]

theorem subtrees_eq (t : Tree) : t.subtrees = t :: subtreesL t.children := by
  cases t; simp [subtrees]

theorem self_mem_subtrees (t : Tree) : t ∈ t.subtrees := by simp [subtrees_eq]

/-- Structural induction for trees with the list hypothesis in membership form. -/
theorem induct {P : Tree → Prop} (h : ∀ t cs, (∀ c ∈ cs, P c) → P (node t cs)) : ∀ t, P t
  | node t cs => h t cs (fun c _ => induct h c)

end Tree

/-- `d` plus the sum of `arity - 1`: how many operands are still missing. -/
def dang (ar : Nat → Nat) (d : Int) : List Nat → Int
  | [] => d
  | x :: xs => dang ar (d + ((ar x : Int) - 1)) xs

theorem dang_append (ar : Nat → Nat) (d : Int) (xs ys : List Nat) :
    dang ar d (xs ++ ys) = dang ar (dang ar d xs) ys := by
  induction xs generalizing d with
  | nil => rfl
  | cons x xs ih => simp [dang, ih]

theorem dang_shift (ar : Nat → Nat) (d e : Int) (xs : List Nat) :
    dang ar (d + e) xs = dang ar d xs + e := by
  induction xs generalizing d with
  | nil => rfl
  | cons x xs ih =>
    simp only [dang]
    rw [← ih]; congr 1; omega

theorem dang_eq (ar : Nat → Nat) (d : Int) (xs : List Nat) : dang ar d xs = dang ar 0 xs + d := by
  have := dang_shift ar 0 d xs; simpa using this

open Tree in
theorem dang_preorderL (ar : Nat → Nat) (ts : List Tree) (h : WFL ar ts) (d : Int) :
    dang ar d (preorderL ts) = d - ts.length := by
  have key : ∀ t : Tree, WF ar t → ∀ d, dang ar d t.preorder = d - 1 := by
    intro t
    induction t using Tree.induct with
    | h t cs ih =>
      intro hw d
      simp only [WF] at hw
      obtain ⟨hl, hw⟩ := hw
      have aux : ∀ cs : List Tree, (∀ c ∈ cs, WF ar c → ∀ d, dang ar d c.preorder = d - 1) → WFL ar cs →
          ∀ d, dang ar d (preorderL cs) = d - cs.length := by
        intro cs
        induction cs with
        | nil => intro _ _ d; simp [preorderL, dang]
        | cons c cs ihc =>
          intro h1 h2 d
          simp only [WFL] at h2
          simp only [preorderL, dang_append]
          rw [h1 c (by simp) h2.1, ihc (fun c hc => h1 c (by simp [hc])) h2.2]
          simp; omega
      simp only [preorder, dang]
      rw [aux cs ih hw]
      omega
  induction ts generalizing d with
  | nil => simp [preorderL, dang]
  | cons c cs ihc =>
    simp only [WFL] at h
    simp only [preorderL, dang_append]
    rw [key c h.1, ihc h.2]
    simp; omega

open Tree in
theorem dang_preorder (ar : Nat → Nat) (t : Tree) (h : WF ar t) (d : Int) :
    dang ar d t.preorder = d - 1 := by
  have := dang_preorderL ar [t] (by simpa [WFL] using h) d
  simpa [preorderL] using this

/-- "reaches zero for the first time at the end": `d` missing operands are filled exactly by `xs`. -/
def Exact (ar : Nat → Nat) (d : Int) (xs : List Nat) : Prop :=
  dang ar d xs = 0 ∧ ∀ p q, xs = p ++ q → q ≠ [] → 0 < dang ar d p

open Tree in
/-- A token list that fills exactly `n` slots is the traversal of a unique well-formed forest. -/
theorem forest_of_exact (ar : Nat → Nat) (xs : List Nat) (n : Nat) (h : Exact ar n xs) :
    ∃ ts : List Tree, ts.length = n ∧ WFL ar ts ∧ preorderL ts = xs := by
  induction xs generalizing n with
  | nil =>
    refine ⟨[], ?_, trivial, rfl⟩
    have := h.1; simp [dang] at this; simp; omega
  | cons x xs ih =>
    have hn : 0 < n := by
      have := h.2 [] (x :: xs) rfl (by simp)
      simp [dang] at this; omega
    obtain ⟨m, rfl⟩ : ∃ m, n = m + 1 := ⟨n - 1, by omega⟩
    have hx : Exact ar ((ar x + m : Nat) : Int) xs := by
      constructor
      · have := h.1
        simp only [dang] at this
        rw [← this]; congr 1; omega
      · intro p q hpq hq
        have := h.2 (x :: p) q (by simp [hpq]) hq
        simp only [dang] at this
        have e : (((ar x + m : Nat) : Int)) = ((m + 1 : Nat) : Int) + ((ar x : Int) - 1) := by omega
        rw [e]; exact this
    obtain ⟨ts, hl, hw, hp⟩ := ih _ hx
    refine ⟨node x (ts.take (ar x)) :: ts.drop (ar x), ?_, ?_, ?_⟩
    · simp; omega
    · have := (WFL_append (ar := ar) (as := ts.take (ar x)) (bs := ts.drop (ar x))).1 (by simpa using hw)
      refine ⟨⟨by simp; omega, this.1⟩, this.2⟩
    · simp only [preorderL, preorder, List.cons_append]
      rw [← preorderL_append, List.take_append_drop, hp]

open Tree in
theorem exact_preorderL (ar : Nat → Nat) (ts : List Tree) (h : WFL ar ts) :
    Exact ar ts.length (preorderL ts) := by
  have key : ∀ t : Tree, WF ar t → ∀ p q : List Nat, t.preorder = p ++ q → q ≠ [] → ∀ d : Int, d - 1 < dang ar d p := by
    intro t
    induction t using Tree.induct with
    | h t cs ih =>
      intro hw p q hpq hq d
      simp only [WF] at hw
      obtain ⟨hl, hw⟩ := hw
      have aux : ∀ cs : List Tree, (∀ c ∈ cs, WF ar c → ∀ p q : List Nat, c.preorder = p ++ q → q ≠ [] → ∀ d : Int, d - 1 < dang ar d p) →
          WFL ar cs → ∀ p q : List Nat, preorderL cs = p ++ q → q ≠ [] → ∀ d : Int, d - cs.length < dang ar d p := by
        intro cs
        induction cs with
        | nil => intro _ _ p q h hq; simp [preorderL] at h; simp [h] at hq
        | cons c cs ihc =>
          intro h1 h2 p q h hq d
          simp only [WFL] at h2
          simp only [preorderL] at h
          rcases List.append_eq_append_iff.1 h with ⟨a, ha, hb⟩ | ⟨a, ha, hb⟩
          · subst ha
            rw [dang_append, dang_preorder ar c h2.1]
            have := ihc (fun c hc => h1 c (by simp [hc])) h2.2 a q hb hq (d - 1)
            simp; omega
          · by_cases hane : a = []
            · subst hane
              simp at ha hb
              subst ha
              rw [dang_preorder ar c h2.1]
              have hcs : cs ≠ [] := by
                rintro rfl
                simp [preorderL] at hb
                exact hq hb
              have : 0 < cs.length := List.length_pos_iff.2 hcs
              simp; omega
            · have := h1 c (by simp) h2.1 p a ha hane d
              simp; omega
      cases p with
      | nil => simp [dang]; omega
      | cons x p =>
        simp only [preorder, List.cons_append, List.cons.injEq] at hpq
        obtain ⟨rfl, hpq⟩ := hpq
        have := aux cs ih hw p q hpq hq (d + ((ar t : Int) - 1))
        simp only [dang]; omega
  refine ⟨?_, ?_⟩
  · rw [dang_preorderL ar ts h]; omega
  · intro p q hpq hq
    induction ts generalizing p with
    | nil => simp [preorderL] at hpq; simp [hpq] at hq
    | cons c cs ihc =>
      simp only [WFL] at h
      simp only [preorderL] at hpq
      rcases List.append_eq_append_iff.1 hpq with ⟨a, ha, hb⟩ | ⟨a, ha, hb⟩
      · subst ha
        rw [dang_append, dang_preorder ar c h.1]
        have := ihc h.2 a hb
        have e : ((c :: cs).length : Int) - 1 = cs.length := by simp
        rw [e]; exact this
      · by_cases hane : a = []
        · subst hane
          simp at ha hb
          subst ha
          rw [dang_preorder ar c h.1]
          have hcs : cs ≠ [] := by
            rintro rfl
            simp [preorderL] at hb
            exact hq hb
          have : 0 < cs.length := List.length_pos_iff.2 hcs
          simp; omega
        · have := key c h.1 p a ha hane (c :: cs).length
          simp at this ⊢; omega

open Tree in
theorem exact_preorder (ar : Nat → Nat) (t : Tree) (h : WF ar t) : Exact ar 1 t.preorder := by
  have := exact_preorderL ar [t] (by simpa [WFL] using h)
  simpa [preorderL] using this

/-- Two exact fillings that are comparable as prefixes are equal. -/
theorem exact_prefix_unique (ar : Nat → Nat) (d : Int) {xs ys zs ws : List Nat}
    (hx : Exact ar d xs) (hy : Exact ar d ys) (h : xs ++ zs = ys ++ ws) : xs = ys := by
  rcases List.append_eq_append_iff.1 h with ⟨a, ha, hb⟩ | ⟨a, ha, hb⟩
  · by_cases e : a = []
    · simp [ha, e]
    · have := hy.2 xs a ha e
      have := hx.1; omega
  · by_cases e : a = []
    · simp [ha, e]
    · have := hx.2 ys a ha e
      have := hy.1; omega

open Tree in
/-- Unique readability. -/
theorem preorderL_inj (ar : Nat → Nat) {as bs : List Tree} (ha : WFL ar as) (hb : WFL ar bs)
    (h : preorderL as = preorderL bs) : as = bs := by
  have key : ∀ n (as bs : List Tree), (preorderL as).length ≤ n → WFL ar as → WFL ar bs →
      preorderL as = preorderL bs → as = bs := by
    intro n
    induction n with
    | zero =>
      intro as bs hn ha hb h
      cases as with
      | nil =>
        cases bs with
        | nil => rfl
        | cons b bs => simp [preorderL, preorder_eq] at h
      | cons a as => simp [preorderL, preorder_eq] at hn
    | succ n ih =>
      intro as bs hn ha hb h
      cases as with
      | nil =>
        cases bs with
        | nil => rfl
        | cons b bs => simp [preorderL, preorder_eq] at h
      | cons a as =>
        cases bs with
        | nil => simp [preorderL, preorder_eq] at h
        | cons b bs =>
          obtain ⟨ta, ca⟩ := a
          obtain ⟨tb, cb⟩ := b
          simp only [WFL, WF] at ha hb
          simp only [preorderL, preorder, List.cons_append, List.cons.injEq] at h hn
          obtain ⟨rfl, h⟩ := h
          rw [← preorderL_append, ← preorderL_append] at h
          have e : ca ++ as = cb ++ bs := by
            refine ih _ _ ?_ (WFL_append.2 ⟨ha.1.2, ha.2⟩) (WFL_append.2 ⟨hb.1.2, hb.2⟩) h
            simp [preorderL_append] at hn ⊢; omega
          have hl : ca.length = cb.length := by omega
          obtain ⟨rfl, rfl⟩ := List.append_inj e hl
          rfl
  exact key _ as bs (Nat.le_refl _) ha hb h

open Tree in
theorem preorder_inj (ar : Nat → Nat) {a b : Tree} (ha : WF ar a) (hb : WF ar b)
    (h : a.preorder = b.preorder) : a = b := by
  have := preorderL_inj ar (as := [a]) (bs := [b]) (by simpa [WFL] using ha) (by simpa [WFL] using hb)
    (by simpa [preorderL] using h)
  simpa using this

end Verif.Discover
