import Verif.Discover.Regression
import Verif.Claims.Exec
/-! C90: predictions are made row by row.  C91: the reported numbers belong to the reported program. -/
namespace Verif.Discover.Regression.Claims
open Verif.Discover Verif.Discover.Regression Tree

variable {K : Type} {p : Nat}

/-! ### Specification: expressions and their value on one row -/

/-- An expression tree over the elements of a program. -/
inductive Expr (K : Type) where
  | mk (it : Item K) (args : List (Expr K))

mutual
/-- The elements in pre-order (the program's traversal). -/
def Expr.items : Expr K → List (Item K)
  | .mk it args => it :: itemsL args
def itemsL : List (Expr K) → List (Item K)
  | [] => []
  | e :: es => e.items ++ itemsL es
end

mutual
/-- Every element has as many operands as its arity. -/
def Expr.WF : Expr K → Prop
  | .mk it args => args.length = it.arity ∧ WFL args
def WFL : List (Expr K) → Prop
  | [] => True
  | e :: es => e.WF ∧ WFL es
end

mutual
/-- The value of the expression on one row of the table; `none` if a constant has no value, a variable does not
exist or an operator cannot be called. -/
def Expr.value (row : Fin p → K) : Expr K → Option K
  | .mk (.var i) _ => if h : i < p then some (row ⟨i, h⟩) else none
  | .mk (.const v) _ => v
  | .mk (.hard _ v) _ => some v
  | .mk (.op _ _ none) _ => none
  | .mk (.op _ _ (some f)) args => (valueL row args).map f
def valueL (row : Fin p → K) : List (Expr K) → Option (List K)
  | [] => some []
  | e :: es => match e.value row, valueL row es with
    | some v, some vs => some (v :: vs)
    | _, _ => none
end

/-! ### Lemmas -/

theorem Expr.induct {P : Expr K → Prop} (h : ∀ it args, (∀ a ∈ args, P a) → P (.mk it args)) : ∀ e, P e
  | .mk it args => h it args (fun c _ => Expr.induct h c)

mutual
def posTree (k : Nat) : Expr K → Tree
  | .mk _ args => node k (posL (k + 1) args)
def posL (k : Nat) : List (Expr K) → List Tree
  | [] => []
  | e :: es => posTree k e :: posL (k + e.items.length) es
end

theorem posTree_preorder (e : Expr K) : ∀ k, (posTree k e).preorder = List.range' k e.items.length := by
  induction e using Expr.induct with
  | h it args ih =>
    intro k
    have key : ∀ es : List (Expr K), (∀ e ∈ es, e ∈ args) → ∀ k, preorderL (posL k es) = List.range' k (itemsL es).length := by
      intro es
      induction es with
      | nil => intro _ k; simp [posL, preorderL, itemsL]
      | cons e es ihes =>
        intro hm k
        simp only [posL, preorderL, itemsL, List.length_append]
        rw [ih e (hm e (by simp)), ihes (fun x hx => hm x (by simp [hx])), List.range'_append_1]
    simp only [posTree, preorder, Expr.items, List.length_cons, key args (fun _ h => h)]
    rw [List.range'_succ]

theorem posL_length (es : List (Expr K)) : ∀ k, (posL k es).length = es.length := by
  induction es with
  | nil => intro k; simp [posL]
  | cons e es ih => intro k; simp [posL, ih]

/-- The elements of `e` stand at position `k` of the traversal. -/
def At (tr : List (Item K)) (k : Nat) (is : List (Item K)) : Prop := ∀ j, j < is.length → tr[k + j]? = is[j]?

theorem At.left {tr : List (Item K)} {k : Nat} {a b : List (Item K)} (h : At tr k (a ++ b)) : At tr k a := by
  intro j hj
  rw [h j (by simp; omega), List.getElem?_append_left hj]

theorem At.right {tr : List (Item K)} {k : Nat} {a b : List (Item K)} (h : At tr k (a ++ b)) :
    At tr (k + a.length) b := by
  intro j hj
  have := h (a.length + j) (by simp; omega)
  rw [List.getElem?_append_right (by omega), Nat.add_sub_cancel_left] at this
  rw [← this]; congr 1; omega

theorem At.tail {tr : List (Item K)} {k : Nat} {a : Item K} {b : List (Item K)} (h : At tr k (a :: b)) :
    At tr (k + 1) b := At.right (a := [a]) h

theorem At.head {tr : List (Item K)} {k : Nat} {a : Item K} {b : List (Item K)} (h : At tr k (a :: b)) :
    tr[k]? = some a := by simpa using h 0 (by simp)

theorem posTree_WF (tr : List (Item K)) (e : Expr K) : ∀ k, e.WF → At tr k e.items →
    Tree.WF (arityAt tr) (posTree k e) := by
  induction e using Expr.induct with
  | h it args ih =>
    intro k hw ha
    simp only [Expr.WF] at hw
    simp only [Expr.items] at ha
    have key : ∀ es : List (Expr K), (∀ e ∈ es, e ∈ args) → ∀ k, WFL es → At tr k (itemsL es) →
        Tree.WFL (arityAt tr) (posL k es) := by
      intro es
      induction es with
      | nil => intro _ k _ _; simp [posL, Tree.WFL]
      | cons e es ihes =>
        intro hm k hw ha
        simp only [WFL] at hw
        simp only [itemsL] at ha
        simp only [posL, Tree.WFL]
        exact ⟨ih e (hm e (by simp)) k hw.1 ha.left, ihes (fun x hx => hm x (by simp [hx])) _ hw.2 ha.right⟩
    simp only [posTree, Tree.WF, posL_length]
    refine ⟨?_, key args (fun _ h => h) _ hw.2 ha.tail⟩
    simp [arityAt, ha.head, hw.1]

/-- A column has one entry per row. -/
def Fits (n : Nat) : Val K → Prop
  | .one _ => True
  | .col l => l.length = n

/-- The result of executing on the table agrees with the values on the rows. -/
def Agrees (X : Table p K) (r : Res (Val K)) (e : Expr K) : Prop :=
  match r with
  | .val v => Fits X.length v ∧ (∀ row : Fin p → K, (e.value row).isSome) ∧
      ∀ i row, X[i]? = some row → v.at i = e.value row
  | _ => ∀ row : Fin p → K, e.value row = none

def AgreesL (X : Table p K) (r : Sum (Res (Val K)) (List (Val K))) (es : List (Expr K)) : Prop :=
  match r with
  | .inr vs => (∀ v ∈ vs, Fits X.length v) ∧ (∀ row : Fin p → K, (valueL row es).isSome) ∧
      ∀ i row, X[i]? = some row → valueL row es = some (vs.filterMap (Val.at i))
  | .inl (.val _) => False
  | .inl _ => ∀ row : Fin p → K, valueL row es = none

theorem broadcast_fits (n : Nat) (f : List K → K) (vs : List (Val K)) : Fits n (broadcast n f vs) := by
  unfold broadcast
  by_cases h : vs.all Val.isOne
  · rw [if_pos h]; trivial
  · rw [if_neg h]; simp [Fits]

theorem broadcast_at (n : Nat) (f : List K → K) (vs : List (Val K)) (i : Nat) (hi : i < n) :
    (broadcast n f vs).at i = some (f (vs.filterMap (Val.at i))) := by
  unfold broadcast
  by_cases h : vs.all Val.isOne
  · rw [if_pos h]
    simp only [Val.at, Option.some.injEq]
    congr 1
    induction vs with
    | nil => rfl
    | cons v vs ih =>
      simp only [List.all_cons, Bool.and_eq_true] at h
      cases v with
      | one c => simp [Val.at, ih h.2]
      | col l => simp [Val.isOne] at h
  · rw [if_neg h]; simp [Val.at, hi]

theorem exec_agrees (tr : List (Item K)) (X : Table p K) (e : Expr K) : ∀ k fl, e.WF → At tr k e.items →
    Agrees X (evalT (applyCols tr X) fl (posTree k e)).1 e := by
  induction e using Expr.induct with
  | h it args ih =>
    intro k fl hw ha
    simp only [Expr.items] at ha
    simp only [Expr.WF] at hw
    have key : ∀ es : List (Expr K), (∀ e ∈ es, e ∈ args) → ∀ k fl, WFL es → At tr k (itemsL es) →
        AgreesL X (evalL (applyCols tr X) fl (posL k es)).1 es := by
      intro es
      induction es with
      | nil => intro _ k fl _ _; simp [posL, evalL, AgreesL, valueL]
      | cons e es ihes =>
        intro hm k fl hw ha
        simp only [itemsL] at ha
        simp only [WFL] at hw
        have h1 := ih e (hm e (by simp)) k fl hw.1 ha.left
        simp only [posL, evalL]
        cases hev : evalT (applyCols tr X) fl (posTree k e) with
        | mk r fl1 =>
          rw [hev] at h1
          cases r with
          | retNone =>
            simp only [Agrees] at h1
            simp [AgreesL, valueL, h1]
          | raise =>
            simp only [Agrees] at h1
            simp [AgreesL, valueL, h1]
          | val v =>
            have h2 := ihes (fun x hx => hm x (by simp [hx])) (k + e.items.length) fl1 hw.2 ha.right
            simp only [Agrees] at h1
            obtain ⟨g1, g2, g3⟩ := h1
            cases hev2 : evalL (applyCols tr X) fl1 (posL (k + e.items.length) es) with
            | mk r2 fl2 =>
              rw [hev2] at h2
              simp only [hev2]
              cases r2 with
              | inl r2 =>
                cases r2 with
                | val v => exact h2.elim
                | retNone =>
                  simp only [AgreesL] at h2
                  simp only [AgreesL, valueL, h2]
                  intro row; cases e.value row <;> rfl
                | raise =>
                  simp only [AgreesL] at h2
                  simp only [AgreesL, valueL, h2]
                  intro row; cases e.value row <;> rfl
              | inr vs =>
                simp only [AgreesL] at h2
                obtain ⟨q1, q2, q3⟩ := h2
                simp only [AgreesL, valueL]
                refine ⟨?_, fun row => ?_, fun i row hrow => ?_⟩
                · intro w hw
                  rcases List.mem_cons.1 hw with rfl | hw
                  · exact g1
                  · exact q1 w hw
                · have a := g2 row
                  have b := q2 row
                  revert a b
                  cases e.value row <;> cases valueL row es <;> simp
                · have a := g3 i row hrow
                  have b := q3 i row hrow
                  have c := g2 row
                  rw [b]
                  cases hv : e.value row with
                  | none => rw [hv] at c; cases c
                  | some x => rw [hv] at a; simp [a]
    have hargs := key args (fun _ h => h) (k + 1) fl hw.2 ha.tail
    -- an element without operands never fails on its operands
    have hleaf : ∀ r fl1, evalL (applyCols tr X) fl (posL (k + 1) args) = (.inl r, fl1) →
        (∀ row : Fin p → K, valueL row args = none) → ∀ row : Fin p → K, (Expr.mk it args).value row = none := by
      intro r fl1 h hn row
      have hne : args ≠ [] := by rintro rfl; simp [posL, evalL] at h
      have hl := List.length_pos_iff.2 hne
      cases it with
      | var i => simp [Item.arity] at hw; exact absurd hw.1 hne
      | const v => simp [Item.arity] at hw; exact absurd hw.1 hne
      | hard n v => simp [Item.arity] at hw; exact absurd hw.1 hne
      | op n a f => cases f <;> simp [Expr.value, hn row]
    simp only [posTree, evalT]
    cases hev : evalL (applyCols tr X) fl (posL (k + 1) args) with
    | mk r fl1 =>
      rw [hev] at hargs
      cases r with
      | inl r =>
        cases r with
        | val v => exact hargs.elim
        | retNone => exact hleaf _ _ hev hargs
        | raise => exact hleaf _ _ hev hargs
      | inr vs =>
        simp only [AgreesL] at hargs
        obtain ⟨q1, q2, q3⟩ := hargs
        simp only [applyCols, ha.head]
        cases it with
        | var i =>
          simp only [column]
          by_cases hi : i < p
          · simp only [dif_pos hi, Agrees, Fits, List.length_map, Expr.value, true_and]
            refine ⟨by simp, fun j row hrow => ?_⟩
            simp [Val.at, hrow]
          · simp [dif_neg hi, Agrees, Expr.value]
        | const v => cases v <;> simp [Agrees, Fits, Expr.value, Val.at]
        | hard n v => simp [Agrees, Fits, Expr.value, Val.at]
        | op n a f =>
          cases f with
          | none => simp [Agrees, Expr.value]
          | some f =>
            simp only [Agrees, Expr.value]
            refine ⟨broadcast_fits _ _ _, fun row => by simpa using q2 row, fun i row hrow => ?_⟩
            have hi : i < X.length := by
              rcases Nat.lt_or_ge i X.length with h | h
              · exact h
              · rw [List.getElem?_eq_none h] at hrow; cases hrow
            rw [broadcast_at _ _ _ _ hi, q3 i row hrow]; rfl

theorem executeDirect_spec (hp : 0 < p) (e : Expr K) (hw : e.WF) (X : Table p K) :
    match executeDirect e.items X with
    | .val ys => X.map (fun row => e.value row) = ys.map some ∧ ∀ row : Fin p → K, (e.value row).isSome
    | _ => ∀ row : Fin p → K, e.value row = none := by
  have ha : At e.items 0 e.items := fun j _ => by simp
  have h1 : execute (arityAt e.items) (applyCols e.items X) (List.range e.items.length) =
      (evalT (applyCols e.items X) none (posTree 0 e)).1 := by
    have := exec_tree (arityAt e.items) (applyCols e.items X) (posTree 0 e) (posTree_WF e.items e 0 hw ha) none [] []
    rw [List.append_nil, posTree_preorder, ← List.range_eq_range'] at this
    unfold execute
    rw [this]
    cases h : evalT (applyCols e.items X) none (posTree 0 e) with
    | mk r fl => cases r <;> simp [feed]
  have h2 := exec_agrees e.items X e 0 none hw ha
  unfold executeDirect
  rw [h1]
  cases hr : (evalT (applyCols e.items X) none (posTree 0 e)).1 with
  | retNone => rw [hr] at h2; exact h2
  | raise => rw [hr] at h2; exact h2
  | val v =>
    rw [hr] at h2
    simp only [Agrees] at h2
    obtain ⟨g1, g2, g3⟩ := h2
    cases v with
    | one c =>
      simp only [if_neg (Nat.pos_iff_ne_zero.1 hp)]
      refine ⟨?_, g2⟩
      apply List.ext_getElem? 
      intro i
      simp only [List.getElem?_map]
      cases hx : X[i]? with
      | none => rfl
      | some row => simp [← g3 i row hx, Val.at]
    | col l =>
      simp only
      refine ⟨?_, g2⟩
      simp only [Fits] at g1
      apply List.ext_getElem? 
      intro i
      simp only [List.getElem?_map]
      cases hx : X[i]? with
      | none =>
        have : l.length ≤ i := by rw [g1]; exact List.getElem?_eq_none_iff.1 hx
        simp [List.getElem?_eq_none this]
      | some row =>
        have hi : i < l.length := by
          rw [g1]
          rcases Nat.lt_or_ge i X.length with h | h
          · exact h
          · rw [List.getElem?_eq_none h] at hx; cases hx
        have := g3 i row hx
        simp only [Val.at, List.getElem?_eq_getElem hi] at this
        simp [← this, List.getElem?_eq_getElem hi]

/-! ### C90 -/

/-- **C90** Predictions of a fitted estimator: for every table with the right number of features and every program
that is a complete expression of elementwise operators, the prediction of each row is the value of the expression on
that row (constants are repeated); if prediction fails, the expression has no value on any row. -/
theorem C90_rowwise (hp : 0 < p) (e : Expr K) (hw : e.WF) (P : Prog K) (hP : P.items = e.items) (X : Table p K) :
    match predict (some (p, P)) X with
    | .ok ys => X.map (fun row => e.value row) = ys.map some ∧ ∀ row : Fin p → K, (e.value row).isSome
    | .error _ => ∀ row : Fin p → K, e.value row = none := by
  have h := executeDirect_spec hp e hw X
  unfold predict
  simp only [ne_eq, not_true_eq_false, if_false, hP]
  cases hd : executeDirect e.items X <;> rw [hd] at h <;> exact h

/-- **C90** Rows do not influence each other: predicting two tables at once is predicting them one after the other. -/
theorem C90_append (hp : 0 < p) (e : Expr K) (hw : e.WF) (P : Prog K) (hP : P.items = e.items) (X Y : Table p K)
    (xs ys : List K) (hX : predict (some (p, P)) X = .ok xs) (hY : predict (some (p, P)) Y = .ok ys) :
    predict (some (p, P)) (X ++ Y) = .ok (xs ++ ys) := by
  have h1 := C90_rowwise hp e hw P hP X
  have h2 := C90_rowwise hp e hw P hP Y
  have h3 := C90_rowwise hp e hw P hP (X ++ Y)
  rw [hX] at h1
  rw [hY] at h2
  cases h : predict (some (p, P)) (X ++ Y) with
  | error err =>
    rw [h] at h3
    exfalso
    have hrow : (∃ r : Fin p → K, True) ∨ (X = [] ∧ Y = []) := by
      cases X with
      | cons r _ => exact .inl ⟨r, trivial⟩
      | nil => cases Y with
        | cons r _ => exact .inl ⟨r, trivial⟩
        | nil => exact .inr ⟨rfl, rfl⟩
    rcases hrow with ⟨r, _⟩ | ⟨rfl, rfl⟩
    · have := h1.2 r
      rw [h3 r] at this
      cases this
    · rw [List.append_nil, hX] at h
      cases h
  | ok zs =>
    rw [h] at h3
    have := h3.1
    rw [List.map_append, h1.1, h2.1, ← List.map_append] at this
    have : zs = xs ++ ys := by
      have h4 := congrArg (List.filterMap id) this
      simpa [List.filterMap_map] using h4.symm
    rw [this]

/-- **C90** A table with another number of features, or an unfitted estimator, is refused. -/
theorem C90_refused (n q : Nat) (P : Prog K) (X : Table q K) :
    (q ≠ n → predict (some (n, P)) X = .error .value) ∧ predict (none : Option (Nat × Prog K)) X = .error .runtime := by
  constructor
  · intro h; simp [predict, h]
  · rfl

/-- **C90** (inputs): `fit` takes a table exactly if there is one target per row and, if names are given, one name per feature; the names are those given,
otherwise x1, x2, … in order. -/
theorem C90_inputs {q : Nat} (X : Table q K) (y : List K) (names : Option (List String)) (r : List String) :
    validate X y names = .ok r ↔ X.length = y.length ∧ r.length = q ∧
      ((∃ ns, names = some ns ∧ r = ns) ∨ names = none ∧ ∀ i < q, r[i]? = some ("x" ++ toString (i + 1))) := by
  have hdef : ∀ r : List String, r = ((List.range q).map fun i => "x" ++ toString (i + 1)) ↔
      r.length = q ∧ ∀ i < q, r[i]? = some ("x" ++ toString (i + 1)) := by
    intro r
    constructor
    · rintro rfl
      exact ⟨by simp, fun i hi => by simp [hi]⟩
    · rintro ⟨h1, h2⟩
      apply List.ext_getElem?
      intro i
      by_cases hi : i < q
      · rw [h2 i hi]; simp [hi]
      · rw [List.getElem?_eq_none (by omega), List.getElem?_eq_none (by simp; omega)]
  unfold validate
  by_cases hl : X.length = y.length
  · rw [if_neg (by simpa using hl)]
    cases names with
    | none =>
      constructor
      · intro h
        have := (hdef r).1 (Except.ok.inj h).symm
        exact ⟨hl, this.1, .inr ⟨rfl, this.2⟩⟩
      · rintro ⟨_, h1, ⟨ns, h, _⟩ | ⟨_, h2⟩⟩
        · nomatch h
        · exact congrArg Except.ok ((hdef r).2 ⟨h1, h2⟩).symm
    | some ns =>
      by_cases hn : ns.length = q
      · simp only [hn, ne_eq, not_true, if_false]
        constructor
        · intro h
          have := Except.ok.inj h
          exact ⟨hl, this ▸ hn, .inl ⟨ns, rfl, this.symm⟩⟩
        · rintro ⟨_, _, ⟨ns', h, rfl⟩ | ⟨h, _⟩⟩
          · rw [Option.some.inj h]
          · nomatch h
      · simp only [ne_eq, hn, not_false_iff, if_true]
        constructor
        · intro h; nomatch h
        · rintro ⟨_, h1, ⟨ns', h, rfl⟩ | ⟨h, _⟩⟩
          · exact absurd (Option.some.inj h ▸ h1) hn
          · nomatch h
  · rw [if_pos hl]
    constructor
    · intro h; nomatch h
    · rintro ⟨h, _⟩; exact absurd h hl

/-- A table of two rows with two features and its default names. -/
example : validate (K := Nat) (q := 2) [fun _ => 1, fun _ => 2] [3, 4] none = .ok ["x1", "x2"] := by
  rw [C90_inputs]
  refine ⟨rfl, rfl, .inr ⟨rfl, ?_⟩⟩
  intro i hi
  match i, hi with
  | 0, _ => rfl
  | 1, _ => rfl

/-! ### C91 -/

/-- The constants of a program are the only thing that changes. -/
theorem setConstants_full (is : List (Item K)) : ∀ (as bs : List K), as.length ≤ bs.length →
    setConstants (setConstants is as) bs = setConstants is bs := by
  induction is with
  | nil => intro as bs h; cases as <;> cases bs <;> simp [setConstants] at *
  | cons i is ih =>
    intro as bs h
    cases bs with
    | nil =>
      have : as = [] := by cases as <;> simp_all
      subst this; rfl
    | cons b bs =>
      cases as with
      | nil => rfl
      | cons a as =>
        simp only [List.length_cons] at h
        cases i with
        | const v => simp only [setConstants]; rw [ih as bs (by omega)]
        | var n => simp only [setConstants]; rw [ih (a :: as) (b :: bs) (by simp; omega)]
        | hard n v => simp only [setConstants]; rw [ih (a :: as) (b :: bs) (by simp; omega)]
        | op n m f => simp only [setConstants]; rw [ih (a :: as) (b :: bs) (by simp; omega)]

theorem constCount_set (is : List (Item K)) : ∀ cs, constCount (setConstants is cs) = constCount is := by
  induction is with
  | nil => intro cs; cases cs <;> simp [setConstants]
  | cons i is ih => intro cs; cases cs <;> cases i <;> simp [setConstants, constCount, ih]

theorem length_set (is : List (Item K)) : ∀ cs, (setConstants is cs).length = is.length := by
  induction is with
  | nil => intro cs; cases cs <;> simp [setConstants]
  | cons i is ih => intro cs; cases cs <;> cases i <;> simp [setConstants, ih]

theorem getConstants_set (is : List (Item K)) : ∀ cs, cs.length = constCount is →
    getConstants (setConstants is cs) = cs := by
  induction is with
  | nil => intro cs h; simp [constCount] at h; subst h; rfl
  | cons i is ih =>
    intro cs h
    cases i with
    | const v =>
      cases cs with
      | nil => simp [constCount] at h
      | cons c cs =>
        simp only [constCount, List.length_cons, Nat.add_right_cancel_iff] at h
        simp [setConstants, getConstants, ih cs h]
    | var n =>
      simp only [constCount] at h
      cases cs with
      | nil =>
        have := ih [] h
        simp [setConstants, getConstants] at this ⊢; exact this
      | cons c cs => simp [setConstants, getConstants, ih _ h]
    | hard n v =>
      simp only [constCount] at h
      cases cs with
      | nil =>
        have := ih [] h
        simp [setConstants, getConstants] at this ⊢; exact this
      | cons c cs => simp [setConstants, getConstants, ih _ h]
    | op n m f =>
      simp only [constCount] at h
      cases cs with
      | nil =>
        have := ih [] h
        simp [setConstants, getConstants] at this ⊢; exact this
      | cons c cs => simp [setConstants, getConstants, ih _ h]

theorem optimise_idem (T : Task p K) (is : List (Item K)) : optimise T (optimise T is) = optimise T is := by
  unfold optimise
  by_cases h : constCount is = 0
  · simp [h]
  · rw [if_neg h]
    generalize hk : constCount is = k at *
    have h2 : constCount (setConstants is (List.ofFn (T.opt k fun cs => mseFunction T (setConstants is (List.ofFn cs))))) = k := by
      rw [constCount_set, hk]
    generalize hc : (List.ofFn (T.opt k fun cs => mseFunction T (setConstants is (List.ofFn cs)))) = c at *
    have hl : c.length = k := by rw [← hc]; simp
    rw [if_neg (by rw [h2]; exact h)]
    subst hk
    rw [h2]
    have : (fun cs : Fin (constCount is) → K => mseFunction T (setConstants (setConstants is c) (List.ofFn cs))) =
        fun cs => mseFunction T (setConstants is (List.ofFn cs)) := by
      funext cs
      rw [setConstants_full _ _ _ (by simp [hl])]
    rw [this, hc, setConstants_full _ _ _ (Nat.le_refl _)]

/-- The history does not assign constants from outside (`from_str_tokens` of the same expression with numbers). -/
def NoAssign (h : List (Act p K)) : Prop := ∀ cs, Act.setConstants cs ∉ h

/-- Where a program object can be after such a history. -/
def Inv (T : Task p K) (is : List (Item K)) (P : Prog K) : Prop :=
  (P = Prog.fresh is) ∨
  (P.items = optimise T is ∧
    (P.reward = none ∨ P.reward = some (match onTrain T (optimise T is) with
      | some ys => T.metric T.y ys (optimise T is).length
      | none => T.invalidReward)) ∧
    (P.mse = none ∨ P.mse = some ((onTrain T (optimise T is)).map (T.mse T.y))))

theorem getReward_inv (T : Task p K) (is : List (Item K)) (P : Prog K) (h : Inv T is P) :
    Inv T is (P.getReward T).1 ∧ (P.getReward T).2 = (match onTrain T (optimise T is) with
      | some ys => T.metric T.y ys (optimise T is).length
      | none => T.invalidReward) ∧ (P.getReward T).1.reward = some (P.getReward T).2 ∧
      (P.getReward T).1.items = optimise T is ∧ (P.getReward T).1.mse = P.mse := by
  rcases h with rfl | ⟨h1, h2, h3⟩
  · refine ⟨.inr ⟨rfl, .inr rfl, .inl rfl⟩, rfl, rfl, rfl, rfl⟩
  · unfold Prog.getReward
    rcases h2 with h2 | h2
    · rw [h2]
      simp only [h1, optimise_idem]
      refine ⟨.inr ⟨rfl, .inr rfl, h3⟩, ?_, ?_, ?_, ?_⟩ <;> first | rfl | trivial
    · rw [h2]
      exact ⟨.inr ⟨h1, .inr h2, h3⟩, rfl, h2, h1, rfl⟩

theorem getMse_inv (T : Task p K) (is : List (Item K)) (P : Prog K) (h : Inv T is P) :
    Inv T is (P.getMse T).1 ∧ (P.getMse T).2 = (onTrain T (optimise T is)).map (T.mse T.y) ∧
      (P.getMse T).1.mse = some (P.getMse T).2 ∧ (P.getMse T).1.items = optimise T is ∧
      (P.getMse T).1.reward = P.reward := by
  rcases h with rfl | ⟨h1, h2, h3⟩
  · refine ⟨.inr ⟨rfl, .inl rfl, .inr rfl⟩, rfl, rfl, rfl, rfl⟩
  · unfold Prog.getMse
    rcases h3 with h3 | h3
    · rw [h3]
      have hi : (if P.reward.isSome = true then P.items else optimise T P.items) = optimise T is := by
        rw [h1, optimise_idem]; split <;> rfl
      simp only [hi]
      refine ⟨.inr ⟨rfl, h2, .inr rfl⟩, ?_, ?_, ?_, ?_⟩ <;> first | rfl | trivial
    · rw [h3]
      exact ⟨.inr ⟨h1, h2, .inr h3⟩, rfl, h3, h1, rfl⟩

theorem acts_inv (T : Task p K) (is : List (Item K)) (h : List (Act p K)) : ∀ P, Inv T is P → NoAssign h →
    Inv T is (P.acts T h) := by
  induction h with
  | nil => intro P hP _; exact hP
  | cons a h ih =>
    intro P hP hn
    have : P.acts T (a :: h) = (P.act T a).acts T h := rfl
    rw [this]
    apply ih _ _ (fun cs hc => hn cs (List.mem_cons_of_mem _ hc))
    cases a with
    | reward => exact (getReward_inv T is P hP).1
    | mse => exact (getMse_inv T is P hP).1
    | predict X => exact hP
    | setConstants cs => exact (hn cs List.mem_cons_self).elim

/-- **C91** Whatever was done with a program before (short of assigning it constants), the reward, error and constants that
`fit` reports are those of the program's own predictions on the training data, with the constants it predicts with. -/
theorem C91_consistent_partial (T : Task p K) (is : List (Item K)) (h : List (Act p K)) (hn : NoAssign h)
    (F : FitResult K) (hF : report T ((Prog.fresh is).acts T h) = .ok F) :
    ∃ ys, predict (some (p, F.program)) T.X = .ok ys ∧
      F.reward = T.metric T.y ys is.length ∧ F.mse = T.mse T.y ys ∧
      F.constants = getConstants F.program.items := by
  have hi := acts_inv T is h _ (.inl rfl) hn
  obtain ⟨a1, a2, a3, a4, a5⟩ := getReward_inv T is _ hi
  obtain ⟨b1, b2, b3, b4, b5⟩ := getMse_inv T is _ a1
  unfold report at hF
  simp only at hF
  rw [b2] at hF
  cases ht : onTrain T (optimise T is) with
  | none => simp [ht] at hF
  | some ys =>
    rw [ht] at hF a2
    simp only [Option.map_some, Except.ok.injEq] at hF
    subst hF
    have hl : (optimise T is).length = is.length := by
      unfold optimise; split
      · rfl
      · exact length_set _ _
    refine ⟨ys, ?_, ?_, rfl, rfl⟩
    · unfold predict
      simp only [ne_eq, not_true_eq_false, if_false, b4]
      unfold onTrain at ht
      cases hd : executeDirect (optimise T is) T.X with
      | retNone => simp [hd] at ht
      | raise => simp [hd] at ht
      | val zs =>
        simp only [hd] at ht
        by_cases hf : T.fpError (optimise T is) T.X = true
        · simp [hf] at ht
        · simp only [hf] at ht
          simp at ht
          rw [ht]
    · simp only [a2, hl]

/-- **C91** Nothing done with the program later (short of assigning it constants) changes its constants, its reward or its
error, so they keep describing its predictions. -/
theorem C91_stays_partial (T : Task p K) (is : List (Item K)) (h h' : List (Act p K)) (hn : NoAssign h) (hn' : NoAssign h')
    (F : FitResult K) (hF : report T ((Prog.fresh is).acts T h) = .ok F) :
    F.program.acts T h' = F.program ∧ F.program.reward = some F.reward ∧ F.program.mse = some (some F.mse) := by
  have hi := acts_inv T is h _ (.inl rfl) hn
  obtain ⟨a1, a2, a3, a4, a5⟩ := getReward_inv T is _ hi
  obtain ⟨b1, b2, b3, b4, b5⟩ := getMse_inv T is _ a1
  unfold report at hF
  simp only at hF
  cases hm : ((((Prog.fresh is).acts T h).getReward T).1.getMse T).2 with
  | none => simp [hm] at hF
  | some m =>
    simp only [hm, Except.ok.injEq] at hF
    subst hF
    have hr : ((((Prog.fresh is).acts T h).getReward T).1.getMse T).1.reward =
        some (((Prog.fresh is).acts T h).getReward T).2 := by rw [b5, a3]
    rw [hm] at b3
    refine ⟨?_, hr, b3⟩
    generalize ((((Prog.fresh is).acts T h).getReward T).1.getMse T).1 = P at hr b3 ⊢
    induction h' with
    | nil => rfl
    | cons a h' ih =>
      have hs : P.act T a = P := by
        cases a with
        | reward => simp [Prog.act, Prog.getReward, hr]
        | mse => simp [Prog.act, Prog.getMse, b3]
        | predict X => rfl
        | setConstants cs => exact (hn' cs List.mem_cons_self).elim
      have : P.acts T (a :: h') = (P.act T a).acts T h' := rfl
      rw [this, hs]
      exact ih (fun cs hc => hn' cs (List.mem_cons_of_mem _ hc))

theorem best_constants (le : K → K → Prop) (T : Task p K) (hopt : ∀ (k : Nat) (f : (Fin k → K) → K) (c : Fin k → K), le (f (T.opt k f)) (f c))
    (is : List (Item K)) (h : List (Act p K)) (hn : NoAssign h) (hk : constCount is ≠ 0)
    (F : FitResult K) (hF : report T ((Prog.fresh is).acts T h) = .ok F) (cs : Fin (constCount is) → K) :
    le F.mse (mseFunction T (setConstants is (List.ofFn cs))) := by
  have hi := acts_inv T is h _ (.inl rfl) hn
  obtain ⟨a1, a2, a3, a4, a5⟩ := getReward_inv T is _ hi
  obtain ⟨b1, b2, b3, b4, b5⟩ := getMse_inv T is _ a1
  unfold report at hF
  simp only at hF
  rw [b2] at hF
  cases ht : onTrain T (optimise T is) with
  | none => simp [ht] at hF
  | some ys =>
    rw [ht] at hF
    simp only [Option.map_some, Except.ok.injEq] at hF
    subst hF
    have := hopt (constCount is) (fun cs => mseFunction T (setConstants is (List.ofFn cs))) cs
    have he : mseFunction T (optimise T is) = T.mse T.y ys := by simp [mseFunction, ht]
    unfold optimise at he
    rw [if_neg hk] at he
    rw [he] at this
    exact this

/-- **C91** With an optimiser that finds a minimum, no other constants give the program a smaller error on the training
data: whatever constants are tried, if the program with them has valid predictions there, their mean squared error is not smaller than
the reported one; invalid constants count as infinite error. -/
theorem C91_best_constants (le : K → K → Prop) (T : Task p K) (hopt : ∀ (k : Nat) (f : (Fin k → K) → K) (c : Fin k → K), le (f (T.opt k f)) (f c))
    (is : List (Item K)) (h : List (Act p K)) (hn : NoAssign h) (hk : constCount is ≠ 0)
    (F : FitResult K) (hF : report T ((Prog.fresh is).acts T h) = .ok F) (cs : Fin (constCount is) → K) :
    (∀ ys, predict (some (p, Prog.fresh (setConstants is (List.ofFn cs)))) T.X = .ok ys →
      T.fpError (setConstants is (List.ofFn cs)) T.X = false → le F.mse (T.mse T.y ys)) ∧
    ((∀ ys, predict (some (p, Prog.fresh (setConstants is (List.ofFn cs)))) T.X ≠ .ok ys) ∨
      T.fpError (setConstants is (List.ofFn cs)) T.X = true → le F.mse T.inf) := by
  have := best_constants le T hopt is h hn hk F hF cs
  unfold mseFunction onTrain at this
  unfold predict Prog.fresh
  simp only [ne_eq, not_true_eq_false, if_false]
  generalize setConstants is (List.ofFn cs) = q at *
  cases hx : executeDirect q T.X with
  | val ys =>
    rw [hx] at this
    cases hf : T.fpError q T.X with
    | false =>
      simp only [hf, Bool.false_eq_true, if_false] at this
      refine ⟨fun ys' h _ => ?_, fun h => ?_⟩
      · cases h; exact this
      · rcases h with h | h
        · exact absurd rfl (h ys)
        · cases h
    | true =>
      simp only [hf, if_true] at this
      exact ⟨fun _ _ h => by simp at h, fun _ => this⟩
  | retNone => rw [hx] at this; exact ⟨fun _ h => by simp at h, fun _ => this⟩
  | raise => rw [hx] at this; exact ⟨fun _ h => by simp at h, fun _ => this⟩

/-- **C91** `fit` cannot report (it raises a `TypeError`) exactly when the best program found is invalid on the training data. -/
theorem C91_report_fails_iff (T : Task p K) (is : List (Item K)) (h : List (Act p K)) (hn : NoAssign h) :
    report T ((Prog.fresh is).acts T h) = .error .type ↔ onTrain T (optimise T is) = none := by
  have hi := acts_inv T is h _ (.inl rfl) hn
  obtain ⟨a1, a2, a3, a4, a5⟩ := getReward_inv T is _ hi
  obtain ⟨b1, b2, b3, b4, b5⟩ := getMse_inv T is _ a1
  unfold report
  simp only
  rw [b2]
  cases onTrain T (optimise T is) <;> simp

/-- **C91, counterexample** After `from_str_tokens` of the same expression with other numbers, the (shared) program predicts with the new
numbers but still shows the old reward and error: for every program that has been scored and every numbers. -/
theorem C91_stale_counterexample (T : Task p K) (P : Prog K) (r : K) (m : Option K) (hr : P.reward = some r) (hm : P.mse = some m)
    (cs : List K) (hc : cs.length = constCount P.items) :
    let Q := P.acts T [.setConstants cs]
    getConstants Q.items = cs ∧ (Q.getReward T).2 = r ∧ (Q.getMse T).2 = m := by
  refine ⟨getConstants_set _ _ hc, ?_, ?_⟩
  · simp [Prog.acts, Prog.act, Prog.getReward, hr]
  · simp [Prog.acts, Prog.act, Prog.getMse, hm]

/-! ### The hypotheses are met -/

private def exExpr : Expr Int :=
  .mk (.op "add" 2 (some List.sum)) [.mk (.op "mul" 2 (some fun l => l.foldl (· * ·) 1)) [.mk (.const none) [], .mk (.var 1) []],
    .mk (.hard "2.0" 2) []]

/-- `const * x2 + 2` on `x2 = 1, 2, 3` with targets 5, 8, 11; the "optimiser" tries 0 … 9. -/
private def exTask : Task 2 Int where
  X := [fun i => i.val, fun i => 2 * i.val, fun i => 3 * i.val]
  y := [5, 8, 11]
  metric := fun y z _ => 100 - (List.zipWith (fun a b => (a - b) * (a - b)) y z).sum
  mse := fun y z => (List.zipWith (fun a b => (a - b) * (a - b)) y z).sum
  invalidReward := 0
  inf := 1000000
  opt := fun k f => ((List.range 10).map fun (j : Nat) => (fun _ : Fin k => (j : Int))).foldl (fun b c => if f c < f b then c else b) (fun _ => 1)
  fpError := fun _ _ => false

private def brief : Except Err (FitResult Int) → Option (List Int × Int × Int)
  | .ok F => some (F.constants, F.reward, F.mse)
  | .error _ => none

example : exExpr.WF := by simp [exExpr, Expr.WF, WFL, Item.arity]
example : brief (report exTask ((Prog.fresh exExpr.items).acts exTask [.mse, .predict exTask.X])) = some ([3], 100, 0) := by
  decide +kernel
example : (match predict (some (2, (⟨setConstants exExpr.items [3], none, none⟩ : Prog Int))) exTask.X with
    | .ok l => l | .error _ => []) = [5, 8, 11] := by decide +kernel

end Verif.Discover.Regression.Claims
