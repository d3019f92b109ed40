import Verif.Sga.InputDim

/-! C206: a network with another number of inputs than there are axes is refused. -/

namespace Verif.Sga.InputDim.Claims

open Verif.Sga.InputDim

/-- What the network declares: an attribute with a number (`in_features`, `input_dim`, `n_features` or `num_features`). -/
def Declares (m : Net) (n : Int) : Prop := m.inFeatures = .num n ∨ m.inputDim = .num n ∨ m.nFeatures = .num n ∨ m.numFeatures = .num n

/-- A network that takes `d` features and whatever it says about itself is true. -/
structure Honest (m : Net) (d : Nat) : Prop where
  call : ∀ k, m.accepts k = true ↔ k = d
  says : ∀ n, Declares m n → n = d
  first : ∀ n r, m.linears = n :: r → n = d ∨ ∃ j, Declares m j

theorem firstNum_some {l : List Attr} {n : Int} (h : firstNum l = some n) : Attr.num n ∈ l := by
  induction l with
  | nil => cases h
  | cons a l ih =>
    cases a with
    | num m => simp only [firstNum, Option.some.injEq] at h; rw [h]; exact List.mem_cons_self
    | absent => exact List.mem_cons_of_mem _ (ih h)
    | none => exact List.mem_cons_of_mem _ (ih h)
    | bad => exact List.mem_cons_of_mem _ (ih h)

theorem firstNum_none {l : List Attr} (h : firstNum l = none) (n : Int) : Attr.num n ∉ l := by
  induction l with
  | nil => simp
  | cons a l ih =>
    cases a with
    | num m => cases h
    | absent => simpa using ih h
    | none => simpa using ih h
    | bad => simpa using ih h

/-- **C206** (one network): a network that tells the truth about itself is accepted exactly if it takes as many features as there are axes. -/
theorem C206_honest_partial (m : Net) (d : Nat) (h : Honest m d) (k : Nat) : validate k m = true ↔ k = d := by
  have key : (infer m = some (d : Int)) ∨ (infer m = none) := by
    unfold infer
    cases hi : m.inFeatures with
    | num n =>
      left
      simp only [h.says n (Or.inl hi)]
    | absent | none | bad =>
      simp only
      cases hf : firstNum [m.inputDim, m.nFeatures, m.numFeatures] with
      | some n =>
        left
        have := firstNum_some hf
        simp only [List.mem_cons, List.not_mem_nil, or_false] at this
        have hd : Declares m n := by
          rcases this with h | h | h
          · exact Or.inr (Or.inl h.symm)
          · exact Or.inr (Or.inr (Or.inl h.symm))
          · exact Or.inr (Or.inr (Or.inr h.symm))
        simp only [h.says n hd]
      | none =>
        cases hl : m.linears with
        | nil => right; rfl
        | cons n r =>
          left
          rcases h.first n r hl with rfl | ⟨j, hj⟩
          · rfl
          · exfalso
            have hn := firstNum_none hf j
            simp only [List.mem_cons, List.not_mem_nil, or_false, not_or] at hn
            rcases hj with hj | hj | hj | hj
            · rw [hi] at hj; cases hj
            · exact hn.1 hj.symm
            · exact hn.2.1 hj.symm
            · exact hn.2.2 hj.symm
  unfold validate
  rcases key with key | key
  · rw [key]
    simp only [beq_iff_eq]
    omega
  · rw [key]
    exact h.call k

/-- **C206** (what decides): `in_features` if it is a number; else the first number among `input_dim`, `n_features`, `num_features`; else the first linear layer; else a trial
call with as many features as there are axes. -/
theorem C206_decides (m : Net) (k : Nat) :
    (∀ n, m.inFeatures = .num n → (validate k m = true ↔ n = k)) ∧
    ((∀ n, m.inFeatures ≠ .num n) →
      (∀ n, m.inputDim = .num n → (validate k m = true ↔ n = k)) ∧
      ((∀ n, m.inputDim ≠ .num n) →
        (∀ n, m.nFeatures = .num n → (validate k m = true ↔ n = k)) ∧
        ((∀ n, m.nFeatures ≠ .num n) →
          (∀ n, m.numFeatures = .num n → (validate k m = true ↔ n = k)) ∧
          ((∀ n, m.numFeatures ≠ .num n) →
            (∀ n r, m.linears = n :: r → (validate k m = true ↔ n = k)) ∧ (m.linears = [] → (validate k m = m.accepts k)))))) := by
  obtain ⟨a, b, c, d, l, acc⟩ := m
  simp only
  refine ⟨fun n h => ?_, fun ha => ⟨fun n h => ?_, fun hb => ⟨fun n h => ?_, fun hc => ⟨fun n h => ?_, fun hd => ⟨fun n r h => ?_, fun h => ?_⟩⟩⟩⟩⟩
  · subst h; simp [validate, infer]
  · subst h; cases a <;> first | exact absurd rfl (ha _) | simp [validate, infer, firstNum]
  · subst h
    cases a <;> first | exact absurd rfl (ha _) | (cases b <;> first | exact absurd rfl (hb _) | simp [validate, infer, firstNum])
  · subst h
    cases a <;> first | exact absurd rfl (ha _) | (cases b <;> first | exact absurd rfl (hb _) | (cases c <;> first | exact absurd rfl (hc _) | simp [validate, infer, firstNum]))
  · subst h
    cases a <;> first | exact absurd rfl (ha _) | (cases b <;> first | exact absurd rfl (hb _) | (cases c <;> first | exact absurd rfl (hc _) |
      (cases d <;> first | exact absurd rfl (hd _) | (simp [validate, infer, firstNum]; omega))))
  · subst h
    cases a <;> first | exact absurd rfl (ha _) | (cases b <;> first | exact absurd rfl (hb _) | (cases c <;> first | exact absurd rfl (hc _) |
      (cases d <;> first | exact absurd rfl (hd _) | simp [validate, infer, firstNum])))

/-- **C206** (all fields): if every network tells the truth, the derivatives of all fields are computed, in order and each from its own network, exactly if every network takes as
many features as there are axes; otherwise the error names the first field whose network does not. -/
theorem C206_fields_partial {N D : Type} (view : N → Net) (deriv : N → D) (k : Nat) (fs : List (String × N)) (dim : N → Nat) (h : ∀ p ∈ fs, Honest (view p.2) (dim p.2)) :
    (∀ ds, loop view deriv k fs = .ok ds ↔ (∀ p ∈ fs, dim p.2 = k) ∧ ds = fs.map fun p => (p.1, deriv p.2)) ∧
    ∀ f, loop view deriv k fs = .error f ↔ ∃ pre n post, fs = pre ++ (f, n) :: post ∧ (∀ p ∈ pre, dim p.2 = k) ∧ dim n ≠ k := by
  induction fs with
  | nil =>
    refine ⟨fun ds => ?_, fun f => ?_⟩
    · simp only [loop, Except.ok.injEq, List.map_nil, List.not_mem_nil, false_implies, implies_true, true_and]
      exact ⟨Eq.symm, Eq.symm⟩
    · simp [loop]
  | cons p fs ih =>
    obtain ⟨g, n⟩ := p
    obtain ⟨ih1, ih2⟩ := ih fun p hp => h p (List.mem_cons_of_mem _ hp)
    have hv := C206_honest_partial (view n) (dim n) (h _ List.mem_cons_self) k
    unfold loop
    by_cases hk : k = dim n
    · rw [if_pos (hv.2 hk)]
      cases hl : loop view deriv k fs with
      | error e =>
        obtain ⟨pre, n', post, e1, e2, e3⟩ := (ih2 e).1 hl
        refine ⟨fun ds => ⟨(fun h => nomatch h), ?_⟩, fun f => ⟨?_, ?_⟩⟩
        · rintro ⟨h1, _⟩
          exact absurd (h1 (e, n') (by rw [e1]; simp)) e3
        · intro he
          cases he
          refine ⟨(g, n) :: pre, n', post, by rw [e1]; rfl, ?_, e3⟩
          intro p hp
          rcases List.mem_cons.1 hp with rfl | hp
          · exact hk.symm
          · exact e2 p hp
        · rintro ⟨pre', n'', post', f1, f2, f3⟩
          cases pre' with
          | nil =>
            simp only [List.nil_append, List.cons.injEq, Prod.mk.injEq] at f1
            rw [← f1.1.2] at f3
            exact absurd hk.symm f3
          | cons q pre' =>
            simp only [List.cons_append, List.cons.injEq] at f1
            have := (ih2 f).2 ⟨pre', n'', post', f1.2, fun p hp => f2 p (List.mem_cons_of_mem _ hp), f3⟩
            rw [hl] at this
            exact this
      | ok ds' =>
        obtain ⟨g1, g2⟩ := (ih1 ds').1 hl
        refine ⟨fun ds => ⟨?_, ?_⟩, fun f => ⟨(fun h => nomatch h), ?_⟩⟩
        · intro he
          cases he
          refine ⟨?_, by rw [g2]; rfl⟩
          intro p hp
          rcases List.mem_cons.1 hp with rfl | hp
          · exact hk.symm
          · exact g1 p hp
        · rintro ⟨_, rfl⟩
          rw [g2]
          rfl
        · rintro ⟨pre', n'', post', f1, f2, f3⟩
          cases pre' with
          | nil =>
            simp only [List.nil_append, List.cons.injEq, Prod.mk.injEq] at f1
            rw [← f1.1.2] at f3
            exact absurd hk.symm f3
          | cons q pre' =>
            simp only [List.cons_append, List.cons.injEq] at f1
            exact absurd (g1 (f, n'') (by rw [f1.2]; simp)) f3
    · rw [if_neg (fun hh => hk (hv.1 hh))]
      refine ⟨fun ds => ⟨(fun h => nomatch h), ?_⟩, fun f => ⟨?_, ?_⟩⟩
      · rintro ⟨h1, _⟩
        exact absurd (h1 (g, n) List.mem_cons_self).symm hk
      · intro he
        cases he
        exact ⟨[], n, fs, rfl, by simp, fun h => hk h.symm⟩
      · rintro ⟨pre', n'', post', f1, f2, f3⟩
        cases pre' with
        | nil =>
          simp only [List.nil_append, List.cons.injEq, Prod.mk.injEq] at f1
          rw [f1.1.1]
        | cons q pre' =>
          simp only [List.cons_append, List.cons.injEq] at f1
          have := f2 q List.mem_cons_self
          rw [← f1.1] at this
          exact absurd this.symm hk

/-- **C206** fails for a network with a layer of its own in front: one that takes two features, makes five of them (say powers and products) and then has a linear layer
is refused for two axes – and one taking five is accepted, if its first linear layer has two inputs. -/
theorem C206_front_counterexample :
    let expand : Net := ⟨.absent, .absent, .absent, .absent, [5, 20], fun k => k == 2⟩
    let reduce : Net := ⟨.absent, .absent, .absent, .absent, [2, 20], fun k => k == 5⟩
    expand.accepts 2 = true ∧ validate 2 expand = false ∧ reduce.accepts 2 = false ∧ validate 2 reduce = true := by
  decide +kernel

/-- The networks SGA trains itself (`Net(num_feature, …)`, first linear layer `num_feature`, no attribute) are honest. -/
theorem C206_own (d : Nat) (rest : List Nat) : Honest ⟨.absent, .absent, .absent, .absent, d :: rest, fun k => k == d⟩ d :=
  ⟨fun k => by simp, (fun n h => by rcases h with h | h | h | h <;> cases h), (fun n r h => by cases h; exact Or.inl rfl)⟩

end Verif.Sga.InputDim.Claims
