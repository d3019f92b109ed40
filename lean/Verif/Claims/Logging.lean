import Verif.Utils.Logging
/-!
# C208: where the messages of a configured logger go
-/
namespace Verif.Utils.Logging

/-! ## Specification -/

/-- Python's levels. -/
def Levels : List (String × Nat) :=
  [("CRITICAL", 50), ("FATAL", 50), ("ERROR", 40), ("WARNING", 30), ("WARN", 30), ("INFO", 20), ("DEBUG", 10), ("NOTSET", 0)]

/-- The call names a level Python knows. -/
def Valid (c : Call) : Prop := c.level.toUpper ∈ ["CRITICAL", "FATAL", "ERROR", "WARNING", "WARN", "INFO", "DEBUG", "NOTSET"]

/-- The call asked for a file in some directory, and the system could open it. -/
def Opens (c : Call) (p : String) : Prop := c.file = some p ∧ '/' ∈ p.toList ∧ c.os = true

instance (c : Call) : Decidable (Valid c) := inferInstanceAs (Decidable (_ ∈ _))
instance (c : Call) (p : String) : Decidable (Opens c p) := inferInstanceAs (Decidable (_ ∧ _))

/-- The calls for a logger or one above it (a name above is a tail, the parts being written innermost first). -/
def Concerns (n : Name) (c : Call) : Prop := c.name <:+ n

instance (n : Name) (c : Call) : Decidable (Concerns n c) := inferInstanceAs (Decidable (_ <:+ _))

/-! ## Proofs -/

private theorem levelOf_none (s : String) :
    levelOf s = none ↔ s ∉ ["CRITICAL", "FATAL", "ERROR", "WARNING", "WARN", "INFO", "DEBUG", "NOTSET"] := by
  unfold levelOf
  constructor
  · intro h hm
    simp only [List.mem_cons, List.not_mem_nil, or_false] at hm
    rcases hm with rfl | rfl | rfl | rfl | rfl | rfl | rfl | rfl <;> simp at h
  · intro hm
    simp only [List.mem_cons, List.not_mem_nil, or_false, not_or] at hm
    obtain ⟨a, b, c, d, e, f, g, i⟩ := hm
    simp [a, b, c, d, e, f, g, i]

private theorem levelOf_table {s : String} {v : Nat} (h : (s, v) ∈ Levels) : levelOf s = some v := by
  simp only [Levels, List.mem_cons, List.not_mem_nil, or_false, Prod.mk.injEq] at h
  rcases h with ⟨rfl, rfl⟩ | ⟨rfl, rfl⟩ | ⟨rfl, rfl⟩ | ⟨rfl, rfl⟩ | ⟨rfl, rfl⟩ | ⟨rfl, rfl⟩ | ⟨rfl, rfl⟩ | ⟨rfl, rfl⟩ <;>
    simp [levelOf]

private theorem handlers_put_other (r : Reg) (m : Name) (l : Logger) (n : Name) (h : ¬ m <:+ n) :
    handlers (put r m l) n = handlers r n := by
  induction n with
  | nil =>
    have : ¬ ([] : Name) = m := fun e => h (e ▸ List.suffix_refl _)
    simp [handlers, put, this]
  | cons x p ih =>
    have h1 : ¬ (x :: p) = m := fun e => h (e ▸ List.suffix_refl _)
    have h2 : ¬ m <:+ p := fun e => h (e.trans (List.suffix_cons x p))
    simp [handlers, put, h1]
    exact ih h2

private theorem count_put (r : Reg) (m : Name) (v : Nat) (s k : Sink) (n : Name) :
    (handlers (put r m ⟨v, (r m).handlers ++ [k]⟩) n).count s =
      (handlers r n).count s + if k = s ∧ m <:+ n then 1 else 0 := by
  by_cases h : m <:+ n
  · induction n with
    | nil =>
      have hm : m = [] := List.suffix_nil.1 h
      subst hm
      by_cases hk : k = s <;> simp [handlers, put, List.count_append, List.count_cons, hk]
    | cons x p ih =>
      rcases List.suffix_cons_iff.1 h with rfl | hp
      · have hn : ¬ (x :: p) <:+ p := fun e => by
          have := e.length_le
          simp at this
          omega
        have hh := handlers_put_other r (x :: p) ⟨v, (r (x :: p)).handlers ++ [k]⟩ p hn
        simp only [handlers]
        rw [hh]
        by_cases hk : k = s <;> simp [put, List.count_append, List.count_cons, hk] <;> omega
      · have hx : ¬ (x :: p) = m := fun e => by
          have := hp.length_le
          rw [← e] at this
          simp at this
          omega
        have := ih hp
        simp only [handlers, List.count_append, this]
        simp only [put, hx, if_false, hp, h, and_true]
        omega
  · rw [handlers_put_other r m _ n h]
    simp [h]

private theorem count_setup (r : Reg) (c : Call) (s : Sink) (n : Name) :
    (handlers (setup r c).1 n).count s = (handlers r n).count s +
      (match s with
        | .console => if Valid c ∧ Concerns n c then 1 else 0
        | .file p => if Valid c ∧ Opens c p ∧ Concerns n c then 1 else 0
        | .lastResort => 0) := by
  unfold setup
  rcases hv : levelOf c.level.toUpper with _ | v
  · have hn : ¬ Valid c := (levelOf_none _).1 hv
    cases s <;> simp [hn]
  · have hval : Valid c := Decidable.byContradiction fun h => by
      have := (levelOf_none _).2 h
      rw [hv] at this
      exact nomatch this
    rcases hf : c.file with _ | p
    · simp only
      rw [count_put]
      cases s <;> simp [hval, Concerns, Opens, hf]
    · simp only
      by_cases hp : p = ""
      · rw [if_pos hp, count_put]
        cases s with
        | console => simp [hval, Concerns]
        | file q =>
          have : ¬ Opens c q := by
            rintro ⟨h1, h2, _⟩
            rw [hf] at h1
            cases h1
            rw [hp] at h2
            exact nomatch h2
          simp [this]
        | lastResort => simp
      · rw [if_neg hp]
        by_cases hd : noDir p = true
        · rw [if_pos hd, count_put]
          cases s with
          | console => simp [hval, Concerns]
          | file q =>
            have : ¬ Opens c q := by
              rintro ⟨h1, h2, _⟩
              rw [hf] at h1
              cases h1
              simp [noDir, h2] at hd
            simp [this]
          | lastResort => simp
        · rw [if_neg hd]
          by_cases ho : c.os = true
          · rw [if_pos ho]
            have h1 := count_put (put r c.name ⟨v, (r c.name).handlers ++ [.console]⟩) c.name v s (.file p) n
            have h0 := count_put r c.name v s .console n
            simp only at h1 ⊢
            rw [h1, h0]
            have hd' : '/' ∈ p.toList := by simpa [noDir] using hd
            cases s with
            | console => simp [hval, Concerns]
            | file q =>
              by_cases hq : p = q
              · subst hq
                have : Opens c p := ⟨hf, hd', ho⟩
                simp [this, hval, Concerns]
              · have : ¬ Opens c q := by
                  rintro ⟨h1, _, _⟩
                  rw [hf] at h1
                  exact hq (Option.some.inj h1)
                simp [this, hq]
            | lastResort => simp
          · rw [if_neg ho, count_put]
            cases s with
            | console => simp [hval, Concerns]
            | file q =>
              have : ¬ Opens c q := fun h => ho h.2.2
              simp [this]
            | lastResort => simp

private theorem count_run (cs : List Call) : ∀ (r : Reg) (n : Name),
    (handlers (run r cs) n).count .console = (handlers r n).count .console + (cs.filter fun c => Valid c ∧ Concerns n c).length ∧
    (∀ p, (handlers (run r cs) n).count (.file p) = (handlers r n).count (.file p) +
      (cs.filter fun c => Valid c ∧ Opens c p ∧ Concerns n c).length) ∧
    (handlers (run r cs) n).count .lastResort = (handlers r n).count .lastResort := by
  induction cs with
  | nil => intro r n; simp [run]
  | cons c cs ih =>
    intro r n
    obtain ⟨h1, h2, h3⟩ := ih (setup r c).1 n
    have e : run r (c :: cs) = run (setup r c).1 cs := rfl
    rw [e]
    refine ⟨?_, fun p => ?_, ?_⟩
    · rw [h1, count_setup]
      by_cases h : Valid c ∧ Concerns n c <;> simp [h] <;> omega
    · rw [h2 p, count_setup]
      by_cases h : Valid c ∧ Opens c p ∧ Concerns n c <;> simp [h] <;> omega
    · rw [h3, count_setup]
      simp

private theorem handlers_fresh (n : Name) : handlers fresh n = [] := by
  induction n with
  | nil => rfl
  | cons x p ih => simp [handlers, fresh]; exact ih

/-- After any history of calls, a message that passes the level is written to the console once for every accepted call naming its
logger or one above it, and to a file once for every such call that opened this file. -/
theorem C208_counts (cs : List Call) (n : Name) (level : Nat) (hl : effective (run fresh cs) n ≤ level) :
    (emit (run fresh cs) n level).count .console = (cs.filter fun c => Valid c ∧ Concerns n c).length ∧
    ∀ p, (emit (run fresh cs) n level).count (.file p) = (cs.filter fun c => Valid c ∧ Opens c p ∧ Concerns n c).length := by
  obtain ⟨h1, h2, _⟩ := count_run cs fresh n
  rw [handlers_fresh] at h1 h2
  have hn : ¬ level < effective (run fresh cs) n := by omega
  unfold emit
  rw [if_neg hn]
  rcases hh : handlers (run fresh cs) n with _ | ⟨a, l⟩
  · rw [hh] at h1
    simp only [hh] at h2
    constructor
    · have h1' := h1
      simp only [List.count_nil, Nat.zero_add] at h1'
      rw [← h1']
      by_cases h : level < 30 <;> simp [h]
    · intro p
      have h2' := h2 p
      simp only [List.count_nil, Nat.zero_add] at h2'
      rw [← h2']
      by_cases h : level < 30 <;> simp [h]
  · rw [hh] at h1
    simp only [hh] at h2
    exact ⟨by simpa using h1, fun p => by simpa using h2 p⟩

/-- A message below the level goes nowhere. -/
theorem C208_below (cs : List Call) (n : Name) (level : Nat) (hl : level < effective (run fresh cs) n) :
    emit (run fresh cs) n level = [] := by
  simp [emit, hl]

/-- "One line per message" holds as long as a single accepted call names the logger or one above it.  (Missing: every further call adds
a line, see `C208_twice_counterexample`.) -/
theorem C208_once_partial (before after : List Call) (c : Call) (n : Name) (level : Nat) (hc : Valid c) (hn : Concerns n c)
    (hb : ∀ d ∈ before ++ after, Valid d → ¬ Concerns n d) (hl : effective (run fresh (before ++ c :: after)) n ≤ level) :
    (emit (run fresh (before ++ c :: after)) n level).count .console = 1 ∧
    ∀ p, (emit (run fresh (before ++ c :: after)) n level).count (.file p) = if Opens c p then 1 else 0 := by
  obtain ⟨h1, h2⟩ := C208_counts _ n level hl
  have z1 : ∀ l : List Call, (∀ d ∈ l, Valid d → ¬ Concerns n d) → (l.filter fun d => Valid d ∧ Concerns n d) = [] := by
    intro l h
    apply List.filter_eq_nil_iff.2
    intro d hd
    simpa using h d hd
  have z2 : ∀ (p : String) (l : List Call), (∀ d ∈ l, Valid d → ¬ Concerns n d) →
      (l.filter fun d => Valid d ∧ Opens d p ∧ Concerns n d) = [] := by
    intro p l h
    apply List.filter_eq_nil_iff.2
    intro d hd
    simpa using fun a _ => h d hd a
  have hb1 := fun d hd => hb d (List.mem_append_left after hd)
  have hb2 := fun d hd => hb d (List.mem_append_right before hd)
  constructor
  · rw [h1, List.filter_append, List.filter_cons, z1 _ hb1, z1 _ hb2]
    simp [hc, hn]
  · intro p
    rw [h2 p, List.filter_append, List.filter_cons, z2 p _ hb1, z2 p _ hb2]
    by_cases ho : Opens c p <;> simp [hc, hn, ho]

private theorem level_setup (r : Reg) (c : Call) (m : Name) :
    ((setup r c).1 m).level = if m = c.name then (match levelOf c.level.toUpper with | some v => v | none => (r m).level)
      else (r m).level := by
  unfold setup
  rcases levelOf c.level.toUpper with _ | v
  · simp
  · rcases c.file with _ | p
    · by_cases h : m = c.name <;> simp [put, h]
    · by_cases h : m = c.name <;> by_cases h1 : p = "" <;> by_cases h2 : noDir p = true <;> by_cases h3 : c.os = true <;>
        simp [put, h, h1, h2, h3]

private theorem level_run (cs : List Call) : ∀ (r : Reg) (m : Name), (∀ d ∈ cs, Valid d → d.name ≠ m) →
    (run r cs m).level = (r m).level := by
  induction cs with
  | nil => intro r m _; rfl
  | cons d cs ih =>
    intro r m h
    have e : run r (d :: cs) = run (setup r d).1 cs := rfl
    rw [e, ih _ m (fun x hx => h x (List.mem_cons_of_mem _ hx)), level_setup]
    by_cases hm : m = d.name
    · rw [if_pos hm]
      have hv : ¬ Valid d := fun hv => h d List.mem_cons_self hv hm.symm
      have : levelOf d.level.toUpper = none := (levelOf_none _).2 hv
      rw [this]
    · rw [if_neg hm]

/-- The last accepted call for a logger decides its level, whatever came before and whatever other loggers are given: with a level `v`
other than NOTSET a message of this logger is dropped exactly if its level is below `v`. -/
theorem C208_level (before after : List Call) (c : Call) (v : Nat) (hv' : (c.level.toUpper, v) ∈ Levels) (h0 : v ≠ 0)
    (ha : ∀ d ∈ after, Valid d → d.name ≠ c.name) (level : Nat) :
    emit (run fresh (before ++ c :: after)) c.name level = [] ↔ level < v := by
  have hv := levelOf_table hv'
  have hval : Valid c := Decidable.byContradiction fun h => by
    have := (levelOf_none _).2 h
    rw [hv] at this
    exact nomatch this
  have e : run fresh (before ++ c :: after) = run (setup (run fresh before) c).1 after := by
    simp [run, List.foldl_append]
  have hlev : (run fresh (before ++ c :: after) c.name).level = v := by
    rw [e, level_run _ _ _ ha, level_setup, if_pos rfl, hv]
  have heff : effective (run fresh (before ++ c :: after)) c.name = v := by
    rcases hc : c.name with _ | ⟨x, p⟩
    · rw [hc] at hlev
      exact hlev
    · rw [hc] at hlev
      simp [effective, hlev, h0]
  constructor
  · intro h
    refine Decidable.byContradiction fun hlt => ?_
    have hl : effective (run fresh (before ++ c :: after)) c.name ≤ level := by omega
    have h1 := (C208_counts _ c.name level hl).1
    rw [h] at h1
    have : c ∈ (before ++ c :: after).filter fun d => Valid d ∧ Concerns c.name d := by
      simp [List.mem_filter, hval, Concerns]
    have := List.length_pos_of_mem this
    simp at h1
    simp at this
    omega
  · intro h
    exact C208_below _ _ _ (by omega)

/-- A call is refused exactly for an unknown level, a file named without a directory, or a directory or file the system refuses; an
unknown level changes nothing, but in the two other cases the console handler stays. -/
theorem C208_refused (r : Reg) (c : Call) :
    ((setup r c).2 = .valueError ↔ ¬ Valid c) ∧
    (¬ Valid c → (setup r c).1 = r) ∧
    ((setup r c).2 = .fileNotFound ↔ Valid c ∧ ∃ p, c.file = some p ∧ p ≠ "" ∧ '/' ∉ p.toList) ∧
    ((setup r c).2 = .osError ↔ Valid c ∧ c.os = false ∧ ∃ p, c.file = some p ∧ '/' ∈ p.toList) ∧
    (Valid c → ((setup r c).1 c.name).handlers.count .console = (r c.name).handlers.count .console + 1) := by
  unfold setup
  rcases hv : levelOf c.level.toUpper with _ | v
  · have hn : ¬ Valid c := (levelOf_none _).1 hv
    simp [hn]
  · have hval : Valid c := Decidable.byContradiction fun h => by
      have := (levelOf_none _).2 h
      rw [hv] at this
      exact nomatch this
    rcases hf : c.file with _ | p
    · simp [hval, put, List.count_append]
    · by_cases h1 : p = ""
      · subst h1
        simp [hval, put, List.count_append]
      · by_cases h2 : '/' ∈ p.toList <;> by_cases h3 : c.os = true <;>
          simp [hval, put, h1, h2, h3, noDir, List.count_append]

/-- Calling `setup_logger` twice for one name doubles every line; so does configuring `kd` and `kd.viz`. -/
theorem C208_twice_counterexample :
    emit (run fresh [⟨["kd"], none, "info", true⟩, ⟨["kd"], none, "info", true⟩]) ["kd"] 20 = [.console, .console] ∧
    emit (run fresh [⟨["kd"], none, "info", true⟩, ⟨["viz", "kd"], some "log/a.txt", "debug", true⟩]) ["viz", "kd"] 20 =
      [.console, .file "log/a.txt", .console] ∧
    (setup fresh ⟨["kd"], some "a.txt", "info", true⟩).2 = .fileNotFound := by
  refine ⟨?_, ?_, ?_⟩ <;> decide +kernel

end Verif.Utils.Logging
