import Verif.Dataset.Load
import Verif.Claims.Dataset
import Mathlib.Algebra.Field.Rat
import Mathlib.Tactic.Ring
import Mathlib.Tactic.FieldSimp
/-!
# C100–C106: loading registered, uploaded and tabular data

## Specification
-/
namespace Verif.Claims
open Verif.Data Verif.Data.Load

/-- The table `f` stored with one row per x. -/
def byX (f : Nat → Nat → Rat) (nx nt : Nat) : Arr Rat := ⟨[nx, nt], fun i => f (i.getD 0 0) (i.getD 1 0)⟩

/-- The table `f` stored with one row per t. -/
def byT (f : Nat → Nat → Rat) (nx nt : Nat) : Arr Rat := ⟨[nt, nx], fun i => f (i.getD 1 0) (i.getD 0 0)⟩

/-- The dataset has coordinates `x`, `t` and the value `f i j` at x number `i` and t number `j`. -/
def Holds (d : DS Rat Rat) (x t : List Rat) (f : Nat → Nat → Rat) : Prop :=
  XT d x t ∧ ∀ i j, i < x.length → j < t.length → valueAt d i j = f i j

/-- `n` equally spaced numbers from `lo` to `hi`. -/
def EquallySpaced (l : List Rat) (lo hi : Rat) (n : Nat) : Prop :=
  l.length = n ∧ (0 < n → l[0]? = some lo) ∧ (1 < n → l[n - 1]? = some hi) ∧
  ∀ i a b c, l[i]? = some a → l[i + 1]? = some b → l[i + 2]? = some c → b - a = c - b

/-! ## Lemmas -/

theorem mkDataset_ok (x t : List Rat) (u : Arr Rat) (h : u.shape = [x.length, t.length]) :
    mkDataset x t u = .ok ⟨some x, some t, u, none, none, none, none, none, []⟩ := by
  have : (⟨u.shape, fun i => u.get i⟩ : Arr Rat) = u := rfl
  rw [← this] at *
  simp [mkDataset, construct, initLegacy, addParams, h]

theorem mkDataset_bad (x t : List Rat) (u : Arr Rat) (h : u.shape ≠ [x.length, t.length]) :
    mkDataset x t u = .error .value := by
  simp [mkDataset, construct, initLegacy, h, Exn.of]

theorem holds_byX (x t : List Rat) (f : Nat → Nat → Rat) :
    Holds ⟨some x, some t, byX f x.length t.length, none, none, none, none, none, []⟩ x t f :=
  ⟨⟨rfl, rfl, rfl, Or.inl rfl⟩, fun i j _ _ => by simp [valueAt, cellIdx, byX]⟩

theorem holds_byT (x t : List Rat) (f : Nat → Nat → Rat) :
    Holds ⟨some x, some t, (byT f x.length t.length).transpose2, none, none, none, none, none, []⟩ x t f :=
  ⟨⟨rfl, rfl, rfl, Or.inl rfl⟩, fun i j _ _ => by simp [valueAt, cellIdx, byT, Arr.transpose2]⟩

/-- Reading either layout with different axis lengths. -/
theorem orient_either (x t : List Rat) (f : Nat → Nat → Rat) (hne : x.length ≠ t.length) (u : Arr Rat)
    (hu : u = byX f x.length t.length ∨ u = byT f x.length t.length) :
    ∃ d, mkDataset x t (orient x t u) = .ok d ∧ Holds d x t f := by
  rcases hu with rfl | rfl
  · have : orient x t (byX f x.length t.length) = byX f x.length t.length := by
      unfold orient; rw [if_neg]; simp [byX]; omega
    rw [this]
    exact ⟨_, mkDataset_ok _ _ _ rfl, holds_byX x t f⟩
  · have : orient x t (byT f x.length t.length) = (byT f x.length t.length).transpose2 := by
      unfold orient; exact if_pos rfl
    rw [this]
    exact ⟨_, mkDataset_ok _ _ _ rfl, holds_byT x t f⟩

theorem linspace_length (lo hi : Rat) (n : Nat) : (linspace lo hi n).length = n := by
  unfold linspace; split
  · simp [*]
  · simp

theorem linspace_get (lo hi : Rat) (n i : Nat) (h1 : n ≠ 1) (h : i < n) :
    (linspace lo hi n)[i]? = some (lo + (i : Rat) * ((hi - lo) / ((n : Rat) - 1))) := by
  unfold linspace; rw [if_neg h1]; simp [h]

theorem linspace_spaced (lo hi : Rat) (n : Nat) : EquallySpaced (linspace lo hi n) lo hi n := by
  refine ⟨linspace_length _ _ _, ?_, ?_, ?_⟩
  · intro h
    by_cases h1 : n = 1
    · subst h1; rfl
    · rw [linspace_get _ _ _ _ h1 h]; simp
  · intro h
    rw [linspace_get _ _ _ _ (by omega) (by omega)]
    have : ((n - 1 : Nat) : Rat) = (n : Rat) - 1 := by
      rw [Nat.cast_sub (by omega)]; simp
    rw [this]
    have h0 : (n : Rat) - 1 ≠ 0 := by
      intro h2
      have : (n : Rat) = (1 : Nat) := by rw [Nat.cast_one]; grind
      have := Nat.cast_injective this
      omega
    congr 1; field_simp; ring
  · intro i a b c ha hb hc
    have hi : i + 2 < n := by
      have := (List.getElem?_eq_some_iff.1 hc).1
      rwa [linspace_length] at this
    rw [linspace_get _ _ _ _ (by omega) (by omega)] at ha hb hc
    simp only [Option.some.injEq] at ha hb hc
    subst ha hb hc
    push_cast; ring

theorem lookup_plain (vars : List (String × Arr Rat)) (k : String) (hp : "__".toList.isPrefixOf k.toList = false) :
    (vars.filter fun v => !("__".toList.isPrefixOf v.1.toList)).lookup k = vars.lookup k := by
  induction vars with
  | nil => rfl
  | cons p r ih =>
    obtain ⟨a, b⟩ := p
    by_cases hka : k = a
    · subst hka
      rw [List.filter_cons_of_pos (by rw [hp]; rfl)]
      simp [List.lookup]
    · have hb : (k == a) = false := by simpa using hka
      by_cases hpa : "__".toList.isPrefixOf a.toList
      · rw [List.filter_cons_of_neg (by simpa using hpa), ih, List.lookup, hb]
      · rw [List.filter_cons_of_pos (by rw [Bool.eq_false_iff.2 hpa]; rfl), List.lookup, List.lookup, hb]; exact ih

/-! ## C100: the solution keeps its meaning, however the file stores it -/

/-- **C100** (several files): with different axis lengths, a solution file stored by rows of x and one stored by rows of t give
the table that was stored, over the coordinates of the two coordinate files. -/
theorem C100_files_partial (reg : Registry) (dirs : String → Dir) (name : String) (info : Info) (fu fx ft : String)
    (kw : List (String × Kw)) (x t u : Arr Rat) (f : Nat → Nat → Rat)
    (hreg : reg.lookup name = some info) (hf : info.files = some (fu, fx, ft))
    (hu : dirs "kd.dataset.data" fu = some (.npy u)) (hx : dirs "kd.dataset.data" fx = some (.npy x))
    (ht : dirs "kd.dataset.data" ft = some (.npy t)) (hne : x.ravel.length ≠ t.ravel.length)
    (hl : u = byX f x.ravel.length t.ravel.length ∨ u = byT f x.ravel.length t.ravel.length) :
    ∃ l, Load.loadPde reg dirs name kw = .ok (some l) ∧ Holds l.ds x.ravel t.ravel f := by
  obtain ⟨d, hd, hh⟩ := orient_either _ _ f hne u hl
  refine ⟨tag reg name ⟨d, info.domain.map .registry, epiOf kw⟩, ?_, hh⟩
  simp only [Load.loadPde, getInfo, hreg, hf, loadFiles, loadNpy, hu, hx, ht, hd]

/-- **C100** (one `.mat` file). -/
theorem C100_mat_partial (reg : Registry) (dirs : String → Dir) (name : String) (info : Info) (xk tk uk : String)
    (vars : List (String × Arr Rat)) (x t u : Arr Rat) (f : Nat → Nat → Rat)
    (hreg : reg.lookup name = some info) (hf : info.files = none) (hn : isNpy info.file = false) (h0 : info.file ≠ "")
    (hk : info.keys = [("x_key", xk), ("t_key", tk), ("u_key", uk)])
    (hfile : dirs "kd.dataset.data" info.file = some (.mat vars))
    (hx : vars.lookup xk = some x) (ht : vars.lookup tk = some t) (hu : vars.lookup uk = some u)
    (hmeta : ∀ k ∈ [xk, tk, uk], "__".toList.isPrefixOf k.toList = false)
    (hne : x.ravel.length ≠ t.ravel.length)
    (hl : u = byX f x.ravel.length t.ravel.length ∨ u = byT f x.ravel.length t.ravel.length) :
    ∃ l, Load.loadPde reg dirs name [] = .ok (some l) ∧ Holds l.ds x.ravel t.ravel f := by
  obtain ⟨d, hd, hh⟩ := orient_either _ _ f hne u hl
  have hfil : ∀ k v, k ∈ [xk, tk, uk] → vars.lookup k = some v →
      (vars.filter fun v => !("__".toList.isPrefixOf v.1.toList)).lookup k = some v := by
    intro k v hkm hv
    rw [lookup_plain vars k (hmeta k hkm), hv]
  refine ⟨tag reg name ⟨d, info.domain.map .registry, 1 / 1000⟩, ?_, hh⟩
  have hall : passed info [] = [("x_key", Kw.str xk), ("t_key", .str tk), ("u_key", .str uk)] := by simp [passed, hk]
  have hread : readMat dirs info.file [("x_key", Kw.str xk), ("t_key", .str tk), ("u_key", .str uk)] = some d := by
    have e1 : strOf [("x_key", Kw.str xk), ("t_key", .str tk), ("u_key", .str uk)] "data_dir_module" "kd.dataset.data" = "kd.dataset.data" := rfl
    have e2 : strOf [("x_key", Kw.str xk), ("t_key", .str tk), ("u_key", .str uk)] "x_key" "x" = xk := rfl
    have e3 : strOf [("x_key", Kw.str xk), ("t_key", .str tk), ("u_key", .str uk)] "t_key" "t" = tk := rfl
    have e4 : strOf [("x_key", Kw.str xk), ("t_key", .str tk), ("u_key", .str uk)] "u_key" "usol" = uk := rfl
    simp only [readMat, loadMat, e1, e2, e3, e4, hfile, hfil xk x (by simp) hx, hfil tk t (by simp) ht, hfil uk u (by simp) hu, hd]
  have hent : loadMatEntry dirs info [] = .ok (some ⟨d, info.domain.map .registry, 1 / 1000⟩) := by
    unfold loadMatEntry
    simp only [hall]
    rw [if_neg (by simp [params]), hread]
    rfl
  simp only [Load.loadPde, getInfo, hreg, hf, hn, Bool.false_eq_true, if_false, if_neg h0, hent]

/-- **C100** (one `.npy` file): the table in either layout, over a grid of the registered size. -/
theorem C100_single_partial (reg : Registry) (dirs : String → Dir) (name : String) (info : Info) (kw : List (String × Kw))
    (u : Arr Rat) (nx nt : Nat) (f : Nat → Nat → Rat)
    (hreg : reg.lookup name = some info) (hf : info.files = none) (hn : isNpy info.file = true) (hs : info.shape = some (nx, nt))
    (hfile : dirs "kd.dataset.data" info.file = some (.npy u)) (hne : nx ≠ nt)
    (hl : u = byX f nx nt ∨ u = byT f nx nt) :
    ∃ l x t, Load.loadPde reg dirs name kw = .ok (some l) ∧ Holds l.ds x t f ∧ x.length = nx ∧ t.length = nt := by
  have key : ∃ v, toShape u (some (nx, nt)) = .ok v ∧ v.shape = [nx, nt] ∧ ∀ i j, v.get [i, j] = f i j := by
    rcases hl with rfl | rfl
    · refine ⟨byX f nx nt, ?_, rfl, fun i j => by simp [byX]⟩
      have h1 : (byX f nx nt).shape ≠ [nt, nx] := by simp [byX]; omega
      have h2 : (byX f nx nt).shape = [nx, nt] := rfl
      simp only [toShape]
      rw [if_neg h1, if_neg (fun h => h h2)]
    · refine ⟨(byT f nx nt).transpose2, ?_, rfl, fun i j => by simp [byT, Arr.transpose2]⟩
      unfold toShape
      exact if_pos rfl
  obtain ⟨v, hv, hsh, hg⟩ := key
  let bx := boundsOf (domainOf info).val "x"
  let bt := boundsOf (domainOf info).val "t"
  have hmk := mkDataset_ok (linspace bx.1 bx.2 nx) (linspace bt.1 bt.2 nt) v (by simp [linspace_length, hsh])
  refine ⟨tag reg name ⟨⟨some (linspace bx.1 bx.2 nx), some (linspace bt.1 bt.2 nt), v, none, none, none, none, none, []⟩,
    some (domainOf info), epiOf kw⟩, linspace bx.1 bx.2 nx, linspace bt.1 bt.2 nt, ?_, ⟨?_, ?_⟩, linspace_length _ _ _, linspace_length _ _ _⟩
  · simp only [Load.loadPde, getInfo, hreg, hf, hn, if_true, loadSingle, loadNpy, hfile, hs, hv, hsh]
    rw [hmk]
  · exact ⟨rfl, rfl, by simp [linspace_length, hsh, tag], Or.inl rfl⟩
  · intro i j _ _
    simp [valueAt, cellIdx, tag, hg]

/-- A data directory with a `.mat` file of 3 x-values and 2 t-values and the three files of the first entry, both by rows of t. -/
def demoDir (f : Nat → Nat → Rat) : String → Dir := fun _ n =>
  if n = "burgers2.mat" then
    some (.mat [("__header__", ⟨[0], fun _ => 0⟩), ("x", ⟨[1, 3], fun i => i.getD 1 0⟩), ("t", ⟨[2, 1], fun i => i.getD 0 0⟩), ("usol", byT f 3 2)])
  else if n = "chafee_infante_CI.npy" then some (.npy (byX f 3 2))
  else if n = "chafee_infante_x.npy" then some (.npy ⟨[3], fun i => i.getD 0 0⟩)
  else if n = "chafee_infante_t.npy" then some (.npy ⟨[2], fun i => i.getD 0 0⟩)
  else none

example (f : Nat → Nat → Rat) : ∃ l, Load.loadPde shipped (demoDir f) "burgers" [] = .ok (some l) ∧ Holds l.ds [0, 1, 2] [0, 1] f :=
  C100_mat_partial shipped (demoDir f) "burgers" _ "x" "t" "usol" _ ⟨[1, 3], fun i => i.getD 1 0⟩ ⟨[2, 1], fun i => i.getD 0 0⟩ _ f
    rfl rfl (by decide) (by decide) rfl rfl rfl rfl rfl (by decide) (by decide) (Or.inr rfl)

example (f : Nat → Nat → Rat) : ∃ l, Load.loadPde shipped (demoDir f) "chafee-infante" [] = .ok (some l) ∧ Holds l.ds [0, 1, 2] [0, 1] f :=
  C100_files_partial shipped (demoDir f) "chafee-infante" _ _ _ _ [] ⟨[3], fun i => i.getD 0 0⟩ ⟨[2], fun i => i.getD 0 0⟩ _ f
    rfl rfl rfl rfl rfl (by decide) (Or.inl rfl)

/-- The value a row-major array of `nt` columns has in row `i` and column `j`, read from the file's entries in order. -/
def rowMajor (u : Arr Rat) (nt i j : Nat) : Rat := (u.ravel[i * nt + j]?).getD 0

/-- **C100** (one `.npy` file of another shape): with the right number of entries they are read row by row. -/
theorem C100_reshape (reg : Registry) (dirs : String → Dir) (name : String) (info : Info) (kw : List (String × Kw))
    (u : Arr Rat) (nx nt : Nat)
    (hreg : reg.lookup name = some info) (hf : info.files = none) (hn : isNpy info.file = true) (hs : info.shape = some (nx, nt))
    (hfile : dirs "kd.dataset.data" info.file = some (.npy u)) (h1 : u.shape ≠ [nx, nt]) (h2 : u.shape ≠ [nt, nx])
    (hp : u.shape.prod = nx * nt) :
    ∃ l x t, Load.loadPde reg dirs name kw = .ok (some l) ∧ Holds l.ds x t (rowMajor u nt) ∧ x.length = nx ∧ t.length = nt := by
  have hv : toShape u (some (nx, nt)) = .ok ⟨[nx, nt], fun i => (u.ravel[flatIdx [nx, nt] i]?).getD 0⟩ := by
    simp only [toShape, if_neg h2, ne_eq, h1, not_false_eq_true, if_true, reshape]
    rw [if_pos (by simp [hp])]
  let bx := boundsOf (domainOf info).val "x"
  let bt := boundsOf (domainOf info).val "t"
  have hmk := mkDataset_ok (linspace bx.1 bx.2 nx) (linspace bt.1 bt.2 nt) ⟨[nx, nt], fun i => (u.ravel[flatIdx [nx, nt] i]?).getD 0⟩
    (by simp [linspace_length])
  refine ⟨tag reg name ⟨⟨some (linspace bx.1 bx.2 nx), some (linspace bt.1 bt.2 nt),
    ⟨[nx, nt], fun i => (u.ravel[flatIdx [nx, nt] i]?).getD 0⟩, none, none, none, none, none, []⟩,
    some (domainOf info), epiOf kw⟩, linspace bx.1 bx.2 nx, linspace bt.1 bt.2 nt, ?_, ⟨?_, ?_⟩, linspace_length _ _ _, linspace_length _ _ _⟩
  · simp only [Load.loadPde, getInfo, hreg, hf, hn, if_true, loadSingle, loadNpy, hfile, hs, hv]
    rw [hmk]
  · exact ⟨rfl, rfl, by simp [linspace_length, tag], Or.inl rfl⟩
  · intro i j _ _
    simp [valueAt, cellIdx, tag, rowMajor, flatIdx]

/-- **C100** (data that do not fit): the wrong number of entries for the registered shape, or a solution that fits the coordinate files
in neither layout, is a ValueError; a `.mat` file whose solution fits in neither layout, that lacks a variable or does not exist gives
`None`. No dataset is returned. -/
theorem C100_refused (reg : Registry) (dirs : String → Dir) (name : String) (info : Info) (kw : List (String × Kw))
    (hreg : reg.lookup name = some info) :
    (∀ u nx nt, info.files = none → isNpy info.file = true → info.shape = some (nx, nt) →
      dirs "kd.dataset.data" info.file = some (.npy u) → u.shape.prod ≠ nx * nt →
      Load.loadPde reg dirs name kw = .error .value) ∧
    (∀ fu fx ft u x t, info.files = some (fu, fx, ft) → dirs "kd.dataset.data" fu = some (.npy u) →
      dirs "kd.dataset.data" fx = some (.npy x) → dirs "kd.dataset.data" ft = some (.npy t) →
      u.shape ≠ [x.ravel.length, t.ravel.length] → u.shape ≠ [t.ravel.length, x.ravel.length] →
      Load.loadPde reg dirs name kw = .error .value) ∧
    (info.files = none → isNpy info.file = false → info.file ≠ "" → info.keys.lookup "x_key" = some "x" →
      info.keys.lookup "t_key" = some "t" → info.keys.lookup "u_key" = some "usol" → info.keys.map (·.1) = ["x_key", "t_key", "u_key"] →
      (dirs "kd.dataset.data" info.file = none ∨ ∃ vars, dirs "kd.dataset.data" info.file = some (.mat vars) ∧
        (vars.lookup "x" = none ∨ vars.lookup "t" = none ∨ vars.lookup "usol" = none ∨
          ∃ x t u, vars.lookup "x" = some x ∧ vars.lookup "t" = some t ∧ vars.lookup "usol" = some u ∧
            u.shape ≠ [x.ravel.length, t.ravel.length] ∧ u.shape ≠ [t.ravel.length, x.ravel.length])) →
      Load.loadPde reg dirs name [] = .ok none) := by
  refine ⟨?_, ?_, ?_⟩
  · intro u nx nt hf hn hs hu hp
    have h1 : u.shape ≠ [nx, nt] := by intro h; apply hp; simp [h]
    have h2 : u.shape ≠ [nt, nx] := by intro h; apply hp; simp [h, Nat.mul_comm]
    have hv : toShape u (some (nx, nt)) = .error .value := by
      simp only [toShape, if_neg h2, ne_eq, h1, not_false_eq_true, if_true, reshape]
      rw [if_neg (by simpa using hp)]
    simp only [Load.loadPde, getInfo, hreg, hf, hn, if_true, loadSingle, loadNpy, hu, hs, hv]
  · intro fu fx ft u x t hf hu hx ht h1 h2
    have : orient x.ravel t.ravel u = u := by unfold orient; rw [if_neg h2]
    simp only [Load.loadPde, getInfo, hreg, hf, loadFiles, loadNpy, hu, hx, ht, this, mkDataset_bad _ _ _ h1]
  · intro hf hn h0 k1 k2 k3 hks hbad
    have hall : ∃ a b c, passed info [] = [("x_key", Kw.str a), ("t_key", .str b), ("u_key", .str c)] ∧ a = "x" ∧ b = "t" ∧ c = "usol" := by
      match hk : info.keys, hks with
      | [(_, a), (_, b), (_, c)], h =>
        simp at h
        obtain ⟨rfl, rfl, rfl⟩ := h
        rw [hk] at k1 k2 k3
        simp [List.lookup] at k1 k2 k3
        exact ⟨a, b, c, by simp [passed, hk], k1, k2, k3⟩
    obtain ⟨a, b, c, hall, rfl, rfl, rfl⟩ := hall
    have hread : readMat dirs info.file [("x_key", Kw.str "x"), ("t_key", .str "t"), ("u_key", .str "usol")] = none := by
      have e1 : strOf [("x_key", Kw.str "x"), ("t_key", .str "t"), ("u_key", .str "usol")] "data_dir_module" "kd.dataset.data" = "kd.dataset.data" := rfl
      have e2 : strOf [("x_key", Kw.str "x"), ("t_key", .str "t"), ("u_key", .str "usol")] "x_key" "x" = "x" := rfl
      have e3 : strOf [("x_key", Kw.str "x"), ("t_key", .str "t"), ("u_key", .str "usol")] "t_key" "t" = "t" := rfl
      have e4 : strOf [("x_key", Kw.str "x"), ("t_key", .str "t"), ("u_key", .str "usol")] "u_key" "usol" = "usol" := rfl
      rcases hbad with h | ⟨vars, hvars, h⟩
      · simp only [readMat, loadMat, e1, h]
      · have hfil : ∀ k : String, "__".toList.isPrefixOf k.toList = false →
            (vars.filter fun v => !("__".toList.isPrefixOf v.1.toList)).lookup k = vars.lookup k := fun k hp => lookup_plain vars k hp
        simp only [readMat, loadMat, e1, e2, e3, e4, hvars]
        rw [hfil "x" (by decide), hfil "t" (by decide), hfil "usol" (by decide)]
        rcases h with h | h | h | ⟨x, t, u, hx, ht, hu, h1, h2⟩
        · rw [h]
        · rw [h]; cases vars.lookup "x" <;> rfl
        · rw [h]; cases vars.lookup "x" <;> cases vars.lookup "t" <;> rfl
        · have : orient x.ravel t.ravel u = u := by unfold orient; rw [if_neg h2]
          simp only [hx, ht, hu, this, mkDataset_bad _ _ _ h1]
    have hent : loadMatEntry dirs info [] = .ok none := by
      unfold loadMatEntry
      simp only [hall]
      rw [if_neg (by simp [params]), hread]
    simp only [Load.loadPde, getInfo, hreg, hf, hn, Bool.false_eq_true, if_false, if_neg h0, hent]

/-- **C100** fails for square grids: a file in the dataset's own layout (one row per x) is turned, in all three kinds of entries. -/
theorem C100_square_counterexample :
    let f : Nat → Nat → Rat := fun i j => if i = 0 ∧ j = 1 then 1 else 0
    let v : Arr Rat := ⟨[2], fun i => i.getD 0 0⟩
    let dirs : String → Dir := fun _ => fun n =>
      if n = "u.npy" then some (.npy (byX f 2 2)) else if n = "u.mat" then some (.mat [("x", v), ("t", v), ("usol", byX f 2 2)])
      else some (.npy v)
    let reg : Registry := [("a", { files := some ("u.npy", "x.npy", "t.npy") }), ("b", { file := "u.npy", shape := some (2, 2) }),
      ("c", { file := "u.mat" })]
    ∀ n ∈ ["a", "b", "c"], ∃ l, Load.loadPde reg dirs n [] = .ok (some l) ∧ valueAt l.ds 0 1 = 0 ∧ valueAt l.ds 1 0 = 1 ∧ f 0 1 = 1 := by
  intro f v dirs reg n hn
  simp only [List.mem_cons, List.not_mem_nil, or_false] at hn
  rcases hn with rfl | rfl | rfl
  · exact ⟨_, rfl, by decide +kernel, by decide +kernel, rfl⟩
  · exact ⟨_, rfl, by decide +kernel, by decide +kernel, rfl⟩
  · have key : (match Load.loadPde reg dirs "c" [] with
        | .ok (some l) => decide (valueAt l.ds 0 1 = 0) && decide (valueAt l.ds 1 0 = 1)
        | _ => false) = true := by decide +kernel
    split at key
    next l hl => simp at key; exact ⟨l, hl, key.1, key.2, rfl⟩
    next => simp at key

/-! ## C101: the grid of a single-array dataset -/

/-- The bounds registered for an axis, or (0, 1). -/
def Bounds (info : Info) (axis : String) (b : Rat × Rat) : Prop :=
  (∃ d, info.domain = some d ∧ d.lookup axis = some b) ∨
  ((∀ d, info.domain = some d → d.lookup axis = none) ∧ b = (0, 1))

theorem bounds_domainOf (info : Info) (axis : String) (h : axis = "x" ∨ axis = "t") :
    Bounds info axis (boundsOf (domainOf info).val axis) := by
  unfold domainOf
  split
  next d ds hd =>
    simp only [Shared.val, boundsOf]
    cases hl : (d :: ds).lookup axis with
    | none => exact Or.inr ⟨fun d' h' => by rw [hd] at h'; cases h'; exact hl, rfl⟩
    | some b => exact Or.inl ⟨_, hd, hl⟩
  next hd =>
    refine Or.inr ⟨?_, ?_⟩
    · intro d h'
      cases d with
      | nil => rfl
      | cons a r => exact absurd h' (hd a r)
    · rcases h with rfl | rfl <;> rfl

/-- **C101** A dataset read from one `.npy` file has, along each axis, equally spaced coordinates from the registered lower to the registered
upper bound (0 and 1 if none is registered), as many as the solution has rows resp. columns, and as many as registered. -/
theorem C101_grid (reg : Registry) (dirs : String → Dir) (name : String) (info : Info) (kw : List (String × Kw)) (l : Loaded)
    (hreg : reg.lookup name = some info) (hf : info.files = none) (hn : isNpy info.file = true)
    (hl : Load.loadPde reg dirs name kw = .ok (some l)) :
    ∃ x t nx nt bx bt, l.ds.x = some x ∧ l.ds.t = some t ∧ l.ds.usol.shape = [nx, nt] ∧ Bounds info "x" bx ∧ Bounds info "t" bt ∧
      EquallySpaced x bx.1 bx.2 nx ∧ EquallySpaced t bt.1 bt.2 nt ∧ (∀ s, info.shape = some s → s = (nx, nt)) := by
  simp only [Load.loadPde, getInfo, hreg, hf, hn, if_true] at hl
  unfold loadSingle at hl
  cases ha : loadNpy (dirs "kd.dataset.data") info.file with
  | error e => simp [ha] at hl
  | ok a =>
    simp only [ha] at hl
    cases hu : toShape a info.shape with
    | error e => simp [hu] at hl
    | ok u =>
      simp only [hu] at hl
      match hsh : u.shape with
      | [] => simp [hsh] at hl
      | [_] => simp [hsh] at hl
      | _ :: _ :: _ :: _ => simp [hsh] at hl
      | [nx, nt] =>
        simp only [hsh] at hl
        rw [mkDataset_ok _ _ _ (by simp [linspace_length, hsh])] at hl
        simp only [Except.ok.injEq, Option.some.injEq] at hl
        subst hl
        refine ⟨_, _, nx, nt, _, _, rfl, rfl, hsh, bounds_domainOf info "x" (Or.inl rfl), bounds_domainOf info "t" (Or.inr rfl),
          linspace_spaced _ _ _, linspace_spaced _ _ _, ?_⟩
        rintro ⟨sx, st⟩ hs
        rw [hs] at hu
        unfold toShape at hu
        simp only at hu
        split at hu
        next h =>
          cases hu
          simp only [Arr.transpose2, h, List.reverse_cons, List.reverse_nil, List.nil_append, List.cons_append, List.cons.injEq] at hsh
          rw [hsh.1, hsh.2.1]
        next h =>
          split at hu
          next h' =>
            unfold reshape at hu
            split at hu
            · cases hu
              simp only [List.cons.injEq] at hsh
              rw [hsh.1, hsh.2.1]
            · cases hu
          next h' =>
            cases hu
            have h'' := Decidable.not_not.1 h'
            rw [h''] at hsh
            simp only [List.cons.injEq] at hsh
            rw [hsh.1, hsh.2.1]

theorem loadSingle_ok {dir : Dir} {info : Info} {kw : List (String × Kw)} {r : Raw} (h : loadSingle dir info kw = .ok r) :
    r.epi = epiOf kw ∧ r.domain = some (domainOf info) := by
  unfold loadSingle at h
  cases ha : loadNpy dir info.file with
  | error e => simp [ha] at h
  | ok a =>
    simp only [ha] at h
    cases hu : toShape a info.shape with
    | error e => simp [hu] at h
    | ok u =>
      simp only [hu] at h
      match hsh : u.shape with
      | [] => simp [hsh] at h
      | [_] => simp [hsh] at h
      | _ :: _ :: _ :: _ => simp [hsh] at h
      | [nx, nt] =>
        simp only [hsh] at h
        rw [mkDataset_ok _ _ _ (by simp [linspace_length, hsh])] at h
        cases h
        exact ⟨rfl, rfl⟩

theorem loadFiles_ok {dir : Dir} {info : Info} {fu fx ft : String} {kw : List (String × Kw)} {r : Raw}
    (h : loadFiles dir info fu fx ft kw = .ok r) : r.epi = epiOf kw ∧ r.domain = info.domain.map .registry := by
  unfold loadFiles at h
  repeat' split at h
  all_goals first
    | (cases h; done)
    | (cases h; exact ⟨rfl, rfl⟩)

/-! ## C102: names -/

/-- What a returned dataset was made from. -/
theorem loaded_from (reg : Registry) (dirs : String → Dir) (name : String) (kw : List (String × Kw)) (l : Loaded)
    (hl : Load.loadPde reg dirs name kw = .ok (some l)) : (∃ i, reg.lookup name = some i) ∧ ∃ r, l = tag reg name r := by
  unfold Load.loadPde getInfo at hl
  cases hr : reg.lookup name with
  | none => simp [hr] at hl
  | some info =>
    refine ⟨⟨info, rfl⟩, ?_⟩
    simp only [hr] at hl
    split at hl
    · split at hl
      · cases hl
      · cases hl; exact ⟨_, rfl⟩
    · split at hl
      · split at hl
        · cases hl
        · cases hl; exact ⟨_, rfl⟩
      · split at hl
        · cases hl
        · split at hl
          · cases hl
          · cases hl
          · cases hl; exact ⟨_, rfl⟩

/-- **C102** Every dataset returned carries the name it was asked for, as its equation name and as its registry name; its legacy name is
the registered legacy alias, or else that same name; and the name is one of the available ones. -/
theorem C102_names (reg : Registry) (dirs : String → Dir) (name : String) (kw : List (String × Kw)) (l : Loaded)
    (hl : Load.loadPde reg dirs name kw = .ok (some l)) :
    name ∈ available reg ∧ l.registryName = name ∧ l.equationName = name ∧
    ∃ info, reg.lookup name = some info ∧ l.aliases.val = info.aliases.getD [] ∧
      ((∃ al v, info.aliases = some al ∧ al.lookup "legacy" = some v ∧ l.legacyName = v) ∨
       ((∀ al, info.aliases = some al → al.lookup "legacy" = none) ∧ l.legacyName = name)) := by
  obtain ⟨⟨info, hi⟩, r, rfl⟩ := loaded_from reg dirs name kw l hl
  refine ⟨?_, rfl, rfl, info, hi, ?_, ?_⟩
  · have : (reg.lookup name).isSome := by rw [hi]; rfl
    have := List.lookup_isSome_iff.1 this
    obtain ⟨e, he, heq⟩ := this
    exact List.mem_map.2 ⟨e, he, (by simpa using heq : _ = e.1).symm⟩
  · simp only [tag, hi, Option.bind_some]
    split
    next h => rw [h]; rfl
    next h => rfl
  · simp only [tag, hi, Option.bind_some]
    cases ha : info.aliases with
    | none => exact Or.inr ⟨(fun al h => nomatch h), rfl⟩
    | some al =>
      simp only [Option.getD_some]
      cases hl : al.lookup "legacy" with
      | none => exact Or.inr ⟨fun al' h => by cases h; exact hl, rfl⟩
      | some v => exact Or.inl ⟨al, v, rfl, hl, rfl⟩

/-- **C102** (unknown names): a name that is not available is a ValueError, for the data and for the reference equation. -/
theorem C102_unknown (reg : Registry) (dirs : String → Dir) (name : String) (kw : List (String × Kw)) (h : name ∉ available reg) :
    Load.loadPde reg dirs name kw = .error .value ∧ symTrue reg name = .error .value := by
  have : reg.lookup name = none := by
    rw [List.lookup_eq_none_iff]
    intro p hp
    simp only [bne_iff_ne, ne_eq]
    intro e
    exact h (List.mem_map.2 ⟨p, hp, e.symm⟩)
  simp [Load.loadPde, symTrue, getInfo, this]

/-- **C102** (shipped names): each shipped name other than the last loads, once its files are there in the layout of the data directory
(here for the single arrays, which lie there with 251 rows and 100 columns).
Partial, of the whole claim: Names and refusals in full; one shipped name has no file and gives None (counterexample). -/
theorem C102_shipped_arrays_partial (dirs : String → Dir) (f : Nat → Nat → Rat) (kw : List (String × Kw)) (name : String)
    (hn : name = "PDE_divide" ∨ name = "PDE_compound")
    (hfile : dirs "kd.dataset.data" (name ++ ".npy") = some (.npy (byT f 100 251))) :
    ∃ l x t, Load.loadPde shipped dirs name kw = .ok (some l) ∧ Holds l.ds x t f ∧ EquallySpaced x 1 2 100 ∧
      EquallySpaced t 0 (if name = "PDE_divide" then 1 else 1/2) 251 := by
  have go : ∀ info : Info, shipped.lookup name = some info → info.files = none → info.file = name ++ ".npy" → isNpy info.file = true →
      info.shape = some (100, 251) → info.domain = some [("x", 1, 2), ("t", 0, if name = "PDE_divide" then 1 else 1/2)] →
      ∃ l x t, Load.loadPde shipped dirs name kw = .ok (some l) ∧ Holds l.ds x t f ∧ EquallySpaced x 1 2 100 ∧
      EquallySpaced t 0 (if name = "PDE_divide" then 1 else 1/2) 251 := by
    intro info h1 h2 h3 h4 h5 h6
    obtain ⟨l, x, t, hl, hh, hx, ht⟩ := C100_single_partial shipped dirs name info kw (byT f 100 251) 100 251 f h1 h2 h4 h5
      (by rw [h3]; exact hfile) (by decide) (Or.inr rfl)
    obtain ⟨x', t', nx, nt, bx, bt, e1, e2, e3, b1, b2, s1, s2, e4⟩ := C101_grid shipped dirs name info kw l h1 h2 h4 hl
    have := e4 _ h5
    cases this
    have hx' := hh.1.hx.symm.trans e1
    have ht' := hh.1.ht.symm.trans e2
    cases hx'; cases ht'
    refine ⟨l, x, t, hl, hh, ?_, ?_⟩
    · rcases b1 with ⟨d, hd, hb⟩ | ⟨hd, hb⟩
      · rw [h6] at hd; cases hd
        simp [List.lookup] at hb
        rw [← hb] at s1; exact s1
      · have := hd _ h6; simp [List.lookup] at this
    · rcases b2 with ⟨d, hd, hb⟩ | ⟨hd, hb⟩
      · rw [h6] at hd; cases hd
        simp [List.lookup] at hb
        rw [← hb] at s2
        simpa using s2
      · have := hd _ h6; simp [List.lookup] at this
  rcases hn with rfl | rfl
  · exact go _ rfl rfl rfl (by decide) rfl (by rw [if_pos rfl])
  · exact go _ rfl rfl rfl (by decide) rfl (by rw [if_neg (by decide)])

/-- **C102, counterexample** `advection_diffusion` is listed as available, but its file is not in the data directory: `load_pde` returns `None`
instead of a dataset, without an exception. -/
theorem C102_none_counterexample (dirs : String → Dir) (h : dirs "kd.dataset.data" "Advection_diffusion.mat" = none) :
    "advection_diffusion" ∈ available shipped ∧ Load.loadPde shipped dirs "advection_diffusion" [] = .ok none := by
  refine ⟨by decide, ?_⟩
  have hl : shipped.lookup "advection_diffusion" =
      some { file := "Advection_diffusion.mat", keys := [("x_key", "x"), ("t_key", "t"), ("u_key", "u")] } := rfl
  have hn : isNpy "Advection_diffusion.mat" = false := by decide
  have hread : ∀ kw, kw = [("x_key", Kw.str "x"), ("t_key", .str "t"), ("u_key", .str "u")] →
      readMat dirs "Advection_diffusion.mat" kw = none := by
    rintro _ rfl
    have e1 : strOf [("x_key", Kw.str "x"), ("t_key", .str "t"), ("u_key", .str "u")] "data_dir_module" "kd.dataset.data" = "kd.dataset.data" := rfl
    simp only [readMat, e1, loadMat, h]
  have hent : loadMatEntry dirs { file := "Advection_diffusion.mat", keys := [("x_key", "x"), ("t_key", "t"), ("u_key", "u")] } [] = .ok none := by
    unfold loadMatEntry
    simp only [passed, List.map_cons, List.map_nil, List.append_nil]
    rw [if_neg (by simp [params]), hread _ rfl]
  simp only [Load.loadPde, getInfo, hl, hn, Bool.false_eq_true, if_false, hent]
  rw [if_neg (by decide)]

/-! ## C103: the deprecated loaders -/

/-- **C103** When the file stores the solution by rows of x and the two axes differ in length, the deprecated loaders return the same grid
and the same values as `load_pde`. -/
theorem C103_same_partial (dirs : String → Dir) (vars : List (String × Arr Rat)) (x t : Arr Rat) (f : Nat → Nat → Rat)
    (hne : x.ravel.length ≠ t.ravel.length) (hx : vars.lookup "x" = some x) :
    (dirs "kd.dataset.data" "burgers2.mat" = some (.mat vars) → vars.lookup "t" = some t →
      vars.lookup "usol" = some (byX f x.ravel.length t.ravel.length) →
      ∃ d l, loadBurgers (dirs "kd.dataset.data") = .ok d ∧ Load.loadPde shipped dirs "burgers" [] = .ok (some l) ∧
        Holds d x.ravel t.ravel f ∧ Holds l.ds x.ravel t.ravel f) ∧
    (dirs "kd.dataset.data" "KdV_equation.mat" = some (.mat vars) → vars.lookup "tt" = some t →
      vars.lookup "uu" = some (byX f x.ravel.length t.ravel.length) →
      ∃ d l, loadKdv (dirs "kd.dataset.data") = .ok d ∧ Load.loadPde shipped dirs "kdv" [] = .ok (some l) ∧
        Holds d x.ravel t.ravel f ∧ Holds l.ds x.ravel t.ravel f) := by
  constructor
  · intro hfile ht hu
    obtain ⟨l, hl, hh⟩ := C100_mat_partial shipped dirs "burgers" _ "x" "t" "usol" vars x t _ f rfl rfl (by decide) (by decide) rfl hfile hx ht hu
      (by decide) hne (Or.inl rfl)
    refine ⟨⟨some x.ravel, some t.ravel, byX f x.ravel.length t.ravel.length, none, none, none, none, none, []⟩, l, ?_, hl, holds_byX _ _ _, hh⟩
    simp only [loadBurgers, loadMat, hfile, lookup_plain vars "x" (by decide), lookup_plain vars "t" (by decide),
      lookup_plain vars "usol" (by decide), hx, ht, hu]
    simp [construct, initLegacy, addParams, byX]
  · intro hfile ht hu
    obtain ⟨l, hl, hh⟩ := C100_mat_partial shipped dirs "kdv" _ "x" "tt" "uu" vars x t _ f rfl rfl (by decide) (by decide) rfl hfile hx ht hu
      (by decide) hne (Or.inl rfl)
    refine ⟨⟨some x.ravel, some t.ravel, byX f x.ravel.length t.ravel.length, none, none, none, none, none, []⟩, l, ?_, hl, holds_byX _ _ _, hh⟩
    simp only [loadKdv, loadMat, hfile, lookup_plain vars "x" (by decide), lookup_plain vars "tt" (by decide),
      lookup_plain vars "uu" (by decide), hx, ht, hu]
    exact mkDataset_ok _ _ _ rfl

/-- **C103, counterexample** When the file stores it by rows of t, `load_pde` still reads it, but the deprecated loaders raise ValueError. -/
theorem C103_turned_counterexample (dirs : String → Dir) (vars : List (String × Arr Rat)) (x t : Arr Rat) (f : Nat → Nat → Rat)
    (hne : x.ravel.length ≠ t.ravel.length) (hx : vars.lookup "x" = some x)
    (hfile : dirs "kd.dataset.data" "burgers2.mat" = some (.mat vars)) (ht : vars.lookup "t" = some t)
    (hu : vars.lookup "usol" = some (byT f x.ravel.length t.ravel.length)) :
    loadBurgers (dirs "kd.dataset.data") = .error .value ∧
    ∃ l, Load.loadPde shipped dirs "burgers" [] = .ok (some l) ∧ Holds l.ds x.ravel t.ravel f := by
  constructor
  · simp only [loadBurgers, loadMat, hfile, lookup_plain vars "x" (by decide), lookup_plain vars "t" (by decide),
      lookup_plain vars "usol" (by decide), hx, ht, hu]
    have : ¬ (t.ravel.length = x.ravel.length ∧ x.ravel.length = t.ravel.length) := by omega
    simp [construct, initLegacy, byT, this, Exn.of]
  · exact C100_mat_partial shipped dirs "burgers" _ "x" "t" "usol" vars x t _ f rfl rfl (by decide) (by decide) rfl hfile hx ht hu
      (by decide) hne (Or.inr rfl)

/-! ## C104: keyword arguments -/

/-- **C104** (`epi`): whatever the kind of entry, a returned dataset has the sparsity penalty given by the caller, or 1e-3.
Partial, of the whole claim: epi in full; other keywords are ignored for array files and rejected for .mat files (counterexample). -/
theorem C104_epi_partial (reg : Registry) (dirs : String → Dir) (name : String) (kw : List (String × Kw)) (l : Loaded)
    (hl : Load.loadPde reg dirs name kw = .ok (some l)) :
    (∀ q, kw.lookup "epi" = some (.num q) → l.epi = q) ∧ (kw.lookup "epi" = none → l.epi = 1 / 1000) := by
  have e1 : (∀ q, kw.lookup "epi" = some (.num q) → epiOf kw = q) ∧ (kw.lookup "epi" = none → epiOf kw = 1 / 1000) :=
    ⟨fun q h => by simp [epiOf, h], fun h => by simp [epiOf, h]⟩
  unfold Load.loadPde getInfo at hl
  cases hr : reg.lookup name with
  | none => simp [hr] at hl
  | some info =>
    simp only [hr] at hl
    split at hl
    next fu fx ft hf =>
      split at hl
      · cases hl
      next r h =>
        cases hl
        have : (tag reg name r).epi = epiOf kw := (loadFiles_ok h).1
        rw [this]; exact e1
    next hf =>
      split at hl
      · split at hl
        · cases hl
        next r h =>
          cases hl
          have : (tag reg name r).epi = epiOf kw := (loadSingle_ok h).1
          rw [this]; exact e1
      · split at hl
        · cases hl
        · split at hl
          · cases hl
          · cases hl
          next r h =>
            cases hl
            unfold loadMatEntry at h
            simp only at h
            split at h
            · cases h
            next hok =>
              split at h
              · cases h
              next d hd =>
                cases h
                have hnd : ((passed info kw).map (·.1)).Nodup := by
                  rcases Decidable.em ((passed info kw).map (·.1)).Nodup with h | h
                  · exact h
                  · exact absurd (Or.inl h) hok
                have hcase : ∀ ks : List (String × String), (ks.map (fun k => (k.1, Kw.str k.2)) ++ kw).lookup "epi" =
                    match ks.lookup "epi" with | some s => some (.str s) | none => kw.lookup "epi" := by
                  intro ks
                  induction ks with
                  | nil => rfl
                  | cons p r ih =>
                    obtain ⟨a, b⟩ := p
                    simp only [List.map_cons, List.cons_append, List.lookup]
                    cases h : ("epi" == a) with
                    | true => rfl
                    | false => exact ih
                have hthis : (passed info kw).lookup "epi" =
                    match info.keys.lookup "epi" with | some s => some (.str s) | none => kw.lookup "epi" := hcase info.keys
                cases hk : info.keys.lookup "epi" with
                | none =>
                  rw [hk] at hthis
                  simp only at hthis
                  refine ⟨fun q h => ?_, fun h => ?_⟩
                  · simp [tag, epiOf, hthis, h]
                  · simp [tag, epiOf, hthis, h]
                | some s =>
                  rw [hk] at hthis
                  simp only at hthis
                  refine ⟨fun q h => ?_, fun h => ?_⟩
                  · exfalso
                    have m1 : "epi" ∈ (info.keys.map (fun k => (k.1, Kw.str k.2))).map (·.1) := by
                      have : (info.keys.lookup "epi").isSome := by rw [hk]; rfl
                      obtain ⟨e, he, heq⟩ := List.lookup_isSome_iff.1 this
                      simp only [List.map_map, List.mem_map, Function.comp]
                      exact ⟨e, he, (by simpa using heq : _ = e.1).symm⟩
                    have m2 : "epi" ∈ kw.map (·.1) := by
                      have : (kw.lookup "epi").isSome := by rw [h]; rfl
                      obtain ⟨e, he, heq⟩ := List.lookup_isSome_iff.1 this
                      exact List.mem_map.2 ⟨e, he, (by simpa using heq : _ = e.1).symm⟩
                    rw [passed, List.map_append] at hnd
                    exact (List.nodup_append.1 hnd).2.2 _ m1 _ m2 rfl
                  · simp [tag, epiOf, hthis]

/-- **C104** (the others, array files): keyword arguments other than `epi` have no effect at all. -/
theorem C104_ignored (reg : Registry) (dirs : String → Dir) (name : String) (info : Info) (kw kw' : List (String × Kw))
    (hreg : reg.lookup name = some info) (hf : info.files.isSome ∨ isNpy info.file = true) (h : kw.lookup "epi" = kw'.lookup "epi") :
    Load.loadPde reg dirs name kw = Load.loadPde reg dirs name kw' := by
  have he : epiOf kw = epiOf kw' := by simp [epiOf, h]
  unfold Load.loadPde
  simp only [getInfo, hreg]
  cases hfs : info.files with
  | some q => obtain ⟨fu, fx, ft⟩ := q; simp only [loadFiles, he]
  | none =>
    rw [hfs] at hf
    have hn : isNpy info.file = true := by simpa using hf
    simp only [hn, if_true, loadSingle, he]

/-- **C104** (`.mat` files): a keyword `load_pde_dataset` does not have, or one the registry entry already sets, is a TypeError. -/
theorem C104_rejected (reg : Registry) (dirs : String → Dir) (name : String) (info : Info) (kw : List (String × Kw)) (k : String)
    (hreg : reg.lookup name = some info) (hf : info.files = none) (hn : isNpy info.file = false) (h0 : info.file ≠ "")
    (hk : k ∈ kw.map (·.1)) (hbad : k ∉ ["x_key", "t_key", "u_key", "epi", "data_dir_module"] ∨ k ∈ info.keys.map (·.1)) :
    Load.loadPde reg dirs name kw = .error .type := by
  have hent : loadMatEntry dirs info kw = .error .type := by
    unfold loadMatEntry
    simp only
    rw [if_pos]
    rcases hbad with h | h
    · refine Or.inr fun hall => h (hall k ?_)
      simp only [passed, List.map_append, List.mem_append]
      exact Or.inr hk
    · refine Or.inl fun hnd => ?_
      rw [passed, List.map_append] at hnd
      refine (List.nodup_append.1 hnd).2.2 k ?_ k hk rfl
      simpa [List.map_map, Function.comp_def] using h
  simp only [Load.loadPde, getInfo, hreg, hf, hn, Bool.false_eq_true, if_false, if_neg h0, hent]

/-- **C104, counterexample** The same call with a keyword is rejected for one shipped name and silently ignores the keyword for another. -/
theorem C104_uneven_counterexample (dirs : String → Dir) (v : Kw) :
    Load.loadPde shipped dirs "burgers" [("u_key", v)] = .error .type ∧
    Load.loadPde shipped dirs "PDE_divide" [("u_key", v)] = Load.loadPde shipped dirs "PDE_divide" [] :=
  ⟨C104_rejected shipped dirs "burgers" _ _ "u_key" rfl rfl (by decide) (by decide) (by simp) (Or.inr (by decide)),
   C104_ignored shipped dirs "PDE_divide" _ _ _ rfl (Or.inr (by decide)) rfl⟩

/-! ## C105: what a caller does to a dataset -/

theorem lookup_map_other {reg : Registry} {n m : String} (g : Info → Info) (h : m ≠ n) :
    (reg.map fun e => if e.1 = n then (e.1, g e.2) else e).lookup m = reg.lookup m := by
  induction reg with
  | nil => rfl
  | cons p r ih =>
    obtain ⟨a, b⟩ := p
    simp only [List.map_cons]
    by_cases ha : a = n
    · subst ha
      rw [if_pos rfl, List.lookup, List.lookup]
      have : (m == a) = false := by simpa using h
      rw [this]; exact ih
    · rw [if_neg ha, List.lookup, List.lookup, ih]

/-- Loading depends on the registry only through the entry of that name. -/
theorem loadPde_congr (reg reg' : Registry) (dirs : String → Dir) (name : String) (kw : List (String × Kw))
    (h : reg.lookup name = reg'.lookup name) : Load.loadPde reg dirs name kw = Load.loadPde reg' dirs name kw := by
  have ht : ∀ r, tag reg name r = tag reg' name r := fun r => by simp [tag, h]
  simp only [Load.loadPde, getInfo, h, ht]

/-- **C105** Editing the alias and domain dictionaries of a dataset never changes what loading another name returns. -/
theorem C105_other_partial (reg : Registry) (dirs : String → Dir) (l : Loaded) (name : String) (hne : name ≠ l.registryName)
    (kw : List (String × Kw)) (k v axis : String) (b : Rat × Rat) :
    Load.loadPde (setAlias reg l k v) dirs name kw = Load.loadPde reg dirs name kw ∧
    Load.loadPde (setDomain reg l axis b) dirs name kw = Load.loadPde reg dirs name kw := by
  constructor
  · apply loadPde_congr
    unfold setAlias
    split
    · rfl
    · exact lookup_map_other (fun i => { i with aliases := i.aliases.map fun a => setKey a k v }) hne
  · apply loadPde_congr
    unfold setDomain
    split
    · exact lookup_map_other (fun i => { i with domain := i.domain.map fun d => setKey d axis b }) hne
    · rfl

/-- **C105** (own dictionaries): if the entry registers neither aliases nor a domain, editing them changes nothing at all. -/
theorem C105_own (reg : Registry) (dirs : String → Dir) (name : String) (info : Info) (kw : List (String × Kw)) (l : Loaded)
    (hreg : reg.lookup name = some info) (ha : info.aliases = none) (hd : info.domain = none)
    (hl : Load.loadPde reg dirs name kw = .ok (some l)) (k v axis : String) (b : Rat × Rat) :
    setAlias reg l k v = reg ∧ setDomain reg l axis b = reg := by
  obtain ⟨_, r, rfl⟩ := loaded_from reg dirs name kw l hl
  constructor
  · simp [setAlias, tag, hreg, ha]
  · have hr : ∀ d, r.domain ≠ some (.registry d) := by
      intro d hrd
      have hdom : (tag reg name r).domain = some (.registry d) := hrd
      unfold Load.loadPde at hl
      simp only [getInfo, hreg] at hl
      split at hl
      · split at hl
        · cases hl
        next r' h =>
          simp only [Except.ok.injEq, Option.some.injEq] at hl
          rw [← hl] at hdom
          have h2 : (tag reg name r').domain = info.domain.map .registry := (loadFiles_ok h).2
          rw [h2, hd] at hdom
          cases hdom
      · split at hl
        · split at hl
          · cases hl
          next r' h =>
            have hdo : domainOf info = .own [("x", 0, 1), ("t", 0, 1)] := by simp [domainOf, hd]
            simp only [Except.ok.injEq, Option.some.injEq] at hl
            rw [← hl] at hdom
            have h2 : (tag reg name r').domain = some (domainOf info) := (loadSingle_ok h).2
            rw [h2, hdo] at hdom
            cases hdom
        · split at hl
          · cases hl
          · split at hl
            · cases hl
            · cases hl
            next r' h =>
              unfold loadMatEntry at h
              simp only at h
              split at h
              · cases h
              · split at h
                · cases h
                · cases h
                  simp only [Except.ok.injEq, Option.some.injEq] at hl
                  rw [← hl] at hdom
                  simp [tag, hd] at hdom
    unfold setDomain
    split
    next d h => exact absurd h (hr d)
    next => rfl

/-- **C105, counterexample** The dictionaries are the registry's own: after `dataset.domain['x'] = (5, 6)` on a dataset of `PDE_divide`, loading
`PDE_divide` again places the same solution on another grid; after `dataset.aliases['legacy'] = 'mine'` on a dataset of `burgers`, every later
one has that legacy name. -/
theorem C105_shared_counterexample (dirs : String → Dir) (f : Nat → Nat → Rat)
    (hfile : dirs "kd.dataset.data" "PDE_divide.npy" = some (.npy (byT f 100 251))) :
    (∃ l l' x x', Load.loadPde shipped dirs "PDE_divide" [] = .ok (some l) ∧ l.ds.x = some x ∧ x[0]? = some 1 ∧
      Load.loadPde (setDomain shipped l "x" (5, 6)) dirs "PDE_divide" [] = .ok (some l') ∧ l'.ds.x = some x' ∧ x'[0]? = some 5) ∧
    (∀ l, Load.loadPde shipped dirs "burgers" [] = .ok (some l) → ∀ l',
      Load.loadPde (setAlias shipped l "legacy" "mine") dirs "burgers" [] = .ok (some l') →
      l.legacyName = "Burgers2" ∧ l'.legacyName = "mine") := by
  constructor
  · have go : ∀ (reg : Registry) (info : Info) (lo hi lo' hi' : Rat), reg.lookup "PDE_divide" = some info → info.files = none →
        info.file = "PDE_divide.npy" → info.shape = some (100, 251) → info.domain = some [("x", lo, hi), ("t", lo', hi')] →
        ∃ l x, Load.loadPde reg dirs "PDE_divide" [] = .ok (some l) ∧ l.ds.x = some x ∧ x[0]? = some lo ∧
          l.domain = some (.registry [("x", lo, hi), ("t", lo', hi')]) ∧ l.registryName = "PDE_divide" := by
      intro reg info lo hi lo' hi' h1 h2 h3 h4 h5
      have hts : toShape (byT f 100 251) (some (100, 251)) = .ok (byT f 100 251).transpose2 := by
        unfold toShape; exact if_pos rfl
      have hn : isNpy info.file = true := by rw [h3]; decide
      have hdo : domainOf info = .registry [("x", lo, hi), ("t", lo', hi')] := by simp [domainOf, h5]
      have hsh : (byT f 100 251).transpose2.shape = [100, 251] := rfl
      refine ⟨tag reg "PDE_divide" ⟨⟨some (linspace lo hi 100), some (linspace lo' hi' 251), (byT f 100 251).transpose2, none, none, none, none, none, []⟩,
        some (domainOf info), epiOf []⟩, linspace lo hi 100, ?_, rfl, ?_, ?_, rfl⟩
      · rw [h3] at hn
        simp only [Load.loadPde, getInfo, h1, h2, h3, hn, if_true, loadSingle, loadNpy, hfile, h4, hts, hsh]
        have hb1 : boundsOf (domainOf info).val "x" = (lo, hi) := by rw [hdo]; rfl
        have hb2 : boundsOf (domainOf info).val "t" = (lo', hi') := by rw [hdo]; rfl
        rw [hb1, hb2, mkDataset_ok _ _ _ (by simp [linspace_length, hsh])]
      · rw [linspace_get _ _ _ _ (by decide) (by decide)]; simp
      · simp only [tag, hdo]
    obtain ⟨l, x, hl, hx, h0, hdom, hnm⟩ := go shipped _ 1 2 0 1 rfl rfl rfl rfl rfl
    have hreg : (setDomain shipped l "x" (5, 6)).lookup "PDE_divide" =
        some { file := "PDE_divide.npy", shape := some (100, 251), symTrue := some "add,div,diff,u1,x1,x1,diff2,u1,x1",
               domain := some [("x", 5, 6), ("t", 0, 1)] } := by
      simp only [setDomain, hdom, hnm]
      decide +kernel
    obtain ⟨l', x', hl', hx', h0', _, _⟩ := go _ _ 5 6 0 1 hreg rfl rfl rfl rfl
    exact ⟨l, l', x, x', hl, hx, h0, hl', hx', h0'⟩
  · intro l hl l' hl'
    obtain ⟨_, r, rfl⟩ := loaded_from _ _ _ _ _ hl
    obtain ⟨_, r', rfl⟩ := loaded_from _ _ _ _ _ hl'
    exact ⟨rfl, rfl⟩

/-! ## C106: uploaded files -/

/-- **C106** (`.mat`): either layout is read correctly when the two axes differ in length. -/
theorem C106_mat_partial (c : FileConfig) (vars : List (String × Arr Rat)) (x t u : Arr Rat) (f : Nat → Nat → Rat)
    (hx : vars.lookup (c.xKey.getD "x") = some x) (ht : vars.lookup (c.tKey.getD "t") = some t)
    (hu : vars.lookup (c.uKey.getD "usol") = some u)
    (hmeta : ∀ k ∈ [c.xKey.getD "x", c.tKey.getD "t", c.uKey.getD "usol"], "__".toList.isPrefixOf k.toList = false)
    (hne : x.ravel.length ≠ t.ravel.length)
    (hl : u = byX f x.ravel.length t.ravel.length ∨ u = byT f x.ravel.length t.ravel.length) :
    ∃ d, loadUpload (.mat vars) ".mat" c = .ok d ∧ Holds d x.ravel t.ravel f := by
  obtain ⟨d, hd, hh⟩ := orient_either _ _ f hne u hl
  refine ⟨d, ?_, hh⟩
  simp only [loadUpload, if_true, loadMat, lookup_plain vars _ (hmeta _ (by simp : c.xKey.getD "x" ∈ _)),
    lookup_plain vars _ (hmeta _ (by simp : c.tKey.getD "t" ∈ _)), lookup_plain vars _ (hmeta _ (by simp : c.uKey.getD "usol" ∈ _)),
    hx, ht, hu, hd]

/-- **C106** (`.npy`): the entries are read row by row into the configured shape, on an equally spaced grid over the configured domain
(0 to 1 if none); a file with another number of entries is refused. -/
theorem C106_npy (c : FileConfig) (a : Arr Rat) (nx nt : Nat) (hs : c.shape = some [nx, nt]) :
    (a.shape.prod = nx * nt → ∃ d x t, loadUpload (.npy a) ".npy" c = .ok d ∧ Holds d x t (rowMajor a nt) ∧
      (∀ lo hi, (c.domain.getD []).lookup "x" = some (lo, hi) → EquallySpaced x lo hi nx) ∧
      ((c.domain.getD []).lookup "x" = none → EquallySpaced x 0 1 nx) ∧
      (∀ lo hi, (c.domain.getD []).lookup "t" = some (lo, hi) → EquallySpaced t lo hi nt) ∧
      ((c.domain.getD []).lookup "t" = none → EquallySpaced t 0 1 nt)) ∧
    (a.shape.prod ≠ nx * nt → loadUpload (.npy a) ".npy" c = .error .value) := by
  have hne : ¬ ((".npy" : String) = ".mat") := by decide
  constructor
  · intro hp
    have hr : reshape a [nx, nt] = .ok ⟨[nx, nt], fun i => (a.ravel[flatIdx [nx, nt] i]?).getD 0⟩ := by
      unfold reshape; rw [if_pos (by simp [hp])]
    let bx := boundsOf (c.domain.getD []) "x"
    let bt := boundsOf (c.domain.getD []) "t"
    refine ⟨⟨some (linspace bx.1 bx.2 nx), some (linspace bt.1 bt.2 nt), ⟨[nx, nt], fun i => (a.ravel[flatIdx [nx, nt] i]?).getD 0⟩,
      none, none, none, none, none, []⟩, linspace bx.1 bx.2 nx, linspace bt.1 bt.2 nt, ?_, ⟨⟨rfl, rfl, ?_, Or.inl rfl⟩, ?_⟩, ?_, ?_, ?_, ?_⟩
    · simp only [loadUpload, if_neg hne, if_true, loadNpy, hs, hr]
      rw [mkDataset_ok _ _ _ (by simp [linspace_length])]
    · simp [linspace_length]
    · intro i j _ _
      simp [valueAt, cellIdx, rowMajor, flatIdx]
    · intro lo hi h
      have : bx = (lo, hi) := by simp [bx, boundsOf, h]
      rw [this]; exact linspace_spaced _ _ _
    · intro h
      have : bx = (0, 1) := by simp [bx, boundsOf, h]
      rw [this]; exact linspace_spaced _ _ _
    · intro lo hi h
      have : bt = (lo, hi) := by simp [bt, boundsOf, h]
      rw [this]; exact linspace_spaced _ _ _
    · intro h
      have : bt = (0, 1) := by simp [bt, boundsOf, h]
      rw [this]; exact linspace_spaced _ _ _
  · intro hp
    have hr : reshape a [nx, nt] = .error .value := by unfold reshape; rw [if_neg (by simpa using hp)]
    simp only [loadUpload, if_neg hne, if_true, loadNpy, hs, hr]

/-- **C106** (refusals): an array without a shape of two numbers, or a file of another type, is a ValueError. -/
theorem C106_refused (file : Content) (ext : String) (c : FileConfig)
    (h : (ext ≠ ".mat" ∧ ext ≠ ".npy") ∨ (ext = ".npy" ∧ ∀ nx nt, c.shape ≠ some [nx, nt])) :
    loadUpload file ext c = .error .value := by
  unfold loadUpload
  rcases h with ⟨h1, h2⟩ | ⟨rfl, h⟩
  · rw [if_neg h1, if_neg h2]
  · rw [if_neg (by decide), if_pos rfl]
    cases file with
    | mat v => rfl
    | npy a =>
      simp only [loadNpy]

/-- **C106, counterexample** The same array (2 rows of t, 3 columns of x) is turned by `load_pde` but read row by row when uploaded: the value
of x number 0 at t number 1 is one of x number 1 at t number 0 there. -/
theorem C106_turned_counterexample :
    let f : Nat → Nat → Rat := fun i j => 10 * i + j
    let dirs : String → Dir := fun _ _ => some (.npy (byT f 3 2))
    ∃ l d, Load.loadPde [("a", { file := "a.npy", shape := some (3, 2) })] dirs "a" [] = .ok (some l) ∧
      loadUpload (.npy (byT f 3 2)) ".npy" { shape := some [3, 2] } = .ok d ∧
      valueAt l.ds 0 1 = f 0 1 ∧ valueAt d 0 1 = f 1 0 ∧ f 0 1 ≠ f 1 0 :=
  ⟨_, _, rfl, rfl, by decide +kernel, by decide +kernel, by decide +kernel⟩

/-! ## C107: tabular data -/

/-- **C107** A regression table gives, for every row of the file, the configured columns as features and the configured column as target, in
the order of the file, together with the registered names; unknown names are refused. -/
theorem C107_table (reg : List (String × TableInfo)) (dir : Dir) (name : String) :
    (∀ X y vars target, loadRegression reg dir name = .ok (X, y, vars, target) →
      ∃ info a n m, reg.lookup name = some info ∧ dir info.file = some (.npy a) ∧ a.shape = [n, m] ∧ X.length = n ∧ y.length = n ∧
        (∀ i < n, y[i]? = some (a.get [i, info.yCol]) ∧ ∃ row, X[i]? = some row ∧ row.length = info.xCols.length ∧
          ∀ (k c : Nat), info.xCols[k]? = some c → c < m ∧ row[k]? = some (a.get [i, c])) ∧
        vars = info.varNames ∧ target = info.target) ∧
    (name ∉ reg.map (·.1) → loadRegression reg dir name = .error .value) := by
  constructor
  · intro X y vars target h
    unfold loadRegression at h
    cases hr : reg.lookup name with
    | none => simp [hr] at h
    | some info =>
      simp only [hr] at h
      cases hd : dir info.file with
      | none => simp [loadNpy, hd] at h
      | some ct =>
        cases ct with
        | mat v => simp [loadNpy, hd] at h
        | npy a =>
          simp only [loadNpy, hd] at h
          match hsh : a.shape with
          | [] => simp [hsh] at h
          | [_] => simp [hsh] at h
          | _ :: _ :: _ :: _ => simp [hsh] at h
          | [n, m] =>
            simp only [hsh] at h
            split at h
            next hc =>
              simp only [Except.ok.injEq, Prod.mk.injEq] at h
              obtain ⟨rfl, rfl, rfl, rfl⟩ := h
              refine ⟨info, a, n, m, rfl, hd, hsh, by simp, by simp, ?_, rfl, rfl⟩
              intro i hi
              refine ⟨by simp [hi], info.xCols.map fun c => a.get [i, c], by simp [hi], by simp, ?_⟩
              intro k c hk
              exact ⟨hc.1 c (List.mem_of_getElem? hk), by simp [hk]⟩
            next => cases h
  · intro h
    have : reg.lookup name = none := by
      rw [List.lookup_eq_none_iff]
      intro p hp
      simp only [bne_iff_ne, ne_eq]
      intro e
      exact h (List.mem_map.2 ⟨p, hp, e.symm⟩)
    simp [loadRegression, this]

/-- **C107** (shipped tables): as many variable names as feature columns. -/
theorem C107_shipped (name : String) (info : TableInfo) (h : (name, info) ∈ tables) :
    info.varNames.length = info.xCols.length ∧ info.yCol ∉ info.xCols := by
  revert name info
  intro name info h
  simp only [tables, List.mem_cons, Prod.mk.injEq, List.not_mem_nil, or_false] at h
  rcases h with ⟨_, rfl⟩ | ⟨_, rfl⟩ <;> decide

/-- **C107** (shipped tables): both tables are offered under their names; with an array of at least three columns in its file each is loaded, the first two columns as
features R_F and r, the third as target. -/
theorem C107_offered (dir : Dir) (name file target : String)
    (h : (name, file, target) = ("tlc_cc_t1", "tlc_cc_Rf_t1.npy", "mean(V_S)") ∨ (name, file, target) = ("tlc_cc_t2", "tlc_cc_Rf_t2.npy", "mean(V_E)"))
    (a : Arr Rat) (n m : Nat) (hf : dir file = some (.npy a)) (hs : a.shape = [n, m]) (hm : 3 ≤ m) :
    loadRegression tables dir name = .ok ((List.range n).map fun i => [a.get [i, 0], a.get [i, 1]], (List.range n).map fun i => a.get [i, 2], ["R_F", "r"], target) := by
  have h0 : 0 < m := by omega
  have h1 : 1 < m := by omega
  have h2 : 2 < m := by omega
  rcases h with h | h <;> cases h <;> simp [loadRegression, tables, List.lookup, loadNpy, hf, hs, h0, h1, h2]

end Verif.Claims
