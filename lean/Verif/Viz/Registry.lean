/-!
# Model of kd/viz/registry.py, kd/viz/core.py and kd/viz/_style.py

Classes are the elements of a type `C`, adapters the elements of a type `A`; `name` is `__name__` and `sub` is `issubclass`.
Not modelled: an `issubclass` that raises TypeError (registry.py:67-71; only for registered objects that are not classes) and
a resolver that itself changes the registry.
-/
namespace Verif.Viz

/-- What a lazy resolver does when it is called (registry.py:45): raise, return `(None, None)` (or a pair with one `None`), or
return a class with its adapter. -/
inductive Resolved (C A : Type) where
  | raises
  | nothing
  | found (c : C) (a : A)
deriving DecidableEq, Repr

/-- registry.py:15-19: the two dictionaries, in insertion order. -/
structure Reg (C A : Type) where
  eager : List (C × A)
  lazy : List (String × Resolved C A)
deriving DecidableEq, Repr

/-- `d[k] = v`: replace in place, or append. -/
def dput {K V : Type} [DecidableEq K] (d : List (K × V)) (k : K) (v : V) : List (K × V) :=
  match d with
  | [] => [(k, v)]
  | p :: r => if p.1 = k then (k, v) :: r else p :: dput r k v

/-- `d.pop(k, None)`. -/
def dpop {K V : Type} [DecidableEq K] (d : List (K × V)) (k : K) : List (K × V) := d.filter (fun p => p.1 ≠ k)

/-- `d.get(k)`. -/
def dget {K V : Type} [DecidableEq K] (d : List (K × V)) (k : K) : Option V :=
  match d with
  | [] => none
  | p :: r => if p.1 = k then some p.2 else dget r k

variable {C A : Type} [DecidableEq C]

/-- registry.py:22-23 `register_adapter`. -/
def register (s : Reg C A) (c : C) (a : A) : Reg C A := { s with eager := dput s.eager c a }

/-- registry.py:26-28 `register_lazy_adapter`. -/
def registerLazy (s : Reg C A) (n : String) (r : Resolved C A) : Reg C A := { s with lazy := dput s.lazy n r }

/-- registry.py:31-32 `unregister_adapter`. -/
def unregister (s : Reg C A) (c : C) : Reg C A := { s with eager := dpop s.eager c }

/-- registry.py:35-37 `clear_registry`. -/
def clear (_ : Reg C A) : Reg C A := { eager := [], lazy := [] }

/-- registry.py:40-47 `_resolve_lazy`; the flag says that the resolver raised. -/
def resolveLazy (s : Reg C A) (n : String) : Bool × Reg C A :=
  match dget s.lazy n with
  | none => (false, s)
  | some .raises => (true, { s with lazy := dpop s.lazy n })
  | some .nothing => (false, { s with lazy := dpop s.lazy n })
  | some (.found d a) => (false, { eager := dput s.eager d a, lazy := dpop s.lazy n })

/-- registry.py:66-72: the first registered class of which `c` is a subclass. -/
def walk (sub : C → C → Bool) (c : C) (d : List (C × A)) : Option A :=
  match d with
  | [] => none
  | p :: r => if sub c p.1 then some p.2 else walk sub c r

/-- registry.py:50-73 `get_adapter` for the class of the target (a target `None` gives no adapter, 51-52).  `.error ()`: the
resolver raised. -/
def getAdapter (name : C → String) (sub : C → C → Bool) (s : Reg C A) (c : C) : Except Unit (Option A) × Reg C A :=
  match dget s.eager c with
  | some a => (.ok (some a), s)
  | none =>
    match resolveLazy s (name c) with
    | (true, s') => (.error (), s')
    | (false, s') =>
      match dget s'.eager c with
      | some a => (.ok (some a), s')
      | none => (.ok (walk sub c s'.eager), s')

/-- A call of the registry's API. -/
inductive Op (C A : Type) where
  | register (c : C) (a : A)
  | registerLazy (n : String) (r : Resolved C A)
  | unregister (c : C)
  | clear
  | lookup (c : C)
deriving DecidableEq, Repr

/-- One call. -/
def step (name : C → String) (sub : C → C → Bool) (s : Reg C A) : Op C A → Reg C A
  | .register c a => register s c a
  | .registerLazy n r => registerLazy s n r
  | .unregister c => unregister s c
  | .clear => clear s
  | .lookup c => (getAdapter name sub s c).2

/-- The registry after a history of calls, the most recent call first. -/
def after (name : C → String) (sub : C → C → Bool) : List (Op C A) → Reg C A
  | [] => { eager := [], lazy := [] }
  | op :: h => step name sub (after name sub h) op

/-! ### core.py `render` and _style.py

The parameters of matplotlib are an association list with a fixed set of keys (`RcParams` rejects others); the key
`backend`, which `matplotlib.use` changes, is left out of it. -/

abbrev Rc := List (String × String)

/-- `rcParams[k] = v` for a known key. -/
def rcSet (rc : Rc) (k v : String) : Rc := rc.map (fun p => if p.1 = k then (k, v) else p)

/-- `rcParams.update(d)`: the values are set in order; an unknown key raises KeyError and leaves the earlier ones set
(first component `false`). -/
def rcUpdate (rc : Rc) : Rc → Bool × Rc
  | [] => (true, rc)
  | (k, v) :: r => if (dget rc k).isSome then rcUpdate (rcSet rc k v) r else (false, rc)

/-- `d.update(e)` for dictionaries. -/
def dupdate (d e : List (String × String)) : List (String × String) := e.foldl (fun d p => dput d p.1 p.2) d

/-- _style.py:54-64: `style_context(extra)` around a body that returns or raises and that may itself change the parameters. -/
def styleContext {R : Type} (style extra : List (String × String)) (body : Rc → Except String R × Rc) (rc : Rc) :
    Except String R × Rc :=
  match rcUpdate rc (dupdate style extra) with
  | (false, rc') => (.error "KeyError", (rcUpdate rc' rc).2)
  | (true, rc') => ((body rc').1, (rcUpdate (body rc').2 rc).2)

/-- The adapter's part: its class name, its capabilities, and its `render` method, given the intent and the backend of the
context; it returns a result or raises, and may change the parameters of matplotlib. -/
structure Adapter (R : Type) where
  cls : String
  caps : List String
  run : String → String → Rc → Except String R × Rc

/-- core.py:30-40 `VizResult` as far as `render` itself fills it in, or the adapter's own result. -/
inductive Outcome (R : Type) where
  | warning (intent text : String) (caps : Option (List String))
  | drawn (r : R)
deriving Repr

/-- The global state: the registry, `_CONFIG.style` and `_CONFIG.backend` (_style.py:23-30), and the parameters of
matplotlib. -/
structure Sess (C R : Type) where
  reg : Reg C (Adapter R)
  style : List (String × String)
  backend : Option String
  rc : Rc

/-- registry.py:50-52: no adapter for `None`. -/
def getTarget {A : Type} (name : C → String) (sub : C → C → Bool) (s : Reg C A) : Option C → Except Unit (Option A) × Reg C A
  | none => (.ok none, s)
  | some c => getAdapter name sub s c

/-- core.py:69-74: the backend asked for (`'matplotlib'` asks for none), and whether `matplotlib.use` is called for it. -/
def requested (backend : String) : Option String := if backend = "matplotlib" then none else some backend

/-- core.py:72-76 with _style.py:44-46: the configured backend after the request (`none`: `matplotlib.use` raised). -/
def switchBackend (usable : String → Bool) (current : Option String) : Option String → Option (Option String)
  | none => some current
  | some b => if b ≠ "" ∧ some b ≠ current then (if usable b then some (some b) else none) else some current

/-- core.py:76 `requested_backend or config.backend or 'matplotlib'`. -/
def activeBackend (req current : Option String) : String :=
  let t (o : Option String) : Option String := match o with | some "" => none | o => o
  ((t req).orElse (fun _ => t current)).getD "matplotlib"

/-- core.py:79-97: what is drawn once the adapter is known. -/
def draw {R : Type} (ad : Option (Adapter R)) (style extra : List (String × String)) (tname kind backend : String) (rc : Rc) :
    Except String (Outcome R) × Rc :=
  match ad with
  | none => (.ok (.warning kind ("No visualization adapter registered for " ++ tname ++ ".") none), rc)
  | some ad =>
    if ad.caps.contains kind then
      let r := styleContext style extra (ad.run kind backend) rc
      (match r.1 with | .ok x => .ok (.drawn x) | .error e => .error e, r.2)
    else
      (.ok (.warning kind ("Adapter " ++ ad.cls ++ " does not support intent '" ++ kind ++ "'.")
        (some (ad.caps.mergeSort (fun a b => decide (a ≤ b))))), rc)

/-- core.py:66-97 `render` for a target of class `c` (`none`: the target is `None`), where `tname` is the name of the target's
own type and `extra` is `request.options.get('style')` (`[]` for `None`). -/
def render {R : Type} (name : C → String) (sub : C → C → Bool) (usable : String → Bool) (s : Sess C R)
    (c : Option C) (tname kind backend : String) (extra : List (String × String)) :
    Except String (Outcome R) × Sess C R :=
  match getTarget name sub s.reg c with
  | (.error _, g) => (.error "resolver", { s with reg := g })
  | (.ok ad, g) =>
    match switchBackend usable s.backend (requested backend) with
    | none => (.error "backend", { s with reg := g })
    | some b =>
      let r := draw ad s.style extra tname kind (activeBackend (requested backend) b) s.rc
      (r.1, { s with reg := g, backend := b, rc := r.2 })

/-- core.py:100-104 `list_capabilities`. -/
def listCapabilities {R : Type} (name : C → String) (sub : C → C → Bool) (s : Reg C (Adapter R)) (c : Option C) :
    Except Unit (List String) :=
  match (getTarget name sub s c).1 with
  | .error e => .error e
  | .ok none => .ok []
  | .ok (some ad) => .ok ad.caps

/-- _style.py:33-47 `configure(style=…)`: the defaults overlaid with the given style. -/
def configureStyle {R : Type} (defaults : List (String × String)) (s : Sess C R) (style : List (String × String)) : Sess C R :=
  { s with style := dupdate defaults style }

end Verif.Viz
