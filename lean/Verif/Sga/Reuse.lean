/-!
# SGA: contexts from one configuration, one after the other (kd/model/sga/sgapde/context.py:51-80, 172-213)

Building a context writes the data it found back into the configuration.  Arrays are opaque.  Only the choice of the data is modelled; the checks
of names and shapes that follow are C28, C29.
-/
namespace Verif.Sga.Reuse

/-- Named arrays (a Python dict). -/
abbrev Dict (A : Type) := List (String × A)

/-- The parts of `SolverConfig` that decide on the data; `own` are `config.u`, `config.x`, `config.t` (from the bundled files). -/
structure Conf (A : Type) where
  target : String
  u : Option A
  x : Option A
  t : Option A
  own : Option (A × A × A)
  fields : Option (Dict A)
  coords : Option (Dict A)
  axes : Option (List String)

/-- What a context analyses: fields, coordinates and the order of the axes. -/
structure Payload (A : Type) where
  fields : Dict A
  coords : Dict A
  axes : List String

/-- context.py:192 `list(config.axis_order) if config.axis_order else list(coords_1d.keys())` -/
def axisOrder {A : Type} (axes : Option (List String)) (coords : Dict A) : List String :=
  match axes with
  | some (a :: as) => a :: as
  | _ => coords.map Prod.fst

/-- context.py:207-213: the payload of legacy arrays -/
def legacy {A : Type} (target : String) (u x t : A) : Payload A := ⟨[(target, u)], [("x", x), ("t", t)], ["x", "t"]⟩

/-- context.py:197-206: the arrays used without a grid -/
def arrays {A : Type} (c : Conf A) : Option (A × A × A) :=
  if c.u.isSome || c.x.isSome || c.t.isSome then
    match c.u, c.x, c.t with
    | some u, some x, some t => some (u, x, t)
    | _, _, _ => none
  else c.own

/-- context.py:172-213 `_build_registry_payload_from_config`; `none`: ValueError (incomplete data or no axis) -/
def payload {A : Type} (c : Conf A) : Option (Payload A) :=
  match c.fields, c.coords with
  | some f, some k => if axisOrder c.axes k = [] then none else some ⟨f, k, axisOrder c.axes k⟩
  | some _, none => none
  | none, some _ => none
  | none, none => (arrays c).map fun d => legacy c.target d.1 d.2.1 d.2.2

/-- context.py:71-79: the payload is stored in the configuration. -/
def store {A : Type} (c : Conf A) (p : Payload A) : Conf A := { c with fields := some p.fields, coords := some p.coords, axes := some p.axes }

/-- `ProblemContext(config)`: the configuration afterwards and the data analysed. -/
def build {A : Type} (c : Conf A) : Conf A × Option (Payload A) :=
  match payload c with
  | none => (c, none)
  | some p => (store c p, some p)

/-- What a user does with a configuration. -/
inductive Op (A : Type) where
  | setU (a : A)
  | setX (a : A)
  | setT (a : A)
  | setFields (d : Dict A)
  | setCoords (d : Dict A)
  | setAxes (axes : List String)
  | build

/-- One action; the second component lists the data analysed so far. -/
def step {A : Type} (s : Conf A × List (Payload A)) : Op A → Conf A × List (Payload A)
  | .setU a => ({ s.1 with u := some a }, s.2)
  | .setX a => ({ s.1 with x := some a }, s.2)
  | .setT a => ({ s.1 with t := some a }, s.2)
  | .setFields d => ({ s.1 with fields := some d }, s.2)
  | .setCoords d => ({ s.1 with coords := some d }, s.2)
  | .setAxes axes => ({ s.1 with axes := some axes }, s.2)
  | .build => ((build s.1).1, s.2 ++ (build s.1).2.toList)

/-- A history of actions. -/
def run {A : Type} (c : Conf A) (ops : List (Op A)) : Conf A × List (Payload A) := ops.foldl step (c, [])

end Verif.Sga.Reuse
