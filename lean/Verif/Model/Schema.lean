import Verif.Model.Value
/-
JSON schema documents and jsonschema/schema.go, jsonschema/walk.go.
A JSON document is a `P` whose object fields are in document order, duplicates allowed.
Modelled as in github.com/buger/jsonparser (GannettDigital fork): `Get` finds the first matching key of an
object, `ObjectEach` visits the fields in document order.
-/
namespace JT

/-- jsonparser.Get(data, k): `none` is KeyPathNotFoundError (also for data that is not an object). -/
def P.key (k : Str) : P → Option P
  | .obj m => GMap.get k m
  | _ => none

/-- jsonschema/schema.go:218-231: the callback over the entries of a type array; state is
(type so far, nullable, union error). -/
def typeStep (st : Str × Bool × Bool) (p : P) : Str × Bool × Bool :=
  match p with
  | .sc (.str t) =>
    if t = g!"null" then (st.1, true, st.2.2)
    else (t, st.2.1, st.2.2 || decide (st.1 ≠ []))
  | _ => st

/-- jsonschema/schema.go:208-242 `FieldType`: type name and nullability. -/
def fieldType (data : P) : Res (Str × Bool) :=
  match data.key g!"type" with
  | some (.sc (.str t)) => .ok (t, false)
  | some (.arr l) =>
    match l.foldl typeStep ([], false, false) with
    | (t, nullable, false) => .ok (t, nullable)
    | (_, _, true) => .err
  | _ => .err

/-- jsonschema/walk.go:45-54 `prependJSONPath`. -/
def prependPath (parent child : Str) : Str :=
  if parent = [] then child
  else if child = [] then parent
  else parent ++ g!"." ++ child

/-- `path + "[*]"` (jsonschema/walk.go:36, 85, 105, 136). -/
def starPath (path : Str) : Str := path ++ g!"[*]"

/-- A Go loop that stops at the first error. -/
def foldRes {σ β : Type} (f : β → σ → Res σ) : List β → σ → Res σ
  | [], s => .ok s
  | x :: xs, s => match f x s with
    | .ok s' => foldRes f xs s'
    | .err => .err
    | .panic => .panic

/-- jsonschema/walk.go:114-141 `walkRaw`, with the effects of the walk function threaded through a state.
The fuel bounds the depth of the schema. -/
def walkRaw {σ : Type} (fn : Str → P → σ → Res σ) : Nat → P → Str → σ → Res σ
  | 0, _, _, _ => .err
  | n + 1, raw, path, s =>
    match fn path raw s with
    | .err => .err
    | .panic => .panic
    | .ok s =>
      match fieldType raw with
      | .err => .err
      | .panic => .panic
      | .ok (ty, _) =>
        if ty = g!"object" then
          match raw.key g!"properties" with
          | some (.obj m) => foldRes (fun kv s => walkRaw fn n kv.2 (prependPath path kv.1) s) m s
          | _ => .err
        else if ty = g!"array" then
          match raw.key g!"items" with
          | some items => walkRaw fn n items (starPath path) s
          | none => .err
        else .ok s

mutual
/-- Nesting depth of a document. -/
def P.depth : P → Nat
  | .sc _ => 0
  | .arr l => depthList l + 1
  | .obj m => depthFields m + 1
def depthList : List P → Nat
  | [] => 0
  | p :: ps => max p.depth (depthList ps)
def depthFields : List (Str × P) → Nat
  | [] => 0
  | (_, p) :: ps => max p.depth (depthFields ps)
end

/-- The parts of jsonschema/schema.go:60-64 `Schema` used by the transformer: `Properties` (`none` is the
nil map) and `Items`. -/
structure Schema where
  properties : Option (GMap P)
  items : Option P

/-- jsonschema/walk.go:95-110 `WalkRaw`; the properties are visited in an order chosen by the schedule. -/
def walkRawSchema {σ : Type} (sched : Sched) (tick : Nat) (fn : Str → P → σ → Res σ) (s : Schema) (st : σ) : Res σ :=
  match foldRes (fun kv st => walkRaw fn (kv.2.depth + 1) kv.2 (prependPath g!"$" kv.1) st)
      (sched.perm tick _ (s.properties.getD [])) st with
  | .err => .err
  | .panic => .panic
  | .ok st =>
    match s.items with
    | none => .ok st
    | some items => walkRaw fn (items.depth + 1) items (starPath g!"$") st

end JT
