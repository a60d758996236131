import Verif.Model.Instance
/- jsonschema/schema.go:99-205: merging `allOf` and `oneOf` entries, and `SchemaTypes`, on decoded documents. -/
namespace JT

/-- jsonschema/schema.go:193-204 `mergeProperties`; `child` has the entries in iteration order.  If `parent` is not nil the new map *is* the
parent, so the membership test sees the entries added so far. -/
def mergeProps (parent : Option (GMap P)) (child : List (Str × P)) : GMap P :=
  match parent with
  | none => child.foldl (fun m kv => GMap.set kv.1 kv.2 m) []
  | some p => child.foldl (fun m kv => if (GMap.get kv.1 m).isSome then m else GMap.set kv.1 kv.2 m) p

/-- jsonschema/schema.go:143-147, 156-160: take over properties, required names and items of an entry. -/
def mergeEntry (sched : Sched) (tick : Nat) (s e : Instance) : Instance :=
  { s with
    properties := some (mergeProps s.properties (sched.perm tick _ (e.properties.getD [])))
    required := s.required ++ e.required
    items := if s.items.isNone then e.items else s.items }

/-- jsonschema/schema.go:137-148: the loop over `allOf`. -/
def mergeAllOf (sched : Sched) (flatten : Bool) : List Instance → Nat → Instance → Instance
  | [], _, s => s
  | e :: es, tick, s =>
    if flatten = false ∧ s.properties.isSome then mergeAllOf sched flatten es (tick + 1) s
    else mergeAllOf sched flatten es (tick + 1) (mergeEntry sched tick s e)

/-- path/filepath.Base on Unix: the last element of the path, without trailing slashes. -/
def pathBase (path : Str) : Str :=
  if path = [] then g!"."
  else
    let p := (trimRight ['/'] path)
    let b := (splitC '/' p).getLastD []
    if b = [] then g!"/" else b

/-- jsonschema/schema.go:151: the name compared with the type wanted. -/
def subName (fromRef : Str) : Str := (splitC '.' (pathBase fromRef)).headD []

/-- jsonschema/schema.go:150-161: the loop over `oneOf`. -/
def mergeOneOf (sched : Sched) (oneOfType : Str) : List Instance → Nat → Instance → Instance
  | [], _, s => s
  | e :: es, tick, s =>
    if subName e.fromRef ≠ oneOfType then mergeOneOf sched oneOfType es (tick + 1) s
    else mergeOneOf sched oneOfType es (tick + 1) (mergeEntry sched tick s e)

/-- jsonschema/schema.go:127-163: the schema made of a decoded document.  The two loops iterate over different maps, so the schedule is asked
at different positions. -/
def mergeOf (sched : Sched) (oneOfType : Str) (flatten : Bool) (sj : Instance) : Instance :=
  mergeOneOf sched oneOfType sj.oneOf sj.allOf.length (mergeAllOf sched flatten sj.allOf 0 sj)

/-- jsonschema/schema.go:119-163: from the dereferenced document to the schema. -/
def schemaOfDoc (sched : Sched) (oneOfType : Str) (flatten : Bool) (data : P) : Res Instance :=
  (decodeInstance true data).map (mergeOf sched oneOfType flatten)

/-- sort.Strings, as an insertion sort. -/
def insertStr (x : Str) : List Str → List Str
  | [] => [x]
  | y :: ys => if strLt y x then y :: insertStr x ys else x :: y :: ys
def sortStrings : List Str → List Str
  | [] => []
  | x :: xs => insertStr x (sortStrings xs)

/-- jsonschema/schema.go:167-191 `SchemaTypes` on the contents of the file; the names of the properties are collected in iteration order. -/
def schemaTypes (sched : Sched) (data : P) : Res (List Str × List Str × List Str) :=
  (decodeInstance false data).map fun sj =>
    (sj.allOf.map Instance.ref, sj.oneOf.map Instance.ref, sortStrings ((sched.perm 0 _ (sj.properties.getD [])).map Prod.fst))

end JT
