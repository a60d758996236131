import Verif.Model.Instance
import Verif.Model.TransformKeys
/- jsonschema/schema.go:19-52 and jsonschema/walk.go:26-90 with the keys of instances matched as encoding/json does, without regard to letter case (`fold`).
`Model/Instance` leaves this out; `Props/C133` says for which documents that makes no difference.
Simplification: no two keys of an instance are read into the same field. -/
namespace JT

/-- jsonschema/schema.go:20-38: the names of the fields of `Instance`. -/
def instNames : List Str :=
  [g!"additionalProperties", g!"allOf", g!"anyOf", g!"description", g!"definitions", g!"embed", g!"format", g!"fromRef", g!"graphql-arguments", g!"items", g!"oneOf",
   g!"properties", g!"$ref", g!"required", g!"$schema", g!"target", g!"type"]

/-- jsonschema/schema.go:41-51: jsonparser finds the key `type` only if it is spelled like that; a string there becomes an array. -/
def typeEntry (kv : Str × P) : Str × P :=
  if kv.1 = g!"type" then
    match kv.2 with
    | .sc (.str t) => (kv.1, .arr [.sc (.str t)])
    | _ => kv
  else kv

/-- The fields of an instance. -/
def instFields (fold : Str → Str) : P → Res P
  | .obj m => .ok (.obj (fieldsOf fold instNames (m.map typeEntry)))
  | .sc .nil => .ok (.obj [])
  | _ => .err

/-- jsonschema/schema.go:41-52 `Instance.UnmarshalJSON`, into an instance whose `AdditionalProperties` is `ap`.  The fuel bounds the nesting of `allOf`, `anyOf` and `oneOf`. -/
def unmarshalInst (fold : Str → Str) : Nat → Bool → P → Res Instance
  | 0, _, _ => .err
  | n + 1, ap, data => do
    let p ← instFields fold data
    let additionalProperties ← asBool ap (p.key g!"additionalProperties")
    let allOfJ ← asList (p.key g!"allOf")
    let allOf ← mapRes (unmarshalInst fold n false) allOfJ
    let anyOfJ ← asList (p.key g!"anyOf")
    let anyOf ← mapRes (unmarshalInst fold n false) anyOfJ
    let description ← asString (p.key g!"description")
    let embed ← asBool false (p.key g!"embed")
    let format ← asString (p.key g!"format")
    let fromRef ← asString (p.key g!"fromRef")
    let graphQLArguments ← asStrings (p.key g!"graphql-arguments")
    let oneOfJ ← asList (p.key g!"oneOf")
    let oneOf ← mapRes (unmarshalInst fold n false) oneOfJ
    let properties ← asRawMap (p.key g!"properties")
    let ref ← asString (p.key g!"$ref")
    let required ← asStrings (p.key g!"required")
    let schema ← asString (p.key g!"$schema")
    let target ← asString (p.key g!"target")
    let type ← asStrings (p.key g!"type")
    return ⟨additionalProperties, allOf, anyOf, description, p.key g!"definitions", embed, format, fromRef, graphQLArguments,
      p.key g!"items", oneOf, properties, ref, required, schema, target, type⟩

/-- `json.Unmarshal(raw, &i)` (jsonschema/walk.go:62): any nesting. -/
def unmarshalInstance (fold : Str → Str) (ap : Bool) (data : P) : Res Instance := unmarshalInst fold (data.depth + 1) ap data

/-- jsonschema/walk.go:60-90 `walkInstance`.  The fuel bounds the depth of the schema. -/
def walkInstKeys {σ : Type} (fold : Str → Str) (sched : Sched) (fn : Str → Instance → σ → Res σ) : Nat → P → Str → Nat × σ → Res (Nat × σ)
  | 0, _, _, _ => .err
  | n + 1, raw, path, s =>
    match unmarshalInstance fold false raw with
    | .err => .err
    | .panic => .panic
    | .ok i =>
      match fn path i s.2 with
      | .err => .err
      | .panic => .panic
      | .ok s' =>
        if g!"object" ∈ i.type then
          match i.properties with
          | none => .err
          | some m => foldRes (fun kv s => walkInstKeys fold sched fn n kv.2 (prependPath path kv.1) s) (sched.perm s.1 _ m) (s.1 + 1, s')
        else if g!"array" ∈ i.type then
          match i.items with
          | none => .err
          | some items => walkInstKeys fold sched fn n items (starPath path) (s.1, s')
        else .ok (s.1, s')

/-- jsonschema/walk.go:26-41 `Walk`. -/
def walkKeys {σ : Type} (fold : Str → Str) (sched : Sched) (tick : Nat) (fn : Str → Instance → σ → Res σ) (s : Schema) (st : σ) : Res (Nat × σ) :=
  match foldRes (fun kv st => walkInstKeys fold sched fn (kv.2.depth + 1) kv.2 (prependPath g!"$" kv.1) st)
      (sched.perm tick _ (s.properties.getD [])) (tick + 1, st) with
  | .err => .err
  | .panic => .panic
  | .ok st =>
    match s.items with
    | none => .ok st
    | some items => walkInstKeys fold sched fn (items.depth + 1) items (starPath g!"$") st

end JT
