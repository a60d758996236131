import Verif.Model.Build
/- jsonschema/schema.go:19-52 (`Instance` and its decoding) and jsonschema/walk.go.
Simplifications: documents in which one object has the same key twice, and keys that match a field name of `Instance` only up to
upper and lower case, are outside of the model (`encoding/json` takes the last of duplicate keys and ignores case, jsonparser does
neither); `%q` in schema.go:47 is taken to quote the type name as JSON does. -/
namespace JT

/-- jsonschema/schema.go:20-38 `Instance`.  `none` is a nil map or nil raw message. -/
structure Instance where
  additionalProperties : Bool
  allOf : List Instance
  anyOf : List Instance
  description : Str
  definitions : Option P
  embed : Bool
  format : Str
  fromRef : Str
  graphQLArguments : List Str
  items : Option P
  oneOf : List Instance
  properties : Option (GMap P)
  ref : Str
  required : List Str
  schema : Str
  target : Str
  type : List Str

/-- The zero value of `Instance`. -/
def Instance.zero : Instance := ⟨false, [], [], [], none, false, [], [], [], none, [], none, [], [], [], [], []⟩

/-- Decoding a Go `bool` field; missing or null leaves the value it had. -/
def asBool (d : Bool) : Option P → Res Bool
  | none => .ok d
  | some (.sc .nil) => .ok d
  | some (.sc (.bool b)) => .ok b
  | _ => .err

/-- Decoding a `[]string` field. -/
def asStrings (o : Option P) : Res (List Str) := do
  let l ← asList o
  mapRes (fun p => asString (some p)) l

/-- Decoding a `map[string]json.RawMessage` field. -/
def asRawMap : Option P → Res (Option (GMap P))
  | none => .ok none
  | some (.sc .nil) => .ok none
  | some (.obj m) => .ok (some (GMap.ofList m))
  | _ => .err

/-- jsonschema/schema.go:41-52: the type as an array (`fmt.Sprintf("[%q]", value)` for a string). -/
def typeField (o : Option P) : Option P :=
  match o with
  | some (.sc (.str t)) => some (.arr [.sc (.str t)])
  | o => o

/-- jsonschema/schema.go:41-52 `Instance.UnmarshalJSON`, into an instance whose `AdditionalProperties` is `ap`.  The fuel bounds the
nesting of `allOf`, `anyOf` and `oneOf`. -/
def decodeInst : Nat → Bool → P → Res Instance
  | 0, _, _ => .err
  | n + 1, ap, data => do
    let p ← asStruct data
    let additionalProperties ← asBool ap (p.key g!"additionalProperties")
    let allOfJ ← asList (p.key g!"allOf")
    let allOf ← mapRes (decodeInst n false) allOfJ
    let anyOfJ ← asList (p.key g!"anyOf")
    let anyOf ← mapRes (decodeInst n false) anyOfJ
    let description ← asString (p.key g!"description")
    let embed ← asBool false (p.key g!"embed")
    let format ← asString (p.key g!"format")
    let fromRef ← asString (p.key g!"fromRef")
    let graphQLArguments ← asStrings (p.key g!"graphql-arguments")
    let oneOfJ ← asList (p.key g!"oneOf")
    let oneOf ← mapRes (decodeInst n false) oneOfJ
    let properties ← asRawMap (p.key g!"properties")
    let ref ← asString (p.key g!"$ref")
    let required ← asStrings (p.key g!"required")
    let schema ← asString (p.key g!"$schema")
    let target ← asString (p.key g!"target")
    let type ← asStrings (typeField (p.key g!"type"))
    return ⟨additionalProperties, allOf, anyOf, description, p.key g!"definitions", embed, format, fromRef, graphQLArguments,
      p.key g!"items", oneOf, properties, ref, required, schema, target, type⟩

/-- `json.Unmarshal(raw, &i)` (jsonschema/walk.go:62, jsonschema/schema.go:123): any nesting. -/
def decodeInstance (ap : Bool) (data : P) : Res Instance := decodeInst (data.depth + 1) ap data

/-- jsonschema/walk.go:60-90 `walkInstance`.  The state has the number of map iterations so far (the schedule chooses the order of
each) and the effects of the walk function.  The fuel bounds the depth of the schema. -/
def walkInst {σ : Type} (sched : Sched) (fn : Str → Instance → σ → Res σ) : Nat → P → Str → Nat × σ → Res (Nat × σ)
  | 0, _, _, _ => .err
  | n + 1, raw, path, s =>
    match decodeInstance false raw with
    | .err => .err
    | .panic => .panic
    | .ok i =>
      match fn path i s.2 with
      | .err => .err
      | .panic => .panic
      | .ok s' =>
        if g!"object" ∈ i.type then
          match i.properties with
          | none => .err
          | some m => foldRes (fun kv s => walkInst sched fn n kv.2 (prependPath path kv.1) s) (sched.perm s.1 _ m) (s.1 + 1, s')
        else if g!"array" ∈ i.type then
          match i.items with
          | none => .err
          | some items => walkInst sched fn n items (starPath path) (s.1, s')
        else .ok (s.1, s')

/-- jsonschema/walk.go:26-41 `Walk`. -/
def walkSchema {σ : Type} (sched : Sched) (tick : Nat) (fn : Str → Instance → σ → Res σ) (s : Schema) (st : σ) : Res (Nat × σ) :=
  match foldRes (fun kv st => walkInst sched fn (kv.2.depth + 1) kv.2 (prependPath g!"$" kv.1) st)
      (sched.perm tick _ (s.properties.getD [])) (tick + 1, st) with
  | .err => .err
  | .panic => .panic
  | .ok st =>
    match s.items with
    | none => .ok st
    | some items => walkInst sched fn (items.depth + 1) items (starPath g!"$") st

end JT
