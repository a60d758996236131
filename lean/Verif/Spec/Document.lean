import Verif.Model.SchemaFile
import Verif.Proofs.Param
/- What a schema document says, key by key (jsonschema/schema.go:20-38 and the rules of encoding/json). -/
namespace JT.Spec

/-- A key for a text: missing and null are the empty text. -/
inductive TextKey : Option P → Str → Prop
  | missing : TextKey none []
  | null : TextKey (some (.sc .nil)) []
  | text (s : Str) : TextKey (some (.sc (.str s))) s

/-- A key for a truth value: missing and null leave the default. -/
inductive BoolKey (default : Bool) : Option P → Bool → Prop
  | missing : BoolKey default none default
  | null : BoolKey default (some (.sc .nil)) default
  | bool (b : Bool) : BoolKey default (some (.sc (.bool b))) b

/-- A key for a list: missing and null are the empty list. -/
inductive ListKey {α : Type} (R : P → α → Prop) : Option P → List α → Prop
  | missing : ListKey R none []
  | null : ListKey R (some (.sc .nil)) []
  | list {l : List P} {r : List α} : All2 R l r → ListKey R (some (.arr l)) r

/-- A key for a list of texts. -/
def TextsKey : Option P → List Str → Prop := ListKey fun p s => TextKey (some p) s

/-- The key `type`: a list of types, or one type alone. -/
inductive TypeKey : Option P → List Str → Prop
  | one (t : Str) : TypeKey (some (.sc (.str t))) [t]
  | list {o : Option P} {l : List Str} : TextsKey o l → TypeKey o l

/-- The last value that an object has for a key. -/
def lastOf (k : Str) (l : List (Str × P)) : Option P := (l.reverse.find? fun e => decide (e.1 = k)).map Prod.snd

/-- A key for an object: missing and null are no object.  The entries are ordered by key. -/
inductive MapKey : Option P → Option (GMap P) → Prop
  | missing : MapKey none none
  | null : MapKey (some (.sc .nil)) none
  | object {l : List (Str × P)} {m : GMap P} : GMap.Sorted m → (∀ k, GMap.get k m = lastOf k l) → MapKey (some (.obj l)) (some m)

/-- A document that has keys at all; null has none. -/
inductive HasKeys : P → Prop
  | object (m : List (Str × P)) : HasKeys (.obj m)
  | null : HasKeys (.sc .nil)

/-- `Reads a p i`: the document `p` reads as the schema `i`, if a missing `additionalProperties` counts as `a`. -/
inductive Reads : Bool → P → Instance → Prop
  | intro {a : Bool} {p : P} {i : Instance} (keys : HasKeys p)
    (additionalProperties : BoolKey a (p.key g!"additionalProperties") i.additionalProperties)
    (allOf : ListKey (Reads false) (p.key g!"allOf") i.allOf)
    (anyOf : ListKey (Reads false) (p.key g!"anyOf") i.anyOf)
    (description : TextKey (p.key g!"description") i.description)
    (definitions : i.definitions = p.key g!"definitions")
    (embed : BoolKey false (p.key g!"embed") i.embed)
    (format : TextKey (p.key g!"format") i.format)
    (fromRef : TextKey (p.key g!"fromRef") i.fromRef)
    (arguments : TextsKey (p.key g!"graphql-arguments") i.graphQLArguments)
    (items : i.items = p.key g!"items")
    (oneOf : ListKey (Reads false) (p.key g!"oneOf") i.oneOf)
    (properties : MapKey (p.key g!"properties") i.properties)
    (ref : TextKey (p.key g!"$ref") i.ref)
    (required : TextsKey (p.key g!"required") i.required)
    (schema : TextKey (p.key g!"$schema") i.schema)
    (target : TextKey (p.key g!"target") i.target)
    (type : TypeKey (p.key g!"type") i.type) : Reads a p i

/-- `SameSchema i j`: the same schema, but that an empty `properties` may be missing in the second. -/
inductive SameSchema : Instance → Instance → Prop
  | intro {i j : Instance} (additionalProperties : j.additionalProperties = i.additionalProperties) (allOf : All2 SameSchema i.allOf j.allOf)
    (anyOf : All2 SameSchema i.anyOf j.anyOf) (description : j.description = i.description) (definitions : j.definitions = i.definitions)
    (embed : j.embed = i.embed) (format : j.format = i.format) (fromRef : j.fromRef = i.fromRef) (arguments : j.graphQLArguments = i.graphQLArguments)
    (items : j.items = i.items) (oneOf : All2 SameSchema i.oneOf j.oneOf)
    (properties : j.properties = i.properties ∨ (i.properties = some [] ∧ j.properties = none)) (ref : j.ref = i.ref) (required : j.required = i.required)
    (schema : j.schema = i.schema) (target : j.target = i.target) (type : j.type = i.type) : SameSchema i j

end JT.Spec
