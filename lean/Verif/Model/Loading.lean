import Verif.Model.Cache
import Verif.Model.Reference
import Verif.Model.SchemaFile
/- jsonschema/schema.go:97-163 `schemaFromFile` as a whole: reading a file, resolving its references, which loads other files through the cache,
and making the schema.
Simplifications: documents are `P` trees with the raw text of strings as in Model/Reference.lean, and a decoded schema keeps that raw text (Go would
unescape it and escape it again, which can give another spelling of the same string); paths handed to the cache are absolute already, which is what
`filepath.Abs` makes of them (schema.go:98, reference.go:187). -/
namespace JT
open Cache

/-- `omitempty` for a string. -/
def strField (k s : Str) : List (Str × P) := if s = [] then [] else [(k, .sc (.str s))]
/-- `omitempty` for a bool. -/
def boolField (k : Str) (b : Bool) : List (Str × P) := if b then [(k, .sc (.bool true))] else []
/-- `omitempty` for a list of strings. -/
def strsField (k : Str) (l : List Str) : List (Str × P) := if l = [] then [] else [(k, .arr (l.map fun s => .sc (.str s)))]
/-- `omitempty` for a raw message. -/
def rawField (k : Str) : Option P → List (Str × P)
  | none => []
  | some p => [(k, p)]
/-- `omitempty` for a list. -/
def listField (k : Str) : List P → List (Str × P)
  | [] => []
  | p :: ps => [(k, .arr (p :: ps))]
/-- `omitempty` for a map; `encoding/json` writes the keys in order. -/
def mapField (k : Str) : Option (GMap P) → List (Str × P)
  | none => []
  | some [] => []
  | some (kv :: m) => [(k, .obj (kv :: m))]
/-- A list of strings without `omitempty`.  Simplification: an empty list is taken for nil, which is written as null. -/
def typeList : List Str → P
  | [] => .sc .nil
  | t :: ts => .arr ((t :: ts).map fun s => .sc (.str s))

mutual
/-- jsonschema/reference.go:204, jsonschema/schema.go:19-37: `json.Marshal` of a schema (its validator is left out, schema.go:63). -/
def encodeInst : Instance → P
  | ⟨additionalProperties, allOf, anyOf, description, definitions, embed, format, fromRef, graphQLArguments, items, oneOf, properties, ref, required,
      schema, target, type⟩ =>
    .obj (boolField g!"additionalProperties" additionalProperties ++ (listField g!"allOf" (encodeInsts allOf) ++ (listField g!"anyOf" (encodeInsts anyOf) ++
      (strField g!"description" description ++ (rawField g!"definitions" definitions ++ (boolField g!"embed" embed ++ (strField g!"format" format ++
      (strField g!"fromRef" fromRef ++ (strsField g!"graphql-arguments" graphQLArguments ++ (rawField g!"items" items ++
      (listField g!"oneOf" (encodeInsts oneOf) ++ (mapField g!"properties" properties ++ (strField g!"$ref" ref ++ (strsField g!"required" required ++
      (strField g!"$schema" schema ++ (strField g!"target" target ++ [(g!"type", typeList type)]))))))))))))))))
/-- jsonschema/schema.go:22: a list of instances. -/
def encodeInsts : List Instance → List P
  | [] => []
  | i :: t => encodeInst i :: encodeInsts t
end

/-- The files, and what `World` has beside them. -/
structure Files where
  /-- jsonschema/schema.go:104: the document in a file; an error if it cannot be read or is not JSON. -/
  read : Str → Res P
  /-- jsonschema/schema.go:108, jsonschema/validator.go:26-34: `NewValidator` accepts the file. -/
  valid : Str → Bool
  http : Str → Res P
  absRef : Str → Str → Res Str
  quote : Str → Str

/-- The surroundings in which references of a file are resolved, given what other files load as. -/
def Files.world (F : Files) (load : Str → Res P) : World := ⟨load, F.http, F.absRef, F.quote⟩

/-- jsonschema/reference.go:154-200: the file that is loaded for a reference, if there is one. -/
def refLoads (F : Files) (schemaPath ref : Str) : Option Str :=
  if (splitRef ref).1 = [] then none
  else if hasPrefix (splitRef ref).1 g!"http" then none
  else match F.absRef schemaPath (splitRef ref).1 with
    | .ok refPath => if schemaPath = refPath then none else some refPath
    | _ => none

/-- jsonschema/reference.go:29-34: the file that is loaded for the reference at a path of the document. -/
def derefLoads (F : Files) (schemaPath : Str) (refPath : List Str) (data : P) : Option Str :=
  match refString refPath data with
  | .ok ref => refLoads F schemaPath ref
  | _ => none

variable {V : Type}

/-- jsonschema/reference.go:195-207: what a load of a file gives, encoded. -/
def loadAnswer (val : V → Instance) : Option V → Res P
  | none => .err
  | some v => .ok (encodeInst (val v))

/-- jsonschema/schema.go:114-161, jsonschema/reference.go:23-98: what the builder of a file does when it has still to resolve the references at the paths `refs` in
this pass over the document: it loads files one after the other and ends with a schema or an error.  `val` is the schema that a cached value stands for. -/
inductive Builds (F : Files) (val : V → Instance) (oneOfType : Str) (flatten : Bool) (schemaPath : Str) : List (List Str) → P → Prog V → Prop where
  /-- A reference for which no file is loaded. -/
  | inside {refPath refs d d' p} : derefLoads F schemaPath refPath d = none → derefOne (F.world fun _ => .err) schemaPath refPath d = .ok d' →
      Builds F val oneOfType flatten schemaPath refs d' p → Builds F val oneOfType flatten schemaPath (refPath :: refs) d p
  | fails {refPath refs d} : derefLoads F schemaPath refPath d = none → (∀ d', derefOne (F.world fun _ => .err) schemaPath refPath d ≠ .ok d') →
      Builds F val oneOfType flatten schemaPath (refPath :: refs) d (.ret none)
  /-- jsonschema/reference.go:195-207: a file is loaded; what happens then depends on the result. -/
  | load {refPath refs d file k} : derefLoads F schemaPath refPath d = some file →
      (∀ r d', derefOne (F.world fun _ => loadAnswer val r) schemaPath refPath d = .ok d' → Builds F val oneOfType flatten schemaPath refs d' (k r)) →
      (∀ r, (∀ d', derefOne (F.world fun _ => loadAnswer val r) schemaPath refPath d ≠ .ok d') → k r = .ret none) →
      Builds F val oneOfType flatten schemaPath (refPath :: refs) d (.load (schemaKey file oneOfType flatten) k)
  | noObject {d} : findRefs d = none → Builds F val oneOfType flatten schemaPath [] d (.ret none)
  /-- jsonschema/reference.go:93-95: another pass. -/
  | again {refs d p} : findRefs d = some refs → refs ≠ [] → Builds F val oneOfType flatten schemaPath refs d p → Builds F val oneOfType flatten schemaPath [] d p
  /-- jsonschema/schema.go:127-161: with any order of iteration over the maps. -/
  | made {sched d v} : findRefs d = some [] → schemaOfDoc sched oneOfType flatten d = .ok (val v) → Builds F val oneOfType flatten schemaPath [] d (.ret (some v))
  /-- jsonschema/schema.go:123-125 -/
  | unfit {sched d} : findRefs d = some [] → (∀ i, schemaOfDoc sched oneOfType flatten d ≠ .ok i) → Builds F val oneOfType flatten schemaPath [] d (.ret none)

/-- jsonschema/schema.go:103-162: the function that makes the schema of a file. -/
inductive BuildsFile (F : Files) (val : V → Instance) (oneOfType : Str) (flatten : Bool) (schemaPath : Str) : Prog V → Prop where
  | unreadable : (∀ d, F.read schemaPath ≠ .ok d) → BuildsFile F val oneOfType flatten schemaPath (.ret none)
  | invalid : F.valid schemaPath = false → BuildsFile F val oneOfType flatten schemaPath (.ret none)
  | start {d p} : F.read schemaPath = .ok d → F.valid schemaPath = true → Builds F val oneOfType flatten schemaPath [] d p → BuildsFile F val oneOfType flatten schemaPath p

/-- jsonschema/schema.go:97-163: the function passed to the cache with a key.  Other keys than those of schemas do not occur; to have a function for every key, one
that fails is taken. -/
inductive FileBuilder (F : Files) (val : V → Instance) : Str → Prog V → Prop where
  | schema {path oneOfType flatten p} : '|' ∉ oneOfType → BuildsFile F val oneOfType flatten path p → FileBuilder F val (schemaKey path oneOfType flatten) p
  | other {key} : (∀ path oneOfType flatten, '|' ∉ oneOfType → key ≠ schemaKey path oneOfType flatten) → FileBuilder F val key (.ret none)

end JT
