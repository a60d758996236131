import Verif.Model.Avro
import Verif.Spec.Tag
import Verif.Spec.GoJson
/- The Avro schema that a JSON schema asks for, and the Go code between the two: the struct that the lines of a generated file declare, as go/parser reads it. -/
namespace JT.Spec
open Gen GoJson

/-! ### Avro schemas -/

mutual
/-- Avro types, as far as generated schemas have them. -/
inductive AType where
  | scalar (name : Str)
  /-- A long that is a time in milliseconds. -/
  | time
  /-- A map to strings. -/
  | strings
  | list (t : AType)
  | record (fields : List AField)
/-- A field; `optional`: a value may be missing. -/
inductive AField where
  | mk (name doc : Str) (type : AType) (optional : Bool)
end

def AField.name : AField → Str
  | .mk n _ _ _ => n
def AField.doc : AField → Str
  | .mk _ d _ _ => d
def AField.type : AField → AType
  | .mk _ _ t _ => t
def AField.optional : AField → Bool
  | .mk _ _ _ o => o

/-- A JSON string without escapes. -/
def str (s : Str) : Str := '"' :: s ++ ['"']

/-- A member with the name of the namespace, if there is one. -/
def nsText (ns : List Str) : Str := if ns = [] then [] else g!",\"namespace\":" ++ str (join g!"." ns)

/-- The type of a field whose value may be missing: a union with null; a boolean has a default instead, lists and maps stay as they are. -/
def orMissing (t : AType) (text : Str) : Str :=
  match t with
  | .scalar n => if n = g!"boolean" then text ++ g!",\"default\":false" else g!"[\"null\"," ++ text ++ g!"]"
  | .list _ | .strings => text
  | .time | .record _ => g!"[\"null\"," ++ text ++ g!"]"

mutual
/-- The text of the type of a field.  A record has its name from the field, which is also added to the namespace. -/
def AType.text (ns : List Str) (field : Str) : AType → Str
  | .scalar n => str n
  | .time => g!"{\"type\":\"long\",\"logicalType\":\"timestamp-millis\"}"
  | .strings => g!"{\"type\": \"map\", \"values\": \"string\"}"
  | .list (.scalar n) => g!"{\"type\":\"array\",\"items\":{\"type\": " ++ str n ++ g!"}}"
  | .list t => g!"{\"type\":\"array\",\"items\":" ++ t.text ns field ++ g!"}"
  | .record fs => g!"{\"name\":" ++ str (field ++ g!"_record") ++ nsText (ns ++ [field]) ++ g!",\"type\":\"record\",\"fields\":[" ++
      join g!"," (fieldTexts (ns ++ [field]) fs) ++ g!"]}"
def AField.text (ns : List Str) : AField → Str
  | .mk name doc t optional => g!"{\"name\":" ++ str name ++ nsText ns ++ (if doc = [] then [] else g!",\"doc\":" ++ str doc) ++ g!",\"type\":" ++
      (if optional = true then orMissing t (t.text ns name) else t.text ns name) ++ g!"}"
def fieldTexts (ns : List Str) : List AField → List Str
  | [] => []
  | f :: fs => f.text ns :: fieldTexts ns fs
end

/-- The field for the time of writing. -/
def writeTimeText : Str :=
  g!"{\"name\":\"AvroWriteTime\",\"doc\":\"The timestamp when this avro data is written. Useful for identifying the newest row of data sharing keys.\",\"type\":\"long\",\"logicalType\":\"timestamp-millis\"}"
/-- The field that marks deletions. -/
def deletedText : Str :=
  g!"{\"name\":\"AvroDeleted\",\"doc\":\"This is set to true when the Avro data is recording a delete in the source data.\",\"default\":false,\"type\":\"boolean\"}"

/-- The text of the schema file for a record with the given name and fields, besides the two fields that all have. -/
def fileText (name : Str) (fs : List AField) : Str :=
  g!"{\"name\":" ++ str name ++ g!",\"type\":\"record\",\"fields\":[" ++ join g!"," (writeTimeText :: deletedText :: fieldTexts [] fs) ++ g!"]}"

/-! ### From JSON schemas -/

/-- The Avro types of JSON types. -/
def scalarTable : List (Str × Str) := [(g!"boolean", g!"boolean"), (g!"number", g!"double"), (g!"integer", g!"long"), (g!"string", g!"string")]

/-- The documentation of a field. -/
def DocOf (descTag : Bool) (raw : P) (doc : Str) : Prop :=
  ∃ i, decodeInstance false raw = .ok i ∧ doc = if descTag = true then firstLine i.description else []

/-- An object with properties that have fields, and that may not be null. -/
def BareObject (raw : P) : Prop :=
  ∃ i m, decodeInstance false raw = .ok i ∧ TypeIs i g!"object" ∧ i.properties = some m ∧ (∃ k q, Listed m k q) ∧ ¬ Nullable raw

/-- Which fields may have no value: with `ideal`, those of properties that are not required or may be null; otherwise those of properties that are not required, except
objects that may not be null. -/
def MayMiss (ideal : Bool) (raw : P) (required : Bool) : Prop :=
  if ideal = true then required = false ∨ Nullable raw else required = false ∧ ¬ BareObject raw

/-- `TypeFor … raw t`: the Avro type for the JSON schema `raw` is `t`; `miss` tells which fields may have no value.  The fields of a record are those of the properties (besides those for GraphQL only), in the
order of their names in Go. -/
inductive TypeFor (title : Str → Str) (rename : GMap Str) (descTag : Bool) (miss : P → Bool → Prop) : P → AType → Prop where
  | scalar {raw : P} {i : Instance} {t a : Str} : decodeInstance false raw = .ok i → TypeIs i t → (t, a) ∈ scalarTable →
      ¬ (t = g!"string" ∧ i.format = g!"date-time") → TypeFor title rename descTag miss raw (.scalar a)
  | time {raw : P} {i : Instance} : decodeInstance false raw = .ok i → TypeIs i g!"string" → i.format = g!"date-time" → TypeFor title rename descTag miss raw .time
  | strings {raw : P} {i : Instance} {m : GMap P} : decodeInstance false raw = .ok i → TypeIs i g!"object" → i.properties = some m → (∀ k q, ¬ Listed m k q) →
      TypeFor title rename descTag miss raw .strings
  | list {raw items : P} {i : Instance} {t : AType} : decodeInstance false raw = .ok i → TypeIs i g!"array" → i.items = some items →
      TypeFor title rename descTag miss items t → TypeFor title rename descTag miss raw (.list t)
  | record {raw : P} {i : Instance} {m : GMap P} {fs : List AField} : decodeInstance false raw = .ok i → TypeIs i g!"object" → i.properties = some m →
      (∃ k q, Listed m k q) →
      (fs.map fun f => goName title rename f.name).Pairwise (fun a b => strLt a b = true) →
      (∀ k, (∃ f ∈ fs, f.name = k) ↔ ∃ q, Listed m k q) →
      (∀ f ∈ fs, ∀ q, Listed m f.name q → DocOf descTag q f.doc) →
      (∀ f ∈ fs, ∀ q, Listed m f.name q → (f.optional = true ↔ miss q (decide (f.name ∈ i.required)))) →
      (∀ f ∈ fs, ∀ q, Listed m f.name q → TypeFor title rename descTag miss q f.type) →
      TypeFor title rename descTag miss raw (.record fs)

/-- The fields of a record for the properties `m`; see `TypeFor.record`. -/
structure RecordFor (title : Str → Str) (rename : GMap Str) (descTag : Bool) (miss : P → Bool → Prop) (m : GMap P) (required : List Str) (fs : List AField) : Prop where
  order : (fs.map fun f => goName title rename f.name).Pairwise (fun a b => strLt a b = true)
  names : ∀ k, (∃ f ∈ fs, f.name = k) ↔ ∃ q, Listed m k q
  doc : ∀ f ∈ fs, ∀ q, Listed m f.name q → DocOf descTag q f.doc
  optional : ∀ f ∈ fs, ∀ q, Listed m f.name q → (f.optional = true ↔ miss q (decide (f.name ∈ required)))
  type : ∀ f ∈ fs, ∀ q, Listed m f.name q → TypeFor title rename descTag miss q f.type

/-! ### Reading Go -/

/-- Words that are types. -/
def goWord (s : Str) : Option Go.GoType :=
  if s = g!"time.Time" then some (.selector g!"Time")
  else if s = g!"map[string]string" then some (.map (.ident g!"string") (.ident g!"string"))
  else if s ≠ [] ∧ ∀ c ∈ s, (c.isAlphanum || c == '_') = true then some (.ident s)
  else none

/-- Read a type, given how to read words. -/
def readGoType (word : Str → Option Go.GoType) : Str → Option Go.GoType
  | '*' :: s => (readGoType word s).map .star
  | '[' :: ']' :: s => (readGoType word s).map .array
  | s => word s

/-- The word `struct` for the type of the fields between the braces. -/
def goStructWord (fs : List Go.GoField) (s : Str) : Option Go.GoType := if s = g!"struct" then some (.struct fs) else none

/-- The literal of a tag at the end of a line: a text in backquotes. -/
def readLiteral (s : Str) : Option Str :=
  if s.head? = some '`' ∧ s.tail.dropWhile (fun c => c ≠ '`') = g!"`\n" then some s.dropLast else none

/-- Read the lines of a struct: `stack` has the structs around, with the name and type of the field and the fields before it; `acc` the fields so far. -/
def readGoLines : List Line → List (Str × Str × List Go.GoField) → List Go.GoField → Option (List Go.GoField)
  | [], [], acc => some acc
  | [], _ :: _, _ => none
  | .comment _ :: t, st, acc => readGoLines t st acc
  | .field _ n ty tag :: t, st, acc => (readGoType goWord ty).bind fun g => (readLiteral tag).bind fun x =>
      readGoLines t st (acc ++ [.mk (some n) g (Go.parseStructTag x)])
  | .open _ n ty :: t, st, acc => readGoLines t ((n, ty, acc) :: st) []
  | .close _ tag :: t, (n, ty, before) :: st, acc => (readGoType (goStructWord acc) ty).bind fun g => (readLiteral tag).bind fun x =>
      readGoLines t st (before ++ [.mk (some n) g (Go.parseStructTag x)])
  | .close _ _ :: _, [], _ => none

/-! ### Conditions -/

/-- Text that needs no escapes, neither in a struct tag nor in JSON. -/
def PlainText (isPrint : Char → Bool) (s : Str) : Prop :=
  ∀ c ∈ s, c ≠ '"' ∧ c ≠ '\\' ∧ c ≠ '`' ∧ (0x20 ≤ c.toNat ∧ c.toNat ≤ 0x7e ∨ 0x80 ≤ c.toNat ∧ isPrint c = true)

/-- The first line of the description of an instance needs no escapes, if it is put in a tag. -/
def PlainDoc (isPrint : Char → Bool) (descTag : Bool) (i : Instance) : Prop := descTag = true → PlainText isPrint (firstLine i.description)

/-- Schemas of the usual types, with such descriptions, and names that can be used in tags and give different Go names at each level. -/
inductive AvroClean (title : Str → Str) (rename : GMap Str) (isPrint : Char → Bool) (descTag : Bool) : P → Prop where
  | leaf {raw : P} {i : Instance} {t : Str} : decodeInstance false raw = .ok i → TypeIs i t → t ∈ scalarTable.map Prod.fst →
      PlainDoc isPrint descTag i → AvroClean title rename isPrint descTag raw
  | array {raw items : P} {i : Instance} : decodeInstance false raw = .ok i → TypeIs i g!"array" → i.items = some items → PlainDoc isPrint descTag i →
      AvroClean title rename isPrint descTag items → AvroClean title rename isPrint descTag raw
  | object {raw : P} {i : Instance} {m : GMap P} : decodeInstance false raw = .ok i → TypeIs i g!"object" → i.properties = some m → PlainDoc isPrint descTag i →
      CleanNames title rename m → (∀ k q, Listed m k q → AvroClean title rename isPrint descTag q) → AvroClean title rename isPrint descTag raw

end JT.Spec
