import Verif.Model.AvroName
import Verif.Spec.AvroSchema
import Verif.Spec.GoCode
/-
The Go structs that gogen-avro makes from an Avro schema, and the JSON schemas whose messages can be converted to them.  gogen-avro is not part of the repository; what
is assumed of it can be seen in generate/avro_test_data/avro.
-/
namespace JT.Go.Spec
open JT.Spec Gen GoJson

/-- The Go types for the scalars of Avro, and the types for unions of null with them. -/
def scalarGo : List (Str × Str × Str) :=
  [(g!"boolean", g!"bool", []), (g!"double", g!"float64", g!"UnionNullDouble"), (g!"long", g!"int64", g!"UnionNullLong"), (g!"string", g!"string", g!"UnionNullString")]

/-- The name of the struct for the record of a field. -/
def recordGo (pub : Str → Str) (rename : GMap Str) (field : Str) : Str := toPublicName pub rename (field ++ g!"_record")

/-- The Go type for a field of an Avro record, where `r` is the name of the struct for its record. -/
def typeGo (r : Str) : AType → (optional : Bool) → GoType
  | .scalar n, o =>
    match GMap.get n scalarGo with
    | some (b, u) => if o = true ∧ u ≠ [] then .star (.ident u) else .ident b
    | none => .ident n
  | .time, o => if o = true then .star (.ident g!"UnionNullLong") else .ident g!"int64"
  | .strings, _ => .map (.ident g!"string") (.ident g!"string")
  | .list t, _ => .array (typeGo r t false)
  | .record _, o => if o = true then .star (.ident (g!"UnionNull" ++ r)) else .star (.ident r)

/-- The field of a struct for a field of an Avro record. -/
def fieldGo (pub : Str → Str) (rename : GMap Str) (f : AField) : GoField :=
  .mk (some (toPublicName pub rename f.name)) (typeGo (recordGo pub rename f.name) f.type f.optional) { name := f.name }

mutual
/-- The structs for the records in the type of a field. -/
def recordsGo (pub : Str → Str) (rename : GMap Str) (field : Str) : AType → List (Str × List GoField)
  | .list t => recordsGo pub rename field t
  | .record fs => (recordGo pub rename field, fs.map (fieldGo pub rename)) :: allRecordsGo pub rename fs
  | _ => []
def allRecordsGo (pub : Str → Str) (rename : GMap Str) : List AField → List (Str × List GoField)
  | [] => []
  | .mk k _ t _ :: l => recordsGo pub rename k t ++ allRecordsGo pub rename l
end

/-- The fields that all messages have. -/
def metaGo : List GoField := [.mk (some g!"AvroWriteTime") (.ident g!"int64") { name := g!"AvroWriteTime" }, .mk (some g!"AvroDeleted") (.ident g!"bool") { name := g!"AvroDeleted" }]

/-- The structs that gogen-avro declares for the schema with the given name and fields: the one for the message is the first. -/
def gogen (pub : Str → Str) (rename : GMap Str) (name : Str) (fs : List AField) : List (Str × List GoField) :=
  (toPublicName pub rename name, metaGo ++ fs.map (fieldGo pub rename)) :: allRecordsGo pub rename fs

/-- The declarations that the conversion is generated from, if the generated struct uses no others. -/
def goDecls (pub : Str → Str) (rename : GMap Str) (name : Str) (fs : List AField) : Decls where
  gen := fun _ => none
  avro := fun r => GMap.get r (gogen pub rename name fs)

/-- gogen-avro writes the names of properties, after the option for names, with a capital letter as the generator of structs does, and these are none that gogen-avro or the
generator use. -/
structure SameNames (title pub : Str → Str) (rename : GMap Str) (m : GMap P) : Prop where
  same : ∀ k q, Listed m k q → pub ((GMap.get k rename).getD k) = title ((GMap.get k rename).getD k)
  free : ∀ k q, Listed m k q → goName title rename k ∉ methods ∧ ¬ Meta (goName title rename k)
  record : ∀ k q, Listed m k q → RecName (recordGo pub rename k)

/-- `Carried … inList raw required`: the schema of a property of a message that can be carried over.  Null is only for times and objects that are not required, and for lists
of times or objects.  In lists of objects (`inList`) it is for nothing, there are no lists of times and no maps, and times are required if they are pointers otherwise. -/
inductive Carried (title pub : Str → Str) (rename : GMap Str) (pointers : Bool) : Bool → P → Bool → Prop where
  | scalar {inList required : Bool} {raw : P} {i : Instance} {t : Str} : decodeInstance false raw = .ok i → TypeIs i t → t ∈ scalarTable.map Prod.fst →
      ¬ (t = g!"string" ∧ i.format = g!"date-time") → g!"null" ∉ i.type → Carried title pub rename pointers inList raw required
  | time {inList required : Bool} {raw : P} {i : Instance} : decodeInstance false raw = .ok i → TypeIs i g!"string" → i.format = g!"date-time" →
      (g!"null" ∈ i.type → required = false ∧ inList = false) → (inList = true → pointers = true → required = true) →
      Carried title pub rename pointers inList raw required
  | scalars {inList required : Bool} {raw items : P} {i j : Instance} {t : Str} : decodeInstance false raw = .ok i → TypeIs i g!"array" → i.items = some items →
      decodeInstance false items = .ok j → TypeIs j t → t ∈ scalarTable.map Prod.fst → ¬ (t = g!"string" ∧ j.format = g!"date-time") → g!"null" ∉ i.type →
      Carried title pub rename pointers inList raw required
  | times {required : Bool} {raw items : P} {i j : Instance} : decodeInstance false raw = .ok i → TypeIs i g!"array" → i.items = some items →
      decodeInstance false items = .ok j → TypeIs j g!"string" → j.format = g!"date-time" → Carried title pub rename pointers false raw required
  | strings {required : Bool} {raw : P} {i : Instance} {m : GMap P} : decodeInstance false raw = .ok i → TypeIs i g!"object" → i.properties = some m →
      (∀ k q, ¬ Listed m k q) → g!"null" ∉ i.type → Carried title pub rename pointers false raw required
  | object {inList required : Bool} {raw : P} {i : Instance} {m : GMap P} : decodeInstance false raw = .ok i → TypeIs i g!"object" → i.properties = some m →
      (∃ k q, Listed m k q) → (g!"null" ∈ i.type → required = false ∧ inList = false) → SameNames title pub rename m →
      (∀ k q, Listed m k q → Carried title pub rename pointers inList q (decide (k ∈ i.required))) → Carried title pub rename pointers inList raw required
  | objects {inList required : Bool} {raw items : P} {i j : Instance} {m : GMap P} : decodeInstance false raw = .ok i → TypeIs i g!"array" → i.items = some items →
      decodeInstance false items = .ok j → TypeIs j g!"object" → j.properties = some m → (∃ k q, Listed m k q) → (inList = true → g!"null" ∉ i.type) →
      SameNames title pub rename m → (∀ k q, Listed m k q → Carried title pub rename pointers true q (decide (k ∈ j.required))) →
      Carried title pub rename pointers inList raw required

end JT.Go.Spec
