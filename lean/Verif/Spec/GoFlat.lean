import Verif.Spec.GoText
import Verif.Props.C56Flat
/- The Go file that a JSON schema asks for when objects have structs of their own. -/
namespace JT.GoText
open Gen Spec JT.Spec GoJson Flat

/-- The comment that tells that code was generated. -/
def notice : Str := g!" Code generated by github.com/GannettDigital/jstransform; DO NOT EDIT."

/-- The declaration of a struct with embedded structs. -/
def structDecl (name : Str) (es : List Str) (fs : List Field) : Str × Ty := (name, .struct (es.map (fun e => .mk [] none (.name e) none) ++ fs))

/-- `FlatType pointers key raw required t struct`: the Go type for the schema `raw` is `t`, where `key` is the name of the struct for the object in it; `struct` if it is that
struct.  Objects without properties are maps. -/
inductive FlatType (pointers : Bool) (key : Str) : P → Bool → Ty → Bool → Prop where
  | scalar {raw : P} {i : Instance} {t b : Str} {required : Bool} : decodeInstance false raw = .ok i → TypeIs i t → (t, b) ∈ scalarTable →
      ¬ (t = g!"string" ∧ i.format = g!"date-time") → FlatType pointers key raw required (ptrIf (g!"null" ∈ i.type) (.name b)) false
  | time {raw : P} {i : Instance} {required : Bool} : decodeInstance false raw = .ok i → TypeIs i g!"string" → i.format = g!"date-time" →
      FlatType pointers key raw required (ptrIf (g!"null" ∈ i.type ∨ (pointers = true ∧ required = false)) (.sel g!"time" g!"Time")) false
  | dict {raw : P} {i : Instance} {m : GMap P} {required : Bool} : decodeInstance false raw = .ok i → TypeIs i g!"object" → i.properties = some m →
      (∀ k q, ¬ Listed m k q) → FlatType pointers key raw required (ptrIf (g!"null" ∈ i.type) (.map (.name g!"string") (.name g!"string"))) false
  | struct {raw : P} {i : Instance} {m : GMap P} {required : Bool} : decodeInstance false raw = .ok i → TypeIs i g!"object" →
      i.properties = some m → (∃ k q, Listed m k q) →
      FlatType pointers key raw required (ptrIf (g!"null" ∈ i.type ∨ (pointers = true ∧ required = false)) (.name key))
        (decide (¬ (g!"null" ∈ i.type ∨ (pointers = true ∧ required = false))))
  | scalars {raw items : P} {i j : Instance} {t b : Str} {required : Bool} : decodeInstance false raw = .ok i → TypeIs i g!"array" → i.items = some items →
      decodeInstance false items = .ok j → TypeIs j t → (t, b) ∈ scalarTable → ¬ (t = g!"string" ∧ j.format = g!"date-time") →
      FlatType pointers key raw required (.slice (ptrIf (g!"null" ∈ i.type) (.name b))) false
  | times {raw items : P} {i j : Instance} {required : Bool} : decodeInstance false raw = .ok i → TypeIs i g!"array" → i.items = some items →
      decodeInstance false items = .ok j → TypeIs j g!"string" → j.format = g!"date-time" →
      FlatType pointers key raw required (.slice (ptrIf (g!"null" ∈ i.type ∨ (pointers = true ∧ required = false)) (.sel g!"time" g!"Time"))) false
  | dicts {raw items : P} {i j : Instance} {m : GMap P} {required : Bool} : decodeInstance false raw = .ok i → TypeIs i g!"array" → i.items = some items →
      decodeInstance false items = .ok j → TypeIs j g!"object" → j.properties = some m → (∀ k q, ¬ Listed m k q) →
      FlatType pointers key raw required (.slice (ptrIf (g!"null" ∈ i.type) (.map (.name g!"string") (.name g!"string")))) false
  | structs {raw items : P} {i j : Instance} {m : GMap P} {required : Bool} : decodeInstance false raw = .ok i →
      TypeIs i g!"array" → i.items = some items → decodeInstance false items = .ok j → TypeIs j g!"object" → j.properties = some m → (∃ k q, Listed m k q) →
      FlatType pointers key raw required (.slice (ptrIf (g!"null" ∈ j.type ∨ (pointers = true ∧ required = false)) (.name key))) false

/-- The fields for the names; `key` gives the names of structs for properties. -/
inductive FlatFieldsFor (title : Str → Str) (rename : GMap Str) (descTag pointers : Bool) (key : Str → Str) (m : GMap P) (required : List Str) : List Str → List Field → Prop where
  | nil : FlatFieldsFor title rename descTag pointers key m required [] []
  | cons {k : Str} {q : P} {i : Instance} {t : Ty} {struct : Bool} {ks : List Str} {fs : List Field} : Listed m k q →
      decodeInstance false q = .ok i → FlatType pointers (key k) q (decide (k ∈ required)) t struct →
      FlatFieldsFor title rename descTag pointers key m required ks fs →
      FlatFieldsFor title rename descTag pointers key m required (k :: ks)
        (.mk (docOf descTag i.description) (some (goName title rename k)) t (some (tagOf descTag k (optionOf (decide (k ∈ required)) struct) i.description)) :: fs)

/-- `FlatStruct … m required fs`: the fields `fs` are those for the properties `m`: one for each besides those for GraphQL, in the order of their names in Go. -/
def FlatStruct (title : Str → Str) (rename : GMap Str) (descTag pointers : Bool) (key : Str → Str) (m : GMap P) (required : List Str) (fs : List Field) : Prop :=
  ∃ ks, (ks.map (goName title rename)).Pairwise (fun a b => strLt a b = true) ∧ (∀ k, k ∈ ks ↔ ∃ q, Listed m k q) ∧
    FlatFieldsFor title rename descTag pointers key m required ks fs

/-- The struct for the object at position `l`, whose name comes from the names on the way to it. -/
inductive StructAt (title : Str → Str) (args : Args) (schema : Instance) (name : Str) (l : List Seg) : Str × Ty → Prop where
  | mk {m : GMap P} {rq : List Str} {fs : List Field} : ObjectAt schema l m rq → (∃ k q, Listed m k q) →
      FlatStruct title args.fieldNames args.descTag args.pointers (fun k => keyOf title name (l ++ [.key k])) m rq fs →
      StructAt title args schema name l (structDecl (keyOf title name l) [] fs)

/-- The file for a schema: the struct for the schema itself, with the embedded ones, and then those for the objects in it that have properties, in the order of their
names.  Exactly the packages that are used are imported. -/
structure FlatFile (title : Str → Str) (args : Args) (schema : Instance) (m : GMap P) (pkg name : Str) (es : List Str) (f : File) : Prop where
  pkg : f.pkg = pkg
  doc : f.doc = [notice]
  imports : f.ImportsUsed
  types : ∃ fs ds, f.types = structDecl (title name) es fs :: ds ∧
    FlatStruct title args.fieldNames args.descTag args.pointers (fun k => keyOf title name [.key k]) m schema.required fs ∧
    (ds.map Prod.fst).Pairwise (fun a b => strLt a b = true) ∧
    (∀ d ∈ ds, ∃ l, l ≠ [] ∧ StructAt title args schema name l d) ∧
    ∀ l m rq, l ≠ [] → ObjectAt schema l m rq → (∃ k q, Listed m k q) → ∃ d ∈ ds, StructAt title args schema name l d

mutual
/-- The names of types within a type. -/
def Ty.names : Ty → List Str
  | .star t => t.names
  | .name s => [s]
  | .sel _ _ => []
  | .map k v => k.names ++ v.names
  | .slice t => t.names
  | .struct fs => fieldsNames fs
def fieldsNames : List Field → List Str
  | [] => []
  | .mk _ _ t _ :: fs => t.names ++ fieldsNames fs
end

/-- No name is declared twice, and each name is that of a type of the language, declared in the file or one of the given ones. -/
def File.Closed (given : List Str) (f : File) : Prop := (f.types.map Prod.fst).Nodup ∧
  ∀ d ∈ f.types, ∀ n ∈ d.2.names, n ∈ scalarTable.map Prod.snd ∨ n ∈ f.types.map Prod.fst ∨ n ∈ given

/-! ### Conditions -/

/-- What is asked of a schema and of the names given to the generator. -/
structure FlatWritable (u : Unicode) (title : Str → Str) (args : Args) (schema : Instance) (m : GMap P) (pkg name : Str) (embeds es : List Str) : Prop where
  flat : args.noNested = true
  conditions : Conditions title name ⟨schema.properties, schema.items⟩
  properties : schema.properties = some m
  embedded : JT.Spec.Embeds title args embeds schema.allOf es
  some : ∃ k q, Listed m k q
  pkg : Name u pkg
  /-- The names of structs are names in Go that stay as they are and do not begin with small letters. -/
  rootName : Name u (title name)
  upper : ∀ c t, title name = c :: t → c.isLower = false
  embedNames : ∀ e ∈ es, Name u e
  keys : ∀ l m rq, l ≠ [] → ObjectAt schema l m rq → Name u (keyOf title name l) ∧ title (keyOf title name l) = keyOf title name l
  /-- The names of fields are different names in Go. -/
  fields : ∀ l m rq, ObjectAt schema l m rq → (∀ k q, Listed m k q → Name u (goName title args.fieldNames k)) ∧
    ∀ k q k' q', Listed m k q → Listed m k' q' → goName title args.fieldNames k = goName title args.fieldNames k' → k = k'
  types : ∀ l q i t, SchemaAt instNode ⟨schema.properties, schema.items⟩ l q → decodeInstance false q = .ok i → TypeIs i t →
    t ∈ scalarTable.map Prod.fst ∨ t ∈ [g!"object", g!"array", g!"graphql-hydration"]

/-- The names in JSON and the descriptions can be part of a tag or comment. -/
structure FlatText (args : Args) (schema : Instance) : Prop where
  tag : ∀ l m rq k q, ObjectAt schema l m rq → Listed m k q → RawText k
  doc : ∀ l q i, SchemaAt instNode ⟨schema.properties, schema.items⟩ l q → decodeInstance false q = .ok i → DocText args.descTag i

/-- The object that a property is or is a list of. -/
inductive Inner (raw : P) (i : Instance) (m : GMap P) : Prop where
  | object : decodeInstance false raw = .ok i → TypeIs i g!"object" → i.properties = some m → Inner raw i m
  | items {a : Instance} {items : P} : decodeInstance false raw = .ok a → TypeIs a g!"array" → a.items = some items → decodeInstance false items = .ok i →
      TypeIs i g!"object" → i.properties = some m → Inner raw i m

/-- No pointer is asked for to an object without properties. -/
def NoEmptyPointers (args : Args) (schema : Instance) : Prop := ∀ l m rq k q i m', ObjectAt schema l m rq → Listed m k q → Inner q i m' → (∀ k q, ¬ Listed m' k q) →
  g!"null" ∉ i.type ∧ (args.pointers = true → k ∈ rq)

end JT.GoText
