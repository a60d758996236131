import Verif.Model.Map
/- Go source as the Avro generator sees it (go/ast): the types of fields and the fields of structs. -/
namespace JT.Go

/-- What `parseStructTag` (generate/avro.go:239-258) finds in the tag of a field: the JSON name, the description, and `omitempty`.  The parsing of the
tag's text is in Model/Tag. -/
structure Tag where
  name : Str := []
  description : Str := []
  omitEmpty : Bool := false
deriving DecidableEq

mutual
/-- `ast.Expr`, as far as the generator tells types apart (generate/avro.go:380-443). -/
inductive GoType where
  /-- `*ast.StarExpr` -/
  | star (x : GoType)
  /-- `*ast.Ident` -/
  | ident (name : Str)
  /-- `*ast.MapType` -/
  | map (key value : GoType)
  /-- `*ast.ArrayType` -/
  | array (elt : GoType)
  /-- `*ast.StructType` -/
  | struct (fields : List GoField)
  /-- `*ast.SelectorExpr`, with the name after the dot -/
  | selector (sel : Str)
  /-- anything else, with `astutil.NodeDescription` -/
  | other (desc : Str)
/-- `*ast.Field`.  `none` is an embedded field.  A declaration of several names at once is not modelled: the generated code has none. -/
inductive GoField where
  | mk (name : Option Str) (type : GoType) (tag : Tag)
end

/-- The name of a field. -/
def GoField.name : GoField → Option Str
  | .mk n _ _ => n
/-- The type of a field. -/
def GoField.type : GoField → GoType
  | .mk _ t _ => t
/-- The tag of a field. -/
def GoField.tag : GoField → Tag
  | .mk _ _ t => t

/-- generate/avro_helpers.go:22-42 -/
def invalidFieldNames : List Str :=
  [g!"Schema", g!"Serialize", g!"SchemaName", g!"MarshalJSON", g!"UnmarshalJSON", g!"AvroCRC64Fingerprint", g!"SetBoolean", g!"SetInt", g!"SetLong",
   g!"SetFloat", g!"SetDouble", g!"SetBytes", g!"SetString", g!"Get", g!"SetDefault", g!"AppendMap", g!"AppendArray", g!"NullField", g!"Finalize"]

/-- generate/avro_helpers.go:530-533: the key of a field. -/
def fieldKey (k : Str) : Str := if k ∈ invalidFieldNames then g!"Field_" ++ k else k

/-- generate/avro_helpers.go:504-537: the loop of `mapFields`.  `files` gives the fields of the struct of that name if `parseGoStruct` finds it in its file and
`findStructFields` finds its fields.  `ord` is the order in which `range embedMap` visits its entries. -/
def mapLoop (files : Str → Option (List GoField)) (ord : GMap GoField → GMap GoField) (rec : List GoField → Res (GMap GoField)) :
    List GoField → GMap GoField → Res (GMap GoField)
  | [], m => .ok m
  | .mk none (.ident e) _ :: t, m =>
    match files e with
    | none => .err
    | some fs => (rec fs).bind fun em => mapLoop files ord rec t (GMap.fill m (ord em))
  | .mk none _ _ :: t, m => mapLoop files ord rec t m
  | .mk (some k) ty tg :: t, m => mapLoop files ord rec t (GMap.set (fieldKey k) (.mk (some k) ty tg) m)

/-- generate/avro_helpers.go:500-538: `mapFields`.  The number bounds the depth of the recursion; structs that embed each other in a circle end in a stack
overflow, here a panic. -/
def mapFields (files : Str → Option (List GoField)) (ord : GMap GoField → GMap GoField) : Nat → List GoField → Res (GMap GoField)
  | 0, _ => .panic
  | n + 1, l => mapLoop files ord (mapFields files ord n) l []

end JT.Go
