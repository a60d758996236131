import Verif.Model.GoAst
/- The names of the fields of Avro structs. -/
namespace JT.Go

/-- The names that gogen-avro uses for the methods of a generated struct, as listed in generate/avro_helpers.go:18-42. -/
def Spec.methods : List Str :=
  [g!"Schema", g!"Serialize", g!"SchemaName", g!"MarshalJSON", g!"UnmarshalJSON", g!"AvroCRC64Fingerprint", g!"SetBoolean", g!"SetInt", g!"SetLong",
   g!"SetFloat", g!"SetDouble", g!"SetBytes", g!"SetString", g!"Get", g!"SetDefault", g!"AppendMap", g!"AppendArray", g!"NullField", g!"Finalize"]

/-- The name of the field of the Avro struct for a field of that name: a field and a method of a struct cannot have the same name. -/
def Spec.key (k : Str) : Str := if k ∈ Spec.methods then g!"Field_" ++ k else k

theorem fieldKey_eq : fieldKey = Spec.key := rfl

end JT.Go
