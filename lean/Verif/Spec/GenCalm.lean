import Verif.Spec.Walk
/- Schemas that the generators can go through, one way or the other. -/
namespace JT.Spec

/-- Inline structs can be made: no property name has a dot, and no object is also of the type that is ignored. -/
structure InlineSafe (sc : Schema) : Prop where
  root : ∀ m, sc.properties = some m → ∀ kv ∈ m, '.' ∉ kv.1
  names : ∀ l q i m, SchemaAt instNode sc l q → decodeInstance false q = .ok i → g!"object" ∈ i.type → i.properties = some m → ∀ kv ∈ m, '.' ∉ kv.1
  objects : ∀ l q i, SchemaAt instNode sc l q → decodeInstance false q = .ok i → g!"object" ∈ i.type → g!"graphql-hydration" ∉ i.type

/-- Structs and types of their own can be made: the properties at the top are not called `$` (nor `$.$` and so on) and have names. -/
def FlatSafe (sc : Schema) : Prop := ∀ m, sc.properties = some m → ∀ kv ∈ m, kv.1 ≠ [] ∧ ∃ part ∈ splitC '.' kv.1, part ≠ g!"$"

end JT.Spec
