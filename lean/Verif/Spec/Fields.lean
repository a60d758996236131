import Verif.Model.Struct
import Verif.Spec.Walk
/- Which struct fields a schema asks for. -/
namespace JT.Spec
open Gen

/-- The only type besides null is `t`. -/
def TypeIs (i : Instance) (t : Str) : Prop := i.type.filter (fun x => x ≠ g!"null") = [t]

/-- A type without parts. -/
def LeafType (t : Str) : Prop := t ≠ g!"object" ∧ t ≠ g!"array" ∧ t ≠ g!"graphql-hydration"

/-- Strings with the format for times have a type of their own. -/
def leafType (i : Instance) (t : Str) : Str := if t = g!"string" ∧ i.format = g!"date-time" then g!"date-time" else t

/-- An instance that only has a meaning for GraphQL. -/
def Hydrated (raw : P) : Prop :=
  ∃ i, decodeInstance false raw = .ok i ∧ g!"graphql-hydration" ∈ i.type ∧ g!"object" ∉ i.type ∧ g!"array" ∉ i.type

/-- The name of the field for a property. -/
def goName (title : Str → Str) (rename : GMap Str) (k : Str) : Str := title ((GMap.get k rename).getD k)

/-- `FieldOf title rename k raw f`: the field for the property `k` with schema `raw` is `f`.  An array has the type of its items, and the fields if
these are objects. -/
inductive FieldOf (title : Str → Str) (rename : GMap Str) : Str → P → EField → Prop where
  | leaf {k : Str} {raw : P} {i : Instance} {t : Str} : decodeInstance false raw = .ok i → TypeIs i t → LeafType t →
      FieldOf title rename k raw ⟨false, i.description, none, k, leafType i t, goName title rename k, decide (g!"null" ∈ i.type), []⟩
  | object {k : Str} {raw : P} {i : Instance} {m : GMap P} {fs : GMap EField} : decodeInstance false raw = .ok i → TypeIs i g!"object" →
      i.properties = some m → GMap.Sorted fs →
      (∀ k', GMap.get k' fs = none ↔ ∀ q, GMap.get k' m = some q → Hydrated q) →
      (∀ k' q f, GMap.get k' m = some q → GMap.get k' fs = some f → FieldOf title rename k' q f) →
      FieldOf title rename k raw ⟨false, i.description, some fs, k, g!"object", goName title rename k, decide (g!"null" ∈ i.type), i.required⟩
  | leaves {k : Str} {raw items : P} {i j : Instance} {t : Str} : decodeInstance false raw = .ok i → TypeIs i g!"array" → i.items = some items →
      decodeInstance false items = .ok j → TypeIs j t → LeafType t →
      FieldOf title rename k raw ⟨true, i.description, none, k, leafType j t, goName title rename k, decide (g!"null" ∈ i.type), []⟩
  | objects {k : Str} {raw items : P} {i j : Instance} {m : GMap P} {fs : GMap EField} : decodeInstance false raw = .ok i → TypeIs i g!"array" →
      i.items = some items → decodeInstance false items = .ok j → TypeIs j g!"object" →
      j.properties = some m → GMap.Sorted fs →
      (∀ k', GMap.get k' fs = none ↔ ∀ q, GMap.get k' m = some q → Hydrated q) →
      (∀ k' q f, GMap.get k' m = some q → GMap.get k' fs = some f → FieldOf title rename k' q f) →
      FieldOf title rename k raw ⟨true, i.description, some fs, k, g!"object", goName title rename k, decide (g!"null" ∈ i.type), j.required⟩

/-- `FieldsOf title rename m fs`: there is one field for each property besides those for GraphQL, and no others. -/
structure FieldsOf (title : Str → Str) (rename : GMap Str) (m : GMap P) (fs : GMap EField) : Prop where
  sorted : GMap.Sorted fs
  names : ∀ k, GMap.get k fs = none ↔ ∀ q, GMap.get k m = some q → Hydrated q
  each : ∀ k q f, GMap.get k m = some q → GMap.get k fs = some f → FieldOf title rename k q f

end JT.Spec
