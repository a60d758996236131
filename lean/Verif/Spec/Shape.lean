import Verif.Spec.Full
import Verif.Spec.XmlSemantics
import Verif.Spec.TopArray
/- Output values that have the shape of a schema. -/
namespace JT.Spec

/-- The value `v` has the shape of the instance `q` of a schema: an array instance gives a non-empty array and an object instance a non-empty object with
declared properties only, in both cases without null entries and with entries that again have the shape of their definition.  On XML input, an
entry of an array may instead be a scalar, or anything if the array has a default. -/
inductive HasShape (fmt : Format) : P → P → Prop
  | scalar {q v : P} {ty : Str} : IsScalar q ty → HasShape fmt q v
  | array {q items : P} {l : List P} (other : P → Prop) : ArrayDef q → q.key g!"items" = some items → l ≠ [] → (∀ v ∈ l, v ≠ nilP) →
      (∀ v ∈ l, other v → fmt = .xml ∧ (¬ NoDefault q ∨ ∃ s, v = .sc s)) → (∀ v ∈ l, ¬ other v → HasShape fmt items v) → HasShape fmt q (.arr l)
  | object {q : P} {m : List (Str × P)} {o : GMap P} (defn : Str × P → P) : ObjectInst q → q.key g!"properties" = some (.obj m) → o ≠ [] → GMap.Sorted o →
      (∀ kv ∈ o, kv.2 ≠ nilP) → (∀ kv ∈ o, (kv.1, defn kv) ∈ m) → (∀ kv ∈ o, HasShape fmt (defn kv) kv.2) → HasShape fmt q (.obj o)

/-- The same for the whole output of a schema; if nothing has a value it is null. -/
def ShapedSchema (fmt : Format) (sc : Schema) (p : P) : Prop :=
  p = nilP ∨
  (∃ m o, sc.properties = some m ∧ p = .obj o ∧ o ≠ [] ∧ GMap.Sorted o ∧ ∀ kv ∈ o, kv.2 ≠ nilP ∧ ∃ q, (kv.1, q) ∈ m ∧ HasShape fmt q kv.2) ∨
  ∃ q l, sc.items = some q ∧ p = .arr l ∧ l ≠ [] ∧ ∀ v ∈ l, v ≠ nilP ∧ ((fmt = .xml ∧ ∃ s, v = .sc s) ∨ HasShape fmt q v)

/-- Schemas with plain property names whose objects have no default and, for JSON input, no transform of their own. -/
structure FreshSchema (fmt : Format) (ident : Str) (sc : Schema) : Prop where
  plain : PlainSchema sc
  noDefault : ∀ q, SchemaInst sc q → ObjectInst q → NoDefault q
  noTransform : fmt = .json → ∀ q, SchemaInst sc q → ObjectInst q → NoTransform ident q

/-- `v` is the part of the output `p` at a place of the instance `q` of the schema. -/
inductive Place (sc : Schema) (p : P) : P → P → Prop
  | prop {m o : GMap P} {k : Str} {q v : P} : sc.properties = some m → (k, q) ∈ m → p = .obj o → (k, v) ∈ o → Place sc p q v
  | item {l : List P} {q v : P} : sc.items = some q → p = .arr l → v ∈ l → Place sc p q v
  | inner {q q' v : P} {m : List (Str × P)} {o : GMap P} {k : Str} : Place sc p q (.obj o) → ObjectInst q → q.key g!"properties" = some (.obj m) →
      (k, q') ∈ m → (k, v) ∈ o → Place sc p q' v
  | elem {q q' v : P} {l : List P} : Place sc p q (.arr l) → ArrayDef q → q.key g!"items" = some q' → v ∈ l → Place sc p q' v

end JT.Spec
