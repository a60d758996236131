import Verif.Model.Schema
/- Specification vocabulary about schemas, independent of how they are walked. -/
namespace JT.Spec

/-- `q` is an instance of the schema document `p`: `p` itself or reached through `properties` and `items`. -/
inductive Inst : P → P → Prop
  | self (p : P) : Inst p p
  | prop {p q : P} {m : List (Str × P)} {k : Str} {r : P} :
      Inst p q → q.key g!"properties" = some (.obj m) → (k, r) ∈ m → Inst p r
  | items {p q r : P} : Inst p q → q.key g!"items" = some r → Inst p r

/-- `q` is an instance of a schema given by its top-level properties and items. -/
def SchemaInst (s : Schema) (q : P) : Prop :=
  (∃ m k p, s.properties = some m ∧ (k, p) ∈ m ∧ Inst p q) ∨ (∃ p, s.items = some p ∧ Inst p q)

/-- The default of an instance, if any, is not an object or array. -/
def ScalarDefault (q : P) : Prop := ∀ d, q.key g!"default" = some d → ∃ s, d = .sc s

/-- The transform with identifier `ident` of an instance does not use method `last`. -/
def NotLast (ident : Str) (q : P) : Prop :=
  ∀ tr, (q.key g!"transform").bind (P.key ident) = some tr → tr.key g!"method" ≠ some (.sc (.str g!"last"))

end JT.Spec
