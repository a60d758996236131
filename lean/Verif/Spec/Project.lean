import Verif.Spec.Semantics
/- Projection of an input document onto a schema, without paths. -/
namespace JT.Spec

/-- A value converted to a scalar type, as a document part: nil if there is none. -/
def scalarPart (lib : Lib) (ty : Str) : Option P → Option P
  | none => some nilP
  | some x => match convert lib P.view ty (x.depth + 1) x with
    | .ok c => if isNilP (outP c.val) then some nilP else if c.err then none else some (outP c.val)
    | _ => none

/-- The items of a part described by an array instance.  A value which is not an array counts as one item; its
content is looked up as item 0 of the value, which exists only if the value is an object with a key "0". -/
def itemsOf : Option P → List (Option P)
  | none => []
  | some (.sc .nil) => []
  | some (.arr l) => l.map some
  | some (.obj m) => [GMap.get g!"0" m]
  | some (.sc _) => [none]

/-- The field of a part. -/
def fieldOf (k : Str) : Option P → Option P
  | some (.obj m) => GMap.get k m
  | _ => none

/-- `Projected lib raw x r`: projecting the part `x` of the input (`none`: there is nothing at that place) onto the instance `raw`
gives `r` (`none`: conversion of some scalar fails). -/
inductive Projected (lib : Lib) : P → Option P → Option P → Prop
  | scalar {raw : P} {x : Option P} {ty0 ty : Str} {nu : Bool} :
      fieldType raw = .ok (ty0, nu) → ty0 ≠ g!"array" →
      (ty0 = g!"object" → raw.key g!"properties" = some (.obj [])) → scalarType raw ty0 = .ok ty →
      Projected lib raw x (scalarPart lib ty x)
  | array {raw : P} {x : Option P} {nu : Bool} {items : P} {f : Nat → Option P} :
      fieldType raw = .ok (g!"array", nu) → raw.key g!"items" = some items →
      (∀ i y, (itemsOf x)[i]? = some y → Projected lib items y (f i)) →
      Projected lib raw x ((optAll f (List.range (itemsOf x).length)).map arrayOf)
  | object {raw : P} {x : Option P} {nu : Bool} {m : List (Str × P)} {f : Str → Option P} :
      fieldType raw = .ok (g!"object", nu) → raw.key g!"properties" = some (.obj m) → m ≠ [] →
      (∀ k q, (k, q) ∈ m → Projected lib q (fieldOf k x) (f k)) →
      Projected lib raw x ((optAll (fun k => (f k).map fun p => (k, p)) (m.map Prod.fst)).map objectOf)

/-- Projection of a whole document onto a schema. -/
inductive SchemaProjected (lib : Lib) (inp : P) (sc : Schema) : Option P → Prop
  | object {m : GMap P} {f : Str → Option P} : sc.properties = some m →
      (∀ k q, (k, q) ∈ m → Projected lib q (fieldOf k (some inp)) (f k)) →
      SchemaProjected lib inp sc ((optAll (fun k => (f k).map fun p => (k, p)) (m.map Prod.fst)).map objectOf)
  | array {items : P} {f : Nat → Option P} : sc.properties = none → sc.items = some items →
      (∀ i y, (itemsOf (some inp))[i]? = some y → Projected lib items y (f i)) →
      SchemaProjected lib inp sc ((optAll f (List.range (itemsOf (some inp)).length)).map arrayOf)

/-- A schema without transforms (for the identifier) and defaults, whose property names are identifiers. -/
structure PureSchema (ident : Str) (sc : Schema) : Prop where
  distinct : ∀ m, sc.properties = some m → (m.map Prod.fst).Nodup
  names : ∀ m, sc.properties = some m → ∀ kv ∈ m, isName kv.1 = true
  distinctIn : ∀ q m, SchemaInst sc q → q.key g!"properties" = some (.obj m) → (m.map Prod.fst).Nodup
  namesIn : ∀ q m, SchemaInst sc q → q.key g!"properties" = some (.obj m) → ∀ kv ∈ m, isName kv.1 = true
  noDefault : ∀ q, SchemaInst sc q → NoDefault q
  noTransform : ∀ q, SchemaInst sc q → NoTransform ident q

end JT.Spec
