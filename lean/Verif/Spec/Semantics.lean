import Verif.Spec.Eval
import Verif.Spec.Mirror
/-
The meaning of a schema on a JSON input, as a relation on schema documents: no transformer tree, no memory,
no iteration order.
-/
namespace JT.Spec

/-- A path in a transform starting with `@.` or `@[`: `@` stands for `up`. -/
def atPath (up p : Str) : Str :=
  match p with
  | '@' :: '.' :: r => up ++ '.' :: r
  | '@' :: '[' :: r => up ++ '[' :: r
  | p => p

/-- The result of the transform of an instance for an identifier: nil if there is none. -/
inductive Transformed (lib : Lib) (ident : Str) (inp : P) (raw : P) (up : Str) (sub : Mod) (ty : Str) : Res P → Prop
  | none : (raw.key g!"transform").bind (P.key ident) = none → Transformed lib ident inp raw up sub ty (.ok nilP)
  | empty : (raw.key g!"transform").bind (P.key ident) = some (.sc (.str [])) →
      Transformed lib ident inp raw up sub ty (.ok nilP)
  | some {tr : P} {tis : Instrs} : (raw.key g!"transform").bind (P.key ident) = some tr → tr ≠ .sc (.str []) →
      parseInstrs lib tr = .ok tis →
      Transformed lib ident inp raw up sub ty (instrsP lib ty (fun p => sub (atPath up p)) tis inp)

/-- The number of items of an array instance whose place holds `v`. -/
def itemsAt (lib : Lib) (path : Str) (inp : P) : Nat :=
  match jpGet lib P.view path inp with
  | none => 0
  | some o => match outP o with
    | .sc .nil => 0
    | .arr l => l.length
    | _ => 1

/-- An array of the values that are there; absent if there are none. -/
def arrayOf (rs : List P) : P :=
  let ps := rs.filter fun p => !isNilP p
  if ps.isEmpty then nilP else .arr ps

/-- An object of the values that are there; absent if there are none. -/
def objectOf (kvs : List (Str × P)) : P :=
  let l := kvs.filter fun kv => !isNilP kv.2
  if l.isEmpty then nilP else .obj (GMap.ofList l)

/-- `Val lib ident inp raw up sp cp sub r`: on the input `inp`, the instance `raw` of a schema has the value `r`
(`none`: the transformation fails).
`sp` is its path in the schema, `cp` the same with item indices filled in, `up` what `@` stands for, `sub` fills
item indices into paths. -/
inductive Val (lib : Lib) (ident : Str) (inp : P) : P → Str → Str → Str → Mod → Option P → Prop
  | scalar {raw : P} {up sp cp : Str} {sub : Mod} {ty0 ty : Str} {nu : Bool} {tr : Res P} :
      fieldType raw = .ok (ty0, nu) → ty0 ≠ g!"array" →
      (ty0 = g!"object" → raw.key g!"properties" = some (.obj [])) → scalarType raw ty0 = .ok ty →
      Transformed lib ident inp raw up sub ty tr →
      Val lib ident inp raw up sp cp sub
        (okP (precedence tr (sameP lib ty cp inp) (canon ((raw.key g!"default").getD nilP))))
  | array {raw : P} {up sp cp : Str} {sub : Mod} {nu : Bool} {items : P} {f : Nat → Option P} :
      fieldType raw = .ok (g!"array", nu) → raw.key g!"items" = some items →
      (∀ i, Val lib ident inp items (sp ++ g!"[*]") (sp ++ g!"[*]") (cp ++ g!"[" ++ itoaNat i ++ g!"]")
        (fun p => replace1 (sub p) (cp ++ g!"[*]") (cp ++ g!"[" ++ itoaNat i ++ g!"]")) (f i)) →
      Val lib ident inp raw up sp cp sub ((optAll f (List.range (itemsAt lib cp inp))).map arrayOf)
  | object {raw : P} {up sp cp : Str} {sub : Mod} {nu : Bool} {m : List (Str × P)} {f : Str → Option P} :
      fieldType raw = .ok (g!"object", nu) → raw.key g!"properties" = some (.obj m) → m ≠ [] →
      (∀ k q, (k, q) ∈ m → Val lib ident inp q sp (sp ++ '.' :: k) (cp ++ '.' :: k) sub (f k)) →
      Val lib ident inp raw up sp cp sub
        ((optAll (fun k => (f k).map fun p => (k, p)) (m.map Prod.fst)).map objectOf)

/-- The value of a whole schema. -/
inductive SchemaVal (lib : Lib) (ident : Str) (inp : P) (sc : Schema) : Option P → Prop
  | object {m : GMap P} {f : Str → Option P} : sc.properties = some m →
      (∀ k q, (k, q) ∈ m → Val lib ident inp q g!"$" (g!"$." ++ k) (g!"$." ++ k) id (f k)) →
      SchemaVal lib ident inp sc ((optAll (fun k => (f k).map fun p => (k, p)) (m.map Prod.fst)).map objectOf)
  | array {items : P} {f : Nat → Option P} : sc.properties = none → sc.items = some items →
      (∀ i, Val lib ident inp items g!"$[*]" g!"$[*]" (g!"$[" ++ itoaNat i ++ g!"]")
        (fun p => replace1 p g!"$[*]" (g!"$[" ++ itoaNat i ++ g!"]")) (f i)) →
      SchemaVal lib ident inp sc ((optAll f (List.range (itemsAt lib g!"$" inp))).map arrayOf)

/-- No default (or null). -/
def NoDefault (q : P) : Prop := (q.key g!"default").getD nilP = nilP

/-- No transform for the identifier (or an empty string). -/
def NoTransform (ident : Str) (q : P) : Prop :=
  (q.key g!"transform").bind (P.key ident) = none ∨ (q.key g!"transform").bind (P.key ident) = some (.sc (.str []))

/-- An array, or an object with properties. -/
def Container (q : P) : Prop :=
  (∃ nu, fieldType q = .ok (g!"array", nu)) ∨ ((∃ nu, fieldType q = .ok (g!"object", nu)) ∧ q.key g!"properties" ≠ some (.obj []))

/-- No `currentTime` in the transform for the identifier. -/
def NoClock (ident : Str) (q : P) : Prop :=
  ∀ tr l e ops op, (q.key g!"transform").bind (P.key ident) = some tr → tr.key g!"from" = some (.arr l) → e ∈ l →
    e.key g!"operations" = some (.arr ops) → op ∈ ops → op.key g!"type" ≠ some (.sc (.str g!"currentTime"))

/-- The schemas covered by the semantics: plain property names; arrays and objects have no default and no
transform of their own; no method `last`; no clock. -/
structure SimpleSchema (ident : Str) (sc : Schema) : Prop where
  plain : PlainSchema sc
  noDefault : ∀ q, SchemaInst sc q → Container q → NoDefault q
  noTransform : ∀ q, SchemaInst sc q → Container q → NoTransform ident q
  notLast : ∀ q, SchemaInst sc q → NotLast ident q
  noClock : ∀ q, SchemaInst sc q → NoClock ident q

end JT.Spec
