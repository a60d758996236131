import Verif.Spec.Full
import Verif.Spec.Isolated
/-
The meaning of a schema some of whose top level properties are arrays with a transform or a default of their own.  The items of such
an array are read from the input with the array put at its place; no other instance sees this.
-/
namespace JT.Spec

/-- A value used as an array: a value which is not one is the only entry. -/
def entries : P → List P
  | .arr l => l
  | p => [p]

/-- The entries of a default. -/
def defaultEntries : P → List P × Bool
  | .arr l => (l, true)
  | _ => ([], false)

/-- The entries of an array instance, the first available of: transform, input at the same path, default; and whether they have to be
put into the input.  `none`: the transform fails. -/
def arrayBase (tr : Res P) (same : Option P) (dflt : P) : Option (List P × Bool) :=
  match tr with
  | .ok v =>
    if isNilP v then
      match same with
      | some raw => some (if isNilP raw then defaultEntries dflt else (entries raw, false))
      | none => some (defaultEntries dflt)
    else some (entries v, true)
  | _ => none

/-- The input seen by the items: the entries are put at the place of the array, which needs an object. -/
def inputWith (k : Str) (b : List P × Bool) (inp : P) : Option P :=
  if b.2 then
    match inp with
    | .obj m => some (.obj (GMap.set k (.arr b.1) m))
    | _ => none
  else some inp

/-- The value of the property `k` of a schema, defined by `q`. -/
inductive TopVal (lib : Lib) (ident : Str) (inp : P) (k : Str) (q : P) : Option P → Prop
  | other {r : Option P} : (∀ nu, fieldType q ≠ .ok (g!"array", nu)) → Val lib ident inp q g!"$" (g!"$." ++ k) (g!"$." ++ k) id r →
      TopVal lib ident inp k q r
  | array {nu : Bool} {items inp' : P} {tr : Res P} {b : List P × Bool} {f : Nat → Option P} :
      fieldType q = .ok (g!"array", nu) → q.key g!"items" = some items → Transformed lib ident inp q g!"$" id g!"array" tr →
      arrayBase tr ((jpGet lib P.view (g!"$." ++ k) inp).map outP) (canon ((q.key g!"default").getD nilP)) = some b →
      inputWith k b inp = some inp' →
      (∀ i, Val lib ident inp' items (g!"$." ++ k ++ g!"[*]") (g!"$." ++ k ++ g!"[*]") (g!"$." ++ k ++ g!"[" ++ itoaNat i ++ g!"]")
        (fun p => replace1 p (g!"$." ++ k ++ g!"[*]") (g!"$." ++ k ++ g!"[" ++ itoaNat i ++ g!"]")) (f i)) →
      TopVal lib ident inp k q ((optAll f (List.range b.1.length)).map arrayOf)
  | fails {nu : Bool} {tr : Res P} : fieldType q = .ok (g!"array", nu) → Transformed lib ident inp q g!"$" id g!"array" tr →
      (arrayBase tr ((jpGet lib P.view (g!"$." ++ k) inp).map outP) (canon ((q.key g!"default").getD nilP))).bind
        (fun b => inputWith k b inp) = none →
      TopVal lib ident inp k q none

/-- The value of a schema with top level properties. -/
inductive TopSchemaVal (lib : Lib) (ident : Str) (inp : P) (sc : Schema) : Option P → Prop
  | mk {m : GMap P} {f : Str → Option P} : sc.properties = some m → (∀ k q, (k, q) ∈ m → TopVal lib ident inp k q (f k)) →
      TopSchemaVal lib ident inp sc ((optAll (fun k => (f k).map fun p => (k, p)) (m.map Prod.fst)).map objectOf)

/-- An array instance. -/
def ArrayDef (q : P) : Prop := ∃ nu, fieldType q = .ok (g!"array", nu)

/-- The property `k` is an array with a transform or a default: its entries are stored in the input. -/
def Stored (ident : Str) (m : List (Str × P)) (k : Str) : Prop :=
  ∃ q, (k, q) ∈ m ∧ ArrayDef q ∧ ¬ (NoDefault q ∧ NoTransform ident q)

/-- The JSONPath of an entry of a transform; empty if there is none. -/
def entryPath (e : P) : Str :=
  match e.key g!"jsonPath" with
  | some (.sc (.str j)) => j
  | _ => []

/-- The transform of the instance has an entry with JSONPath `j`. -/
def ReadsPath (ident : Str) (q : P) (j : Str) : Prop :=
  ∃ tr l e, (q.key g!"transform").bind (P.key ident) = some tr ∧ tr.key g!"from" = some (.arr l) ∧ e ∈ l ∧ entryPath e = j

/-- The instance `r` is inside the instance `q`. -/
def Below (q r : P) : Prop :=
  (∃ items, q.key g!"items" = some items ∧ Inst items r) ∨ (∃ m k x, q.key g!"properties" = some (.obj m) ∧ (k, x) ∈ m ∧ Inst x r)

/-- A JSONPath that starts with the name of a top level field and does not mention the root again. -/
def Rooted (name path : Str) : Prop :=
  isName name = true ∧ ∃ rest, path = g!"$." ++ name ++ rest ∧ '$' ∉ rest ∧ (rest = [] ∨ ∃ r, rest = '.' :: r ∨ rest = '[' :: r)

/-- What is assumed of the JSONPath library: a path that starts with the name of a field and does not mention the root again only
depends on this field and selects something below it. -/
def Local (lib : Lib) : Prop := ∀ name path, Rooted name path → ∀ W : Str → Prop, ¬ W name → Avoids lib W path

/-- Schemas with top level properties.  Arrays among these properties may have transforms and defaults, other arrays and objects
have none.  Property names are identifiers.  No transform reads the place of such an array, except within this array. -/
structure IsolatedSchema (ident : Str) (sc : Schema) (m : GMap P) : Prop where
  props : sc.properties = some m
  noItems : sc.items = none
  nodup : (m.map Prod.fst).Nodup
  names : ∀ k q, (k, q) ∈ m → isName k = true
  inNames : ∀ q, SchemaInst sc q → ∀ m, q.key g!"properties" = some (.obj m) → (m.map Prod.fst).Nodup ∧ ∀ kv ∈ m, isName kv.1 = true
  notLast : ∀ q, SchemaInst sc q → NotLast ident q
  noClock : ∀ q, SchemaInst sc q → NoClock ident q
  top : ∀ k q, (k, q) ∈ m → Container q → ArrayDef q ∨ (NoDefault q ∧ NoTransform ident q)
  inner : ∀ k q r, (k, q) ∈ m → Below q r → Container r → NoDefault r ∧ NoTransform ident r
  reads : ∀ k q j, (k, q) ∈ m → ReadsPath ident q j → ∃ name, Rooted name (atPath g!"$" j) ∧ (name ≠ k → ¬ Stored ident m name)
  readsIn : ∀ k q r j, (k, q) ∈ m → Below q r → ReadsPath ident r j →
    ∃ name, Rooted name (atPath (g!"$." ++ k) j) ∧ (name ≠ k → ¬ Stored ident m name)

end JT.Spec
