import Verif.Model.Instance
import Verif.Proofs.Mirror
/- What walking a schema means: the instances of a schema with their positions, and the sequence of calls. -/
namespace JT.Spec

/-- What an instance of a schema contains. -/
inductive Node where
  | object (m : List (Str × P))
  | array (items : P)
  | leaf

/-- The contents of an instance as `WalkRaw` sees it: `none` if it has no type name, or is an object without properties or an array
without items. -/
def rawNode (p : P) : Option Node :=
  match fieldType p with
  | .ok (ty, _) =>
    if ty = g!"object" then
      match p.key g!"properties" with
      | some (.obj m) => some (.object m)
      | _ => none
    else if ty = g!"array" then (p.key g!"items").map .array
    else some .leaf
  | _ => none

/-- The contents of an instance as `Walk` sees it: `none` if it cannot be decoded, or is an object without properties or an array without
items. -/
def instNode (p : P) : Option Node :=
  match decodeInstance false p with
  | .ok i =>
    if g!"object" ∈ i.type then i.properties.map .object
    else if g!"array" ∈ i.type then i.items.map .array
    else some .leaf
  | _ => none

/-- `At view raw l q`: below the instance `raw`, at position `l`, is the instance `q`. -/
inductive At (view : P → Option Node) : P → List Seg → P → Prop
  | here {raw : P} : At view raw [] raw
  | prop {raw q r : P} {m : List (Str × P)} {k : Str} {l : List Seg} : view raw = some (.object m) → (k, q) ∈ m → At view q l r →
      At view raw (.key k :: l) r
  | item {raw q r : P} {l : List Seg} : view raw = some (.array q) → At view q l r → At view raw (.star :: l) r

/-- `SchemaAt view sc l q`: in the schema, at position `l` below the root, is the instance `q`. -/
inductive SchemaAt (view : P → Option Node) (sc : Schema) : List Seg → P → Prop
  | prop {m : List (Str × P)} {q r : P} {k : Str} {l : List Seg} : sc.properties = some m → (k, q) ∈ m → At view q l r →
      SchemaAt view sc (.key k :: l) r
  | item {q r : P} {l : List Seg} : sc.items = some q → At view q l r → SchemaAt view sc (.star :: l) r

/-- Names of properties are distinct and not empty. -/
def NamesOK (m : List (Str × P)) : Prop := (m.map Prod.fst).Nodup ∧ [] ∉ m.map Prod.fst

/-- All objects of a schema have distinct property names that are not empty. -/
def SchemaNames (view : P → Option Node) (sc : Schema) : Prop :=
  (∀ m, sc.properties = some m → NamesOK m) ∧ ∀ l q m, SchemaAt view sc l q → view q = some (.object m) → NamesOK m

/-- All objects of a schema have distinct property names. -/
def SchemaDistinct (view : P → Option Node) (sc : Schema) : Prop :=
  (∀ m, sc.properties = some m → (m.map Prod.fst).Nodup) ∧ ∀ l q m, SchemaAt view sc l q → view q = some (.object m) → (m.map Prod.fst).Nodup

/-- The path that is shown for a position: empty names are left out. -/
def shownPath (l : List Seg) : Str := pathOf (l.filter fun g => match g with | .key [] => false | _ => true)

/-- Every instance can be read. -/
def WellFormed (view : P → Option Node) (sc : Schema) : Prop := ∀ l q, SchemaAt view sc l q → view q ≠ none

/-- `vs` lists instances of the schema with their positions, none twice, an object or array before what it contains.  If the walk gets
to its end (`done`) these are all the instances; it gets there iff every instance can be read. -/
structure Visits (view : P → Option Node) (sc : Schema) (vs : List (List Seg × P)) (done : Bool) : Prop where
  sound : ∀ x ∈ vs, SchemaAt view sc x.1 x.2
  once : (vs.map Prod.fst).Nodup
  parents : ∀ a l g q b, vs = a ++ (l ++ [g], q) :: b → l = [] ∨ ∃ q', (l, q') ∈ a
  complete : done = true → ∀ l q, SchemaAt view sc l q → (l, q) ∈ vs
  ends : done = true ↔ WellFormed view sc

/-- The calls succeed one after the other, starting with state `s` and ending with state `s'`. -/
inductive Calls {σ β : Type} (fn : β → σ → Res σ) : List β → σ → σ → Prop
  | nil {s : σ} : Calls fn [] s s
  | cons {x : β} {xs : List β} {s s1 s2 : σ} : fn x s = .ok s1 → Calls fn xs s1 s2 → Calls fn (x :: xs) s s2

end JT.Spec
