import Verif.Spec.Semantics
/- Output documents with a place for every instance of the schema, and how absent values are pruned. -/
namespace JT.Spec

/-- A document with a node for every instance: the values of scalars are leaves (nil if absent). -/
inductive Full where
  | leaf (v : P)
  | arr (l : List Full)
  | obj (m : List (Str × Full))

mutual
/-- The document without absent values. -/
def prune : Full → P
  | .leaf v => v
  | .arr l => arrayOf (pruneList l)
  | .obj m => objectOf (pruneFields m)
def pruneList : List Full → List P
  | [] => []
  | f :: fs => prune f :: pruneList fs
def pruneFields : List (Str × Full) → List (Str × P)
  | [] => []
  | (k, f) :: fs => (k, prune f) :: pruneFields fs
end

mutual
/-- The keys of every object are distinct. -/
def Full.Distinct : Full → Prop
  | .leaf _ => True
  | .arr l => Full.DistinctList l
  | .obj m => (m.map Prod.fst).Nodup ∧ Full.DistinctFields m
def Full.DistinctList : List Full → Prop
  | [] => True
  | f :: fs => f.Distinct ∧ Full.DistinctList fs
def Full.DistinctFields : List (Str × Full) → Prop
  | [] => True
  | (_, f) :: fs => f.Distinct ∧ Full.DistinctFields fs
end

/-- The node at a place. -/
def Full.at : List Step → Full → Option Full
  | [], f => some f
  | .key k :: r, .obj m => (GMap.get k m).bind (Full.at r)
  | .idx i :: r, .arr l => (l[i]?).bind (Full.at r)
  | _, _ => none

/-- The context of an instance at a place: what `@` stands for, its schema path, its path with indices, and how indices
are filled into paths. -/
structure Ctx where
  up : Str
  sp : Str
  cp : Str
  sub : Mod

def Ctx.prop (c : Ctx) (k : Str) : Ctx := ⟨c.sp, c.sp ++ '.' :: k, c.cp ++ '.' :: k, c.sub⟩

def Ctx.item (c : Ctx) (i : Nat) : Ctx := ⟨c.sp ++ g!"[*]", c.sp ++ g!"[*]", c.cp ++ g!"[" ++ itoaNat i ++ g!"]",
  fun p => replace1 (c.sub p) (c.cp ++ g!"[*]") (c.cp ++ g!"[" ++ itoaNat i ++ g!"]")⟩

/-- `Pos lib inp raw c l raw' c'`: below the instance `raw` in context `c`, at the place `l` of the output, is the instance `raw'`
in context `c'`. -/
inductive Pos (lib : Lib) (inp : P) : P → Ctx → List Step → P → Ctx → Prop
  | here {raw : P} {c : Ctx} : Pos lib inp raw c [] raw c
  | prop {raw raw' : P} {c c' : Ctx} {l : List Step} {nu : Bool} {m : List (Str × P)} {k : Str} {q : P} :
      fieldType raw = .ok (g!"object", nu) → raw.key g!"properties" = some (.obj m) → (k, q) ∈ m →
      Pos lib inp q (c.prop k) l raw' c' → Pos lib inp raw c (.key k :: l) raw' c'
  | item {raw raw' : P} {c c' : Ctx} {l : List Step} {nu : Bool} {items : P} {i : Nat} :
      fieldType raw = .ok (g!"array", nu) → raw.key g!"items" = some items → i < itemsAt lib c.cp inp →
      Pos lib inp items (c.item i) l raw' c' → Pos lib inp raw c (.idx i :: l) raw' c'

/-- Positions below the root of a schema. -/
inductive SchemaPos (lib : Lib) (inp : P) (sc : Schema) : List Step → P → Ctx → Prop
  | prop {m : GMap P} {k : Str} {q raw : P} {l : List Step} {c : Ctx} : sc.properties = some m → (k, q) ∈ m →
      Pos lib inp q ⟨g!"$", g!"$." ++ k, g!"$." ++ k, id⟩ l raw c → SchemaPos lib inp sc (.key k :: l) raw c
  | item {items raw : P} {i : Nat} {l : List Step} {c : Ctx} : sc.properties = none → sc.items = some items →
      i < itemsAt lib g!"$" inp →
      Pos lib inp items ⟨g!"$[*]", g!"$[*]", g!"$[" ++ itoaNat i ++ g!"]", fun p => replace1 p g!"$[*]" (g!"$[" ++ itoaNat i ++ g!"]")⟩ l raw c →
      SchemaPos lib inp sc (.idx i :: l) raw c

/-- A scalar instance. -/
def IsScalar (raw : P) (ty : Str) : Prop := ∃ ty0 nu, fieldType raw = .ok (ty0, nu) ∧ ty0 ≠ g!"array" ∧
  (ty0 = g!"object" → raw.key g!"properties" = some (.obj [])) ∧ scalarType raw ty0 = .ok ty

/-- The first available of: the transform, the input value at the same path, the default. -/
inductive FirstAvailable (lib : Lib) (ident : Str) (inp : P) (raw : P) (c : Ctx) (ty : Str) : P → Prop
  | transform {p : P} : Transformed lib ident inp raw c.up c.sub ty (.ok p) → p ≠ nilP → FirstAvailable lib ident inp raw c ty p
  | same {p : P} : Transformed lib ident inp raw c.up c.sub ty (.ok nilP) → sameP lib ty c.cp inp = .ok p → p ≠ nilP →
      FirstAvailable lib ident inp raw c ty p
  | default : Transformed lib ident inp raw c.up c.sub ty (.ok nilP) → sameP lib ty c.cp inp = .ok nilP →
      FirstAvailable lib ident inp raw c ty (canon ((raw.key g!"default").getD nilP))

end JT.Spec
