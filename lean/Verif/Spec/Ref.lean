import Verif.Model.Value
/- Specification of references in schema documents, independent of the search. -/
namespace JT.Spec

/-- The key of element `i`. -/
def elemKey (i : Nat) : Str := g!"[" ++ itoaNat i ++ g!"]"

/-- There is a reference at a path: a `$ref` key with a string, in an object reached through objects and arrays of objects. -/
inductive RefAt : P → List Str → Prop where
  | here {m : List (Str × P)} {raw : Str} : (g!"$ref", P.sc (.str raw)) ∈ m → RefAt (.obj m) [g!"$ref"]
  | field {m m' : List (Str × P)} {k : Str} {p : List Str} : (k, P.obj m') ∈ m → RefAt (.obj m') p → RefAt (.obj m) (k :: p)
  | elem {m m' : List (Str × P)} {k : Str} {l : List P} {i : Nat} {p : List Str} : (k, P.arr l) ∈ m → l[i]? = some (.obj m') → RefAt (.obj m') p →
      RefAt (.obj m) (k :: elemKey i :: p)

mutual
/-- Objects have distinct keys and arrays fit in memory. -/
def Sane : P → Prop
  | .sc _ => True
  | .arr l => l.length < 2 ^ 63 ∧ SaneList l
  | .obj m => (m.map Prod.fst).Nodup ∧ SaneFields m
def SaneList : List P → Prop
  | [] => True
  | p :: ps => Sane p ∧ SaneList ps
def SaneFields : List (Str × P) → Prop
  | [] => True
  | (_, p) :: ps => Sane p ∧ SaneFields ps
end

mutual
/-- Objects have distinct keys. -/
def Tidy : P → Prop
  | .sc _ => True
  | .arr l => TidyList l
  | .obj m => (m.map Prod.fst).Nodup ∧ TidyFields m
def TidyList : List P → Prop
  | [] => True
  | p :: ps => Tidy p ∧ TidyList ps
def TidyFields : List (Str × P) → Prop
  | [] => True
  | (_, p) :: ps => Tidy p ∧ TidyFields ps
end

/-- A reference names a file (empty for the current document) and a path of keys in it. -/
inductive RefParts : Str → Str → List Str → Prop where
  /-- No `#`: all of the file. -/
  | file {f : Str} : '#' ∉ f → RefParts f f []
  /-- Nothing but slashes after the `#`: all of the file. -/
  | whole {f : Str} (n : Nat) : '#' ∉ f → RefParts (f ++ '#' :: List.replicate n '/') f []
  /-- Keys separated by slashes; slashes before and after do not matter. -/
  | keys {f : Str} (a b : Nat) (k : Str) (ks : List Str) : '#' ∉ f → (∀ x ∈ k :: ks, '/' ∉ x) → k ≠ [] → (k :: ks).getLast? ≠ some [] →
      RefParts (f ++ '#' :: (List.replicate a '/' ++ join g!"/" (k :: ks) ++ List.replicate b '/')) f (k :: ks)

end JT.Spec
