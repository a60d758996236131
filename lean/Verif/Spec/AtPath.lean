import Verif.Spec.Semantics
import Verif.Spec.Walk
/- Writing out the paths that start with `@` in a schema. -/
namespace JT.Spec

/-- Apply `f` to the entry of an object for a key. -/
def atKey (k : Str) (f : P → P) : P → P
  | .obj m => .obj (m.map fun kv => if kv.1 = k then (kv.1, f kv.2) else kv)
  | p => p

/-- A string that is a path, with `up` in the place of `@`. -/
def fullPath (up : Str) : P → P
  | .sc (.str p) => .sc (.str (atPath up p))
  | p => p

/-- Apply `f` to the entries of an array. -/
def eachItem (f : P → P) : P → P
  | .arr l => .arr (l.map f)
  | p => p

/-- A transform with its paths written out. -/
def fullTransform (up : Str) : P → P :=
  atKey g!"from" (eachItem fun e => atKey g!"jsonPath" (fullPath up) (atKey g!"xmlPath" (fullPath up) e))

/-- The path of the innermost object that contains the instance whose position, in reverse, is given. -/
def objectAbove : List Seg → Str
  | [] => []
  | .key _ :: r => pathOf r.reverse
  | .star :: r => objectAbove r

/-- What `@` stands for in the instance at a position: for a property the object it belongs to; for a scalar item of an array
the item itself; for items that are objects or arrays the object the array belongs to. -/
def enclosing (l : List Seg) (scalar : Bool) : Str :=
  match l.reverse with
  | .star :: r => if scalar then pathOf l else objectAbove r
  | r => objectAbove r

/-- Is this instance a leaf of the schema? -/
def leafInst (raw : P) : Bool :=
  match fieldType raw with
  | .ok (ty, _) =>
    if ty = g!"array" then false
    else if ty = g!"object" then
      match raw.key g!"properties" with
      | some (.obj []) => true
      | _ => false
    else true
  | _ => true

mutual
/-- An instance, at a position, with all paths in the transforms for an identifier written out, also in the instances below. -/
def fullInst (ident : Str) : List Seg → P → P
  | l, .obj m => .obj (fullFields ident l (leafInst (.obj m)) m)
  | _, p => p
def fullFields (ident : Str) (l : List Seg) (leaf : Bool) : List (Str × P) → List (Str × P)
  | [] => []
  | (k, v) :: r =>
    (if k = g!"transform" then (k, atKey ident (fullTransform (enclosing l leaf)) v)
     else if k = g!"properties" then (k, fullProps ident l v)
     else if k = g!"items" then (k, fullInst ident (l ++ [.star]) v)
     else (k, v)) :: fullFields ident l leaf r
def fullProps (ident : Str) : List Seg → P → P
  | l, .obj m => .obj (fullEach ident l m)
  | _, p => p
def fullEach (ident : Str) (l : List Seg) : List (Str × P) → List (Str × P)
  | [] => []
  | (k, v) :: r => (k, fullInst ident (l ++ [.key k]) v) :: fullEach ident l r
end

/-- A schema with all paths in the transforms for an identifier written out. -/
def fullSchema (ident : Str) (sc : Schema) : Schema :=
  ⟨sc.properties.map (fun m => m.map fun kv => (kv.1, fullInst ident [.key kv.1] kv.2)), sc.items.map (fullInst ident [.star])⟩

end JT.Spec
