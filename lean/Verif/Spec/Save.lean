import Verif.Model.SaveTree
/- Specification of saving values in documents. -/
namespace JT.Spec

/-- The value at a place of a document. -/
def readAt : List Step → P → Option P
  | [], p => some p
  | .key k :: l, .obj m => (GMap.get k m).bind (readAt l)
  | .idx i :: l, .arr ps => (ps[i]?).bind (readAt l)
  | _, _ => none

/-- A path: property names, each followed by any number of array indices. -/
abbrev Path := List (Str × List Nat)

/-- The steps of a path. -/
def pathSteps : Path → List Step
  | [] => []
  | (k, is) :: l => .key k :: is.map .idx ++ pathSteps l

/-- The text of indices: `[1][2]`. -/
def indexText : List Nat → Str
  | [] => []
  | i :: is => '[' :: itoaNat i ++ ']' :: indexText is

/-- The text of a path, without the leading `$.`: `a.b[1][2].c`. -/
def pathText : Path → Str
  | [] => []
  | [(k, is)] => k ++ indexText is
  | (k, is) :: l => k ++ indexText is ++ '.' :: pathText l

/-- A path the code can parse: at least one name, names without dots, brackets and dollars, indices that fit in an `int`. -/
def GoodPath (l : Path) : Prop := l ≠ [] ∧ ∀ x ∈ l, '.' ∉ x.1 ∧ '[' ∉ x.1 ∧ '$' ∉ x.1 ∧ ∀ i ∈ x.2, i < 2 ^ 63

mutual
/-- The value `v` in memory is the document `p`, and no part of it is shared: every map and slice of it is a cell of its own.  All cells are in `A`. -/
def Own (h : Heap) : P → V → (Nat → Prop) → Prop
  | .sc s, v, _ => v = .sc s
  | .arr ps, v, A => ∃ (a : Nat) (vs : List V) (B : Nat → Prop), v = .arr a ∧ h[a]? = some (.slice vs) ∧ A a ∧ ¬ B a ∧ (∀ x, B x → A x) ∧ OwnL h ps vs B
  | .obj m, v, A => ∃ (a : Nat) (m' : GMap V) (B : Nat → Prop), v = .obj a ∧ h[a]? = some (.map m') ∧ GMap.Sorted m ∧ A a ∧ ¬ B a ∧ (∀ x, B x → A x) ∧ OwnM h m m' B
def OwnL (h : Heap) : List P → List V → (Nat → Prop) → Prop
  | [], vs, _ => vs = []
  | p :: ps, vs, A => ∃ v vs' B C, vs = v :: vs' ∧ Own h p v B ∧ OwnL h ps vs' C ∧ (∀ x, B x → A x) ∧ (∀ x, C x → A x) ∧ ∀ x, B x → ¬ C x
def OwnM (h : Heap) : List (Str × P) → GMap V → (Nat → Prop) → Prop
  | [], m, _ => m = []
  | (k, p) :: ps, m, A => ∃ v m' B C, m = (k, v) :: m' ∧ Own h p v B ∧ OwnM h ps m' C ∧ (∀ x, B x → A x) ∧ (∀ x, C x → A x) ∧ ∀ x, B x → ¬ C x
end

/-- Saving an object over an object keeps the entries that the new one lacks. -/
def merged : P → P → P
  | .obj n, .obj o => .obj (GMap.fill n o)
  | p, _ => p

end JT.Spec

namespace JT.Spec
/-- Two places, neither of which contains the other. -/
def Apart (q l : List Step) : Prop := ¬ q <+: l ∧ ¬ l <+: q

/-- The path fits the document: where it names a property there is no array, where it has an index there is no object. -/
def Fits : List Step → P → Prop
  | [], _ => True
  | .key k :: l, .obj m => ∀ q, GMap.get k m = some q → Fits l q
  | .key _ :: _, .arr _ => False
  | .idx i :: l, .arr ps => ∀ q, ps[i]? = some q → Fits l q
  | .idx _ :: _, .obj _ => False
  | _ :: _, .sc _ => True

/-- A place keeps its value; a place that had none still has none, or null where an array was filled up. -/
def Kept (q : List Step) (old new : P) : Prop :=
  (∀ x, readAt q old = some x → readAt q new = some x) ∧ ∀ y, readAt q new = some y → readAt q old = some y ∨ (readAt q old = none ∧ y = .sc .nil)

/-- Does the path end with an index? -/
def endsInIndex : Path → Bool
  | [] => false
  | [(_, is)] => !is.isEmpty
  | _ :: l => endsInIndex l

/-- What is stored: the value; an object saved over an object of an array also keeps the entries it lacks. -/
def stored (path : Path) (old p : P) : P :=
  if endsInIndex path then merged p ((readAt (pathSteps path) old).getD (.sc .nil)) else p
end JT.Spec
