import Verif.Spec.Eval
/- Paths that stay away from some top level fields of the input. -/
namespace JT.Spec

/-- What a path selects in a document: for a plain path, its steps. -/
def select (lib : Lib) (path : Str) (p : P) : Option Sel :=
  match parsePath path with
  | some ss => some (.loc ss)
  | none => lib.jsonpath path p

/-- The steps enter a top level field which is not one of `W`. -/
def Outside (W : Str → Prop) (ss : List Step) : Prop := ∃ k r, ss = .key k :: r ∧ ¬ W k

/-- The places selected are below top level fields which are not in `W`. -/
def SelOutside (W : Str → Prop) : Option Sel → Prop
  | some (.loc ss) => Outside W ss
  | some (.many l) => ∀ ss ∈ l, Outside W ss
  | _ => True

/-- The path `path` avoids the top level fields `W`: what it selects in an object is outside of them, and does not depend on them.
For a plain path this says that it starts with the name of another field (`avoids_plain`). -/
def Avoids (lib : Lib) (W : Str → Prop) (path : Str) : Prop :=
  (∀ m, SelOutside W (select lib path (.obj m))) ∧
  ∀ m m', (∀ k, ¬ W k → GMap.get k m = GMap.get k m') → select lib path (.obj m) = select lib path (.obj m')

theorem avoids_plain {lib : Lib} {W : Str → Prop} {path : Str} {k : Str} {r : List Step} (h : parsePath path = some (.key k :: r)) (hk : ¬ W k) :
    Avoids lib W path := by
  unfold Avoids select
  rw [h]
  exact ⟨fun _ => ⟨k, r, rfl, hk⟩, fun _ _ _ => rfl⟩

end JT.Spec
