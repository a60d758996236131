import Verif.Model.Strings
/-
Go `map[string]T`: an unordered finite map, represented canonically by an association list sorted by key.
Iteration order is not part of the map; it is chosen by a schedule (see `Sched`).
-/
namespace JT

/-- Go `map[string]T`. -/
abbrev GMap (α : Type) := List (Str × α)

namespace GMap
variable {α : Type}

/-- `m[k]` (comma-ok form). -/
def get (k : Str) : GMap α → Option α
  | [] => none
  | (k', v) :: t => if k = k' then some v else get k t

/-- `m[k] = v`. -/
def set (k : Str) (v : α) : GMap α → GMap α
  | [] => [(k, v)]
  | (k', v') :: t =>
    if k = k' then (k, v) :: t
    else if strLt k k' then (k, v) :: (k', v') :: t
    else (k', v') :: set k v t

/-- `delete(m, k)`. -/
def del (k : Str) : GMap α → GMap α
  | [] => []
  | (k', v') :: t => if k = k' then del k t else (k', v') :: del k t

/-- Add the entries of `old` whose keys are missing:
`for k, v := range old { if _, ok := m[k]; !ok { m[k] = v } }`. -/
def fill (m old : GMap α) : GMap α :=
  old.foldl (fun acc kv => if (get kv.1 acc).isSome then acc else set kv.1 kv.2 acc) m

/-- The keys. -/
def keys (m : GMap α) : List Str := m.map Prod.fst

/-- Strictly sorted by key: the representation invariant. -/
def Sorted : GMap α → Prop
  | [] => True
  | (k, _) :: t => (∀ kv ∈ t, strLt k kv.1 = true) ∧ Sorted t

/-- Build a map by setting entries from left to right (later entries win), as `encoding/json` does. -/
def ofList (l : List (Str × α)) : GMap α := l.foldl (fun m kv => set kv.1 kv.2 m) []

end GMap

/-- A schedule: for the `n`-th map iteration of an execution, the order in which the entries are visited. -/
structure Sched where
  perm : Nat → (α : Type) → List α → List α
  isPerm : ∀ n α (l : List α), (perm n α l).Perm l

/-- The schedule that always iterates in key order. -/
def Sched.id : Sched := ⟨fun _ _ l => l, fun _ _ _ => List.Perm.refl _⟩

/-- The schedule that always iterates in reverse key order. -/
def Sched.rev : Sched := ⟨fun _ _ l => l.reverse, fun _ _ l => List.reverse_perm l⟩

end JT
