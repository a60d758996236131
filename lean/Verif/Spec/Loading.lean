import Verif.Model.Loading
import Verif.Props.C41
/- Specification of loading schemas from files that refer to each other, without a cache. -/
namespace JT.Spec
open JT

/-- No references and distinct keys. -/
def Clean (p : P) : Prop := allRefs p = [] ∧ Tidy p

mutual
/-- No references in an array that is itself an element of an array. -/
def FlatRefs : P → Prop
  | .sc _ => True
  | .arr l => FlatRefsList l
  | .obj m => FlatRefsFields m
def FlatRefsList : List P → Prop
  | [] => True
  | p :: ps => ((∀ l, p = .arr l → allRefs p = []) ∧ FlatRefs p) ∧ FlatRefsList ps
def FlatRefsFields : List (Str × P) → Prop
  | [] => True
  | (_, p) :: ps => FlatRefs p ∧ FlatRefsFields ps
end

/-- A reference in the file at `path` leads to another file. -/
def LeadsTo (F : Files) (path ref file : Str) : Prop :=
  ∃ f keys, RefParts ref f keys ∧ f ≠ [] ∧ ¬ g!"http" <+: f ∧ F.absRef path f = .ok file ∧ file ≠ path

/-- The files do not refer to each other in a circle, nor do the references inside a file; and what comes from the network has no references. -/
structure NotCircular (F : Files) (rank : Str → Nat) : Prop where
  tidy : ∀ path d, F.read path = .ok d → Tidy d
  flat : ∀ path d, F.read path = .ok d → FlatRefs d
  inside : ∀ path d, F.read path = .ok d → ∃ r, Ranked (F.world fun _ => .err) path r d
  files : ∀ path d, F.read path = .ok d → ∀ ref ∈ allRefs d, ∀ file, LeadsTo F path ref file → rank file < rank path
  network : ∀ url p, F.http url = .ok p → Clean p

/-- What is found in a file, given the schemas of the others. -/
def encoded (load : Str → Option Instance) (path : Str) : Res P :=
  match load path with
  | some i => .ok (encodeInst i)
  | none => .err

/-- The schema of a file (`none`: an error), given those of the others: the file is read and validated, its references are replaced until there are none, the result is decoded and its
`allOf` and `oneOf` entries are merged. -/
inductive SchemaOf (F : Files) (oneOfType : Str) (flatten : Bool) (load : Str → Option Instance) (path : Str) : Option Instance → Prop where
  | unreadable : (∀ d, F.read path ≠ .ok d) → SchemaOf F oneOfType flatten load path none
  | invalid : F.valid path = false → SchemaOf F oneOfType flatten load path none
  | broken {d n r} : F.read path = .ok d → F.valid path = true → dereference (F.world (encoded load)) path n d = some r → (∀ d', r ≠ .ok d') →
      SchemaOf F oneOfType flatten load path none
  | unfit {d n d'} : F.read path = .ok d → F.valid path = true → dereference (F.world (encoded load)) path n d = some (.ok d') →
      (∀ sched i, schemaOfDoc sched oneOfType flatten d' ≠ .ok i) → SchemaOf F oneOfType flatten load path none
  | made {d n d' i} : F.read path = .ok d → F.valid path = true → dereference (F.world (encoded load)) path n d = some (.ok d') →
      (∀ sched, schemaOfDoc sched oneOfType flatten d' = .ok i) → SchemaOf F oneOfType flatten load path (some i)

end JT.Spec
