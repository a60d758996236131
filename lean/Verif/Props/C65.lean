import Verif.Model.Generate
import Verif.Spec.Decode
import Verif.Props.C34
import Verif.Spec.Embeds
/- C65 (the files generated for a schema), C73 (embedded structs are declared) and C74 (the source of the GraphQL types). -/
namespace JT.Gen
open JT.Spec

/-! ### What is expected -/

namespace Spec
/-- A struct to be generated: the schema file, the name, and the structs it embeds. -/
structure Job where
  ref : Str
  name : Str
  embeds : List Str

/-- The schema gets a struct of its own: it has properties, or neither allOf nor oneOf entries. -/
def Own (doc : P) : Prop := (∃ k, PropName doc k) ∨ (refsIn doc g!"allOf" = [] ∧ refsIn doc g!"oneOf" = [])

/-- The files whose structs are embedded in those of the oneOf entries. -/
inductive Commons (doc : P) (abs : Res Str) : List Str → Prop where
  | own {self : Str} : Own doc → abs = .ok self → Commons doc abs (refsIn doc g!"allOf" ++ [self])
  | none : ¬ Own doc → Commons doc abs (refsIn doc g!"allOf")

/-- The structs to be generated for a schema. -/
inductive Jobs (title : Str → Str) (names : GMap Str) (doc : P) (abs : Res Str) : List Job → Prop where
  | mk {refs ns os : List Str} : Commons doc abs refs → Each (NameOf names title) refs ns → Each (NameOf names id) (refsIn doc g!"oneOf") os →
      Jobs title names doc abs ((refs.zip ns).map (fun rn => ⟨rn.1, rn.2, []⟩) ++ ((refsIn doc g!"oneOf").zip os).map fun rn => ⟨rn.1, rn.2, ns⟩)

/-- The file for a schema file: its base name with the extension `go`. -/
def FileFor (dir path file : Str) : Prop := ∃ stem, BaseName path stem ∧ file = joinPath dir (stem ++ g!".go")
end Spec

/-- The contents of the file for a struct, if it can be generated. -/
def Made (w : World) (args : BuildArgs) (pkg : Str) (j : Spec.Job) (c : Content) : Prop :=
  ∃ g, structFile w args (resolve args j.ref) j.name j.embeds = .ok g ∧ w.format pkg (g.text w.title args.toArgs) = true ∧
    c = .go pkg (g.text w.title args.toArgs).1 (g.text w.title args.toArgs).2

/-- The contents of the file for a struct: the code for the schema in the file, which is read with the structs of allOf merged into it unless they are to be embedded. -/
def GoCodeFor (w : World) (args : BuildArgs) (pkg : Str) (j : Spec.Job) (c : Content) : Prop :=
  ∃ inst g, w.schema (if args.embedAllOf = true then false else true) (resolve args j.ref) j.name = .ok inst ∧
    newGoFile w.sched w.title args.toArgs inst j.name j.embeds = .ok g ∧ w.format pkg (g.text w.title args.toArgs) = true ∧
    c = .go pkg (g.text w.title args.toArgs).1 (g.text w.title args.toArgs).2

theorem Made.code {w : World} {args : BuildArgs} {pkg : Str} {j : Spec.Job} {c : Content} (h : Made w args pkg j c) : GoCodeFor w args pkg j c := by
  obtain ⟨g, hg, h2, h3⟩ := h
  unfold structFile at hg
  simp only [Res.bind_eq_ok] at hg
  obtain ⟨inst, hi, hg⟩ := hg
  exact ⟨inst, g, by rw [← hi]; cases args.embedAllOf <;> rfl, hg, h2, h3⟩

/-! ### Names of files -/

theorem join_snoc (sep : Str) (x : Str) : ∀ l : List Str, ∃ p, ∀ x, join sep (l ++ [x]) = p ++ x
  | [] => ⟨[], fun _ => rfl⟩
  | [a] => ⟨a ++ sep, fun _ => by simp [join]⟩
  | a :: b :: r => by
    obtain ⟨p, hp⟩ := join_snoc sep x (b :: r)
    exact ⟨a ++ sep ++ p, fun y => by have := hp y; simp only [List.cons_append, join] at this ⊢; rw [this]; simp⟩

/-- A name that is an element of a path. -/
def Elem (x : Str) : Prop := '/' ∉ x ∧ x ≠ [] ∧ x ≠ g!"." ∧ x ≠ g!".."

theorem cleanStep_elem {b : Bool} {out : List Str} {x : Str} (h : Elem x) : cleanStep b out x = x :: out := by
  unfold cleanStep
  rw [if_neg (by simp only [not_or]; exact ⟨h.2.1, h.2.2.1⟩), if_neg h.2.2.2]

theorem joinPath_elem (d : Str) : ∃ p, ∀ x, Elem x → joinPath d x = p ++ x := by
  by_cases hd : d = []
  · subst hd
    refine ⟨[], fun x h => ?_⟩
    unfold joinPath
    rw [if_neg (by simp), if_pos h.2.1]
    have hr : isAbs x = false := by
      unfold isAbs
      rcases x with _ | ⟨c, t⟩
      · rfl
      · simp only [List.head?_cons, Option.some.injEq, decide_eq_false_iff_not]
        rintro rfl
        exact h.1 (by simp)
    unfold clean
    rw [splitC_no _ _ h.1, hr]
    simp only [List.foldl_cons, List.foldl_nil, cleanStep_elem h]
    simp [join]
  · obtain ⟨c, t, rfl⟩ := List.exists_cons_of_ne_nil hd
    obtain ⟨p, hp⟩ := join_snoc g!"/" [] ((splitC '/' (c :: t)).foldl (cleanStep (isAbs (c :: t))) []).reverse
    refine ⟨(if isAbs (c :: t) then ['/'] else []) ++ p, fun x h => ?_⟩
    unfold joinPath
    rw [if_pos (by simp)]
    unfold clean
    have hr : isAbs (c :: t ++ '/' :: x) = isAbs (c :: t) := rfl
    rw [splitC_general, splitC_no _ _ h.1, hr, List.foldl_append]
    simp only [List.foldl_cons, List.foldl_nil, cleanStep_elem h, List.reverse_cons]
    rw [hp x]
    split
    · simp
    · rw [if_neg (by simp)]; simp

theorem elem_go {s : Str} (h : '/' ∉ s) : Elem (s ++ g!".go") := by
  refine ⟨?_, by simp, ?_, ?_⟩
  · simp only [List.mem_append, not_or]; exact ⟨h, by decide⟩
  · intro e; have := congrArg List.length e; simp at this
  · intro e; have := congrArg List.length e; simp at this

/-- Files for different base names are different. -/
theorem file_inj {dir a b : Str} (ha : '/' ∉ a) (hb : '/' ∉ b) (h : joinPath dir (a ++ g!".go") = joinPath dir (b ++ g!".go")) : a = b := by
  obtain ⟨p, hp⟩ := joinPath_elem dir
  rw [hp _ (elem_go ha), hp _ (elem_go hb)] at h
  exact List.append_cancel_right (List.append_cancel_left h)

theorem fileFor_iff {dir path file : Str} : Spec.FileFor dir path file ↔ file = outPath dir path := by
  constructor
  · rintro ⟨s, h, rfl⟩; rw [outPath, subName_baseName h]
  · rintro rfl
    obtain ⟨s, hs⟩ := baseName_total path
    exact ⟨s, hs, by rw [outPath, subName_baseName hs]⟩

/-! ### Running -/

/-- Generate structs one after the other. -/
def runJobs (w : World) (args : BuildArgs) (pkg : Str) : List Spec.Job → Files → Res Unit × Files
  | [], fs => (.ok (), fs)
  | j :: rest, fs =>
    match buildStructFile w args j.ref j.name pkg j.embeds fs with
    | (.ok _, fs) => runJobs w args pkg rest fs
    | (.err, fs) => (.err, fs)
    | (.panic, fs) => (.panic, fs)

theorem build_other {w : World} {args : BuildArgs} {child name pkg : Str} {embeds : List Str} {fs : Files} {p : Str} (h : outPath args.outputDir (resolve args child) ≠ p) :
    (buildStructFile w args child name pkg embeds fs).2 p = fs p := by
  unfold buildStructFile
  split
  · unfold writeFile
    split
    · rfl
    · dsimp only
      split <;> exact if_neg fun e => h e.symm
  · rfl
  · rfl

theorem build_ok {w : World} {args : BuildArgs} {j : Spec.Job} {pkg : Str} {fs : Files} {u : Unit} {fs' : Files} (h : buildStructFile w args j.ref j.name pkg j.embeds fs = (.ok u, fs')) :
    ∃ c, Made w args pkg j c ∧ fs' (outPath args.outputDir (resolve args j.ref)) = some c := by
  unfold buildStructFile at h
  split at h
  · rename_i g hg
    unfold writeFile at h
    split at h
    · cases h
    · dsimp only at h
      split at h
      · rename_i hf
        simp only [Prod.mk.injEq] at h
        refine ⟨_, ⟨g, hg, hf, rfl⟩, ?_⟩
        rw [← h.2]
        exact if_pos rfl
      · cases h
  · cases h
  · cases h

theorem run_other {w : World} {args : BuildArgs} {pkg : Str} {p : Str} : ∀ (jobs : List Spec.Job) (fs : Files),
    (∀ j ∈ jobs, outPath args.outputDir (resolve args j.ref) ≠ p) → (runJobs w args pkg jobs fs).2 p = fs p
  | [], _, _ => rfl
  | j :: rest, fs, h => by
    have h1 := build_other (w := w) (name := j.name) (pkg := pkg) (embeds := j.embeds) (fs := fs) (h j (by simp))
    unfold runJobs
    split
    · rename_i fs1 e
      rw [e] at h1
      rw [run_other rest fs1 fun j' hj => h j' (by simp [hj])]
      exact h1
    · rename_i fs1 e; rw [e] at h1; exact h1
    · rename_i fs1 e; rw [e] at h1; exact h1

/-- A file holds what the last of its jobs makes. -/
theorem run_ok {w : World} {args : BuildArgs} {pkg : Str} : ∀ (jobs : List Spec.Job) (fs : Files) {u : Unit} {fs' : Files}, runJobs w args pkg jobs fs = (.ok u, fs') →
    ∀ l j r, jobs = l ++ j :: r → (∀ j' ∈ r, outPath args.outputDir (resolve args j'.ref) ≠ outPath args.outputDir (resolve args j.ref)) →
    ∃ c, Made w args pkg j c ∧ fs' (outPath args.outputDir (resolve args j.ref)) = some c
  | [], _, _, _, _, l, j, r, e, _ => by simp at e
  | k :: rest, fs, u, fs', h, l, j, r, e, hr => by
    unfold runJobs at h
    split at h
    · rename_i u1 fs1 e1
      rcases l with _ | ⟨k', l⟩
      · simp only [List.nil_append, List.cons.injEq] at e
        obtain ⟨rfl, rfl⟩ := e
        obtain ⟨c, hc, hf⟩ := build_ok e1
        refine ⟨c, hc, ?_⟩
        have := run_other (w := w) (pkg := pkg) rest fs1 hr
        rw [h] at this
        exact this.trans hf
      · simp only [List.cons_append, List.cons.injEq] at e
        exact run_ok rest fs1 h l j r e.2 hr
    · cases h
    · cases h

theorem buildOneOf_jobs {w : World} {args : BuildArgs} {pkg : Str} {embeds : List Str} : ∀ (refs : List Str) (fs : Files),
    buildOneOf w args pkg embeds refs fs = runJobs w args pkg (refs.map fun r => ⟨r, oneOfName args r, embeds⟩) fs
  | [], _ => rfl
  | r :: rs, fs => by
    simp only [buildOneOf, List.map_cons, runJobs]
    rcases buildStructFile w args r (oneOfName args r) pkg embeds fs with ⟨x, fs1⟩
    cases x with
    | ok u => exact buildOneOf_jobs rs fs1
    | err => rfl
    | panic => rfl

theorem runJobs_append {w : World} {args : BuildArgs} {pkg : Str} : ∀ (a b : List Spec.Job) (fs : Files),
    runJobs w args pkg (a ++ b) fs = match runJobs w args pkg a fs with
      | (.ok _, fs) => runJobs w args pkg b fs
      | (.err, fs) => (.err, fs)
      | (.panic, fs) => (.panic, fs)
  | [], b, fs => rfl
  | j :: a, b, fs => by
    simp only [List.cons_append, runJobs]
    rcases buildStructFile w args j.ref j.name pkg j.embeds fs with ⟨x, fs1⟩
    cases x with
    | ok u => exact runJobs_append a b fs1
    | err => rfl
    | panic => rfl

theorem buildAllOf_jobs {w : World} {args : BuildArgs} {pkg : Str} : ∀ (refs embeds : List Str) (fs : Files),
    buildAllOf w args pkg refs embeds fs = match runJobs w args pkg (refs.map fun r => ⟨r, allOfName w args r, []⟩) fs with
      | (.ok _, fs) => (.ok (embeds ++ refs.map (allOfName w args)), fs)
      | (.err, fs) => (.err, fs)
      | (.panic, fs) => (.panic, fs)
  | [], embeds, fs => by simp [buildAllOf, runJobs]
  | r :: rs, embeds, fs => by
    simp only [buildAllOf, List.map_cons, runJobs]
    rcases buildStructFile w args r (allOfName w args r) pkg [] fs with ⟨x, fs1⟩
    cases x with
    | ok u => simp only [buildAllOf_jobs rs, List.append_assoc, List.singleton_append]
    | err => rfl
    | panic => rfl

/-- The jobs, in order. -/
def jobsOf (w : World) (args : BuildArgs) (refs oneOf : List Str) : List Spec.Job :=
  (refs.map fun r => ⟨r, allOfName w args r, []⟩) ++ oneOf.map fun r => ⟨r, oneOfName args r, refs.map (allOfName w args)⟩

theorem buildFiles_jobs {w : World} {args : BuildArgs} {refs oneOf : List Str} {fs : Files} :
    buildFiles w args refs oneOf fs = runJobs w args (pathBase args.outputDir) (jobsOf w args refs oneOf) fs := by
  unfold buildFiles jobsOf
  rw [runJobs_append, buildAllOf_jobs]
  rcases runJobs w args (pathBase args.outputDir) (refs.map fun r => ⟨r, allOfName w args r, []⟩) fs with ⟨r, fs1⟩
  cases r <;> simp [buildOneOf_jobs]

theorem each_map {α β : Type} {R : α → β → Prop} {f : α → β} (h : ∀ a, R a (f a)) : ∀ l : List α, Each R l (l.map f)
  | [] => .nil
  | a :: l => .cons (h a) (each_map h l)

theorem zip_map_self {α β γ : Type} (f : α → β) (g : α × β → γ) (l : List α) : (l.zip (l.map f)).map g = l.map fun a => g (a, f a) := by
  induction l with
  | nil => rfl
  | cons a l ih => simp [ih]

theorem jobs_of {w : World} {args : BuildArgs} {doc : P} {abs : Res Str} {refs : List Str} (h : Spec.Commons doc abs refs) :
    Spec.Jobs w.title args.structNames doc abs (jobsOf w args refs (refsIn doc g!"oneOf")) := by
  have := Spec.Jobs.mk (title := w.title) (names := args.structNames) h (each_map (f := allOfName w args) (fun a => nameOf_getD) refs)
    (each_map (f := oneOfName args) (fun a => nameOf_getD (f := id)) (refsIn doc g!"oneOf"))
  rw [zip_map_self, zip_map_self] at this
  exact this

theorem plan_of {w : World} {args : BuildArgs} {dir : Str} {refs oneOf : List Str} (h : buildPlan w args = .ok (dir, refs, oneOf)) :
    ∃ doc, outputDir w args = .ok dir ∧ w.read args.schemaPath = .ok doc ∧ Spec.Commons doc (w.abs args.schemaPath) refs ∧ oneOf = refsIn doc g!"oneOf" := by
  unfold buildPlan at h
  simp only [Res.bind_eq_ok, Res.pure_eq_ok] at h
  obtain ⟨d, hd, doc, hdoc, types, ht, refs', hs, h⟩ := h
  simp only [Prod.mk.injEq] at h
  obtain ⟨rfl, rfl, rfl⟩ := h
  obtain ⟨a, o, ps⟩ := types
  obtain ⟨rfl, rfl, -, hp⟩ := C50 w.sched doc ht
  refine ⟨doc, hd, hdoc, ?_, rfl⟩
  have hown : ((refsIn doc g!"allOf").length = 0 ∧ (refsIn doc g!"oneOf").length = 0 ∨ ps.length > 0) ↔ Spec.Own doc := by
    unfold Spec.Own
    rw [or_comm, List.length_eq_zero_iff, List.length_eq_zero_iff]
    refine or_congr ?_ Iff.rfl
    constructor
    · intro h
      obtain ⟨k, hk⟩ := List.exists_mem_of_length_pos h
      exact ⟨k, (hp k).1 hk⟩
    · rintro ⟨k, hk⟩
      exact List.length_pos_of_mem ((hp k).2 hk)
  unfold withSelf at hs
  dsimp only at hs
  split at hs
  · rename_i hc
    rw [Res.map_eq_ok] at hs
    obtain ⟨self, h1, rfl⟩ := hs
    exact .own (hown.1 hc) h1
  · rename_i hc
    cases hs
    exact .none fun h => hc (hown.2 h)

/-- Where the files go. -/
inductive Spec.Dir (args : BuildArgs) (cwd : Res Str) : Str → Prop where
  | given : args.outputDir ≠ [] → Spec.Dir args cwd args.outputDir
  | cwd {d : Str} : args.outputDir = [] → cwd = .ok d → Spec.Dir args cwd d

theorem dir_of {w : World} {args : BuildArgs} {dir : Str} (h : outputDir w args = .ok dir) : Spec.Dir args w.getwd dir := by
  unfold outputDir at h
  split at h
  · exact .cwd ‹_› h
  · cases h; exact .given ‹_›

theorem split_mem {α : Type} {f : α → Str} : ∀ {l : List α}, (l.map f).Nodup → ∀ {a : α}, a ∈ l → ∃ p q, l = p ++ a :: q ∧ ∀ b ∈ q, f b ≠ f a := by
  intro l hn a ha
  obtain ⟨p, q, rfl⟩ := List.append_of_mem ha
  refine ⟨p, q, rfl, ?_⟩
  rw [List.map_append, List.map_cons] at hn
  have := (List.nodup_append.1 hn).2.1
  rw [List.nodup_cons] at this
  intro b hb e
  exact this.1 (List.mem_map.2 ⟨b, hb, e⟩)

/-- The base names of the schema files of the jobs. -/
def Spec.Stems (args : BuildArgs) (jobs : List Spec.Job) (stems : List Str) : Prop := Each (fun j s => BaseName (resolve args j.ref) s) jobs stems

theorem stems_eq {args : BuildArgs} {jobs : List Spec.Job} {stems : List Str} (h : Spec.Stems args jobs stems) : stems = jobs.map fun j => subName (resolve args j.ref) := by
  unfold Spec.Stems at h
  induction h with
  | nil => rfl
  | cons h1 _ ih => rw [List.map_cons, ← ih, subName_baseName h1]

theorem outs_nodup {args : BuildArgs} {dir : Str} {jobs : List Spec.Job} {stems : List Str} (h : Spec.Stems args jobs stems) (hn : stems.Nodup) (hs : ∀ s ∈ stems, '/' ∉ s) :
    (jobs.map fun j => outPath dir (resolve args j.ref)).Nodup := by
  rw [stems_eq h] at hn hs
  have : (jobs.map fun j => outPath dir (resolve args j.ref)) = (jobs.map fun j => subName (resolve args j.ref)).map fun s => joinPath dir (s ++ g!".go") := by
    rw [List.map_map]; rfl
  rw [this]
  generalize (jobs.map fun j => subName (resolve args j.ref)) = l at hn hs
  induction l with
  | nil => exact List.nodup_nil
  | cons a l ih =>
    rw [List.nodup_cons] at hn
    rw [List.map_cons, List.nodup_cons]
    refine ⟨?_, ih hn.2 fun s hm => hs s (by simp [hm])⟩
    intro hm
    obtain ⟨b, hb, e⟩ := List.mem_map.1 hm
    have := file_inj (hs b (by simp [hb])) (hs a (by simp)) e
    exact hn.1 (this ▸ hb)

/-- **C65**: if `BuildStructs` succeeds, there is one file for each allOf and oneOf entry of the schema, and one for the schema if it has properties or no entries; the files of
the oneOf entries embed the other structs.  Nothing else is changed.  The base names of the schema files have to be different, and no base name may be a slash. -/
theorem C65_partial {w : World} {args : BuildArgs} {fs fs' : Files} {u : Unit} (h : buildStructs w args fs = (.ok u, fs')) :
    ∃ doc dir jobs, w.read args.schemaPath = .ok doc ∧ Spec.Dir args w.getwd dir ∧ Spec.Jobs w.title args.structNames doc (w.abs args.schemaPath) jobs ∧
      (∀ stems, Spec.Stems args jobs stems → stems.Nodup → (∀ s ∈ stems, '/' ∉ s) →
        ∀ j ∈ jobs, ∀ file, Spec.FileFor dir (resolve args j.ref) file → ∃ c, GoCodeFor w { args with outputDir := dir } (pathBase dir) j c ∧ fs' file = some c) ∧
      ∀ p, (∀ j ∈ jobs, ¬ Spec.FileFor dir (resolve args j.ref) p) → fs' p = fs p := by
  unfold buildStructs at h
  split at h
  · rename_i dir refs oneOf hp
    obtain ⟨doc, hd, hr, hc, rfl⟩ := plan_of hp
    rw [buildFiles_jobs] at h
    refine ⟨doc, dir, _, hr, dir_of hd, jobs_of (w := w) (args := { args with outputDir := dir }) hc, ?_, ?_⟩
    · intro stems hs hn hsl j hj file hf
      obtain ⟨l, r, e, hlast⟩ := split_mem (outs_nodup (dir := dir) hs hn hsl) hj
      rw [fileFor_iff] at hf
      subst hf
      obtain ⟨c, h1, h2⟩ := run_ok _ fs h l j r e hlast
      exact ⟨c, h1.code, h2⟩
    · intro p hno
      have := run_other (w := w) (args := { args with outputDir := dir }) (pkg := pathBase dir) _ fs fun j hj => fun e => hno j hj (fileFor_iff.2 e.symm)
      rw [h] at this
      exact this
  · cases h
  · cases h

/-- Whether it succeeds or not, only files for entries of the schema are touched. -/
theorem C65_others {w : World} {args : BuildArgs} {fs : Files} {p : Str} (hp : (buildStructs w args fs).2 p ≠ fs p) :
    ∃ doc dir jobs j, w.read args.schemaPath = .ok doc ∧ Spec.Dir args w.getwd dir ∧ Spec.Jobs w.title args.structNames doc (w.abs args.schemaPath) jobs ∧
      j ∈ jobs ∧ Spec.FileFor dir (resolve args j.ref) p := by
  unfold buildStructs at hp
  split at hp
  · rename_i dir refs oneOf hpl
    obtain ⟨doc, hd, hr, hc, rfl⟩ := plan_of hpl
    rw [buildFiles_jobs] at hp
    refine ⟨doc, dir, jobsOf w { args with outputDir := dir } refs (refsIn doc g!"oneOf"), ?_⟩
    by_cases hno : ∃ j ∈ jobsOf w { args with outputDir := dir } refs (refsIn doc g!"oneOf"), Spec.FileFor dir (resolve args j.ref) p
    · obtain ⟨j, hj, hf⟩ := hno
      exact ⟨j, hr, dir_of hd, jobs_of (w := w) (args := { args with outputDir := dir }) hc, hj, hf⟩
    · exact absurd (run_other (w := w) (args := { args with outputDir := dir }) (pkg := pathBase dir) _ fs fun j hj => fun e => hno ⟨j, hj, fileFor_iff.2 e.symm⟩) hp
  · exact absurd rfl hp
  · exact absurd rfl hp

/-! ### Embedded structs -/

theorem foldRes_inv {σ β : Type} {f : β → σ → Res σ} {I : σ → Prop} (h : ∀ x s s', I s → f x s = .ok s' → I s') : ∀ (l : List β) {s s' : σ}, I s → foldRes f l s = .ok s' → I s'
  | [], _, _, hs, e => by cases e; exact hs
  | x :: l, s, s', hs, e => by
    unfold foldRes at e
    split at e
    · exact foldRes_inv h l (h _ _ _ hs ‹_›) e
    · cases e
    · cases e

theorem walkInst_inv {σ : Type} {sched : Sched} {fn : Str → Instance → σ → Res σ} {I : σ → Prop} (h : ∀ path i s s', I s → fn path i s = .ok s' → I s') :
    ∀ (n : Nat) (raw : P) (path : Str) (s s' : Nat × σ), I s.2 → walkInst sched fn n raw path s = .ok s' → I s'.2
  | 0, _, _, _, _, _, e => by cases e
  | n + 1, raw, path, s, s', hs, e => by
    unfold walkInst at e
    split at e
    · cases e
    · cases e
    · split at e
      · cases e
      · cases e
      · rename_i s1 h1
        have h2 := h _ _ _ _ hs h1
        split at e
        · split at e
          · cases e
          · exact foldRes_inv (I := fun s => I s.2) (fun x a b ha hb => walkInst_inv h n _ _ _ _ ha hb) _ h2 e
        · split at e
          · split at e
            · cases e
            · exact walkInst_inv h n _ _ _ _ h2 e
          · cases e; exact h2

theorem walkSchema_inv {σ : Type} {sched : Sched} {tick : Nat} {fn : Str → Instance → σ → Res σ} {I : σ → Prop} (h : ∀ path i s s', I s → fn path i s = .ok s' → I s')
    {sc : Schema} {s : σ} {r : Nat × σ} (hs : I s) (e : walkSchema sched tick fn sc s = .ok r) : I r.2 := by
  unfold walkSchema at e
  split at e
  · cases e
  · cases e
  · rename_i st h1
    have h2 := foldRes_inv (I := fun s => I s.2) (fun x a b ha hb => walkInst_inv h _ _ _ _ _ ha hb) _ hs h1
    split at e
    · cases e; exact h2
    · exact walkInst_inv h _ _ _ _ _ h2 e

/-- The name and the embedded structs stay as they are, and inner structs embed nothing. -/
def Kept (name : Str) (embeds : List Str) (g : GoFile) : Prop := g.root.name = name ∧ g.root.embeds = embeds ∧ (∀ k o, GMap.get k g.nested = some o → o.embeds = []) ∧ g.nested.Sorted

theorem kept_walk {title : Str → Str} {args : Args} {name : Str} {embeds : List Str} (path : Str) (i : Instance) (g g' : GoFile) (h : Kept name embeds g)
    (e : walkFunc title args path i g = .ok g') : Kept name embeds g' := by
  unfold walkFunc at e
  split at e
  · rw [Res.map_eq_ok] at e
    obtain ⟨fs, -, rfl⟩ := e
    exact ⟨h.1, h.2.1, h.2.2⟩
  · unfold walkFlat at e
    dsimp only at e
    split at e
    · cases e
    · rename_i nm _
      generalize hn : (if g!"object" ∈ i.type then GMap.set (title g.root.name :: (splitJSONPath path).map title).flatten
        ⟨(title g.root.name :: (splitJSONPath path).map title).flatten, [], i.required, []⟩ g.nested else g.nested) = nested at e
      have hk : ∀ k o, GMap.get k nested = some o → o.embeds = [] := by
        intro k o ho
        subst hn
        split at ho
        · rw [GMap.get_set] at ho
          split at ho
          · cases ho; rfl
          · exact h.2.2.1 k o ho
        · exact h.2.2.1 k o ho
      have hs : nested.Sorted := by
        subst hn
        split
        · exact GMap.sorted_set h.2.2.2
        · exact h.2.2.2
      rw [Res.map_eq_ok] at e
      obtain ⟨fs, -, rfl⟩ := e
      split
      · exact ⟨h.1, h.2.1, hk, hs⟩
      · rename_i s hg
        split
        · exact ⟨h.1, h.2.1, hk, hs⟩
        · refine ⟨h.1, h.2.1, ?_, GMap.sorted_set hs⟩
          intro k o ho
          rw [GMap.get_set] at ho
          split at ho
          · cases ho; exact h.2.2.1 _ s hg
          · exact hk k o ho

theorem kept_file {w : World} {args : BuildArgs} {path name : Str} {embeds : List Str} {g : GoFile} (ha : args.embedAllOf = false) (h : structFile w args path name embeds = .ok g) :
    Kept name embeds g := by
  unfold structFile at h
  simp only [Res.bind_eq_ok] at h
  obtain ⟨schema, -, h⟩ := h
  unfold newGoFile at h
  rw [Res.map_eq_ok] at h
  obtain ⟨r, h, rfl⟩ := h
  have he : embedNames w.title args.toArgs schema.allOf = [] := by unfold embedNames; rw [ha]; rfl
  rw [he, List.append_nil] at h
  exact walkSchema_inv (I := Kept name embeds) kept_walk ⟨rfl, rfl, (by intro k o ho; cases ho), (by trivial)⟩ h

theorem mem_sortedByName {α : Type} {l : List (Str × α)} {a : α} (h : a ∈ sortedByName l) : ∃ n, (n, a) ∈ l := by
  unfold sortedByName at h
  obtain ⟨n, -, hn⟩ := List.mem_filterMap.1 h
  exact ⟨n, by have := GMap.get_some_mem hn; simpa using this⟩

theorem text_embeds {title : Str → Str} {args : Args} {name : Str} {embeds : List Str} {g : GoFile} (h : Kept name embeds g) {st : StructText}
    (hs : st ∈ (g.text title args).2) : st.embeds = embeds ∨ st.embeds = [] := by
  unfold GoFile.text at hs
  simp only [List.mem_map, List.mem_filter] at hs
  obtain ⟨s, ⟨hs, -⟩, rfl⟩ := hs
  unfold GoFile.structs at hs
  simp only [List.mem_cons] at hs
  rcases hs with rfl | hs
  · exact .inl h.2.1
  · obtain ⟨n, hm⟩ := mem_sortedByName hs
    obtain ⟨kv, hkv, e⟩ := List.mem_map.1 hm
    simp only [Prod.mk.injEq] at e
    obtain ⟨-, rfl⟩ := e
    exact .inr (h.2.2.1 kv.1 kv.2 (GMap.get_mem_nodup h.2.2.2.nodup hkv))

theorem text_declares {title : Str → Str} {args : Args} {name : Str} {embeds : List Str} {g : GoFile} (h : Kept name embeds g) (hf : g.root.fields.length ≠ 0) :
    ∃ st ∈ (g.text title args).2, st.name = title name := by
  refine ⟨GStruct.text title args ((g.structs.filter fun s => s.fields.length = 0).map GStruct.name) g.nested g.root, ?_, by rw [← h.1]; rfl⟩
  unfold GoFile.text
  refine List.mem_map.2 ⟨g.root, List.mem_filter.2 ⟨by unfold GoFile.structs; simp, by simpa using hf⟩, rfl⟩

/-! ### Files that are read -/

/-- A reference to a file, relative to the schema, whose last element is a name keeps its base name. -/
theorem resolve_base {args : BuildArgs} {dir x s : Str} (hd : dir = [] ∨ ∃ d, dir = d ++ ['/']) (hx : Elem x) (hb : BaseName x s) : BaseName (resolve args (dir ++ x)) s := by
  have key : ∃ p, (p = [] ∨ ∃ d, p = d ++ ['/']) ∧ resolve args (dir ++ x) = p ++ x := by
    unfold resolve
    split
    · exact ⟨dir, hd, rfl⟩
    · unfold joinPath
      have hsplit : ∀ d, (d = [] ∨ ∃ e, d = e ++ ['/']) → ∃ l, splitC '/' (d ++ x) = l ++ [x] := by
        rintro d (rfl | ⟨e, rfl⟩)
        · exact ⟨[], by rw [List.nil_append, splitC_no _ _ hx.1]; rfl⟩
        · exact ⟨splitC '/' e, by rw [List.append_assoc, List.singleton_append, splitC_general, splitC_no _ _ hx.1]⟩
      have hclean : ∀ d, (d = [] ∨ ∃ e, d = e ++ ['/']) → ∃ p, (p = [] ∨ ∃ e, p = e ++ ['/']) ∧ clean (d ++ x) = p ++ x := by
        intro d h
        obtain ⟨l, hl⟩ := hsplit d h
        unfold clean
        rw [hl, List.foldl_append]
        simp only [List.foldl_cons, List.foldl_nil, cleanStep_elem hx, List.reverse_cons]
        generalize (l.foldl (cleanStep (isAbs (d ++ x))) []).reverse = out
        have hj : ∃ p, (p = [] ∨ ∃ e, p = e ++ ['/']) ∧ join g!"/" (out ++ [x]) = p ++ x := by
          induction out with
          | nil => exact ⟨[], .inl rfl, rfl⟩
          | cons a t ih =>
            obtain ⟨p, hp, e⟩ := ih
            refine ⟨a ++ '/' :: p, .inr ?_, ?_⟩
            · rcases hp with rfl | ⟨y, rfl⟩
              · exact ⟨a, rfl⟩
              · exact ⟨a ++ '/' :: y, by simp⟩
            · rcases t with _ | ⟨b, t⟩
              · simp only [List.nil_append, join] at e
                simp only [List.cons_append, List.nil_append, join]
                rw [← List.append_nil (a ++ g!"/")] 
                simp only [List.append_assoc, List.cons_append, List.nil_append]
                rw [← e]
              · simp only [List.cons_append, join] at e ⊢
                rw [e]; simp
        obtain ⟨p, hp, e⟩ := hj
        split
        · refine ⟨'/' :: p, .inr ?_, by rw [e]; rfl⟩
          rcases hp with rfl | ⟨y, rfl⟩
          · exact ⟨[], rfl⟩
          · exact ⟨'/' :: y, rfl⟩
        · rw [if_neg (by simp)]
          exact ⟨p, hp, e⟩
      split
      · rw [show pathDir args.schemaPath ++ '/' :: (dir ++ x) = (pathDir args.schemaPath ++ '/' :: dir) ++ x by simp]
        apply hclean
        right
        rcases hd with rfl | ⟨d, rfl⟩
        · exact ⟨_, rfl⟩
        · exact ⟨pathDir args.schemaPath ++ '/' :: d, by simp⟩
      · rw [if_pos (by simp [hx.2.1])]
        exact hclean dir hd
  obtain ⟨p, hp, e⟩ := key
  rw [e]
  obtain ⟨s', hs'⟩ := baseName_total (p ++ x)
  have : s' = s := by
    rw [← subName_baseName hs', ← subName_baseName hb]
    have hlast : ∀ q : Str, (q = [] ∨ ∃ d, q = d ++ ['/']) → pathBase (q ++ x) = x := by
      intro q hq
      have hne : (q ++ x).getLast? ≠ some '/' := by
        rw [List.getLast?_append]
        rcases hxl : x.getLast? with _ | c
        · rw [List.getLast?_eq_none_iff] at hxl; exact absurd hxl hx.2.1
        · simp only [Option.some_or, ne_eq, Option.some.injEq]
          rintro rfl
          exact hx.1 (List.mem_of_getLast? hxl)
      have htrim := trimRight_replicate '/' 0 (q ++ x) hne
      simp only [List.replicate_zero, List.append_nil] at htrim
      unfold pathBase
      rw [if_neg (by simp [hx.2.1]), htrim]
      have : (splitC '/' (q ++ x)).getLastD [] = x := by
        rcases hq with rfl | ⟨d, rfl⟩
        · rw [List.nil_append, splitC_no _ _ hx.1]; rfl
        · rw [List.append_assoc, List.singleton_append, splitC_general, splitC_no _ _ hx.1]
          simp [List.getLastD_eq_getLast?]
      simp only [this]
      rw [if_neg hx.2.1]
    unfold subName
    rw [hlast p hp]
    have := hlast [] (.inl rfl)
    rw [List.nil_append] at this
    rw [this]
  exact this ▸ hs'

/-- **C74**: the GraphQL types are made of the schema that was asked for, if its path is absolute or names a file in the current directory. -/
theorem C74_partial {args : BuildArgs} (h : isAbs args.schemaPath = true ∨ Elem args.schemaPath) : graphqlSource args = args.schemaPath := by
  unfold graphqlSource resolve
  rcases h with h | h
  · rw [if_pos h]
  · have h1 : isAbs args.schemaPath = false := by
      unfold isAbs
      rcases hs : args.schemaPath with _ | ⟨c, t⟩
      · rfl
      · simp only [List.head?_cons, Option.some.injEq, decide_eq_false_iff_not]
        rintro rfl
        rw [hs] at h
        exact h.1 (by simp)
    have h2 : pathDir args.schemaPath = g!"." := by unfold pathDir; rw [if_neg h.1]
    rw [if_neg (by simp [h1]), h2]
    unfold joinPath
    rw [if_pos (by simp)]
    unfold clean
    have h3 : isAbs (g!"." ++ '/' :: args.schemaPath) = false := rfl
    have h4 : splitC '/' (g!"." ++ '/' :: args.schemaPath) = [g!".", args.schemaPath] := by
      rw [splitC_general, splitC_no _ _ h.1]; rfl
    have h5 : [g!".", args.schemaPath].foldl (cleanStep false) [] = [args.schemaPath] := cleanStep_elem (b := false) (out := []) h
    rw [h3, h4, h5]
    simp [join]

/-- With another relative path, a different file is read. -/
theorem C74_refuted : graphqlSource ⟨⟨false, false, false, false, [], []⟩, g!"schemas/root.json", g!"/out"⟩ = g!"schemas/schemas/root.json" := by decide +kernel

/-- A struct of that name is declared in a file. -/
def Declared (fs : Files) (name : Str) : Prop := ∃ file pkg time structs st, fs file = some (.go pkg time structs) ∧ st ∈ structs ∧ st.name = name

theorem jobs_embeds {w : World} {args : BuildArgs} {refs oneOf : List Str} {j : Spec.Job} (hj : j ∈ jobsOf w args refs oneOf) {e : Str} (he : e ∈ j.embeds) :
    ∃ r ∈ refs, e = allOfName w args r ∧ (⟨r, allOfName w args r, []⟩ : Spec.Job) ∈ jobsOf w args refs oneOf := by
  unfold jobsOf at hj
  rw [List.mem_append, List.mem_map, List.mem_map] at hj
  rcases hj with ⟨r, -, rfl⟩ | ⟨r, -, rfl⟩
  · cases he
  · obtain ⟨r', hr, rfl⟩ := List.mem_map.1 he
    exact ⟨r', hr, rfl, List.mem_append_left _ (List.mem_map.2 ⟨r', hr, rfl⟩)⟩

/-- **C73**: every struct that a generated struct embeds is declared in one of the generated files.  This needs: different base names; names given for structs that are exported
already; `EmbedAllOf` is off; and a field in each struct that others embed. -/
theorem C73_partial {w : World} {args : BuildArgs} {fs fs' : Files} {u : Unit} (h : buildStructs w args fs = (.ok u, fs')) (ht : ∀ s, w.title (w.title s) = w.title s)
    (hm : ∀ k v, GMap.get k args.structNames = some v → w.title v = v) (he : args.embedAllOf = false) :
    ∃ doc dir jobs, w.read args.schemaPath = .ok doc ∧ Spec.Dir args w.getwd dir ∧ Spec.Jobs w.title args.structNames doc (w.abs args.schemaPath) jobs ∧
      ((∃ stems, Spec.Stems args jobs stems ∧ stems.Nodup ∧ ∀ s ∈ stems, '/' ∉ s) →
        (∀ j ∈ jobs, j.embeds = [] → ∀ g, structFile w { args with outputDir := dir } (resolve args j.ref) j.name [] = .ok g → g.root.fields.length ≠ 0) →
        ∀ j ∈ jobs, ∀ file, Spec.FileFor dir (resolve args j.ref) file → ∃ pkg time structs, fs' file = some (.go pkg time structs) ∧
          ∀ st ∈ structs, ∀ e ∈ st.embeds, Declared fs' e) := by
  unfold buildStructs at h
  split at h
  · rename_i dir refs oneOf hp
    obtain ⟨doc, hd, hr, hc, rfl⟩ := plan_of hp
    rw [buildFiles_jobs] at h
    refine ⟨doc, dir, _, hr, dir_of hd, jobs_of (w := w) (args := { args with outputDir := dir }) hc, ?_⟩
    rintro ⟨stems, hs, hn, hsl⟩ hfields
    have key : ∀ j ∈ jobsOf w { args with outputDir := dir } refs (refsIn doc g!"oneOf"),
        ∃ c, Made w { args with outputDir := dir } (pathBase dir) j c ∧ fs' (outPath dir (resolve args j.ref)) = some c := by
      intro j hj
      obtain ⟨l, r, e, hlast⟩ := split_mem (outs_nodup (dir := dir) hs hn hsl) hj
      exact run_ok _ fs h l j r e hlast
    intro j hj file hf
    rw [fileFor_iff] at hf
    subst hf
    obtain ⟨c, ⟨g, hg, -, rfl⟩, hfile⟩ := key j hj
    refine ⟨_, _, _, hfile, ?_⟩
    intro st hst e hem
    rcases text_embeds (kept_file (args := { args with outputDir := dir }) he hg) hst with h1 | h1
    · rw [h1] at hem
      obtain ⟨r, hr, rfl, hjob⟩ := jobs_embeds hj hem
      obtain ⟨c', ⟨g', hg', -, rfl⟩, hfile'⟩ := key _ hjob
      obtain ⟨st', hst', hname⟩ := text_declares (title := w.title) (args := args.toArgs) (kept_file (args := { args with outputDir := dir }) he hg')
        (hfields _ hjob rfl g' hg')
      refine ⟨_, _, _, _, st', hfile', hst', ?_⟩
      rw [hname]
      show w.title (allOfName w _ r) = allOfName w _ r
      unfold allOfName
      dsimp only
      rcases hget : GMap.get (subName r) args.structNames with _ | v
      · exact ht _
      · exact hm _ _ hget
    · rw [h1] at hem; cases hem
  · cases h
  · cases h

/-! ### Examples -/

namespace C65ex
/-- Upper case for the first letter, for a few letters. -/
def title : Str → Str
  | [] => []
  | c :: t => (if c = 'a' then 'A' else if c = 'c' then 'C' else if c = 'x' then 'X' else c) :: t

theorem title_title (s : Str) : title (title s) = title s := by
  rcases s with _ | ⟨c, t⟩
  · rfl
  · unfold title
    simp only [List.cons.injEq, and_true]
    split
    · rfl
    · split
      · rfl
      · split <;> simp_all

def text : P := .obj [(g!"type", .sc (.str g!"string"))]
def ref (r : Str) : P := .obj [(g!"$ref", .sc (.str r))]
def doc (all one : List Str) : P := .obj [(g!"allOf", .arr (all.map ref)), (g!"oneOf", .arr (one.map ref))]
/-- The schema with a property; some files have none. -/
def schemaOf (path : Str) : Instance :=
  if path = g!"/s/none.json" then Instance.zero
  else { Instance.zero with properties := some [(if path = g!"/s/b/x.json" then g!"q" else g!"p", text)] }
def world (d : P) : World := ⟨Sched.id, title, .err, .ok, fun _ => .ok d, fun _ p _ => .ok (schemaOf p), fun _ => true, fun _ _ => true⟩
def args (names : GMap Str) : BuildArgs := ⟨⟨false, false, false, false, names, []⟩, g!"/s/root.json", g!"/out"⟩
/-- The structs in a file, with what they embed. -/
def found (fs : Files) (p : Str) : List (Str × List Str × Nat) :=
  match fs p with
  | some (.go _ _ ss) => ss.map fun s => (s.name, s.embeds, s.body.length)
  | _ => []
/-- The names of the fields in a file. -/
def fieldsIn (fs : Files) (p : Str) : List Str :=
  match fs p with
  | some (.go _ _ ss) => (ss.map fun s => s.body.filterMap fun | .field _ n _ _ => some n | _ => none).flatten
  | _ => []
def isOk (r : Res Unit × Files) : Bool := decide (r.1 = .ok ())
def run (d : P) (names : GMap Str) : Res Unit × Files := buildStructs (world d) (args names) fun _ => none

/-- The theorems apply to a schema with one allOf and two oneOf entries. -/
example : (run (doc [g!"common.json"] [g!"a.json", g!"b/x.json"]) []).1 = .ok () ∧
    found (run (doc [g!"common.json"] [g!"a.json", g!"b/x.json"]) []).2 g!"/out/common.go" = [(g!"Common", [], 1)] ∧
    found (run (doc [g!"common.json"] [g!"a.json", g!"b/x.json"]) []).2 g!"/out/a.go" = [(g!"A", [g!"Common"], 1)] ∧
    found (run (doc [g!"common.json"] [g!"a.json", g!"b/x.json"]) []).2 g!"/out/x.go" = [(g!"X", [g!"Common"], 1)] := by decide +kernel

/-- The base names in the example are different. -/
example : Spec.Stems (args []) (jobsOf (world (doc [] [])) (args []) [g!"common.json"] [g!"a.json", g!"b/x.json"]) [g!"common", g!"a", g!"x"] ∧
    [g!"common", g!"a", g!"x"].Nodup := by
  have b : ∀ p s : Str, subName p = s → BaseName p s := fun p s h => by
    obtain ⟨s', hs⟩ := baseName_total p
    rw [subName_baseName hs] at h
    exact h ▸ hs
  exact ⟨.cons (b _ _ (by decide)) (.cons (b _ _ (by decide)) (.cons (b _ _ (by decide)) .nil)), by decide⟩
end C65ex

open C65ex in
/-- Two entries with the same base name: one file, with the struct of the second only. -/
theorem C65_refuted : (run (doc [] [g!"a/x.json", g!"b/x.json"]) []).1 = .ok () ∧ found (run (doc [] [g!"a/x.json", g!"b/x.json"]) []).2 g!"/out/x.go" = [(g!"X", [], 1)] ∧
    fieldsIn (run (doc [] [g!"a/x.json", g!"b/x.json"]) []).2 g!"/out/x.go" = [g!"q"] := by decide +kernel

open C65ex in
/-- An embedded struct without fields is not declared, and a name that is not exported is declared in another way than it is embedded. -/
theorem C73_refuted :
    ((run (doc [g!"none.json"] [g!"a.json"]) []).1 = .ok () ∧ found (run (doc [g!"none.json"] [g!"a.json"]) []).2 g!"/out/a.go" = [(g!"A", [g!"none"], 1)] ∧
      found (run (doc [g!"none.json"] [g!"a.json"]) []).2 g!"/out/none.go" = []) ∧
    ((run (doc [g!"common.json"] [g!"a.json"]) [(g!"common", g!"x")]).1 = .ok () ∧
      found (run (doc [g!"common.json"] [g!"a.json"]) [(g!"common", g!"x")]).2 g!"/out/a.go" = [(g!"A", [g!"x"], 1)] ∧
      found (run (doc [g!"common.json"] [g!"a.json"]) [(g!"common", g!"x")]).2 g!"/out/common.go" = [(g!"X", [], 1)]) := by decide +kernel

end JT.Gen
