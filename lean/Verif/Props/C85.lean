import Verif.Model.BuildAll
import Verif.Proofs.Paths
/- C85: the options for GraphQL, Avro and MessagePack only add files. -/
namespace JT.Gen
open JT.Spec

/-! ### Specification -/

namespace Spec

/-- A name without dots and slashes. -/
def BareName (x : Str) : Prop := x ≠ [] ∧ '/' ∉ x ∧ '.' ∉ x

/-- Where the GraphQL files go. -/
inductive GraphqlDir (args : AllArgs) (dir : Str) : Str → Prop where
  | given : args.outputDirGraphQL ≠ [] → GraphqlDir args dir args.outputDirGraphQL
  | same : args.outputDirGraphQL = [] → GraphqlDir args dir dir

/-- The Avro schema and the helper code for a struct, by its name in lower case, and the code for the Avro schema. -/
inductive AvroFile (dir x : Str) : Str → Prop where
  | schema : AvroFile dir x (joinPath dir (x ++ g!".avsc"))
  | helper : AvroFile dir x (joinPath dir (x ++ g!"_avro.go"))
  | tests : AvroFile dir x (joinPath dir (x ++ g!"_avro_test.go"))
  | code {f : Str} : Elem f → AvroFile dir x (joinPath (joinPath (joinPath dir g!"avro") x) f)

/-- Files that are only written because of an option. -/
inductive Extra (args : AllArgs) (dir : Str) : Str → Prop where
  | graphql {d x : Str} : args.generateGraphQL = true → GraphqlDir args dir d → '/' ∉ x → Extra args dir (joinPath d (x ++ g!".graphqls"))
  | avro {x p : Str} : args.generateAvro = true → BareName x → AvroFile dir x p → Extra args dir p
  | pack {x : Str} : args.generateMessagePack = true → '/' ∉ x → Extra args dir (joinPath dir (x ++ g!"_msgp.go"))
  | packTests {x : Str} : args.generateMessagePack = true → '/' ∉ x → Extra args dir (joinPath dir (x ++ g!"_msgp_test.go"))

/-- The names that libraries make up are names of files. -/
structure Tidy (t : Tools) : Prop where
  graphql : ∀ args name pkg fs, ∀ f ∈ (t.graphql args name pkg fs).1, '/' ∉ f.1
  gogen : ∀ names name c, ∀ f ∈ (t.gogen names name c).1, Elem f.1
  msgp : ∀ dir fs x, t.msgp dir fs = .ok (some x) → '/' ∉ x.1

/-- The schema files have names other than `/`, and the names of the structs, in lower case, have no dots and slashes. -/
def TidyJobs (t : Tools) (args : BuildArgs) (jobs : List Job) : Prop :=
  ∀ j ∈ jobs, (∀ s, BaseName (resolve args j.ref) s → '/' ∉ s) ∧ BareName (t.lower (t.title j.name))

end Spec
open Spec

/-! ### Steps -/

/-- A step changes no other files. -/
def Touches (S : Str → Prop) (a : Act) : Prop := ∀ fs p, ¬ S p → (a fs).2 p = fs p

theorem Touches.mono {S T : Str → Prop} {a : Act} (h : Touches S a) (hs : ∀ p, S p → T p) : Touches T a := fun fs p hp => h fs p fun h => hp (hs p h)

theorem Touches.next {S : Str → Prop} {a b : Act} (ha : Touches S a) (hb : Touches S b) : Touches S (a.next b) := by
  intro fs p hp
  have h1 := ha fs p hp
  unfold Act.next
  rcases h : a fs with ⟨r, fs1⟩
  rw [h] at h1
  cases r with
  | ok u => exact (hb fs1 p hp).trans h1
  | err => exact h1
  | panic => exact h1

theorem Touches.when {S : Str → Prop} {a : Act} {c : Bool} (ha : c = true → Touches S a) : Touches S (Act.when c a) := by
  intro fs p hp
  unfold Act.when
  split
  · exact ha ‹_› fs p hp
  · rfl

theorem foldl_put {S : Str → Prop} : ∀ {l : List (Str × Content)} {fs : Files} {p : Str}, (∀ f ∈ l, S f.1) → ¬ S p → (l.foldl (fun fs f => Files.put fs f.1 f.2) fs) p = fs p
  | [], _, _, _, _ => rfl
  | f :: l, fs, p, h, hp => by
    rw [List.foldl_cons, foldl_put (fun g hg => h g (List.mem_cons_of_mem _ hg)) hp]
    exact if_neg fun (e : p = f.1) => hp (e ▸ h f List.mem_cons_self)

theorem touches_writeAll {S : Str → Prop} {r : List (Str × Content) × Res Unit} (h : ∀ f ∈ r.1, S f.1) : Touches S (writeAll r) := fun _ _ hp => foldl_put h hp

theorem touches_put {S : Str → Prop} {t : Tools} {path : Str} {c : Content} (h : S path) : Touches S (t.putFile path c) := by
  intro fs p hp
  unfold Tools.putFile
  split
  · exact if_neg fun (e : p = path) => hp (e ▸ h)
  · rfl

theorem touches_from {S : Str → Prop} {α : Type} {make : Files → Res α} {use : α → Act} (h : ∀ fs x, make fs = .ok x → Touches S (use x)) : Touches S (Act.from make use) := by
  intro fs p hp
  unfold Act.from
  split
  · exact h fs _ ‹_› fs p hp
  · rfl
  · rfl

/-! ### Paths of the steps -/

theorem elem_suffix {x s : Str} (hx : '/' ∉ x) (hs : '/' ∉ s) (h3 : 2 < s.length) : Elem (x ++ s) := by
  refine ⟨?_, ?_, ?_, ?_⟩
  · simp only [List.mem_append, not_or]; exact ⟨hx, hs⟩
  · intro e; have := congrArg List.length e; rw [List.length_append] at this; simp only [List.length_cons, List.length_nil] at this; omega
  · intro e; have := congrArg List.length e; rw [List.length_append] at this; simp only [List.length_cons, List.length_nil] at this; omega
  · intro e; have := congrArg List.length e; rw [List.length_append] at this; simp only [List.length_cons, List.length_nil] at this; omega

theorem BareName.elem {x : Str} (h : BareName x) : Elem x := ⟨h.2.1, h.1, by rintro rfl; exact h.2.2 (by simp), by rintro rfl; exact h.2.2 (by simp)⟩

theorem elem_avro : Elem g!"avro" := by unfold Elem; decide

/-- The file next to the struct. -/
theorem beside {dir path s : Str} (hp : '/' ∉ subName path) (hs : Elem s) : joinPath (pathDir (outPath dir path)) s = joinPath dir s :=
  joinPath_beside (elem_go hp) hs

theorem pathBase_join {d x : Str} (h : Elem x) : pathBase (joinPath d x) = x := by
  obtain ⟨b, out, hc, hj⟩ := joinPath_render d
  have hl : ∀ y ∈ out.reverse ++ [x], '/' ∉ y ∧ y ≠ [] ∧ y ≠ g!"." := fun y hy => (Cleaned.name h hc).noSlash y (by simpa [or_comm] using hy)
  obtain ⟨p, hp⟩ := joinPath_elem d
  have hne : (joinPath d x).getLast? ≠ some '/' := by
    rw [hp x h, List.getLast?_append]
    rcases hxl : x.getLast? with _ | c
    · rw [List.getLast?_eq_none_iff] at hxl; exact absurd hxl h.2.1
    · simp only [Option.some_or, ne_eq, Option.some.injEq]
      rintro rfl
      exact h.1 (List.mem_of_getLast? hxl)
  have htrim := trimRight_replicate '/' 0 _ hne
  simp only [List.replicate_zero, List.append_nil] at htrim
  unfold pathBase
  rw [if_neg (by rw [hj x h]; exact render_ne (by simp) hl), htrim, hj x h]
  simp only [split_render (b := b) (l := out.reverse ++ [x]) (by simp) fun y hy => (hl y hy).1]
  have : (((if b = true then [[]] else []) ++ (out.reverse ++ [x])).getLastD []) = x := by
    rw [← List.append_assoc]; simp
  simp only [this]
  rw [if_neg h.2.1]

theorem subName_join {d x s : Str} (h : BareName x) (hs : '/' ∉ s) (hl : 2 ≤ s.length) : subName (joinPath d (x ++ '.' :: s)) = x := by
  unfold subName
  rw [pathBase_join (elem_suffix h.2.1 (by simp [hs]) (by simp; omega)), JT.splitC_append _ _ _ h.2.2]
  rfl

/-! ### The files of each step -/

variable {t : Tools} {args : AllArgs}

theorem avsc_path {dir path name : Str} (hp : '/' ∉ subName path) (hn : BareName (t.lower name)) :
    avscPath t name (outPath dir path) = joinPath dir (t.lower name ++ g!".avsc") := beside hp (elem_suffix hn.2.1 (by decide) (by decide))

theorem gogen_dir {dir x : Str} (hx : BareName x) : gogenDir (joinPath dir (x ++ g!".avsc")) = joinPath (joinPath dir g!"avro") x := by
  unfold gogenDir
  rw [joinPath_beside (elem_suffix hx.2.1 (by decide) (by decide)) elem_avro, subName_join hx (by decide) (by decide)]

theorem touches_avro {dir path name : Str} (ht : Tidy t) (hp : '/' ∉ subName path) (hn : BareName (t.lower (t.title name))) :
    Touches (AvroFile dir (t.lower (t.title name))) (avroStep t args name (outPath dir path)) := by
  refine .next ?_ (.next ?_ ?_)
  · exact touches_from fun fs c _ => touches_put (by rw [avsc_path hp hn]; exact .schema)
  · intro fs p hno
    refine touches_writeAll (S := AvroFile dir (t.lower (t.title name))) ?_ fs p hno
    intro f hf
    obtain ⟨g, hg, rfl⟩ := List.mem_map.1 hf
    rw [avsc_path hp hn, gogen_dir hn]
    exact .code (ht.gogen _ _ _ g hg)
  · refine touches_from fun fs c _ => .next (touches_put ?_) (touches_from fun _ _ _ => touches_put ?_)
    · rw [beside hp (elem_suffix hn.2.1 (by decide) (by decide))]; exact .helper
    · rw [beside hp (elem_suffix hn.2.1 (by decide) (by decide))]; exact .tests

theorem touches_graphql {dir : Str} {pkg : Str} (ht : Tidy t) (h : args.generateGraphQL = true) : Touches (Extra args dir) (graphqlStep t (withDirs args dir) pkg) := by
  intro fs p hno
  refine touches_writeAll (S := Extra args dir) ?_ fs p hno
  intro f hf
  obtain ⟨g, hg, rfl⟩ := List.mem_map.1 hf
  refine .graphql h ?_ (ht.graphql _ _ _ _ g hg)
  simp only [withDirs]
  split
  · exact .same ‹_›
  · exact .given ‹_›

theorem touches_msgp {dir : Str} (ht : Tidy t) (h : args.generateMessagePack = true) : Touches (Extra args dir) (msgpStep t (withDirs args dir)) := by
  refine touches_from fun fs x hx => ?_
  cases x with
  | none => intro fs p _; rfl
  | some x =>
    have := ht.msgp _ _ _ hx
    exact .next (touches_put (.packTests h this)) (touches_put (.pack h this))

theorem touches_struct {w : World} {a : BuildArgs} {child name pkg : Str} {embeds : List Str} :
    Touches (fun p => p = outPath a.outputDir (resolve a child)) (buildStructFile w a child name pkg embeds) :=
  fun _ _ hp => build_other fun e => hp e.symm

theorem job_stem {a : BuildArgs} {j : Spec.Job} (h : ∀ s, BaseName (resolve a j.ref) s → '/' ∉ s) : '/' ∉ subName (resolve a j.ref) := by
  obtain ⟨s, hs⟩ := baseName_total (resolve a j.ref)
  rw [subName_baseName hs]
  exact h s hs

/-! ### The loops -/

/-- The steps for structs, one after the other. -/
def runSteps (t : Tools) (args : AllArgs) (pkg : Str) : List Spec.Job → Act
  | [], fs => (.ok (), fs)
  | j :: rest, fs => Act.next (structStep t args j.ref j.name pkg j.embeds) (runSteps t args pkg rest) fs

theorem oneOf_steps {pkg : Str} {embeds : List Str} : ∀ (refs : List Str) (fs : Files),
    oneOfSteps t args pkg embeds refs fs = runSteps t args pkg (refs.map fun r => ⟨r, oneOfName args.toBuildArgs r, embeds⟩) fs
  | [], _ => rfl
  | r :: rs, fs => by
    simp only [oneOfSteps, List.map_cons, runSteps, Act.next]
    rcases structStep t args r (oneOfName args.toBuildArgs r) pkg embeds fs with ⟨x, fs1⟩
    cases x with
    | ok u => exact oneOf_steps rs fs1
    | err => rfl
    | panic => rfl

theorem runSteps_append {pkg : Str} : ∀ (a b : List Spec.Job) (fs : Files), runSteps t args pkg (a ++ b) fs = Act.next (runSteps t args pkg a) (runSteps t args pkg b) fs
  | [], b, fs => rfl
  | j :: a, b, fs => by
    simp only [List.cons_append, runSteps, Act.next]
    rcases structStep t args j.ref j.name pkg j.embeds fs with ⟨x, fs1⟩
    cases x with
    | ok u =>
      have := runSteps_append (pkg := pkg) a b fs1
      simp only [Act.next] at this
      exact this
    | err => rfl
    | panic => rfl

theorem allOf_steps {pkg : Str} : ∀ (refs embeds : List Str) (fs : Files),
    allOfSteps t args pkg refs embeds fs = match runSteps t args pkg (refs.map fun r => ⟨r, allOfName t.toWorld args.toBuildArgs r, []⟩) fs with
      | (.ok _, fs) => (.ok (embeds ++ refs.map (allOfName t.toWorld args.toBuildArgs)), fs)
      | (.err, fs) => (.err, fs)
      | (.panic, fs) => (.panic, fs)
  | [], embeds, fs => by simp [allOfSteps, runSteps]
  | r :: rs, embeds, fs => by
    simp only [allOfSteps, List.map_cons, runSteps, Act.next]
    rcases structStep t args r (allOfName t.toWorld args.toBuildArgs r) pkg [] fs with ⟨x, fs1⟩
    cases x with
    | ok u => simp only [allOf_steps rs, List.append_assoc, List.singleton_append]
    | err => rfl
    | panic => rfl

theorem struct_steps {pkg : Str} {refs oneOf : List Str} {fs : Files} :
    structSteps t args pkg refs oneOf fs = runSteps t args pkg (jobsOf t.toWorld args.toBuildArgs refs oneOf) fs := by
  unfold structSteps jobsOf
  rw [runSteps_append, allOf_steps]
  simp only [Act.next]
  rcases runSteps t args pkg (refs.map fun r => ⟨r, allOfName t.toWorld args.toBuildArgs r, []⟩) fs with ⟨r, fs1⟩
  cases r <;> simp [oneOf_steps]

/-! ### Compared with the structs alone -/

/-- The same files, but for some. -/
def Agree (S : Str → Prop) (fs fs' : Files) : Prop := ∀ p, ¬ S p → fs p = fs' p

theorem struct_agree {S : Str → Prop} {w : World} {a : BuildArgs} {child name pkg : Str} {embeds : List Str} {fs fs' : Files} (h : Agree S fs fs') :
    (buildStructFile w a child name pkg embeds fs).1 = (buildStructFile w a child name pkg embeds fs').1 ∧
      Agree S (buildStructFile w a child name pkg embeds fs).2 (buildStructFile w a child name pkg embeds fs').2 := by
  have hput : ∀ q c, Agree S (fs.put q c) (fs'.put q c) := by
    intro q c p hp
    unfold Files.put
    split
    · rfl
    · exact h p hp
  unfold buildStructFile
  split
  · unfold writeFile
    split
    · exact ⟨rfl, h⟩
    · dsimp only
      split
      · exact ⟨rfl, hput _ _⟩
      · exact ⟨rfl, hput _ _⟩
  · exact ⟨rfl, h⟩
  · exact ⟨rfl, h⟩

theorem Agree.touch {S : Str → Prop} {a : Act} {fs fs' : Files} (ha : Touches S a) (h : Agree S fs fs') : Agree S (a fs).2 fs' :=
  fun p hp => (ha fs p hp).trans (h p hp)

theorem Agree.trans {S : Str → Prop} {a b c : Files} (h : Agree S a b) (h' : Agree S b c) : Agree S a c := fun p hp => (h p hp).trans (h' p hp)

theorem next_ok {a b : Act} {fs fs' : Files} {u : Unit} (h : Act.next a b fs = (.ok u, fs')) : ∃ v fs1, a fs = (.ok v, fs1) ∧ b fs1 = (.ok u, fs') := by
  unfold Act.next at h
  split at h
  · exact ⟨_, _, ‹_›, h⟩
  · cases h
  · cases h

/-- If all steps succeed, so do those for the structs alone, with the same files but for the extra ones. -/
theorem run_agree {S : Str → Prop} {pkg : Str} : ∀ {jobs : List Spec.Job} {fs fs' fs2 : Files} {u : Unit},
    (∀ j ∈ jobs, args.generateAvro = true → Touches S (avroStep t args j.name (outPath args.outputDir (resolve args.toBuildArgs j.ref)))) →
    Agree S fs fs2 → runSteps t args pkg jobs fs = (.ok u, fs') → ∃ v fs2', runJobs t.toWorld args.toBuildArgs pkg jobs fs2 = (.ok v, fs2') ∧ Agree S fs' fs2'
  | [], fs, fs', fs2, u, _, ha, h => by
    simp only [runSteps, Prod.mk.injEq] at h
    exact ⟨(), fs2, rfl, h.2 ▸ ha⟩
  | j :: jobs, fs, fs', fs2, u, hs, ha, h => by
    obtain ⟨v, fs1, h1, h2⟩ := next_ok h
    obtain ⟨v', fs0, h3, h4⟩ := next_ok h1
    have hb := struct_agree (w := t.toWorld) (a := args.toBuildArgs) (child := j.ref) (name := j.name) (pkg := pkg) (embeds := j.embeds) ha
    rcases hb2 : buildStructFile t.toWorld args.toBuildArgs j.ref j.name pkg j.embeds fs2 with ⟨r2, fs3⟩
    rw [h3, hb2] at hb
    obtain ⟨rfl, hb⟩ := hb
    have hag : Agree S fs1 fs3 := by
      have := Agree.touch (a := Act.when args.generateAvro (avroStep t args j.name (outPath args.outputDir (resolve args.toBuildArgs j.ref))))
        (.when fun hg => hs j List.mem_cons_self hg) hb
      rw [h4] at this
      exact this
    obtain ⟨w, fs4, h5, h6⟩ := run_agree (fun j' hj' => hs j' (List.mem_cons_of_mem _ hj')) hag h2
    exact ⟨w, fs4, by rw [runJobs, hb2]; exact h5, h6⟩

/-- Whatever happens, the steps touch only the files of the structs and the extra ones. -/
theorem run_touches {S : Str → Prop} {pkg : Str} : ∀ {jobs : List Spec.Job},
    (∀ j ∈ jobs, S (outPath args.outputDir (resolve args.toBuildArgs j.ref)) ∧
      (args.generateAvro = true → Touches S (avroStep t args j.name (outPath args.outputDir (resolve args.toBuildArgs j.ref))))) → Touches S (runSteps t args pkg jobs)
  | [], _ => fun _ _ _ => rfl
  | j :: jobs, h => by
    have h1 : Touches S (structStep t args j.ref j.name pkg j.embeds) :=
      .next (touches_struct.mono fun p hp => hp ▸ (h j List.mem_cons_self).1) (.when (h j List.mem_cons_self).2)
    exact h1.next (run_touches fun j' hj' => h j' (List.mem_cons_of_mem _ hj'))

theorem steps_off {pkg : Str} (h : args.generateAvro = false) : ∀ (jobs : List Spec.Job) (fs : Files), runSteps t args pkg jobs fs = runJobs t.toWorld args.toBuildArgs pkg jobs fs
  | [], _ => rfl
  | j :: jobs, fs => by
    simp only [runSteps, runJobs, structStep, Act.next, Act.when, h, Bool.false_eq_true, if_false]
    rcases buildStructFile t.toWorld args.toBuildArgs j.ref j.name pkg j.embeds fs with ⟨x, fs1⟩
    cases x with
    | ok u => exact steps_off h jobs fs1
    | err => rfl
    | panic => rfl

/-- Without these options, only the structs of C65 are generated. -/
theorem C85_off (h1 : args.generateGraphQL = false) (h2 : args.generateAvro = false) (h3 : args.generateMessagePack = false) (fs : Files) :
    buildAll t args fs = buildStructs t.toWorld args.toBuildArgs fs := by
  unfold buildAll buildStructs
  cases buildPlan t.toWorld args.toBuildArgs with
  | err => rfl
  | panic => rfl
  | ok x =>
    obtain ⟨dir, refs, oneOf⟩ := x
    have e : buildFiles t.toWorld (withDirs args dir).toBuildArgs refs oneOf fs =
        runSteps t (withDirs args dir) (pathBase dir) (jobsOf t.toWorld (withDirs args dir).toBuildArgs refs oneOf) fs := by
      rw [steps_off (args := withDirs args dir) h2, buildFiles_jobs]; rfl
    show allSteps t (withDirs args dir) refs oneOf fs = buildFiles t.toWorld (withDirs args dir).toBuildArgs refs oneOf fs
    rw [e]
    have g1 : (withDirs args dir).generateGraphQL = false := h1
    have g3 : (withDirs args dir).generateMessagePack = false := h3
    simp only [allSteps, Act.next, Act.when, g1, g3, Bool.false_eq_true, if_false, struct_steps]
    show (match runSteps t (withDirs args dir) (pathBase dir) (jobsOf t.toWorld (withDirs args dir).toBuildArgs refs oneOf) fs with
      | (Res.ok _, fs) => (Res.ok (), fs)
      | (Res.err, fs) => (Res.err, fs)
      | (Res.panic, fs) => (Res.panic, fs)) = _
    rcases runSteps t (withDirs args dir) (pathBase dir) (jobsOf t.toWorld (withDirs args dir).toBuildArgs refs oneOf) fs with ⟨x, fs1⟩
    cases x <;> rfl

/-- What is read and planned. -/
theorem all_plan {fs : Files} {r : Res Unit × Files} (h : buildAll t args fs = r) : r = (.err, fs) ∨ r = (.panic, fs) ∨
    ∃ doc dir refs, outputDir t.toWorld args.toBuildArgs = .ok dir ∧ t.read args.schemaPath = .ok doc ∧ Spec.Commons doc (t.abs args.schemaPath) refs ∧
      buildPlan t.toWorld args.toBuildArgs = .ok (dir, refs, refsIn doc g!"oneOf") ∧ allSteps t (withDirs args dir) refs (refsIn doc g!"oneOf") fs = r := by
  unfold buildAll at h
  split at h
  · rename_i dir refs oneOf hp
    obtain ⟨doc, hd, hr, hc, rfl⟩ := plan_of hp
    exact .inr (.inr ⟨doc, dir, refs, hd, hr, hc, hp, h⟩)
  · exact .inl h.symm
  · exact .inr (.inl h.symm)

/-- Whether it succeeds or not, only the files for entries of the schema and those for the options are touched. -/
theorem C85_others {fs : Files} {p : Str} (ht : Tidy t) (hp : (buildAll t args fs).2 p ≠ fs p) :
    ∃ doc dir jobs, t.read args.schemaPath = .ok doc ∧ Spec.Dir args.toBuildArgs t.getwd dir ∧ Spec.Jobs t.title args.structNames doc (t.abs args.schemaPath) jobs ∧
      (TidyJobs t args.toBuildArgs jobs → (∃ j ∈ jobs, Spec.FileFor dir (resolve args.toBuildArgs j.ref) p) ∨ Extra args dir p) := by
  rcases all_plan (r := buildAll t args fs) rfl with h | h | ⟨doc, dir, refs, hd, hr, hc, _, h⟩
  · rw [h] at hp; exact absurd rfl hp
  · rw [h] at hp; exact absurd rfl hp
  · refine ⟨doc, dir, _, hr, dir_of hd, jobs_of (w := t.toWorld) (args := (withDirs args dir).toBuildArgs) hc, fun hj => ?_⟩
    apply Classical.byContradiction
    intro hno
    refine hp ?_
    rw [← h]
    have hts : Touches (fun p => (∃ j ∈ jobsOf t.toWorld (withDirs args dir).toBuildArgs refs (refsIn doc g!"oneOf"), Spec.FileFor dir (resolve args.toBuildArgs j.ref) p) ∨
        Extra args dir p) (allSteps t (withDirs args dir) refs (refsIn doc g!"oneOf")) := by
      refine .next (.when fun hg => (touches_graphql (args := args) ht hg).mono fun p h => .inr h) (.next ?_ (.when fun hg => (touches_msgp (args := args) ht hg).mono fun p h => .inr h))
      have hrun := run_touches (t := t) (args := withDirs args dir) (pkg := pathBase dir)
        (S := fun p => (∃ j ∈ jobsOf t.toWorld (withDirs args dir).toBuildArgs refs (refsIn doc g!"oneOf"), Spec.FileFor dir (resolve args.toBuildArgs j.ref) p) ∨ Extra args dir p)
        (jobs := jobsOf t.toWorld (withDirs args dir).toBuildArgs refs (refsIn doc g!"oneOf")) fun j hm =>
          ⟨.inl ⟨j, hm, fileFor_iff.2 rfl⟩, fun hg => (touches_avro ht (job_stem (hj j hm).1) (hj j hm).2).mono fun p h => .inr (.avro hg (hj j hm).2 h)⟩
      intro fs p hp
      have := hrun fs p hp
      rw [← this, ← struct_steps]
      rfl
    exact hts fs p hno

theorem all_ok {fs fs' : Files} {u : Unit} (ht : Tidy t) (h : buildAll t args fs = (.ok u, fs')) :
    ∃ doc dir refs, t.read args.schemaPath = .ok doc ∧ Spec.Dir args.toBuildArgs t.getwd dir ∧ Spec.Commons doc (t.abs args.schemaPath) refs ∧
      ∃ fs1 fs3 v1 v3 v4, Agree (Extra args dir) fs1 fs ∧
        runSteps t (withDirs args dir) (pathBase dir) (jobsOf t.toWorld (withDirs args dir).toBuildArgs refs (refsIn doc g!"oneOf")) fs1 = (.ok v3, fs3) ∧
        Act.when args.generateMessagePack (msgpStep t (withDirs args dir)) fs3 = (.ok v4, fs') ∧
        (TidyJobs t args.toBuildArgs (jobsOf t.toWorld (withDirs args dir).toBuildArgs refs (refsIn doc g!"oneOf")) → ∃ fs2,
          buildStructs t.toWorld args.toBuildArgs fs = (.ok v1, fs2) ∧
          runJobs t.toWorld (withDirs args dir).toBuildArgs (pathBase dir) (jobsOf t.toWorld (withDirs args dir).toBuildArgs refs (refsIn doc g!"oneOf")) fs = (.ok v1, fs2) ∧
          Agree (Extra args dir) fs' fs2) := by
  rcases all_plan h with h | h | ⟨doc, dir, refs, hd, hr, hc, hpl, h⟩
  · cases h
  · cases h
  · obtain ⟨_, fs1, h1, h⟩ := next_ok h
    obtain ⟨v3, fs3, h2, h3⟩ := next_ok h
    have a1 : Agree (Extra args dir) fs1 fs := by
      have := Agree.touch (S := Extra args dir) (a := Act.when (withDirs args dir).generateGraphQL (graphqlStep t (withDirs args dir) (pathBase (withDirs args dir).outputDir)))
        (fs := fs) (fs' := fs) (.when fun hg => touches_graphql (args := args) ht hg) (fun _ _ => rfl)
      rw [h1] at this
      exact this
    rw [struct_steps] at h2
    refine ⟨doc, dir, refs, hr, dir_of hd, hc, fs1, fs3, (), v3, u, a1, h2, h3, fun hj => ?_⟩
    obtain ⟨v, fs2, h4, a2⟩ := run_agree (t := t) (args := withDirs args dir) (S := Extra args dir)
      (fun j hm hg => (touches_avro ht (job_stem (hj j hm).1) (hj j hm).2).mono fun p h => .avro hg (hj j hm).2 h) a1 h2
    refine ⟨fs2, ?_, h4, ?_⟩
    · unfold buildStructs
      rw [hpl]
      simp only []
      rw [buildFiles_jobs]
      exact h4
    · have := Agree.touch (S := Extra args dir) (a := Act.when (withDirs args dir).generateMessagePack (msgpStep t (withDirs args dir)))
        (.when fun hg => touches_msgp (args := args) ht hg) a2
      rw [h3] at this
      exact this

/-! ### Different files -/

theorem render_inj {b : Bool} {k l : List Str} (hk : k ≠ []) (hl : l ≠ []) (h1 : ∀ y ∈ k, '/' ∉ y) (h2 : ∀ y ∈ l, '/' ∉ y) (h : render b k = render b l) : k = l := by
  have := congrArg (splitC '/') h
  rw [split_render hk h1, split_render hl h2] at this
  exact List.append_cancel_left this

/-- The paths below a directory, by their elements. -/
structure Below (dir : Str) (path : List Str → Str) : Prop where
  one : ∀ x, Elem x → joinPath dir x = path [x]
  three : ∀ a s f, Elem a → Elem s → Elem f → joinPath (joinPath (joinPath dir a) s) f = path [a, s, f]
  inj : ∀ k l, (∀ y ∈ k, Elem y) → (∀ y ∈ l, Elem y) → k ≠ [] → l ≠ [] → path k = path l → k = l

theorem below (dir : Str) : ∃ path, Below dir path := by
  obtain ⟨b, out, hc, hj⟩ := joinPath_render dir
  refine ⟨fun l => render b (out.reverse ++ l), hj, fun a s f ha hs hf => ?_, fun k l hk hl hk0 hl0 h => ?_⟩
  · rw [hj a ha, joinPath_again hc ha hs]
    have := joinPath_again (b := b) (out := a :: out) (e := s) (x := f) (.name ha hc) hs hf
    simpa only [List.reverse_cons, List.append_assoc, List.singleton_append] using this
  · have ho : ∀ y ∈ out.reverse, '/' ∉ y := fun y hy => (hc.noSlash y (List.mem_reverse.1 hy)).1
    refine List.append_cancel_left (render_inj (by simp [hk0]) (by simp [hl0]) ?_ ?_ h)
    · intro y hy
      rcases List.mem_append.1 hy with hy | hy
      · exact ho y hy
      · exact (hk y hy).1
    · intro y hy
      rcases List.mem_append.1 hy with hy | hy
      · exact ho y hy
      · exact (hl y hy).1

/-- The elements of the path of an Avro file. -/
theorem avro_elems {dir x p : Str} {path : List Str → Str} (hb : Below dir path) (hx : BareName x) (h : AvroFile dir x p) :
    ∃ l, p = path l ∧ (∀ y ∈ l, Elem y) ∧ (l = [x ++ g!".avsc"] ∨ l = [x ++ g!"_avro.go"] ∨ l = [x ++ g!"_avro_test.go"] ∨ ∃ f, l = [g!"avro", x, f]) := by
  have e : ∀ s : Str, '/' ∉ s → 2 < s.length → ∀ y ∈ [x ++ s], Elem y := fun s h1 h2 y hy => List.mem_singleton.1 hy ▸ elem_suffix hx.2.1 h1 h2
  cases h with
  | schema => exact ⟨_, hb.one _ (elem_suffix hx.2.1 (by decide) (by decide)), e _ (by decide) (by decide), .inl rfl⟩
  | helper => exact ⟨_, hb.one _ (elem_suffix hx.2.1 (by decide) (by decide)), e _ (by decide) (by decide), .inr (.inl rfl)⟩
  | tests => exact ⟨_, hb.one _ (elem_suffix hx.2.1 (by decide) (by decide)), e _ (by decide) (by decide), .inr (.inr (.inl rfl))⟩
  | code hf =>
    refine ⟨_, hb.three _ _ _ elem_avro (BareName.elem hx) hf, ?_, .inr (.inr (.inr ⟨_, rfl⟩))⟩
    intro y hy
    simp only [List.mem_cons, List.not_mem_nil, or_false] at hy
    rcases hy with rfl | rfl | rfl
    · exact elem_avro
    · exact BareName.elem hx
    · exact hf

theorem suffix_ne {x y s s' : Str} (h : s.reverse.take 6 ≠ s'.reverse.take 6) (h1 : 6 ≤ s.length) (h2 : 6 ≤ s'.length) : x ++ s ≠ y ++ s' := by
  intro e
  have := congrArg (fun l => l.reverse.take 6) e
  simp only [List.reverse_append] at this
  rw [List.take_append_of_le_length (by simpa using h1), List.take_append_of_le_length (by simpa using h2)] at this
  exact h this

theorem last_ne {x y s s' : Str} (h : s.getLast? ≠ s'.getLast?) (h1 : s ≠ []) (h2 : s' ≠ []) : x ++ s ≠ y ++ s' := by
  intro e
  have := congrArg List.getLast? e
  rw [List.getLast?_append, List.getLast?_append] at this
  obtain ⟨a, ha⟩ := Option.ne_none_iff_exists'.1 (fun h => h1 (List.getLast?_eq_none_iff.1 h))
  obtain ⟨b, hb⟩ := Option.ne_none_iff_exists'.1 (fun h => h2 (List.getLast?_eq_none_iff.1 h))
  rw [ha, hb] at this h
  exact h this

/-- Structs with different names have different Avro files. -/
theorem avro_disjoint {dir x y p : Str} (hx : BareName x) (hy : BareName y) (h : AvroFile dir x p) (h' : AvroFile dir y p) : x = y := by
  obtain ⟨path, hb⟩ := below dir
  obtain ⟨k, rfl, ek, hk⟩ := avro_elems hb hx h
  obtain ⟨l, e, el, hl⟩ := avro_elems hb hy h'
  have hkne : k ≠ [] := by rcases hk with rfl | rfl | rfl | ⟨f, rfl⟩ <;> simp
  have hlne : l ≠ [] := by rcases hl with rfl | rfl | rfl | ⟨f, rfl⟩ <;> simp
  have e := hb.inj _ _ ek el hkne hlne e
  rcases hk with rfl | rfl | rfl | ⟨f, rfl⟩ <;> rcases hl with rfl | rfl | rfl | ⟨f', rfl⟩ <;>
    simp only [List.cons.injEq, and_true, reduceCtorEq, and_false] at e
  · exact List.append_cancel_right e
  · exact absurd e (last_ne (by decide) (by decide) (by decide))
  · exact absurd e (last_ne (by decide) (by decide) (by decide))
  · exact absurd e (last_ne (by decide) (by decide) (by decide))
  · exact List.append_cancel_right e
  · exact absurd e (suffix_ne (by decide) (by decide) (by decide))
  · exact absurd e (last_ne (by decide) (by decide) (by decide))
  · exact absurd e (suffix_ne (by decide) (by decide) (by decide))
  · exact List.append_cancel_right e
  · exact e.2.1

namespace Spec
/-- Base names for which the file of the struct is called like one for an option. -/
def Reserved (stem : Str) : Prop := g!"_avro" <:+ stem ∨ g!"_avro_test" <:+ stem ∨ g!"_msgp" <:+ stem ∨ g!"_msgp_test" <:+ stem
end Spec

/-- The file of a struct is not one for an option. -/
theorem struct_not_extra {dir stem : Str} (hs : '/' ∉ stem) (hr : ¬ Reserved stem) : ¬ Extra args dir (joinPath dir (stem ++ g!".go")) := by
  have key : ∀ x s : Str, '/' ∉ x → '/' ∉ s → 2 < (s ++ g!".go").length → joinPath dir (stem ++ g!".go") = joinPath dir (x ++ (s ++ g!".go")) → s <:+ stem := by
    intro x s hx hs' hl e
    have := joinPath_inj (elem_suffix hs (by decide) (by decide)) (elem_suffix hx (by simp [hs']) hl) e
    rw [← List.append_assoc] at this
    exact ⟨x, (List.append_cancel_right this).symm⟩
  generalize hp : joinPath dir (stem ++ g!".go") = p
  intro h
  cases h with
  | @graphql d x _ _ hx =>
    obtain ⟨p1, h1⟩ := joinPath_elem dir
    obtain ⟨p2, h2⟩ := joinPath_elem d
    rw [h1 _ (elem_suffix hs (by decide) (by decide)), h2 _ (elem_suffix hx (by decide) (by decide)), ← List.append_assoc, ← List.append_assoc] at hp
    exact last_ne (by decide) (by decide) (by decide) hp
  | avro _ hx ha =>
    obtain ⟨path, hb⟩ := below dir
    obtain ⟨k, rfl, ek, hk⟩ := avro_elems hb hx ha
    rcases hk with rfl | rfl | rfl | ⟨f, rfl⟩
    · rw [← hb.one _ (elem_suffix hx.2.1 (by decide) (by decide))] at hp
      exact last_ne (by decide) (by decide) (by decide) (joinPath_inj (elem_suffix hs (by decide) (by decide)) (elem_suffix hx.2.1 (by decide) (by decide)) hp)
    · rw [← hb.one _ (elem_suffix hx.2.1 (by decide) (by decide))] at hp
      exact hr (.inl (key _ g!"_avro" hx.2.1 (by decide) (by decide) hp))
    · rw [← hb.one _ (elem_suffix hx.2.1 (by decide) (by decide))] at hp
      exact hr (.inr (.inl (key _ g!"_avro_test" hx.2.1 (by decide) (by decide) hp)))
    · rw [hb.one _ (elem_suffix hs (by decide) (by decide))] at hp
      have := hb.inj _ _ (fun y hy => List.mem_singleton.1 hy ▸ elem_suffix hs (by decide) (by decide)) ek (by simp) (by simp) hp
      simp at this
  | pack _ hx => exact hr (.inr (.inr (.inl (key _ g!"_msgp" hx (by decide) (by decide) hp))))
  | packTests _ hx => exact hr (.inr (.inr (.inr (key _ g!"_msgp_test" hx (by decide) (by decide) hp))))

/-- **C85**, partial: if it succeeds, then generating only the structs does so, too, and all files but those for the options are the same.  In particular the files of the
structs are those of C65, if no schema file has a reserved name (`C85_refuted`). -/
theorem C85_partial {fs fs' : Files} {u : Unit} (ht : Tidy t) (h : buildAll t args fs = (.ok u, fs')) :
    ∃ doc dir jobs, t.read args.schemaPath = .ok doc ∧ Spec.Dir args.toBuildArgs t.getwd dir ∧ Spec.Jobs t.title args.structNames doc (t.abs args.schemaPath) jobs ∧
      (TidyJobs t args.toBuildArgs jobs →
        (∃ v fs2, buildStructs t.toWorld args.toBuildArgs fs = (.ok v, fs2) ∧ ∀ p, ¬ Extra args dir p → fs' p = fs2 p) ∧
        ∀ stems, Spec.Stems args.toBuildArgs jobs stems → stems.Nodup → (∀ s ∈ stems, ¬ Reserved s) → ∀ j ∈ jobs, ∀ file, Spec.FileFor dir (resolve args.toBuildArgs j.ref) file →
          ∃ c, GoCodeFor t.toWorld (withDirs args dir).toBuildArgs (pathBase dir) j c ∧ fs' file = some c) := by
  obtain ⟨doc, dir, refs, hr, hd, hc, fs1, fs3, v1, v3, v4, a1, h1, h2, h3⟩ := all_ok ht h
  refine ⟨doc, dir, _, hr, hd, jobs_of (w := t.toWorld) (args := (withDirs args dir).toBuildArgs) hc, fun hj => ?_⟩
  obtain ⟨fs2, b1, b2, b3⟩ := h3 hj
  refine ⟨⟨v1, fs2, b1, b3⟩, fun stems hs hn hres j hm file hf => ?_⟩
  have hsl : ∀ s ∈ stems, '/' ∉ s := by
    intro s hm
    rw [stems_eq hs] at hm
    obtain ⟨j', hj', rfl⟩ := List.mem_map.1 hm
    exact job_stem (hj j' hj').1
  obtain ⟨l, r, e, hlast⟩ := split_mem (outs_nodup (dir := dir) hs hn hsl) hm
  rw [fileFor_iff] at hf
  subst hf
  obtain ⟨c, g1, g2⟩ := run_ok _ fs b2 l j r e hlast
  refine ⟨c, g1.code, ?_⟩
  rw [← g2]
  refine b3 _ (struct_not_extra (job_stem (hj j hm).1) (hres _ ?_))
  rw [stems_eq hs]
  exact List.mem_map.2 ⟨j, hm, rfl⟩

/-! ### The Avro files -/

theorem put_ok {path : Str} {c : Content} {fs fs' : Files} {u : Unit} (h : t.putFile path c fs = (.ok u, fs')) : fs' = fs.put path c := by
  unfold Tools.putFile at h
  split at h
  · simp only [Prod.mk.injEq] at h; exact h.2.symm
  · cases h

theorem from_ok {α : Type} {make : Files → Res α} {use : α → Act} {fs fs' : Files} {u : Unit} (h : Act.from make use fs = (.ok u, fs')) :
    ∃ x, make fs = .ok x ∧ use x fs = (.ok u, fs') := by
  unfold Act.from at h
  split at h
  · exact ⟨_, ‹_›, h⟩
  · cases h
  · cases h

theorem put_self {fs : Files} {p : Str} {c : Content} : (fs.put p c) p = some c := if_pos rfl

theorem put_ne {fs : Files} {p q : Str} {c : Content} (h : q ≠ p) : (fs.put p c) q = fs q := if_neg h

theorem foldl_put_mem {g : Str → Str} : ∀ {l : List (Str × Content)} {fs : Files}, (l.map fun f => g f.1).Nodup → ∀ f ∈ l,
    ((l.map fun f => (g f.1, f.2)).foldl (fun fs f => Files.put fs f.1 f.2) fs) (g f.1) = some f.2
  | f :: l, fs, hn, k, hk => by
    rw [List.map_cons, List.nodup_cons] at hn
    rw [List.map_cons, List.foldl_cons]
    rcases List.mem_cons.1 hk with rfl | hk
    · rw [foldl_put (S := fun p => p ≠ g k.1) ?_ (by simp)]
      · exact put_self
      · intro x hx e
        obtain ⟨y, hy, rfl⟩ := List.mem_map.1 hx
        exact hn.1 (List.mem_map.2 ⟨y, hy, e⟩)
    · exact foldl_put_mem hn.2 k hk

namespace Spec
/-- Each of the structs is in its file. -/
def AllWritten (w : World) (args : BuildArgs) (dir pkg : Str) (jobs : List Spec.Job) (fs : Files) : Prop :=
  ∀ j ∈ jobs, ∀ file, Spec.FileFor dir (resolve args j.ref) file → ∃ c, GoCodeFor w args pkg j c ∧ fs file = some c

/-- What is on disk for a struct: the Avro schema is made from files with some property, the serialization code from the Avro schema, and the helper code again from files with
the property. -/
structure AvroFiles (t : Tools) (args : AllArgs) (dir name file : Str) (has : Files → Prop) (fs : Files) : Prop where
  schema : ∃ s, (∃ fs1 : Files, has fs1 ∧ t.avsc (t.title name) file fs1 = .ok s) ∧ fs (joinPath dir (t.lower (t.title name) ++ g!".avsc")) = some s ∧
    (t.gogen args.fieldNames (t.lower (t.title name)) (some s)).2 = .ok () ∧
    (((t.gogen args.fieldNames (t.lower (t.title name)) (some s)).1.map fun f => f.1).Nodup →
      ∀ f ∈ (t.gogen args.fieldNames (t.lower (t.title name)) (some s)).1, fs (joinPath (joinPath (joinPath dir g!"avro") (t.lower (t.title name))) f.1) = some f.2)
  helper : ∃ code tests, (∃ fs1 : Files, has fs1 ∧ t.helper (t.title name) file args.importPath fs1 = .ok (code, .ok tests)) ∧
    fs (joinPath dir (t.lower (t.title name) ++ g!"_avro.go")) = some code ∧ fs (joinPath dir (t.lower (t.title name) ++ g!"_avro_test.go")) = some tests
end Spec

theorem code_inj {dir a x f g : Str} (ha : Elem a) (hx : Elem x) (hf : Elem f) (hg : Elem g) (h : joinPath (joinPath (joinPath dir a) x) f = joinPath (joinPath (joinPath dir a) x) g) :
    f = g := by
  obtain ⟨path, hb⟩ := below dir
  rw [hb.three _ _ _ ha hx hf, hb.three _ _ _ ha hx hg] at h
  have := hb.inj _ _ (by simp [ha, hx, hf]) (by simp [ha, hx, hg]) (by simp) (by simp) h
  simpa using this

theorem nodup_names {g : Str → Str} : ∀ {l : List (Str × Content)}, (l.map fun f => f.1).Nodup → (∀ a ∈ l, ∀ b ∈ l, g a.1 = g b.1 → a.1 = b.1) → (l.map fun f => g f.1).Nodup
  | [], _, _ => List.nodup_nil
  | f :: l, hn, hg => by
    rw [List.map_cons, List.nodup_cons] at hn ⊢
    refine ⟨fun hm => ?_, nodup_names hn.2 fun a ha b hb => hg a (List.mem_cons_of_mem _ ha) b (List.mem_cons_of_mem _ hb)⟩
    obtain ⟨y, hy, e⟩ := List.mem_map.1 hm
    exact hn.1 (List.mem_map.2 ⟨y, hy, hg y (List.mem_cons_of_mem _ hy) f List.mem_cons_self e⟩)

/-- The Avro files of one struct. -/
theorem avro_ok {dir path name : Str} {has : Files → Prop} {fs fs' : Files} {u : Unit} (ht : Tidy t) (hp : '/' ∉ subName path)
    (hn : BareName (t.lower (t.title name))) (hhas : ∀ fs1 : Files, (∀ q, ¬ AvroFile dir (t.lower (t.title name)) q → fs1 q = fs q) → has fs1) (h : avroStep t args name (outPath dir path) fs = (.ok u, fs')) :
    AvroFiles t args dir name (outPath dir path) has fs' := by
  have e1 : Elem (t.lower (t.title name) ++ g!".avsc") := elem_suffix hn.2.1 (by decide) (by decide)
  have e2 : Elem (t.lower (t.title name) ++ g!"_avro.go") := elem_suffix hn.2.1 (by decide) (by decide)
  have e3 : Elem (t.lower (t.title name) ++ g!"_avro_test.go") := elem_suffix hn.2.1 (by decide) (by decide)
  obtain ⟨_, fs1, h1, h⟩ := next_ok h
  obtain ⟨_, fs2, h2, h3⟩ := next_ok h
  obtain ⟨s, hs, h1⟩ := from_ok h1
  have h1 := put_ok h1
  rw [avsc_path hp hn] at h1 h2
  unfold gogenStep writeAll at h2
  simp only [Prod.mk.injEq] at h2
  have hg1 : fs1 (joinPath dir (t.lower (t.title name) ++ g!".avsc")) = some s := by rw [h1]; exact put_self
  rw [hg1, gogen_dir hn, subName_join hn (by decide) (by decide)] at h2
  obtain ⟨h2, h2'⟩ := h2
  have k2 : ∀ q, (∀ f, Elem f → q ≠ joinPath (joinPath (joinPath dir g!"avro") (t.lower (t.title name))) f) → fs2 q = fs1 q := by
    intro q hq
    rw [← h2']
    refine foldl_put (S := fun p => ∃ f, Elem f ∧ p = joinPath (joinPath (joinPath dir g!"avro") (t.lower (t.title name))) f) ?_ fun ⟨f, hf, e⟩ => hq f hf e
    intro f hf
    obtain ⟨k, hk, rfl⟩ := List.mem_map.1 hf
    exact ⟨k.1, ht.gogen _ _ _ k hk, rfl⟩
  obtain ⟨x, hx, h3⟩ := from_ok h3
  obtain ⟨code, tests⟩ := x
  obtain ⟨_, fs3, h4', h5⟩ := next_ok h3
  have h4 := put_ok h4'
  clear h4'
  obtain ⟨tests', ht', h6⟩ := from_ok h5
  clear h5
  have h5 := put_ok h6
  simp only at ht' h4
  subst ht'
  rw [beside hp e2] at h4
  rw [beside hp e3] at h5
  have hfinal : ∀ q, q ≠ joinPath dir (t.lower (t.title name) ++ g!"_avro.go") → q ≠ joinPath dir (t.lower (t.title name) ++ g!"_avro_test.go") → fs' q = fs2 q := by
    intro q q1 q2
    rw [h5, put_ne q2, h4, put_ne q1]
  have hstruct : has fs2 := by
    refine hhas _ fun q hq => ?_
    rw [k2 q fun f hf e => hq (by rw [e]; exact .code hf), h1, put_ne fun e => hq (by rw [e]; exact .schema)]
  refine ⟨⟨s, ⟨fs, hhas _ fun _ _ => rfl, hs⟩, ?_, h2, fun hnd f hf => ?_⟩, code, tests', ⟨fs2, hstruct, hx⟩, ?_, ?_⟩
  · rw [hfinal, k2, hg1]
    · exact fun f hf => (joinPath_below elem_avro (BareName.elem hn) hf e1).symm
    · exact fun e => absurd (joinPath_inj e1 e2 e) (last_ne (by decide) (by decide) (by decide))
    · exact fun e => absurd (joinPath_inj e1 e3 e) (last_ne (by decide) (by decide) (by decide))
  · have he := ht.gogen _ _ _ f hf
    rw [hfinal, ← h2']
    · refine foldl_put_mem (g := fun n => joinPath (joinPath (joinPath dir g!"avro") (t.lower (t.title name))) n) (nodup_names hnd ?_) f hf
      exact fun a ha b hb e => code_inj elem_avro (BareName.elem hn) (ht.gogen _ _ _ a ha) (ht.gogen _ _ _ b hb) e
    · exact joinPath_below elem_avro (BareName.elem hn) he e2
    · exact joinPath_below elem_avro (BareName.elem hn) he e3
  · rw [h5, put_ne, h4, put_self]
    exact fun e => absurd (joinPath_inj e2 e3 e) (suffix_ne (by decide) (by decide) (by decide))
  · rw [h5, put_self]

/-- The Avro files are kept by steps that leave them alone. -/
theorem AvroFiles.keep {dir name file : Str} {has : Files → Prop} {fs fs' : Files} (ht : Tidy t) (h : AvroFiles t args dir name file has fs)
    (hk : ∀ p, AvroFile dir (t.lower (t.title name)) p → fs' p = fs p) : AvroFiles t args dir name file has fs' := by
  obtain ⟨⟨s, h1, h2, h3, h4⟩, code, tests, h5, h6, h7⟩ := h
  refine ⟨⟨s, h1, (hk _ .schema).trans h2, h3, fun hn f hf => (hk _ (.code (ht.gogen _ _ _ f hf))).trans (h4 hn f hf)⟩, code, tests, h5, (hk _ .helper).trans h6, (hk _ .tests).trans h7⟩

theorem avro_not_pack {dir x p y s : Str} (hx : BareName x) (hy : '/' ∉ y) (hs : s = g!"_msgp.go" ∨ s = g!"_msgp_test.go") (h : AvroFile dir x p) : p ≠ joinPath dir (y ++ s) := by
  obtain ⟨path, hb⟩ := below dir
  obtain ⟨k, rfl, ek, hk⟩ := avro_elems hb hx h
  have hE : Elem (y ++ s) := by rcases hs with rfl | rfl <;> exact elem_suffix hy (by decide) (by decide)
  intro e
  rw [hb.one _ hE] at e
  have e := hb.inj _ _ ek (by simpa using hE) (by rcases hk with rfl | rfl | rfl | ⟨f, rfl⟩ <;> simp) (by simp) e
  rcases hk with rfl | rfl | rfl | ⟨f, rfl⟩
  · rcases hs with rfl | rfl <;> exact last_ne (by decide) (by decide) (by decide) (List.cons.inj e).1
  · rcases hs with rfl | rfl
    · have := congrArg List.reverse (List.cons.inj e).1
      simp [List.reverse_append] at this
    · exact suffix_ne (by decide) (by decide) (by decide) (List.cons.inj e).1
  · rcases hs with rfl | rfl
    · exact suffix_ne (by decide) (by decide) (by decide) (List.cons.inj e).1
    · have := congrArg List.reverse (List.cons.inj e).1
      simp [List.reverse_append] at this
  · simp at e

theorem code_unique {w : World} {a : BuildArgs} {pkg : Str} {j : Spec.Job} {c c' : Content} (h : GoCodeFor w a pkg j c) (h' : GoCodeFor w a pkg j c') : c = c' := by
  obtain ⟨i, g, h1, h2, _, rfl⟩ := h
  obtain ⟨i', g', h1', h2', _, rfl⟩ := h'
  cases Res.ok.inj (h1.symm.trans h1')
  cases Res.ok.inj (h2.symm.trans h2')
  rfl

/-- Structs that are generated one after the other are all in their files. -/
theorem run_written {dir : Str} {jobs : List Spec.Job} {fs fs' : Files} {v : Unit} (ht : Tidy t) (hj : TidyJobs t args.toBuildArgs jobs)
    (hresv : ∀ j ∈ jobs, ¬ Reserved (subName (resolve args.toBuildArgs j.ref))) (houts : (jobs.map fun j => outPath dir (resolve args.toBuildArgs j.ref)).Nodup)
    (h : runSteps t (withDirs args dir) (pathBase dir) jobs fs = (.ok v, fs')) : AllWritten t.toWorld (withDirs args dir).toBuildArgs dir (pathBase dir) jobs fs' := by
  intro j hm file hf
  rw [fileFor_iff] at hf
  subst hf
  obtain ⟨l, r, e⟩ := List.append_of_mem hm
  subst e
  rw [runSteps_append] at h
  obtain ⟨_, fs4, _, h1⟩ := next_ok h
  obtain ⟨_, fs5, h5, h6⟩ := next_ok h1
  obtain ⟨_, fs6, h7, h8⟩ := next_ok h5
  obtain ⟨c, g1, g2⟩ := build_ok h7
  have g2 : fs6 (outPath dir (resolve args.toBuildArgs j.ref)) = some c := g2
  refine ⟨c, g1.code, ?_⟩
  have hst := job_stem (hj j hm).1
  have hno : ∀ j' ∈ l ++ j :: r, ∀ q, AvroFile dir (t.lower (t.title j'.name)) q → q ≠ outPath dir (resolve args.toBuildArgs j.ref) := by
    rintro j' hm' q hq rfl
    exact struct_not_extra (args := { args with generateAvro := true }) hst (hresv j hm) (.avro rfl (hj j' hm').2 hq)
  have hS : Touches (fun q => q ≠ outPath dir (resolve args.toBuildArgs j.ref)) (runSteps t (withDirs args dir) (pathBase dir) r) := by
    refine run_touches (args := withDirs args dir) fun j' hj' => ?_
    have hm' : j' ∈ l ++ j :: r := List.mem_append_right _ (List.mem_cons_of_mem _ hj')
    refine ⟨?_, fun _ => (touches_avro (args := withDirs args dir) (dir := dir) ht (job_stem (hj j' hm').1) (hj j' hm').2).mono (hno j' hm')⟩
    rw [List.map_append, List.map_cons] at houts
    exact fun e => (List.nodup_cons.1 (List.nodup_append.1 houts).2.1).1 (List.mem_map.2 ⟨j', hj', e⟩)
  have k0 := Touches.when (S := AvroFile dir (t.lower (t.title j.name))) (c := (withDirs args dir).generateAvro) (fun _ =>
    touches_avro (args := withDirs args dir) (dir := dir) ht hst (hj j hm).2) fs6 (outPath dir (resolve args.toBuildArgs j.ref)) fun hq => hno j hm _ hq rfl
  have h8 : Act.when args.generateAvro (avroStep t (withDirs args dir) j.name (outPath dir (resolve args.toBuildArgs j.ref))) fs6 = (.ok _, fs5) := h8
  have k1 := hS fs5 (outPath dir (resolve args.toBuildArgs j.ref)) (by simp)
  rw [h6] at k1
  have k0 : fs5 (outPath dir (resolve args.toBuildArgs j.ref)) = fs6 (outPath dir (resolve args.toBuildArgs j.ref)) := by
    rw [show Act.when (withDirs args dir).generateAvro (avroStep t (withDirs args dir) j.name (outPath dir (resolve args.toBuildArgs j.ref))) fs6 = _ from h8] at k0
    exact k0
  exact k1.trans (k0.trans g2)

/-- **C85** for Avro: if it succeeds, every struct has its Avro schema and the code for it, made from files in which the struct and those generated before it are as written. -/
theorem C85_avro {fs fs' : Files} {u : Unit} (ht : Tidy t) (hg : args.generateAvro = true) (h : buildAll t args fs = (.ok u, fs')) :
    ∃ doc dir jobs, t.read args.schemaPath = .ok doc ∧ Spec.Dir args.toBuildArgs t.getwd dir ∧ Spec.Jobs t.title args.structNames doc (t.abs args.schemaPath) jobs ∧
      ∀ stems, Spec.Stems args.toBuildArgs jobs stems → stems.Nodup → (∀ s ∈ stems, ¬ Reserved s) → TidyJobs t args.toBuildArgs jobs →
        (jobs.map fun j => t.lower (t.title j.name)).Nodup → ∀ l j r, jobs = l ++ j :: r → ∀ file, Spec.FileFor dir (resolve args.toBuildArgs j.ref) file →
          ∃ c, GoCodeFor t.toWorld (withDirs args dir).toBuildArgs (pathBase dir) j c ∧ fs' file = some c ∧ AvroFiles t args dir j.name file
            (fun fs1 => fs1 file = some c ∧ AllWritten t.toWorld (withDirs args dir).toBuildArgs dir (pathBase dir) l fs1) fs' := by
  obtain ⟨doc, dir, refs, hr, hd, hc, fs1, fs3, v1, v3, v4, a1, h1, h2, h3⟩ := all_ok ht h
  refine ⟨doc, dir, _, hr, hd, jobs_of (w := t.toWorld) (args := (withDirs args dir).toBuildArgs) hc, fun stems hs hn hres hj hnames l j r e file hf => ?_⟩
  have hsl : ∀ s ∈ stems, '/' ∉ s := by
    intro s hm
    rw [stems_eq hs] at hm
    obtain ⟨j', hj', rfl⟩ := List.mem_map.1 hm
    exact job_stem (hj j' hj').1
  have hresv : ∀ j ∈ jobsOf t.toWorld (withDirs args dir).toBuildArgs refs (refsIn doc g!"oneOf"), ¬ Reserved (subName (resolve args.toBuildArgs j.ref)) := by
    intro j hm
    refine hres _ ?_
    rw [stems_eq hs]
    exact List.mem_map.2 ⟨j, hm, rfl⟩
  rw [fileFor_iff] at hf
  subst hf
  have houts := outs_nodup (dir := dir) hs hn hsl
  generalize hjobs : jobsOf t.toWorld (withDirs args dir).toBuildArgs refs (refsIn doc g!"oneOf") = jobs at *
  subst e
  have hm : j ∈ l ++ j :: r := List.mem_append_right _ List.mem_cons_self
  have hall := run_written ht hj hresv houts h1
  rw [runSteps_append] at h1
  obtain ⟨_, fs4, h4, h1⟩ := next_ok h1
  obtain ⟨_, fs5, h5, h6⟩ := next_ok h1
  obtain ⟨_, fs6, h7, h8⟩ := next_ok h5
  have h8 : Act.when args.generateAvro (avroStep t (withDirs args dir) j.name (outPath dir (resolve args.toBuildArgs j.ref))) fs6 = (.ok _, fs5) := h8
  rw [hg] at h8
  simp only [Act.when, if_true] at h8
  obtain ⟨c, g1, g2⟩ := build_ok h7
  have g2 : fs6 (outPath dir (resolve args.toBuildArgs j.ref)) = some c := g2
  have hst := job_stem (hj j hm).1
  have hx : ∀ p, AvroFile dir (t.lower (t.title j.name)) p → Extra args dir p := fun p hp => .avro hg (hj j hm).2 hp
  have hl : AllWritten t.toWorld (withDirs args dir).toBuildArgs dir (pathBase dir) l fs6 := by
    intro j' hj' file hf
    obtain ⟨c', i1, i2⟩ := run_written ht (fun x hx => hj x (List.mem_append_left _ hx)) (fun x hx => hresv x (List.mem_append_left _ hx))
      (by rw [List.map_append] at houts; exact (List.nodup_append.1 houts).1) h4 j' hj' file hf
    refine ⟨c', i1, ?_⟩
    have := touches_struct (w := t.toWorld) (a := (withDirs args dir).toBuildArgs) (child := j.ref) (name := j.name) (pkg := pathBase dir) (embeds := j.embeds) fs4 file (by
      rw [fileFor_iff] at hf
      subst hf
      rw [List.map_append, List.map_cons] at houts
      exact (List.nodup_append.1 houts).2.2 _ (List.mem_map.2 ⟨j', hj', rfl⟩) _ List.mem_cons_self)
    rw [h7] at this
    exact this.trans i2
  have hav := avro_ok (args := withDirs args dir) (has := fun fs1 => fs1 (outPath dir (resolve args.toBuildArgs j.ref)) = some c ∧
      AllWritten t.toWorld (withDirs args dir).toBuildArgs dir (pathBase dir) l fs1) ht hst (hj j hm).2 (fun fsA hA => by
    refine ⟨(hA _ fun hq => struct_not_extra hst (hresv j hm) (hx _ hq)).trans g2, fun j' hj' file hf => ?_⟩
    obtain ⟨c', i1, i2⟩ := hl j' hj' file hf
    rw [fileFor_iff] at hf
    subst hf
    have hm' : j' ∈ l ++ j :: r := List.mem_append_left _ hj'
    exact ⟨c', i1, (hA _ fun hq => struct_not_extra (job_stem (hj j' hm').1) (hresv j' hm') (hx _ hq)).trans i2⟩) h8
  have hkeep : ∀ p, AvroFile dir (t.lower (t.title j.name)) p → fs' p = fs5 p := by
    intro p hp
    have hrest : Touches (fun q => ¬ AvroFile dir (t.lower (t.title j.name)) q) (runSteps t (withDirs args dir) (pathBase dir) r) := by
      refine run_touches (args := withDirs args dir) fun j' hj' => ?_
      have hm' : j' ∈ l ++ j :: r := List.mem_append_right _ (List.mem_cons_of_mem _ hj')
      refine ⟨fun hq => struct_not_extra (job_stem (hj j' hm').1) (hresv j' hm') (hx _ hq), fun _ => ?_⟩
      refine (touches_avro (args := withDirs args dir) (dir := dir) ht (job_stem (hj j' hm').1) (hj j' hm').2).mono fun q hq hq' => ?_
      rw [List.map_append, List.map_cons] at hnames
      exact (List.nodup_cons.1 (List.nodup_append.1 hnames).2.1).1 (List.mem_map.2 ⟨j', hj', avro_disjoint (hj j' hm').2 (hj j hm).2 hq hq'⟩)
    have hpack : Touches (fun q => ¬ AvroFile dir (t.lower (t.title j.name)) q) (Act.when args.generateMessagePack (msgpStep t (withDirs args dir))) := by
      refine .when fun _ => touches_from fun fs x hx => ?_
      cases x with
      | none => intro fs p _; rfl
      | some x =>
        have hy := ht.msgp _ _ _ hx
        exact .next (touches_put fun hq => avro_not_pack (hj j hm).2 hy (.inr rfl) hq rfl) (touches_put fun hq => avro_not_pack (hj j hm).2 hy (.inl rfl) hq rfl)
    have k1 := hrest fs5 p (by simpa using hp)
    have k2 := hpack fs3 p (by simpa using hp)
    rw [h6] at k1
    rw [h2] at k2
    exact k2.trans k1
  obtain ⟨c', i1, i2⟩ := hall j hm _ (fileFor_iff.2 rfl)
  have hfs : fs' (outPath dir (resolve args.toBuildArgs j.ref)) = fs3 (outPath dir (resolve args.toBuildArgs j.ref)) := by
    have := Touches.when (S := Extra args dir) (c := args.generateMessagePack) (fun hg => touches_msgp (args := args) ht hg) fs3 (outPath dir (resolve args.toBuildArgs j.ref))
      (struct_not_extra hst (hresv j hm))
    rw [h2] at this
    exact this
  have hcc : c' = c := code_unique i1 g1.code
  subst hcc
  exact ⟨c', g1.code, hfs.trans i2, AvroFiles.keep ht ⟨hav.1, hav.2⟩ hkeep⟩

/-- `BuildStructs` and `BuildStructsRename` generate the structs, with descriptions in the tags, and with the option the MessagePack files. -/
theorem C85_rename {schemaPath outputDir : Str} {names : GMap Str} (fs : Files) :
    buildRename t schemaPath outputDir false names fs = buildStructs t.toWorld ⟨⟨true, false, false, false, names, []⟩, schemaPath, outputDir⟩ fs := C85_off rfl rfl rfl fs

/-! ### Examples -/

namespace C85ex
/-- Lower case for the first letter, for a few letters. -/
def lower : Str → Str
  | [] => []
  | c :: s => (if c = 'A' then 'a' else if c = 'C' then 'c' else if c = 'X' then 'x' else c) :: s
/-- Everything succeeds, with a GraphQL file called after the schema, one file of serialization code for an Avro schema, and a package `p` for msgp. -/
def tools (d : P) : Tools :=
  { C65ex.world d with
    lower := lower
    graphql := fun _ name _ _ => ([(if '/' ∈ name then [] else name, .other g!"graphql")], .ok ())
    avsc := fun _ _ _ => .ok (.other g!"avsc")
    gogen := fun _ _ _ => ([(g!"code.go", .other g!"code")], .ok ())
    helper := fun _ _ _ _ => .ok (.other g!"helper", .ok (.other g!"tests"))
    msgp := fun _ _ => .ok (some (g!"p", .other g!"pack", .other g!"packTests")) }
def opts : AllArgs := ⟨C65ex.args [], [], false, true, true, true, [], [], false⟩
def run (d : P) : Res Unit × Files := buildAll (tools d) opts fun _ => none
def textIn (fs : Files) (p : Str) : Option Str := match fs p with | some (.other s) => some s | _ => none
def sample : P := C65ex.doc [g!"common.json"] [g!"a.json"]
/-- Reserved names are seen at the end. -/
def reserved (s : Str) : Bool := [g!"_avro", g!"_avro_test", g!"_msgp", g!"_msgp_test"].any (fun e => e.isSuffixOf s)

/-- The theorems apply: the libraries make up names of files, and it succeeds with all options. -/
example : Tidy (tools sample) ∧ (run sample).1 = .ok () := by
  refine ⟨⟨?_, ?_, ?_⟩, by decide +kernel⟩
  · intro args name pkg fs f hf
    simp only [tools, List.mem_singleton] at hf
    subst hf
    dsimp only
    split
    · simp
    · assumption
  · intro names name c f hf
    simp only [tools, List.mem_singleton] at hf
    subst hf
    unfold Elem
    decide
  · intro dir fs x hx
    simp only [tools, Res.ok.injEq, Option.some.injEq] at hx
    subst hx
    decide

/-- The structs, and the files for the options. -/
example : C65ex.found (run sample).2 g!"/out/common.go" = [(g!"Common", [], 1)] ∧ C65ex.found (run sample).2 g!"/out/a.go" = [(g!"A", [g!"Common"], 1)] ∧
    [g!"/out/root.graphqls", g!"/out/a.avsc", g!"/out/avro/a/code.go", g!"/out/a_avro.go", g!"/out/a_avro_test.go", g!"/out/p_msgp.go", g!"/out/p_msgp_test.go"].map
      (textIn (run sample).2) = [g!"graphql", g!"avsc", g!"code", g!"helper", g!"tests", g!"pack", g!"packTests"].map some := by decide +kernel

/-- The schema files in the example have different base names that are not reserved, and the structs have different names without dots and slashes. -/
example : ∃ stems, Spec.Stems opts.toBuildArgs (jobsOf (tools sample).toWorld opts.toBuildArgs [g!"common.json"] [g!"a.json"]) stems ∧ stems.Nodup ∧ (∀ s ∈ stems, ¬ Reserved s) ∧
    TidyJobs (tools sample) opts.toBuildArgs (jobsOf (tools sample).toWorld opts.toBuildArgs [g!"common.json"] [g!"a.json"]) ∧
    ((jobsOf (tools sample).toWorld opts.toBuildArgs [g!"common.json"] [g!"a.json"]).map fun j => (tools sample).lower ((tools sample).title j.name)).Nodup := by
  have b : ∀ p s : Str, subName p = s → BaseName p s := fun p s h => by
    obtain ⟨s', hs⟩ := baseName_total p
    rw [subName_baseName hs] at h
    exact h ▸ hs
  refine ⟨[g!"common", g!"a"], .cons (b _ _ (by decide)) (.cons (b _ _ (by decide)) .nil), by decide, ?_, ?_, by decide⟩
  · intro s hs
    have : reserved s = false := by
      simp only [List.mem_cons, List.not_mem_nil, or_false] at hs
      rcases hs with rfl | rfl <;> decide
    intro hr
    have h : reserved s = true := by
      unfold Reserved at hr
      simp only [reserved, List.any_cons, List.any_nil, Bool.or_eq_true, List.isSuffixOf_iff_suffix]
      tauto
    simp [this] at h
  · have key : ∀ j ∈ jobsOf (tools sample).toWorld opts.toBuildArgs [g!"common.json"] [g!"a.json"], '/' ∉ subName (resolve opts.toBuildArgs j.ref) ∧
        (tools sample).lower ((tools sample).title j.name) ≠ [] ∧ '/' ∉ (tools sample).lower ((tools sample).title j.name) ∧
        '.' ∉ (tools sample).lower ((tools sample).title j.name) := by decide
    intro j hj
    refine ⟨fun s hs => ?_, (key j hj).2⟩
    rw [← subName_baseName hs]
    exact (key j hj).1
end C85ex

open C85ex in
/-- Why some names are reserved: the code for one struct takes the place of another struct.  It succeeds, but there is no struct for the second entry. -/
theorem C85_refuted : (run (C65ex.doc [] [g!"a_avro.json", g!"a.json"])).1 = .ok () ∧
    C65ex.found (C65ex.run (C65ex.doc [] [g!"a_avro.json", g!"a.json"]) []).2 g!"/out/a_avro.go" = [(g!"A_avro", [], 1)] ∧
    C65ex.found (run (C65ex.doc [] [g!"a_avro.json", g!"a.json"])).2 g!"/out/a_avro.go" = [] ∧
    textIn (run (C65ex.doc [] [g!"a_avro.json", g!"a.json"])).2 g!"/out/a_avro.go" = some g!"helper" := by decide +kernel

end JT.Gen
