import Verif.Props.C65
/- C124: exactly which files BuildStructs leaves, whatever happens. -/
namespace JT.Gen
open JT.Spec

namespace Spec
/-- How generating one struct ends, and what is then in its file (nothing, if the file is not touched). -/
inductive JobEnds (w : World) (args : BuildArgs) (pkg dir : Str) (j : Job) : Option Content → Res Unit → Prop where
  /-- The code is written. -/
  | done {file : Str} {c : Content} : FileFor dir (resolve args j.ref) file → w.create file = true → GoCodeFor w args pkg j c → JobEnds w args pkg dir j (some c) (.ok ())
  /-- The file is created, but the code is not Go: the file stays empty. -/
  | refused {file : Str} {inst : Instance} {g : GoFile} : FileFor dir (resolve args j.ref) file → w.create file = true →
      w.schema (if args.embedAllOf = true then false else true) (resolve args j.ref) j.name = .ok inst →
      newGoFile w.sched w.title args.toArgs inst j.name j.embeds = .ok g → w.format pkg (g.text w.title args.toArgs) = false → JobEnds w args pkg dir j (some .empty) .err
  /-- The file cannot be created. -/
  | uncreated {file : Str} {inst : Instance} {g : GoFile} : FileFor dir (resolve args j.ref) file → w.create file = false →
      w.schema (if args.embedAllOf = true then false else true) (resolve args j.ref) j.name = .ok inst →
      newGoFile w.sched w.title args.toArgs inst j.name j.embeds = .ok g → JobEnds w args pkg dir j none .err
  /-- The schema cannot be loaded, or there is no code for it. -/
  | unread {r : Res Unit} : ((w.schema (if args.embedAllOf = true then false else true) (resolve args j.ref) j.name = .err ∧ r = .err) ∨
      (w.schema (if args.embedAllOf = true then false else true) (resolve args j.ref) j.name = .panic ∧ r = .panic)) → JobEnds w args pkg dir j none r
  | unmade {r : Res Unit} {inst : Instance} : w.schema (if args.embedAllOf = true then false else true) (resolve args j.ref) j.name = .ok inst →
      ((newGoFile w.sched w.title args.toArgs inst j.name j.embeds = .err ∧ r = .err) ∨
        (newGoFile w.sched w.title args.toArgs inst j.name j.embeds = .panic ∧ r = .panic)) → JobEnds w args pkg dir j none r

/-- How generating several structs one after the other ends, and what was done until then: it goes on until one fails. -/
inductive JobsEnd (w : World) (args : BuildArgs) (pkg dir : Str) : List Job → List (Job × Option Content) → Res Unit → Prop where
  | all : JobsEnd w args pkg dir [] [] (.ok ())
  | next {j : Job} {c : Content} {js : List Job} {done : List (Job × Option Content)} {r : Res Unit} :
      JobEnds w args pkg dir j (some c) (.ok ()) → JobsEnd w args pkg dir js done r → JobsEnd w args pkg dir (j :: js) ((j, some c) :: done) r
  | stop {j : Job} {o : Option Content} {js : List Job} {r : Res Unit} : JobEnds w args pkg dir j o r → r ≠ .ok () → JobsEnd w args pkg dir (j :: js) [(j, o)] r

/-- What is in a file in the end: what was written there last, or what was there before. -/
inductive InTheEnd (args : BuildArgs) (dir : Str) (done : List (Job × Option Content)) (p : Str) (before : Option Content) : Option Content → Prop where
  | last {a b : List (Job × Option Content)} {j : Job} {c : Content} : done = a ++ (j, some c) :: b → FileFor dir (resolve args j.ref) p →
      (∀ e ∈ b, ∀ c', e.2 = some c' → ¬ FileFor dir (resolve args e.1.ref) p) → InTheEnd args dir done p before (some c)
  | never : (∀ e ∈ done, ∀ c, e.2 = some c → ¬ FileFor dir (resolve args e.1.ref) p) → InTheEnd args dir done p before before
end Spec
open Spec

theorem Spec.InTheEnd.sameSchema {args args' : BuildArgs} {dir p : Str} {done : List (Spec.Job × Option Content)} {x y : Option Content} (h : InTheEnd args dir done p x y)
    (hs : resolve args = resolve args') : InTheEnd args' dir done p x y := by
  cases h with
  | last hd hf hb => exact .last hd (hs ▸ hf) (hs ▸ hb)
  | never hno => exact .never (hs ▸ hno)

theorem job_exact {w : World} {args : BuildArgs} {pkg : Str} {j : Spec.Job} {fs fs' : Files} {r : Res Unit}
    (h : buildStructFile w args j.ref j.name pkg j.embeds fs = (r, fs')) :
    ∃ o, JobEnds w args pkg args.outputDir j o r ∧ (r = .ok () → ∃ c, o = some c) ∧ fs' = match o with
      | some c => fs.put (outPath args.outputDir (resolve args j.ref)) c
      | none => fs := by
  have hsch : w.schema (!args.embedAllOf) (resolve args j.ref) j.name = w.schema (if args.embedAllOf = true then false else true) (resolve args j.ref) j.name := by
    cases args.embedAllOf <;> rfl
  have hf := (fileFor_iff (dir := args.outputDir) (path := resolve args j.ref)).2 rfl
  unfold buildStructFile at h
  cases hs : w.schema (!args.embedAllOf) (resolve args j.ref) j.name with
  | err =>
    have : structFile w args (resolve args j.ref) j.name j.embeds = .err := by unfold structFile; rw [hs]; rfl
    rw [this] at h
    cases h
    exact ⟨none, .unread (.inl ⟨hsch ▸ hs, rfl⟩), fun h => (nomatch h), rfl⟩
  | panic =>
    have : structFile w args (resolve args j.ref) j.name j.embeds = .panic := by unfold structFile; rw [hs]; rfl
    rw [this] at h
    cases h
    exact ⟨none, .unread (.inr ⟨hsch ▸ hs, rfl⟩), fun h => (nomatch h), rfl⟩
  | ok inst =>
    have hg : structFile w args (resolve args j.ref) j.name j.embeds = newGoFile w.sched w.title args.toArgs inst j.name j.embeds := by unfold structFile; rw [hs]; rfl
    rw [hg] at h
    rw [hsch] at hs
    cases hn : newGoFile w.sched w.title args.toArgs inst j.name j.embeds with
    | err => rw [hn] at h; cases h; exact ⟨none, .unmade hs (.inl ⟨hn, rfl⟩), fun h => (nomatch h), rfl⟩
    | panic => rw [hn] at h; cases h; exact ⟨none, .unmade hs (.inr ⟨hn, rfl⟩), fun h => (nomatch h), rfl⟩
    | ok g =>
      rw [hn] at h
      simp only [writeFile] at h
      split at h
      · rename_i hc
        cases h
        exact ⟨none, .uncreated hf hc hs hn, fun h => (nomatch h), rfl⟩
      · rename_i hc
        simp only [Bool.not_eq_false] at hc
        split at h
        · rename_i ht
          cases h
          exact ⟨some _, .done hf hc ⟨inst, g, hs, hn, ht, rfl⟩, fun _ => ⟨_, rfl⟩, rfl⟩
        · rename_i ht
          cases h
          exact ⟨some .empty, .refused hf hc hs hn (by simpa using ht), fun h => (nomatch h), rfl⟩

theorem run_exact {w : World} {args : BuildArgs} {pkg : Str} : ∀ (jobs : List Spec.Job) (fs : Files) {r : Res Unit} {fs' : Files}, runJobs w args pkg jobs fs = (r, fs') →
    ∃ done, JobsEnd w args pkg args.outputDir jobs done r ∧ ∀ p, InTheEnd args args.outputDir done p (fs p) (fs' p)
  | [], fs, r, fs', h => by
    cases h
    exact ⟨[], .all, fun p => .never (by simp)⟩
  | j :: js, fs, r, fs', h => by
    unfold runJobs at h
    have stop : ∀ {r : Res Unit}, r ≠ .ok () → buildStructFile w args j.ref j.name pkg j.embeds fs = (r, fs') →
        ∃ done, JobsEnd w args pkg args.outputDir (j :: js) done r ∧ ∀ p, InTheEnd args args.outputDir done p (fs p) (fs' p) := by
      intro r hr h
      obtain ⟨o, h1, -, h2⟩ := job_exact h
      refine ⟨[(j, o)], .stop h1 hr, fun p => ?_⟩
      cases o with
      | none =>
        simp only at h2
        subst h2
        exact .never (by simp)
      | some c =>
        simp only at h2
        subst h2
        unfold Files.put
        by_cases hp : p = outPath args.outputDir (resolve args j.ref)
        · rw [if_pos hp]
          exact .last (a := []) (b := []) rfl (fileFor_iff.2 hp) (by simp)
        · rw [if_neg hp]
          refine .never fun e he c' _ hf => hp ?_
          rw [List.mem_singleton] at he
          subst he
          exact fileFor_iff.1 hf
    split at h
    · rename_i u fs1 e1
      obtain ⟨o, h1, h0, h2⟩ := job_exact e1
      obtain ⟨c, rfl⟩ := h0 rfl
      obtain ⟨done, h3, h4⟩ := run_exact js fs1 h
      refine ⟨(j, some c) :: done, .next h1 h3, fun p => ?_⟩
      generalize hx : fs' p = x
      have := h4 p
      rw [hx] at this
      cases this with
      | @last a b j' c' hd hf hb => exact .last (a := (j, some c) :: a) (by rw [hd]; rfl) hf hb
      | never hno =>
        simp only at h2
        subst h2
        unfold Files.put at hx ⊢
        by_cases hp : p = outPath args.outputDir (resolve args j.ref)
        · rw [if_pos hp]
          exact .last (a := []) rfl (fileFor_iff.2 hp) hno
        · rw [if_neg hp]
          refine .never fun e he c' hc' hf => ?_
          rcases List.mem_cons.1 he with rfl | he
          · exact hp (fileFor_iff.1 hf)
          · exact hno e he c' hc' hf
    · rename_i fs1 e1
      cases h
      exact stop (fun h => (nomatch h)) e1
    · rename_i fs1 e1
      cases h
      exact stop (fun h => (nomatch h)) e1

/-- **C124**: either it fails before anything is generated, and no file is touched; or there are structs to be generated, which is done one after the other until one fails; it
succeeds exactly if none does.  Every file then has what was written there last. -/
theorem C124 {w : World} {args : BuildArgs} {fs fs' : Files} {r : Res Unit} (h : buildStructs w args fs = (r, fs')) :
    (r ≠ .ok () ∧ fs' = fs) ∨
      ∃ doc dir jobs done, w.read args.schemaPath = .ok doc ∧ Spec.Dir args w.getwd dir ∧ Spec.Jobs w.title args.structNames doc (w.abs args.schemaPath) jobs ∧
        JobsEnd w { args with outputDir := dir } (pathBase dir) dir jobs done r ∧ ∀ p, InTheEnd args dir done p (fs p) (fs' p) := by
  unfold buildStructs at h
  split at h
  · rename_i dir refs oneOf hp
    obtain ⟨doc, hd, hr, hc, rfl⟩ := plan_of hp
    rw [buildFiles_jobs] at h
    obtain ⟨done, h1, h2⟩ := run_exact _ fs h
    exact .inr ⟨doc, dir, _, done, hr, dir_of hd, jobs_of (w := w) (args := { args with outputDir := dir }) hc, h1, fun p => (h2 p).sameSchema rfl⟩
  · cases h; exact .inl ⟨fun h => (nomatch h), rfl⟩
  · cases h; exact .inl ⟨fun h => (nomatch h), rfl⟩

open C65ex in
/-- The second of three files cannot be created: the first is there, the others are not. -/
example : let w := { world (doc [g!"common.json"] [g!"a.json", g!"b/x.json"]) with create := fun p => decide (p ≠ g!"/out/a.go") }
    (buildStructs w (args []) fun _ => none).1 = .err ∧ found (buildStructs w (args []) fun _ => none).2 g!"/out/common.go" = [(g!"Common", [], 1)] ∧
      found (buildStructs w (args []) fun _ => none).2 g!"/out/a.go" = [] ∧ found (buildStructs w (args []) fun _ => none).2 g!"/out/x.go" = [] := by decide +kernel

end JT.Gen
