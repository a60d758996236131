import Verif.Model.Crash
import Verif.Model.BuildAll
import Verif.Props.ExactFiles
/- C128: BuildStructs may be killed at any time and run again. -/
namespace JT.Gen
open JT.Spec

namespace Spec
/-- A file has what it had before, or the complete code of a struct that is generated. -/
def Sound (w : World) (args : BuildArgs) (pkg dir : Str) (jobs : List Job) (fs fs' : Files) (q : Str) : Prop :=
  fs' q = fs q ∨ ∃ j ∈ jobs, FileFor dir (resolve args j.ref) q ∧ ∃ c, fs' q = some c ∧ GoCodeFor w args pkg j c

/-- A file for a struct is empty, or has some text. -/
def Unfinished (args : BuildArgs) (dir : Str) (jobs : List Job) (fs' : Files) (q : Str) : Prop :=
  (∃ j ∈ jobs, FileFor dir (resolve args j.ref) q) ∧ (fs' q = some .empty ∨ ∃ part, fs' q = some (.other part))

/-- The files after any number of runs that were killed. -/
inductive Killed (w : World) (args : BuildArgs) (fs : Files) : Files → Prop where
  | none : Killed w args fs fs
  | again {fs1 fs2 : Files} : Killed w args fs fs1 → BuildStates w args fs1 fs2 → Killed w args fs fs2
end Spec
open Spec

/-! ### Structs one after the other -/

/-- The files at some time while structs are generated one after the other. -/
inductive RunStates (w : World) (args : BuildArgs) (pkg : Str) : List Spec.Job → Files → Files → Prop where
  | here {j : Spec.Job} {js : List Spec.Job} {fs fs' : Files} : StructStates w args j.ref j.name pkg j.embeds fs fs' → RunStates w args pkg (j :: js) fs fs'
  | later {j : Spec.Job} {js : List Spec.Job} {fs fs1 fs' : Files} {u : Unit} : buildStructFile w args j.ref j.name pkg j.embeds fs = (.ok u, fs1) →
      RunStates w args pkg js fs1 fs' → RunStates w args pkg (j :: js) fs fs'

theorem RunStates.left {w : World} {args : BuildArgs} {pkg : Str} {a b : List Spec.Job} {fs fs' : Files} (h : RunStates w args pkg a fs fs') : RunStates w args pkg (a ++ b) fs fs' := by
  induction h with
  | here h => exact .here h
  | later h _ ih => exact .later h ih

theorem RunStates.right {w : World} {args : BuildArgs} {pkg : Str} {b : List Spec.Job} {fs1 fs' : Files} (h : RunStates w args pkg b fs1 fs') :
    ∀ (a : List Spec.Job) {fs : Files} {u : Unit}, runJobs w args pkg a fs = (.ok u, fs1) → RunStates w args pkg (a ++ b) fs fs'
  | [], fs, u, hr => by cases hr; exact h
  | j :: js, fs, u, hr => by
    unfold runJobs at hr
    split at hr
    · rename_i u' fs2 e; exact .later e (RunStates.right h js hr)
    · cases hr
    · cases hr

theorem allOf_states {w : World} {args : BuildArgs} {pkg : Str} {refs : List Str} {fs fs' : Files} (h : AllOfStates w args pkg refs fs fs') :
    RunStates w args pkg (refs.map fun r => ⟨r, allOfName w args r, []⟩) fs fs' := by
  induction h with
  | here h => exact .here h
  | later h _ ih => exact .later h ih

theorem oneOf_states {w : World} {args : BuildArgs} {pkg : Str} {embeds refs : List Str} {fs fs' : Files} (h : OneOfStates w args pkg embeds refs fs fs') :
    RunStates w args pkg (refs.map fun r => ⟨r, oneOfName args r, embeds⟩) fs fs' := by
  induction h with
  | here h => exact .here h
  | later h _ ih => exact .later h ih

/-! ### What is written does not depend on the files -/

/-- What one struct does to its file. -/
theorem job_blind (w : World) (args : BuildArgs) (pkg : Str) (j : Spec.Job) : ∃ (r : Res Unit) (o : Option Content), (∀ fs, buildStructFile w args j.ref j.name pkg j.embeds fs =
      (r, match o with
        | some c => fs.put (outPath args.outputDir (resolve args j.ref)) c
        | none => fs)) ∧
    ((∃ g, structFile w args (resolve args j.ref) j.name j.embeds = .ok g) → w.create (outPath args.outputDir (resolve args j.ref)) = true → ∃ c, o = some c) := by
  cases hg : structFile w args (resolve args j.ref) j.name j.embeds with
  | err => exact ⟨.err, none, fun fs => by simp [buildStructFile, hg], fun ⟨g, h⟩ => (nomatch h)⟩
  | panic => exact ⟨.panic, none, fun fs => by simp [buildStructFile, hg], fun ⟨g, h⟩ => (nomatch h)⟩
  | ok g =>
    cases hc : w.create (outPath args.outputDir (resolve args j.ref)) with
    | false => exact ⟨.err, none, fun fs => by simp [buildStructFile, hg, writeFile, hc], fun _ h => (nomatch h)⟩
    | true =>
      cases hf : w.format pkg (g.text w.title args.toArgs) with
      | false => exact ⟨.err, some .empty, fun fs => by simp [buildStructFile, hg, writeFile, hc, hf], fun _ _ => ⟨_, rfl⟩⟩
      | true => exact ⟨.ok (), some (.go pkg (g.text w.title args.toArgs).1 (g.text w.title args.toArgs).2), fun fs => by simp [buildStructFile, hg, writeFile, hc, hf], fun _ _ => ⟨_, rfl⟩⟩

/-- Put files in place one after the other. -/
def putAll (ws : List (Str × Content)) (fs : Files) : Files := ws.foldl (fun fs f => fs.put f.1 f.2) fs

/-- What was in the files that are written in the end does not matter. -/
theorem putAll_absorb : ∀ (ws : List (Str × Content)) {fs fs' : Files}, (∀ q, q ∉ ws.map Prod.fst → fs' q = fs q) → putAll ws fs' = putAll ws fs
  | [], fs, fs', h => funext fun q => h q (by simp)
  | (p, c) :: ws, fs, fs', h => by
    refine putAll_absorb ws fun q hq => ?_
    by_cases hqp : q = p
    · exact (if_pos hqp).trans (if_pos hqp).symm
    · exact ((if_neg hqp).trans (h q (by simp [hqp, hq]))).trans (if_neg hqp).symm

theorem putAll_other : ∀ (ws : List (Str × Content)) {fs : Files} {q : Str}, q ∉ ws.map Prod.fst → putAll ws fs q = fs q
  | [], _, _, _ => rfl
  | (p, c) :: ws, fs, q, h => by
    simp only [List.map_cons, List.mem_cons, not_or] at h
    exact (putAll_other ws h.2).trans (if_neg h.1)

/-- A run writes the same files whatever was there; and at any time only such files have changed. -/
theorem run_blind (w : World) (args : BuildArgs) (pkg : Str) : ∀ jobs : List Spec.Job, ∃ (r : Res Unit) (ws : List (Str × Content)), (∀ fs, runJobs w args pkg jobs fs = (r, putAll ws fs)) ∧
    ∀ fs fs', RunStates w args pkg jobs fs fs' → ∀ q, q ∉ ws.map Prod.fst → fs' q = fs q
  | [] => ⟨.ok (), [], fun _ => rfl, fun _ _ h => (nomatch h)⟩
  | j :: js => by
    obtain ⟨r, o, h1, h2⟩ := job_blind w args pkg j
    have here : ∀ {fs fs' : Files}, StructStates w args j.ref j.name pkg j.embeds fs fs' → ∀ q, (∀ c, o = some c → q ≠ outPath args.outputDir (resolve args j.ref)) → fs' q = fs q := by
      intro fs fs' hs q hq
      cases hs with
      | before => rfl
      | created hg hc => obtain ⟨c, hc⟩ := h2 ⟨_, hg⟩ hc; exact if_neg (hq c hc)
      | writing hg hc _ => obtain ⟨c, hc⟩ := h2 ⟨_, hg⟩ hc; exact if_neg (hq c hc)
      | after =>
        rw [h1]
        cases o with
        | none => rfl
        | some c => exact if_neg (hq c rfl)
    obtain ⟨first, hfirst, hnot⟩ : ∃ first : List (Str × Content), (∀ fs, buildStructFile w args j.ref j.name pkg j.embeds fs = (r, putAll first fs)) ∧
        ∀ {q}, q ∉ first.map Prod.fst → ∀ c, o = some c → q ≠ outPath args.outputDir (resolve args j.ref) := by
      cases o with
      | none => exact ⟨[], h1, fun _ c hc => (nomatch hc)⟩
      | some c => exact ⟨[(outPath args.outputDir (resolve args j.ref), c)], h1, fun hq c _ => by simpa using hq⟩
    obtain ⟨r', ws, h3, h4⟩ := run_blind w args pkg js
    by_cases hr : r = .ok ()
    · subst hr
      refine ⟨r', first ++ ws, fun fs => ?_, fun fs fs' hs q hq => ?_⟩
      · unfold runJobs
        rw [hfirst]
        simp only [h3, putAll, List.foldl_append]
      · simp only [List.map_append, List.mem_append, not_or] at hq
        cases hs with
        | here hs => exact here hs q (hnot hq.1)
        | later hb hs =>
          rw [hfirst] at hb
          simp only [Prod.mk.injEq] at hb
          rw [h4 _ _ hs q hq.2, ← hb.2]
          exact putAll_other first hq.1
    · refine ⟨r, first, fun fs => ?_, fun fs fs' hs q hq => ?_⟩
      · unfold runJobs
        rw [hfirst]
        cases r with
        | ok u => exact absurd rfl hr
        | err => rfl
        | panic => rfl
      · cases hs with
        | here hs => exact here hs q (hnot hq)
        | later hb hs =>
          rw [hfirst] at hb
          simp only [Prod.mk.injEq] at hb
          exact absurd hb.1 hr

/-! ### What is in the files -/

theorem struct_sound {w : World} {args : BuildArgs} {pkg : Str} {j : Spec.Job} {fs fs' : Files} (h : StructStates w args j.ref j.name pkg j.embeds fs fs') :
    (∀ q, q ≠ outPath args.outputDir (resolve args j.ref) → fs' q = fs q) ∧
    (fs' (outPath args.outputDir (resolve args j.ref)) = fs (outPath args.outputDir (resolve args j.ref)) ∨
      (∃ c, fs' (outPath args.outputDir (resolve args j.ref)) = some c ∧ GoCodeFor w args pkg j c) ∨
      fs' (outPath args.outputDir (resolve args j.ref)) = some .empty ∨ ∃ part, fs' (outPath args.outputDir (resolve args j.ref)) = some (.other part)) := by
  cases h with
  | before => exact ⟨fun _ _ => rfl, .inl rfl⟩
  | created _ _ => exact ⟨fun q hq => if_neg hq, .inr (.inr (.inl (if_pos rfl)))⟩
  | writing _ _ _ => exact ⟨fun q hq => if_neg hq, .inr (.inr (.inr ⟨_, if_pos rfl⟩))⟩
  | after =>
    refine ⟨fun q hq => build_other fun e => hq e.symm, ?_⟩
    rcases hb : buildStructFile w args j.ref j.name pkg j.embeds fs with ⟨r, fs1⟩
    obtain ⟨o, h1, -, h3⟩ := job_exact hb
    subst h3
    cases h1 with
    | done hf hc hg => exact .inr (.inl ⟨_, if_pos rfl, hg⟩)
    | refused _ _ _ _ _ => exact .inr (.inr (.inl (if_pos rfl)))
    | uncreated _ _ _ _ => exact .inl rfl
    | unread _ => exact .inl rfl
    | unmade _ _ => exact .inl rfl

theorem run_sound {w : World} {args : BuildArgs} {pkg : Str} {jobs : List Spec.Job} {fs fs' : Files} (h : RunStates w args pkg jobs fs fs') :
    ∃ p, (∀ q, q ≠ p → Sound w args pkg args.outputDir jobs fs fs' q) ∧ (Sound w args pkg args.outputDir jobs fs fs' p ∨ Unfinished args args.outputDir jobs fs' p) := by
  induction h with
  | @here j js fs fs' h =>
    obtain ⟨h1, h2⟩ := struct_sound h
    refine ⟨outPath args.outputDir (resolve args j.ref), fun q hq => .inl (h1 q hq), ?_⟩
    rcases h2 with h2 | ⟨c, h2, h3⟩ | h2
    · exact .inl (.inl h2)
    · exact .inl (.inr ⟨j, by simp, fileFor_iff.2 rfl, c, h2, h3⟩)
    · exact .inr ⟨⟨j, by simp, fileFor_iff.2 rfl⟩, h2⟩
  | @later j js fs fs1 fs' u hb _ ih =>
    obtain ⟨o, h1, h0, h3⟩ := job_exact hb
    obtain ⟨c, rfl⟩ := h0 rfl
    have hgo : GoCodeFor w args pkg j c := by
      generalize hr : (Res.ok u : Res Unit) = r at h1
      generalize ho : some c = o at h1
      cases h1 with
      | done _ _ hg => cases ho; exact hg
      | refused => cases hr
      | uncreated => cases hr
      | unread => cases ho
      | unmade => cases ho
    have lift : ∀ q, Sound w args pkg args.outputDir js fs1 fs' q → Sound w args pkg args.outputDir (j :: js) fs fs' q := by
      rintro q (h | ⟨j', hj', hf, c', hc', hg⟩)
      · by_cases hq : q = outPath args.outputDir (resolve args j.ref)
        · subst hq
          exact .inr ⟨j, by simp, fileFor_iff.2 rfl, c, by rw [h, h3]; exact if_pos rfl, hgo⟩
        · left; rw [h, h3]; exact if_neg hq
      · exact .inr ⟨j', List.mem_cons_of_mem _ hj', hf, c', hc', hg⟩
    obtain ⟨p, k1, k2⟩ := ih
    refine ⟨p, fun q hq => lift q (k1 q hq), k2.imp (lift p) ?_⟩
    rintro ⟨⟨j', hj', hf⟩, hu⟩
    exact ⟨⟨j', List.mem_cons_of_mem _ hj', hf⟩, hu⟩

/-! ### The claims -/

theorem build_states {w : World} {args : BuildArgs} {fs fs' : Files} (h : BuildStates w args fs fs') : fs' = fs ∨
    ∃ dir allOf oneOf, buildPlan w args = .ok (dir, allOf, oneOf) ∧ RunStates w { args with outputDir := dir } (pathBase dir) (jobsOf w { args with outputDir := dir } allOf oneOf) fs fs' := by
  cases h with
  | idle => exact .inl rfl
  | allOf hp hs => exact .inr ⟨_, _, _, hp, (allOf_states hs).left⟩
  | @oneOf dir allOf oneOf embeds fs1 fs' hp hb hs =>
    right
    refine ⟨_, _, _, hp, ?_⟩
    rw [buildAllOf_jobs] at hb
    split at hb
    · rename_i u fs2 e
      simp only [List.nil_append, Prod.mk.injEq, Res.ok.injEq] at hb
      obtain ⟨rfl, rfl⟩ := hb
      exact RunStates.right (oneOf_states hs) _ e
    · cases hb
    · cases hb

/-- **C128**: whenever BuildStructs is stopped, every file but one has what it had before or the complete code of a struct, and that one may also be empty or have some other text if it is
the file of a struct; and running it again ends as if it had not run before, with the same files. -/
theorem C128 {w : World} {args : BuildArgs} {fs fs' : Files} (h : BuildStates w args fs fs') :
    buildStructs w args fs' = buildStructs w args fs ∧
    (fs' = fs ∨ ∃ doc dir jobs, w.read args.schemaPath = .ok doc ∧ Spec.Dir args w.getwd dir ∧ Spec.Jobs w.title args.structNames doc (w.abs args.schemaPath) jobs ∧
      ∃ p, (∀ q, q ≠ p → Sound w { args with outputDir := dir } (pathBase dir) dir jobs fs fs' q) ∧
        (Sound w { args with outputDir := dir } (pathBase dir) dir jobs fs fs' p ∨ Unfinished args dir jobs fs' p)) := by
  rcases build_states h with rfl | ⟨dir, allOf, oneOf, hp, hs⟩
  · exact ⟨rfl, .inl rfl⟩
  · constructor
    · unfold buildStructs
      rw [hp]
      simp only [buildFiles_jobs]
      obtain ⟨r, ws, h1, h2⟩ := run_blind w { args with outputDir := dir } (pathBase dir) (jobsOf w { args with outputDir := dir } allOf oneOf)
      rw [h1, h1, putAll_absorb ws (h2 fs fs' hs)]
    · right
      obtain ⟨doc, hd, hr, hc, rfl⟩ := plan_of hp
      exact ⟨doc, dir, _, hr, dir_of hd, jobs_of (w := w) (args := { args with outputDir := dir }) hc, run_sound hs⟩

/-- However often it is killed, a run to the end gives what it would have given at first. -/
theorem C128_killed {w : World} {args : BuildArgs} {fs fs' : Files} (h : Killed w args fs fs') : buildStructs w args fs' = buildStructs w args fs := by
  induction h with
  | none => rfl
  | again _ hs ih => exact (C128 hs).1.trans ih

theorem allOf_last {w : World} {args : BuildArgs} {pkg : Str} : ∀ (refs : List Str) {embeds : List Str} {fs : Files}, refs ≠ [] → AllOfStates w args pkg refs fs (buildAllOf w args pkg refs embeds fs).2
  | [r], embeds, fs, _ => by
    have := StructStates.after (w := w) (args := args) (child := r) (name := allOfName w args r) (pkg := pkg) (embeds := []) (fs := fs)
    rw [buildAllOf]
    split <;> rename_i e <;> rw [e] at this <;> exact .here this
  | r :: r' :: rs, embeds, fs, _ => by
    have := StructStates.after (w := w) (args := args) (child := r) (name := allOfName w args r) (pkg := pkg) (embeds := []) (fs := fs)
    rw [buildAllOf]
    split
    · rename_i e; exact .later e (allOf_last (r' :: rs) (by simp))
    · rename_i e; rw [e] at this; exact .here this
    · rename_i e; rw [e] at this; exact .here this

theorem oneOf_last {w : World} {args : BuildArgs} {pkg : Str} {embeds : List Str} : ∀ (refs : List Str) {fs : Files}, refs ≠ [] →
    OneOfStates w args pkg embeds refs fs (buildOneOf w args pkg embeds refs fs).2
  | [r], fs, _ => by
    have := StructStates.after (w := w) (args := args) (child := r) (name := oneOfName args r) (pkg := pkg) (embeds := embeds) (fs := fs)
    rw [buildOneOf]
    split <;> rename_i e <;> rw [e] at this <;> exact .here this
  | r :: r' :: rs, fs, _ => by
    have := StructStates.after (w := w) (args := args) (child := r) (name := oneOfName args r) (pkg := pkg) (embeds := embeds) (fs := fs)
    rw [buildOneOf]
    split
    · rename_i e; exact .later e (oneOf_last (r' :: rs) (by simp))
    · rename_i e; rw [e] at this; exact .here this
    · rename_i e; rw [e] at this; exact .here this

/-- The files when it ends are among those while it runs; so running it twice is the same as running it once. -/
theorem C128_ends (w : World) (args : BuildArgs) (fs : Files) : BuildStates w args fs (buildStructs w args fs).2 ∧
    buildStructs w args (buildStructs w args fs).2 = buildStructs w args fs := by
  have key : BuildStates w args fs (buildStructs w args fs).2 := by
    unfold buildStructs
    split
    · rename_i dir allOf oneOf hp
      unfold buildFiles
      have hall : ∀ {fs1 : Files} {r : Res (List Str)}, buildAllOf w { args with outputDir := dir } (pathBase dir) allOf [] fs = (r, fs1) → BuildStates w args fs fs1 := by
        intro fs1 r e
        by_cases hn : allOf = []
        · subst hn
          cases e
          exact .idle
        · have := allOf_last (w := w) (args := { args with outputDir := dir }) (pkg := pathBase dir) allOf (embeds := []) (fs := fs) hn
          rw [e] at this
          exact .allOf hp this
      split
      · rename_i embeds fs1 e
        by_cases hn : oneOf = []
        · subst hn; exact hall e
        · exact .oneOf hp e (oneOf_last oneOf hn)
      · rename_i e; exact hall e
      · rename_i e; exact hall e
    · exact .idle
    · exact .idle
  exact ⟨key, (C128 key).1⟩

/-! ### Killed when the second file had been created -/

namespace C128ex
open C65ex

def d : P := doc [g!"common.json"] [g!"a.json"]

/-- The first file is complete. -/
def first : Files := (buildStructFile (world d) (args []) g!"common.json" g!"Common" g!"out" [] fun _ => none).2

/-- The second is empty. -/
def killed : Files := first.put g!"/out/a.go" .empty

theorem plan : buildPlan (world d) (args []) = .ok (g!"/out", [g!"common.json"], [g!"a.json"]) := by rfl

theorem states : BuildStates (world d) (args []) (fun _ => none) killed :=
  .oneOf plan (embeds := [g!"Common"]) (fs1 := first) (by rfl) (.here (.created (w := world d) (args := args []) (by rfl) rfl))

example := C128 states

/-- One file is complete and one empty; then both are complete. -/
example : found killed g!"/out/common.go" = [(g!"Common", [], 1)] ∧ (killed g!"/out/a.go").isSome = true ∧ found killed g!"/out/a.go" = [] ∧
    found (buildStructs (world d) (args []) killed).2 g!"/out/a.go" = [(g!"A", [g!"Common"], 1)] := by decide +kernel

/-- generate/avro.go:191-196: the Go files of the directory are parsed, which fails if one is empty. -/
def tools : Tools :=
  { world d with
    lower := id
    graphql := fun _ _ _ _ => ([], .ok ())
    avsc := fun _ _ fs => match fs g!"/out/a.go" with
      | some .empty => .err
      | _ => .ok (.other g!"avsc")
    gogen := fun _ _ _ => ([], .ok ())
    helper := fun _ _ _ _ => .ok (.other g!"helper", .ok (.other g!"tests"))
    msgp := fun _ _ => .ok none }

def opts : AllArgs := ⟨args [], [], false, true, false, false, [], [], false⟩
end C128ex

/-- The same with the other options: running the generator after one that was killed while it wrote struct files ends as if it had not run before. -/
def C128_options_statement : Prop :=
  ∀ (t : Tools) (args : AllArgs) (fs fs' : Files), BuildStates t.toWorld args.toBuildArgs fs fs' → buildAll t args fs' = buildAll t args fs

/-- With the option for Avro this is false: an empty Go file that is left makes later runs fail, before that file is written. -/
theorem C128_options_refuted : ¬ C128_options_statement := by
  intro h
  have := congrArg Prod.fst (h C128ex.tools C128ex.opts (fun _ => none) C128ex.killed C128ex.states)
  have h1 : (buildAll C128ex.tools C128ex.opts C128ex.killed).1 = .err := by decide +kernel
  have h2 : (buildAll C128ex.tools C128ex.opts fun _ => none).1 = .ok () := by decide +kernel
  rw [h1, h2] at this
  cases this

end JT.Gen
