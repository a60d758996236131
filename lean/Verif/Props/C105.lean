import Verif.Model.Program
import Verif.Props.C82
import Verif.Props.C85
import Verif.Props.C102Embed
/- C105: the command, from its arguments to documents that go through the structs of the package that it leaves. -/
namespace JT.GoText
open Gen Spec JT.Spec GoJson Flat

variable {u : Unicode}

/-- The generator is called with `c`. -/
def Called (abs : Str → Option Str) (t : Tools) (argv : List Str) (fs : Gen.Files) (c : Command) : Prop :=
  (runMain abs (fun c => decide ((buildAll t c.args fs).1 = .ok ())) argv).2 = some c

/-- If the program succeeds, the generator was called with what the command line asks for, and succeeded. -/
theorem program_ok {abs : Str → Option Str} {t : Tools} {argv : List Str} {fs fs' : Gen.Files} (h : program abs t argv fs = (0, fs')) (hh : ¬ Help argv) :
    ∃ c os ps, Called abs t argv fs c ∧ Options argv os ps ∧ (∀ o ∈ os, Suits o) ∧ Asked abs os ps c ∧ buildAll t c.args fs = (.ok (), fs') := by
  unfold Called
  unfold program at h
  have hc := C82_code abs (fun c => decide ((buildAll t c.args fs).1 = .ok ())) argv
  have h82 := fun c => C82 (abs := abs) (build := fun c => decide ((buildAll t c.args fs).1 = .ok ())) (argv := argv) (c := c)
  generalize runMain abs (fun c => decide ((buildAll t c.args fs).1 = .ok ())) argv = r at h hc h82
  obtain ⟨code, o⟩ := r
  rcases o with _ | c
  · simp only [Prod.mk.injEq] at h
    rcases hc.1 h.1 with ⟨c, h1, _⟩ | h1
    · cases h1
    · exact absurd h1 hh
  · obtain ⟨os, ps, h1, h2, h3⟩ := h82 c rfl
    simp only [Prod.mk.injEq] at h
    obtain ⟨ha, hb⟩ := h
    split at ha
    · cases ha
    · rcases hc.1 ha with ⟨c', h4, h5⟩ | h4
      · cases h4
        exact ⟨c, os, ps, rfl, h1, h2, h3, Prod.ext (of_decide_eq_true h5) hb⟩
      · exact absurd h4 hh

/-- **C105**, partial: if the command succeeds and was not asked for help, then the arguments are options with suitable values, a schema and perhaps a directory; and in the
directory asked for there is source of a Go package that declares, under the options asked for, the structs for the schema; documents go through them.  Missing: as for C102;
and files of the same package that the options for Avro and MessagePack add. -/
theorem C105_partial {abs : Str → Option Str} {t : Tools} {argv : List Str} {fs fs' : Gen.Files} (ht : Tidy t) (h : program abs t argv fs = (0, fs')) (hh : ¬ Help argv) :
    ∃ c os ps, Called abs t argv fs c ∧ Options argv os ps ∧ (∀ o ∈ os, Suits o) ∧ Asked abs os ps c ∧
      ∃ doc dir jobs, t.read c.schemaPath = .ok doc ∧ Gen.Spec.Dir c.args.toBuildArgs t.getwd dir ∧ Gen.Spec.Jobs t.title c.structNames doc (t.abs c.schemaPath) jobs ∧
        ∀ stems part es, Gen.Spec.Stems c.args.toBuildArgs jobs stems → stems.Nodup → (∀ s ∈ stems, ¬ Reserved s) → TidyJobs t c.args.toBuildArgs jobs →
          EmbedSchemas u t.toWorld c.args.toBuildArgs dir jobs part es →
          ∃ files, GoPackage (pathBase dir) files ∧ Each (Written u fs' c.args.toBuildArgs dir) jobs files ∧
            ∀ j ∈ jobs, ∀ commons, Commons t.title jobs part es (es j) commons → (es j).Nodup → Together t.title c.fieldNames (part j) commons →
              ∀ co : Codec, co.Lawful → ∃ sfs, StructIn files (t.title j.name) sfs ∧
              ∀ l, Members co true c.pointers (part j).props (part j).schema.required l → (∀ p ∈ commons, Members co true c.pointers p.props p.schema.required l) →
                ∃ l', Through co sfs l l' ∧ SameMembers co true (joined (part j) commons) (ownersRequired (part j) commons) l l' := by
  obtain ⟨c, os, ps, h0, h1, h2, h3, h4⟩ := program_ok h hh
  refine ⟨c, os, ps, h0, h1, h2, h3, ?_⟩
  obtain ⟨doc, dir, jobs, a1, a2, a3, a4⟩ := C85_partial ht h4
  refine ⟨doc, dir, jobs, a1, a2, a3, fun stems part es b1 b2 b3 b4 b5 => ?_⟩
  obtain ⟨_, a4⟩ := a4 b4
  exact package_of (args := c.args.toBuildArgs) (jobs_nodup b1 b2) b5 fun j hj file hf => a4 stems b1 b2 b3 j hj file hf

/-- **C105**: the command changes no other files than those of the structs and those for the options. -/
theorem C105_others {abs : Str → Option Str} {t : Tools} {argv : List Str} {fs : Gen.Files} {p : Str} (ht : Tidy t) (hp : (program abs t argv fs).2 p ≠ fs p) :
    ∃ c os ps, Called abs t argv fs c ∧ Options argv os ps ∧ (∀ o ∈ os, Suits o) ∧ Asked abs os ps c ∧
      ∃ doc dir jobs, t.read c.schemaPath = .ok doc ∧ Gen.Spec.Dir c.args.toBuildArgs t.getwd dir ∧ Gen.Spec.Jobs t.title c.structNames doc (t.abs c.schemaPath) jobs ∧
        (TidyJobs t c.args.toBuildArgs jobs → (∃ j ∈ jobs, Gen.Spec.FileFor dir (resolve c.args.toBuildArgs j.ref) p) ∨ Extra c.args dir p) := by
  unfold Called
  unfold program at hp
  have h82 := fun c => C82 (abs := abs) (build := fun c => decide ((buildAll t c.args fs).1 = .ok ())) (argv := argv) (c := c)
  generalize runMain abs (fun c => decide ((buildAll t c.args fs).1 = .ok ())) argv = r at hp h82
  obtain ⟨code, o⟩ := r
  rcases o with _ | c
  · exact absurd rfl hp
  · obtain ⟨os, ps, h1, h2, h3⟩ := h82 c rfl
    exact ⟨c, os, ps, rfl, h1, h2, h3, C85_others ht hp⟩

/-! ### Example -/

namespace C105ex
open C76ex Toy C93ex C102ex C102embed

/-- The files of `C102embed`; no libraries are used. -/
def toolsFor (doc : P) : Tools :=
  { eworld doc with
    lower := id, graphql := fun _ _ _ _ => ([], .err), avsc := fun _ _ _ => .err, gogen := fun _ _ _ => ([], .err), helper := fun _ _ _ _ => .err, msgp := fun _ _ => .err }

def tools : Tools := toolsFor rootDoc

theorem tidy : Tidy tools := ⟨fun _ _ _ _ _ h => (nomatch h), fun _ _ _ _ h => (nomatch h), fun _ _ _ h => (nomatch h)⟩

def argv : List Str := [g!"-descriptionAsStructTag=false", g!"/s/root.json", g!"/out"]

theorem called (c : Command) (h : Called some tools argv (fun _ => none) c) : c.args.toBuildArgs = eargs := by
  have : some c = _ := h.symm
  cases this
  rfl

theorem succeeds : (program some tools argv fun _ => none).1 = 0 := by decide +kernel

theorem no_help : ¬ Help argv := by
  rw [← help_iff]
  exact fun h => nomatch h

end C105ex

open C76ex Toy C93ex C102ex C102embed C105ex in
/-- The command for a schema with a property of its own and an allOf entry: a document comes back through the struct for the schema. -/
example : ∃ fs' files sfs l', program some tools argv (fun _ => none) = (0, fs') ∧ GoPackage g!"out" files ∧ Each (Written ascii fs' eargs g!"/out") ejobs files ∧
    StructIn files g!"Root" sfs ∧ Through codec sfs document l' ∧ SameMembers codec true [(g!"n", pInt), (g!"flag", pBool)] [g!"flag"] document l' := by
  obtain ⟨c, _, _, h0, _, _, _, doc, dir, jobs, h1, h2, h3, h4⟩ := C105_partial (u := ascii) (abs := some) (t := tools) (argv := argv) (fs := fun _ => none) tidy
    (Prod.ext C105ex.succeeds rfl) no_help
  have hc := called c h0
  have e1 : c.schemaPath = eargs.schemaPath := congrArg BuildArgs.schemaPath hc
  have e2 : c.structNames = eargs.structNames := congrArg (fun a : BuildArgs => a.structNames) hc
  have e3 : c.fieldNames = eargs.fieldNames := congrArg (fun a : BuildArgs => a.fieldNames) hc
  have e4 : c.pointers = eargs.pointers := congrArg (fun a : BuildArgs => a.pointers) hc
  rw [hc] at h2 h4
  rw [e1] at h1
  rw [e1, e2] at h3
  rw [e3, e4] at h4
  obtain rfl : rootDoc = doc := Res.ok.inj h1
  obtain rfl : g!"/out" = dir := dir_unique (.given (by decide)) h2
  obtain rfl : ejobs = jobs := jobs_unique eplan h3
  obtain ⟨files, h5, h6, h7⟩ := h4 [g!"flags", g!"root"] epart ees estems (by decide) (by unfold Reserved; decide) (by
    intro j hj
    simp only [ejobs, List.mem_cons, List.not_mem_nil, or_false] at hj
    rcases hj with rfl | rfl
    · exact ⟨fun s hs => by rw [← subName_baseName hs]; decide, by unfold BareName; decide⟩
    · exact ⟨fun s hs => by rw [← subName_baseName hs]; decide, by unfold BareName; decide⟩) eschemas
  obtain ⟨sfs, h8, h9⟩ := h7 rootJob (by simp [ejobs]) [epart flags] (.cons ⟨flags, by simp [ejobs], rfl, rfl, rfl⟩ .nil) (by decide) together codec lawful
  obtain ⟨l', h10, h11⟩ := h9 document thing_members (fun p hp => by obtain rfl := List.mem_singleton.1 hp; exact flag_members)
  exact ⟨_, files, sfs, l', Prod.ext C105ex.succeeds rfl, h5, h6, h8, h10, h11⟩

/-- **C105**, in full: whenever the command succeeds, what it leaves for the structs is a Go package. -/
def C105_statement (u : Unicode) : Prop := ∀ (abs : Str → Option Str) (t : Tools) (argv : List Str) (fs fs' : Gen.Files) (c : Command) (doc : P) (dir : Str)
  (jobs : List Gen.Spec.Job) (files : List File), Tidy t → program abs t argv fs = (0, fs') → ¬ Help argv → Called abs t argv fs c → t.read c.schemaPath = .ok doc →
  Gen.Spec.Dir c.args.toBuildArgs t.getwd dir → Gen.Spec.Jobs t.title c.structNames doc (t.abs c.schemaPath) jobs → TidyJobs t c.args.toBuildArgs jobs →
  Each (Written u fs' c.args.toBuildArgs dir) jobs files → GoPackage (pathBase dir) files

open C76ex Toy C93ex C102ex C102embed C105ex in
/-- The statement is false: if the schema of a oneOf entry has an allOf entry that the root schema lacks, the struct for it embeds one that the package does not declare, as
the option to embed is on unless it is turned off. -/
theorem C105_refuted : ∃ u, ¬ C105_statement u := by
  refine ⟨ascii, fun h => ?_⟩
  have hp := h some (toolsFor otherDoc) argv (fun _ => none) _ _ otherDoc g!"/out" [thing []] [thingFile [g!"Flags"]]
    ⟨fun _ _ _ _ _ h => (nomatch h), fun _ _ _ _ h => (nomatch h), fun _ _ _ h => (nomatch h)⟩
    (Prod.ext (by decide +kernel : (program some (toolsFor otherDoc) argv fun _ => none).1 = 0) rfl) no_help rfl rfl (.given (by decide)) otherPlan (by
      intro j hj
      obtain rfl := List.mem_singleton.1 hj
      exact ⟨fun s hs => by rw [← subName_baseName hs]; decide, by unfold BareName; decide⟩) (by
      refine .cons (fun path h => ?_) .nil
      rw [fileFor_iff] at h
      subst h
      exact source_of (by decide +kernel))
  have := hp.closed (thingFile [g!"Flags"]) (by simp) _ (List.mem_singleton.2 rfl) g!"Flags" (by decide)
  revert this
  decide

end JT.GoText
