import Verif.Props.C104
import Verif.Props.C105
/- C111: the command with the option for Avro, from its arguments to the Avro schemas that it leaves. -/
namespace JT.GoText
open Gen Spec JT.Spec GoJson Flat

variable {u : Unicode} {isPrint : Char → Bool}

/-- What `BuildAvroSchemaFile` does in the program: if go/parser makes a tree of a file that is Go source, it is the tree of that source; and if a schema is made of a struct
in a file, it is the one that the model of `BuildAvroSchemaFile` makes of the trees. -/
structure AvroTool (u : Unicode) (isPrint : Char → Bool) (t : Tools) (parse : Gen.Files → Go.Sources) : Prop where
  sound : ∀ fs path pkg time structs f a, fs path = some (.go pkg time structs) → Source u (fileSource pkg (time, structs)) f → (parse fs).file path = .ok a → a = f.ast
  schema : ∀ name path fs c, t.avsc name path fs = .ok c → ∃ text N, c = .other text ∧
    ∀ n, N ≤ n → ∃ p, Go.avroSchemaFile isPrint t.lower (parse fs) n name path = .ok (p, text)

/-- The schema for a struct, if objects are inline; `Part` is a schema with its properties, and `es` are the names of the structs that it embeds. -/
structure AvroPart (u : Unicode) (title : Str → Str) (isPrint : Char → Bool) (args : Args) (pkg : Str) (embeds es : List Str) (p : Part) : Prop where
  writable : Writable u title args p.schema p.props pkg p.name embeds es
  fields : Names u title args.fieldNames p.props
  texts : ∀ k q, Listed p.props k q → Clean u title args.fieldNames args.descTag q
  names : CleanNames title args.fieldNames p.props
  clean : ∀ k q, Listed p.props k q → AvroClean title args.fieldNames isPrint args.descTag q
  text : PlainText isPrint (title p.name)

theorem file_go {dir path file : Str} (h : Gen.Spec.FileFor dir path file) (hs : ∀ s, BaseName path s → '/' ∉ s) : hasSuffix file g!".go" = true := by
  obtain ⟨stem, h1, rfl⟩ := h
  obtain ⟨p, hp⟩ := joinPath_elem dir
  rw [hp _ (elem_suffix (hs _ h1) (by decide) (by decide))]
  unfold hasSuffix
  rw [List.isSuffixOf_iff_suffix]
  exact ⟨p ++ stem, by simp⟩

/-- What is made of a file for a schema. -/
theorem avro_part {title : Str → Str} {args : Args} {pkg : Str} {embeds : List Str} {p : Part} (h : AvroPart u title isPrint args pkg embeds [] p) :
    ∃ fields, RecordFor title args.fieldNames args.descTag (MayMiss false) p.props p.schema.required fields ∧
      ∀ sched, ∃ g f, newGoFile sched title args p.schema p.name embeds = .ok g ∧ Source u (fileSource pkg (g.text title args)) f ∧
        ∀ (s : Go.Sources) path (lower : Str → Str), hasSuffix path g!".go" = true → s.file path = .ok f.ast →
          ∃ N, ∀ n, N ≤ n → Go.avroSchemaFile isPrint lower s n (title p.name) path = .ok (joinPath (pathDir path) (lower (title p.name) ++ g!".avsc"), fileText (title p.name) fields) := by
  have hin := h.writable.inline
  obtain ⟨ks, Fs, h1, imports, h2, h3⟩ := C93_partial h.writable h.fields h.texts
  obtain ⟨fs, h4, h5⟩ := struct_avro (w := ⟨isPrint, fun _ => none, fun _ => none⟩) hin h1 h.names h.clean
  refine ⟨fs, ?_, fun sched => ?_⟩
  · rwa [misses_plain (by rw [hin]; exact fun h => nomatch h.1)] at h5
  · obtain ⟨g, hg, hsrc⟩ := h3 sched
    refine ⟨g, _, hg, hsrc, fun s path lower hgo hs => ?_⟩
    obtain ⟨fs', h4', h5'⟩ := struct_avro (w := Go.avroWorld isPrint lower s (pathDir path)) hin h1 h.names h.clean
    obtain rfl := Go.C81_unique h5 h5'
    exact avro_file (post := []) hgo hs import_unused h4' h.text (record_some h5 h.writable.some)

/-- A schema that is made of a file is made of its tree. -/
theorem tool_schema {t : Tools} {parse : Gen.Files → Go.Sources} (ha : AvroTool u isPrint t parse) {title : Str → Str} {args : Args} {pkg : Str} {embeds : List Str} {p : Part}
    (h : AvroPart u title isPrint args pkg embeds [] p) {sched : Sched} {g : GoFile} (hg : newGoFile sched title args p.schema p.name embeds = .ok g) {fs : Gen.Files} {path : Str} {c : Content}
    (hfs : fs path = some (.go pkg (g.text title args).1 (g.text title args).2)) (hgo : hasSuffix path g!".go" = true) (hc : t.avsc (title p.name) path fs = .ok c)
    {fields : List AField} (hf : RecordFor title args.fieldNames args.descTag (MayMiss false) p.props p.schema.required fields) : c = .other (fileText (title p.name) fields) := by
  obtain ⟨fields', h1, h2⟩ := avro_part h
  obtain rfl := Go.C81_unique hf h1
  obtain ⟨g', f, h3, h4, h5⟩ := h2 sched
  obtain rfl := Res.ok.inj (hg.symm.trans h3)
  obtain ⟨text, N, rfl, h6⟩ := ha.schema _ _ _ _ hc
  cases hfile : (parse fs).file path with
  | ok a =>
    obtain rfl := ha.sound _ _ _ _ _ _ _ hfs h4 hfile
    obtain ⟨N', h7⟩ := h5 (parse fs) path t.lower hgo hfile
    obtain ⟨q, h8⟩ := h6 (N + N') (by omega)
    have := Res.ok.inj ((h7 (N + N') (by omega)).symm.trans h8)
    rw [(Prod.mk.inj this).2]
  | err =>
    obtain ⟨q, h8⟩ := h6 N (Nat.le_refl _)
    rw [Go.avroSchemaFile, Go.parseGoStruct, Go.goSource, if_pos hgo, hfile] at h8
    cases h8
  | panic =>
    obtain ⟨q, h8⟩ := h6 N (Nat.le_refl _)
    rw [Go.avroSchemaFile, Go.parseGoStruct, Go.goSource, if_pos hgo, hfile] at h8
    cases h8

/-- C111 with a choice of which fields may be null. -/
def C111_for (u : Unicode) (isPrint : Char → Bool) (miss : P → Bool → Prop) : Prop :=
  ∀ (abs : Str → Option Str) (t : Tools) (argv : List Str) (fs fs' : Gen.Files) (parse : Gen.Files → Go.Sources), Tidy t → AvroTool u isPrint t parse →
    program abs t argv fs = (0, fs') → ¬ Help argv →
    ∃ c os ps, Called abs t argv fs c ∧ Options argv os ps ∧ (∀ o ∈ os, Suits o) ∧ Asked abs os ps c ∧ (c.avro = true →
      ∃ doc dir jobs, t.read c.schemaPath = .ok doc ∧ Gen.Spec.Dir c.args.toBuildArgs t.getwd dir ∧ Gen.Spec.Jobs t.title c.structNames doc (t.abs c.schemaPath) jobs ∧
        ∀ (stems : List Str) (part : Gen.Spec.Job → Part), Gen.Spec.Stems c.args.toBuildArgs jobs stems → stems.Nodup → (∀ s ∈ stems, ¬ Reserved s) →
          TidyJobs t c.args.toBuildArgs jobs → (jobs.map fun j => t.lower (t.title j.name)).Nodup →
          (∀ j ∈ jobs, t.schema (if c.embedAllOf = true then false else true) (resolve c.args.toBuildArgs j.ref) j.name = .ok (part j).schema ∧ (part j).name = j.name ∧
            AvroPart u t.title isPrint c.args.toArgs (pathBase dir) j.embeds [] (part j)) →
          ∀ j ∈ jobs, ∃ fields, RecordFor t.title c.fieldNames c.descTag miss (part j).props (part j).schema.required fields ∧
            fs' (joinPath dir (t.lower (t.title j.name) ++ g!".avsc")) = some (.other (fileText (t.title j.name) fields)))

/-- **C111**, in full: a field can be null if the property is not required or may be null. -/
def C111_statement (u : Unicode) (isPrint : Char → Bool) : Prop := C111_for u isPrint (MayMiss true)

/-- **C111**, partial: if the command succeeds and the option for Avro was given, then beside the file of each struct there is the Avro schema file for a record with one field for
each property of its schema, with its name, description and type, that can be null if the property is not required and is no object.  Missing: required properties that may be
null, and optional objects (`C111_refuted`); structs of their own for objects.  For embedded structs see `C111_embedded_partial`. -/
theorem C111_partial : C111_for u isPrint (MayMiss false) := by
  intro abs t argv fs fs' parse ht ha h hh
  obtain ⟨c, os, ps, h0, h1, h2, h3, h4⟩ := program_ok h hh
  refine ⟨c, os, ps, h0, h1, h2, h3, fun hav => ?_⟩
  obtain ⟨doc, dir, jobs, a1, a2, a3, a4⟩ := C85_avro ht hav h4
  refine ⟨doc, dir, jobs, a1, a2, a3, fun stems part b1 b2 b3 b4 b5 b6 j hj => ?_⟩
  obtain ⟨stem, hst⟩ : ∃ file, Gen.Spec.FileFor dir (resolve c.args.toBuildArgs j.ref) file := ⟨_, fileFor_iff.2 rfl⟩
  obtain ⟨l, r, rfl⟩ := List.append_of_mem hj
  obtain ⟨c', ⟨inst, g, c1, c2, c3, rfl⟩, d1, d2⟩ := a4 stems b1 b2 b3 b4 b5 l j r rfl _ hst
  obtain ⟨e1, e2, e3⟩ := b6 j hj
  have c1 : t.schema (if c.embedAllOf = true then false else true) (resolve c.args.toBuildArgs j.ref) j.name = .ok inst := c1
  rw [e1] at c1
  cases c1
  obtain ⟨fields, f1, _⟩ := avro_part e3
  refine ⟨fields, f1, ?_⟩
  obtain ⟨s, ⟨fs1, ⟨g1, _⟩, g2⟩, g3, _⟩ := d2.schema
  have c2 : newGoFile t.sched t.title c.args.toArgs (part j).schema j.name j.embeds = .ok g := c2
  rw [← e2] at c2 g2 g3 ⊢
  rw [g3, tool_schema ha e3 c2 g1 (file_go hst (b4 j hj).1) g2 f1]

/-! ### Example -/

namespace C111ex
open C76ex Toy C93ex C102ex Go.C81ex

/-- A schema with a required text that may be null. -/
def doc : P := .obj [(g!"properties", .obj [(g!"text", pText)]), (g!"required", .arr [.sc (.str g!"text")])]
def root : Part := single g!"Root" g!"text" pText [g!"text"]
def rootFile : File := ⟨g!"out", [notice], [], [structDecl g!"Root" [] [.mk [] (some g!"Text") (.star (.name g!"string")) (some g!"json:\"text\"")]]⟩
def printable : Char → Bool := fun _ => false
def fields : List AField := [.mk g!"text" [] (.scalar g!"string") false]

/-- go/parser, for the one file. -/
def parse (fs : Gen.Files) : Go.Sources := ⟨fun path => if (textAt fs path).bind (lex ascii) = some rootFile.toks then .ok rootFile.ast else .err, fun _ => .err⟩

def tools : Tools :=
  { (⟨Sched.id, C56ex.capital, .err, .ok, fun _ => .ok doc, fun _ _ _ => .ok root.schema, fun _ => true, fun _ _ => true⟩ : Gen.World) with
    lower := id, graphql := fun _ _ _ _ => ([], .err)
    avsc := fun name path fs => if name = g!"Root" ∧ hasSuffix path g!".go" = true ∧ (textAt fs path).bind (lex ascii) = some rootFile.toks
      then .ok (.other (fileText g!"Root" fields)) else .err
    gogen := fun _ _ _ => ([], .ok ()), helper := fun _ _ _ _ => .ok (.empty, .ok .empty), msgp := fun _ _ => .err }

theorem tidy : Tidy tools := ⟨fun _ _ _ _ _ h => (nomatch h), fun _ _ _ _ h => (nomatch h), fun _ _ _ h => (nomatch h)⟩

theorem root_part : AvroPart ascii C56ex.capital printable args g!"out" [] [] root := by
  have h : PartOk ascii C56ex.capital args g!"out" [] [] root :=
    single_ok (by decide +kernel) (by decide +kernel) (by decide +kernel) (by decide) (by decide) (by decide) (not_hydrated (by decide +kernel)) (by decide) (fun _ h => (nomatch h))
      (by intro c t e; cases e; decide) C93ex.clean_text (.leaf decoded.2.2.2.1 rfl (by decide) (desc rfl))
  rcases h.written with ⟨h1, h2, h3⟩ | ⟨h1, _⟩
  · exact ⟨h1, h2, h3, h.names, fun k q hl => by rw [(single_listed hl).2]; exact Go.C81ex.clean_text, Go.plain_ascii (by decide)⟩
  · exact absurd h1.flat (by decide)

theorem fields_record : RecordFor C56ex.capital [] false (MayMiss false) root.props root.schema.required fields :=
  record_one (o := false) (not_hydrated (by decide +kernel)) decoded.2.2.2.1 ⟨fun h => (nomatch h), fun h => absurd h.1 (by decide)⟩ type_text

theorem tool : AvroTool ascii printable tools parse := by
  refine ⟨?_, ?_⟩
  · intro fs path pkg time structs f a h1 h2 h3
    unfold parse at h3
    simp only at h3
    split at h3
    · rename_i hl
      cases h3
      unfold textAt at hl
      rw [h1] at hl
      simp only at hl
      split at hl
      · rw [C93_unique h2 hl]
      · cases hl
    · cases h3
  · intro name path fs c h
    change (if name = g!"Root" ∧ hasSuffix path g!".go" = true ∧ (textAt fs path).bind (lex ascii) = some rootFile.toks
      then Res.ok (Content.other (fileText g!"Root" fields)) else .err) = .ok c at h
    split at h
    · rename_i hx
      obtain ⟨rfl, hgo, hl⟩ := hx
      cases h
      obtain ⟨fields', h1, h2⟩ := avro_part root_part
      obtain rfl := Go.C81_unique h1 fields_record
      obtain ⟨g, f, h3, h4, h5⟩ := h2 Sched.id
      have hf : f = rootFile := by
        refine C93_unique h4 ?_
        obtain rfl : _ = g := Res.ok.inj h3
        show lex ascii _ = some rootFile.toks
        decide +kernel
      subst hf
      obtain ⟨N, h6⟩ := h5 (parse fs) path id hgo (if_pos hl)
      exact ⟨_, N, rfl, fun n hn => ⟨_, h6 n hn⟩⟩
    · cases h

def argv : List Str := [g!"-descriptionAsStructTag=false", g!"-embedAllOf=false", g!"-avro", g!"-importPath=x/out", g!"/s/root.json", g!"/out"]

def bargs : BuildArgs := ⟨args, g!"/s/root.json", g!"/out"⟩

theorem called (c : Command) (h : Called some tools argv (fun _ => none) c) : c.args.toBuildArgs = bargs ∧ c.avro = true := by
  have : some c = _ := h.symm
  cases this
  exact ⟨rfl, rfl⟩

theorem succeeds : (program some tools argv fun _ => none).1 = 0 := by decide +kernel

theorem ends : program some tools argv (fun _ => none) = (0, (program some tools argv fun _ => none).2) := Prod.ext succeeds (Eq.refl _)

theorem no_help : ¬ Help argv := by
  rw [← help_iff]
  exact fun h => nomatch h

def rootJob : Gen.Spec.Job := ⟨g!"/s/root.json", g!"Root", []⟩

theorem plan : Gen.Spec.Jobs tools.title bargs.structNames doc (tools.abs bargs.schemaPath) [rootJob] := by
  obtain ⟨doc, _, h2, h3, _⟩ := plan_of (w := tools.toWorld) (args := bargs) (dir := g!"/out") (refs := [g!"/s/root.json"]) (oneOf := []) (by rfl)
  cases h2
  exact jobs_of (w := tools.toWorld) (args := bargs) h3

/-- What C111 says of this command. -/
theorem left {miss : P → Bool → Prop} (h : C111_for ascii printable miss) : ∃ fields, RecordFor C56ex.capital [] false miss root.props root.schema.required fields ∧
    (program some tools argv fun _ => none).2 g!"/out/Root.avsc" = some (.other (fileText g!"Root" fields)) := by
  obtain ⟨c, _, _, h0, _, _, _, h1⟩ := h some tools argv (fun _ => none) _ parse tidy tool ends no_help
  obtain ⟨hc, hav⟩ := called c h0
  obtain ⟨doc', dir, jobs, h1, h2, h3, h4⟩ := h1 hav
  have e1 : c.schemaPath = bargs.schemaPath := congrArg BuildArgs.schemaPath hc
  have e2 : c.structNames = bargs.structNames := congrArg (fun a : BuildArgs => a.structNames) hc
  have e3 : c.fieldNames = bargs.fieldNames := congrArg (fun a : BuildArgs => a.fieldNames) hc
  have e4 : c.descTag = bargs.descTag := congrArg (fun a : BuildArgs => a.descTag) hc
  have e5 : c.embedAllOf = bargs.embedAllOf := congrArg (fun a : BuildArgs => a.embedAllOf) hc
  rw [hc] at h2 h4
  rw [e1] at h1
  rw [e1, e2] at h3
  rw [e3, e4, e5] at h4
  obtain rfl : doc = doc' := Res.ok.inj h1
  obtain rfl : g!"/out" = dir := dir_unique (.given (by decide)) h2
  obtain rfl : [rootJob] = jobs := jobs_unique plan h3
  have e6 : joinPath g!"/out" (tools.lower (tools.title rootJob.name) ++ g!".avsc") = g!"/out/Root.avsc" := by decide +kernel
  generalize program some tools argv (fun _ => none) = r at h4 ⊢
  have h5 := h4 [g!"root"] (fun _ => root) (.cons (stem (by decide)) .nil) (by decide) (by unfold Reserved; decide) (by
    intro j hj
    obtain rfl := List.mem_singleton.1 hj
    exact ⟨fun s hs => by rw [← subName_baseName hs]; decide, by unfold BareName; decide⟩) (by decide) (by
    intro j hj
    obtain rfl := List.mem_singleton.1 hj
    exact ⟨rfl, rfl, root_part⟩) rootJob (by simp)
  rw [e6] at h5
  exact h5

/-- The command with the option for Avro leaves the schema file for the struct. -/
example : ∃ fields, RecordFor C56ex.capital [] false (MayMiss false) root.props root.schema.required fields ∧
    (program some tools argv fun _ => none).2 g!"/out/Root.avsc" = some (.other (fileText g!"Root" fields)) := left C111_partial

end C111ex

open C111ex C76ex Toy C93ex C102ex Go.C81ex in
/-- The statement is false: if a property is required and may be null, its Avro type is not a union with null. -/
theorem C111_refuted : ∃ u isPrint, ¬ C111_statement u isPrint := by
  refine ⟨ascii, printable, fun h => ?_⟩
  obtain ⟨fs1, h1, h2⟩ := left h
  obtain ⟨fs2, h3, h4⟩ := left (C111_partial (u := ascii) (isPrint := printable))
  rw [h2] at h4
  obtain rfl := Go.C81_unique h3 fields_record
  obtain rfl := Go.C81_unique h1 (record_one (o := true) (not_hydrated (by decide +kernel)) decoded.2.2.2.1
    ⟨fun _ => Or.inr ⟨_, decoded.2.2.2.1, by decide⟩, fun _ => rfl⟩ type_text)
  simp only [Option.some.injEq, Content.other.injEq] at h4
  revert h4
  decide +kernel

end JT.GoText
