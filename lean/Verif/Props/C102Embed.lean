import Verif.Props.C102
/- C102 with `EmbedAllOf`, which the command sets unless told otherwise: schemas are read without their allOf entries, and structs embed those of the entries. -/
namespace JT.GoText
open Gen Spec JT.Spec GoJson Flat

variable {u : Unicode} {title : Str → Str}

/-- What is asked of the schemas of the structs to be generated; `es` gives the structs that each embeds. -/
structure EmbedSchemas (u : Unicode) (w : World) (args : BuildArgs) (dir : Str) (jobs : List Gen.Spec.Job) (part : Gen.Spec.Job → Part) (es : Gen.Spec.Job → List Str) : Prop where
  /-- The schemas are read without their allOf entries if these are to be embedded. -/
  read : ∀ j ∈ jobs, w.schema (if args.embedAllOf = true then false else true) (resolve args j.ref) j.name = .ok (part j).schema
  name : ∀ j ∈ jobs, (part j).name = j.name
  ok : ∀ j ∈ jobs, PartOk u w.title args.toArgs (pathBase dir) j.embeds (es j) (part j)
  /-- For each allOf entry of a schema there is one of the structs to be generated. -/
  declared : ∀ j ∈ jobs, ∀ e ∈ es j, ∃ c ∈ jobs, e = w.title c.name
  /-- No two schemas give structs of the same name. -/
  distinct : ∀ j ∈ jobs, ∀ j' ∈ jobs, ∀ n, StructName w.title args.toArgs (part j) n → StructName w.title args.toArgs (part j') n → j = j'

/-- The schemas of embedded structs that embed nothing themselves. -/
def Commons (title : Str → Str) (jobs : List Gen.Spec.Job) (part : Gen.Spec.Job → Part) (es : Gen.Spec.Job → List Str) (l : List Str) (commons : List Part) : Prop :=
  Each (fun e p => ∃ c ∈ jobs, es c = [] ∧ p = part c ∧ e = title c.name) l commons

/-- The structs that are embedded are those that C87 names. -/
theorem partOk_embeds {args : Args} {pkg : Str} {embeds es : List Str} {p : Part} (h : PartOk u title args pkg embeds es p) : JT.Spec.Embeds title args embeds p.schema.allOf es := by
  rcases h.written with ⟨hw, _⟩ | ⟨hw, _⟩
  · exact hw.embedded
  · exact hw.embedded

theorem embed_nodup {args : Args} {pkg : Str} {part : Gen.Spec.Job → Part} {es : Gen.Spec.Job → List Str} : ∀ {jobs : List Gen.Spec.Job} {files : List File},
    Each (fun j f => ∃ Fs, PartFile title args pkg (es j) (part j) f Fs) jobs files → jobs.Nodup →
    (∀ j ∈ jobs, ∀ j' ∈ jobs, ∀ n, StructName title args (part j) n → StructName title args (part j') n → j = j') → (packageNames files).Nodup
  | _, _, .nil, _, _ => List.nodup_nil
  | j :: jobs, f :: files, .cons ⟨Fs, hf⟩ he, hn, hd => by
    rw [List.nodup_cons] at hn
    show ((f.types.map Prod.fst) ++ packageNames files).Nodup
    rw [List.nodup_append]
    refine ⟨hf.closed.1, embed_nodup he hn.2 fun a ha b hb => hd a (by simp [ha]) b (by simp [hb]), ?_⟩
    rintro a ha b hb rfl
    obtain ⟨f', hf', hm⟩ := mem_packageNames.1 hb
    obtain ⟨j', hj', Fs', hp⟩ := Each.right he f' hf'
    exact hn.1 (hd j (by simp) j' (by simp [hj']) a (hf.names a ha) (hp.names a hm) ▸ hj')

theorem commons_names {jobs : List Gen.Spec.Job} {part : Gen.Spec.Job → Part} {es : Gen.Spec.Job → List Str} (hname : ∀ j ∈ jobs, (part j).name = j.name) :
    ∀ {l : List Str} {ps : List Part}, Commons title jobs part es l ps → ps.map (fun p => title p.name) = l ∧ ∀ p ∈ ps, ∃ c ∈ jobs, es c = [] ∧ p = part c
  | _, _, .nil => ⟨rfl, fun _ h => nomatch h⟩
  | _, _, .cons ⟨c, h1, h2, h3, h4⟩ h => by
    obtain ⟨e1, e2⟩ := commons_names hname h
    refine ⟨by rw [List.map_cons, e1, h3, hname c h1, h4], fun p hp => ?_⟩
    rcases List.mem_cons.1 hp with rfl | hp
    · exact ⟨c, h1, h2, h3⟩
    · exact e2 p hp

/-- The files of the structs make a package. -/
theorem package_of {w : World} {args : BuildArgs} {fs' : Files} {dir : Str} {jobs : List Gen.Spec.Job} {part : Gen.Spec.Job → Part} {es : Gen.Spec.Job → List Str}
    (hjn : jobs.Nodup) (hs : EmbedSchemas u w args dir jobs part es)
    (h4 : ∀ j ∈ jobs, ∀ file, Gen.Spec.FileFor dir (resolve args j.ref) file → ∃ c, GoCodeFor w { args with outputDir := dir } (pathBase dir) j c ∧ fs' file = some c) :
    ∃ files, GoPackage (pathBase dir) files ∧ Each (Written u fs' args dir) jobs files ∧
      ∀ j ∈ jobs, ∀ commons, Commons w.title jobs part es (es j) commons → (es j).Nodup → Together w.title args.fieldNames (part j) commons →
        ∀ c : Codec, c.Lawful → ∃ sfs, StructIn files (w.title j.name) sfs ∧
        ∀ l, Members c true args.pointers (part j).props (part j).schema.required l → (∀ p ∈ commons, Members c true args.pointers p.props p.schema.required l) →
          ∃ l', Through c sfs l l' ∧ SameMembers c true (joined (part j) commons) (ownersRequired (part j) commons) l l' := by
  have hfiles : ∃ files, Each (fun j f => Written u fs' args dir j f ∧ ∃ Fs, PartFile w.title args.toArgs (pathBase dir) (es j) (part j) f Fs) jobs files := by
    apply each_exists
    intro j hj
    obtain ⟨f, Fs, hp, hg⟩ := part_file (hs.ok j hj)
    refine ⟨f, fun path hpath => ?_, Fs, hp⟩
    obtain ⟨_, ⟨inst, g, a1, a2, a3, rfl⟩, a4⟩ := h4 j hj path hpath
    have a1 : w.schema (if args.embedAllOf = true then false else true) (resolve args j.ref) j.name = .ok inst := a1
    rw [hs.read j hj] at a1
    cases a1
    obtain ⟨g', b1, b2⟩ := hg w.sched
    rw [hs.name j hj] at b1
    have a2 : newGoFile w.sched w.title args.toArgs (part j).schema j.name j.embeds = .ok g := a2
    rw [a2] at b1
    cases b1
    exact ⟨_, _, a4, b2⟩
  obtain ⟨files, hfiles⟩ := hfiles
  have hparts : Each (fun j f => ∃ Fs, PartFile w.title args.toArgs (pathBase dir) (es j) (part j) f Fs) jobs files := Each.imp' (fun _ _ h => h.2) hfiles
  have hfresh : ∀ f ∈ files, Fresh f := by
    intro f hf
    obtain ⟨j, _, Fs, hp⟩ := Each.right hparts f hf
    exact hp.fresh
  have hof : ∀ j ∈ jobs, ∃ f Fs, f ∈ files ∧ PartFile w.title args.toArgs (pathBase dir) (es j) (part j) f Fs := by
    intro j hj
    obtain ⟨f, hf, Fs, hp⟩ := Each.left hparts j hj
    exact ⟨f, Fs, hf, hp⟩
  refine ⟨files, ⟨?_, embed_nodup hparts hjn hs.distinct, ?_, ?_, ?_⟩, Each.imp' (fun _ _ h => h.1) hfiles, ?_⟩
  · intro f hf
    obtain ⟨j, _, Fs, hp⟩ := Each.right hparts f hf
    exact hp.pkg
  · intro f hf
    obtain ⟨j, _, Fs, hp⟩ := Each.right hparts f hf
    exact hp.imports
  · intro f hf p hp hm
    obtain ⟨j, _, Fs, hpf⟩ := Each.right hparts f hf
    obtain rfl := hpf.times p hp
    obtain ⟨f', hf', hm⟩ := mem_packageNames.1 hm
    obtain ⟨j', _, Fs', hpf'⟩ := Each.right hparts f' hf'
    obtain ⟨c, t, e, hl⟩ := hpf'.upper _ hm
    cases e
    exact absurd hl (by decide)
  · intro f hf d hd n hn
    obtain ⟨j, hj, Fs, hp⟩ := Each.right hparts f hf
    rcases hp.closed.2 d hd n hn with h' | h' | h'
    · exact .inl h'
    · exact .inr (mem_packageNames.2 ⟨f, hf, h'⟩)
    · obtain ⟨c, hc, rfl⟩ := hs.declared j hj n h'
      obtain ⟨f', Fs', hf', hpf⟩ := hof c hc
      exact .inr (mem_packageNames.2 ⟨f', hf', List.mem_map.2 ⟨_, hpf.mem, by rw [hs.name c hc]; rfl⟩⟩)
  · intro j hj commons hcm hone ht c hc
    obtain ⟨e1, e2⟩ := commons_names hs.name hcm
    obtain ⟨f, Fs, hf, hp⟩ := hof j hj
    have hsome : ∃ k q, Listed (part j).props k q := by
      rcases (hs.ok j hj).written with ⟨hw, _⟩ | ⟨hw, _⟩
      · exact hw.some
      · exact hw.some
    rw [← hs.name j hj]
    rw [← e1] at hp hone
    refine package_through hc hfresh (hs.ok j hj).keys hsome hf hp ?_ hone ht
    intro p hp'
    obtain ⟨a, ha, hae, rfl⟩ := e2 p hp'
    obtain ⟨f', Fs', hf', hpf⟩ := hof a ha
    rw [hae] at hpf
    exact ⟨f', Fs', hf', hpf⟩

/-- **C102**, partial, with or without `EmbedAllOf`: if `BuildStructs` succeeds, then the files it leaves are source of a Go package, if there is a struct for each allOf entry
of the schemas; documents of a schema and of the schemas whose structs its struct embeds go through its struct.  Missing: embedded structs that embed structs themselves, and
properties that two of the other schemas have. -/
theorem C102_embedded_partial {w : World} {args : BuildArgs} {fs fs' : Files} {x : Unit} {doc : P} {dir : Str} {jobs : List Gen.Spec.Job} {stems : List Str}
    {part : Gen.Spec.Job → Part} {es : Gen.Spec.Job → List Str} (h : buildStructs w args fs = (.ok x, fs')) (hdoc : w.read args.schemaPath = .ok doc)
    (hdir : Gen.Spec.Dir args w.getwd dir) (h3 : Gen.Spec.Jobs w.title args.structNames doc (w.abs args.schemaPath) jobs) (hst : Gen.Spec.Stems args jobs stems)
    (hnd : stems.Nodup) (hsl : ∀ s ∈ stems, '/' ∉ s) (hs : EmbedSchemas u w args dir jobs part es) :
    ∃ files, GoPackage (pathBase dir) files ∧ Each (Written u fs' args dir) jobs files ∧
      ∀ j ∈ jobs, ∀ commons, Commons w.title jobs part es (es j) commons → (es j).Nodup → Together w.title args.fieldNames (part j) commons →
        ∀ c : Codec, c.Lawful → ∃ sfs, StructIn files (w.title j.name) sfs ∧
        ∀ l, Members c true args.pointers (part j).props (part j).schema.required l → (∀ p ∈ commons, Members c true args.pointers p.props p.schema.required l) →
          ∃ l', Through c sfs l l' ∧ SameMembers c true (joined (part j) commons) (ownersRequired (part j) commons) l l' := by
  obtain ⟨doc', dir', jobs', h1, h2, h3', h4, _⟩ := C65_partial h
  obtain rfl := Res.ok.inj (hdoc.symm.trans h1)
  obtain rfl := dir_unique hdir h2
  obtain rfl := jobs_unique h3 h3'
  exact package_of (jobs_nodup hst hnd) hs fun j hj file hf => h4 stems hst hnd hsl j hj file hf

/-- Embedded structs must be there: what `BuildStructs` leaves if it succeeds is a Go package. -/
def C102_embedded_statement (u : Unicode) : Prop := ∀ (w : World) (args : BuildArgs) (fs fs' : Files) (x : Unit) (doc : P) (dir : Str) (jobs : List Gen.Spec.Job) (stems : List Str)
  (part : Gen.Spec.Job → Part) (es : Gen.Spec.Job → List Str) (files : List File), buildStructs w args fs = (.ok x, fs') → w.read args.schemaPath = .ok doc →
  Gen.Spec.Dir args w.getwd dir → Gen.Spec.Jobs w.title args.structNames doc (w.abs args.schemaPath) jobs → Gen.Spec.Stems args jobs stems → stems.Nodup → (∀ s ∈ stems, '/' ∉ s) →
  (∀ j ∈ jobs, w.schema (if args.embedAllOf = true then false else true) (resolve args j.ref) j.name = .ok (part j).schema ∧ (part j).name = j.name ∧
    PartOk u w.title args.toArgs (pathBase dir) j.embeds (es j) (part j)) →
  (∀ j ∈ jobs, ∀ j' ∈ jobs, ∀ n, StructName w.title args.toArgs (part j) n → StructName w.title args.toArgs (part j') n → j = j') →
  Each (Written u fs' args dir) jobs files → GoPackage (pathBase dir) files

/-! ### Examples -/

namespace C102embed
open C76ex Toy C93ex C102ex

/-- A schema with an integer and one entry in allOf. -/
def whole (name : Str) : Part :=
  ⟨name, { Instance.zero with properties := some [(g!"n", pInt)], allOf := [{ Instance.zero with fromRef := g!"flags.json" }] }, [(g!"n", pInt)]⟩

def eargs : BuildArgs := ⟨{ args with embedAllOf := true }, g!"/s/root.json", g!"/out"⟩

theorem whole_listed {name k : Str} {q : P} (h : Listed (whole name).props k q) : k = g!"n" ∧ q = pInt := single_listed (name := name) (r := []) h

theorem whole_ok {name : Str} (hn : Exported (C56ex.capital name)) (hup : ∀ c t, C56ex.capital name = c :: t → c.isLower = false) :
    PartOk ascii C56ex.capital eargs.toArgs g!"out" [] [g!"Flags"] (whole name) := by
  have hx : ∀ e ∈ [g!"Flags"], Exported e := by decide
  have hquiet : ((schemaPositions instNode ⟨some [(g!"n", pInt)], none⟩).all fun x => C56ex.quietB x.1 x.2) = true := by decide +kernel
  have hone : ((schemaPositions instNode ⟨some [(g!"n", pInt)], none⟩).all fun x => C56ex.oneB x.1 x.2) = true := by decide +kernel
  have hplain : ((schemaPositions instNode ⟨some [(g!"n", pInt)], none⟩).all fun x => C56ex.plainB x.1 x.2) = true := by decide +kernel
  have hr : (g!"n".all fun c => c != '`' && c != '\r' && sourceChar c) = true := by decide
  refine ⟨by simp [Part.keys, whole], .inl ⟨⟨rfl, rfl, rfl, by simp [whole], C56ex.quiet hquiet, C56ex.one hone, C56ex.plain hplain, ?_,
    ⟨g!"n", pInt, by simp [whole, GMap.get], not_hydrated (by decide +kernel)⟩,
    ascii_name (by decide), exported_name hn, fun e h => exported_name (hx e h)⟩, ⟨?_, ?_, ?_⟩, ?_⟩, hup, ⟨?_, ?_, ?_⟩, ?_⟩
  · exact .on (given := []) rfl (.cons ⟨g!"flags", stem (by decide), .inr ⟨rfl, by decide⟩⟩ .nil)
  · intro k' q' h; rw [(whole_listed h).1]; exact raw_of hr
  · intro k' q' h; rw [(whole_listed h).1]; exact exported_name (by decide)
  · intro k1 q1 k2 q2 h1 h2 _; rw [(whole_listed h1).1, (whole_listed h2).1]
  · intro k' q' h; rw [(whole_listed h).2]; exact C93ex.clean_int
  · intro k' q' h; rw [(whole_listed h).1]; decide
  · intro k' q' h; rw [(whole_listed h).1]; decide
  · intro k1 q1 k2 q2 h1 h2 _; rw [(whole_listed h1).1, (whole_listed h2).1]
  · intro k' q' h; rw [(whole_listed h).2]; exact C76ex.clean_int

theorem flags_ok : PartOk ascii C56ex.capital eargs.toArgs g!"out" [] [] (single g!"Flags" g!"flag" pBool [g!"flag"]) := by
  have hr : (g!"flag".all fun c => c != '`' && c != '\r' && sourceChar c) = true := by decide
  refine ⟨by simp [Part.keys, single], .inl ⟨⟨rfl, rfl, rfl, by simp [single], C56ex.quiet (by decide +kernel), C56ex.one (by decide +kernel), C56ex.plain (by decide +kernel), ?_,
    ⟨g!"flag", pBool, by simp [single, GMap.get], not_hydrated (by decide +kernel)⟩,
    ascii_name (by decide), exported_name (by decide), fun e h => (nomatch h)⟩, ⟨?_, ?_, ?_⟩, ?_⟩, by intro c t e; cases e; decide, ⟨?_, ?_, ?_⟩, ?_⟩
  · exact .on (given := []) rfl .nil
  · intro k' q' h; rw [(single_listed h).1]; exact raw_of hr
  · intro k' q' h; rw [(single_listed h).1]; exact exported_name (by decide)
  · intro k1 q1 k2 q2 h1 h2 _; rw [(single_listed h1).1, (single_listed h2).1]
  · intro k' q' h; rw [(single_listed h).2]; exact clean_bool
  · intro k' q' h; rw [(single_listed h).1]; decide
  · intro k' q' h; rw [(single_listed h).1]; decide
  · intro k1 q1 k2 q2 h1 h2 _; rw [(single_listed h1).1, (single_listed h2).1]
  · intro k' q' h; rw [(single_listed h).2]; exact .leaf decoded.1 rfl (by decide) (desc rfl)

/-- The root schema has the integer and the entry. -/
def rootDoc : P := .obj [(g!"allOf", .arr [C65ex.ref g!"flags.json"]), (g!"properties", .obj [(g!"n", pInt)])]
/-- The root schema has a oneOf entry, and the schema for that has the integer and the entry. -/
def otherDoc : P := .obj [(g!"oneOf", .arr [C65ex.ref g!"thing.json"])]

def partAt (path : Str) : Part :=
  if path = g!"/s/flags.json" then single g!"Flags" g!"flag" pBool [g!"flag"] else if path = g!"/s/root.json" then whole g!"Root" else whole g!"thing"
def epart (j : Gen.Spec.Job) : Part := partAt (resolve eargs j.ref)
def ees (j : Gen.Spec.Job) : List Str := if resolve eargs j.ref = g!"/s/flags.json" then [] else [g!"Flags"]

def eworld (doc : P) : World := ⟨Sched.id, C56ex.capital, .err, .ok, fun _ => .ok doc, fun _ p _ => .ok (partAt p).schema, fun _ => true, fun _ _ => true⟩
def erun (doc : P) : Res Unit × Files := buildStructs (eworld doc) eargs fun _ => none

def rootJob : Gen.Spec.Job := ⟨g!"/s/root.json", g!"Root", []⟩
def ejobs : List Gen.Spec.Job := [flags, rootJob]

theorem eplan : Gen.Spec.Jobs (eworld rootDoc).title eargs.structNames rootDoc ((eworld rootDoc).abs eargs.schemaPath) ejobs := by
  obtain ⟨doc, _, h2, h3, _⟩ := plan_of (w := eworld rootDoc) (args := eargs) (dir := g!"/out") (refs := [g!"flags.json", g!"/s/root.json"]) (oneOf := []) (by rfl)
  cases h2
  exact jobs_of (w := eworld rootDoc) (args := eargs) h3

theorem eok : (erun rootDoc).1 = .ok () := by decide +kernel

theorem estems : Gen.Spec.Stems eargs ejobs [g!"flags", g!"root"] := .cons (stem (by decide)) (.cons (stem (by decide)) .nil)

theorem ename {p : Part} {n : Str} (h : StructName C56ex.capital eargs.toArgs p n) : n = C56ex.capital p.name := by
  rcases h with h | ⟨h, _⟩
  · exact h
  · cases h

theorem eschemas : EmbedSchemas ascii (eworld rootDoc) eargs g!"/out" ejobs epart ees := by
  have hall : ∀ {Q : Gen.Spec.Job → Prop}, Q flags → Q rootJob → ∀ j ∈ ejobs, Q j := by
    intro Q h1 h2 j hj
    simp only [ejobs, List.mem_cons, List.not_mem_nil, or_false] at hj
    rcases hj with rfl | rfl
    · exact h1
    · exact h2
  refine ⟨hall rfl rfl, hall rfl rfl, hall flags_ok (whole_ok (name := g!"Root") (by decide) (by intro c t e; cases e; decide)), ?_, ?_⟩
  · exact hall (fun e h => (nomatch h)) fun e h => ⟨flags, by simp [ejobs], by rw [List.mem_singleton.1 (show e ∈ [g!"Flags"] from h)]; rfl⟩
  · have hne : C56ex.capital g!"Flags" ≠ C56ex.capital g!"Root" := by decide
    exact hall (hall (fun _ _ _ => rfl) fun n h h' => absurd ((ename h).symm.trans (ename h')) hne)
      (hall (fun n h h' => absurd ((ename h').symm.trans (ename h)) hne) fun _ _ _ => rfl)

theorem together : Together C56ex.capital [] (epart rootJob) [epart flags] := by
  refine ⟨?_, by unfold Apart; decide, ?_⟩
  · intro p hp k q hl
    obtain rfl := List.mem_singleton.1 hp
    rw [(whole_listed (name := g!"Root") hl).1]
    decide
  · intro k q hk hh
    have := GMap.get_some_mem (show GMap.get k [(g!"n", pInt)] = some q from hk)
    have : k = g!"n" ∧ q = pInt := by simpa using this
    rw [this.2] at hh
    exact absurd hh (not_hydrated (by decide +kernel))

/-- The theorem applies to a schema with a property of its own and an allOf entry: the document comes back through the struct that embeds the one of the entry. -/
example : ∃ files sfs l', GoPackage g!"out" files ∧ Each (Written ascii (erun rootDoc).2 eargs g!"/out") ejobs files ∧ StructIn files g!"Root" sfs ∧
    Through codec sfs document l' ∧ SameMembers codec true [(g!"n", pInt), (g!"flag", pBool)] [g!"flag"] document l' := by
  obtain ⟨files, h1, h2, h3⟩ := C102_embedded_partial (u := ascii) (w := eworld rootDoc) (args := eargs) (Prod.ext eok rfl) rfl (.given (by decide)) eplan estems (by decide)
    (by decide) eschemas
  obtain ⟨sfs, h4, h5⟩ := h3 rootJob (by simp [ejobs]) [epart flags] (.cons ⟨flags, by simp [ejobs], rfl, rfl, rfl⟩ .nil) (by decide) together codec lawful
  obtain ⟨l', h6, h7⟩ := h5 document thing_members (fun p hp => by obtain rfl := List.mem_singleton.1 hp; exact flag_members)
  exact ⟨files, sfs, l', h1, h2, h4, h6, h7⟩

/-! The struct of a oneOf entry embeds one that is not generated. -/

theorem otherOk : (erun otherDoc).1 = .ok () ∧ (textAt (erun otherDoc).2 g!"/out/thing.go").bind (lex ascii) = some (thingFile [g!"Flags"]).toks := by decide +kernel

theorem otherPlan : Gen.Spec.Jobs (eworld otherDoc).title eargs.structNames otherDoc ((eworld otherDoc).abs eargs.schemaPath) [thing []] := by
  obtain ⟨doc, _, h2, h3, _⟩ := plan_of (w := eworld otherDoc) (args := eargs) (dir := g!"/out") (refs := []) (oneOf := [g!"thing.json"]) (by rfl)
  cases h2
  exact jobs_of (w := eworld otherDoc) (args := eargs) h3

theorem otherWritten : Each (Written ascii (erun otherDoc).2 eargs g!"/out") [thing []] [thingFile [g!"Flags"]] := by
  refine .cons (fun path h => ?_) .nil
  rw [fileFor_iff] at h
  subst h
  exact source_of otherOk.2

end C102embed

open C102embed C76ex C93ex C102ex in
/-- With `EmbedAllOf` the package may be incomplete: the schema of a oneOf entry may have allOf entries that the root schema does not have; the struct then embeds one that is
not declared anywhere. -/
theorem C102_embedded_refuted : ∃ u, ¬ C102_embedded_statement u := by
  refine ⟨ascii, fun h => ?_⟩
  have hp := h (eworld otherDoc) eargs (fun _ => none) _ () otherDoc g!"/out" [thing []] [g!"thing"] epart ees [thingFile [g!"Flags"]] (Prod.ext otherOk.1 rfl) rfl
    (.given (by decide)) otherPlan (.cons (stem (by decide)) .nil) (by decide) (by decide) (by
      intro j hj
      obtain rfl := List.mem_singleton.1 hj
      exact ⟨rfl, rfl, whole_ok (name := g!"thing") (by decide) (by intro c t e; cases e; decide)⟩) (by
      intro j hj j' hj' n _ _
      rw [List.mem_singleton.1 hj, List.mem_singleton.1 hj']) otherWritten
  have := hp.closed (thingFile [g!"Flags"]) (by simp) _ (List.mem_singleton.2 rfl) g!"Flags" (by decide)
  revert this
  decide

end JT.GoText
