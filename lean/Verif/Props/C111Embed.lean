import Verif.Props.C111
import Verif.Props.C87
import Verif.Props.C102Embed
/- C111 for structs that embed others: the Avro schemas that the command leaves for them. -/
namespace JT.GoText
open Gen Spec JT.Spec GoJson Flat

variable {u : Unicode} {isPrint : Char → Bool}

/-- As `AvroTool`, where go/parser makes the tree of every file that is Go source. -/
structure AvroReader (u : Unicode) (isPrint : Char → Bool) (t : Tools) (parse : Gen.Files → Go.Sources) : Prop where
  reads : ∀ fs path pkg time structs f, fs path = some (.go pkg time structs) → Source u (fileSource pkg (time, structs)) f → (parse fs).file path = .ok f.ast
  schema : ∀ name path fs c, t.avsc name path fs = .ok c → ∃ text N, c = .other text ∧
    ∀ n, N ≤ n → ∃ p, Go.avroSchemaFile isPrint t.lower (parse fs) n name path = .ok (p, text)

/-- The file for a schema has the name of its struct, with the first letter in lower case. -/
def NamedLike (lower : Str → Str) (path name : Str) : Prop := ∃ c t, name = c :: t ∧ BaseName path (lower [c] ++ t)

/-! ### Proof -/

theorem ast_embeds {fs : List Field} : ∀ es : List Str, fieldsAst (es.map (fun e => .mk [] none (.name e) none) ++ fs) = es.map Go.embedField ++ fieldsAst fs
  | [] => rfl
  | e :: es => by
    rw [List.map_cons, List.cons_append, fieldsAst, ast_embeds es]
    rfl

/-- What is found in the file for a schema. -/
theorem part_tree {title : Str → Str} {args : Args} {pkg : Str} {embeds es : List Str} {p : Part} (h : AvroPart u title isPrint args pkg embeds es p) :
    ∃ f, (∀ sched, ∃ g, newGoFile sched title args p.schema p.name embeds = .ok g ∧ Source u (fileSource pkg (g.text title args)) f) ∧
      ∀ w : Go.World, w.isPrint = isPrint → ∃ ps : List (Go.GoField × AField), (∀ x ∈ ps, Go.GoodF w x.1 x.2) ∧ (∀ x ∈ ps, x.1.name = some (goName title args.fieldNames x.2.name)) ∧ ps ≠ [] ∧
        RecordFor title args.fieldNames args.descTag (MayMiss false) p.props p.schema.required (ps.map Prod.snd) ∧
        ∀ (s : Go.Sources) path, hasSuffix path g!".go" = true → s.file path = .ok f.ast →
          Go.parseGoStruct s (title p.name) path = .ok (title p.name, .struct (es.map Go.embedField ++ ps.map Prod.fst)) := by
  have hin := h.writable.inline
  obtain ⟨ks, Fs, h1, imports, h2, h3⟩ := C93_partial h.writable h.fields h.texts
  refine ⟨_, h3, fun w hw => ?_⟩
  subst hw
  obtain ⟨k1, k2, k3⟩ := h1
  obtain ⟨ps, h4⟩ := fieldsFor_avro (w := w) hin k3 h.names h.clean
  have h5 := (h4.record k1 k2).2
  rw [misses_plain (by rw [hin]; exact fun h => nomatch h.1)] at h5
  refine ⟨ps, h4.good, h4.named, ?_, h5, fun s path hgo hs => ?_⟩
  · have := record_some h5 h.writable.some
    rintro rfl
    exact this rfl
  · have e := ast_embeds (fs := Fs) es
    rw [h4.ast] at e
    rw [← e]
    exact Go.C84_file_partial hgo (pre := imports.map fun _ => .gen [.import]) (post := []) (t := .struct _) hs import_unused

/-- The embedded structs, as found in their files. -/
theorem embeds_found {title : Str → Str} {lower : Str → Str} {args : Args} {s : Go.Sources} {dir : Str} {own : Part} {r : List Str} {xs : List (Go.GoField × AField)}
    (ho : RecordFor title args.fieldNames args.descTag (MayMiss false) own.props r (xs.map Prod.snd)) {α : Type} {part : α → Part} : ∀ {commons : List α},
    (∀ a ∈ commons, Go.LastShown title args.fieldNames own (part a)) →
    (∀ a ∈ commons, PlainText isPrint (title (part a).name) ∧ ∃ ps : List (Go.GoField × AField), (∀ x ∈ ps, Go.GoodF (Go.avroWorld isPrint lower s dir) x.1 x.2) ∧
      (∀ x ∈ ps, x.1.name = some (goName title args.fieldNames x.2.name)) ∧ ps ≠ [] ∧
      RecordFor title args.fieldNames args.descTag (MayMiss false) (part a).props (part a).schema.required (ps.map Prod.snd) ∧
      (Go.avroWorld isPrint lower s dir).files (title (part a).name) = some (ps.map Prod.fst)) →
    ∃ pss : List (List (Go.GoField × AField)),
      Each (Go.EmbedOk (Go.avroWorld isPrint lower s dir) (xs.map fun x => goName title args.fieldNames x.2.name)) (commons.map fun a => title (part a).name) pss ∧
      Each (fun a ps => RecordFor title args.fieldNames args.descTag (MayMiss false) (part a).props (part a).schema.required (ps.map Prod.snd)) commons pss ∧
      ∀ ps ∈ pss, ∀ y ∈ ps, y.1.name = some (goName title args.fieldNames y.2.name)
  | [], _, _ => ⟨[], .nil, .nil, fun _ h => nomatch h⟩
  | a :: as, h1, h2 => by
    obtain ⟨pss, e1, e2, e3⟩ := embeds_found ho (part := part) (commons := as) (fun a ha => h1 a (by simp [ha])) (fun a ha => h2 a (by simp [ha]))
    obtain ⟨b1, ps, b2, b3, b4, b5, b6⟩ := h2 a (by simp)
    refine ⟨ps :: pss, .cons ⟨b1, b6, b2, b4, Go.last_kept ho b5 b3 (h1 a (by simp))⟩ e1, .cons b5 e2, ?_⟩
    intro zs hz
    rcases List.mem_cons.1 hz with rfl | hz
    · exact b3
    · exact e3 zs hz

/-- The file at `path` is the Go source that is generated for a schema. -/
def SourceAt (u : Unicode) (title : Str → Str) (args : Args) (pkg : Str) (s : Go.Sources) (path : Str) (p : Part) (embeds : List Str) : Prop :=
  ∃ sched g, newGoFile sched title args p.schema p.name embeds = .ok g ∧ ∀ f, Source u (fileSource pkg (g.text title args)) f → s.file path = .ok f.ast

/-- **C104** for structs that embed others, partial: of the Go source for a schema, and the Go source for the structs that it embeds, in files named like them, there is made the Avro
schema with the fields of the embedded structs, with their names as namespaces, but for those that the struct has itself, and its own fields.  The embedded structs embed
nothing, and their last field is none of the struct itself (`C87_refuted`). -/
theorem C104_embedded_partial {title : Str → Str} {lower : Str → Str} {args : Args} {pkg path : Str} {s : Go.Sources} {own : Part} {embeds es : List Str} {α : Type} {part : α → Part}
    {given : α → List Str} {commons : List α} (hgo : hasSuffix path g!".go" = true) (ho : AvroPart u title isPrint args pkg embeds es own) (hs : SourceAt u title args pkg s path own embeds)
    (hes : es = commons.map fun a => title (part a).name) (hnd : es.Nodup)
    (hc : ∀ a ∈ commons, AvroPart u title isPrint args pkg (given a) [] (part a) ∧ Go.LastShown title args.fieldNames own (part a) ∧
      ∃ c t, title (part a).name = c :: t ∧ '/' ∉ lower [c] ++ t ∧ SourceAt u title args pkg s (joinPath (pathDir path) (lower [c] ++ t ++ g!".go")) (part a) (given a)) :
    ∃ fs fss, RecordFor title args.fieldNames args.descTag (MayMiss false) own.props own.schema.required fs ∧
      Each (fun a gs => RecordFor title args.fieldNames args.descTag (MayMiss false) (part a).props (part a).schema.required gs) commons fss ∧
      ∃ N, ∀ n, N ≤ n → Go.avroSchemaFile isPrint lower s n (title own.name) path = .ok (joinPath (pathDir path) (lower (title own.name) ++ g!".avsc"),
        Go.Spec.fileTextWith (title own.name) ((es.zip fss).map (fun x => ([x.1], Go.Spec.shownFields (goName title args.fieldNames) fs x.2)) ++ [([], fs)])) := by
  have tree : ∀ (p : Part) (em em' : List Str) q, AvroPart u title isPrint args pkg em em' p → SourceAt u title args pkg s q p em → hasSuffix q g!".go" = true →
      ∃ ps : List (Go.GoField × AField), (∀ x ∈ ps, Go.GoodF (Go.avroWorld isPrint lower s (pathDir path)) x.1 x.2) ∧
        (∀ x ∈ ps, x.1.name = some (goName title args.fieldNames x.2.name)) ∧ ps ≠ [] ∧
        RecordFor title args.fieldNames args.descTag (MayMiss false) p.props p.schema.required (ps.map Prod.snd) ∧
        Go.parseGoStruct s (title p.name) q = .ok (title p.name, .struct (em'.map Go.embedField ++ ps.map Prod.fst)) := by
    rintro p em em' q hp ⟨sched, g, h1, h2⟩ hq
    obtain ⟨f, f1, f2⟩ := part_tree hp
    obtain ⟨ps, p1, p2, p3, p4, p5⟩ := f2 (Go.avroWorld isPrint lower s (pathDir path)) rfl
    obtain ⟨g', f3, f4⟩ := f1 sched
    rw [h1] at f3
    cases f3
    exact ⟨ps, p1, p2, p3, p4, p5 _ _ hq (h2 _ f4)⟩
  obtain ⟨xs, x1, x2, x3, x4, x5⟩ := tree own embeds es path ho hs hgo
  obtain ⟨pss, y1, y2, y3⟩ := embeds_found (isPrint := isPrint) (lower := lower) (s := s) (dir := pathDir path) (args := args) x4 (part := part) (commons := commons)
    (fun a ha => (hc a ha).2.1) (fun a ha => by
      obtain ⟨k1, _, c, t, k2, k3, k4⟩ := hc a ha
      obtain ⟨ps, p1, p2, p3, p4, p5⟩ := tree _ _ _ _ k1 k4 (Go.suffix_go k3)
      refine ⟨k1.text, ps, p1, p2, p3, p4, ?_⟩
      have hpath : Go.structToFilename lower (title (part a).name) = lower [c] ++ t ++ g!".go" := by rw [k2]; rfl
      simp only [Go.avroWorld, hpath, Go.structFields, p5, Go.findFields, List.map_nil, List.nil_append])
  rw [← hes] at y1
  obtain ⟨N, hN⟩ := Go.schema_embeds (name := title own.name) ho.text x1 x3 x2 hnd y1
  refine ⟨xs.map Prod.snd, pss.map (·.map Prod.snd), x4, Go.Each.map_right (f := fun ps : List (Go.GoField × AField) => ps.map Prod.snd)
    (R := fun a fields => RecordFor title args.fieldNames args.descTag (MayMiss false) (part a).props (part a).schema.required fields) y2, N, fun n hn => ?_⟩
  have key : (es.zip pss).map (fun x => (([x.1], (x.2.filter (Go.keptBy (xs.map fun x => goName title args.fieldNames x.2.name))).map Prod.snd) : List Str × List AField)) =
      (es.zip (pss.map (·.map Prod.snd))).map (fun x => ([x.1], Go.Spec.shownFields (goName title args.fieldNames) (xs.map Prod.snd) x.2)) := by
    rw [List.zip_map_right, List.map_map]
    refine List.map_congr_left fun y hy => ?_
    have := Go.shown_of (xs := xs) (y3 y.2 (List.of_mem_zip hy).2)
    simp only [Function.comp, Prod.map, id]
    exact congrArg (Prod.mk [y.1]) this
  simp only [Go.avroSchemaFile, x5, Res.bind, Go.findFields, Option.getD_some, hN n hn, key]

/-- **C111** for structs that embed others, partial: if the command succeeds and the option for Avro was given, then beside the file of each struct there is the Avro schema file for a
record with the fields of the structs that it embeds, with their names as namespaces, but for those that it has itself, and its own fields.  The embedded structs are those
of files that were generated before, embed nothing, have files named like them, and have a last field that the struct does not have itself (`C87_refuted`).  Missing: structs
embedded in embedded ones, and as for `C111_partial`. -/
theorem C111_embedded_partial {abs : Str → Option Str} {t : Tools} {argv : List Str} {fs fs' : Gen.Files} {parse : Gen.Files → Go.Sources} (ht : Tidy t) (ha : AvroReader u isPrint t parse)
    (h : program abs t argv fs = (0, fs')) (hh : ¬ Help argv) :
    ∃ c os ps, Called abs t argv fs c ∧ Options argv os ps ∧ (∀ o ∈ os, Suits o) ∧ Asked abs os ps c ∧ (c.avro = true →
      ∃ doc dir jobs, t.read c.schemaPath = .ok doc ∧ Gen.Spec.Dir c.args.toBuildArgs t.getwd dir ∧ Gen.Spec.Jobs t.title c.structNames doc (t.abs c.schemaPath) jobs ∧
        ∀ (stems : List Str) (part : Gen.Spec.Job → Part) (es : Gen.Spec.Job → List Str), Gen.Spec.Stems c.args.toBuildArgs jobs stems → stems.Nodup → (∀ s ∈ stems, ¬ Reserved s) →
          TidyJobs t c.args.toBuildArgs jobs → (jobs.map fun j => t.lower (t.title j.name)).Nodup →
          (∀ j ∈ jobs, t.schema (if c.embedAllOf = true then false else true) (resolve c.args.toBuildArgs j.ref) j.name = .ok (part j).schema ∧ (part j).name = j.name ∧
            AvroPart u t.title isPrint c.args.toArgs (pathBase dir) j.embeds (es j) (part j)) →
          ∀ before j after, jobs = before ++ j :: after → ∀ commons : List Gen.Spec.Job, es j = commons.map (fun k => t.title k.name) → (es j).Nodup →
            (∀ k ∈ commons, k ∈ before ∧ es k = [] ∧ NamedLike t.lower (resolve c.args.toBuildArgs k.ref) (t.title k.name) ∧ Go.LastShown t.title c.fieldNames (part j) (part k)) →
            ∃ own fss, RecordFor t.title c.fieldNames c.descTag (MayMiss false) (part j).props (part j).schema.required own ∧
              Each (fun k fields => RecordFor t.title c.fieldNames c.descTag (MayMiss false) (part k).props (part k).schema.required fields) commons fss ∧
              fs' (joinPath dir (t.lower (t.title j.name) ++ g!".avsc")) = some (.other (Go.Spec.fileTextWith (t.title j.name)
                (((es j).zip fss).map (fun x => ([x.1], Go.Spec.shownFields (goName t.title c.fieldNames) own x.2)) ++ [([], own)])))) := by
  obtain ⟨c, os, ps, h0, h1, h2, h3, h4⟩ := program_ok h hh
  refine ⟨c, os, ps, h0, h1, h2, h3, fun hav => ?_⟩
  obtain ⟨doc, dir, jobs, a1, a2, a3, a4⟩ := C85_avro ht hav h4
  refine ⟨doc, dir, jobs, a1, a2, a3, fun stems part es b1 b2 b3 b4 b5 b6 before j after ej commons hes hnd hcom => ?_⟩
  obtain ⟨file, hst⟩ : ∃ file, Gen.Spec.FileFor dir (resolve c.args.toBuildArgs j.ref) file := ⟨_, fileFor_iff.2 rfl⟩
  obtain ⟨c', d0, d1, d2⟩ := a4 stems b1 b2 b3 b4 b5 before j after ej _ hst
  obtain ⟨text, ⟨fs1, ⟨g1, g0⟩, g2⟩, g3, _⟩ := d2.schema
  have hj : j ∈ jobs := by rw [ej]; simp
  have held : ∀ k ∈ jobs, ∀ path cc, GoCodeFor t.toWorld (withDirs c.args dir).toBuildArgs (pathBase dir) k cc → fs1 path = some cc →
      SourceAt u t.title c.args.toArgs (pathBase dir) (parse fs1) path (part k) k.embeds := by
    rintro k hk path cc ⟨inst, g, c1, c2, c3, rfl⟩ hfs
    obtain ⟨e1, e2, _⟩ := b6 k hk
    have c1 : t.schema (if c.embedAllOf = true then false else true) (resolve c.args.toBuildArgs k.ref) k.name = .ok inst := c1
    rw [e1] at c1
    cases c1
    exact ⟨t.sched, g, by rw [e2]; exact c2, fun f hf => ha.reads _ _ _ _ _ _ hfs hf⟩
  have hbefore : ∀ k ∈ commons, k ∈ jobs := fun k hk => by rw [ej]; exact List.mem_append_left _ (hcom k hk).1
  obtain ⟨own, fss, r1, r2, N, r3⟩ := C104_embedded_partial (lower := t.lower) (part := part) (given := fun k => k.embeds) (commons := commons)
    (file_go hst (b4 j hj).1) (b6 j hj).2.2 (held j hj _ _ d0 g1) (by rw [hes]; exact List.map_congr_left fun k hk => by rw [(b6 k (hbefore k hk)).2.1]) hnd (fun k hk => by
      obtain ⟨k1, k2, ⟨c0, t0, k3, k4⟩, k5⟩ := hcom k hk
      have hkj := hbefore k hk
      have hsl : '/' ∉ t.lower [c0] ++ t0 := (b4 k hkj).1 _ k4
      obtain ⟨cc, i1, i2⟩ := g0 k k1 _ ⟨_, k4, rfl⟩
      have e3 := (b6 k hkj).2.2
      rw [k2] at e3
      refine ⟨e3, k5, c0, t0, by rw [(b6 k hkj).2.1]; exact k3, hsl, ?_⟩
      obtain ⟨stem, hstem, rfl⟩ := hst
      rw [joinPath_beside (elem_go ((b4 j hj).1 _ hstem)) (elem_go hsl)]
      exact held k hkj _ cc i1 i2)
  refine ⟨own, fss, r1, r2, ?_⟩
  obtain ⟨text', N', rfl, h6⟩ := ha.schema _ _ _ _ g2
  obtain ⟨q, h7⟩ := h6 (N + N') (by omega)
  have h8 := r3 (N + N') (by omega)
  rw [(b6 j hj).2.1] at h8
  rw [g3, ← (Prod.mk.inj (Res.ok.inj (h8.symm.trans h7))).2]
  rfl


/-! ### Example -/

namespace C111embed
open C76ex Toy C93ex C102ex C102embed Go.C81ex

def printable : Char → Bool := fun _ => false
def rootFile : File := ⟨g!"out", [notice], [], [structDecl g!"Root" [g!"Flags"] [.mk [] (some g!"N") (.name g!"int64") (some g!"json:\"n,omitempty\"")]]⟩
def flagFields : List AField := [.mk g!"flag" [] (.scalar g!"boolean") false]
def rootFields : List AField := [.mk g!"n" [] (.scalar g!"long") true]
def flagPart : Part := single g!"Flags" g!"flag" pBool [g!"flag"]

open Classical in
/-- go/parser. -/
noncomputable def parse (fs : Gen.Files) : Go.Sources := ⟨fun path => match fs path with
  | some (.go pkg time structs) => if h : ∃ f, Source ascii (fileSource pkg (time, structs)) f then .ok h.choose.ast else .err
  | _ => .err, fun _ => .err⟩

theorem reads {fs : Gen.Files} {path pkg : Str} {time : Bool} {structs : List StructText} {f : File} (h : fs path = some (.go pkg time structs))
    (hs : Source ascii (fileSource pkg (time, structs)) f) : (parse fs).file path = .ok f.ast := by
  have he : ∃ f, Source ascii (fileSource pkg (time, structs)) f := ⟨f, hs⟩
  simp only [parse, h, dif_pos he]
  rw [C93_unique he.choose_spec hs]

def flagText : Str := Go.Spec.fileTextWith g!"Flags" [([], flagFields)]
def rootText : Str := Go.Spec.fileTextWith g!"Root" [([g!"Flags"], flagFields), ([], rootFields)]

/-- The files of `C102embed`, and what `BuildAvroSchemaFile` makes of them. -/
def tools : Tools :=
  { eworld rootDoc with
    lower := fun s => s.map Char.toLower, graphql := fun _ _ _ _ => ([], .err)
    avsc := fun name path fs =>
      if name = g!"Flags" ∧ path = g!"/out/flags.go" ∧ (textAt fs path).bind (lex ascii) = some (flagFile g!"Flags").toks then .ok (.other flagText)
      else if name = g!"Root" ∧ path = g!"/out/root.go" ∧ (textAt fs path).bind (lex ascii) = some rootFile.toks ∧
        (textAt fs g!"/out/flags.go").bind (lex ascii) = some (flagFile g!"Flags").toks then .ok (.other rootText)
      else .err
    gogen := fun _ _ _ => ([], .ok ()), helper := fun _ _ _ _ => .ok (.empty, .ok .empty), msgp := fun _ _ => .err }

theorem tidy : Tidy tools := ⟨fun _ _ _ _ _ h => (nomatch h), fun _ _ _ _ h => (nomatch h), fun _ _ _ h => (nomatch h)⟩

theorem flag_part : AvroPart ascii C56ex.capital printable eargs.toArgs g!"out" [] [] flagPart := by
  rcases flags_ok.written with ⟨h1, h2, h3⟩ | ⟨h1, _⟩
  · exact ⟨h1, h2, h3, flags_ok.names, fun k q hl => by rw [(single_listed hl).2]; exact .leaf decoded.1 rfl (by decide) (doc rfl), Go.plain_ascii (by decide)⟩
  · exact absurd h1.flat (by decide)

theorem root_part : AvroPart ascii C56ex.capital printable eargs.toArgs g!"out" [] [g!"Flags"] (whole g!"Root") := by
  have h := whole_ok (name := g!"Root") (by decide) (by intro c t e; cases e; decide)
  rcases h.written with ⟨h1, h2, h3⟩ | ⟨h1, _⟩
  · exact ⟨h1, h2, h3, h.names, fun k q hl => by rw [(whole_listed hl).2]; exact Go.C81ex.clean_int, Go.plain_ascii (by decide)⟩
  · exact absurd h1.flat (by decide)

theorem flag_record : RecordFor C56ex.capital [] false (MayMiss false) flagPart.props flagPart.schema.required flagFields :=
  record_one (o := false) (not_hydrated (by decide +kernel)) decoded.1 ⟨fun h => (nomatch h), fun h => absurd h.1 (by decide)⟩
    (.scalar decoded.1 (t := g!"boolean") rfl (by decide) (by decide))

theorem int_plain : ¬ BareObject pInt := by
  rintro ⟨i, m, h1, h2, _⟩
  cases Res.ok.inj (decoded.2.1.symm.trans h1)
  exact absurd h2 (by unfold TypeIs; decide)

theorem root_record : RecordFor C56ex.capital [] false (MayMiss false) (whole g!"Root").props (whole g!"Root").schema.required rootFields :=
  record_one (o := true) (not_hydrated (by decide +kernel)) decoded.2.1 ⟨fun _ => ⟨by decide, int_plain⟩, fun _ => rfl⟩
    (.scalar decoded.2.1 (t := g!"integer") rfl (by decide) (by decide))

theorem last : Go.LastShown C56ex.capital [] (whole g!"Root") flagPart :=
  ⟨g!"flag", pBool, ⟨by simp [flagPart, single, GMap.get], not_hydrated (by decide +kernel)⟩, fun k q h => by rw [(single_listed h).1]; decide,
    fun k q h => by rw [(whole_listed h).1]; decide⟩

theorem at_text {fs : Gen.Files} {path : Str} {f : File} (h : (textAt fs path).bind (lex ascii) = some f.toks) : (parse fs).file path = .ok f.ast := by
  unfold textAt at h
  split at h
  · rename_i pkg time structs hf
    split at h
    · exact reads hf h
    · cases h
  · cases h

theorem source_at {fs : Gen.Files} {path : Str} {p : Part} {f : File} {g : GoFile} (hg : newGoFile Sched.id C56ex.capital eargs.toArgs p.schema p.name [] = .ok g)
    (hl : Source ascii (fileSource g!"out" (g.text C56ex.capital eargs.toArgs)) f) (h : (textAt fs path).bind (lex ascii) = some f.toks) :
    SourceAt ascii C56ex.capital eargs.toArgs g!"out" (parse fs) path p [] :=
  ⟨Sched.id, g, hg, fun f' hf => by rw [C93_unique hf hl]; exact at_text h⟩

theorem flag_source {fs : Gen.Files} {path : Str} (h : (textAt fs path).bind (lex ascii) = some (flagFile g!"Flags").toks) :
    SourceAt ascii C56ex.capital eargs.toArgs g!"out" (parse fs) path flagPart [] := by
  obtain ⟨f, h1, _⟩ := part_tree flag_part
  obtain ⟨g, h2, _⟩ := h1 Sched.id
  refine source_at h2 ?_ h
  obtain rfl : _ = g := Res.ok.inj h2
  show lex ascii _ = some (flagFile g!"Flags").toks
  decide +kernel

theorem root_source {fs : Gen.Files} {path : Str} (h : (textAt fs path).bind (lex ascii) = some rootFile.toks) :
    SourceAt ascii C56ex.capital eargs.toArgs g!"out" (parse fs) path (whole g!"Root") [] := by
  obtain ⟨f, h1, _⟩ := part_tree root_part
  obtain ⟨g, h2, _⟩ := h1 Sched.id
  refine source_at h2 ?_ h
  obtain rfl : _ = g := Res.ok.inj h2
  show lex ascii _ = some rootFile.toks
  decide +kernel

theorem tool : AvroReader ascii printable tools parse := by
  refine ⟨fun fs path pkg time structs f h hs => reads h hs, fun name path fs c h => ?_⟩
  change (if name = g!"Flags" ∧ path = g!"/out/flags.go" ∧ (textAt fs path).bind (lex ascii) = some (flagFile g!"Flags").toks then Res.ok (Content.other flagText)
      else if name = g!"Root" ∧ path = g!"/out/root.go" ∧ (textAt fs path).bind (lex ascii) = some rootFile.toks ∧
        (textAt fs g!"/out/flags.go").bind (lex ascii) = some (flagFile g!"Flags").toks then .ok (.other rootText)
      else .err) = .ok c at h
  split at h
  · rename_i hx
    obtain ⟨rfl, rfl, hl⟩ := hx
    cases h
    obtain ⟨own, fss, h1, h2, N, h3⟩ := C104_embedded_partial (lower := fun s => s.map Char.toLower) (path := g!"/out/flags.go") (α := Unit) (part := fun _ => flagPart) (given := fun _ => [])
      (commons := []) (by decide) flag_part (flag_source hl) rfl (by decide) (fun _ h => nomatch h)
    obtain rfl := Go.C81_unique h1 flag_record
    cases h2
    exact ⟨_, N, rfl, fun n hn => ⟨_, h3 n hn⟩⟩
  · split at h
    · rename_i hx
      obtain ⟨rfl, rfl, hl, hl'⟩ := hx
      cases h
      obtain ⟨own, fss, h1, h2, N, h3⟩ := C104_embedded_partial (lower := fun s => s.map Char.toLower) (path := g!"/out/root.go") (α := Unit) (part := fun _ => flagPart) (given := fun _ => [])
        (commons := [()]) (by decide) root_part (root_source hl) rfl (by decide)
        (fun _ _ => ⟨flag_part, last, 'F', g!"lags", rfl, by decide, by
          rw [show joinPath (pathDir g!"/out/root.go") (['F'].map Char.toLower ++ g!"lags" ++ g!".go") = g!"/out/flags.go" by decide +kernel]
          exact flag_source hl'⟩)
      obtain rfl := Go.C81_unique h1 root_record
      cases h2 with
      | cons h2 h4 =>
        obtain rfl := Go.C81_unique h2 flag_record
        cases h4
        exact ⟨_, N, rfl, fun n hn => ⟨_, h3 n hn⟩⟩
    · cases h

def argv : List Str := [g!"-descriptionAsStructTag=false", g!"-avro", g!"-importPath=x/out", g!"/s/root.json", g!"/out"]

theorem called (c : Command) (h : Called some tools argv (fun _ => none) c) : c.args.toBuildArgs = eargs ∧ c.avro = true := by
  have : some c = _ := h.symm
  cases this
  exact ⟨rfl, rfl⟩

theorem succeeds : (program some tools argv fun _ => none).1 = 0 := by decide +kernel

theorem ends : program some tools argv (fun _ => none) = (0, (program some tools argv fun _ => none).2) := Prod.ext succeeds (Eq.refl _)

theorem no_help : ¬ Help argv := by
  rw [← help_iff]
  exact fun h => nomatch h

/-- The command with the option for Avro leaves a schema for the struct that has the fields of the struct that it embeds. -/
example : (program some tools argv fun _ => none).2 g!"/out/root.avsc" = some (.other rootText) := by
  obtain ⟨c, _, _, h0, _, _, _, h1⟩ := C111_embedded_partial (u := ascii) (isPrint := printable) tidy tool ends no_help
  obtain ⟨hc, hav⟩ := called c h0
  obtain ⟨doc', dir, jobs, h1, h2, h3, h4⟩ := h1 hav
  have e1 : c.schemaPath = eargs.schemaPath := congrArg BuildArgs.schemaPath hc
  have e2 : c.structNames = eargs.structNames := congrArg (fun a : BuildArgs => a.structNames) hc
  have e3 : c.fieldNames = eargs.fieldNames := congrArg (fun a : BuildArgs => a.fieldNames) hc
  have e4 : c.descTag = eargs.descTag := congrArg (fun a : BuildArgs => a.descTag) hc
  have e5 : c.embedAllOf = eargs.embedAllOf := congrArg (fun a : BuildArgs => a.embedAllOf) hc
  rw [hc] at h2 h4
  rw [e1] at h1
  rw [e1, e2] at h3
  rw [e3, e4, e5] at h4
  obtain rfl : rootDoc = doc' := Res.ok.inj h1
  obtain rfl : g!"/out" = dir := dir_unique (.given (by decide)) h2
  obtain rfl : ejobs = jobs := jobs_unique eplan h3
  have e6 : joinPath g!"/out" (tools.lower (tools.title rootJob.name) ++ g!".avsc") = g!"/out/root.avsc" := by decide +kernel
  generalize program some tools argv (fun _ => none) = r at h4 ⊢
  have hall : ∀ {Q : Gen.Spec.Job → Prop}, Q flags → Q rootJob → ∀ j ∈ ejobs, Q j := by
    intro Q h1 h2 j hj
    simp only [ejobs, List.mem_cons, List.not_mem_nil, or_false] at hj
    rcases hj with rfl | rfl
    · exact h1
    · exact h2
  obtain ⟨own, fss, h5, h6, h7⟩ := h4 [g!"flags", g!"root"] epart ees estems (by decide) (by unfold Reserved; decide)
    (hall ⟨fun s hs => by rw [← subName_baseName hs]; decide, by unfold BareName; decide⟩ ⟨fun s hs => by rw [← subName_baseName hs]; decide, by unfold BareName; decide⟩)
    (by decide) (hall ⟨rfl, rfl, flag_part⟩ ⟨rfl, rfl, root_part⟩) [flags] rootJob [] rfl [flags] rfl (by decide)
    (fun k hk => by
      obtain rfl := List.mem_singleton.1 hk
      exact ⟨by simp, rfl, ⟨'F', g!"lags", rfl, stem (by decide)⟩, last⟩)
  rw [e6] at h7
  obtain rfl := Go.C81_unique h5 root_record
  cases h6 with
  | cons h6 h8 =>
    obtain rfl := Go.C81_unique h6 flag_record
    cases h8
    exact h7

end C111embed

end JT.GoText
