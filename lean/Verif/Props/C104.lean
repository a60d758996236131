import Verif.Proofs.AvroText
import Verif.Props.C95
/- C104: the Avro schema made from the text of generated Go source. -/
namespace JT.GoText
open Gen Spec JT.Spec GoJson Flat

variable {u : Unicode} {title : Str → Str} {isPrint : Char → Bool}

/-- What is asked of a schema: that the file for it can be written (C93, C94), that nothing is embedded, and that names and, if they are put in tags, descriptions need no
escapes. -/
structure AvroPassable (u : Unicode) (title : Str → Str) (isPrint : Char → Bool) (args : Args) (schema : Instance) (m : GMap P) (pkg name : Str) (embeds : List Str) : Prop where
  written : (Writable u title args schema m pkg name embeds [] ∧ Names u title args.fieldNames m ∧ ∀ k q, Listed m k q → Clean u title args.fieldNames args.descTag q) ∨
    (FlatWritable u title args schema m pkg name embeds [] ∧ FlatText args schema ∧ NoEmptyPointers args schema)
  names : CleanNames title args.fieldNames m
  clean : ∀ k q, Listed m k q → AvroClean title args.fieldNames isPrint args.descTag q
  text : PlainText isPrint (title name)

/-- However the schema is walked: if the text of the file for it is stored, then the Avro generator finds the struct and writes the schema file for a record with the fields
`fs` next to it. -/
def AvroOf (u : Unicode) (title : Str → Str) (isPrint : Char → Bool) (args : Args) (schema : Instance) (pkg name : Str) (embeds : List Str) (fs : List AField) : Prop :=
  ∀ sched, ∃ g, newGoFile sched title args schema name embeds = .ok g ∧ ∀ (s : Go.Sources) (path : Str) (lower : Str → Str),
    hasSuffix path g!".go" = true → hasSuffix (pathDir path) g!".go" = false → Stored u s (pathDir path) path (fileSource pkg (g.text title args)) →
    ∃ N, ∀ n, N ≤ n → Go.avroSchemaFile isPrint lower s n (title name) path = .ok (joinPath (pathDir path) (lower (title name) ++ g!".avsc"), fileText (title name) fs)

/-- C104 for one schema. -/
def C104_for (u : Unicode) (title : Str → Str) (isPrint : Char → Bool) (args : Args) (schema : Instance) (m : GMap P) (pkg name : Str) (embeds : List Str) : Prop :=
  ∃ fs, RecordFor title args.fieldNames args.descTag (MayMiss true) m schema.required fs ∧ AvroOf u title isPrint args schema pkg name embeds fs

/-- **C104**, in full: the record has one field for each property, with its name, description and type, which can be null if the property is optional or may be null. -/
def C104_statement (u : Unicode) (title : Str → Str) : Prop := ∀ (isPrint : Char → Bool) (args : Args) (schema : Instance) (m : GMap P) (pkg name : Str) (embeds : List Str),
  AvroPassable u title isPrint args schema m pkg name embeds → C104_for u title isPrint args schema m pkg name embeds

/-! ### Structs are found -/

theorem ast_mem {f : File} {d : Str × Ty} {A B : List (Str × Ty)} (h : f.types = A ++ d :: B) :
    f.ast = (f.imports.map (fun _ => Go.GoDecl.gen [.import]) ++ A.map fun d => .gen [.type d.1 d.2.ast]) ++ .gen [.type d.1 d.2.ast] :: B.map fun d => .gen [.type d.1 d.2.ast] := by
  simp [File.ast, h]

theorem import_unused {name : Str} {l : List Str} : ∀ d ∈ l.map (fun _ => Go.GoDecl.gen [.import]), ¬ Go.Spec.Uses name d := by
  intro d hd hu
  obtain ⟨_, _, rfl⟩ := List.mem_map.1 hd
  cases hu with
  | type h => simp at h
  | value h => simp at h
  | field h => simp at h

theorem flat_field_names {args : Args} {key : Str → Str} {m : GMap P} {r ks : List Str} {Fs : List Field}
    (h : FlatFieldsFor title args.fieldNames args.descTag args.pointers key m r ks Fs) :
    ∀ n t tag, Go.GoField.mk n t tag ∈ fieldsAst Fs → ∃ k q, Listed m k q ∧ n = some (goName title args.fieldNames k) := by
  induction h with
  | nil => intro n t tag h; cases h
  | @cons k q i t struct ks fs hl hd ht hf ih =>
    intro n t tag h
    rw [fieldsAst] at h
    rcases List.mem_cons.1 h with h | h
    · cases h; exact ⟨k, q, hl, rfl⟩
    · exact ih n t tag h

theorem flat_uses {args : Args} {key : Str → Str} {m : GMap P} {r : List Str} {Fs : List Field} {name n : Str}
    (h : FlatStruct title args.fieldNames args.descTag args.pointers key m r Fs) (hu : Go.Spec.HasField name (Ty.ast (.struct Fs))) :
    ∃ k q, Listed m k q ∧ name = goName title args.fieldNames k := by
  obtain ⟨ks, _, _, h⟩ := h
  rw [Ty.ast] at hu
  cases hu with
  | named hm =>
    obtain ⟨k, q, h1, h2⟩ := flat_field_names h _ _ _ hm
    exact ⟨k, q, h1, Option.some.inj h2⟩
  | embedded hm _ =>
    obtain ⟨k, q, h1, h2⟩ := flat_field_names h _ _ _ hm
    cases h2

theorem knows {args : Args} {schema : Instance} {m : GMap P} {pkg name path text : Str} {f : File} {lower : Str → Str} {s : Go.Sources}
    (hp : schema.properties = some m) (hfile : FlatFile title args schema m pkg name [] f) (hnd : (f.types.map Prod.fst).Nodup) (hapart : Apart title args schema name)
    (hdir : hasSuffix (pathDir path) g!".go" = false) (hs : Stored u s (pathDir path) path text) (hsrc : Source u text f) {l : List Seg} {d : Str × Ty} (hl : l ≠ [])
    (hd : StructAt title args schema name l d) : Knows (Go.avroWorld isPrint lower s (pathDir path)) f d := by
  intro hmem Fs hF
  obtain ⟨A, B, hAB⟩ := List.append_of_mem hmem
  obtain ⟨Fs0, ds, t1, t2, t3, t4, t5⟩ := hfile.types
  obtain ⟨p, file, a, b, hs1, hs2⟩ := hs.dir f hsrc
  rw [hAB, List.map_append, List.map_cons] at hnd
  have hA : ∀ e ∈ A, e.1 ≠ d.1 := fun e he hh => (List.nodup_append.1 hnd).2.2 e.1 (List.mem_map_of_mem he) d.1 List.mem_cons_self hh
  have hB : ∀ e ∈ B, e.1 ≠ d.1 := fun e he hh => (List.nodup_cons.1 (List.nodup_append.1 hnd).2.1).1 (hh ▸ List.mem_map_of_mem he)
  have hroot : ∃ m rq, ObjectAt schema l m rq ∧ (∃ k q, Listed m k q) ∧ d.1 = keyOf title name l := by
    cases hd with
    | mk h1 h2 _ => exact ⟨_, _, h1, h2, rfl⟩
  obtain ⟨m', rq', ho, hsome, hkey⟩ := hroot
  have hfind : Go.parseGoStruct s d.1 (pathDir path) = .ok (d.1, d.2.ast) := by
    rw [ast_mem hAB] at hs1
    refine Go.C84_dir_partial hdir hs1 (fun x hx t ⟨specs, g1, g2⟩ => hs2 d hmem x hx specs t g1 g2) ?_ ?_
    · rintro t ⟨specs, g1, g2⟩
      obtain ⟨e, he, hh⟩ := List.mem_map.1 g1
      cases hh
      simp only [List.mem_singleton, Go.GoSpec.type.injEq] at g2
      exact hB e he g2.1.symm
    · intro x hx
      rcases List.mem_append.1 hx with hx | hx
      · exact import_unused x hx
      obtain ⟨e, he, rfl⟩ := List.mem_map.1 hx
      intro hu
      cases hu with
      | type g => simp only [List.mem_singleton, Go.GoSpec.type.injEq] at g; exact hA e he g.1.symm
      | value g => simp at g
      | field g hf =>
        simp only [List.mem_singleton, Go.GoSpec.type.injEq] at g
        obtain ⟨rfl, rfl⟩ := g
        rw [t1] at hAB
        cases A with
        | nil => cases he
        | cons r A =>
          simp only [List.cons_append, List.cons.injEq] at hAB
          obtain ⟨rfl, rfl⟩ := hAB
          rcases List.mem_cons.1 he with rfl | he
          · obtain ⟨k, q, g1, g2⟩ := flat_uses (n := []) t2 hf
            exact hapart [] m _ k q l m' rq' (.root hp) g1 hl ho hsome (.inl rfl) (g2.symm.trans hkey)
          · obtain ⟨le, hle, hse⟩ := t4 e (List.mem_append_left _ he)
            rw [List.map_append, List.map_cons, List.pairwise_append] at t3
            have hlt := t3.2.2 e.1 (List.mem_map_of_mem he) d.1 List.mem_cons_self
            cases hse with
            | mk k1 k2 k3 =>
              obtain ⟨k, q, g1, g2⟩ := flat_uses (n := []) k3 hf
              exact hapart le _ _ k q l m' rq' k1 g1 hl ho hsome (.inr (hkey ▸ hlt)) (g2.symm.trans hkey)
  show Go.structFields s d.1 (pathDir path) = _
  rw [Go.structFields, hfind]
  show Go.findFields d.2.ast = _
  rw [hF, Ty.ast, Go.findFields]

theorem big_primitive {n : Str} (hn : ∃ c t, n = c :: t ∧ c.isLower = false) : Go.primitive n = none := by
  obtain ⟨c, t, rfl, h⟩ := hn
  unfold Go.primitive
  repeat' split
  all_goals first | rfl | (
    rename_i e
    exfalso
    simp only [List.mem_cons, List.not_mem_nil, or_false, List.cons.injEq] at e
    have : c = 'b' ∨ c = 'i' ∨ c = 'u' ∨ c = 'f' ∨ c = 's' := by grind
    rcases this with rfl | rfl | rfl | rfl | rfl <;> exact absurd h (by decide))

/-- The file with the Avro schema, from that with the struct. -/
theorem avro_file {s : Go.Sources} {path name : Str} {lower : Str → Str} {pre post : Go.GoSource} {Fs : List Field} {fs : List AField} (hgo : hasSuffix path g!".go" = true)
    (hs : s.file path = .ok (pre ++ .gen [.type name (Ty.ast (.struct Fs))] :: post)) (hpre : ∀ d ∈ pre, ¬ Go.Spec.Uses name d)
    (hg : Go.GoodFs (Go.avroWorld isPrint lower s (pathDir path)) (fieldsAst Fs) fs) (hn : PlainText isPrint name) (hne : fs ≠ []) :
    ∃ N, ∀ n, N ≤ n → Go.avroSchemaFile isPrint lower s n name path = .ok (joinPath (pathDir path) (lower name ++ g!".avsc"), fileText name fs) := by
  obtain ⟨N, h⟩ := Go.schema_text (name := name) hg hn hne
  refine ⟨N, fun n hN => ?_⟩
  rw [Go.avroSchemaFile, Go.C84_file_partial hgo hs hpre]
  show (Go.avroSchema _ n name ((Go.findFields (Ty.ast (.struct Fs))).getD [])).bind _ = _
  rw [Ty.ast, Go.findFields]
  show (Go.avroSchema _ n name (fieldsAst Fs)).bind _ = _
  rw [h n hN]
  rfl

theorem record_some {rename : GMap Str} {descTag : Bool} {miss : P → Bool → Prop} {m : GMap P} {r : List Str} {fs : List AField}
    (h : RecordFor title rename descTag miss m r fs) (hs : ∃ k q, Listed m k q) : fs ≠ [] := by
  obtain ⟨k, q, hl⟩ := hs
  obtain ⟨x, hx, _⟩ := (h.names k).2 ⟨q, hl⟩
  exact List.ne_nil_of_mem hx

/-- A world that knows the types of the file. -/
def tableWorld (isPrint : Char → Bool) (f : File) : Go.World :=
  ⟨isPrint, fun n => match f.types.find? (fun d => decide (d.1 = n)) with
    | some (_, .struct Fs) => some (fieldsAst Fs)
    | _ => none, fun _ => none⟩

theorem find_nodup {d : Str × Ty} : ∀ {l : List (Str × Ty)}, (l.map Prod.fst).Nodup → d ∈ l → l.find? (fun e => decide (e.1 = d.1)) = some d
  | e :: l, hn, hd => by
    rw [List.map_cons, List.nodup_cons] at hn
    rcases List.mem_cons.1 hd with rfl | hd
    · simp
    · rw [List.find?_cons_of_neg, find_nodup hn.2 hd]
      simp only [decide_eq_true_eq]
      intro h
      exact hn.1 (h ▸ List.mem_map_of_mem hd)

theorem table_knows {f : File} {d : Str × Ty} (h : (f.types.map Prod.fst).Nodup) : Knows (tableWorld isPrint f) f d := by
  intro hm Fs hF
  obtain ⟨n, t⟩ := d
  cases hF
  show (match f.types.find? (fun e => decide (e.1 = n)) with
    | some (_, .struct Fs) => some (fieldsAst Fs)
    | _ => none) = _
  rw [find_nodup (d := (n, .struct Fs)) h hm]

/-- **C104**, partial: the record has one field for each property, with its name, description and type; it can be null if the property is not required, except for objects that
may not be null and are no pointers.  Missing: properties that are required and may be null, and optional objects (`C104_refuted`); and schemas in which a field is
called like the struct for an object (`C104_refuted_clash`). -/
theorem C104_partial {args : Args} {schema : Instance} {m : GMap P} {pkg name : Str} {embeds : List Str}
    (h : AvroPassable u title isPrint args schema m pkg name embeds) (hapart : args.noNested = true → Apart title args schema name) :
    ∃ fs, RecordFor title args.fieldNames args.descTag (Misses args) m schema.required fs ∧ AvroOf u title isPrint args schema pkg name embeds fs := by
  rcases h.written with ⟨hw, hn, hcl⟩ | ⟨hw, ht, he⟩
  · obtain ⟨ks, Fs, h1, imports, h2, h3⟩ := C93_partial hw hn hcl
    obtain ⟨fs, h4, h5⟩ := struct_avro (w := ⟨isPrint, fun _ => none, fun _ => none⟩) hw.inline h1 h.names h.clean
    refine ⟨fs, h5, fun sched => ?_⟩
    obtain ⟨g, hg, hsrc⟩ := h3 sched
    refine ⟨g, hg, fun s path lower hgo hdir hs => ?_⟩
    obtain ⟨fs', h4', h5'⟩ := struct_avro (w := Go.avroWorld isPrint lower s (pathDir path)) hw.inline h1 h.names h.clean
    obtain rfl := Go.C81_unique h5 h5'
    exact avro_file (post := []) hgo (hs.file _ hsrc) import_unused h4' h.text (record_some h5 hw.some)
  · obtain ⟨f, hf, hcl, hsrc⟩ := C94_partial hw ht he
    obtain ⟨Fs, ds, t1, t2, t3, t4, t5⟩ := hf.types
    have hroot : ObjectAt schema [] m schema.required := .root hw.properties
    have hprim : ∀ l, Go.primitive (keyOf title name l) = none := fun l => big_primitive (by
      obtain ⟨c, t, h1, _, h2⟩ := key_big (u := u) hw.rootName hw.upper l
      exact ⟨c, t, h1, h2⟩)
    have key : ∀ w : Go.World, w.isPrint = isPrint → (∀ l d, l ≠ [] → StructAt title args schema name l d → Knows w f d) → ∃ fs, Go.GoodFs w (fieldsAst Fs) fs ∧
        RecordFor title args.fieldNames args.descTag (Misses args) m schema.required fs := by
      rintro w rfl hk
      exact flat_struct_avro (w := w) hw.flat h.names h.clean
        (fun k q hl => named_avro hw.flat hw.conditions hf hk hprim (h.clean k q hl) [.key k] (by simp) (listed_at hw.conditions hroot hl)) t2
    obtain ⟨fs, _, h5⟩ := key (tableWorld isPrint f) rfl fun l d _ _ => table_knows hcl.1
    refine ⟨fs, h5, fun sched => ?_⟩
    obtain ⟨g, hg, hsrc⟩ := hsrc sched
    refine ⟨g, hg, fun s path lower hgo hdir hs => ?_⟩
    obtain ⟨fs', h4', h5'⟩ := key (Go.avroWorld isPrint lower s (pathDir path)) rfl fun l d hl hd => knows hw.properties hf hcl.1 (hapart hw.flat) hdir hs hsrc hl hd
    obtain rfl := Go.C81_unique h5 h5'
    refine avro_file (pre := f.imports.map (fun _ => Go.GoDecl.gen [.import])) (post := ds.map fun d => .gen [.type d.1 d.2.ast]) (Fs := Fs) hgo
      ((hs.file _ hsrc).trans ?_) import_unused h4' h.text (record_some h5 hw.some)
    simp [File.ast, t1, structDecl]

/-- A field may lack a value as in C81, but for structs of their own that are pointers. -/
theorem misses_plain {args : Args} (h : ¬ (args.noNested = true ∧ args.pointers = true)) : Misses args = MayMiss false := by
  funext q required
  simp only [Misses, MayMiss, h, not_false_eq_true, and_true]
  rfl

/-- A text can be stored. -/
theorem stored_exists {text path : Str} {f : File} (h : Source u text f) : ∃ s, Stored u s (pathDir path) path text := by
  refine ⟨⟨fun _ => .ok f.ast, fun _ => .ok [([], [] ++ ([], f.ast) :: [])]⟩, fun f' h' => ?_, fun f' h' => ?_⟩
  · rw [C93_unique h h']
  · rw [C93_unique h h']
    exact ⟨_, _, _, _, rfl, fun _ _ x hx => (nomatch hx)⟩

/-- The text of the file is Go source. -/
theorem AvroPassable.source {args : Args} {schema : Instance} {m : GMap P} {pkg name : Str} {embeds : List Str} (h : AvroPassable u title isPrint args schema m pkg name embeds) :
    ∃ f, ∀ sched, ∃ g, newGoFile sched title args schema name embeds = .ok g ∧ Source u (fileSource pkg (g.text title args)) f := by
  rcases h.written with ⟨hw, hn, hcl⟩ | ⟨hw, ht, he⟩
  · obtain ⟨ks, Fs, h1, imports, h2, h3⟩ := C93_partial hw hn hcl
    exact ⟨_, h3⟩
  · obtain ⟨f, hf, hcl, hsrc⟩ := C94_partial hw ht he
    exact ⟨f, hsrc⟩

/-- There is one text of the schema file. -/
theorem avroOf_text {args : Args} {schema : Instance} {m : GMap P} {pkg name : Str} {embeds : List Str} {fs fs' : List AField}
    (h : AvroPassable u title isPrint args schema m pkg name embeds) (h1 : AvroOf u title isPrint args schema pkg name embeds fs)
    (h2 : AvroOf u title isPrint args schema pkg name embeds fs') : fileText (title name) fs = fileText (title name) fs' := by
  obtain ⟨f, hf⟩ := h.source
  obtain ⟨g, hg, hsrc⟩ := hf Sched.id
  obtain ⟨g1, a1, a2⟩ := h1 Sched.id
  obtain ⟨g2, b1, b2⟩ := h2 Sched.id
  obtain rfl := Res.ok.inj (hg.symm.trans a1)
  obtain rfl := Res.ok.inj (hg.symm.trans b1)
  obtain ⟨s, hs⟩ := stored_exists (path := g!"/x/a.go") hsrc
  obtain ⟨N, a3⟩ := a2 s g!"/x/a.go" id (by decide) (by decide) hs
  obtain ⟨N', b3⟩ := b2 s g!"/x/a.go" id (by decide) (by decide) hs
  have := Res.ok.inj ((a3 (N + N') (by omega)).symm.trans (b3 (N + N') (by omega)))
  exact (Prod.mk.inj this).2

/-- The Avro schema does not depend on whether objects have structs of their own, nor on the other options, besides those for names and descriptions, if not both structs of
their own and pointers are asked for. -/
theorem C104_same {args args' : Args} {schema : Instance} {m : GMap P} {pkg pkg' name : Str} {embeds embeds' : List Str} (hn : args.fieldNames = args'.fieldNames)
    (hd : args.descTag = args'.descTag) (hp : ¬ (args.noNested = true ∧ args.pointers = true)) (hp' : ¬ (args'.noNested = true ∧ args'.pointers = true))
    (h : AvroPassable u title isPrint args schema m pkg name embeds) (ha : args.noNested = true → Apart title args schema name)
    (h' : AvroPassable u title isPrint args' schema m pkg' name embeds') (ha' : args'.noNested = true → Apart title args' schema name) :
    ∃ fs, AvroOf u title isPrint args schema pkg name embeds fs ∧ AvroOf u title isPrint args' schema pkg' name embeds' fs := by
  obtain ⟨fs, h1, h2⟩ := C104_partial h ha
  obtain ⟨fs', h3, h4⟩ := C104_partial h' ha'
  rw [misses_plain hp, hn, hd] at h1
  rw [misses_plain hp'] at h3
  obtain rfl := Go.C81_unique h1 h3
  exact ⟨fs, h2, h4⟩

/-! ### Examples -/

namespace C104ex
open C76ex Toy C93ex C95ex Go.C81ex

/-- Names that do not begin like those of structs. -/
def shortB (_ : List Seg) (q : P) : Bool := match decodeInstance false q with
  | .ok i => match i.properties with
    | some m => m.all fun kv => !(g!"Thing").isPrefixOf (C56ex.capital kv.1)
    | none => true
  | _ => true

theorem apart {args : Args} {m : GMap P} {rq : List Str} (hf : args.fieldNames = []) (hm : (m.all fun kv => !(g!"Thing").isPrefixOf (C56ex.capital kv.1)) = true)
    (h : ((schemaPositions instNode ⟨some m, none⟩).all fun x => shortB x.1 x.2) = true) :
    Apart C56ex.capital args { Instance.zero with properties := some m, required := rq } g!"thing" := by
  intro l m' rq' k q l' m'' rq'' ho hl hl' ho' _ _ he
  have hpre : (g!"Thing").isPrefixOf (C56ex.capital k) = true := by
    have e : goName C56ex.capital args.fieldNames k = C56ex.capital k := by rw [hf]; rfl
    rw [← e, he, List.isPrefixOf_iff_prefix]
    exact ⟨_, rfl⟩
  have hall : (m'.all fun kv => !(g!"Thing").isPrefixOf (C56ex.capital kv.1)) = true := by
    cases ho with
    | root h1 => cases h1; exact hm
    | inner h1 h2 h3 h4 =>
      have := check_positions instNode_shrinks h h1
      simp only [shortB, h2, h4] at this
      exact this
  have := List.all_eq_true.1 hall (k, q) (GMap.get_some_mem hl.1)
  rw [hpre] at this
  cases this

/-- A schema with properties of all types meets the conditions, with a struct inside. -/
theorem inline_avro : AvroPassable ascii C56ex.capital world.isPrint args schema props g!"things" g!"thing" [] := by
  have h := inline_props
  exact ⟨h.written, h.names, fun _ _ h => Go.C81ex.clean_props _ _ (listed h), Go.plain_ascii (by decide)⟩

/-- The same with structs of their own. -/
theorem flat_avro_props : AvroPassable ascii C56ex.capital world.isPrint C56ex.flat schema props g!"things" g!"thing" [] := by
  have h := flat_props
  exact ⟨h.written, h.names, fun _ _ h => Go.C81ex.clean_props _ _ (listed h), Go.plain_ascii (by decide)⟩

theorem flat_apart : Apart C56ex.capital C56ex.flat schema g!"thing" := apart rfl (by decide +kernel) (by decide +kernel)

/-- With structs of their own, the Avro schema is the same as with inline structs. -/
example : ∃ fs, AvroOf ascii C56ex.capital world.isPrint args schema g!"things" g!"thing" [] fs ∧
    AvroOf ascii C56ex.capital world.isPrint C56ex.flat schema g!"things" g!"thing" [] fs :=
  C104_same rfl rfl (by decide) (by decide) inline_avro (fun h => (nomatch h)) flat_avro_props fun _ => flat_apart

theorem null_avro : AvroPassable ascii C56ex.capital world.isPrint C56ex.flat nullSchema [(g!"text", pText)] g!"things" g!"thing" [] := by
  have hc : Conditions C56ex.capital g!"thing" ⟨some [(g!"text", pText)], none⟩ := C56flatex.conditions (by decide +kernel) (by decide +kernel) (by decide +kernel)
  obtain ⟨h1, h2⟩ := C94ex.writable (args := C56ex.flat) (rq := [g!"text"]) (embeds := []) rfl rfl rfl hc (by decide +kernel) (by decide +kernel) (by decide +kernel)
    (C94ex.listed_any (by decide +kernel)) (by decide)
  exact ⟨.inr ⟨h1, h2, solid rfl hc (by decide +kernel)⟩, names_one (by decide) (by decide), fun _ _ h => (listed_one h).2 ▸ Go.C81ex.clean_text, Go.plain_ascii (by decide)⟩

theorem null_apart : Apart C56ex.capital C56ex.flat nullSchema g!"thing" := apart rfl (by decide +kernel) (by decide +kernel)

end C104ex

open C104ex C76ex C93ex Go.C81ex in
/-- The statement is false: if a property is required and may be null, then its Avro type is not a union with null. -/
theorem C104_refuted : ∃ u title, ¬ C104_statement u title := by
  refine ⟨ascii, C56ex.capital, fun h => ?_⟩
  obtain ⟨fs, h1, h2⟩ := h _ _ _ _ _ _ _ null_avro
  obtain ⟨fs', h3, h4⟩ := C104_partial null_avro fun _ => null_apart
  rw [misses_plain (by decide)] at h3
  have e := avroOf_text null_avro h2 h4
  obtain rfl := Go.C81_unique h1 (record_one (o := true) (not_hydrated (by decide +kernel)) decoded.2.2.2.1
    ⟨fun _ => Or.inr ⟨_, decoded.2.2.2.1, by decide⟩, fun _ => rfl⟩ type_text)
  obtain rfl := Go.C81_unique h3 (record_one (o := false) (not_hydrated (by decide +kernel)) decoded.2.2.2.1
    ⟨fun h => (nomatch h), fun h => absurd h.1 (by decide)⟩ type_text)
  revert e
  decide +kernel

namespace C104ex
open C76ex Toy C93ex C95ex Go.C81ex

/-- An object `in`, and a property with the name of its struct. -/
def clash : GMap P := [(g!"in", pIn), (g!"thingIn", pInt)]

theorem clash_cases {k : Str} {q : P} (h : Listed clash k q) : (k = g!"in" ∧ q = pIn) ∨ (k = g!"thingIn" ∧ q = pInt) := by
  have := GMap.get_some_mem h.1
  simpa [clash] using this

theorem clash_avro : AvroPassable ascii C56ex.capital world.isPrint C56ex.flat Go.C84ex.schema clash g!"things" g!"thing" [] := by
  have hc : Conditions C56ex.capital g!"thing" ⟨some clash, none⟩ := C56flatex.conditions (by decide +kernel) (by decide +kernel) (by decide +kernel)
  obtain ⟨h1, h2⟩ := C94ex.writable (args := C56ex.flat) (rq := []) (embeds := []) rfl rfl rfl hc (by decide +kernel) (by decide +kernel) (by decide +kernel)
    (C94ex.listed_any (by decide +kernel)) (by decide)
  refine ⟨.inr ⟨h1, h2, solid rfl hc (by decide +kernel)⟩, ⟨fun k q h => ?_, fun k q h => ?_, fun k q k' q' h h' e => ?_⟩, fun k q h => ?_, Go.plain_ascii (by decide)⟩
  · rcases clash_cases h with ⟨rfl, _⟩ | ⟨rfl, _⟩ <;> decide
  · rcases clash_cases h with ⟨rfl, _⟩ | ⟨rfl, _⟩ <;> decide
  · rcases clash_cases h with ⟨rfl, _⟩ | ⟨rfl, _⟩ <;> rcases clash_cases h' with ⟨rfl, _⟩ | ⟨rfl, _⟩ <;> first | rfl | (revert e; decide)
  · rcases clash_cases h with ⟨_, rfl⟩ | ⟨_, rfl⟩
    · exact clean_in
    · exact Go.C81ex.clean_int

/-- The Go source for it. -/
def clashFile : File := ⟨g!"things", [notice], [], [structDecl g!"Thing" [] [.mk [] (some g!"In") (.name g!"ThingIn") (some g!"json:\"in,omitzero\""),
  .mk [] (some g!"ThingIn") (.name g!"int64") (some g!"json:\"thingIn,omitempty\"")], structDecl g!"ThingIn" [] [.mk [] (some g!"N") (.name g!"int64") (some g!"json:\"n\"")]]⟩

theorem clash_text : (text C56ex.flat Go.C84ex.schema).bind (lex ascii) = some clashFile.toks := by decide +kernel

/-- The file alone. -/
def clashSources : Go.Sources := ⟨fun _ => .ok clashFile.ast, fun _ => .ok [([], [] ++ ([], clashFile.ast) :: [])]⟩

/-- What the schema asks for, and what is written. -/
def wanted : List AField := [.mk g!"in" [] (.record [.mk g!"n" [] (.scalar g!"long") false]) false, .mk g!"thingIn" [] (.scalar g!"long") true]
def wrong : List AField := [.mk g!"in" [] (.record [.mk g!"thingIn" [] (.scalar g!"long") true]) false, .mk g!"thingIn" [] (.scalar g!"long") true]

theorem wanted_record : RecordFor C56ex.capital [] false (MayMiss false) clash [] wanted := by
  have hf : ∀ f ∈ wanted, f = .mk g!"in" [] (.record [.mk g!"n" [] (.scalar g!"long") false]) false ∨ f = .mk g!"thingIn" [] (.scalar g!"long") true := by
    intro f h
    simpa [wanted] using h
  have hin : ∀ {q : P}, Listed clash g!"in" q → q = pIn := fun h => by rcases clash_cases h with ⟨_, h⟩ | ⟨h, _⟩; exact h; cases h
  have hnum : ∀ {q : P}, Listed clash g!"thingIn" q → q = pInt := fun h => by rcases clash_cases h with ⟨h, _⟩ | ⟨_, h⟩; cases h; exact h
  refine ⟨by decide, fun k => ⟨?_, ?_⟩, ?_, ?_, ?_⟩
  · rintro ⟨f, h, rfl⟩
    rcases hf f h with rfl | rfl
    · exact ⟨pIn, rfl, not_hydrated (by decide +kernel)⟩
    · exact ⟨pInt, rfl, not_hydrated (by decide +kernel)⟩
  · rintro ⟨q, h⟩
    rcases clash_cases h with ⟨rfl, _⟩ | ⟨rfl, _⟩
    · exact ⟨_, List.mem_cons_self, rfl⟩
    · exact ⟨_, List.mem_cons_of_mem _ List.mem_cons_self, rfl⟩
  · intro f h q hq
    rcases hf f h with rfl | rfl
    · rw [hin hq]; exact ⟨_, decoded.2.2.2.2.2.2, rfl⟩
    · rw [hnum hq]; exact ⟨_, decoded.2.1, rfl⟩
  · intro f h q hq
    rcases hf f h with rfl | rfl
    · rw [hin hq]
      exact ⟨fun h => (nomatch h), fun h => absurd ((Go.bare_iff decoded.2.2.2.2.2.2 rfl rfl).2 ⟨⟨g!"n", pInt, rfl, not_hydrated (by decide +kernel)⟩, by decide⟩) h.2⟩
    · rw [hnum hq]
      exact ⟨fun _ => ⟨by decide, not_bare decoded.2.1 rfl (t := g!"integer") (by decide)⟩, fun _ => rfl⟩
  · intro f h q hq
    rcases hf f h with rfl | rfl
    · rw [hin hq]; exact type_in
    · rw [hnum hq]; exact .scalar decoded.2.1 (t := g!"integer") (a := g!"long") rfl (by decide) (by decide)

theorem wrong_text {lower : Str → Str} : Go.GoodFs (Go.avroWorld world.isPrint lower clashSources g!"/x")
    (fieldsAst [.mk [] (some g!"In") (.name g!"ThingIn") (some g!"json:\"in,omitzero\""), .mk [] (some g!"ThingIn") (.name g!"int64") (some g!"json:\"thingIn,omitempty\"")]) wrong := by
  have hnum : Go.GoodF (Go.avroWorld world.isPrint lower clashSources g!"/x") (.mk (some g!"ThingIn") (.ident g!"int64") (tagAst (some g!"json:\"thingIn,omitempty\"")))
      (.mk g!"thingIn" [] (.scalar g!"long") true) :=
    ⟨⟨_, rfl⟩, by decide +kernel, by decide +kernel, by decide +kernel, by decide, Go.plain_ascii (by decide), Go.plain_ascii (by decide), Go.goodT_scalar rfl (Go.plain_ascii (by decide))⟩
  have hpkg : (Go.avroWorld world.isPrint lower clashSources g!"/x").pkg g!"ThingIn" = some [.mk (some g!"ThingIn") (.ident g!"int64") (tagAst (some g!"json:\"thingIn,omitempty\""))] := by
    rfl
  refine Go.goodFs_of (l := [(.mk (some g!"In") (.ident g!"ThingIn") (tagAst (some g!"json:\"in,omitzero\"")), .mk g!"in" [] (.record [.mk g!"thingIn" [] (.scalar g!"long") true]) false),
    (.mk (some g!"ThingIn") (.ident g!"int64") (tagAst (some g!"json:\"thingIn,omitempty\"")), .mk g!"thingIn" [] (.scalar g!"long") true)]) fun p hp => ?_
  simp only [List.mem_cons, List.not_mem_nil, or_false] at hp
  rcases hp with rfl | rfl
  · exact ⟨⟨_, rfl⟩, by decide +kernel, by decide +kernel, by decide +kernel, by decide, Go.plain_ascii (by decide), Go.plain_ascii (by decide),
      goodT_named rfl hpkg (Go.goodFs_of (l := [(_, _)]) fun p hp => by cases List.mem_singleton.1 hp; exact hnum)⟩
  · exact hnum

end C104ex

open C104ex C76ex C93ex Go.C81ex in
/-- `Apart` is needed: if a field is called like the struct for an object, the fields of the record for the object are others. -/
theorem C104_refuted_clash : AvroPassable ascii C56ex.capital world.isPrint C56ex.flat Go.C84ex.schema clash g!"things" g!"thing" [] ∧
    ¬ ∃ fs, RecordFor C56ex.capital [] false (Misses C56ex.flat) clash [] fs ∧ AvroOf ascii C56ex.capital world.isPrint C56ex.flat Go.C84ex.schema g!"things" g!"thing" [] fs := by
  refine ⟨clash_avro, ?_⟩
  rintro ⟨fs, h1, h2⟩
  rw [misses_plain (by decide)] at h1
  obtain rfl := Go.C81_unique h1 wanted_record
  obtain ⟨g, hg, h2⟩ := h2 Sched.id
  have ht := clash_text
  unfold C93ex.text at ht
  rw [hg] at ht
  have hs : Stored ascii clashSources g!"/x" g!"/x/a.go" (fileSource g!"things" (g.text C56ex.capital C56ex.flat)) := by
    refine ⟨fun f h => ?_, fun f h => ?_⟩
    · rw [C93_unique h ht]; rfl
    · rw [C93_unique h ht]; exact ⟨_, _, _, _, rfl, fun _ _ x hx => (nomatch hx)⟩
  obtain ⟨N, h3⟩ := h2 clashSources g!"/x/a.go" id (by decide) (by decide) hs
  obtain ⟨N', h4⟩ := avro_file (isPrint := world.isPrint) (s := clashSources) (path := g!"/x/a.go") (name := g!"Thing") (lower := id) (pre := [])
    (post := [.gen [.type g!"ThingIn" (Ty.ast (.struct [.mk [] (some g!"N") (.name g!"int64") (some g!"json:\"n\"")]))]]) (by decide) rfl (fun d hd => (nomatch hd)) wrong_text
    (Go.plain_ascii (by decide)) (by decide)
  have := (Prod.mk.inj (Res.ok.inj ((h3 (N + N') (by omega)).symm.trans (h4 (N + N') (by omega))))).2
  revert this
  decide +kernel

end JT.GoText
