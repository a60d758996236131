import Verif.Proofs.AvroSchema
import Verif.Props.C76
/- C81: the Avro schema for a JSON schema. -/
namespace JT.Go
open Gen Spec GoJson
variable {title : Str → Str}

/-- What is asked of a schema: that of C76, but descriptions only matter if they are put in tags, and then have a first line that needs no escapes. -/
structure AvroSource (title : Str → Str) (isPrint : Char → Bool) (args : Args) (schema : Instance) (m : GMap P) (embeds : List Str) : Prop where
  inline : args.noNested = false
  properties : schema.properties = some m
  items : schema.items = none
  nodup : (m.map Prod.fst).Nodup
  quiet : QuietSchema ⟨schema.properties, schema.items⟩
  one : OneTypeEach ⟨schema.properties, schema.items⟩
  plain : PlainItems ⟨schema.properties, schema.items⟩
  alone : JT.Spec.Embeds title args embeds schema.allOf []
  some : ∃ k q, Listed m k q
  names : CleanNames title args.fieldNames m
  clean : ∀ k q, Listed m k q → AvroClean title args.fieldNames isPrint args.descTag q

/-- `AvroGenerates … fs`: however the schema is walked, the generated file declares one struct, and the Avro schema for it is the record with the fields `fs`. -/
def AvroGenerates (title : Str → Str) (w : World) (args : Args) (schema : Instance) (name : Str) (embeds : List Str) (fs : List AField) : Prop :=
  ∀ sched, ∃ g body l, newGoFile sched title args schema name embeds = .ok g ∧ (g.text title args).2 = [⟨title name, [], body⟩] ∧
    readGoLines body [] [] = some l ∧ ∃ N, ∀ n, N ≤ n → avroSchema w n (title name) l = .ok (fileText (title name) fs)

/-- C81 for one schema: the Avro schema has one field for each property, with its name, description and type, which can be null if the property is optional or may be null. -/
def C81_for (title : Str → Str) (w : World) (args : Args) (schema : Instance) (m : GMap P) (name : Str) (embeds : List Str) : Prop :=
  ∃ fs, RecordFor title args.fieldNames args.descTag (MayMiss true) m schema.required fs ∧ AvroGenerates title w args schema name embeds fs

/-- **C81**, in full. -/
def C81_statement (title : Str → Str) : Prop := ∀ (w : World) (args : Args) (schema : Instance) (m : GMap P) (name : Str) (embeds : List Str),
  AvroSource title w.isPrint args schema m embeds → PlainText w.isPrint (title name) → C81_for title w args schema m name embeds

/-- The lines of the generated struct, the fields that they are read as and those of the Avro schema. -/
theorem C81_twins {w : World} {args : Args} {schema : Instance} {m : GMap P} {name : Str} {embeds : List Str}
    (h : AvroSource title w.isPrint args schema m embeds) (hname : PlainText w.isPrint (title name)) :
    ∃ ps : List (GoField × AField), RecordFor title args.fieldNames args.descTag (MayMiss false) m schema.required (ps.map Prod.snd) ∧
      Twins title args.fieldNames args.pointers m schema.required ps ∧
      ∀ sched, ∃ g body, newGoFile sched title args schema name embeds = .ok g ∧ (g.text title args).2 = [⟨title name, [], body⟩] ∧
        readGoLines body [] [] = some (ps.map Prod.fst) ∧ ∃ N, ∀ n, N ≤ n → avroSchema w n (title name) (ps.map Prod.fst) = .ok (fileText (title name) (ps.map Prod.snd)) := by
  obtain ⟨fs, hf, hg⟩ := inline_file (title := title) name embeds h.inline h.properties h.items h.nodup h.quiet h.one h.plain
  obtain ⟨ps, h1, h2, h3, h4⟩ := fields_avro (descTag := args.descTag) (pointers := args.pointers) (w := w) (r := schema.required) hf h.names
    (fun k q f hl hk => field_avro (hf.each _ _ _ hl.1 hk) (h.names.tag _ _ hl) (h.clean _ _ hl) _)
  have hne : fs ≠ [] := by
    obtain ⟨k, q, hl⟩ := h.some
    rintro rfl
    exact hl.2 ((hf.names k).1 rfl q hl.1)
  have hxs : ps.map Prod.snd ≠ [] := by
    obtain ⟨k, q, hl⟩ := h.some
    obtain ⟨x, hx, _⟩ := (h3.names k).2 ⟨q, hl⟩
    exact List.ne_nil_of_mem hx
  refine ⟨ps, h3, h4, fun sched => ⟨_, (sortedByName (linesAll args.descTag args.pointers [] [] g!"\t" schema.required fs)).flatten, hg sched, ?_, ?_, schema_text (goodFs_of h2) hname hxs⟩⟩
  · have hs : ∀ r : GStruct, GoFile.structs ⟨r, []⟩ = [r] := fun r => rfl
    simp only [GoFile.text, hs, ← embeds_iff.1 h.alone]
    rw [List.filter_cons_of_neg (by simpa using hne), List.filter_cons_of_pos (by simpa using hne)]
    rfl
  · have := h1 g!"\t" [] [] []
    rw [List.append_nil] at this
    rw [this]
    rfl

/-- **C81**, partial: the Avro schema has one field for each property, with its name, description and type; it can be null if the property is not required, except
for objects that may not be null.  `C81_unique`: these are the only such fields.  Missing: properties that are required and may be null, and optional objects
(`C81_refuted_null`, `C81_refuted_object`). -/
theorem C81_partial {w : World} {args : Args} {schema : Instance} {m : GMap P} {name : Str} {embeds : List Str}
    (h : AvroSource title w.isPrint args schema m embeds) (hname : PlainText w.isPrint (title name)) :
    ∃ fs, RecordFor title args.fieldNames args.descTag (MayMiss false) m schema.required fs ∧ AvroGenerates title w args schema name embeds fs := by
  obtain ⟨ps, h1, _, h2⟩ := C81_twins h hname
  exact ⟨_, h1, fun sched => by
    obtain ⟨g, body, h3, h4, h5, h6⟩ := h2 sched
    exact ⟨g, body, _, h3, h4, h5, h6⟩⟩

/-! ### Only one Avro schema -/

theorem strLt_irrefl (a : Str) : strLt a a ≠ true := fun h => absurd h (by have := @strLt_asymm a a; simp_all)

theorem same_of_ordered {α : Type} {key : α → Str} {a b : List α} (ha : (a.map key).Pairwise (fun x y => strLt x y = true))
    (hb : (b.map key).Pairwise (fun x y => strLt x y = true)) (h : ∀ x, x ∈ a ↔ x ∈ b) : a = b := by
  have hnd : ∀ l : List α, (l.map key).Pairwise (fun x y => strLt x y = true) → l.Nodup := by
    intro l hl
    rw [List.pairwise_map] at hl
    exact hl.imp fun {x y} hxy e => by rw [e] at hxy; exact strLt_irrefl _ hxy
  have hp : a.Perm b := (List.perm_ext_iff_of_nodup (hnd a ha) (hnd b hb)).2 h
  have := ordered_unique (a := a.map fun x => (key x, x)) (b := b.map fun x => (key x, x))
    (by unfold Ordered; rw [List.pairwise_map] at ha ⊢; exact ha) (by unfold Ordered; rw [List.pairwise_map] at hb ⊢; exact hb) (hp.map _)
  have := congrArg (List.map Prod.snd) this
  rw [List.map_map, List.map_map] at this
  rw [show (Prod.snd ∘ fun x : α => (key x, x)) = id from rfl, List.map_id, List.map_id] at this
  exact this

theorem docOf_unique {descTag : Bool} {raw : P} {d d' : Str} (h : DocOf descTag raw d) (h' : DocOf descTag raw d') : d = d' := by
  obtain ⟨i, h1, rfl⟩ := h
  obtain ⟨i', h2, rfl⟩ := h'
  rw [h1] at h2
  cases h2
  rfl

theorem fields_unique {rename : GMap Str} {descTag : Bool} {miss : P → Bool → Prop} {m : GMap P} {r : List Str} {fs fs' : List AField}
    (h : RecordFor title rename descTag miss m r fs) (h' : RecordFor title rename descTag miss m r fs')
    (ht : ∀ f ∈ fs, ∀ q, Listed m f.name q → ∀ t, TypeFor title rename descTag miss q t → f.type = t) : fs = fs' := by
  have eq : ∀ f ∈ fs, ∀ f' ∈ fs', f.name = f'.name → f = f' := by
    intro f hf f' hf' hn
    obtain ⟨q, hq⟩ := (h.names f.name).1 ⟨f, hf, rfl⟩
    have hq' : Listed m f'.name q := hn ▸ hq
    have h1 := docOf_unique (h.doc f hf q hq) (h'.doc f' hf' q hq')
    have h2 := (h.optional f hf q hq).trans (by simp only [hn]; exact (h'.optional f' hf' q hq').symm)
    have h3 := ht f hf q hq _ (h'.type f' hf' q hq')
    obtain ⟨n, d, t, o⟩ := f
    obtain ⟨n', d', t', o'⟩ := f'
    simp only [AField.name, AField.doc, AField.type, AField.optional] at hn h1 h2 h3
    rw [hn, h1, h3, Bool.eq_iff_iff.2 h2]
  refine same_of_ordered h.order h'.order fun f => ⟨fun hf => ?_, fun hf' => ?_⟩
  · obtain ⟨f', hf', hn⟩ := (h'.names f.name).2 ((h.names f.name).1 ⟨f, hf, rfl⟩)
    rw [eq f hf f' hf' hn.symm]
    exact hf'
  · obtain ⟨f2, hf2, hn⟩ := (h.names f.name).2 ((h'.names f.name).1 ⟨f, hf', rfl⟩)
    rw [← eq f2 hf2 f hf' hn]
    exact hf2

theorem typeFor_unique {rename : GMap Str} {descTag : Bool} {miss : P → Bool → Prop} {raw : P} {t : AType} (h : TypeFor title rename descTag miss raw t) :
    ∀ t', TypeFor title rename descTag miss raw t' → t = t' := by
  have hobj : ∀ {x : Str}, (g!"object", x) ∉ scalarTable := by intro x; simp [scalarTable]
  have harr : ∀ {x : Str}, (g!"array", x) ∉ scalarTable := by intro x; simp [scalarTable]
  induction h with
  | @scalar raw i t a hd ht hm hn =>
    intro t' h'
    cases h' with
    | @scalar _ i' t2 a2 hd' ht' hm' hn' =>
      rw [hd] at hd'; cases hd'
      rw [← typeIs_unique ht ht'] at hm'
      have : ∀ x ∈ scalarTable, ∀ y ∈ scalarTable, x.1 = y.1 → x = y := by decide
      have := this _ hm _ hm' rfl
      simp only [Prod.mk.injEq, true_and] at this
      rw [this]
    | time hd' ht' hf => rw [hd] at hd'; cases hd'; exact absurd ⟨typeIs_unique ht ht', hf⟩ hn
    | strings hd' ht' => rw [same_type hd hd' ht ht'] at hm; exact absurd hm hobj
    | list hd' ht' => rw [same_type hd hd' ht ht'] at hm; exact absurd hm harr
    | record hd' ht' => rw [same_type hd hd' ht ht'] at hm; exact absurd hm hobj
  | @time raw i hd ht hf =>
    intro t' h'
    cases h' with
    | scalar hd' ht' hm hn => rw [hd] at hd'; cases hd'; exact absurd ⟨typeIs_unique ht' ht, hf⟩ hn
    | time => rfl
    | strings hd' ht' => exact absurd (same_type hd hd' ht ht') (by decide)
    | list hd' ht' => exact absurd (same_type hd hd' ht ht') (by decide)
    | record hd' ht' => exact absurd (same_type hd hd' ht ht') (by decide)
  | @strings raw i m hd ht hp hno =>
    intro t' h'
    cases h' with
    | scalar hd' ht' hm hn => rw [← same_type hd hd' ht ht'] at hm; exact absurd hm hobj
    | time hd' ht' => exact absurd (same_type hd hd' ht ht') (by decide)
    | strings => rfl
    | list hd' ht' => exact absurd (same_type hd hd' ht ht') (by decide)
    | record hd' ht' hp' hs =>
      rw [hd] at hd'; cases hd'
      rw [hp] at hp'; cases hp'
      obtain ⟨k, q, hq⟩ := hs
      exact absurd hq (hno k q)
  | @list raw items i t hd ht hi _ ih =>
    intro t' h'
    cases h' with
    | scalar hd' ht' hm hn => rw [← same_type hd hd' ht ht'] at hm; exact absurd hm harr
    | time hd' ht' => exact absurd (same_type hd hd' ht ht') (by decide)
    | strings hd' ht' => exact absurd (same_type hd hd' ht ht') (by decide)
    | list hd' ht' hi' h2 =>
      rw [hd] at hd'; cases hd'
      rw [hi] at hi'; cases hi'
      rw [ih _ h2]
    | record hd' ht' => exact absurd (same_type hd hd' ht ht') (by decide)
  | @record raw i m fs hd ht hp hs h1 h2 h3 h4 h5 ih =>
    intro t' h'
    cases h' with
    | scalar hd' ht' hm hn => rw [← same_type hd hd' ht ht'] at hm; exact absurd hm hobj
    | time hd' ht' => exact absurd (same_type hd hd' ht ht') (by decide)
    | strings hd' ht' hp' hno =>
      rw [hd] at hd'; cases hd'
      rw [hp] at hp'; cases hp'
      obtain ⟨k, q, hq⟩ := hs
      exact absurd hq (hno k q)
    | list hd' ht' => exact absurd (same_type hd hd' ht ht') (by decide)
    | record hd' ht' hp' hs' g1 g2 g3 g4 g5 =>
      rw [hd] at hd'; cases hd'
      rw [hp] at hp'; cases hp'
      rw [fields_unique ⟨h1, h2, h3, h4, h5⟩ ⟨g1, g2, g3, g4, g5⟩ ih]

/-- There is at most one list of fields for the properties of a schema. -/
theorem C81_unique {rename : GMap Str} {descTag : Bool} {miss : P → Bool → Prop} {m : GMap P} {r : List Str} {fs fs' : List AField}
    (h : RecordFor title rename descTag miss m r fs) (h' : RecordFor title rename descTag miss m r fs') : fs = fs' :=
  fields_unique h h' fun f hf q hq _ ht' => typeFor_unique (h.type f hf q hq) _ ht'

namespace C81ex
open C76ex

def world : World := ⟨fun _ => false, fun _ => none, fun _ => none⟩

theorem doc {p : Char → Bool} {b : Bool} {i : Instance} (h : i.description = []) : PlainDoc p b i := by
  intro _ c hc
  rw [h] at hc
  cases hc

theorem clean_int {p : Char → Bool} {b : Bool} : AvroClean C56ex.capital [] p b pInt := .leaf decoded.2.1 rfl (by decide) (doc rfl)
theorem clean_text {p : Char → Bool} {b : Bool} : AvroClean C56ex.capital [] p b pText := .leaf decoded.2.2.2.1 rfl (by decide) (doc rfl)

theorem listed_one {k k' : Str} {q q' : P} (h : Listed [(k, q)] k' q') : k' = k ∧ q' = q := by
  have := GMap.get_some_mem h.1
  simpa using this

theorem names_one {k : Str} {q : P} (h1 : TagName k) (h2 : Exported (goName C56ex.capital [] k)) : CleanNames C56ex.capital [] [(k, q)] :=
  ⟨fun _ _ h => (listed_one h).1 ▸ h1, fun _ _ h => (listed_one h).1 ▸ h2, fun _ _ _ _ h h' _ => (listed_one h).1.trans (listed_one h').1.symm⟩

theorem clean_in {p : Char → Bool} {b : Bool} : AvroClean C56ex.capital [] p b pIn :=
  .object decoded.2.2.2.2.2.2 rfl rfl (doc rfl) (names_one (by decide) (by decide)) fun _ _ h => (listed_one h).2 ▸ clean_int

theorem clean_props : ∀ k q, (k, q) ∈ props → AvroClean C56ex.capital [] world.isPrint false q := by
  refine cases_props ?_ ?_ ?_ ?_ ?_ ?_ ?_
  · exact .leaf decoded.2.2.1 rfl (by decide) (doc rfl)
  · exact .object decoded.2.2.2.2.2.1 rfl rfl (doc rfl) ⟨fun _ _ h => (nomatch h.1), fun _ _ h => (nomatch h.1), fun _ _ _ _ h => (nomatch h.1)⟩ fun _ _ h => (nomatch h.1)
  · exact clean_in
  · exact clean_int
  · exact .leaf decoded.1 rfl (by decide) (doc rfl)
  · exact .array decoded.2.2.2.2.1 rfl rfl (doc rfl) clean_text
  · exact clean_text

/-- A schema with properties of all types meets the conditions. -/
example : AvroSource C56ex.capital world.isPrint args schema props [] ∧ PlainText world.isPrint (C56ex.capital g!"thing") :=
  ⟨⟨rfl, rfl, rfl, by decide, C56ex.quiet (by decide +kernel), C56ex.one (by decide +kernel), C56ex.plain (by decide +kernel), .off rfl,
    ⟨g!"at", pTime, rfl, not_hydrated (by decide +kernel)⟩, names_props, fun _ _ h => clean_props _ _ (listed h)⟩, plain_ascii (by decide)⟩

/-- A text that may be null, but is required. -/
def nullSchema : Instance := { Instance.zero with properties := some [(g!"text", pText)], required := [g!"text"] }
/-- An object that is not required. -/
def objectSchema : Instance := { Instance.zero with properties := some [(g!"in", pIn)] }

theorem null_source : AvroSource C56ex.capital world.isPrint args nullSchema [(g!"text", pText)] [] :=
  ⟨rfl, rfl, rfl, by decide, C56ex.quiet (by decide +kernel), C56ex.one (by decide +kernel), C56ex.plain (by decide +kernel), .off rfl,
    ⟨g!"text", pText, rfl, not_hydrated (by decide +kernel)⟩, names_one (by decide) (by decide), fun _ _ h => (listed_one h).2 ▸ clean_text⟩

theorem object_source : AvroSource C56ex.capital world.isPrint args objectSchema [(g!"in", pIn)] [] :=
  ⟨rfl, rfl, rfl, by decide, C56ex.quiet (by decide +kernel), C56ex.one (by decide +kernel), C56ex.plain (by decide +kernel), .off rfl,
    ⟨g!"in", pIn, rfl, not_hydrated (by decide +kernel)⟩, names_one (by decide) (by decide), fun _ _ h => (listed_one h).2 ▸ clean_in⟩

/-- The record for a single property. -/
theorem record_one {miss : P → Bool → Prop} {k : Str} {q : P} {r : List Str} {i : Instance} {t : AType} {o : Bool} (hh : ¬ Hydrated q) (hd : decodeInstance false q = .ok i)
    (ho : o = true ↔ miss q (decide (k ∈ r))) (ht : TypeFor C56ex.capital [] false miss q t) :
    RecordFor C56ex.capital [] false miss [(k, q)] r [.mk k [] t o] := by
  have hf : ∀ f ∈ [AField.mk k [] t o], f = .mk k [] t o := fun f h => List.mem_singleton.1 h
  refine ⟨by simp, fun k' => ⟨?_, ?_⟩, ?_, ?_, ?_⟩
  · rintro ⟨f, h, rfl⟩
    rw [hf f h]
    exact ⟨q, by simp [GMap.get, AField.name], hh⟩
  · rintro ⟨q', h⟩
    exact ⟨_, List.mem_singleton.2 rfl, (listed_one h).1.symm⟩
  · intro f h q' hq
    rw [(listed_one hq).2, hf f h]
    exact ⟨i, hd, rfl⟩
  · intro f h q' hq
    rw [(listed_one hq).2, hf f h]
    exact ho
  · intro f h q' hq
    rw [(listed_one hq).2, hf f h]
    exact ht

theorem type_text {ideal : Bool} : TypeFor C56ex.capital [] false (MayMiss ideal) pText (.scalar g!"string") :=
  .scalar decoded.2.2.2.1 (t := g!"string") rfl (by decide) (by decide)

theorem type_in {ideal : Bool} : TypeFor C56ex.capital [] false (MayMiss ideal) pIn (.record [.mk g!"n" [] (.scalar g!"long") false]) := by
  have hn : ¬ Hydrated pInt := not_hydrated (by decide +kernel)
  have h := record_one (miss := MayMiss ideal) (k := g!"n") (r := [g!"n"]) (o := false) hn decoded.2.1
    (by
      simp only [Bool.false_eq_true, false_iff]
      unfold MayMiss
      have : ¬ Nullable pInt := by
        rintro ⟨i, h1, h2⟩
        rw [decoded.2.1] at h1
        cases h1
        revert h2
        decide
      split
      · rintro (h | h)
        · revert h; decide
        · exact this h
      · rintro ⟨h, _⟩
        revert h; decide)
    (.scalar decoded.2.1 (t := g!"integer") (a := g!"long") rfl (by decide) (by decide))
  exact .record decoded.2.2.2.2.2.2 rfl rfl ⟨g!"n", pInt, rfl, hn⟩ h.order h.names h.doc h.optional h.type

/-- The Avro schema is not the one asked for, if it is another one. -/
theorem not_for {schema : Instance} {m : GMap P} {fs fs' : List AField} (h : AvroSource C56ex.capital world.isPrint args schema m [])
    (h1 : RecordFor C56ex.capital [] false (MayMiss true) m schema.required fs) (h2 : RecordFor C56ex.capital [] false (MayMiss false) m schema.required fs')
    (hne : fileText g!"Thing" fs ≠ fileText g!"Thing" fs') : ¬ C81_for C56ex.capital world args schema m g!"thing" [] := by
  rintro ⟨gs, h3, h4⟩
  obtain ⟨gs', h5, h6⟩ := C81_partial (name := g!"thing") h (plain_ascii (by decide))
  have e1 : gs = fs := C81_unique h3 h1
  have e2 : gs' = fs' := C81_unique h5 h2
  subst e1
  subst e2
  have sched : ∃ s : Sched, True := ⟨Sched.id, trivial⟩
  obtain ⟨s, -⟩ := sched
  obtain ⟨g, body, l, a1, a2, a3, N, a4⟩ := h4 s
  obtain ⟨g', body', l', b1, b2, b3, N', b4⟩ := h6 s
  rw [a1] at b1; cases b1
  rw [a2] at b2; cases b2
  rw [a3] at b3; cases b3
  have := (a4 (N + N') (by omega)).symm.trans (b4 (N + N') (by omega))
  exact hne (Res.ok.inj this)

end C81ex

open C81ex C76ex in
/-- C81 is false for a property that is required and may be null: its Avro type is not a union with null. -/
theorem C81_refuted_null : AvroSource C56ex.capital world.isPrint args nullSchema [(g!"text", pText)] [] ∧
    ¬ C81_for C56ex.capital world args nullSchema [(g!"text", pText)] g!"thing" [] := by
  refine ⟨null_source, not_for null_source (record_one (o := true) (not_hydrated (by decide +kernel)) decoded.2.2.2.1 ?_ type_text)
    (record_one (o := false) (not_hydrated (by decide +kernel)) decoded.2.2.2.1 ?_ type_text) (by decide +kernel)⟩
  · exact ⟨fun _ => Or.inr ⟨_, decoded.2.2.2.1, by decide⟩, fun _ => rfl⟩
  · constructor
    · intro h; cases h
    · rintro ⟨h, _⟩
      revert h
      decide

open C81ex C76ex in
/-- C81 is false for an optional object: its Avro type is not a union with null. -/
theorem C81_refuted_object : AvroSource C56ex.capital world.isPrint args objectSchema [(g!"in", pIn)] [] ∧
    ¬ C81_for C56ex.capital world args objectSchema [(g!"in", pIn)] g!"thing" [] := by
  refine ⟨object_source, not_for object_source (record_one (o := true) (not_hydrated (by decide +kernel)) decoded.2.2.2.2.2.2 ?_ type_in)
    (record_one (o := false) (not_hydrated (by decide +kernel)) decoded.2.2.2.2.2.2 ?_ type_in) (by decide +kernel)⟩
  · exact ⟨fun _ => Or.inl (by decide), fun _ => rfl⟩
  · constructor
    · intro h; cases h
    · rintro ⟨_, h⟩
      refine absurd ((bare_iff decoded.2.2.2.2.2.2 rfl rfl).2 ⟨⟨g!"n", pInt, rfl, not_hydrated (by decide +kernel)⟩, by decide⟩) h

open C81ex in
/-- So C81 is false in general. -/
theorem C81_refuted : ¬ C81_statement C56ex.capital := fun h =>
  C81_refuted_null.2 (h world _ _ _ _ _ C81_refuted_null.1 (plain_ascii (by decide)))

open C81ex C76ex in
/-- The whole file for the optional object. -/
example : AvroGenerates C56ex.capital world args objectSchema g!"thing" [] [.mk g!"in" [] (.record [.mk g!"n" [] (.scalar g!"long") false]) false] ∧
    fieldTexts [] [.mk g!"in" [] (.record [.mk g!"n" [] (.scalar g!"long") false]) false] =
      [g!"{\"name\":\"in\",\"type\":{\"name\":\"in_record\",\"namespace\":\"in\",\"type\":\"record\",\"fields\":[{\"name\":\"n\",\"namespace\":\"in\",\"type\":\"long\"}]}}"] := by
  refine ⟨?_, by decide +kernel⟩
  obtain ⟨fs, h1, h2⟩ := C81_partial (name := g!"thing") object_source (plain_ascii (by decide))
  have := C81_unique h1 (record_one (o := false) (not_hydrated (by decide +kernel)) decoded.2.2.2.2.2.2 ⟨fun h => (nomatch h), fun h =>
    absurd ((bare_iff decoded.2.2.2.2.2.2 rfl rfl).2 ⟨⟨g!"n", pInt, rfl, not_hydrated (by decide +kernel)⟩, by decide⟩) h.2⟩ type_in)
  rw [← this]
  exact h2

end JT.Go
