import Verif.Proofs.AvroGo
import Verif.Props.C81
/- C83: from a JSON schema to Avro records: the generated struct, the Avro schema, the structs that gogen-avro makes of it and the generated conversion. -/
namespace JT.Go
open Gen Spec JT.Spec GoJson

/-! ### Specification -/

/-- A schema whose messages can be carried over. -/
structure Convertible (title pub : Str → Str) (args : Args) (schema : Instance) (m : GMap P) (name : Str) : Prop where
  names : SameNames title pub args.fieldNames m
  each : ∀ k q, Listed m k q → Carried title pub args.fieldNames args.pointers false q (decide (k ∈ schema.required))
  top : pub ((GMap.get (title name) args.fieldNames).getD (title name)) = title name

/-- The names of the fields that are filled: those of the properties. -/
def PropertyNames (title : Str → Str) (rename : GMap Str) (m : GMap P) (l : List Str) : Prop :=
  l.Nodup ∧ ∀ g, g ∈ l ↔ ∃ k q, Listed m k q ∧ goName title rename k = g

/-- The generated conversion: with the structs that gogen-avro makes from the Avro schema it compiles, and makes of every message a record with the write time and one
field for each property, which represents the value of the property. -/
def ConvertsTo (title pub : Str → Str) (args : Args) (m : GMap P) (name : Str) (fs : List AField) (l : List GoField) : Prop :=
  ∀ ord : GMap GoField → GMap GoField, (∀ m, (ord m).Perm m) → ∃ N, ∀ n, N ≤ n → ∃ fl fns,
    mapStruct (goDecls pub args.fieldNames (title name) fs) (fun _ => none) ord n l (metaGo ++ fs.map (fieldGo pub args.fieldNames)) = .ok (fl, fns) ∧
    Compiles (goDecls pub args.fieldNames (title name) fs) (Spec.fieldType (fun _ => none) l) (title name) fns fl ∧
    ∀ vals aTime, Spec.Message (goDecls pub args.fieldNames (title name) fs) (fun _ => none) l vals →
      ∃ gs, convertToAvro aTime (title name) fns fl (.ptr (.struct vals)) = some (.ptr (.record (title name) ((g!"AvroWriteTime", .int aTime) :: gs))) ∧
        PropertyNames title args.fieldNames m (gs.map Prod.fst) ∧
        ∀ k a, (k, a) ∈ gs → ∃ v, GMap.get k vals = some v ∧ Spec.Conv (goDecls pub args.fieldNames (title name) fs) v a

/-- C83 for one schema.  The structs of the Avro package need different names. -/
def C83_for (title pub : Str → Str) (w : World) (args : Args) (schema : Instance) (m : GMap P) (name : Str) (embeds : List Str) : Prop :=
  ∃ fs, RecordFor title args.fieldNames args.descTag (MayMiss false) m schema.required fs ∧
    (((gogen pub args.fieldNames (title name) fs).map Prod.fst).Nodup → ∀ sched, ∃ g body l, newGoFile sched title args schema name embeds = .ok g ∧
      (g.text title args).2 = [⟨title name, [], body⟩] ∧ readGoLines body [] [] = some l ∧
      (∃ N, ∀ n, N ≤ n → avroSchema w n (title name) l = .ok (fileText (title name) fs)) ∧ ConvertsTo title pub args m name fs l)

/-- **C83**, in full. -/
def C83_statement (title pub : Str → Str) : Prop := ∀ (w : World) (args : Args) (schema : Instance) (m : GMap P) (name : Str) (embeds : List Str),
  AvroSource title w.isPrint args schema m embeds → PlainText w.isPrint (title name) → SameNames title pub args.fieldNames m →
  pub ((GMap.get (title name) args.fieldNames).getD (title name)) = title name → C83_for title pub w args schema m name embeds

/-! ### Proof -/

variable {title pub : Str → Str}

theorem mapLoop_named {files : Str → Option (List GoField)} {ord : GMap GoField → GMap GoField} {rec : List GoField → Res (GMap GoField)} :
    ∀ (l : List GoField) (m : GMap GoField), (∀ f ∈ l, f.name ≠ none) → ∃ r, mapLoop files ord rec l m = .ok r
  | [], m, _ => ⟨m, rfl⟩
  | .mk none _ _ :: _, _, h => absurd rfl (h _ List.mem_cons_self)
  | .mk (some _) _ _ :: l, _, h => mapLoop_named l _ fun f hf => h f (List.mem_cons_of_mem _ hf)

theorem metaGo_meta : ∀ f ∈ metaGo, ∃ k, f.name = some k ∧ Meta k := by
  intro f hf
  simp only [metaGo, List.mem_cons, List.not_mem_nil, or_false] at hf
  rcases hf with rfl | rfl
  · exact ⟨_, rfl, ⟨g!"WriteTime", rfl⟩⟩
  · exact ⟨_, rfl, ⟨g!"Deleted", rfl⟩⟩

/-- **C83**, partial: for every schema that can be carried over (`Convertible`), the conversion generated for its struct and the structs that gogen-avro makes of its Avro
schema compiles and carries every message over, property by property.  Missing: properties that are null otherwise, such as a required text that may be null
(`C83_refuted`), lists of maps, and structs that embed others. -/
theorem C83_partial {w : World} {args : Args} {schema : Instance} {m : GMap P} {name : Str} {embeds : List Str}
    (h : AvroSource title w.isPrint args schema m embeds) (hname : PlainText w.isPrint (title name)) (hc : Convertible title pub args schema m name) :
    C83_for title pub w args schema m name embeds := by
  obtain ⟨ps, h1, ht, h2⟩ := C81_twins h hname
  refine ⟨_, h1, fun hnd sched => ?_⟩
  obtain ⟨g, body, h3, h4, h5, h6⟩ := h2 sched
  refine ⟨g, body, _, h3, h4, h5, h6, fun ord hord => ?_⟩
  have hdecl : ∀ e ∈ gogen pub args.fieldNames (title name) (ps.map Prod.snd), (goDecls pub args.fieldNames (title name) (ps.map Prod.snd)).avro e.1 = some e.2 :=
    fun e he => GMap.get_mem_nodup hnd he
  have hp : ∀ p ∈ ps, ∃ L, PairFits pub args.fieldNames (goDecls pub args.fieldNames (title name) (ps.map Prod.snd)) false p L := fun p hpm => by
    obtain ⟨q, hq⟩ := ht.listed p hpm
    exact twin_fits (ht.type p hpm q hq) (hc.each _ _ hq) p.2.name p.2.optional (hc.names.record _ _ hq) (ht.optional p hpm q hq)
      fun e he => hdecl e (List.mem_cons_of_mem _ (mem_allRecords (List.mem_map.2 ⟨p, hpm, rfl⟩) he))
  obtain ⟨f1, _, f3⟩ := fields_fit ht.name ht.listed ht.nodup hc.names hp
  obtain ⟨f4, f5, f6, ty, Ls, f7, f8⟩ := f3 metaGo metaGo_meta (by decide)
  have hpair := Spec.Pair.plain f1 f4 f5 Ls f6 fun k a tag hk hM => by
    obtain ⟨⟨tg, a1⟩, a2⟩ := f7 k a tag hk hM
    exact ⟨ty k, tg, a1, a2⟩
  obtain ⟨mp, hmp⟩ := mapLoop_named (files := fun _ => none) (ord := ord) (rec := mapFields (fun _ => none) ord 0) (ps.map Prod.fst) []
    fun f hf => by obtain ⟨k, hk, _⟩ := f1.1 f hf; rw [hk]; simp
  have hav : (goDecls pub args.fieldNames (title name) (ps.map Prod.snd)).avro (title name) =
      some (metaGo ++ (ps.map Prod.snd).map (fieldGo pub args.fieldNames)) := by
    have := hdecl _ List.mem_cons_self
    rwa [show toPublicName pub args.fieldNames (title name) = title name from hc.top] at this
  obtain ⟨N, hN⟩ := C75_partial (n0 := 1) hord hmp hpair hav
  refine ⟨N, fun n hn => ?_⟩
  obtain ⟨fl, fns, g1, _, g3⟩ := hN n hn
  obtain ⟨g4, g5⟩ := g3 (f8.nodup (List.nodup_cons.1 hnd).2)
  refine ⟨fl, fns, g1, g4, fun vals aTime hm => ?_⟩
  obtain ⟨gs, e1, e2, e3⟩ := g5 vals aTime hm
  refine ⟨gs, e1, ⟨e2.1, fun x => ?_⟩, e3⟩
  rw [e2.2 x, ← f6.2 x]
  constructor
  · intro hx
    obtain ⟨p, hpm, rfl⟩ := List.mem_map.1 hx
    obtain ⟨q, hq⟩ := ht.listed p hpm
    exact ⟨_, q, hq, rfl⟩
  · rintro ⟨k, q, hq, rfl⟩
    obtain ⟨f, hf, rfl⟩ := (h1.names k).2 ⟨q, hq⟩
    obtain ⟨p, hpm, rfl⟩ := List.mem_map.1 hf
    exact List.mem_map.2 ⟨p, hpm, rfl⟩

/-! ### Cases -/

namespace C83ex
open C76ex C81ex

/-- A time, an object, an integer and a list of texts. -/
def small : GMap P := [(g!"at", pTime), (g!"in", pIn), (g!"n", pInt), (g!"tags", pTags)]
def schema : Instance := { Instance.zero with properties := some small, required := [g!"in"] }

theorem cases_small {motive : Str → P → Prop} (h1 : motive g!"at" pTime) (h2 : motive g!"in" pIn) (h3 : motive g!"n" pInt) (h4 : motive g!"tags" pTags) :
    ∀ k q, Listed small k q → motive k q := by
  intro k q h
  have := GMap.get_some_mem h.1
  simp only [small, List.mem_cons, List.not_mem_nil, or_false, Prod.mk.injEq] at this
  rcases this with ⟨rfl, rfl⟩ | ⟨rfl, rfl⟩ | ⟨rfl, rfl⟩ | ⟨rfl, rfl⟩ <;> assumption

theorem source : AvroSource C56ex.capital world.isPrint args schema small [] := by
  refine ⟨rfl, rfl, rfl, by decide, C56ex.quiet (by decide +kernel), C56ex.one (by decide +kernel), C56ex.plain (by decide +kernel), .off rfl,
    ⟨g!"at", pTime, rfl, not_hydrated (by decide +kernel)⟩, ⟨?_, ?_, ?_⟩, ?_⟩
  · exact cases_small (by decide) (by decide) (by decide) (by decide)
  · exact cases_small (by decide) (by decide) (by decide) (by decide)
  · have hd : ∀ kv ∈ small, ∀ kv' ∈ small, goName C56ex.capital [] kv.1 = goName C56ex.capital [] kv'.1 → kv.1 = kv'.1 := by decide +kernel
    exact fun _ _ _ _ h h' => hd _ (GMap.get_some_mem h.1) _ (GMap.get_some_mem h'.1)
  · exact cases_small (.leaf decoded.2.2.1 rfl (by decide) (doc rfl)) clean_in clean_int (.array decoded.2.2.2.2.1 rfl rfl (doc rfl) clean_text)

theorem recName {r : Str} (h : r.head? ≠ some 'U') (h1 : r ∉ basics) (h2 : r ≠ g!"Double" ∧ r ≠ g!"Long" ∧ r ≠ g!"String") : RecName r := by
  refine ⟨h1, ?_, h2⟩
  rintro ⟨x, rfl⟩
  exact h rfl

theorem notMeta {k : Str} (h : k.head? ≠ some 'A' ∨ (k.drop 1).head? ≠ some 'v') : ¬ Meta k := by
  rintro ⟨x, rfl⟩
  rcases h with h | h <;> exact h rfl

theorem names_in : SameNames C56ex.capital C56ex.capital [] [(g!"n", pInt)] := by
  refine ⟨fun k q h => ?_, fun k q h => ?_, fun k q h => ?_⟩ <;> rw [(listed_one h).1]
  · exact ⟨by decide, notMeta (by decide)⟩
  · exact recName (by decide) (by decide) (by decide)

theorem carried_int {inList required : Bool} : Carried C56ex.capital C56ex.capital [] false inList pInt required :=
  .scalar decoded.2.1 (t := g!"integer") rfl (by decide) (by decide) (by decide)

/-- The schema meets the conditions, and the structs of the Avro package have different names. -/
example : AvroSource C56ex.capital world.isPrint args schema small [] ∧ Convertible C56ex.capital C56ex.capital args schema small g!"thing" := by
  refine ⟨source, ⟨fun k q h => ?_, ?_, ?_⟩, ?_, rfl⟩
  · exact cases_small (motive := fun k _ => C56ex.capital ((GMap.get k []).getD k) = C56ex.capital ((GMap.get k []).getD k)) rfl rfl rfl rfl k q h
  · exact cases_small ⟨by decide, notMeta (by decide)⟩ ⟨by decide, notMeta (by decide)⟩ ⟨by decide, notMeta (by decide)⟩ ⟨by decide, notMeta (by decide)⟩
  · exact cases_small (recName (by decide) (by decide) (by decide)) (recName (by decide) (by decide) (by decide)) (recName (by decide) (by decide) (by decide))
      (recName (by decide) (by decide) (by decide))
  · refine cases_small ?_ ?_ ?_ ?_
    · exact .time decoded.2.2.1 rfl rfl (by decide) (by decide)
    · exact .object decoded.2.2.2.2.2.2 rfl rfl ⟨g!"n", pInt, rfl, not_hydrated (by decide +kernel)⟩ (by decide) names_in fun k q h => by
        rw [(listed_one h).2]; exact carried_int
    · exact carried_int
    · exact .scalars decoded.2.2.2.2.1 rfl rfl decoded.2.2.2.1 (t := g!"string") rfl (by decide) (by decide) (by decide)

/-- Its structs: the fields in the order of the Avro schema. -/
example : (gogen C56ex.capital [] g!"Thing" [.mk g!"at" [] .time true, .mk g!"in" [] (.record [.mk g!"n" [] (.scalar g!"long") false]) false,
      .mk g!"n" [] (.scalar g!"long") true, .mk g!"tags" [] (.list (.scalar g!"string")) true]).map Prod.fst = [g!"Thing", g!"In_record"] := by decide

/-- The Go type for the text that may be null. -/
theorem twin_text {raw : P} {required : Bool} {t : GoType} {y : AType} (h : Twin C56ex.capital [] false raw required t y) (hr : raw = pText)
    (hx : y = .scalar g!"string") : t = .star (.ident g!"string") := by
  cases h with
  | @scalar _ i t n b _ a1 a2 a3 a4 a5 =>
    have hb : ∀ e ∈ basicTable, e.1 = g!"string" → e.2 = g!"string" := by decide
    have := hb _ a4 (AType.scalar.inj hx)
    simp only at this
    rw [hr, decoded.2.2.2.1] at a1; cases a1
    rw [this]
    rfl
  | time => cases hx
  | strings => cases hx
  | record => cases hx
  | scalars => cases hx
  | times => cases hx
  | dicts => cases hx
  | records => cases hx

end C83ex

open C76ex C81ex C83ex in
/-- C83 is false for a required text that may be null: a pointer is put where the Avro struct has a string, which does not compile. -/
theorem C83_refuted : ¬ C83_statement C56ex.capital C56ex.capital := by
  intro hs
  have hn : SameNames C56ex.capital C56ex.capital [] [(g!"text", pText)] := by
    refine ⟨fun k q h => ?_, fun k q h => ?_, fun k q h => ?_⟩ <;> rw [(listed_one h).1]
    · exact ⟨by decide, notMeta (by decide)⟩
    · exact recName (by decide) (by decide) (by decide)
  obtain ⟨fs, h1, h2⟩ := hs world args nullSchema [(g!"text", pText)] g!"thing" [] null_source (plain_ascii (by decide)) hn rfl
  obtain ⟨ps, h3, ht, h4⟩ := C81_twins (name := g!"thing") null_source (plain_ascii (by decide))
  have hr : RecordFor C56ex.capital [] false (MayMiss false) [(g!"text", pText)] [g!"text"] [.mk g!"text" [] (.scalar g!"string") false] :=
    record_one (o := false) (not_hydrated (by decide +kernel)) decoded.2.2.2.1 (by
      constructor
      · intro h; cases h
      · rintro ⟨h, _⟩
        revert h
        decide) type_text
  have e1 : fs = [.mk g!"text" [] (.scalar g!"string") false] := C81_unique h1 hr
  have e2 : ps.map Prod.snd = [.mk g!"text" [] (.scalar g!"string") false] := C81_unique h3 hr
  subst e1
  obtain ⟨p, rfl, hp⟩ : ∃ p, ps = [p] ∧ p.2 = .mk g!"text" [] (.scalar g!"string") false := by
    clear h3 ht h4
    match ps with
    | [] => cases e2
    | [p] => exact ⟨p, rfl, by simpa using e2⟩
    | _ :: _ :: _ => simp at e2
  have hl : Listed [(g!"text", pText)] p.2.name pText := by rw [hp]; exact ⟨rfl, not_hydrated (by decide +kernel)⟩
  have h5 := ht.type p List.mem_cons_self pText hl
  have h6 := ht.name p List.mem_cons_self
  obtain ⟨⟨n, t, tag⟩, x⟩ := p
  simp only at hp
  subst hp
  simp only [GoField.name, AField.name, GoField.type, AField.type] at h5 h6
  subst h6
  have hty := twin_text h5 rfl rfl
  subst hty
  obtain ⟨g, body, l, a1, a2, a3, _, a4⟩ := h2 (by decide) Sched.id
  obtain ⟨g', body', b1, b2, b3, _⟩ := h4 Sched.id
  rw [a1] at b1; cases b1
  rw [a2] at b2; cases b2
  rw [a3] at b3; cases b3
  obtain ⟨N, hN⟩ := a4 id fun _ => .refl _
  obtain ⟨fl, fns, c1, c2, _⟩ := hN (N + 1) (by omega)
  have c3 : (g!"Text", Code.field [g!"Text"]) ∈ fl := by
    have : mapStruct (goDecls C56ex.capital [] g!"Thing" [.mk g!"text" [] (.scalar g!"string") false]) (fun _ => none) id (N + 1)
      [.mk (some g!"Text") (.star (.ident g!"string")) tag] (metaGo ++ [AField.mk g!"text" [] (.scalar g!"string") false].map (fieldGo C56ex.capital [])) =
        .ok ([(g!"Text", .field [g!"Text"])], []) := rfl
    have := c1.symm.trans this
    cases this
    exact List.mem_cons_self
  have c4 := c2.field (a := .ident g!"string") (tag := { name := g!"text" }) rfl (by decide) c3 (List.mem_append_right _ List.mem_cons_self)
  cases c4 with
  | field h5 =>
    have := (fieldType_one (selT_one h5)).2
    cases this

open C76ex C81ex C83ex in
/-- For a schema with an object the structs of the Avro package have different names, and the conversion is the one asked for. -/
example : ∃ l, ConvertsTo C56ex.capital C56ex.capital args [(g!"in", pIn)] g!"thing" [.mk g!"in" [] (.record [.mk g!"n" [] (.scalar g!"long") false]) false] l := by
  have hr := record_one (miss := MayMiss false) (k := g!"in") (r := []) (o := false) (C76ex.not_hydrated (q := pIn) (by decide +kernel)) decoded.2.2.2.2.2.2 (by
    constructor
    · intro h; cases h
    · rintro ⟨_, h⟩
      exact absurd ((bare_iff decoded.2.2.2.2.2.2 rfl rfl).2 ⟨⟨g!"n", pInt, rfl, not_hydrated (by decide +kernel)⟩, by decide⟩) h) type_in
  have hc : Convertible C56ex.capital C56ex.capital args objectSchema [(g!"in", pIn)] g!"thing" := by
    refine ⟨⟨fun k q h => ?_, fun k q h => ?_, fun k q h => ?_⟩, fun k q h => ?_, rfl⟩
    · rfl
    · rw [(listed_one h).1]; exact ⟨by decide, notMeta (by decide)⟩
    · rw [(listed_one h).1]; exact recName (by decide) (by decide) (by decide)
    · obtain ⟨rfl, rfl⟩ := listed_one h
      exact .object decoded.2.2.2.2.2.2 rfl rfl ⟨g!"n", pInt, rfl, not_hydrated (by decide +kernel)⟩ (by decide) names_in fun k q h => by
        rw [(listed_one h).2]; exact carried_int
  obtain ⟨fs, h1, h2⟩ := C83_partial (w := world) (name := g!"thing") object_source (plain_ascii (by decide)) hc
  have : fs = _ := C81_unique h1 hr
  subst this
  obtain ⟨_, _, l, _, _, _, _, h⟩ := h2 (by decide) Sched.id
  exact ⟨l, h⟩

end JT.Go
