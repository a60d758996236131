import Verif.Props.C84
import Verif.Props.C86
import Verif.Props.C65
/- C87: the Avro schema for a struct that embeds others. -/
namespace JT.Go
open Gen Spec JT.Spec GoJson
variable {title : Str → Str}

/-! ### What is expected -/

namespace Spec
/-- The text of the schema file for a record that has fields in several namespaces, besides the two fields that all have. -/
def fileTextWith (name : Str) (parts : List (List Str × List AField)) : Str :=
  g!"{\"name\":" ++ str name ++ g!",\"type\":\"record\",\"fields\":[" ++ join g!"," (writeTimeText :: deletedText :: (parts.map fun p => fieldTexts p.1 p.2).flatten) ++ g!"]}"

/-- The fields of the embedded structs, but for those whose Go name is a field of the struct itself. -/
def shownFields (goOf : Str → Str) (own fs : List AField) : List AField := fs.filter fun f => decide (goOf f.name ∉ own.map fun g => goOf g.name)

/-- `FileOf … s path p embeds`: the file at `path` is the one generated for a schema. -/
def FileOf (title : Str → Str) (args : Args) (s : Sources) (path : Str) (p : Part) (embeds : List Str) : Prop :=
  ∃ sched g src, newGoFile sched title args p.schema p.name embeds = .ok g ∧ readFile (g.text title args) = some src ∧ s.file path = .ok src
end Spec
open Spec

/-- What is asked of a schema; see `AvroSource`. -/
structure AvroPart (title : Str → Str) (isPrint : Char → Bool) (args : Args) (p : Part) : Prop where
  inline : args.noNested = false
  properties : p.schema.properties = some p.props
  items : p.schema.items = none
  nodup : p.keys.Nodup
  quiet : QuietSchema ⟨p.schema.properties, p.schema.items⟩
  one : OneTypeEach ⟨p.schema.properties, p.schema.items⟩
  plain : PlainItems ⟨p.schema.properties, p.schema.items⟩
  some : ∃ k q, Listed p.props k q
  names : CleanNames title args.fieldNames p.props
  clean : ∀ k q, Listed p.props k q → AvroClean title args.fieldNames isPrint args.descTag q
  text : PlainText isPrint (title p.name)

/-- What is asked of a schema and the schemas of the structs that its struct embeds. -/
structure AvroFamily (title : Str → Str) (isPrint : Char → Bool) (args : Args) (own : Part) (embeds : List Str) (commons : List Part) : Prop where
  good : AvroPart title isPrint args own
  goods : ∀ p ∈ commons, AvroPart title isPrint args p
  /-- The struct embeds those of the others, -/
  embedded : JT.Spec.Embeds title args embeds own.schema.allOf (commons.map fun p => title p.name)
  /-- which embed none. -/
  flat : ∀ p ∈ commons, JT.Spec.Embeds title args [] p.schema.allOf []
  /-- No struct is embedded twice. -/
  once : (commons.map fun p => title p.name).Nodup

/-- The last field of the struct of a schema is none of the fields of another. -/
def LastShown (title : Str → Str) (rename : GMap Str) (own p : Part) : Prop :=
  ∃ k q, Listed p.props k q ∧ (∀ k' q', Listed p.props k' q' → strLt (goName title rename k) (goName title rename k') ≠ true) ∧
    ∀ k' q', Listed own.props k' q' → goName title rename k' ≠ goName title rename k

/-! ### Proof -/

/-- The fields of one schema. -/
theorem part_avro {w : World} {args : Args} {p : Part} (embeds : List Str) (h : AvroPart title w.isPrint args p) :
    ∃ (st : StructText) (ps : List (GoField × AField)), (∀ sched, ∃ g, newGoFile sched title args p.schema p.name embeds = .ok g ∧ (g.text title args).2 = [st]) ∧ st.name = title p.name ∧
      st.embeds = embeds ++ embedNames title args p.schema.allOf ∧ readGoLines st.body [] [] = some (ps.map Prod.fst) ∧ (∀ x ∈ ps, GoodF w x.1 x.2) ∧
      RecordFor title args.fieldNames args.descTag (MayMiss false) p.props p.schema.required (ps.map Prod.snd) ∧
      (∀ x ∈ ps, x.1.name = some (goName title args.fieldNames x.2.name)) ∧ ps ≠ [] := by
  obtain ⟨fs, hf, hg⟩ := inline_file (title := title) p.name embeds h.inline h.properties h.items h.nodup h.quiet h.one h.plain
  obtain ⟨ps, h1, h2, h3, h4⟩ := fields_avro (descTag := args.descTag) (pointers := args.pointers) (w := w) (r := p.schema.required) hf h.names
    (fun k q f hl hk => field_avro (hf.each _ _ _ hl.1 hk) (h.names.tag _ _ hl) (h.clean _ _ hl) _)
  have hne : fs ≠ [] := by
    obtain ⟨k, q, hl⟩ := h.some
    rintro rfl
    exact hl.2 ((hf.names k).1 rfl q hl.1)
  have hps : ps ≠ [] := by
    obtain ⟨k, q, hl⟩ := h.some
    obtain ⟨x, hx, _⟩ := (h3.names k).2 ⟨q, hl⟩
    rintro rfl
    cases hx
  refine ⟨⟨title p.name, embeds ++ embedNames title args p.schema.allOf, (sortedByName (linesAll args.descTag args.pointers [] [] g!"\t" p.schema.required fs)).flatten⟩,
    ps, fun sched => ⟨_, hg sched, ?_⟩, rfl, rfl, ?_, h2, h3, h4.name, hps⟩
  · have hs : ∀ r : GStruct, GoFile.structs ⟨r, []⟩ = [r] := fun r => rfl
    simp only [GoFile.text, hs]
    rw [List.filter_cons_of_neg (by simpa using hne), List.filter_cons_of_pos (by simpa using hne)]
    rfl
  · have := h1 g!"\t" [] [] []
    rw [List.append_nil] at this
    show readGoLines (sortedByName _).flatten [] [] = _
    rw [this]
    rfl

/-- A field whose Go name is not excluded. -/
def keptBy (exf : List Str) (x : GoField × AField) : Bool := decide (∀ k, x.1.name = some k → k ∉ exf)

theorem keptBy_iff {exf : List Str} {x : GoField × AField} : keptBy exf x = true ↔ ∀ k, x.1.name = some k → k ∉ exf := by
  unfold keptBy
  exact decide_eq_true_iff

theorem kept_all {x : GoField × AField} : keptBy [] x = true := keptBy_iff.2 fun _ _ h => nomatch h

theorem join_append (sep : Str) : ∀ {a b : List Str}, a ≠ [] → b ≠ [] → join sep (a ++ b) = join sep a ++ sep ++ join sep b
  | [], _, h, _ => absurd rfl h
  | [x], b, _, hb => by
    obtain ⟨y, b, rfl⟩ := List.exists_cons_of_ne_nil hb
    simp [join]
  | x :: y :: a, b, _, hb => by
    have := join_append sep (a := y :: a) (b := b) (by simp) hb
    simp only [List.cons_append, join] at this ⊢
    rw [this]
    simp

theorem fieldTexts_ne {ns : List Str} {fs : List AField} (h : fs ≠ []) : fieldTexts ns fs ≠ [] := by
  obtain ⟨x, fs, rfl⟩ := List.exists_cons_of_ne_nil h
  simp [fieldTexts]

theorem loop_kept {w : World} {exf : List Str} : ∀ {ps : List (GoField × AField)}, (∀ x ∈ ps, GoodF w x.1 x.2) → (∀ x, ps.getLast? = some x → keptBy exf x = true) →
    ∃ N, ∀ n, N ≤ n → ∀ fields ns fm seen, (∀ y ∈ ns, PlainText w.isPrint y) →
      fieldLoop w (avroType w n) fields exf ns fm (ps.map Prod.fst) seen = .ok (join g!"," (fieldTexts ns ((ps.filter (keptBy exf)).map Prod.snd)), seen)
  | [], _, _ => ⟨0, fun n _ fields ns fm seen _ => by simp [fieldLoop, fieldTexts, join]⟩
  | p :: ps, h, hl => by
    have hlast : ps ≠ [] → ps.filter (keptBy exf) ≠ [] := by
      intro hne he
      have := List.filter_eq_nil_iff.1 he (ps.getLast hne) (List.getLast_mem hne)
      exact this (hl _ (by rw [List.getLast?_cons_of_ne_nil hne, List.getLast?_eq_some_getLast hne]))
    obtain ⟨N1, h1⟩ := loop_kept (exf := exf) (ps := ps) (fun q hq => h q (List.mem_cons_of_mem _ hq)) (by
      intro x hx
      refine hl x ?_
      rw [List.getLast?_cons_of_ne_nil, hx]
      rintro rfl
      cases hx)
    by_cases hk : keptBy exf p = true
    · obtain ⟨N2, h2⟩ := goodF_text (h p List.mem_cons_self) (keptBy_iff.1 hk)
      refine ⟨N1 + N2, fun n hn fields ns fm seen hns => ?_⟩
      simp only [List.map_cons, fieldLoop]
      rw [h2 n (by omega) fields ns fm seen hns]
      simp only [Res.bind]
      rw [h1 n (by omega) fields ns fm seen hns, List.filter_cons_of_pos hk]
      cases ps with
      | nil => simp [comma, fieldTexts, join]
      | cons q ps =>
        obtain ⟨y, l, hy⟩ := List.exists_cons_of_ne_nil (hlast (by simp))
        rw [hy]
        simp [comma, fieldTexts, join]
    · refine ⟨N1, fun n hn fields ns fm seen hns => ?_⟩
      have hne : ps ≠ [] := by
        rintro rfl
        exact hk (hl p rfl)
      obtain ⟨k, hname⟩ := (h p List.mem_cons_self).named
      have hm : k ∈ exf := by
        refine Classical.byContradiction fun hno => hk (keptBy_iff.2 ?_)
        intro k' e
        rw [hname] at e
        cases e
        exact hno
      have hone : oneField w (avroType w n) fields exf ns fm p.1 seen = .ok ([], false, seen) := by
        obtain ⟨⟨fn, t, tag⟩, x⟩ := p
        have hname : fn = some k := hname
        subst hname
        simp only [oneField, hm, if_true]
      simp only [List.map_cons, fieldLoop]
      rw [hone]
      simp only [Res.bind]
      rw [h1 n (by omega) fields ns fm seen hns, List.filter_cons_of_neg hk]
      simp [comma]

/-- An embedded field. -/
def embedField (e : Str) : GoField := .mk none (.ident e) {}

/-- What an embedded struct gives: its name, and the pairs of fields that are found in its file. -/
def EmbedOk (w : World) (exf : List Str) (e : Str) (ps : List (GoField × AField)) : Prop :=
  PlainText w.isPrint e ∧ w.files e = some (ps.map Prod.fst) ∧ (∀ x ∈ ps, GoodF w x.1 x.2) ∧ ps ≠ [] ∧ ∀ x, ps.getLast? = some x → keptBy exf x = true

theorem kept_ne {exf : List Str} {ps : List (GoField × AField)} (h : ps ≠ []) (hl : ∀ x, ps.getLast? = some x → keptBy exf x = true) : ps.filter (keptBy exf) ≠ [] := by
  intro he
  exact List.filter_eq_nil_iff.1 he (ps.getLast h) (List.getLast_mem h) (hl _ (List.getLast?_eq_some_getLast h))

theorem loop_embeds {w : World} {fm : List Str} {ps : List (GoField × AField)} (hps : ∀ x ∈ ps, GoodF w x.1 x.2) (hne : ps ≠ []) :
    ∀ {es : List Str} {pss : List (List (GoField × AField))}, Each (EmbedOk w fm) es pss →
    ∃ N, ∀ n, N ≤ n → ∀ seen, (∀ e ∈ es, e ∉ seen) → es.Nodup → ∃ seen',
      fieldLoop w (avroType w n) (avroFields w n) [] [] fm (es.map embedField ++ ps.map Prod.fst) seen =
        .ok (join g!"," (((es.zip pss).map fun x => fieldTexts [x.1] ((x.2.filter (keptBy fm)).map Prod.snd)).flatten ++ fieldTexts [] (ps.map Prod.snd)), seen')
  | _, _, .nil => by
    obtain ⟨N, hN⟩ := loop_kept (exf := []) hps (fun x _ => kept_all)
    refine ⟨N, fun n hn seen _ _ => ⟨seen, ?_⟩⟩
    have := hN n hn (avroFields w n) [] fm seen (fun _ h => nomatch h)
    rw [List.filter_eq_self.2 (fun x _ => kept_all)] at this
    simpa using this
  | e :: es, qs :: pss, .cons ⟨h1, h2, h3, h4, h5⟩ hr => by
    obtain ⟨N1, hN1⟩ := loop_embeds hps hne hr
    obtain ⟨N2, hN2⟩ := loop_kept (exf := fm) h3 h5
    refine ⟨N1 + N2 + 1, fun n hn seen hs hnd => ?_⟩
    obtain ⟨n, rfl⟩ : ∃ k, n = k + 1 := ⟨n - 1, by omega⟩
    rw [List.nodup_cons] at hnd
    obtain ⟨seen', e'⟩ := hN1 (n + 1) (by omega) (e :: seen) (fun x hx hm => by
      rcases List.mem_cons.1 hm with rfl | hm
      · exact hnd.1 hx
      · exact hs x (List.mem_cons_of_mem _ hx) hm) hnd.2
    refine ⟨seen', ?_⟩
    have hfields : avroFields w (n + 1) fm [e] (qs.map Prod.fst) seen = .ok (join g!"," (fieldTexts [e] ((qs.filter (keptBy fm)).map Prod.snd)), seen) := by
      simp only [avroFields]
      exact hN2 n (by omega) _ [e] _ seen (fun y hy => by rw [List.mem_singleton.1 hy]; exact h1)
    have hlast : (es.map embedField ++ ps.map Prod.fst).isEmpty = false := by
      obtain ⟨x, l, rfl⟩ := List.exists_cons_of_ne_nil hne
      simp
    have hemb : embedText w (avroFields w (n + 1)) fm ([] ++ [e]) e seen = .ok (join g!"," (fieldTexts [e] ((qs.filter (keptBy fm)).map Prod.snd)), e :: seen) := by
      unfold embedText
      rw [h2]
      simp only [List.nil_append, hfields, Res.bind]
    rw [List.map_cons, List.cons_append, fieldLoop, show oneField w (avroType w (n + 1)) (avroFields w (n + 1)) [] [] fm (embedField e) seen =
      .ok (join g!"," (fieldTexts [e] ((qs.filter (keptBy fm)).map Prod.snd)), true, e :: seen) by
        simp only [embedField, oneField, if_neg (hs e List.mem_cons_self), hemb, Res.bind]]
    simp only [Res.bind, e']
    rw [hlast]
    have hk := fieldTexts_ne (ns := [e]) (show (qs.filter (keptBy fm)).map Prod.snd ≠ [] by simpa using kept_ne h4 h5)
    have ht : ((es.zip pss).map fun x => fieldTexts [x.1] ((x.2.filter (keptBy fm)).map Prod.snd)).flatten ++ fieldTexts [] (ps.map Prod.snd) ≠ [] := by
      intro h0
      exact fieldTexts_ne (ns := []) (show ps.map Prod.snd ≠ [] by simpa using hne) (List.append_eq_nil_iff.1 h0).2
    simp only [List.zip_cons_cons, List.map_cons, List.flatten_cons, List.append_assoc]
    rw [join_append _ hk (by simpa using ht)]
    simp [comma]

/-- The world of the sources. -/
theorem parse_file {args : Args} {s : Sources} {path : Str} {p : Part} {embeds : List Str} {st : StructText} {fs : List GoField} (hp : hasSuffix path g!".go" = true)
    (h : FileOf title args s path p embeds) (hst : ∀ sched, ∃ g, newGoFile sched title args p.schema p.name embeds = .ok g ∧ (g.text title args).2 = [st])
    (hb : readGoLines st.body [] [] = some fs) :
    parseGoStruct s st.name path = .ok (st.name, .struct (st.embeds.map embedField ++ fs)) := by
  obtain ⟨sched, g, src, h1, h2, h3⟩ := h
  obtain ⟨g', h4, h5⟩ := hst sched
  rw [h1] at h4
  cases h4
  have e : (⟨(g.text title args).1, [] ++ st :: []⟩ : Bool × List StructText) = g.text title args := by
    rw [List.nil_append, ← h5]
  obtain ⟨fs', h6, h7⟩ := C84_generated_partial (path := path) hp (imports := (g.text title args).1) (a := []) (b := []) (st := st) (by rw [e]; exact h2) h3 (fun x hx => (nomatch hx))
  rw [hb] at h6
  cases h6
  exact h7

/-- The path of the file of a struct. -/
theorem suffix_go {dir s : Str} (h : '/' ∉ s) : hasSuffix (joinPath dir (s ++ g!".go")) g!".go" = true := by
  obtain ⟨p, hp⟩ := Gen.joinPath_elem dir
  rw [hp _ (Gen.elem_go h), ← List.append_assoc]
  unfold hasSuffix
  rw [List.isSuffixOf_iff_suffix]
  exact ⟨_, rfl⟩

/-- The last of the fields. -/
theorem last_kept {rename : GMap Str} {descTag : Bool} {miss : P → Bool → Prop} {own p : Part} {r r' : List Str} {xs ys : List (GoField × AField)}
    (ho : RecordFor title rename descTag miss own.props r (xs.map Prod.snd)) (hp : RecordFor title rename descTag miss p.props r' (ys.map Prod.snd))
    (hy : ∀ y ∈ ys, y.1.name = some (goName title rename y.2.name)) (h : LastShown title rename own p) :
    ∀ y, ys.getLast? = some y → keptBy (xs.map fun x => goName title rename x.2.name) y = true := by
  intro y hl
  obtain ⟨k, q, h1, h2, h3⟩ := h
  have hmem : y ∈ ys := List.mem_of_getLast? hl
  obtain ⟨x, hx, e⟩ := (hp.names k).2 ⟨q, h1⟩
  have hxy : goName title rename y.2.name = goName title rename k := by
    obtain ⟨l, hl⟩ := List.getLast?_eq_some_iff.1 hl
    have hord := hp.order
    rw [hl, List.map_append, List.map_append, List.pairwise_append] at hord
    obtain ⟨q', hq'⟩ := (hp.names y.2.name).1 ⟨_, List.mem_map.2 ⟨y, hmem, rfl⟩, rfl⟩
    rw [hl, List.map_append, List.mem_append] at hx
    rcases hx with hx | hx
    · have := hord.2.2 _ (List.mem_map.2 ⟨x, hx, rfl⟩) _ (List.mem_map.2 ⟨y.2, by simp, rfl⟩)
      rw [e] at this
      exact absurd this (h2 _ q' hq')
    · simp only [List.map_cons, List.map_nil, List.mem_singleton] at hx
      rw [← e, hx]
  rw [keptBy_iff]
  intro k' e' hm
  rw [hy y hmem] at e'
  cases e'
  obtain ⟨z, hz, e2⟩ := List.mem_map.1 hm
  obtain ⟨q', hq'⟩ := (ho.names z.2.name).1 ⟨_, List.mem_map.2 ⟨z, hz, rfl⟩, rfl⟩
  exact h3 _ q' hq' (e2.trans hxy)

theorem fieldNames_embeds {es : List Str} {xs : List (GoField × AField)} {f : GoField × AField → Str} (h : ∀ x ∈ xs, x.1.name = some (f x)) :
    fieldNames (es.map embedField ++ xs.map Prod.fst) = xs.map f := by
  unfold fieldNames
  rw [List.filterMap_append]
  have h1 : (es.map embedField).filterMap GoField.name = [] := by
    rw [List.filterMap_eq_nil_iff]
    intro x hx
    obtain ⟨e, _, rfl⟩ := List.mem_map.1 hx
    rfl
  rw [h1, List.nil_append, List.filterMap_map]
  induction xs with
  | nil => rfl
  | cons x xs ih =>
    rw [List.filterMap_cons, List.map_cons]
    simp only [Function.comp, h x (by simp)]
    rw [← ih fun y hy => h y (List.mem_cons_of_mem _ hy)]
    rfl

/-- The text of the file. -/
theorem schema_embeds {w : World} {name : Str} {xs : List (GoField × AField)} {f : GoField × AField → Str} {es : List Str} {pss : List (List (GoField × AField))}
    (hn : PlainText w.isPrint name) (hx : ∀ x ∈ xs, GoodF w x.1 x.2) (hne : xs ≠ []) (hf : ∀ x ∈ xs, x.1.name = some (f x)) (hnd : es.Nodup)
    (he : Each (EmbedOk w (xs.map f)) es pss) :
    ∃ N, ∀ n, N ≤ n → avroSchema w n name (es.map embedField ++ xs.map Prod.fst) =
      .ok (fileTextWith name ((es.zip pss).map (fun x => ([x.1], (x.2.filter (keptBy (xs.map f))).map Prod.snd)) ++ [([], xs.map Prod.snd)])) := by
  obtain ⟨N, hN⟩ := loop_embeds hx hne he
  refine ⟨N + 1, fun n hn' => ?_⟩
  obtain ⟨n, rfl⟩ : ∃ k, n = k + 1 := ⟨n - 1, by omega⟩
  obtain ⟨seen', e⟩ := hN n (by omega) [] (fun _ _ h => nomatch h) hnd
  unfold avroSchema
  simp only [avroFields]
  rw [fieldNames_embeds hf, e]
  have hm : metadataFields = writeTimeText ++ g!"," ++ deletedText ++ g!"," := by decide +kernel
  have ht : ((es.zip pss).map fun x => fieldTexts [x.1] ((x.2.filter (keptBy (xs.map f))).map Prod.snd)).flatten ++ fieldTexts [] (xs.map Prod.snd) ≠ [] := by
    intro h0
    exact fieldTexts_ne (ns := []) (show xs.map Prod.snd ≠ [] by simpa using hne) (List.append_eq_nil_iff.1 h0).2
  have hl : ((((es.zip pss).map (fun (x : Str × List (GoField × AField)) => (([x.1], (x.2.filter (keptBy (xs.map f))).map Prod.snd) : List Str × List AField)) ++ [([], xs.map Prod.snd)]).map
      fun (p : List Str × List AField) => fieldTexts p.1 p.2).flatten) = ((es.zip pss).map fun x => fieldTexts [x.1] ((x.2.filter (keptBy (xs.map f))).map Prod.snd)).flatten ++ fieldTexts [] (xs.map Prod.snd) := by
    rw [List.map_append, List.flatten_append, List.map_map]
    simp [Function.comp_def]
  unfold fileTextWith
  rw [hl]
  obtain ⟨y, l, hy⟩ := List.exists_cons_of_ne_nil ht
  rw [hy]
  simp [Res.bind, recordHead, quote_plain hn, hm, join]

theorem shown_of {goOf : Str → Str} {xs ys : List (GoField × AField)} (hy : ∀ y ∈ ys, y.1.name = some (goOf y.2.name)) :
    (ys.filter (keptBy (xs.map fun x => goOf x.2.name))).map Prod.snd = shownFields goOf (xs.map Prod.snd) (ys.map Prod.snd) := by
  unfold shownFields
  rw [List.filter_map]
  congr 1
  refine List.filter_congr fun y h => ?_
  rw [Bool.eq_iff_iff, keptBy_iff, Function.comp, decide_eq_true_iff, List.map_map]
  rw [hy y h]
  constructor
  · exact fun h => h _ rfl
  · rintro h k ⟨⟩
    exact h

/-- The structs of the others, as found in their files. -/
theorem commons_embed {isPrint : Char → Bool} {lower : Str → Str} {args : Args} {s : Sources} {dir : Str} {own : Part} {r : List Str} {xs : List (GoField × AField)}
    (ho : RecordFor title args.fieldNames args.descTag (MayMiss false) own.props r (xs.map Prod.snd)) : ∀ {commons : List Part}, (∀ p ∈ commons, AvroPart title isPrint args p) →
    (∀ p ∈ commons, JT.Spec.Embeds title args [] p.schema.allOf []) → (∀ p ∈ commons, LastShown title args.fieldNames own p) →
    (∀ p ∈ commons, ∃ c t, title p.name = c :: t ∧ '/' ∉ lower [c] ++ t ∧ FileOf title args s (joinPath dir (lower [c] ++ t ++ g!".go")) p []) →
    ∃ pss : List (List (GoField × AField)),
      Each (EmbedOk (avroWorld isPrint lower s dir) (xs.map fun x => goName title args.fieldNames x.2.name)) (commons.map fun p => title p.name) pss ∧
      Each (fun (p : Part) ps => RecordFor title args.fieldNames args.descTag (MayMiss false) p.props p.schema.required (ps.map Prod.snd)) commons pss ∧
      ∀ ps ∈ pss, ∀ y ∈ ps, y.1.name = some (goName title args.fieldNames y.2.name)
  | [], _, _, _, _ => ⟨[], .nil, .nil, fun _ h => nomatch h⟩
  | p :: ps, h1, h2, h3, h4 => by
    obtain ⟨pss, e1, e2, e3⟩ := commons_embed ho (commons := ps) (fun p hp => h1 p (by simp [hp])) (fun p hp => h2 p (by simp [hp])) (fun p hp => h3 p (by simp [hp]))
      (fun p hp => h4 p (by simp [hp]))
    obtain ⟨st, ys, a1, a2, a3, a4, a5, a6, a7, a8⟩ := part_avro (w := avroWorld isPrint lower s dir) [] (h1 p (by simp))
    obtain ⟨c, t, b1, b2, b3⟩ := h4 p (by simp)
    rw [← embeds_iff.1 (h2 p (by simp))] at a3
    have hparse := parse_file (suffix_go b2) b3 a1 a4
    rw [a2, show st.embeds = [] by simpa using a3] at hparse
    have hfile : (avroWorld isPrint lower s dir).files (title p.name) = some (ys.map Prod.fst) := by
      have hpath : structToFilename lower (title p.name) = lower [c] ++ t ++ g!".go" := by rw [b1]; rfl
      simp only [avroWorld, hpath, structFields, hparse, findFields, List.map_nil, List.nil_append]
    refine ⟨ys :: pss, .cons ⟨(h1 p (by simp)).text, hfile, a5, a8, last_kept ho a6 a7 (h3 p (by simp))⟩ e1, .cons a6 e2, ?_⟩
    intro zs hz
    rcases List.mem_cons.1 hz with rfl | hz
    · exact a7
    · exact e3 zs hz

theorem Each.map_right {α β γ : Type} {R : α → γ → Prop} {f : β → γ} : ∀ {as : List α} {bs : List β}, Each (fun a b => R a (f b)) as bs → Each R as (bs.map f)
  | _, _, .nil => .nil
  | _, _, .cons h t => .cons h (Each.map_right t)

/-- C87 for one struct: the Avro schema has the fields of the embedded structs, but for those that the struct has itself, and its own; where the fields of an embedded
struct have its name as their namespace. -/
def C87_for (title : Str → Str) (isPrint : Char → Bool) (lower : Str → Str) (args : Args) (own : Part) (commons : List Part) (s : Sources) (path : Str) : Prop :=
  ∃ fs fss, RecordFor title args.fieldNames args.descTag (MayMiss false) own.props own.schema.required fs ∧
    Each (fun (p : Part) gs => RecordFor title args.fieldNames args.descTag (MayMiss false) p.props p.schema.required gs) commons fss ∧
    ∃ N, ∀ n, N ≤ n → avroSchemaFile isPrint lower s n (title own.name) path = .ok (joinPath (pathDir path) (lower (title own.name) ++ g!".avsc"),
      fileTextWith (title own.name) (((commons.map fun p => title p.name).zip fss).map (fun x => ([x.1], shownFields (goName title args.fieldNames) fs x.2)) ++ [([], fs)]))

/-- The file of a schema is called like its struct, with the first letter in lower case. -/
def InOwnFile (title : Str → Str) (lower : Str → Str) (args : Args) (s : Sources) (dir : Str) (p : Part) : Prop :=
  ∃ c t, title p.name = c :: t ∧ '/' ∉ lower [c] ++ t ∧ FileOf title args s (joinPath dir (lower [c] ++ t ++ g!".go")) p []

/-- **C87**, in full. -/
def C87_statement (title : Str → Str) : Prop := ∀ (isPrint : Char → Bool) (lower : Str → Str) (args : Args) (own : Part) (embeds : List Str) (commons : List Part) (s : Sources)
  (path : Str), AvroFamily title isPrint args own embeds commons → hasSuffix path g!".go" = true → FileOf title args s path own embeds →
  (∀ p ∈ commons, InOwnFile title lower args s (pathDir path) p) → C87_for title isPrint lower args own commons s path

/-- **C87**, partial: this holds if the last field of each embedded struct is none of the struct itself. -/
theorem C87_partial {isPrint : Char → Bool} {lower : Str → Str} {args : Args} {own : Part} {embeds : List Str} {commons : List Part} {s : Sources} {path : Str}
    (h : AvroFamily title isPrint args own embeds commons) (hl : ∀ p ∈ commons, LastShown title args.fieldNames own p) (hp : hasSuffix path g!".go" = true)
    (ho : FileOf title args s path own embeds) (hc : ∀ p ∈ commons, InOwnFile title lower args s (pathDir path) p) :
    C87_for title isPrint lower args own commons s path := by
  obtain ⟨st, xs, a1, a2, a3, a4, a5, a6, a7, a8⟩ := part_avro (w := avroWorld isPrint lower s (pathDir path)) embeds h.good
  obtain ⟨pss, e1, e2, e3⟩ := commons_embed (lower := lower) (s := s) (dir := pathDir path) a6 h.goods h.flat hl hc
  obtain ⟨N, hN⟩ := schema_embeds (name := title own.name) h.good.text a5 a8 a7 h.once e1
  have hparse := parse_file hp ho a1 a4
  rw [a2, a3, ← embeds_iff.1 h.embedded] at hparse
  refine ⟨xs.map Prod.snd, pss.map (·.map Prod.snd), a6, Each.map_right e2, N, fun n hn => ?_⟩
  simp only [avroSchemaFile, hparse, Res.bind, findFields, Option.getD_some, hN n hn]
  congr 3
  rw [List.zip_map_right, List.map_map]
  refine congrArg (· ++ _) ?_
  refine List.map_congr_left fun y hy => ?_
  have := shown_of (xs := xs) (e3 y.2 (List.of_mem_zip hy).2)
  simp only [Function.comp, Prod.map, id, this]

/-! ### Hidden fields -/

theorem loop_hidden {w : World} {exf : List Str} {n : Nat} {fields : FieldsFn} {ns fm seen : List Str} : ∀ {ps : List (GoField × AField)}, (∀ x ∈ ps, ∃ k, x.1.name = some k ∧ k ∈ exf) →
    fieldLoop w (avroType w n) fields exf ns fm (ps.map Prod.fst) seen = .ok ([], seen)
  | [], _ => rfl
  | p :: ps, h => by
    obtain ⟨k, hname, hm⟩ := h p List.mem_cons_self
    have hone : oneField w (avroType w n) fields exf ns fm p.1 seen = .ok ([], false, seen) := by
      obtain ⟨⟨fn, t, tag⟩, x⟩ := p
      have hname : fn = some k := hname
      subst hname
      simp only [oneField, hm, if_true]
    simp only [List.map_cons, fieldLoop, hone, Res.bind, loop_hidden fun x hx => h x (List.mem_cons_of_mem _ hx)]
    simp [comma]

/-- If the struct has itself all fields of the struct it embeds, there are two commas one after the other, so the text is no JSON. -/
theorem C87_hidden {isPrint : Char → Bool} {lower : Str → Str} {args : Args} {own p : Part} {embeds : List Str} {s : Sources} {path : Str}
    (h : AvroFamily title isPrint args own embeds [p]) (hall : ∀ k q, Listed p.props k q → ∃ k' q', Listed own.props k' q' ∧ goName title args.fieldNames k' = goName title args.fieldNames k)
    (hp : hasSuffix path g!".go" = true) (ho : FileOf title args s path own embeds) (hc : InOwnFile title lower args s (pathDir path) p) :
    ∃ fs, RecordFor title args.fieldNames args.descTag (MayMiss false) own.props own.schema.required fs ∧
      ∃ N, ∀ n, N ≤ n → ∃ f, avroSchemaFile isPrint lower s n (title own.name) path = .ok (f, g!"{\"name\":" ++ str (title own.name) ++ g!",\"type\":\"record\",\"fields\":[" ++
        writeTimeText ++ g!"," ++ deletedText ++ g!",," ++ join g!"," (fieldTexts [] fs) ++ g!"]}") := by
  obtain ⟨st, xs, a1, a2, a3, a4, a5, a6, a7, a8⟩ := part_avro (w := avroWorld isPrint lower s (pathDir path)) embeds h.good
  obtain ⟨st', ys, b1, b2, b3, b4, b5, b6, b7, b8⟩ := part_avro (w := avroWorld isPrint lower s (pathDir path)) [] (h.goods p (by simp))
  have hparse := parse_file hp ho a1 a4
  rw [a2, a3, ← embeds_iff.1 h.embedded] at hparse
  obtain ⟨c, t, c1, c2, c3⟩ := hc
  rw [← embeds_iff.1 (h.flat p (by simp))] at b3
  have hparse' := parse_file (suffix_go c2) c3 b1 b4
  rw [b2, show st'.embeds = [] by simpa using b3] at hparse'
  have hfile : (avroWorld isPrint lower s (pathDir path)).files (title p.name) = some (ys.map Prod.fst) := by
    have hpath : structToFilename lower (title p.name) = lower [c] ++ t ++ g!".go" := by rw [c1]; rfl
    simp only [avroWorld, hpath, structFields, hparse', findFields, List.map_nil, List.nil_append]
  have hhid : ∀ y ∈ ys, ∃ k, y.1.name = some k ∧ k ∈ xs.map fun x => goName title args.fieldNames x.2.name := by
    intro y hy
    obtain ⟨q, hq⟩ := (b6.names y.2.name).1 ⟨_, List.mem_map.2 ⟨y, hy, rfl⟩, rfl⟩
    obtain ⟨k', q', hq', e⟩ := hall _ q hq
    obtain ⟨x, hx, e'⟩ := (a6.names k').2 ⟨q', hq'⟩
    obtain ⟨z, hz, rfl⟩ := List.mem_map.1 hx
    exact ⟨_, b7 y hy, List.mem_map.2 ⟨z, hz, by rw [e', e]⟩⟩
  obtain ⟨N, hN⟩ := loop_kept (exf := []) a5 (fun x _ => kept_all)
  refine ⟨xs.map Prod.snd, a6, N + 2, fun n hn => ⟨joinPath (pathDir path) (lower (title own.name) ++ g!".avsc"), ?_⟩⟩
  obtain ⟨n, rfl⟩ : ∃ k, n = k + 2 := ⟨n - 2, by omega⟩
  have hloop := fun seen => hN (n + 1) (by omega) (avroFields (avroWorld isPrint lower s (pathDir path)) (n + 1)) [] (xs.map fun x => goName title args.fieldNames x.2.name) seen (fun _ h => nomatch h)
  rw [List.filter_eq_self.2 (fun x _ => kept_all)] at hloop
  have hone : oneField (avroWorld isPrint lower s (pathDir path)) (avroType (avroWorld isPrint lower s (pathDir path)) (n + 1)) (avroFields (avroWorld isPrint lower s (pathDir path)) (n + 1)) [] []
      (xs.map fun x => goName title args.fieldNames x.2.name) (embedField (title p.name)) [] = .ok ([], true, [title p.name]) := by
    simp only [embedField, oneField, List.not_mem_nil, if_false, embedText, hfile, avroFields, loop_hidden hhid, Res.bind]
  have hlast : (xs.map Prod.fst).isEmpty = false := by
    obtain ⟨x, l, rfl⟩ := List.exists_cons_of_ne_nil a8
    rfl
  have hm : metadataFields = writeTimeText ++ g!"," ++ deletedText ++ g!"," := by decide +kernel
  simp only [avroSchemaFile, hparse, Res.bind, findFields, Option.getD_some, avroSchema]
  have hfn := fieldNames_embeds (es := [title p.name]) a7
  rw [avroFields]
  simp only [List.map_cons, List.map_nil, List.singleton_append] at hfn ⊢
  rw [hfn]
  simp only [fieldLoop, hone, Res.bind, hloop, hlast]
  have hq : quote (avroWorld isPrint lower s (pathDir path)).isPrint (title own.name) = str (title own.name) := quote_plain h.good.text
  simp [comma, recordHead, hq, hm]

/-- Where there is no file for an embedded struct, the schema is written nevertheless, with an entry that has no name: none that Avro takes. -/
theorem C87_missing {w : World} {n : Nat} {name e : Str} {tag : Tag} (hname : PlainText w.isPrint name) (h : w.files e = none) :
    avroSchema w (n + 1) name [.mk none (.ident e) tag] = .ok (g!"{\"name\":" ++ str name ++ g!",\"type\":\"record\",\"fields\":[" ++
      join g!"," [writeTimeText, deletedText, g!"{\"type\":\"embedded struct not found\"}"] ++ g!"]}") := by
  have hq : quote w.isPrint name = str name := quote_plain hname
  have hm : metadataFields = writeTimeText ++ g!"," ++ deletedText ++ g!"," := by decide +kernel
  simp [avroSchema, avroFields, fieldLoop, oneField, embedText, h, Res.bind, comma, recordHead, hq, hm, join]

example := C87_missing (w := ⟨fun _ => true, fun _ => none, fun _ => none⟩) (n := 0) (name := g!"Root") (e := g!"Gone") (tag := {}) (plain_ascii (by decide)) rfl

namespace C87ex
open C76ex C81ex C86ex Toy

/-- Lower case. -/
def lower (s : Str) : Str := s.map Char.toLower

/-- The declarations of the file for a schema. -/
def source (p : Part) (embeds : List Str) : GoSource := match newGoFile Sched.id C56ex.capital args p.schema p.name embeds with
  | .ok g => (readFile (g.text C56ex.capital args)).getD []
  | _ => []

/-- The files for a schema `t` and a schema `flags`, the struct of which is embedded in that of the first. -/
def files (k : Str) : Sources :=
  ⟨fun p => if p = g!"/x/t.go" then .ok (source own [g!"Flags"]) else if p = g!"/x/flags.go" then .ok (source (common g!"flags" k) []) else .err, fun _ => .err⟩

def readable (p : Part) (embeds : List Str) : Bool := match newGoFile Sched.id C56ex.capital args p.schema p.name embeds with
  | .ok g => (readFile (g.text C56ex.capital args)).isSome
  | _ => false

theorem file_of {s : Sources} {path : Str} {p : Part} {embeds : List Str} (h : readable p embeds = true) (hs : s.file path = .ok (source p embeds)) :
    FileOf C56ex.capital args s path p embeds := by
  unfold readable at h
  split at h
  · rename_i g hg
    obtain ⟨src, hsrc⟩ := Option.isSome_iff_exists.1 h
    refine ⟨Sched.id, g, src, hg, hsrc, ?_⟩
    rw [hs]
    simp only [source, hg, hsrc, Option.getD_some]
  · cases h

theorem own_avro : AvroPart C56ex.capital world.isPrint args own :=
  ⟨rfl, rfl, rfl, by decide, C56ex.quiet (by decide +kernel), C56ex.one (by decide +kernel), C56ex.plain (by decide +kernel),
    ⟨g!"at", pTime, rfl, C76ex.not_hydrated (by decide +kernel)⟩, names_props, fun _ _ h => clean_props _ _ (listed h), plain_ascii (by decide)⟩

theorem common_avro {k : Str} (h : GoPart C56ex.capital args (common g!"flags" k)) : AvroPart C56ex.capital world.isPrint args (common g!"flags" k) :=
  ⟨h.inline, h.properties, h.items, h.nodup, h.quiet, h.one, h.plain, h.some, h.names,
    fun _ _ hl => (common_listed hl).2 ▸ .leaf decoded.1 rfl (by decide) (C81ex.doc rfl), plain_ascii (show ∀ c ∈ C56ex.capital g!"flags", _ by decide +kernel)⟩

theorem avro_family {k : Str} (h : GoPart C56ex.capital args (common g!"flags" k)) : AvroFamily C56ex.capital world.isPrint args own [g!"Flags"] [common g!"flags" k] := by
  refine ⟨own_avro, ?_, .off rfl, ?_, by simp⟩
  · intro p hp; rw [List.mem_singleton.1 hp]; exact common_avro h
  · intro p hp; rw [List.mem_singleton.1 hp]; exact .off rfl

theorem own_file (k : Str) : FileOf C56ex.capital args (files k) g!"/x/t.go" own [g!"Flags"] := file_of (by decide +kernel) rfl

theorem common_file {k : Str} (h : readable (common g!"flags" k) [] = true) : InOwnFile C56ex.capital lower args (files k) (pathDir g!"/x/t.go") (common g!"flags" k) :=
  ⟨'F', g!"lags", show C56ex.capital g!"flags" = _ by decide, by decide, file_of h (by
    rw [show joinPath (pathDir g!"/x/t.go") (lower ['F'] ++ g!"lags" ++ g!".go") = g!"/x/flags.go" by decide +kernel]
    rfl)⟩

/-- The theorem applies to the schema of the examples of C81 and a flag. -/
example : C87_for C56ex.capital world.isPrint lower args own one (files g!"flag") g!"/x/t.go" := by
  refine C87_partial (avro_family flag_good) ?_ (by decide) (own_file _) ?_
  · intro p hp
    rw [List.mem_singleton.1 hp]
    refine ⟨g!"flag", pBool, ⟨rfl, C76ex.not_hydrated (by decide +kernel)⟩, ?_, ?_⟩
    · intro k' q' h
      rw [(common_listed h).1]
      decide
    · intro k' q' h
      have : ∀ kv ∈ props, goName C56ex.capital [] kv.1 ≠ goName C56ex.capital [] g!"flag" := by decide +kernel
      exact this _ (listed h)
  · intro p hp
    rw [List.mem_singleton.1 hp]
    exact common_file (by decide +kernel)

theorem on_good : GoPart C56ex.capital args (common g!"flags" g!"on") := common_good (by decide +kernel) (by decide +kernel) (by decide +kernel) (by decide) (by decide)

end C87ex

open C76ex C81ex C86ex C87ex in
/-- C87 is false in general: the flag `on` of the embedded struct is also one of the struct itself, so there are two commas one after the other. -/
theorem C87_refuted : ¬ C87_statement C56ex.capital := by
  intro h
  have hl : Listed props g!"on" pBool := ⟨rfl, C76ex.not_hydrated (by decide +kernel)⟩
  obtain ⟨fs, fss, h1, h2, N, h3⟩ := h world.isPrint lower args own [g!"Flags"] [common g!"flags" g!"on"] (files g!"on") g!"/x/t.go" (avro_family on_good) (by decide) (own_file _)
    (fun p hp => by rw [List.mem_singleton.1 hp]; exact common_file (by decide +kernel))
  obtain ⟨fs', h1', N', h3'⟩ := C87_hidden (lower := lower) (s := files g!"on") (path := g!"/x/t.go") (avro_family on_good)
    (fun k q hk => ⟨g!"on", pBool, hl, by rw [(common_listed hk).1]⟩) (by decide) (own_file _) (common_file (by decide +kernel))
  obtain rfl := C81_unique h1 h1'
  obtain ⟨f, h4⟩ := h3' (max N N') (by omega)
  rw [h3 (max N N') (by omega)] at h4
  cases h2 with
  | cons hg ht =>
    cases ht
    rename_i gs
    have hfs : fs ≠ [] := by
      obtain ⟨x, hx, _⟩ := (h1.names g!"on").2 ⟨_, hl⟩
      rintro rfl
      cases hx
    have hs : shownFields (goName C56ex.capital args.fieldNames) fs gs = [] := by
      refine List.filter_eq_nil_iff.2 fun g hm => ?_
      obtain ⟨q, hq⟩ := (hg.names g.name).1 ⟨g, hm, rfl⟩
      obtain ⟨x, hx, e⟩ := (h1.names g!"on").2 ⟨_, hl⟩
      have : goName C56ex.capital args.fieldNames g.name ∈ fs.map fun y => goName C56ex.capital args.fieldNames y.name :=
        List.mem_map.2 ⟨x, hx, by rw [e, (common_listed hq).1]⟩
      simp [this]
    have h5 := congrArg List.length (Prod.mk.inj (Res.ok.inj h4)).2
    simp only [fileTextWith, List.map_cons, List.map_nil, List.zip_cons_cons, List.zip_nil_right, hs, List.singleton_append, List.flatten_cons, List.flatten_nil, List.append_nil,
      show fieldTexts [C56ex.capital (common g!"flags" g!"on").name] [] = [] from rfl, List.nil_append] at h5
    rw [show writeTimeText :: deletedText :: fieldTexts [] fs = [writeTimeText, deletedText] ++ fieldTexts [] fs from rfl, join_append _ (by simp) (fieldTexts_ne hfs)] at h5
    simp only [join, List.length_append, List.length_cons, List.length_nil] at h5
    omega

end JT.Go
