import Verif.Spec.AvroGo
import Verif.Proofs.AvroSchema
import Verif.Props.C75
/- The generated struct and the struct that gogen-avro makes from its Avro schema go together. -/
namespace JT.Go
open Gen Spec JT.Spec GoJson

variable {title pub : Str → Str} {rename : GMap Str} {pointers : Bool} {d : Decls}

theorem map_inj {α β : Type} {f : α → β} : ∀ {l : List α}, (l.map f).Nodup → ∀ a ∈ l, ∀ b ∈ l, f a = f b → a = b
  | [], _, _, h, _, _, _ => by cases h
  | x :: l, hn, a, ha, b, hb, he => by
    rw [List.map_cons, List.nodup_cons] at hn
    rcases List.mem_cons.1 ha with rfl | ha <;> rcases List.mem_cons.1 hb with rfl | hb
    · rfl
    · exact absurd (List.mem_map.2 ⟨b, by assumption, he.symm⟩) hn.1
    · exact absurd (List.mem_map.2 ⟨a, by assumption, he⟩) hn.1
    · exact map_inj hn.2 a ha b hb he

/-- The lists of structs are without names, and their records are among those declared. -/
def Counted (L : List ListOf) (R : List (Str × List GoField)) : Prop :=
  (∀ e ∈ L, e.1 = none) ∧ ∀ r, (L.map Prod.snd).count r ≤ (R.map Prod.fst).count r

theorem counted_nil {R : List (Str × List GoField)} : Counted [] R := ⟨by simp, by simp⟩

theorem Counted.append {L L' : List ListOf} {R R' : List (Str × List GoField)} (h : Counted L R) (h' : Counted L' R') : Counted (L ++ L') (R ++ R') := by
  refine ⟨fun e he => ?_, fun r => ?_⟩
  · rcases List.mem_append.1 he with he | he
    · exact h.1 e he
    · exact h'.1 e he
  · simp only [List.map_append, List.count_append]
    have := h.2 r
    have := h'.2 r
    omega

theorem Counted.nodup {L : List ListOf} {R : List (Str × List GoField)} (h : Counted L R) (hn : (R.map Prod.fst).Nodup) : (L.map fnName).Nodup := by
  have h1 : (L.map Prod.snd).Nodup := by
    rw [List.nodup_iff_count]
    rw [List.nodup_iff_count] at hn
    exact fun a => Nat.le_trans (h.2 a) (hn a)
  have h2 : L.map fnName = (L.map Prod.snd).map (· ++ g!"Slice") := by
    rw [List.map_map]
    refine List.map_congr_left fun e he => ?_
    obtain ⟨a, r⟩ := e
    have : a = none := h.1 _ he
    subst this
    rfl
  rw [h2]
  exact nodup_map_on (fun a _ b _ he => List.append_cancel_right he) h1

theorem counted_flat {Lp : GoField × AField → List ListOf} : ∀ {ps : List (GoField × AField)},
    (∀ p ∈ ps, Counted (Lp p) (recordsGo pub rename p.2.name p.2.type)) → Counted (ps.flatMap Lp) (allRecordsGo pub rename (ps.map Prod.snd))
  | [], _ => counted_nil
  | (g, .mk k doc t o) :: ps, h => by
    rw [List.flatMap_cons, List.map_cons, allRecordsGo]
    exact (h _ List.mem_cons_self).append (counted_flat fun p hp => h p (List.mem_cons_of_mem _ hp))

theorem mem_allRecords {e : Str × List GoField} : ∀ {xs : List AField} {x : AField}, x ∈ xs → e ∈ recordsGo pub rename x.name x.type → e ∈ allRecordsGo pub rename xs
  | [], _, h, _ => by cases h
  | .mk k doc t o :: xs, x, h, he => by
    rw [allRecordsGo, List.mem_append]
    rcases List.mem_cons.1 h with rfl | h
    · exact .inl he
    · exact .inr (mem_allRecords h he)

/-- What is to be shown of a pair of fields. -/
def PairFits (pub : Str → Str) (rename : GMap Str) (d : Decls) (inList : Bool) (p : GoField × AField) (L : List ListOf) : Prop :=
  Fits d false p.1.type (typeGo (recordGo pub rename p.2.name) p.2.type p.2.optional) L ∧ Counted L (recordsGo pub rename p.2.name p.2.type) ∧
    (inList = true → PrintableType p.1.type)

/-- The fields of two structs, given each. -/
theorem fields_fit {m : GMap P} {inList : Bool} {ps : List (GoField × AField)} (hname : ∀ p ∈ ps, p.1.name = some (goName title rename p.2.name))
    (hl : ∀ p ∈ ps, ∃ q, Listed m p.2.name q) (hnd : (ps.map fun p => goName title rename p.2.name).Nodup) (hm : SameNames title pub rename m)
    (hp : ∀ p ∈ ps, ∃ L, PairFits pub rename d inList p L) :
    Named (ps.map Prod.fst) ∧ (inList = true → Printable (ps.map Prod.fst)) ∧
    ∀ pre : List GoField, (∀ f ∈ pre, ∃ k, f.name = some k ∧ Meta k) → (pre.map GoField.name).Nodup →
      (∀ f ∈ pre ++ (ps.map Prod.snd).map (fieldGo pub rename), f.name ≠ none) ∧ ((pre ++ (ps.map Prod.snd).map (fieldGo pub rename)).map GoField.name).Nodup ∧
      FieldNames (pre ++ (ps.map Prod.snd).map (fieldGo pub rename)) (ps.map fun p => goName title rename p.2.name) ∧
      ∃ (ty : Str → GoType) (Ls : Str → List ListOf),
        (∀ k a tag, GoField.mk (some k) a tag ∈ pre ++ (ps.map Prod.snd).map (fieldGo pub rename) → ¬ Meta k →
          (∃ tg, GoField.mk (some k) (ty k) tg ∈ ps.map Prod.fst) ∧ Fits d false (ty k) a (Ls k)) ∧
        Counted ((ps.map fun p => goName title rename p.2.name).flatMap Ls) (allRecordsGo pub rename (ps.map Prod.snd)) := by
  have hfree : ∀ p ∈ ps, goName title rename p.2.name ∉ Spec.methods ∧ ¬ Meta (goName title rename p.2.name) := fun p hpm => by
    obtain ⟨q, hq⟩ := hl p hpm
    exact hm.free _ _ hq
  have hsame : ∀ p ∈ ps, toPublicName pub rename p.2.name = goName title rename p.2.name := fun p hpm => by
    obtain ⟨q, hq⟩ := hl p hpm
    exact hm.same _ _ hq
  have hn1 : (ps.map Prod.fst).map GoField.name = (ps.map fun p => goName title rename p.2.name).map some := by
    rw [List.map_map, List.map_map]
    exact List.map_congr_left fun p hpm => hname p hpm
  have hn2 : ((ps.map Prod.snd).map (fieldGo pub rename)).map GoField.name = (ps.map fun p => goName title rename p.2.name).map some := by
    rw [List.map_map, List.map_map, List.map_map]
    refine List.map_congr_left fun p hpm => ?_
    show some (toPublicName pub rename p.2.name) = _
    rw [hsame p hpm]
    rfl
  have hsome : ((ps.map fun p => goName title rename p.2.name).map some).Nodup := nodup_map_on (fun a _ b _ h => Option.some.inj h) hnd
  refine ⟨⟨fun f hf => ?_, by rw [hn1]; exact hsome⟩, fun hb => ?_, fun pre h1 h2 => ?_⟩
  · obtain ⟨p, hpm, rfl⟩ := List.mem_map.1 hf
    exact ⟨_, hname p hpm, (hfree p hpm).1⟩
  · clear hl hnd hfree hsame hn1 hn2 hsome
    induction ps with
    | nil => trivial
    | cons p ps ih =>
      obtain ⟨⟨n, t, tag⟩, x⟩ := p
      obtain ⟨L, _, _, h3⟩ := hp _ List.mem_cons_self
      exact ⟨by rw [show n = _ from hname _ List.mem_cons_self]; simp, h3 hb,
        ih (fun p hpm => hname p (List.mem_cons_of_mem _ hpm)) (fun p hpm => hp p (List.mem_cons_of_mem _ hpm))⟩
  · have hex : ∀ p, ∃ L, p ∈ ps → PairFits pub rename d inList p L := fun p => by
      by_cases h : p ∈ ps
      · obtain ⟨L, hL⟩ := hp p h
        exact ⟨L, fun _ => hL⟩
      · exact ⟨[], fun h' => absurd h' h⟩
    obtain ⟨Lp, hLp⟩ := Classical.axiomOfChoice hex
    have hby : ∀ k, ∃ p0, ∀ p ∈ ps, goName title rename p.2.name = k → p = p0 := fun k => by
      by_cases h : ∃ p ∈ ps, goName title rename p.2.name = k
      · obtain ⟨p0, h1, h2⟩ := h
        exact ⟨p0, fun p hpm he => map_inj hnd p hpm p0 h1 (he.trans h2.symm)⟩
      · exact ⟨(.mk none (.ident []) {}, .mk [] [] .time false), fun p hpm he => absurd ⟨p, hpm, he⟩ h⟩
    obtain ⟨P0, hP0⟩ := Classical.axiomOfChoice hby
    have hcase : ∀ k a tag, GoField.mk (some k) a tag ∈ pre ++ (ps.map Prod.snd).map (fieldGo pub rename) → ¬ Meta k →
        ∃ p ∈ ps, goName title rename p.2.name = k ∧ a = typeGo (recordGo pub rename p.2.name) p.2.type p.2.optional := fun k a tag hk hM => by
      rcases List.mem_append.1 hk with hk | hk
      · obtain ⟨k', h3, h4⟩ := h1 _ hk
        cases h3
        exact absurd h4 hM
      · rw [List.map_map] at hk
        obtain ⟨p, hpm, he⟩ := List.mem_map.1 hk
        simp only [Function.comp, fieldGo, GoField.mk.injEq, Option.some.injEq] at he
        exact ⟨p, hpm, (hsame p hpm).symm.trans he.1, he.2.1.symm⟩
    refine ⟨fun f hf => ?_, ?_, ⟨hnd, fun k => ⟨fun hk => ?_, ?_⟩⟩, fun k => (P0 k).1.type, fun k => Lp (P0 k), fun k a tag hk hM => ?_, ?_⟩
    · rcases List.mem_append.1 hf with hf | hf
      · obtain ⟨k, h3, _⟩ := h1 f hf
        rw [h3]; simp
      · obtain ⟨x, _, rfl⟩ := List.mem_map.1 hf
        simp [fieldGo, GoField.name]
    · rw [List.map_append, hn2, List.nodup_append]
      refine ⟨h2, hsome, fun a ha b hb hab => ?_⟩
      obtain ⟨f, hf, rfl⟩ := List.mem_map.1 ha
      obtain ⟨k, h3, h4⟩ := h1 f hf
      rw [List.map_map] at hb
      obtain ⟨p, hpm, rfl⟩ := List.mem_map.1 hb
      rw [h3] at hab
      simp only [Function.comp, Option.some.injEq] at hab
      exact (hfree p hpm).2 (hab ▸ h4)
    · obtain ⟨p, hpm, rfl⟩ := List.mem_map.1 hk
      refine ⟨(hfree p hpm).2, typeGo (recordGo pub rename p.2.name) p.2.type p.2.optional, { name := p.2.name },
        List.mem_append_right _ (List.mem_map.2 ⟨p.2, List.mem_map.2 ⟨p, hpm, rfl⟩, ?_⟩)⟩
      simp only [fieldGo, hsame p hpm]
    · rintro ⟨hM, a, tag, hk⟩
      obtain ⟨p, hpm, he, _⟩ := hcase k a tag hk hM
      exact List.mem_map.2 ⟨p, hpm, he⟩
    · obtain ⟨p, hpm, he, ha⟩ := hcase k a tag hk hM
      have h0 := hP0 k p hpm he
      subst ha
      show (∃ tg, GoField.mk (some k) (P0 k).1.type tg ∈ ps.map Prod.fst) ∧ Fits d false (P0 k).1.type _ (Lp (P0 k))
      rw [← h0]
      refine ⟨⟨p.1.tag, List.mem_map.2 ⟨p, hpm, ?_⟩⟩, (hLp p hpm).1⟩
      have h3 := hname p hpm
      rw [he] at h3
      obtain ⟨⟨n, t, tg⟩, x⟩ := p
      simp only [GoField.name] at h3
      subst h3
      rfl
    · have : (ps.map fun p => goName title rename p.2.name).flatMap (fun k => Lp (P0 k)) = ps.flatMap Lp := by
        rw [List.flatMap_map]
        refine List.flatMap_congr fun p hpm => ?_
        rw [← hP0 _ p hpm rfl]
      rw [this]
      exact counted_flat fun p hpm => (hLp p hpm).2.1

/-- The struct for an object. -/
theorem record_fits {m : GMap P} {inList : Bool} {ps : List (GoField × AField)} (hname : ∀ p ∈ ps, p.1.name = some (goName title rename p.2.name))
    (hl : ∀ p ∈ ps, ∃ q, Listed m p.2.name q) (hnd : (ps.map fun p => goName title rename p.2.name).Nodup) (hm : SameNames title pub rename m)
    (hp : ∀ p ∈ ps, ∃ L, PairFits pub rename d inList p L) {r : Str} (hr : RecName r) (hd : d.avro r = some ((ps.map Prod.snd).map (fieldGo pub rename))) :
    ∃ L, Fits d true (.struct (ps.map Prod.fst)) (.ident r) L ∧ Counted L (allRecordsGo pub rename (ps.map Prod.snd)) ∧ (inList = true → Printable (ps.map Prod.fst)) := by
  obtain ⟨h1, h2, h3⟩ := fields_fit hname hl hnd hm hp
  obtain ⟨h4, h5, h6, ty, Ls, h7, h8⟩ := h3 [] (by simp) (by simp)
  exact ⟨_, .record ty Ls (.inl rfl) h1 hr hd h4 h5 (fun k a tag hk hM => (h7 k a tag hk hM).1) (fun k a tag hk hM => (h7 k a tag hk hM).2) h6 (.refl _), h8, h2⟩

theorem scalar_key {t n : Str} (h : (t, n) ∈ scalarTable) : t ≠ g!"object" ∧ t ≠ g!"array" := by
  revert h
  simp only [scalarTable, List.mem_cons, Prod.mk.injEq, List.not_mem_nil, or_false]
  rintro (⟨rfl, _⟩ | ⟨rfl, _⟩ | ⟨rfl, _⟩ | ⟨rfl, _⟩) <;> decide

theorem scalar_key' {t : Str} (h : t ∈ scalarTable.map Prod.fst) : t ≠ g!"object" ∧ t ≠ g!"array" := by
  obtain ⟨⟨t', n⟩, h', rfl⟩ := List.mem_map.1 h
  exact scalar_key h'

/-- The types of a property fit. -/
theorem twin_fits {raw : P} {required : Bool} {g : GoType} {x : AType} (ht : Twin title rename pointers raw required g x) :
    ∀ {inList : Bool}, Carried title pub rename pointers inList raw required → ∀ (field : Str) (o : Bool), RecName (recordGo pub rename field) →
    (o = true ↔ MayMiss false raw required) → (∀ e ∈ recordsGo pub rename field x, d.avro e.1 = some e.2) →
    ∃ L, Fits d false g (typeGo (recordGo pub rename field) x o) L ∧ Counted L (recordsGo pub rename field x) ∧ (inList = true → PrintableType g) := by
  have mm : ∀ {raw : P} {req : Bool}, MayMiss false raw req ↔ req = false ∧ ¬ BareObject raw := fun {raw req} => by simp [MayMiss]
  induction ht with
  | @scalar raw i t n b required hd hti h1 h2 h3 =>
    intro inList hc field o hr ho hdecl
    have hnull : g!"null" ∉ i.type := by
      cases hc with
      | scalar a1 a2 a3 a4 a5 => rw [hd] at a1; cases a1; exact a5
      | time a1 a2 a3 => rw [hd] at a1; cases a1; exact absurd ⟨typeIs_unique hti a2, a3⟩ h3
      | scalars a1 a2 => exact absurd (same_type hd a1 hti a2) (scalar_key h1).2
      | times a1 a2 => exact absurd (same_type hd a1 hti a2) (scalar_key h1).2
      | strings a1 a2 => exact absurd (same_type hd a1 hti a2) (scalar_key h1).1
      | object a1 a2 => exact absurd (same_type hd a1 hti a2) (scalar_key h1).1
      | objects a1 a2 => exact absurd (same_type hd a1 hti a2) (scalar_key h1).2
    rw [show starred (decide (g!"null" ∈ i.type)) (.ident b) = .ident b by simp [starred, hnull]]
    refine ⟨[], ?_, counted_nil, fun _ => trivial⟩
    simp only [basicTable, List.mem_cons, Prod.mk.injEq, List.not_mem_nil, or_false] at h2
    rcases h2 with ⟨rfl, rfl⟩ | ⟨rfl, rfl⟩ | ⟨rfl, rfl⟩ | ⟨rfl, rfl⟩ <;> cases o
    · exact .same (by decide)
    · exact .same (by decide)
    · exact .same (by decide)
    · exact .optional (m := g!"Double") (by decide)
    · exact .same (by decide)
    · exact .optional (m := g!"Long") (by decide)
    · exact .same (by decide)
    · exact .optional (m := g!"String") (by decide)
  | @time raw i required hd hti hf =>
    intro inList hc field o hr ho hdecl
    have hnull : (g!"null" ∈ i.type → required = false ∧ inList = false) ∧ (inList = true → pointers = true → required = true) := by
      cases hc with
      | scalar a1 a2 a3 a4 a5 => rw [hd] at a1; cases a1; exact absurd ⟨typeIs_unique a2 hti, hf⟩ a4
      | time a1 a2 a3 a4 a5 => rw [hd] at a1; cases a1; exact ⟨a4, a5⟩
      | scalars a1 a2 => exact absurd (same_type hd a1 hti a2) (by decide)
      | times a1 a2 => exact absurd (same_type hd a1 hti a2) (by decide)
      | strings a1 a2 => exact absurd (same_type hd a1 hti a2) (by decide)
      | object a1 a2 => exact absurd (same_type hd a1 hti a2) (by decide)
      | objects a1 a2 => exact absurd (same_type hd a1 hti a2) (by decide)
    rw [mm] at ho
    have hb := not_bare hd hti (by decide)
    refine ⟨[], ?_, counted_nil, fun hi => ?_⟩
    · cases hq : required with
      | true =>
        have : o = false := by rw [hq] at ho; simpa using ho
        subst this
        have : g!"null" ∉ i.type := fun h => by have := (hnull.1 h).1; rw [hq] at this; cases this
        simp only [this, starred, decide_false, Bool.not_true, Bool.and_false, Bool.or_false]
        exact .time
      | false =>
        have : o = true := ho.2 ⟨hq, hb⟩
        subst this
        unfold starred
        split
        · exact .ptrTime
        · exact .optTime
    · have h1 : g!"null" ∉ i.type := fun h => by have := (hnull.1 h).2; rw [hi] at this; cases this
      have h2 : (pointers && !required) = false := by
        cases hp : pointers with
        | false => rfl
        | true => rw [hnull.2 hi hp]; rfl
      simp only [h1, h2, starred, decide_false, Bool.or_false]
      rfl
  | @strings raw i m required hd hti hp hno =>
    intro inList hc field o hr ho hdecl
    have hnull : g!"null" ∉ i.type ∧ inList = false := by
      cases hc with
      | scalar a1 a2 a3 => exact absurd (same_type hd a1 hti a2).symm (scalar_key' a3).1
      | time a1 a2 => exact absurd (same_type hd a1 hti a2) (by decide)
      | scalars a1 a2 => exact absurd (same_type hd a1 hti a2) (by decide)
      | times a1 a2 => exact absurd (same_type hd a1 hti a2) (by decide)
      | strings a1 a2 a3 a4 a5 => rw [hd] at a1; cases a1; exact ⟨a5, rfl⟩
      | object a1 a2 a3 a4 =>
        rw [hd] at a1; cases a1
        rw [hp] at a3; cases a3
        obtain ⟨k, q, h⟩ := a4
        exact absurd h (hno k q)
      | objects a1 a2 => exact absurd (same_type hd a1 hti a2) (by decide)
    rw [show starred (decide (g!"null" ∈ i.type)) stringMap = stringMap by simp [starred, hnull.1]]
    exact ⟨[], .map (by decide), counted_nil, fun h => by rw [hnull.2] at h; cases h⟩
  | @record raw i m ps required hd hti hp h0 h1 h2 h3 h4 h5 ih =>
    intro inList hc field o hr ho hdecl
    have hc' : (∃ k q, Listed m k q) ∧ (g!"null" ∈ i.type → required = false ∧ inList = false) ∧ SameNames title pub rename m ∧
        ∀ k q, Listed m k q → Carried title pub rename pointers inList q (decide (k ∈ i.required)) := by
      cases hc with
      | scalar a1 a2 a3 => exact absurd (same_type hd a1 hti a2).symm (scalar_key' a3).1
      | time a1 a2 => exact absurd (same_type hd a1 hti a2) (by decide)
      | scalars a1 a2 => exact absurd (same_type hd a1 hti a2) (by decide)
      | times a1 a2 => exact absurd (same_type hd a1 hti a2) (by decide)
      | strings a1 a2 a3 a4 =>
        rw [hd] at a1; cases a1
        rw [hp] at a3; cases a3
        obtain ⟨k, q, h⟩ := h0
        exact absurd h (a4 k q)
      | object a1 a2 a3 a4 a5 a6 a7 =>
        rw [hd] at a1; cases a1
        rw [hp] at a3; cases a3
        exact ⟨a4, a5, a6, a7⟩
      | objects a1 a2 => exact absurd (same_type hd a1 hti a2) (by decide)
    obtain ⟨hsome, hnull, hsn, heach⟩ := hc'
    obtain ⟨L, hL1, hL2, hL3⟩ := record_fits (d := d) (inList := inList) h1 h2 h3 hsn (fun p hpm => by
      obtain ⟨q, hq⟩ := h2 p hpm
      exact ih p hpm q hq (heach _ _ hq) p.2.name p.2.optional (hsn.record _ _ hq) (h4 p hpm q hq)
        fun e he => hdecl e (List.mem_cons_of_mem _ (mem_allRecords (List.mem_map.2 ⟨p, hpm, rfl⟩) he))) hr (hdecl _ List.mem_cons_self)
    have hcnt : Counted L (recordsGo pub rename field (.record (ps.map Prod.snd))) := by
      have := (counted_nil (R := [(recordGo pub rename field, (ps.map Prod.snd).map (fieldGo pub rename))])).append hL2
      rwa [List.nil_append, List.singleton_append] at this
    rw [mm, bare_iff hd hti hp] at ho
    by_cases hn : g!"null" ∈ i.type
    · obtain ⟨e1, e2⟩ := hnull hn
      have : o = true := ho.2 ⟨e1, fun h => h.2 hn⟩
      subst this
      rw [show starred (decide (g!"null" ∈ i.type)) (.struct (ps.map Prod.fst)) = .star (.struct (ps.map Prod.fst)) by simp [starred, hn]]
      exact ⟨L, .ptrStruct hL1, hcnt, fun h => by rw [e2] at h; cases h⟩
    · have : o = false := by
        cases o with
        | false => rfl
        | true => exact absurd ⟨hsome, hn⟩ (ho.1 rfl).2
      subst this
      rw [show starred (decide (g!"null" ∈ i.type)) (.struct (ps.map Prod.fst)) = .struct (ps.map Prod.fst) by simp [starred, hn]]
      exact ⟨L, .struct hL1, hcnt, hL3⟩
  | @scalars raw items i j t n b required hd hti hi hj hjt h1 h2 h3 =>
    intro inList hc field o hr ho hdecl
    have hnull : g!"null" ∉ i.type := by
      cases hc with
      | scalar a1 a2 a3 => exact absurd (same_type hd a1 hti a2).symm (scalar_key' a3).2
      | time a1 a2 => exact absurd (same_type hd a1 hti a2) (by decide)
      | scalars a1 a2 a3 a4 a5 a6 a7 a8 => rw [hd] at a1; cases a1; exact a8
      | times a1 a2 a3 a4 a5 a6 =>
        rw [hd] at a1; cases a1
        rw [hi] at a3; cases a3
        rw [hj] at a4; cases a4
        exact absurd ⟨typeIs_unique hjt a5, a6⟩ h3
      | strings a1 a2 => exact absurd (same_type hd a1 hti a2) (by decide)
      | object a1 a2 => exact absurd (same_type hd a1 hti a2) (by decide)
      | objects a1 a2 a3 a4 a5 =>
        rw [hd] at a1; cases a1
        rw [hi] at a3; cases a3
        exact absurd (same_type hj a4 hjt a5) (scalar_key h1).1
    rw [show starred (decide (g!"null" ∈ i.type)) (.ident b) = .ident b by simp [starred, hnull]]
    refine ⟨[], ?_, counted_nil, fun _ => trivial⟩
    simp only [basicTable, List.mem_cons, Prod.mk.injEq, List.not_mem_nil, or_false] at h2
    rcases h2 with ⟨rfl, rfl⟩ | ⟨rfl, rfl⟩ | ⟨rfl, rfl⟩ | ⟨rfl, rfl⟩ <;> exact .slice (by decide)
  | @times raw items i j required hd hti hi hj hjt hf =>
    intro inList hc field o hr ho hdecl
    have hin : inList = false := by
      cases hc with
      | scalar a1 a2 a3 => exact absurd (same_type hd a1 hti a2).symm (scalar_key' a3).2
      | time a1 a2 => exact absurd (same_type hd a1 hti a2) (by decide)
      | scalars a1 a2 a3 a4 a5 a6 a7 a8 =>
        rw [hd] at a1; cases a1
        rw [hi] at a3; cases a3
        rw [hj] at a4; cases a4
        exact absurd ⟨typeIs_unique a5 hjt, hf⟩ a7
      | times => rfl
      | strings a1 a2 => exact absurd (same_type hd a1 hti a2) (by decide)
      | object a1 a2 => exact absurd (same_type hd a1 hti a2) (by decide)
      | objects a1 a2 a3 a4 a5 =>
        rw [hd] at a1; cases a1
        rw [hi] at a3; cases a3
        exact absurd (same_type hj a4 hjt a5) (by decide)
    refine ⟨[], ?_, counted_nil, fun h => by rw [hin] at h; cases h⟩
    unfold starred
    split
    · exact .ptrTimes
    · exact .times
  | @dicts raw items i j m g required hd hti hi hj hjt hp hno =>
    intro inList hc
    cases hc with
    | scalar a1 a2 a3 => exact absurd (same_type hd a1 hti a2).symm (scalar_key' a3).2
    | time a1 a2 => exact absurd (same_type hd a1 hti a2) (by decide)
    | scalars a1 a2 a3 a4 a5 a6 =>
      rw [hd] at a1; cases a1
      rw [hi] at a3; cases a3
      exact absurd (same_type hj a4 hjt a5).symm (scalar_key' a6).1
    | times a1 a2 a3 a4 a5 =>
      rw [hd] at a1; cases a1
      rw [hi] at a3; cases a3
      exact absurd (same_type hj a4 hjt a5) (by decide)
    | strings a1 a2 => exact absurd (same_type hd a1 hti a2) (by decide)
    | object a1 a2 => exact absurd (same_type hd a1 hti a2) (by decide)
    | objects a1 a2 a3 a4 a5 a6 a7 =>
      rw [hd] at a1; cases a1
      rw [hi] at a3; cases a3
      rw [hj] at a4; cases a4
      rw [hp] at a6; cases a6
      obtain ⟨k, q, h⟩ := a7
      exact absurd h (hno k q)
  | @records raw items i j m ps required hd hti hi hj hjt hp h1 h2 h3 h4 h5 ih =>
    intro inList hc field o hr ho hdecl
    have hc' : (inList = true → g!"null" ∉ i.type) ∧ SameNames title pub rename m ∧
        ∀ k q, Listed m k q → Carried title pub rename pointers true q (decide (k ∈ j.required)) := by
      cases hc with
      | scalar a1 a2 a3 => exact absurd (same_type hd a1 hti a2).symm (scalar_key' a3).2
      | time a1 a2 => exact absurd (same_type hd a1 hti a2) (by decide)
      | scalars a1 a2 a3 a4 a5 a6 =>
        rw [hd] at a1; cases a1
        rw [hi] at a3; cases a3
        exact absurd (same_type hj a4 hjt a5).symm (scalar_key' a6).1
      | times a1 a2 a3 a4 a5 =>
        rw [hd] at a1; cases a1
        rw [hi] at a3; cases a3
        exact absurd (same_type hj a4 hjt a5) (by decide)
      | strings a1 a2 => exact absurd (same_type hd a1 hti a2) (by decide)
      | object a1 a2 => exact absurd (same_type hd a1 hti a2) (by decide)
      | objects a1 a2 a3 a4 a5 a6 a7 a8 a9 a10 =>
        rw [hd] at a1; cases a1
        rw [hi] at a3; cases a3
        rw [hj] at a4; cases a4
        rw [hp] at a6; cases a6
        exact ⟨a8, a9, a10⟩
    obtain ⟨hnull, hsn, heach⟩ := hc'
    have hdecl' : ∀ e ∈ recordsGo pub rename field (.record (ps.map Prod.snd)), d.avro e.1 = some e.2 := fun e he => hdecl e (by rwa [recordsGo])
    obtain ⟨L, hL1, hL2, hL3⟩ := record_fits (d := d) (inList := true) h1 h2 h3 hsn (fun p hpm => by
      obtain ⟨q, hq⟩ := h2 p hpm
      exact ih p hpm q hq (heach _ _ hq) p.2.name p.2.optional (hsn.record _ _ hq) (h4 p hpm q hq)
        fun e he => hdecl' e (List.mem_cons_of_mem _ (mem_allRecords (List.mem_map.2 ⟨p, hpm, rfl⟩) he))) hr (hdecl' _ List.mem_cons_self)
    have hcnt : Counted (L ++ [(none, recordGo pub rename field)]) (recordsGo pub rename field (.list (.record (ps.map Prod.snd)))) := by
      refine ⟨fun e he => ?_, fun r => ?_⟩
      · rcases List.mem_append.1 he with he | he
        · exact hL2.1 e he
        · rw [List.mem_singleton.1 he]
      · have := hL2.2 r
        simp only [recordsGo, List.map_append, List.map_cons, List.map_nil, List.count_append, List.count_cons, List.count_nil]
        omega
    refine ⟨_, ?_, hcnt, fun hin => ?_⟩
    · unfold starred
      split
      · exact .ptrStructs hL1 fun fs h => by cases h; exact hL3 rfl
      · exact .structs hL1 fun fs h => by cases h; exact hL3 rfl
    · have hn := hnull hin
      rw [show starred (decide (g!"null" ∈ i.type)) (.struct (ps.map Prod.fst)) = .struct (ps.map Prod.fst) by simp [starred, hn]]
      exact hL3 rfl

end JT.Go
