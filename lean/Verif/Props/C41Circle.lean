import Verif.Props.C41
/- C41, the other direction: if references form a circle, dereferencing never succeeds. -/
namespace JT.Spec

/-- A path leads through objects, and through arrays of objects only. -/
def Searched : List Str → P → Prop
  | [], _ => True
  | k :: ks, d => ∃ q, d.step k = some q ∧ ((∃ l, d = .arr l) → ∃ m, q = .obj m) ∧ Searched ks q

/-- An object is nothing but a reference, apart from the mark of an earlier reference. -/
def OnlyRef (m : List (Str × P)) (raw : Str) : Prop :=
  GMap.get g!"$ref" m = some (.sc (.str raw)) ∧ ∀ kv ∈ m, kv.1 = g!"$ref" ∧ kv.2 = .sc (.str raw) ∨ kv.1 = g!"fromRef" ∧ ∃ x, kv.2 = .sc (.str x)

/-- The places `C` of a document form circles: at each of them is a reference to a part of the document in which there is one of the places. -/
structure Circle (w : World) (schemaPath : Str) (d : P) (C : List Str → Prop) : Prop where
  nonempty : ∃ p, C p
  below : ∀ p, C p → p ≠ [] ∧ g!"fromRef" ∉ p ∧ Searched p d
  next : ∀ p, C p → ∃ m raw keys rest, d.at p = some (.obj m) ∧ OnlyRef m raw ∧ LocalRef w schemaPath (unescStr raw) keys ∧ C (keys ++ rest)

/-- What comes from other files and from the network has no object with a key twice. -/
def TidyWorld (w : World) : Prop := (∀ path p, w.load path = .ok p → Tidy p) ∧ ∀ url p, w.http url = .ok p → Tidy p

end JT.Spec

namespace JT.Ref
open JT JT.Spec

theorem searched_append : ∀ {a b : List Str} {d : P}, Searched (a ++ b) d ↔ Searched a d ∧ ∃ q, d.at a = some q ∧ Searched b q
  | [], b, d => by simp [Searched, P.at]
  | k :: ks, b, d => by
    simp only [List.cons_append, Searched, P.at]
    constructor
    · rintro ⟨q, h1, h2, h3⟩
      rw [searched_append] at h3
      obtain ⟨h3, x, h4, h5⟩ := h3
      exact ⟨⟨q, h1, h2, h3⟩, x, by rw [h1]; exact h4, h5⟩
    · rintro ⟨⟨q, h1, h2, h3⟩, x, h4, h5⟩
      rw [h1] at h4
      exact ⟨q, h1, h2, searched_append.2 ⟨h3, x, h4, h5⟩⟩

theorem put_arr {d v : P} {k : Str} (h : ∃ l, d.put k v = .arr l) : ∃ l, d = .arr l := by
  cases d with
  | sc s => obtain ⟨l, h⟩ := h; simp [P.put] at h
  | obj m => obtain ⟨l, h⟩ := h; simp [P.put] at h
  | arr l => exact ⟨l, rfl⟩

theorem set_keeps_obj {o m mq : List (Str × P)} {q' : P} : ∀ {ks : List Str}, (P.obj mq).at ks = some (.obj m) → P.set (.obj o) ks (.obj mq) = some q' → ∃ x, q' = .obj x
  | [], _, hs => by simp only [P.set, Option.some.injEq] at hs; exact ⟨o, hs.symm⟩
  | k :: ks, h, hs => by
    obtain ⟨r, hr, _⟩ := at_cons.1 h
    rw [set_cons hr, Option.map_eq_some_iff] at hs
    obtain ⟨r', _, rfl⟩ := hs
    exact ⟨_, rfl⟩

/-- What replacing one object by another does to the place of a third. -/
theorem set_places {o m mp : List (Str × P)} : ∀ {dest p : List Str} {d d' : P}, d.at dest = some (.obj m) → P.set (.obj o) dest d = some d' → d.at p = some (.obj mp) → Searched p d →
    (d'.at p = some (.obj mp) ∧ Searched p d') ∨
    (∃ a s, p = a ++ s ∧ d.at a = some (.obj m) ∧ d'.at a = some (.obj o) ∧ Searched a d') ∨
    ∃ k s, (P.obj mp).at (k :: s) = some (.obj m)
  | [], p, d, d', hq, hs, hp, _ => by
    simp only [P.set, Option.some.injEq] at hs
    subst hs
    exact Or.inr (Or.inl ⟨[], p, rfl, hq, rfl, trivial⟩)
  | k :: ks, [], d, d', hq, hs, hp, _ => by
    simp only [P.at, Option.some.injEq] at hp
    subst hp
    exact Or.inr (Or.inr ⟨k, ks, hq⟩)
  | k :: ks, j :: js, d, d', hq, hs, hp, hsr => by
    obtain ⟨r, hr, hq2⟩ := at_cons.1 hq
    rw [set_cons hr, Option.map_eq_some_iff] at hs
    obtain ⟨r', h1, rfl⟩ := hs
    obtain ⟨x, hx, hx2⟩ := at_cons.1 hp
    obtain ⟨y, hy, hkind, hsr⟩ := hsr
    rw [hx] at hy
    injection hy with hy
    subst hy
    have key : (d.put k r').step j = d.step j ∨ (d.step j = some r ∧ (d.put k r').step j = some r') := by
      cases d with
      | sc s => simp [P.step] at hr
      | obj m =>
        by_cases ha : j = k
        · subst ha; exact Or.inr ⟨hr, step_put_self hr⟩
        · exact Or.inl (step_put_ne (Or.inl ⟨m, rfl, ha⟩))
      | arr l =>
        by_cases ha : arrIndex j = arrIndex k
        · right
          have h2 := step_put_self (v := r') hr
          simp only [P.step] at hr ⊢
          rw [ha]
          refine ⟨hr, ?_⟩
          rcases hk : arrIndex k with _ | i
          · rw [hk] at hr; simp at hr
          · rw [hk] at hr
            simp only [P.put, hk, Option.bind_some] at hr ⊢
            rw [List.getElem?_set_self (List.getElem?_eq_some_iff.1 hr).1]
        · exact Or.inl (step_put_ne (Or.inr ⟨l, rfl, ha⟩))
    rcases key with h | ⟨h2, h3⟩
    · left
      refine ⟨?_, x, by rw [h, hx], fun ha => hkind (put_arr ha), hsr⟩
      simp only [P.at]; rw [h, hx]; exact hx2
    · rw [hx] at h2
      injection h2 with h2
      subst h2
      have hk' : (∃ l, d.put k r' = .arr l) → ∃ m, r' = .obj m := by
        intro ha
        obtain ⟨mq, rfl⟩ := hkind (put_arr ha)
        exact set_keeps_obj hq2 h1
      rcases set_places hq2 h1 hx2 hsr with ⟨ha, hb⟩ | ⟨a, s, rfl, ha, hb, hc⟩ | ⟨k', s, ha⟩
      · exact Or.inl ⟨by simp only [P.at]; rw [h3]; exact ha, r', h3, hk', hb⟩
      · refine Or.inr (Or.inl ⟨j :: a, s, rfl, ?_, ?_, r', h3, hk', hc⟩)
        · simp only [P.at]; rw [hx]; exact ha
        · simp only [P.at]; rw [h3]; exact hb
      · exact Or.inr (Or.inr ⟨k', s, ha⟩)

theorem mem_setField {k : Str} {v : P} {kv : Str × P} : ∀ {m : List (Str × P)}, kv ∈ setField k v m → kv ∈ m ∨ kv = (k, v)
  | [], h => by simp only [setField, List.mem_singleton] at h; exact Or.inr h
  | (k', v') :: t, h => by
    simp only [setField] at h
    split at h
    · rename_i hk
      rcases List.mem_cons.1 h with h | h
      · exact Or.inr (by rw [h, hk])
      · exact Or.inl (List.mem_cons_of_mem _ h)
    · rcases List.mem_cons.1 h with h | h
      · exact Or.inl (by rw [h]; exact List.mem_cons_self)
      · rcases mem_setField h with h | h
        · exact Or.inl (List.mem_cons_of_mem _ h)
        · exact Or.inr h

theorem mem_overlay {kv : Str × P} : ∀ {prior r : List (Str × P)}, kv ∈ overlay r prior → kv ∈ r ∨ ∃ x ∈ prior, kv = (x.1, siblingValue x.2)
  | [], r, h => Or.inl h
  | (k, v) :: t, r, h => by
    simp only [overlay] at h
    rcases mem_overlay h with h | ⟨x, hx, h⟩
    · rcases mem_setField h with h | h
      · exact Or.inl h
      · exact Or.inr ⟨(k, v), List.mem_cons_self, h⟩
    · exact Or.inr ⟨x, List.mem_cons_of_mem _ hx, h⟩

theorem alone_step {m : List (Str × P)} {raw k : Str} {q : P} (h : OnlyRef m raw) (hq : (P.obj m).step k = some q) : ∃ x, q = .sc (.str x) := by
  simp only [P.step] at hq
  rcases h.2 _ (GMap.get_some_mem hq) with ⟨_, h⟩ | ⟨_, x, h⟩
  · exact ⟨_, h⟩
  · exact ⟨x, h⟩

theorem alone_below {m mm : List (Str × P)} {raw k : Str} {s : List Str} (h : OnlyRef m raw) : (P.obj m).at (k :: s) ≠ some (.obj mm) := by
  intro hc
  obtain ⟨q, h1, h2⟩ := at_cons.1 hc
  obtain ⟨x, rfl⟩ := alone_step h h1
  cases s with
  | nil => simp [P.at] at h2
  | cons a b => simp [P.at, P.step] at h2

/-- The keys beside a reference stay. -/
theorem kept_below {m r mp : List (Str × P)} {raw k : Str} {s : List Str} (hm : (m.map Prod.fst).Nodup) (hraw : GMap.get refKey m = some (.sc (.str raw)))
    (h : (P.obj m).at (k :: s) = some (.obj mp)) : (P.obj (overlay r (delField refKey m))).at (k :: s) = some (.obj mp) ∧
      (Searched (k :: s) (.obj m) → Searched (k :: s) (.obj (overlay r (delField refKey m)))) := by
  obtain ⟨q, h1, h2⟩ := at_cons.1 h
  have hk : k ≠ refKey := by
    rintro rfl
    simp only [P.step, hraw, Option.some.injEq] at h1
    subst h1
    cases s <;> simp [P.at, P.step] at h2
  have hq : siblingValue q = q := by
    cases q with
    | sc x => cases s <;> simp [P.at, P.step] at h2
    | obj _ => rfl
    | arr _ => rfl
  have hstep : (P.obj (overlay r (delField refKey m))).step k = some q := by
    simp only [P.step] at h1 ⊢
    rw [get_overlay _ _ _ (nodup_delField hm), get_delField_ne hk, h1]
    simp only [hq]
  refine ⟨at_cons.2 ⟨q, hstep, h2⟩, ?_⟩
  rintro ⟨q2, h3, _, h4⟩
  rw [h1] at h3
  injection h3 with h3
  subst h3
  exact ⟨q, hstep, fun ⟨l, hl⟩ => (nomatch hl), h4⟩

/-- A reference that stands alone is replaced by its target; what is below the target is then below the reference. -/
theorem copied_below {m mt mq : List (Str × P)} {raw raw' x : Str} {s : List Str} (hm : (m.map Prod.fst).Nodup) (ha : OnlyRef m raw) (hs : fromRefKey ∉ s)
    (h : (P.obj mt).at s = some (.obj mq)) (hq : OnlyRef mq raw') (hsr : Searched s (.obj mt)) :
    ∃ mq', (P.obj (overlay (setField fromRefKey (.sc (.str x)) mt) (delField refKey m))).at s = some (.obj mq') ∧ OnlyRef mq' raw' ∧
      Searched s (.obj (overlay (setField fromRefKey (.sc (.str x)) mt) (delField refKey m))) := by
  have hpr : ∀ k, k ≠ fromRefKey → GMap.get k (delField refKey m) = none := by
    intro k hk
    by_cases hr : k = refKey
    · subst hr; exact get_delField_self hm
    · rw [get_delField_ne hr]
      rcases hg : GMap.get k m with _ | v
      · rfl
      · rcases ha.2 _ (GMap.get_some_mem hg) with ⟨h, _⟩ | ⟨h, _⟩
        · exact absurd h hr
        · exact absurd h hk
  have hget : ∀ k, k ≠ fromRefKey → GMap.get k (overlay (setField fromRefKey (.sc (.str x)) mt) (delField refKey m)) = GMap.get k mt := by
    intro k hk
    rw [get_overlay _ _ _ (nodup_delField hm), hpr k hk]
    simp only
    exact get_setField_ne hk _ _
  cases s with
  | nil =>
    simp only [P.at, Option.some.injEq, P.obj.injEq] at h
    subst h
    refine ⟨_, rfl, ⟨?_, ?_⟩, trivial⟩
    · rw [← hq.1]; exact hget refKey (by decide)
    · intro kv hkv
      rcases mem_overlay hkv with h | ⟨y, hy, rfl⟩
      · rcases mem_setField h with h | rfl
        · exact hq.2 _ h
        · exact Or.inr ⟨rfl, _, rfl⟩
      · right
        rcases ha.2 _ (mem_delField hy) with ⟨h, _⟩ | ⟨h, z, hz⟩
        · have := get_delField_self (k := refKey) hm
          exact absurd (List.mem_map.2 ⟨y, hy, h⟩) ((GMap.get_none_iff).1 this)
        · exact ⟨h, escStr z, by simp only [hz, siblingValue]⟩
  | cons k ks =>
    have hk : k ≠ fromRefKey := fun h => hs (by rw [h]; exact List.mem_cons_self)
    obtain ⟨q, h1, h2⟩ := at_cons.1 h
    have hstep : (P.obj (overlay (setField fromRefKey (.sc (.str x)) mt) (delField refKey m))).step k = some q := by
      simp only [P.step] at h1 ⊢
      rw [hget k hk, h1]
    refine ⟨mq, at_cons.2 ⟨q, hstep, h2⟩, hq, ?_⟩
    obtain ⟨q2, h3, _, h4⟩ := hsr
    rw [h1] at h3
    injection h3 with h3
    subst h3
    exact ⟨q, hstep, fun ⟨l, hl⟩ => (nomatch hl), h4⟩

theorem local_unique {w : World} {schemaPath ref : Str} {k k' : List Str} (h : LocalRef w schemaPath ref k) (h' : LocalRef w schemaPath ref k') : k = k' := by
  obtain ⟨f, h1, _⟩ := h
  obtain ⟨f', h2, _⟩ := h'
  obtain ⟨_, _, _, hu⟩ := C49_total ref
  rw [(hu _ _ h1).2, (hu _ _ h2).2]

/-- The document a local reference is resolved in. -/
theorem resolve_local {w : World} {schemaPath ref : Str} {keys : List Str} {d r0 : P} (hl : LocalRef w schemaPath ref keys) (h : resolveRef w schemaPath ref d = .ok r0) :
    ∃ mt, d.at keys = some (.obj mt) ∧ r0 = .obj (setField fromRefKey (.sc (.str (w.quote ref))) mt) := by
  obtain ⟨f, hp, hf⟩ := hl
  obtain ⟨source, mt, hsrc, hat, rfl⟩ := (C49 w schemaPath ref f keys d r0 hp).1 h
  refine ⟨mt, ?_, rfl⟩
  cases hsrc with
  | here => exact hat
  | self _ _ _ => exact hat
  | http h0 h1 _ =>
    rcases hf with hf | ⟨hf, _⟩
    · exact absurd hf h0
    · exact absurd h1 hf
  | file h0 h1 h2 h3 _ =>
    rcases hf with hf | ⟨_, hf⟩
    · exact absurd hf h0
    · rw [hf] at h2; injection h2 with h2; exact absurd h2.symm h3

theorem resolved_tidy {w : World} {schemaPath ref : Str} {d r0 : P} (hset : TidyWorld w) (hs : Tidy d) (h : resolveRef w schemaPath ref d = .ok r0) :
    ∃ r, r0 = .obj r ∧ Tidy (.obj r) := by
  obtain ⟨f, keys, hp, _⟩ := C49_total ref
  obtain ⟨source, m, hsrc, hat, rfl⟩ := (C49 w schemaPath ref f keys d r0 hp).1 h
  have : Tidy source := by
    cases hsrc with
    | here => exact hs
    | self _ _ _ => exact hs
    | http _ _ h => exact hset.2 _ _ h
    | file _ _ _ _ h => exact hset.1 _ _ h
  exact ⟨_, rfl, tidy_setField trivial (tidy_at this hat)⟩

/-- Resolving a reference leaves a circle. -/
theorem circle_step {w : World} {schemaPath : Str} {dest : List Str} {d d' : P} {C : List Str → Prop} (hset : TidyWorld w) (hs : Tidy d) (hc : Circle w schemaPath d C)
    (h : derefOne w schemaPath (dest ++ [refKey]) d = .ok d') : Tidy d' ∧ ∃ C', Circle w schemaPath d' C' := by
  have h0 := h
  unfold derefOne at h
  rw [Res.bind_eq_ok] at h
  obtain ⟨ref, h1, h⟩ := h
  rw [Res.bind_eq_ok] at h
  obtain ⟨r0, h2, h⟩ := h
  obtain ⟨m, raw, hat, hraw, rfl⟩ := refString_ok h1
  have hms := tidy_at hs hat
  have hm : (m.map Prod.fst).Nodup := by simp only [Tidy] at hms; exact hms.1
  by_cases hd : dest = []
  · subst hd
    simp only [P.at, Option.some.injEq] at hat
    subst hat
    rw [List.nil_append, derefOne_root (w := w) hraw h2, Res.ok.injEq] at h0
    subst h0
    have hkeep : ∀ p, C p → ∀ mp, (P.obj m).at p = some (.obj mp) → (P.obj (delField refKey m)).at p = some (.obj mp) ∧ (Searched p (.obj m) → Searched p (.obj (delField refKey m))) := by
      intro p hp mp hpat
      obtain ⟨hne, _, _⟩ := hc.below p hp
      rcases p with _ | ⟨k, ks⟩
      · exact absurd rfl hne
      · obtain ⟨q, h3, h4⟩ := at_cons.1 hpat
        have hk : k ≠ refKey := by
          rintro rfl
          simp only [P.step, hraw, Option.some.injEq] at h3
          subst h3
          cases ks <;> simp [P.at, P.step] at h4
        have hstep : (P.obj (delField refKey m)).step k = some q := by
          simp only [P.step] at h3 ⊢
          rw [get_delField_ne hk, h3]
        refine ⟨at_cons.2 ⟨q, hstep, h4⟩, ?_⟩
        rintro ⟨q2, h5, _, h6⟩
        rw [h3] at h5
        injection h5 with h5
        subst h5
        exact ⟨q, hstep, fun ⟨l, hl⟩ => (nomatch hl), h6⟩
    refine ⟨tidy_del hs, C, hc.nonempty, fun p hp => ?_, fun p hp => ?_⟩
    · obtain ⟨ha, hb, hsr⟩ := hc.below p hp
      obtain ⟨mp, _, _, _, hpat, _⟩ := hc.next p hp
      exact ⟨ha, hb, (hkeep p hp mp hpat).2 hsr⟩
    · obtain ⟨mp, rawp, keys, rest, hpat, hal, hl, hn⟩ := hc.next p hp
      exact ⟨mp, rawp, keys, rest, (hkeep p hp mp hpat).1, hal, hl, hn⟩
  · obtain ⟨r, rfl, hrs⟩ := resolved_tidy hset hs h2
    obtain ⟨d2, h3, h4⟩ := derefOne_eq hd hat hraw h2
    rw [h3, Res.ok.injEq] at h0
    subst h0
    have hds := tidy_del (k := refKey) hms
    have htidy : Tidy d2 := by
      refine tidy_set (tidy_overlay ?_ hrs) hs hat h4
      simp only [Tidy] at hds
      exact hds.2
    refine ⟨htidy, ?_⟩
    -- where each place of the circle is afterwards
    have move : ∀ p, C p → ∃ t mp' raw' keys rest, d2.at (p ++ t) = some (.obj mp') ∧ OnlyRef mp' raw' ∧ LocalRef w schemaPath (unescStr raw') keys ∧ C (keys ++ rest) ∧
        fromRefKey ∉ t ∧ Searched (p ++ t) d2 := by
      intro p hp
      obtain ⟨hne, hfr, hsr⟩ := hc.below p hp
      obtain ⟨mp, rawp, keys, rest, hpat, hal, hl, hn⟩ := hc.next p hp
      rcases set_places hat h4 hpat hsr with ⟨ha, hb⟩ | ⟨a, s, rfl, ha, hb, hsa⟩ | ⟨k, s, ha⟩
      · exact ⟨[], mp, rawp, keys, rest, by rw [List.append_nil]; exact ha, hal, hl, hn, by simp, by rw [List.append_nil]; exact hb⟩
      · rw [at_append, ha, Option.bind_some] at hpat
        have hsr2 : Searched s (.obj m) := by
          obtain ⟨_, q, hq, hx⟩ := searched_append.1 hsr
          rw [ha] at hq
          injection hq with hq
          rw [hq]; exact hx
        rcases s with _ | ⟨k, s⟩
        · -- the reference itself is on the circle
          simp only [P.at, Option.some.injEq, P.obj.injEq] at hpat
          subst hpat
          have hrr : rawp = raw := by
            have := hal.1
            rw [show GMap.get g!"$ref" m = _ from hraw] at this
            simpa using this.symm
          subst hrr
          obtain ⟨mt, hk, hr⟩ := resolve_local hl h2
          injection hr with hr
          subst hr
          obtain ⟨_, hfr2, hsr3⟩ := hc.below _ hn
          obtain ⟨mq, rawq, keys', rest', hqat, hqal, hql, hqn⟩ := hc.next _ hn
          rw [at_append, hk, Option.bind_some] at hqat
          have hsr4 : Searched rest (.obj mt) := by
            obtain ⟨_, q, hq, hx⟩ := searched_append.1 hsr3
            rw [hk] at hq
            injection hq with hq
            rw [hq]; exact hx
          have hfr3 : fromRefKey ∉ rest := fun h => hfr2 (List.mem_append.2 (Or.inr h))
          obtain ⟨mq', h5, h6, h7⟩ := copied_below (x := w.quote (unescStr rawp)) hm hal hfr3 hqat hqal hsr4
          refine ⟨rest, mq', rawq, keys', rest', ?_, h6, hql, hqn, hfr3, ?_⟩
          · rw [List.append_nil, at_append, hb, Option.bind_some]; exact h5
          · rw [List.append_nil]; exact searched_append.2 ⟨hsa, _, hb, h7⟩
        · obtain ⟨h5, h6⟩ := kept_below (r := r) hm hraw hpat
          refine ⟨[], mp, rawp, keys, rest, ?_, hal, hl, hn, by simp, ?_⟩
          · rw [List.append_nil, at_append, hb, Option.bind_some]; exact h5
          · rw [List.append_nil]; exact searched_append.2 ⟨hsa, _, hb, h6 hsr2⟩
      · exact absurd ha (alone_below hal)
    refine ⟨fun p' => ∃ p t, C p ∧ p' = p ++ t ∧ fromRefKey ∉ t ∧ Searched p' d2 ∧ ∃ mp' raw' keys rest, d2.at p' = some (.obj mp') ∧ OnlyRef mp' raw' ∧
      LocalRef w schemaPath (unescStr raw') keys ∧ C (keys ++ rest), ?_, ?_, ?_⟩
    · obtain ⟨p, hp⟩ := hc.nonempty
      obtain ⟨t, mp', raw', keys, rest, ha, hb, hc', hd', he, hf⟩ := move p hp
      exact ⟨p ++ t, p, t, hp, rfl, he, hf, mp', raw', keys, rest, ha, hb, hc', hd'⟩
    · rintro p' ⟨p, t, hp, rfl, ht, hsr, _⟩
      obtain ⟨hne, hfr, _⟩ := hc.below p hp
      refine ⟨by simp [hne], fun h => ?_, hsr⟩
      rcases List.mem_append.1 h with h | h
      · exact hfr h
      · exact ht h
    · rintro p' ⟨p, t, hp, rfl, ht, hsr, mp', raw', keys, rest, ha, hb, hl, hn⟩
      obtain ⟨t2, mp2, raw2, keys2, rest2, ha2, hb2, hc2, hd2, he2, hf2⟩ := move _ hn
      refine ⟨mp', raw', keys, rest ++ t2, ha, hb, hl, keys ++ rest, t2, hn, by rw [List.append_assoc], he2, by rw [← List.append_assoc]; exact hf2, mp2, raw2, keys2, rest2, ?_, hb2, hc2, hd2⟩
      rw [← List.append_assoc]; exact ha2

theorem circle_pass {w : World} {schemaPath : Str} (hset : TidyWorld w) : ∀ (refs : List (List Str)) (d d' : P), (∀ p ∈ refs, ∃ dest, p = dest ++ [refKey]) →
    Tidy d → (∃ C, Circle w schemaPath d C) → foldRes (derefOne w schemaPath) refs d = .ok d' → Tidy d' ∧ ∃ C, Circle w schemaPath d' C
  | [], d, d', _, hs, hr, h => by
    simp only [foldRes, Res.ok.injEq] at h
    subst h
    exact ⟨hs, hr⟩
  | p :: ps, d, d', hp, hs, ⟨C, hr⟩, h => by
    simp only [foldRes] at h
    obtain ⟨d1, h1, h2⟩ : ∃ d1, derefOne w schemaPath p d = .ok d1 ∧ foldRes (derefOne w schemaPath) ps d1 = .ok d' := by
      rcases hp1 : derefOne w schemaPath p d with d1 | _ | _ <;> simp only [hp1] at h
      · exact ⟨d1, rfl, h⟩
      · simp at h
      · simp at h
    obtain ⟨dest, rfl⟩ := hp p List.mem_cons_self
    obtain ⟨ha, hb⟩ := circle_step hset hs hr h1
    exact circle_pass hset ps d1 d' (fun q hq => hp q (List.mem_cons_of_mem _ hq)) ha hb h2

/-- A reference on a searched path is found. -/
theorem searched_found {raw : Str} {mp : List (Str × P)} (hraw : GMap.get refKey mp = some (.sc (.str raw))) : ∀ (n : Nat) (p : List Str) (m : List (Str × P)), p.length ≤ n →
    (P.obj m).at p = some (.obj mp) → Searched p (.obj m) → ∃ q, RefAt (.obj m) q
  | _, [], m, _, hat, _ => by
    simp only [P.at, Option.some.injEq, P.obj.injEq] at hat
    subst hat
    exact ⟨_, .here (GMap.get_some_mem hraw)⟩
  | 0, _ :: _, _, hn, _, _ => by simp at hn
  | n + 1, k :: ks, m, hn, hat, ⟨q, h1, _, h2⟩ => by
    obtain ⟨q', h3, h4⟩ := at_cons.1 hat
    rw [h1] at h3
    injection h3 with h3
    subst h3
    simp only [List.length_cons] at hn
    simp only [P.step] at h1
    cases q with
    | sc s => cases ks <;> simp [P.at, P.step] at h4
    | obj m' =>
      obtain ⟨x, hx⟩ := searched_found hraw n ks m' (by omega) h4 h2
      exact ⟨_, .field (GMap.get_some_mem h1) hx⟩
    | arr l =>
      cases ks with
      | nil => simp [P.at] at h4
      | cons j js =>
        obtain ⟨y, hy, hkind, hsr⟩ := h2
        obtain ⟨m', rfl⟩ := hkind ⟨l, rfl⟩
        obtain ⟨y', hy', h5⟩ := at_cons.1 h4
        rw [hy] at hy'
        injection hy' with hy'
        subst hy'
        simp only [List.length_cons] at hn
        obtain ⟨x, hx⟩ := searched_found hraw n js m' (by omega) h5 hsr
        simp only [P.step, Option.bind_eq_some_iff] at hy
        obtain ⟨i, _, hi⟩ := hy
        exact ⟨_, .elem (GMap.get_some_mem h1) hi hx⟩

end JT.Ref

namespace JT
open Spec

/-- **C41**, the converse: if there is a circle of references, each of which stands alone, the document is never dereferenced, whatever the other references
are. -/
theorem C41_circular (w : World) (schemaPath : Str) (hset : TidyWorld w) : ∀ (n : Nat) (data : P) (C : List Str → Prop), Tidy data → Circle w schemaPath data C →
    ∀ d, dereference w schemaPath n data ≠ some (.ok d)
  | 0, data, C, _, _, d => by simp [dereference]
  | n + 1, data, C, hs, hc, d => by
    intro h
    simp only [dereference] at h
    rcases hf : findRefs data with _ | refs
    · rw [hf] at h; simp at h
    · simp only [hf] at h
      rcases hp : foldRes (derefOne w schemaPath) refs data with data' | _ | _
      · simp only [hp] at h
        obtain ⟨hs', C', hc'⟩ := Ref.circle_pass hset refs data data' (Ref.findRefs_last hf) hs ⟨C, hc⟩ hp
        rcases hf' : findRefs data' with _ | refs'
        · rw [hf'] at h; simp at h
        · rcases refs' with _ | ⟨p, ps⟩
          · obtain ⟨⟨m, rfl⟩, hno⟩ := findRefs_nil_iff.1 hf'
            obtain ⟨q, hq⟩ := hc'.nonempty
            obtain ⟨mp, raw, _, _, hat, hal, _, _⟩ := hc'.next q hq
            obtain ⟨x, hx⟩ := Ref.searched_found hal.1 _ q m (Nat.le_refl _) hat (hc'.below q hq).2.2
            exact hno x hx
          · simp only [hf'] at h
            exact C41_circular w schemaPath hset n data' C' hs' hc' d h
      · simp [hp] at h
      · simp [hp] at h

namespace C41circle
open C40ex

/-- Two definitions that contain each other, one of them in an array, and a property that is none of them. -/
def doc : P := .obj [(g!"properties", .obj [(g!"x", .obj [(g!"$ref", str g!"#/definitions/a")])]),
  (g!"definitions", .obj [(g!"a", .obj [(g!"items", .obj [(g!"$ref", str g!"#/definitions/b")])]),
    (g!"b", .obj [(g!"type", str g!"object"), (g!"allOf", .arr [.obj [(g!"$ref", str g!"#/definitions/a")]])])])]

def places (p : List Str) : Prop := p = [g!"definitions", g!"a", g!"items"] ∨ p = [g!"definitions", g!"b", g!"allOf", g!"[0]"]

theorem local_ref (k : Str) (h : '/' ∉ k) (hk : k ≠ []) (hh : k.getLast? ≠ none) : LocalRef w [] (g!"#/definitions/" ++ k) [g!"definitions", k] := by
  refine ⟨[], ?_, Or.inl rfl⟩
  have := RefParts.keys (f := []) 1 0 g!"definitions" [k] (by simp) (by
    intro x hx
    simp only [List.mem_cons, List.not_mem_nil, or_false] at hx
    rcases hx with rfl | rfl
    · decide
    · exact h) (by decide) (by simpa using hk)
  simpa [join] using this

theorem circle : Circle w [] doc places := by
  refine ⟨⟨_, Or.inl rfl⟩, ?_, ?_⟩
  · rintro p (rfl | rfl)
    · exact ⟨by decide, by decide, _, rfl, (fun h => by obtain ⟨_, h⟩ := h; cases h), _, rfl, (fun h => by obtain ⟨_, h⟩ := h; cases h), _, rfl, (fun h => by obtain ⟨_, h⟩ := h; cases h), trivial⟩
    · refine ⟨by decide, by decide, _, rfl, (fun h => by obtain ⟨_, h⟩ := h; cases h), _, rfl, (fun h => by obtain ⟨_, h⟩ := h; cases h), _, rfl, (fun h => by obtain ⟨_, h⟩ := h; cases h), _, rfl, fun _ => ⟨_, rfl⟩, trivial⟩
  · rintro p (rfl | rfl)
    · refine ⟨_, g!"#/definitions/b", [g!"definitions", g!"b"], [g!"allOf", g!"[0]"], rfl, ⟨rfl, ?_⟩, local_ref g!"b" (by decide) (by decide) (by decide), Or.inr rfl⟩
      intro kv hkv
      simp only [List.mem_singleton] at hkv
      subst hkv
      exact Or.inl ⟨rfl, rfl⟩
    · refine ⟨_, g!"#/definitions/a", [g!"definitions", g!"a"], [g!"items"], rfl, ⟨rfl, ?_⟩, local_ref g!"a" (by decide) (by decide) (by decide), Or.inl rfl⟩
      intro kv hkv
      simp only [List.mem_singleton] at hkv
      subst hkv
      exact Or.inl ⟨rfl, rfl⟩

theorem tidy : Tidy doc := by simp [doc, Tidy, TidyFields, TidyList, str]
theorem world : TidyWorld w := ⟨fun _ _ h => by simp [w] at h, fun _ _ h => by simp [w] at h⟩

example : ∀ n d, dereference w [] n doc ≠ some (.ok d) := fun n d => C41_circular w [] world n doc places tidy circle d

/-- A key beside the reference can cut a circle open: here the copy that would have the reference is replaced. -/
def cut : P := .obj [(g!"a", .obj [(g!"b", .obj [(g!"$ref", str g!"#/a"), (g!"b", str g!"x")])])]
example : (dereference w [] 2 cut).isSome = true := by rfl
end C41circle

end JT
