import Verif.Spec.Loading
import Verif.Props.C34
import Verif.Props.C45
/- C88: loading schemas from files that refer to each other. -/
namespace JT
open Spec

/-! ### The order of iteration over the maps does not matter -/

theorem mergeEntry_sched {s1 s2 : Sched} {t1 t2 : Nat} {s e : Instance} (hs : PropsSorted s) (he : PropsSorted e) : mergeEntry s1 t1 s e = mergeEntry s2 t2 s e := by
  unfold mergeEntry
  have hc : GMap.Sorted (e.properties.getD []) := by
    rcases hp : e.properties with _ | m
    · trivial
    · exact he m hp
  congr 2
  refine GMap.Sorted.ext (C34_sorted hs) (C34_sorted hs) fun k => ?_
  rw [C34 s.properties _ hc _ (s1.isPerm t1 _ _) k, C34 s.properties _ hc _ (s2.isPerm t2 _ _) k]

theorem mergeEntry_props {s1 : Sched} {t1 : Nat} {s e : Instance} (hs : PropsSorted s) : PropsSorted (mergeEntry s1 t1 s e) := by
  intro m hm
  simp only [mergeEntry, Option.some.injEq] at hm
  subst hm
  exact C34_sorted hs

theorem mergeAllOf_sched {s1 s2 : Sched} {fl : Bool} : ∀ (es : List Instance) (t1 t2 : Nat) (s : Instance), PropsSorted s → (∀ e ∈ es, PropsSorted e) →
    mergeAllOf s1 fl es t1 s = mergeAllOf s2 fl es t2 s ∧ PropsSorted (mergeAllOf s1 fl es t1 s)
  | [], _, _, s, hs, _ => ⟨rfl, hs⟩
  | e :: es, t1, t2, s, hs, he => by
    simp only [mergeAllOf]
    split
    · exact mergeAllOf_sched es _ _ s hs fun e' h => he e' (List.mem_cons_of_mem _ h)
    · rw [mergeEntry_sched (s1 := s1) (s2 := s2) (t2 := t2) hs (he e List.mem_cons_self)]
      exact mergeAllOf_sched es _ _ _ (mergeEntry_props hs) fun e' h => he e' (List.mem_cons_of_mem _ h)

theorem mergeOneOf_sched {s1 s2 : Sched} {o : Str} : ∀ (es : List Instance) (t1 t2 : Nat) (s : Instance), PropsSorted s → (∀ e ∈ es, PropsSorted e) →
    mergeOneOf s1 o es t1 s = mergeOneOf s2 o es t2 s
  | [], _, _, s, hs, _ => rfl
  | e :: es, t1, t2, s, hs, he => by
    simp only [mergeOneOf]
    split
    · exact mergeOneOf_sched es _ _ s hs fun e' h => he e' (List.mem_cons_of_mem _ h)
    · rw [mergeEntry_sched (s1 := s1) (s2 := s2) (t2 := t2) hs (he e List.mem_cons_self)]
      exact mergeOneOf_sched es _ _ _ (mergeEntry_props hs) fun e' h => he e' (List.mem_cons_of_mem _ h)

/-- The schema made of a document does not depend on the order in which maps are iterated over. -/
theorem schemaOfDoc_sched (s1 s2 : Sched) (o : Str) (fl : Bool) (d : P) : schemaOfDoc s1 o fl d = schemaOfDoc s2 o fl d := by
  unfold schemaOfDoc
  rcases h : decodeInstance true d with i | _ | _
  · have hi := decodeInstance_ok h
    simp only [Res.map, mergeOf]
    have h1 := mergeAllOf_sched (s1 := s1) (s2 := s2) (fl := fl) i.allOf 0 0 i hi.root hi.allOf
    have h2 := mergeAllOf_sched (s1 := s2) (s2 := s2) (fl := fl) i.allOf 0 0 i hi.root hi.allOf
    rw [h1.1, mergeOneOf_sched (s2 := s2) i.oneOf _ _ _ h2.2 hi.oneOf]
  · rfl
  · rfl

/-! ### Encoded schemas have no references -/

namespace Loading
open JT.Ref

theorem allRefsFields_append : ∀ a b : List (Str × P), allRefsFields (a ++ b) = allRefsFields a ++ allRefsFields b
  | [], _ => rfl
  | (k, v) :: a, b => by simp only [List.cons_append, allRefsFields, allRefsFields_append a b, List.append_assoc]

theorem allRefsFields_nil_iff : ∀ {m : List (Str × P)}, allRefsFields m = [] ↔ ∀ kv ∈ m, allRefsField kv.1 kv.2 = []
  | [] => by simp [allRefsFields]
  | (k, v) :: m => by simp only [allRefsFields, List.append_eq_nil_iff, List.forall_mem_cons, allRefsFields_nil_iff (m := m)]

theorem allRefsList_nil_iff : ∀ {l : List P}, allRefsList l = [] ↔ ∀ p ∈ l, allRefs p = []
  | [] => by simp [allRefsList]
  | v :: m => by simp only [allRefsList, List.append_eq_nil_iff, List.forall_mem_cons, allRefsList_nil_iff (l := m)]

theorem tidyFields_iff : ∀ {m : List (Str × P)}, TidyFields m ↔ ∀ kv ∈ m, Tidy kv.2
  | [] => by simp [TidyFields]
  | (k, v) :: m => by simp only [TidyFields, List.forall_mem_cons, tidyFields_iff (m := m)]

theorem tidyList_iff : ∀ {l : List P}, TidyList l ↔ ∀ p ∈ l, Tidy p
  | [] => by simp [TidyList]
  | v :: m => by simp only [TidyList, List.forall_mem_cons, tidyList_iff (l := m)]

theorem allRefs_of_field {k : Str} {v : P} (h : allRefsField k v = []) : allRefs v = [] := by
  cases v with
  | sc s => rfl
  | arr l => exact h
  | obj m => exact h

theorem clean_obj {m : List (Str × P)} : Clean (.obj m) ↔ (m.map Prod.fst).Nodup ∧ ∀ kv ∈ m, allRefsField kv.1 kv.2 = [] ∧ Clean kv.2 := by
  unfold Clean
  simp only [allRefs, Tidy, allRefsFields_nil_iff, tidyFields_iff]
  constructor
  · rintro ⟨h1, h2, h3⟩
    exact ⟨h2, fun kv hkv => ⟨h1 kv hkv, allRefs_of_field (h1 kv hkv), h3 kv hkv⟩⟩
  · rintro ⟨h1, h2⟩
    exact ⟨fun kv hkv => (h2 kv hkv).1, h1, fun kv hkv => (h2 kv hkv).2.2⟩

theorem clean_arr {l : List P} : Clean (.arr l) ↔ ∀ p ∈ l, Clean p := by
  unfold Clean
  simp only [allRefs, Tidy, allRefsList_nil_iff, tidyList_iff]
  exact ⟨fun h p hp => ⟨h.1 p hp, h.2 p hp⟩, fun h => ⟨fun p hp => (h p hp).1, fun p hp => (h p hp).2⟩⟩

theorem clean_sc (s : Scal) : Clean (.sc s) := ⟨rfl, trivial⟩

/-- The values of a field list are clean, and its keys are among some. -/
def FieldOk (k : Str) (l : List (Str × P)) : Prop := (l.map Prod.fst).Sublist [k] ∧ ∀ kv ∈ l, allRefsField kv.1 kv.2 = [] ∧ Clean kv.2

theorem fieldOk_one {k : Str} {v : P} (h1 : allRefsField k v = []) (h2 : Clean v) : FieldOk k [(k, v)] := by
  refine ⟨by simp, ?_⟩
  intro kv hkv
  simp only [List.mem_singleton] at hkv
  subst hkv
  exact ⟨h1, h2⟩

theorem fieldOk_nil (k : Str) : FieldOk k [] := ⟨by simp, by simp⟩

theorem field_str {k s : Str} (h : k ≠ g!"$ref" ∨ s = []) : FieldOk k (strField k s) := by
  unfold strField
  split
  · exact fieldOk_nil k
  · rename_i hs
    refine fieldOk_one ?_ (clean_sc _)
    simp only [allRefsField]
    rw [if_neg (h.resolve_right hs)]

theorem field_bool {k : Str} {b : Bool} : FieldOk k (boolField k b) := by
  unfold boolField
  split
  · exact fieldOk_one rfl (clean_sc _)
  · exact fieldOk_nil k

theorem clean_strs (l : List Str) : Clean (.arr (l.map fun s => .sc (.str s))) := by
  rw [clean_arr]
  intro p hp
  obtain ⟨s, _, rfl⟩ := List.mem_map.1 hp
  exact clean_sc _

theorem field_strs {k : Str} {l : List Str} : FieldOk k (strsField k l) := by
  unfold strsField
  split
  · exact fieldOk_nil k
  · exact fieldOk_one (clean_strs l).1 (clean_strs l)

theorem field_raw {k : Str} {o : Option P} (h : ∀ p, o = some p → allRefsField k p = [] ∧ Clean p) : FieldOk k (rawField k o) := by
  cases o with
  | none => exact fieldOk_nil k
  | some p => exact fieldOk_one (h p rfl).1 (h p rfl).2

theorem field_list {k : Str} {l : List P} (h : ∀ p ∈ l, Clean p) : FieldOk k (listField k l) := by
  cases l with
  | nil => exact fieldOk_nil k
  | cons p l =>
    have := clean_arr.2 h
    exact fieldOk_one this.1 this

theorem field_map {k : Str} {o : Option (GMap P)} (h : ∀ m, o = some m → Clean (.obj m)) : FieldOk k (mapField k o) := by
  rcases o with _ | _ | ⟨kv, m⟩
  · exact fieldOk_nil k
  · exact fieldOk_nil k
  · exact fieldOk_one (h _ rfl).1 (h _ rfl)

theorem field_append {ks : List Str} {k : Str} {a b : List (Str × P)} (ha : FieldOk k a) (hb : (b.map Prod.fst).Sublist ks ∧ ∀ kv ∈ b, allRefsField kv.1 kv.2 = [] ∧ Clean kv.2) :
    ((a ++ b).map Prod.fst).Sublist (k :: ks) ∧ ∀ kv ∈ a ++ b, allRefsField kv.1 kv.2 = [] ∧ Clean kv.2 := by
  refine ⟨?_, ?_⟩
  · rw [List.map_append]
    exact List.Sublist.append (l₂ := [k]) ha.1 hb.1
  · intro kv hkv
    rcases List.mem_append.1 hkv with h | h
    · exact ha.2 kv h
    · exact hb.2 kv h

/-- The parts of a schema are clean. -/
structure Parts (i : Instance) : Prop where
  allOf : ∀ e ∈ i.allOf, Clean (encodeInst e)
  anyOf : ∀ e ∈ i.anyOf, Clean (encodeInst e)
  oneOf : ∀ e ∈ i.oneOf, Clean (encodeInst e)
  definitions : ∀ p, i.definitions = some p → Clean p
  items : ∀ p, i.items = some p → Clean p
  properties : ∀ m, i.properties = some m → Clean (.obj m)
  ref : i.ref = []

theorem encodeInsts_eq : ∀ l : List Instance, encodeInsts l = l.map encodeInst
  | [] => by simp [encodeInsts]
  | i :: l => by simp only [encodeInsts, List.map_cons, encodeInsts_eq l]

theorem encode_list {l : List Instance} (h : ∀ e ∈ l, Clean (encodeInst e)) : ∀ p ∈ encodeInsts l, Clean p := by
  rw [encodeInsts_eq]
  intro p hp
  obtain ⟨e, he, rfl⟩ := List.mem_map.1 hp
  exact h e he

theorem allRefsField_ne {k : Str} {v : P} (hk : k ≠ g!"$ref") (h : allRefs v = []) : allRefsField k v = [] := by
  cases v with
  | sc s => cases s <;> simp only [allRefsField]; rw [if_neg hk]
  | arr l => exact h
  | obj m => exact h

theorem encode_clean {i : Instance} (h : Parts i) : Clean (encodeInst i) := by
  obtain ⟨ap, allOf, anyOf, desc, defs, embed, format, fromRef, gargs, items, oneOf, props, ref, req, schema, target, type⟩ := i
  simp only [encodeInst]
  rw [clean_obj]
  have hne : ∀ {k : Str} {p : P}, k ≠ g!"$ref" → Clean p → allRefsField k p = [] ∧ Clean p := fun hk hp => ⟨allRefsField_ne hk hp.1, hp⟩
  have key := field_append (k := g!"additionalProperties") (field_bool (b := ap)) <|
    field_append (k := g!"allOf") (field_list (encode_list h.allOf)) <|
    field_append (k := g!"anyOf") (field_list (encode_list h.anyOf)) <|
    field_append (k := g!"description") (field_str (s := desc) (Or.inl (by decide))) <|
    field_append (k := g!"definitions") (field_raw (o := defs) fun p hp => hne (by decide) (h.definitions p hp)) <|
    field_append (k := g!"embed") (field_bool (b := embed)) <|
    field_append (k := g!"format") (field_str (s := format) (Or.inl (by decide))) <|
    field_append (k := g!"fromRef") (field_str (s := fromRef) (Or.inl (by decide))) <|
    field_append (k := g!"graphql-arguments") (field_strs (l := gargs)) <|
    field_append (k := g!"items") (field_raw (o := items) fun p hp => hne (by decide) (h.items p hp)) <|
    field_append (k := g!"oneOf") (field_list (encode_list h.oneOf)) <|
    field_append (k := g!"properties") (field_map h.properties) <|
    field_append (k := g!"$ref") (field_str (s := ref) (Or.inr h.ref)) <|
    field_append (k := g!"required") (field_strs (l := req)) <|
    field_append (k := g!"$schema") (field_str (s := schema) (Or.inl (by decide))) <|
    field_append (k := g!"target") (field_str (s := target) (Or.inl (by decide))) <|
    (show FieldOk g!"type" [(g!"type", typeList type)] from by
      have : Clean (typeList type) := by
        cases type with
        | nil => exact clean_sc _
        | cons t ts => exact clean_strs (t :: ts)
      exact fieldOk_one (allRefsField_ne (by decide) this.1) this)
  exact ⟨List.Sublist.nodup key.1 (by decide), key.2⟩

theorem clean_key {p v : P} {k : Str} (h : Clean p) (hk : p.key k = some v) : allRefsField k v = [] ∧ Clean v := by
  cases p with
  | sc s => simp [P.key] at hk
  | arr l => simp [P.key] at hk
  | obj m => exact (clean_obj.1 h).2 _ (GMap.get_some_mem hk)

theorem clean_ofList {l : List (Str × P)} (h : Clean (.obj l)) : Clean (.obj (GMap.ofList l)) := by
  rw [clean_obj] at h ⊢
  exact ⟨(GMap.sorted_ofList l).nodup, fun kv hkv => h.2 kv (GMap.mem_ofList hkv)⟩

/-- What is decoded from a clean document is clean, and so are the entries of `allOf` and `oneOf`. -/
theorem decode_parts : ∀ (n : Nat) (ap : Bool) (data : P) (i : Instance), Clean data → decodeInst n ap data = .ok i →
    Parts i ∧ (∀ e ∈ i.allOf, Parts e) ∧ ∀ e ∈ i.oneOf, Parts e
  | 0, _, _, _, _, h => by simp [decodeInst] at h
  | n + 1, ap, data, i, hc, h => by
    simp only [decodeInst, Res.bind_eq_ok, Res.pure_eq_ok] at h
    obtain ⟨q, hq, _, _, allJ, hallJ, allOf, ha, anyJ, hanyJ, anyOf, hy, _, _, _, _, _, _, _, _, _, _, oneJ, honeJ, oneOf, ho, props, hp, ref, hr, _, _, _, _, _, _, ty, ht, rfl⟩ := h
    have hq' := fun k => asStruct_key hq k
    have entries : ∀ {k : Str} {J : List P} {l : List Instance}, asList (q.key k) = .ok J → mapRes (decodeInst n false) J = .ok l → ∀ e ∈ l, Parts e := by
      intro k J l hJ hl e he
      obtain ⟨x, hx, hxe⟩ := mapRes_mem hl e he
      have h1 := asList_mem hJ hx
      rw [hq'] at h1
      have h2 := (clean_key hc h1).2
      exact (decode_parts n false x e (clean_arr.1 h2 x hx) hxe).1
    have h1 := entries hallJ ha
    have h2 := entries hanyJ hy
    have h3 := entries honeJ ho
    refine ⟨⟨fun e he => encode_clean (h1 e he), fun e he => encode_clean (h2 e he), fun e he => encode_clean (h3 e he), ?_, ?_, ?_, ?_⟩, h1, h3⟩
    · intro p hp'
      simp only [hq'] at hp'
      exact (clean_key hc hp').2
    · intro p hp'
      simp only [hq'] at hp'
      exact (clean_key hc hp').2
    · intro m hm
      simp only at hm
      subst hm
      obtain ⟨l, hl, rfl⟩ := asRawMap_some hp
      rw [hq'] at hl
      exact clean_ofList (clean_key hc hl).2
    · show ref = []
      by_cases hn : ref = []
      · exact hn
      · have := asString_some hr hn
        rw [hq'] at this
        have := (clean_key hc this).1
        simp [allRefsField] at this

theorem merge_parts {sched : Sched} {t : Nat} {s e : Instance} (hs : Parts s) (he : Parts e) (hps : PropsSorted s) (hpe : PropsSorted e) : Parts (mergeEntry sched t s e) := by
  refine ⟨hs.allOf, hs.anyOf, hs.oneOf, hs.definitions, ?_, ?_, hs.ref⟩
  · intro p hp
    simp only [mergeEntry] at hp
    split at hp
    · exact he.items p hp
    · exact hs.items p hp
  · intro m hm
    simp only [mergeEntry, Option.some.injEq] at hm
    subst hm
    have hc : GMap.Sorted (e.properties.getD []) := by
      rcases hp : e.properties with _ | m
      · trivial
      · exact hpe m hp
    have hn := (C34_sorted (order := sched.perm t _ (e.properties.getD [])) hps).nodup
    rw [clean_obj]
    refine ⟨hn, ?_⟩
    rintro ⟨k, v⟩ hkv
    have hg := GMap.get_mem_nodup hn hkv
    rw [C34 _ _ hc _ (sched.isPerm t _ _) k] at hg
    split at hg
    · rename_i q hq
      injection hg with hg
      subst hg
      rcases hp : s.properties with _ | m
      · rw [hp] at hq; simp at hq
      · rw [hp] at hq
        exact (clean_obj.1 (hs.properties m hp)).2 _ (GMap.get_some_mem hq)
    · rcases hp : e.properties with _ | m
      · rw [hp] at hg; simp at hg
      · rw [hp] at hg
        exact (clean_obj.1 (he.properties m hp)).2 _ (GMap.get_some_mem hg)

theorem mergeAllOf_parts {sched : Sched} {fl : Bool} : ∀ (es : List Instance) (t : Nat) (s : Instance), Parts s → PropsSorted s → (∀ e ∈ es, Parts e) → (∀ e ∈ es, PropsSorted e) →
    Parts (mergeAllOf sched fl es t s) ∧ PropsSorted (mergeAllOf sched fl es t s)
  | [], _, _, h, h', _, _ => ⟨h, h'⟩
  | e :: es, t, s, h, h', he, he' => by
    simp only [mergeAllOf]
    split
    · exact mergeAllOf_parts es _ s h h' (fun e' h => he e' (List.mem_cons_of_mem _ h)) fun e' h => he' e' (List.mem_cons_of_mem _ h)
    · exact mergeAllOf_parts es _ _ (merge_parts h (he e List.mem_cons_self) h' (he' e List.mem_cons_self)) (mergeEntry_props h')
        (fun e' h => he e' (List.mem_cons_of_mem _ h)) fun e' h => he' e' (List.mem_cons_of_mem _ h)

theorem mergeOneOf_parts {sched : Sched} {o : Str} : ∀ (es : List Instance) (t : Nat) (s : Instance), Parts s → PropsSorted s → (∀ e ∈ es, Parts e) → (∀ e ∈ es, PropsSorted e) →
    Parts (mergeOneOf sched o es t s)
  | [], _, _, h, _, _, _ => h
  | e :: es, t, s, h, h', he, he' => by
    simp only [mergeOneOf]
    split
    · exact mergeOneOf_parts es _ s h h' (fun e' h => he e' (List.mem_cons_of_mem _ h)) fun e' h => he' e' (List.mem_cons_of_mem _ h)
    · exact mergeOneOf_parts es _ _ (merge_parts h (he e List.mem_cons_self) h' (he' e List.mem_cons_self)) (mergeEntry_props h')
        (fun e' h => he e' (List.mem_cons_of_mem _ h)) fun e' h => he' e' (List.mem_cons_of_mem _ h)

/-- The schema made of a clean document is clean when encoded. -/
theorem schema_clean {sched : Sched} {o : Str} {fl : Bool} {d : P} {i : Instance} (hd : Clean d) (h : schemaOfDoc sched o fl d = .ok i) : Clean (encodeInst i) := by
  unfold schemaOfDoc at h
  rcases hi : decodeInstance true d with sj | _ | _
  · rw [hi] at h
    simp only [Res.map, Res.ok.injEq] at h
    subst h
    have hok := decodeInstance_ok hi
    obtain ⟨h1, h2, h3⟩ := decode_parts _ _ _ _ hd hi
    have h4 := mergeAllOf_parts (sched := sched) (fl := fl) sj.allOf 0 sj h1 hok.root h2 hok.allOf
    exact encode_clean (mergeOneOf_parts sj.oneOf _ _ h4.1 h4.2 h3 hok.oneOf)
  · rw [hi] at h; simp [Res.map] at h
  · rw [hi] at h; simp [Res.map] at h

/-! ### References in nested arrays -/

theorem flatList_iff : ∀ {l : List P}, FlatRefsList l ↔ ∀ p ∈ l, (∀ l', p = .arr l' → allRefs p = []) ∧ FlatRefs p
  | [] => by simp [FlatRefsList]
  | p :: t => by simp only [FlatRefsList, List.forall_mem_cons, flatList_iff (l := t)]

theorem flatFields_iff : ∀ {m : List (Str × P)}, FlatRefsFields m ↔ ∀ kv ∈ m, FlatRefs kv.2
  | [] => by simp [FlatRefsFields]
  | (k, v) :: t => by simp only [FlatRefsFields, List.forall_mem_cons, flatFields_iff (m := t)]

mutual
theorem flat_of_none : ∀ p : P, allRefs p = [] → FlatRefs p
  | .sc _, _ => trivial
  | .arr l, h => flatList_of_none l h
  | .obj m, h => flatFields_of_none m h
theorem flatList_of_none : ∀ l : List P, allRefsList l = [] → FlatRefsList l
  | [], _ => trivial
  | p :: t, h => by
    simp only [allRefsList, List.append_eq_nil_iff] at h
    exact ⟨⟨fun _ _ => h.1, flat_of_none p h.1⟩, flatList_of_none t h.2⟩
theorem flatFields_of_none : ∀ m : List (Str × P), allRefsFields m = [] → FlatRefsFields m
  | [], _ => trivial
  | (k, v) :: t, h => by
    simp only [allRefsFields, List.append_eq_nil_iff] at h
    exact ⟨flat_of_none v (allRefs_of_field h.1), flatFields_of_none t h.2⟩
end

mutual
theorem none_left_fields : ∀ m : List (Str × P), FlatRefsFields m → refsFields m = [] → allRefsFields m = []
  | [], _, _ => rfl
  | (k, v) :: t, hf, h => by
    simp only [refsFields, List.append_eq_nil_iff] at h
    simp only [FlatRefsFields] at hf
    simp only [allRefsFields, List.append_eq_nil_iff]
    exact ⟨none_left_field k v hf.1 h.1, none_left_fields t hf.2 h.2⟩
theorem none_left_field (k : Str) : ∀ v : P, FlatRefs v → refsField k v = [] → allRefsField k v = []
  | .sc (.str raw), _, h => by
    simp only [refsField] at h
    simp only [allRefsField]
    by_cases hk : k = refKey
    · rw [if_pos hk] at h; simp at h
    · exact if_neg hk
  | .sc .nil, _, _ => rfl
  | .sc (.bool _), _, _ => rfl
  | .sc (.int _), _, _ => rfl
  | .sc (.i64 _), _, _ => rfl
  | .sc (.f64 _), _, _ => rfl
  | .sc (.time _), _, _ => rfl
  | .sc (.node _), _, _ => rfl
  | .sc (.nodes _), _, _ => rfl
  | .obj m, hf, h => by
    simp only [refsField, List.map_eq_nil_iff] at h
    exact none_left_fields m hf h
  | .arr l, hf, h => by
    simp only [refsField, List.map_eq_nil_iff] at h
    exact none_left_elems 0 l hf h
theorem none_left_elems (i : Nat) : ∀ l : List P, FlatRefsList l → refsElems i l = [] → allRefsList l = []
  | [], _, _ => rfl
  | .obj m :: t, hf, h => by
    simp only [refsElems, List.append_eq_nil_iff, List.map_eq_nil_iff] at h
    simp only [FlatRefsList, FlatRefs] at hf
    simp only [allRefsList, allRefs, List.append_eq_nil_iff]
    exact ⟨none_left_fields m hf.1.2 h.1, none_left_elems (i + 1) t hf.2 h.2⟩
  | .sc s :: t, hf, h => by
    simp only [refsElems] at h
    simp only [FlatRefsList] at hf
    simp only [allRefsList, allRefs, List.nil_append]
    exact none_left_elems (i + 1) t hf.2 h
  | .arr l :: t, hf, h => by
    simp only [refsElems] at h
    simp only [FlatRefsList] at hf
    simp only [allRefsList, List.append_eq_nil_iff]
    exact ⟨hf.1.1 l rfl, none_left_elems (i + 1) t hf.2 h⟩
end

theorem none_left {d : P} (hf : FlatRefs d) (h : findRefs d = some []) : allRefs d = [] := by
  cases d with
  | obj m =>
    simp only [findRefs, Option.some.injEq] at h
    exact none_left_fields m hf h
  | sc s => simp [findRefs] at h
  | arr l => simp [findRefs] at h

theorem flat_step {k : Str} {v d : P} (hs : FlatRefs d) (h : d.step k = some v) : FlatRefs v := by
  cases d with
  | sc s => simp [P.step] at h
  | obj m => exact flatFields_iff.1 hs _ (GMap.get_some_mem h)
  | arr l =>
    simp only [P.step, Option.bind_eq_some_iff] at h
    obtain ⟨i, hi, h⟩ := h
    exact (flatList_iff.1 hs _ (List.mem_of_getElem? h)).2

theorem flat_at : ∀ {path : List Str} {d q : P}, FlatRefs d → d.at path = some q → FlatRefs q
  | [], d, q, hs, h => by simp only [P.at, Option.some.injEq] at h; exact h ▸ hs
  | k :: ks, d, q, hs, h => by
    obtain ⟨r, hr, hq⟩ := at_cons.1 h
    exact flat_at (flat_step hs hr) hq

theorem flat_setField {k : Str} {v : P} (hv : FlatRefs v) : ∀ {m : List (Str × P)}, FlatRefsFields m → FlatRefsFields (setField k v m)
  | [], _ => ⟨hv, trivial⟩
  | (k', w) :: t, h => by
    simp only [FlatRefsFields] at h
    simp only [setField]
    split
    · exact ⟨hv, h.2⟩
    · exact ⟨h.1, flat_setField hv h.2⟩

theorem flat_sibling {v : P} (h : FlatRefs v) : FlatRefs (siblingValue v) := by
  cases v with
  | sc s => cases s <;> trivial
  | arr l => exact h
  | obj l => exact h

theorem flat_overlay : ∀ {prior r : List (Str × P)}, FlatRefsFields prior → FlatRefsFields r → FlatRefsFields (overlay r prior)
  | [], _, _, h => h
  | (k, v) :: t, r, hp, h => by
    simp only [FlatRefsFields] at hp
    simp only [overlay]
    exact flat_overlay hp.2 (flat_setField (flat_sibling hp.1) h)

theorem flat_del {k : Str} : ∀ {m : List (Str × P)}, FlatRefsFields m → FlatRefsFields (delField k m)
  | [], _ => trivial
  | (k', w) :: t, h => by
    simp only [FlatRefsFields] at h
    simp only [delField]
    split
    · exact h.2
    · exact ⟨h.1, flat_del h.2⟩

/-- Replacing an object that has references by another one. -/
theorem flat_set {m o : List (Str × P)} (hm : allRefs (.obj m) ≠ []) (ho : FlatRefs (.obj o)) : ∀ {path : List Str} {d d' : P}, FlatRefs d → d.at path = some (.obj m) →
    P.set (.obj o) path d = some d' → FlatRefs d' ∧ ((∀ l, d ≠ .arr l) → ∀ l, d' ≠ .arr l)
  | [], d, d', _, hq, hs => by simp only [P.set, Option.some.injEq] at hs; subst hs; exact ⟨ho, fun _ _ => by simp⟩
  | k :: ks, d, d', hd, hq, hs => by
    obtain ⟨r, hr, hq2⟩ := at_cons.1 hq
    rw [set_cons hr, Option.map_eq_some_iff] at hs
    obtain ⟨r', h1, rfl⟩ := hs
    have hrr := flat_set hm ho (flat_step hd hr) hq2 h1
    cases d with
    | sc s => simp [P.step] at hr
    | obj n => exact ⟨flat_setField hrr.1 hd, fun _ _ => by simp [P.put]⟩
    | arr l =>
      refine ⟨?_, fun h => absurd rfl (h l)⟩
      simp only [P.step, Option.bind_eq_some_iff] at hr
      obtain ⟨i, hi, hl⟩ := hr
      simp only [P.put, hi]
      have hd' := flatList_iff.1 hd
      have hne : allRefs r ≠ [] := by
        intro h0
        have : ∀ s, s ∉ allRefs (.obj m) := by
          intro s hs
          have := mem_allRefs_at (compound_obj m) hq2 hs
          rw [h0] at this
          simp at this
        exact hm (List.eq_nil_iff_forall_not_mem.2 this)
      have hnoarr : ∀ l', r ≠ .arr l' := by
        rintro l' rfl
        exact hne ((hd' _ (List.mem_of_getElem? hl)).1 l' rfl)
      refine flatList_iff.2 fun p hp => ?_
      rcases List.mem_or_eq_of_mem_set hp with h | rfl
      · exact hd' p h
      · exact ⟨fun l' hl' => absurd hl' (hrr.2 hnoarr l'), hrr.1⟩

/-! ### One reference -/

/-- An answer from another file has no references. -/
def Tame (a : Res P) : Prop := ∀ p, a = .ok p → Clean p

theorem flat_resolved {w : World} {schemaPath ref : Str} {d r0 : P} (hload : ∀ p q, w.load p = .ok q → Clean q) (hhttp : ∀ p q, w.http p = .ok q → Clean q) (hd : FlatRefs d)
    (h : resolveRef w schemaPath ref d = .ok r0) : ∃ r, r0 = .obj r ∧ FlatRefsFields r := by
  obtain ⟨f, keys, hp, _⟩ := C49_total ref
  obtain ⟨source, m, hsrc, hat, rfl⟩ := (C49 w schemaPath ref f keys d r0 hp).1 h
  have hs : FlatRefs source := by
    cases hsrc with
    | here => exact hd
    | http _ _ h1 => exact flat_of_none _ (hhttp _ _ h1).1
    | self _ _ _ => exact hd
    | file _ _ _ _ h1 => exact flat_of_none _ (hload _ _ h1).1
  exact ⟨_, rfl, flat_setField (by trivial) (flat_at hs hat)⟩

/-- What is known of a document whose references are being replaced; `D` are the references of the file. -/
structure Doc (F : Files) (path : Str) (rk : Str → Nat) (D : List Str) (d : P) : Prop where
  tidy : Tidy d
  flat : FlatRefs d
  ranked : Ranked (F.world fun _ => .err) path rk d
  sub : ∀ s ∈ allRefs d, s ∈ D

theorem doc_step {F : Files} {path : Str} {rk : Str → Nat} {D : List Str} {d d' : P} {dest : List Str} {l : Str → Res P} (hnet : ∀ url p, F.http url = .ok p → Clean p)
    (hl : ∀ q, Tame (l q)) (hd : Doc F path rk D d) (h : derefOne (F.world l) path (dest ++ [refKey]) d = .ok d') :
    Doc F path rk D d' ∧ Multiset.IsDershowitzMannaLT (ranks rk d') (ranks rk d) := by
  have hset : Settled (F.world l) := ⟨fun p q h => ⟨(hl p q h).2, (hl p q h).1⟩, fun p q h => ⟨(hnet p q h).2, (hnet p q h).1⟩⟩
  have hr : Ranked (F.world l) path rk d := ⟨hd.ranked.lower, hd.ranked.way⟩
  obtain ⟨h1, h2, h3, h4⟩ := derefOne_less hset hd.tidy hr h
  refine ⟨⟨h1, ?_, ⟨h2.lower, h2.way⟩, fun s hs => hd.sub s (h4 s hs)⟩, h3⟩
  have h0 := h
  unfold derefOne at h
  rw [Res.bind_eq_ok] at h
  obtain ⟨ref, h1, h⟩ := h
  rw [Res.bind_eq_ok] at h
  obtain ⟨r0, h2, h⟩ := h
  obtain ⟨m, raw, hat, hraw, rfl⟩ := refString_ok h1
  have hm := flat_at hd.flat hat
  by_cases hdest : dest = []
  · subst hdest
    simp only [P.at, Option.some.injEq] at hat
    subst hat
    have := derefOne_root (w := F.world l) hraw h2
    rw [List.nil_append, this, Res.ok.injEq] at h0
    subst h0
    exact flat_del hm
  · obtain ⟨r, rfl, hr⟩ := flat_resolved (w := F.world l) (fun p q h => hl p q h) hnet hd.flat h2
    obtain ⟨d2, h5, h6⟩ := derefOne_eq hdest hat hraw h2
    rw [h5, Res.ok.injEq] at h0
    subst h0
    refine (flat_set ?_ (flat_overlay (flat_del hm) hr) hd.flat hat h6).1
    exact List.ne_nil_of_mem (mem_refs_of_get hraw)

theorem refSource_world {F : Files} {l1 l2 : Str → Res P} {path ref : Str} {d : P} (h : ∀ file, refLoads F path ref = some file → l1 file = l2 file) :
    refSource (F.world l1) path (splitRef ref).1 d = refSource (F.world l2) path (splitRef ref).1 d := by
  unfold refSource
  split
  · rfl
  · rename_i h0
    split
    · rfl
    · rename_i h1
      simp only [Files.world]
      rcases ha : F.absRef path (splitRef ref).1 with p | _ | _
      · simp only
        split
        · rfl
        · rename_i h2
          refine h p ?_
          unfold refLoads
          rw [if_neg h0, if_neg h1, ha]
          simp only [if_neg h2]
      · rfl
      · rfl

theorem derefOne_world {F : Files} {l1 l2 : Str → Res P} {path : Str} {refPath : List Str} {d : P} (h : ∀ file, derefLoads F path refPath d = some file → l1 file = l2 file) :
    derefOne (F.world l1) path refPath d = derefOne (F.world l2) path refPath d := by
  unfold derefOne
  rcases hr : refString refPath d with ref | _ | _
  · have : resolveRef (F.world l1) path ref d = resolveRef (F.world l2) path ref d := by
      unfold resolveRef
      rw [refSource_world (l1 := l1) (l2 := l2)]
      · rfl
      · intro file hf
        refine h file ?_
        unfold derefLoads
        rw [hr]
        exact hf
    show (resolveRef (F.world l1) path ref d).bind _ = (resolveRef (F.world l2) path ref d).bind _
    rw [this]
  · rfl
  · rfl

theorem refLoads_iff {F : Files} {path ref file : Str} : refLoads F path ref = some file ↔ LeadsTo F path ref file := by
  obtain ⟨f, keys, hp, hu⟩ := C49_total ref
  have h1 := (splitRef_keys hp).1
  unfold refLoads LeadsTo hasPrefix
  rw [h1]
  constructor
  · intro h
    split at h
    · simp at h
    · rename_i h0
      split at h
      · simp at h
      · rename_i h2
        rcases ha : F.absRef path f with p | _ | _
        · rw [ha] at h
          simp only at h
          split at h
          · simp at h
          · rename_i h3
            injection h with h
            subst h
            exact ⟨f, keys, hp, h0, by simpa using h2, ha, fun h => h3 h.symm⟩
        · rw [ha] at h; simp at h
        · rw [ha] at h; simp at h
  · rintro ⟨f', keys', hp', h2, h3, h4, h5⟩
    obtain ⟨rfl, _⟩ := hu f' keys' hp'
    rw [if_neg h2, if_neg (by simpa using h3), h4]
    simp only
    rw [if_neg fun h => h5 h.symm]

/-- The file that is loaded for a reference is one the file refers to. -/
theorem derefLoads_mem {F : Files} {path file : Str} {dest : List Str} {d : P} (h : derefLoads F path (dest ++ [refKey]) d = some file) : ∃ ref ∈ allRefs d, LeadsTo F path ref file := by
  unfold derefLoads at h
  split at h
  · rename_i ref hr
    obtain ⟨m, raw, hat, hraw, rfl⟩ := refString_ok hr
    exact ⟨_, mem_allRefs_at (compound_obj m) hat (mem_refs_of_get hraw), refLoads_iff.1 h⟩
  · simp at h

end Loading

end JT
