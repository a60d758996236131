import Mathlib.Data.Multiset.DershowitzManna
import Verif.Props.C40
/- C41: dereferencing terminates for documents whose references are not circular, and does not in general. -/
namespace JT.Spec

mutual
/-- All references in a document, anywhere. -/
def allRefs : P → List Str
  | .sc _ => []
  | .arr l => allRefsList l
  | .obj m => allRefsFields m
def allRefsList : List P → List Str
  | [] => []
  | p :: t => allRefs p ++ allRefsList t
def allRefsFields : List (Str × P) → List Str
  | [] => []
  | (k, v) :: t => allRefsField k v ++ allRefsFields t
def allRefsField (k : Str) : P → List Str
  | .sc (.str raw) => if k = g!"$ref" then [unescStr raw] else []
  | .sc _ => []
  | .arr l => allRefsList l
  | .obj m => allRefsFields m
end

/-- The object has a reference. -/
def IsRef (d : P) : Prop := ∃ m raw, d = .obj m ∧ GMap.get g!"$ref" m = some (.sc (.str raw))

/-- A reference into the document itself, which is at `schemaPath`. -/
def LocalRef (w : World) (schemaPath ref : Str) (keys : List Str) : Prop :=
  ∃ f, RefParts ref f keys ∧ (f = [] ∨ (¬ g!"http" <+: f ∧ w.absRef schemaPath f = .ok schemaPath))

/-- The references of a document are not circular: they have ranks such that every reference to a part of the document has a higher rank than the references in
that part, and the way to that part does not lead through an object that is to be replaced. -/
structure Ranked (w : World) (schemaPath : Str) (rank : Str → Nat) (d : P) : Prop where
  lower : ∀ ref ∈ allRefs d, ∀ keys m, LocalRef w schemaPath ref keys → d.at keys = some (.obj m) → ∀ ref' ∈ allRefs (.obj m), rank ref' < rank ref
  way : ∀ ref ∈ allRefs d, ∀ keys, LocalRef w schemaPath ref keys → ∀ pre post q, keys = pre ++ post → pre ≠ [] → post ≠ [] → d.at pre = some q → ¬ IsRef q

/-- What comes from other files and from the network is well-formed and has no references any more. -/
def Settled (w : World) : Prop :=
  (∀ path p, w.load path = .ok p → Tidy p ∧ allRefs p = []) ∧ ∀ url p, w.http url = .ok p → Tidy p ∧ allRefs p = []

end JT.Spec

namespace JT.Ref
open JT JT.Spec

/-! Replacing an object: what is seen elsewhere. -/

theorem set_cases {v : P} : ∀ {dest : List Str} {d d' q : P}, d.at dest = some q → P.set v dest d = some d' → ∀ T : List Str,
    d'.at T = d.at T ∨ (∃ t rest t', d.at T = some t ∧ t.at rest = some q ∧ P.set v rest t = some t' ∧ d'.at T = some t') ∨
      ∃ pre post, T = pre ++ post ∧ post ≠ [] ∧ pre.length = dest.length ∧ d.at pre = some q
  | [], d, d', q, hq, hs, T => by
    simp only [P.at, Option.some.injEq] at hq
    simp only [P.set, Option.some.injEq] at hs
    subst hq hs
    rcases T with _ | ⟨a, as⟩
    · exact Or.inr (Or.inl ⟨d, [], v, rfl, rfl, rfl, rfl⟩)
    · exact Or.inr (Or.inr ⟨[], a :: as, rfl, by simp, rfl, rfl⟩)
  | k :: ks, d, d', q, hq, hs, [] => Or.inr (Or.inl ⟨d, k :: ks, d', rfl, hq, hs, rfl⟩)
  | k :: ks, d, d', q, hq, hs, a :: as => by
    obtain ⟨r, hr, hq2⟩ := at_cons.1 hq
    rw [set_cons hr, Option.map_eq_some_iff] at hs
    obtain ⟨r', h1, rfl⟩ := hs
    have key : (d.put k r').step a = d.step a ∨ (d.step a = some r ∧ (d.put k r').step a = some r') := by
      cases d with
      | sc s => simp [P.step] at hr
      | obj m =>
        by_cases ha : a = k
        · subst ha; exact Or.inr ⟨hr, step_put_self hr⟩
        · exact Or.inl (step_put_ne (Or.inl ⟨m, rfl, ha⟩))
      | arr l =>
        by_cases ha : arrIndex a = arrIndex k
        · right
          have h2 := step_put_self (v := r') hr
          simp only [P.step] at hr ⊢
          rw [ha]
          refine ⟨hr, ?_⟩
          rcases hk : arrIndex k with _ | i
          · rw [hk] at hr; simp at hr
          · rw [hk] at hr
            simp only [P.put, hk, Option.bind_some] at hr ⊢
            rw [List.getElem?_set_self (List.getElem?_eq_some_iff.1 hr).1]
        · exact Or.inl (step_put_ne (Or.inr ⟨l, rfl, ha⟩))
    simp only [P.at]
    rcases key with h | ⟨h2, h3⟩
    · left; rw [h]
    · rw [h2, h3]
      simp only [Option.bind_some]
      rcases set_cases hq2 h1 as with h | ⟨t, rest, t', ha, hb, hc, hd⟩ | ⟨pre, post, ha, hb, hc, hd⟩
      · exact Or.inl h
      · exact Or.inr (Or.inl ⟨t, rest, t', ha, hb, hc, hd⟩)
      · refine Or.inr (Or.inr ⟨a :: pre, post, by rw [ha]; rfl, hb, by simp [hc], ?_⟩)
        simp only [P.at, h2, Option.bind_some, hd]

theorem set_at {v : P} {path : List Str} {p p' q : P} (h : p.at path = some q) (hs : P.set v path p = some p') : p'.at path = some v := by
  obtain ⟨x, h1, h2⟩ := set_some v h
  rw [hs] at h1
  injection h1 with h1
  rw [h1]
  exact h2

/-! Counting references. -/

theorem allRefsField_other {k : Str} {v : P} (h : ∀ raw, v ≠ .sc (.str raw)) : allRefsField k v = allRefs v := by
  cases v with
  | sc s => cases s <;> first | rfl | exact absurd rfl (h _)
  | arr l => rfl
  | obj l => rfl

/-- A value with parts. -/
def Compound (v : P) : Prop := ∀ s, v ≠ .sc s

theorem Compound.str {v : P} (h : Compound v) : ∀ raw, v ≠ .sc (.str raw) := fun _ => h _

theorem fields_context {k : Str} {v v' : P} (hv : Compound v) (hv' : Compound v') : ∀ {m : List (Str × P)}, GMap.get k m = some v →
    ∃ C : Multiset Str, (allRefsFields m : Multiset Str) = C + (allRefs v : Multiset Str) ∧ (allRefsFields (setField k v' m) : Multiset Str) = C + (allRefs v' : Multiset Str)
  | [], h => by simp [GMap.get] at h
  | (k', w) :: t, h => by
    simp only [GMap.get] at h
    by_cases hk : k = k'
    · subst hk
      simp only [if_true, Option.some.injEq] at h
      subst h
      refine ⟨(allRefsFields t : Multiset Str), ?_, ?_⟩
      · simp only [allRefsFields]
        rw [← Multiset.coe_add, allRefsField_other hv.str, add_comm]
      · simp only [setField, if_true, allRefsFields]
        rw [← Multiset.coe_add, allRefsField_other hv'.str, add_comm]
    · rw [if_neg hk] at h
      obtain ⟨C, h1, h2⟩ := fields_context hv hv' h
      refine ⟨(allRefsField k' w : Multiset Str) + C, ?_, ?_⟩
      · simp only [allRefsFields]
        rw [← Multiset.coe_add, h1, add_assoc]
      · simp only [setField, if_neg hk, allRefsFields]
        rw [← Multiset.coe_add, h2, add_assoc]

theorem list_context {v v' : P} : ∀ {l : List P} {i : Nat}, l[i]? = some v →
    ∃ C : Multiset Str, (allRefsList l : Multiset Str) = C + (allRefs v : Multiset Str) ∧ (allRefsList (l.set i v') : Multiset Str) = C + (allRefs v' : Multiset Str)
  | [], i, h => by simp at h
  | p :: t, 0, h => by
    simp only [List.getElem?_cons_zero, Option.some.injEq] at h
    subst h
    refine ⟨(allRefsList t : Multiset Str), ?_, ?_⟩
    · simp only [allRefsList]; rw [← Multiset.coe_add, add_comm]
    · simp only [List.set_cons_zero, allRefsList]; rw [← Multiset.coe_add, add_comm]
  | p :: t, i + 1, h => by
    simp only [List.getElem?_cons_succ] at h
    obtain ⟨C, h1, h2⟩ := list_context (v' := v') h
    refine ⟨(allRefs p : Multiset Str) + C, ?_, ?_⟩
    · simp only [allRefsList]; rw [← Multiset.coe_add, h1, add_assoc]
    · simp only [List.set_cons_succ, allRefsList]; rw [← Multiset.coe_add, h2, add_assoc]

theorem put_context {k : Str} {v v' d : P} (hv : Compound v) (hv' : Compound v') (h : d.step k = some v) :
    ∃ C : Multiset Str, (allRefs d : Multiset Str) = C + (allRefs v : Multiset Str) ∧ (allRefs (d.put k v') : Multiset Str) = C + (allRefs v' : Multiset Str) := by
  cases d with
  | sc s => simp [P.step] at h
  | obj m => exact fields_context hv hv' h
  | arr l =>
    simp only [P.step, Option.bind_eq_some_iff] at h
    obtain ⟨i, hi, h⟩ := h
    simp only [P.put, hi, allRefs]
    exact list_context h

theorem put_compound {k : Str} {v v' d : P} (h : d.step k = some v) : Compound (d.put k v') := by
  cases d with
  | sc s => simp [P.step] at h
  | obj m => intro s; simp [P.put]
  | arr l =>
    simp only [P.step, Option.bind_eq_some_iff] at h
    obtain ⟨i, hi, h⟩ := h
    intro s; simp [P.put, hi]

theorem step_compound {k : Str} {v d : P} (h : d.step k = some v) : Compound d := by
  cases d with
  | sc s => simp [P.step] at h
  | obj m => intro s; simp
  | arr l => intro s; simp

theorem set_context {v : P} (hv : Compound v) : ∀ {path : List Str} {d d' q : P}, Compound q → d.at path = some q → P.set v path d = some d' →
    Compound d ∧ Compound d' ∧
    ∃ C : Multiset Str, (allRefs d : Multiset Str) = C + (allRefs q : Multiset Str) ∧ (allRefs d' : Multiset Str) = C + (allRefs v : Multiset Str)
  | [], d, d', q, hqc, hq, hs => by
    simp only [P.at, Option.some.injEq] at hq
    simp only [P.set, Option.some.injEq] at hs
    subst hq hs
    exact ⟨hqc, hv, 0, by simp, by simp⟩
  | k :: ks, d, d', q, hqc, hq, hs => by
    obtain ⟨r, hr, hq2⟩ := at_cons.1 hq
    rw [set_cons hr, Option.map_eq_some_iff] at hs
    obtain ⟨r', h1, rfl⟩ := hs
    obtain ⟨hc1, hc2, C, h2, h3⟩ := set_context hv hqc hq2 h1
    obtain ⟨C', h4, h5⟩ := put_context hc1 hc2 hr
    exact ⟨step_compound hr, put_compound hr, C' + C, by rw [h4, h2, add_assoc], by rw [h5, h3, add_assoc]⟩

theorem allRefs_at {d q : P} (hc : Compound q) {path : List Str} (h : d.at path = some q) : (allRefs q : Multiset Str) ≤ (allRefs d : Multiset Str) := by
  obtain ⟨d', hd', _⟩ := set_some q h
  obtain ⟨_, _, C, h1, _⟩ := set_context hc hc h hd'
  rw [h1]
  exact Multiset.le_add_left _ _

theorem mem_allRefs_at {d q : P} (hc : Compound q) {path : List Str} (h : d.at path = some q) {s : Str} (hs : s ∈ allRefs q) : s ∈ allRefs d :=
  Multiset.mem_coe.1 (Multiset.mem_of_le (allRefs_at hc h) (Multiset.mem_coe.2 hs))

theorem del_count {raw : Str} : ∀ {m : List (Str × P)}, GMap.get refKey m = some (.sc (.str raw)) →
    (allRefsFields m : Multiset Str) = (allRefsFields (delField refKey m) : Multiset Str) + {unescStr raw}
  | [], h => by simp [GMap.get] at h
  | (k', w) :: t, h => by
    simp only [GMap.get] at h
    by_cases hk : refKey = k'
    · subst hk
      simp only [if_true, Option.some.injEq] at h
      subst h
      simp only [allRefsFields, delField, if_true, allRefsField, refKey]
      rw [← Multiset.coe_add, add_comm]
      rfl
    · rw [if_neg hk] at h
      have ih := del_count h
      simp only [allRefsFields, delField, if_neg hk]
      rw [← Multiset.coe_add, ih, ← Multiset.coe_add, add_assoc]

theorem setField_count {k : Str} {v : P} : ∀ (m : List (Str × P)), (allRefsFields (setField k v m) : Multiset Str) ≤ (allRefsFields m : Multiset Str) + (allRefsField k v : Multiset Str)
  | [] => by simp [setField, allRefsFields]
  | (k', w) :: t => by
    simp only [setField]
    split
    · rename_i hk
      subst hk
      simp only [allRefsFields]
      rw [← Multiset.coe_add, ← Multiset.coe_add, add_comm (allRefsField k v : Multiset Str)]
      gcongr
      exact Multiset.le_add_left _ _
    · simp only [allRefsFields]
      rw [← Multiset.coe_add, ← Multiset.coe_add, add_assoc]
      gcongr
      exact setField_count t

theorem sibling_count {k : Str} (hk : k ≠ refKey) (v : P) : allRefsField k (siblingValue v) = allRefsField k v := by
  cases v with
  | sc s => cases s with
    | str raw => simp only [siblingValue, allRefsField]; rw [if_neg (by exact hk), if_neg (by exact hk)]
    | _ => rfl
  | arr l => rfl
  | obj l => rfl

theorem overlay_count : ∀ (prior r : List (Str × P)), (∀ kv ∈ prior, kv.1 ≠ refKey) →
    (allRefsFields (overlay r prior) : Multiset Str) ≤ (allRefsFields r : Multiset Str) + (allRefsFields prior : Multiset Str)
  | [], r, _ => by simp [overlay, allRefsFields]
  | (k, v) :: t, r, h => by
    simp only [overlay, allRefsFields]
    refine (overlay_count t _ fun kv hkv => h kv (List.mem_cons_of_mem _ hkv)).trans ?_
    rw [← Multiset.coe_add, ← add_assoc]
    gcongr
    rw [← sibling_count (h (k, v) List.mem_cons_self) v]
    exact setField_count r

/-! Well-formedness is kept. -/

theorem tidyFields_mem : ∀ {m : List (Str × P)} {k : Str} {v : P}, TidyFields m → (k, v) ∈ m → Tidy v
  | (k', v') :: t, k, v, h, hm => by
    simp only [TidyFields] at h
    simp only [List.mem_cons, Prod.mk.injEq] at hm
    rcases hm with ⟨_, rfl⟩ | hm
    · exact h.1
    · exact tidyFields_mem h.2 hm

theorem tidyList_mem : ∀ {l : List P} {v : P}, TidyList l → v ∈ l → Tidy v
  | p :: t, v, h, hm => by
    simp only [TidyList] at h
    simp only [List.mem_cons] at hm
    rcases hm with rfl | hm
    · exact h.1
    · exact tidyList_mem h.2 hm

theorem tidy_step {k : Str} {v d : P} (hs : Tidy d) (h : d.step k = some v) : Tidy v := by
  cases d with
  | sc s => simp [P.step] at h
  | obj m =>
    simp only [Tidy] at hs
    exact tidyFields_mem hs.2 (GMap.get_some_mem h)
  | arr l =>
    simp only [P.step, Option.bind_eq_some_iff] at h
    obtain ⟨i, hi, h⟩ := h
    simp only [Tidy] at hs
    exact tidyList_mem hs (List.mem_of_getElem? h)

theorem tidy_at : ∀ {path : List Str} {d q : P}, Tidy d → d.at path = some q → Tidy q
  | [], d, q, hs, h => by simp only [P.at, Option.some.injEq] at h; exact h ▸ hs
  | k :: ks, d, q, hs, h => by
    obtain ⟨r, hr, hq⟩ := at_cons.1 h
    exact tidy_at (tidy_step hs hr) hq

theorem keys_setField (k : Str) (v : P) : ∀ m : List (Str × P), (setField k v m).map Prod.fst = if k ∈ m.map Prod.fst then m.map Prod.fst else m.map Prod.fst ++ [k]
  | [] => by simp [setField]
  | (k', w) :: t => by
    simp only [setField]
    by_cases hk : k = k'
    · subst hk; simp
    · rw [if_neg hk]
      simp only [List.map_cons, keys_setField k v t, List.mem_cons, hk, false_or]
      split <;> simp

theorem tidyFields_setField {k : Str} {v : P} (hv : Tidy v) : ∀ {m : List (Str × P)}, TidyFields m → TidyFields (setField k v m)
  | [], _ => ⟨hv, trivial⟩
  | (k', w) :: t, h => by
    simp only [TidyFields] at h
    simp only [setField]
    split
    · exact ⟨hv, h.2⟩
    · exact ⟨h.1, tidyFields_setField hv h.2⟩

theorem tidy_setField {k : Str} {v : P} {m : List (Str × P)} (hv : Tidy v) (h : Tidy (.obj m)) : Tidy (.obj (setField k v m)) := by
  simp only [Tidy] at h ⊢
  refine ⟨?_, tidyFields_setField hv h.2⟩
  rw [keys_setField]
  split
  · exact h.1
  · rename_i hk
    rw [List.nodup_append]
    refine ⟨h.1, by simp, ?_⟩
    intro a ha b hb
    simp only [List.mem_singleton] at hb
    subst hb
    rintro rfl
    exact hk ha

theorem tidyList_set {v : P} (hv : Tidy v) : ∀ {l : List P} {i : Nat}, TidyList l → TidyList (l.set i v)
  | [], _, _ => trivial
  | p :: t, 0, h => by simp only [TidyList] at h; exact ⟨hv, h.2⟩
  | p :: t, i + 1, h => by simp only [TidyList] at h; exact ⟨h.1, tidyList_set hv h.2⟩

theorem tidy_put {k : Str} {v d : P} (hv : Tidy v) (hs : Tidy d) : Tidy (d.put k v) := by
  cases d with
  | sc s => exact hs
  | obj m => exact tidy_setField hv hs
  | arr l =>
    simp only [P.put]
    cases arrIndex k with
    | none => exact hs
    | some i =>
      simp only [Tidy] at hs ⊢
      exact tidyList_set hv hs

theorem tidy_set {v : P} (hv : Tidy v) : ∀ {path : List Str} {d d' q : P}, Tidy d → d.at path = some q → P.set v path d = some d' → Tidy d'
  | [], d, d', q, _, _, hs => by simp only [P.set, Option.some.injEq] at hs; exact hs ▸ hv
  | k :: ks, d, d', q, hd, hq, hs => by
    obtain ⟨r, hr, hq2⟩ := at_cons.1 hq
    rw [set_cons hr, Option.map_eq_some_iff] at hs
    obtain ⟨r', h1, rfl⟩ := hs
    exact tidy_put (tidy_set hv (tidy_step hd hr) hq2 h1) hd

theorem tidy_sibling {v : P} (h : Tidy v) : Tidy (siblingValue v) := by
  cases v with
  | sc s => cases s <;> trivial
  | arr l => exact h
  | obj l => exact h

theorem tidy_overlay : ∀ {prior r : List (Str × P)}, TidyFields prior → Tidy (.obj r) → Tidy (.obj (overlay r prior))
  | [], _, _, h => h
  | (k, v) :: t, r, hp, h => by
    simp only [TidyFields] at hp
    simp only [overlay]
    exact tidy_overlay hp.2 (tidy_setField (tidy_sibling hp.1) h)

theorem tidy_del {k : Str} {m : List (Str × P)} (h : Tidy (.obj m)) : Tidy (.obj (delField k m)) := by
  simp only [Tidy] at h ⊢
  refine ⟨nodup_delField h.1, ?_⟩
  have : ∀ {m : List (Str × P)}, TidyFields m → TidyFields (delField k m) := by
    intro m
    induction m with
    | nil => intro _; trivial
    | cons x t ih =>
      obtain ⟨k', v⟩ := x
      intro h
      simp only [TidyFields] at h
      simp only [delField]
      split
      · exact h.2
      · exact ⟨h.1, ih h.2⟩
  exact this h.2

/-! One step. -/

theorem resolved_facts {w : World} {schemaPath ref : Str} {rank : Str → Nat} {d r0 : P} (hset : Settled w) (hs : Tidy d) (hr : Ranked w schemaPath rank d)
    (href : ref ∈ allRefs d) (h : resolveRef w schemaPath ref d = .ok r0) :
    ∃ r, r0 = .obj r ∧ Tidy (.obj r) ∧ ∀ s ∈ allRefsFields r, s ∈ allRefs d ∧ rank s < rank ref := by
  obtain ⟨f, keys, hp, _⟩ := C49_total ref
  obtain ⟨source, m, hsrc, hat, rfl⟩ := (C49 w schemaPath ref f keys d r0 hp).1 h
  have htidy : Tidy (.obj m) → Tidy (.obj (setField fromRefKey (.sc (.str (w.quote ref))) m)) := tidy_setField trivial
  have hsub : ∀ s ∈ allRefsFields (setField fromRefKey (.sc (.str (w.quote ref))) m), s ∈ allRefsFields m := by
    intro s hs
    have h1 := setField_count (k := fromRefKey) (v := .sc (.str (w.quote ref))) m
    have h2 : allRefsField fromRefKey (.sc (.str (w.quote ref))) = [] := by
      simp only [allRefsField]; rw [if_neg (by decide)]
    rw [h2] at h1
    simp only [Multiset.coe_nil, add_zero] at h1
    exact Multiset.mem_coe.1 (Multiset.mem_of_le h1 (Multiset.mem_coe.2 hs))
  have hobj : Compound (.obj m) := by intro s; simp
  have loc : (LocalRef w schemaPath ref keys) → source = d → ∃ r, P.obj (setField fromRefKey (.sc (.str (w.quote ref))) m) = .obj r ∧ Tidy (.obj r) ∧
      ∀ s ∈ allRefsFields r, s ∈ allRefs d ∧ rank s < rank ref := by
    rintro hl rfl
    refine ⟨_, rfl, htidy (tidy_at hs hat), fun s hs' => ?_⟩
    have hm := hsub s hs'
    exact ⟨mem_allRefs_at hobj hat hm, hr.lower ref href keys m hl hat s hm⟩
  have ext : Tidy source ∧ allRefs source = [] → ∃ r, P.obj (setField fromRefKey (.sc (.str (w.quote ref))) m) = .obj r ∧ Tidy (.obj r) ∧
      ∀ s ∈ allRefsFields r, s ∈ allRefs d ∧ rank s < rank ref := by
    rintro ⟨h1, h2⟩
    refine ⟨_, rfl, htidy (tidy_at h1 hat), fun s hs' => ?_⟩
    have := mem_allRefs_at (s := s) hobj hat (hsub s hs')
    rw [h2] at this
    simp at this
  cases hsrc with
  | here => exact loc ⟨[], hp, Or.inl rfl⟩ rfl
  | http _ _ h1 => exact ext (hset.2 _ _ h1)
  | self h0 h1 h2 => exact loc ⟨f, hp, Or.inr ⟨h1, h2⟩⟩ rfl
  | file _ _ _ _ h1 => exact ext (hset.1 _ _ h1)

theorem refString_ok {dest : List Str} {d : P} {ref : Str} (h : refString (dest ++ [refKey]) d = .ok ref) :
    ∃ m raw, d.at dest = some (.obj m) ∧ GMap.get refKey m = some (.sc (.str raw)) ∧ ref = unescStr raw := by
  unfold refString at h
  split at h
  · rename_i raw he
    rw [at_append, Option.bind_eq_some_iff] at he
    obtain ⟨x, hx, he⟩ := he
    obtain ⟨y, hy, he⟩ := at_cons.1 he
    simp only [P.at, Option.some.injEq] at he
    subst he
    simp only [Res.ok.injEq] at h
    cases x with
    | sc s => simp [P.step] at hy
    | obj m => exact ⟨m, raw, hx, hy, h.symm⟩
    | arr l =>
      simp only [P.step, Option.bind_eq_some_iff] at hy
      obtain ⟨i, hi, _⟩ := hy
      have : arrIndex refKey = none := by decide
      rw [this] at hi
      simp at hi
  · simp at h

/-- The measure. -/
def ranks (rank : Str → Nat) (d : P) : Multiset Nat := (allRefs d : Multiset Str).map rank

theorem dm_lt {rank : Str → Nat} {M X Y Z : Multiset Str} {z : Str} (hM : M ≤ X + Y) (hN : Z = X + {z}) (hY : ∀ y ∈ Y, rank y < rank z) :
    Multiset.IsDershowitzMannaLT (M.map rank) (Z.map rank) := by
  refine ⟨(M ∩ X).map rank, (M - X).map rank, (X - M).map rank + {rank z}, ?_, ?_, ?_, ?_⟩
  · simp
  · rw [← Multiset.map_add, add_comm, Multiset.sub_add_inter]
  · rw [hN, ← add_assoc, ← Multiset.map_add, Multiset.map_add, Multiset.map_singleton, Multiset.inter_comm, add_comm (X ∩ M), Multiset.sub_add_inter]
  · intro y hy
    obtain ⟨x, hx, rfl⟩ := Multiset.mem_map.1 hy
    refine ⟨rank z, by simp, hY x ?_⟩
    have : M - X ≤ Y := by
      rw [tsub_le_iff_left]
      exact hM
    exact Multiset.mem_of_le this hx

theorem compound_obj (m : List (Str × P)) : Compound (.obj m) := by intro s; simp

theorem mem_refs_of_get {m : List (Str × P)} {raw : Str} (h : GMap.get refKey m = some (.sc (.str raw))) : unescStr raw ∈ allRefsFields m := by
  rw [← Multiset.mem_coe, del_count h]
  simp

/-- A value that is an object after a replacement inside was one before. -/
theorem set_obj {v t : P} {m m1 : List (Str × P)} {rest : List Str} (h : t.at rest = some (.obj m)) (hs : P.set v rest t = some (.obj m1)) : ∃ mt, t = .obj mt := by
  rcases rest with _ | ⟨k, ks⟩
  · simp only [P.at, Option.some.injEq] at h; exact ⟨m, h⟩
  · obtain ⟨r, hr, _⟩ := at_cons.1 h
    rw [set_cons hr, Option.map_eq_some_iff] at hs
    obtain ⟨r', _, h2⟩ := hs
    cases t with
    | sc s => simp [P.step] at hr
    | obj mt => exact ⟨mt, rfl⟩
    | arr l =>
      simp only [P.put] at h2
      rcases h3 : arrIndex k with _ | i <;> simp [h3] at h2

theorem ranked_set {w : World} {schemaPath raw : Str} {rank : Str → Nat} {d d' : P} {dest : List Str} {m o : List (Str × P)} (hd : dest ≠ [])
    (hat : d.at dest = some (.obj m)) (hraw : GMap.get refKey m = some (.sc (.str raw))) (hs : P.set (.obj o) dest d = some d')
    (ho : ∀ s ∈ allRefsFields o, s ∈ allRefs d ∧ (rank s < rank (unescStr raw) ∨ s ∈ allRefsFields m)) (hr : Ranked w schemaPath rank d) :
    Ranked w schemaPath rank d' := by
  have hisref : IsRef (.obj m) := ⟨m, raw, rfl, hraw⟩
  have hsub : ∀ s ∈ allRefs d', s ∈ allRefs d := by
    intro s hs'
    obtain ⟨_, _, C, h1, h2⟩ := set_context (compound_obj o) (compound_obj m) hat hs
    rw [← Multiset.mem_coe, h2, Multiset.mem_add] at hs'
    rcases hs' with h | h
    · rw [← Multiset.mem_coe, h1, Multiset.mem_add]; exact Or.inl h
    · exact (ho s (Multiset.mem_coe.1 h)).1
  have hdl : 0 < dest.length := List.length_pos_iff.2 hd
  constructor
  · intro ref href keys m1 hl hk ref' href'
    have href0 := hsub ref href
    rcases set_cases hat hs keys with h | ⟨t, rest, t', ha, hb, hc, hd'⟩ | ⟨pre, post, h1, h2, h3, h4⟩
    · rw [h] at hk
      exact hr.lower ref href0 keys m1 hl hk ref' href'
    · rw [hd', Option.some.injEq] at hk
      subst hk
      obtain ⟨mt, rfl⟩ := set_obj hb hc
      have hlow := hr.lower ref href0 keys mt hl ha
      obtain ⟨_, _, C, h1, h2⟩ := set_context (compound_obj o) (compound_obj m) hb hc
      rw [← Multiset.mem_coe, h2, Multiset.mem_add] at href'
      have hin : ∀ s ∈ allRefsFields m, s ∈ allRefs (.obj mt) := fun s hs => mem_allRefs_at (compound_obj m) hb hs
      rcases href' with h | h
      · refine hlow ref' ?_
        rw [← Multiset.mem_coe, h1, Multiset.mem_add]
        exact Or.inl h
      · rcases (ho ref' (Multiset.mem_coe.1 h)).2 with h | h
        · exact Nat.lt_trans h (hlow _ (hin _ (mem_refs_of_get hraw)))
        · exact hlow _ (hin _ h)
    · exact absurd hisref (hr.way ref href0 keys hl pre post _ h1 (by rintro rfl; simp at h3; omega) h2 h4)
  · intro ref href keys hl pre post q hk hpre hpost hq
    have href0 := hsub ref href
    have hway := hr.way ref href0 keys hl
    rcases set_cases hat hs pre with h | ⟨t, rest, t', ha, hb, hc, hd'⟩ | ⟨pre', post', h1, h2, h3, h4⟩
    · rw [h] at hq
      exact hway pre post q hk hpre hpost hq
    · rw [hd', Option.some.injEq] at hq
      subst hq
      rintro ⟨m1, raw1, rfl, hg⟩
      have hnot := hway pre post t hk hpre hpost ha
      rcases rest with _ | ⟨k, ks⟩
      · simp only [P.at, Option.some.injEq] at hb
        subst hb
        exact hnot hisref
      · obtain ⟨r, hr1, hr2⟩ := at_cons.1 hb
        obtain ⟨mt, rfl⟩ := set_obj hb hc
        rw [set_cons hr1, Option.map_eq_some_iff] at hc
        obtain ⟨r', hc1, hc2⟩ := hc
        simp only [P.put, P.obj.injEq] at hc2
        subst hc2
        change GMap.get refKey _ = _ at hg
        by_cases hkk : k = refKey
        · subst hkk
          rw [get_setField_self] at hg
          injection hg with hg
          subst hg
          exact (set_context (compound_obj o) (compound_obj m) hr2 hc1).2.1 _ rfl
        · rw [get_setField_ne (fun e => hkk e.symm)] at hg
          exact hnot ⟨mt, raw1, rfl, hg⟩
    · exact absurd hisref (hway pre' (post' ++ post) _ (by rw [hk, h1, List.append_assoc]) (by rintro rfl; simp at h3; omega) (by simp [h2]) h4)

theorem at_del_root {m : List (Str × P)} {raw : Str} {T : List Str} {q : P} (hT : T ≠ []) (hm : (m.map Prod.fst).Nodup)
    (h : (P.obj (delField refKey m)).at T = some q) : (P.obj m).at T = some q := by
  rcases T with _ | ⟨k, ks⟩
  · exact absurd rfl hT
  · obtain ⟨r, hr, hq⟩ := at_cons.1 h
    refine at_cons.2 ⟨r, ?_, hq⟩
    simp only [P.step] at hr ⊢
    by_cases hk : k = refKey
    · subst hk
      rw [get_delField_self hm] at hr
      simp at hr
    · rwa [get_delField_ne hk] at hr

theorem ranked_root {w : World} {schemaPath raw : Str} {rank : Str → Nat} {m : List (Str × P)} (hm : (m.map Prod.fst).Nodup)
    (hraw : GMap.get refKey m = some (.sc (.str raw))) (hr : Ranked w schemaPath rank (.obj m)) : Ranked w schemaPath rank (.obj (delField refKey m)) := by
  have hsub : ∀ s ∈ allRefsFields (delField refKey m), s ∈ allRefsFields m := by
    intro s hs
    rw [← Multiset.mem_coe, del_count hraw, Multiset.mem_add]
    exact Or.inl (Multiset.mem_coe.2 hs)
  constructor
  · intro ref href keys m1 hl hk ref' href'
    by_cases hT : keys = []
    · subst hT
      simp only [P.at, Option.some.injEq, P.obj.injEq] at hk
      subst hk
      exact hr.lower ref (hsub _ href) [] m hl rfl ref' (hsub _ href')
    · exact hr.lower ref (hsub _ href) keys m1 hl (at_del_root (raw := raw) hT hm hk) ref' href'
  · intro ref href keys hl pre post q hk hpre hpost hq
    exact hr.way ref (hsub _ href) keys hl pre post q hk hpre hpost (at_del_root (raw := raw) hpre hm hq)

/-- Resolving one reference keeps the document ranked and makes the measure smaller. -/
theorem derefOne_less {w : World} {schemaPath : Str} {rank : Str → Nat} {dest : List Str} {d d' : P} (hset : Settled w) (hs : Tidy d) (hr : Ranked w schemaPath rank d)
    (h : derefOne w schemaPath (dest ++ [refKey]) d = .ok d') :
    Tidy d' ∧ Ranked w schemaPath rank d' ∧ Multiset.IsDershowitzMannaLT (ranks rank d') (ranks rank d) ∧ ∀ s ∈ allRefs d', s ∈ allRefs d := by
  have h0 := h
  unfold derefOne at h
  rw [Res.bind_eq_ok] at h
  obtain ⟨ref, h1, h⟩ := h
  rw [Res.bind_eq_ok] at h
  obtain ⟨r0, h2, h⟩ := h
  obtain ⟨m, raw, hat, hraw, rfl⟩ := refString_ok h1
  have hms := tidy_at hs hat
  have hm : (m.map Prod.fst).Nodup := by simp only [Tidy] at hms; exact hms.1
  have hmem : unescStr raw ∈ allRefs d := mem_allRefs_at (compound_obj m) hat (mem_refs_of_get hraw)
  by_cases hd : dest = []
  · subst hd
    simp only [P.at, Option.some.injEq] at hat
    subst hat
    have := derefOne_root (w := w) hraw h2
    rw [List.nil_append, this, Res.ok.injEq] at h0
    subst h0
    refine ⟨tidy_del hs, ranked_root hm hraw hr, ?_, ?_⟩
    · exact dm_lt (X := (allRefsFields (delField refKey m) : Multiset Str)) (Y := 0) (by simp [allRefs]) (del_count hraw) (by simp)
    · intro s hs'
      simp only [allRefs] at hs' ⊢
      rw [← Multiset.mem_coe, del_count hraw, Multiset.mem_add]
      exact Or.inl (Multiset.mem_coe.2 hs')
  · obtain ⟨r, rfl, hrs, hrr⟩ := resolved_facts hset hs hr hmem h2
    obtain ⟨d2, h3, h4⟩ := derefOne_eq hd hat hraw h2
    rw [h3, Res.ok.injEq] at h0
    subst h0
    have hprior : ∀ kv ∈ delField refKey m, kv.1 ≠ refKey := by
      rintro ⟨k, v⟩ hkv rfl
      have := (GMap.get_none_iff).1 (get_delField_self (k := refKey) hm)
      exact this (List.mem_map.2 ⟨_, hkv, rfl⟩)
    have hcount := overlay_count (delField refKey m) r hprior
    have hdel := del_count hraw
    have hds := tidy_del (k := refKey) hms
    refine ⟨?_, ?_, ?_, ?_⟩
    · refine tidy_set (tidy_overlay ?_ hrs) hs hat h4
      simp only [Tidy] at hds
      exact hds.2
    · refine ranked_set hd hat hraw h4 ?_ hr
      intro s hs'
      have := Multiset.mem_of_le hcount (Multiset.mem_coe.2 hs')
      rw [Multiset.mem_add] at this
      rcases this with h | h
      · exact ⟨(hrr s (Multiset.mem_coe.1 h)).1, Or.inl (hrr s (Multiset.mem_coe.1 h)).2⟩
      · have hsm : s ∈ allRefsFields m := by
          rw [← Multiset.mem_coe, hdel, Multiset.mem_add]; exact Or.inl h
        exact ⟨mem_allRefs_at (compound_obj m) hat hsm, Or.inr hsm⟩
    · obtain ⟨_, _, C, h5, h6⟩ := set_context (compound_obj _) (compound_obj m) hat h4
      refine dm_lt (X := C + (allRefsFields (delField refKey m) : Multiset Str)) (Y := (allRefsFields r : Multiset Str)) (z := unescStr raw) ?_ ?_ ?_
      · rw [h6, add_assoc]
        gcongr
        rw [add_comm]
        exact hcount
      · rw [h5, add_assoc]
        congr 1
      · intro y hy
        exact (hrr y (Multiset.mem_coe.1 hy)).2
    · intro s hs'
      obtain ⟨_, _, C, h5, h6⟩ := set_context (compound_obj _) (compound_obj m) hat h4
      rw [← Multiset.mem_coe, h6, Multiset.mem_add] at hs'
      rcases hs' with h | h
      · rw [← Multiset.mem_coe, h5, Multiset.mem_add]; exact Or.inl h
      · have := Multiset.mem_of_le hcount h
        rw [Multiset.mem_add] at this
        rcases this with h | h
        · exact (hrr s (Multiset.mem_coe.1 h)).1
        · refine mem_allRefs_at (compound_obj m) hat ?_
          show s ∈ allRefsFields m
          rw [← Multiset.mem_coe, hdel, Multiset.mem_add]; exact Or.inl h

theorem pass_less {w : World} {schemaPath : Str} {rank : Str → Nat} (hset : Settled w) : ∀ (refs : List (List Str)) (d d' : P), (∀ p ∈ refs, ∃ dest, p = dest ++ [refKey]) →
    Tidy d → Ranked w schemaPath rank d → foldRes (derefOne w schemaPath) refs d = .ok d' →
    Tidy d' ∧ Ranked w schemaPath rank d' ∧ (refs = [] ∧ d' = d ∨ Multiset.IsDershowitzMannaLT (ranks rank d') (ranks rank d))
  | [], d, d', _, hs, hr, h => by
    simp only [foldRes, Res.ok.injEq] at h
    subst h
    exact ⟨hs, hr, Or.inl ⟨rfl, rfl⟩⟩
  | p :: ps, d, d', hp, hs, hr, h => by
    simp only [foldRes] at h
    obtain ⟨d1, h1, h2⟩ : ∃ d1, derefOne w schemaPath p d = .ok d1 ∧ foldRes (derefOne w schemaPath) ps d1 = .ok d' := by
      rcases hp1 : derefOne w schemaPath p d with d1 | _ | _ <;> simp only [hp1] at h
      · exact ⟨d1, rfl, h⟩
      · simp at h
      · simp at h
    obtain ⟨dest, rfl⟩ := hp p List.mem_cons_self
    obtain ⟨ha, hb, hc, _⟩ := derefOne_less hset hs hr h1
    obtain ⟨hd, he, hf⟩ := pass_less hset ps d1 d' (fun q hq => hp q (List.mem_cons_of_mem _ hq)) ha hb h2
    refine ⟨hd, he, Or.inr ?_⟩
    rcases hf with ⟨_, rfl⟩ | hf
    · exact hc
    · exact hf.trans hc

theorem refAt_last {d : P} {p : List Str} (h : RefAt d p) : ∃ dest, p = dest ++ [refKey] := by
  induction h with
  | here _ => exact ⟨[], rfl⟩
  | field _ _ ih => obtain ⟨d, rfl⟩ := ih; exact ⟨_ :: d, rfl⟩
  | elem _ _ _ ih => obtain ⟨d, rfl⟩ := ih; exact ⟨_ :: _ :: d, rfl⟩

theorem findRefs_last {d : P} {refs : List (List Str)} (h : findRefs d = some refs) : ∀ p ∈ refs, ∃ dest, p = dest ++ [refKey] := by
  cases d with
  | obj m =>
    simp only [findRefs, Option.some.injEq] at h
    subst h
    exact fun p hp => refAt_last ((mem_refsFields m p).1 hp)
  | sc s => simp [findRefs] at h
  | arr s => simp [findRefs] at h

end JT.Ref

namespace JT
open Spec

/-- C41 as one would like it: dereferencing terminates, whatever the references are. -/
def C41_statement : Prop := ∀ (w : World) (schemaPath : Str) (data : P), ∃ n r, dereference w schemaPath n data = some r

/-- **C41**, partial: dereferencing terminates for documents whose references are not circular. -/
theorem C41_partial (w : World) (schemaPath : Str) (rank : Str → Nat) (hset : Settled w) (data : P) (hs : Tidy data) (hr : Ranked w schemaPath rank data) :
    ∃ n r, dereference w schemaPath n data = some r := by
  generalize hM : Ref.ranks rank data = M
  induction M using (Multiset.wellFounded_isDershowitzMannaLT (α := Nat)).induction generalizing data with
  | _ M ih =>
    rcases hf : findRefs data with _ | refs
    · exact ⟨1, .err, by simp only [dereference, hf]⟩
    · rcases hp : foldRes (derefOne w schemaPath) refs data with data' | _ | _
      · rcases hf' : findRefs data' with _ | refs'
        · exact ⟨1, .err, by simp only [dereference, hf, hp, hf']⟩
        · rcases refs' with _ | ⟨p, ps⟩
          · exact ⟨1, .ok data', by simp only [dereference, hf, hp, hf']⟩
          · obtain ⟨h1, h2, h3⟩ := Ref.pass_less hset refs data data' (Ref.findRefs_last hf) hs hr hp
            rcases h3 with ⟨rfl, rfl⟩ | h3
            · rw [hf] at hf'; simp at hf'
            · obtain ⟨n, r, hn⟩ := ih _ (hM ▸ h3) data' h1 h2 rfl
              exact ⟨n + 1, r, by simp only [dereference, hf, hp, hf']; exact hn⟩
      · exact ⟨1, .err, by simp only [dereference, hf, hp]⟩
      · exact ⟨1, .panic, by simp only [dereference, hf, hp]⟩

/-! A checker for ranked documents without file parts, for examples. -/

/-- The keys of a local reference. -/
def localKeys (ref : Str) : List Str := if (splitRef ref).2 = [] then [] else splitC '/' (splitRef ref).2

def isRefB : P → Bool
  | .obj m => match GMap.get g!"$ref" m with
    | some (.sc (.str _)) => true
    | _ => false
  | _ => false

def rankedB (rank : Str → Nat) (d : P) : Bool :=
  (allRefs d).all fun ref => (match d.at (localKeys ref) with
    | some (.obj m) => (allRefs (.obj m)).all fun ref' => decide (rank ref' < rank ref)
    | _ => true) &&
    (List.range (localKeys ref).length).all fun i => i == 0 || match d.at ((localKeys ref).take i) with
      | some q => !isRefB q
      | none => true

theorem isRefB_of {q : P} (h : IsRef q) : isRefB q = true := by
  obtain ⟨m, raw, rfl, h⟩ := h
  simp [isRefB, h]

theorem rankedB_sound {w : World} {schemaPath : Str} {rank : Str → Nat} {d : P} (h : rankedB rank d = true) : Ranked w schemaPath rank d := by
  unfold rankedB at h
  rw [List.all_eq_true] at h
  have hk : ∀ ref keys, LocalRef w schemaPath ref keys → localKeys ref = keys := by
    rintro ref keys ⟨f, hp, _⟩
    unfold localKeys
    rcases (Ref.splitRef_keys hp).2 with ⟨a, b⟩ | ⟨a, b, c⟩
    · rw [if_pos b, a]
    · rw [if_neg b, c]
  constructor
  · intro ref href keys m hl hat ref' href'
    have h1 := h ref href
    rw [hk ref keys hl, hat, Bool.and_eq_true] at h1
    have := h1.1
    simp only [List.all_eq_true, decide_eq_true_eq] at this
    exact this ref' href'
  · intro ref href keys hl pre post q he hpre hpost hq hr
    have h1 := h ref href
    rw [hk ref keys hl, Bool.and_eq_true, List.all_eq_true] at h1
    have h2 := h1.2 pre.length (by rw [List.mem_range, he, List.length_append]; have := List.length_pos_iff.2 hpost; omega)
    rw [he, List.take_left, hq] at h2
    have h3 : (pre.length == 0) = false := by
      have := List.length_pos_iff.2 hpre
      simp only [beq_eq_false_iff_ne]; omega
    rw [h3] at h2
    simp [isRefB_of hr] at h2

namespace C41ex
open C40ex

/-- A property referring to a definition that refers to a second one, in the order that needs several passes. -/
def doc : P := .obj [(g!"properties", .obj [(g!"x", .obj [(g!"$ref", str g!"#/definitions/a")])]),
  (g!"definitions", .obj [(g!"a", .obj [(g!"items", .obj [(g!"$ref", str g!"#/definitions/b")])]),
    (g!"b", .obj [(g!"allOf", .arr [.obj [(g!"$ref", str g!"#/definitions/c")]])]), (g!"c", .obj [(g!"type", str g!"string")])])]

def rank (s : Str) : Nat := if s = g!"#/definitions/a" then 3 else if s = g!"#/definitions/b" then 2 else 1

theorem ranked : Ranked w [] rank doc := rankedB_sound (by decide +kernel)
theorem settled : Settled w := ⟨fun _ _ h => by simp [w] at h, fun _ _ h => by simp [w] at h⟩
example : ∃ n r, dereference w [] n doc = some r := C41_partial w [] rank settled doc (by simp [doc, Tidy, TidyFields, TidyList, str]) ranked
/-- It takes more than one pass. -/
example : dereference w [] 1 doc = none := by rfl
example : (dereference w [] 2 doc).isSome = true := by rfl

/-- A definition that is itself. -/
def loop : P := .obj [(g!"a", .obj [(g!"$ref", str g!"#/a")])]
def loop' : P := .obj [(g!"a", .obj [(g!"$ref", str g!"#/a"), (g!"fromRef", str g!"#/a")])]

theorem loop_step : derefOne w [] [g!"a", g!"$ref"] loop = .ok loop' := by rfl
theorem loop_step' : derefOne w [] [g!"a", g!"$ref"] loop' = .ok loop' := by rfl

theorem loop'_forever : ∀ n, dereference w [] n loop' = none
  | 0 => rfl
  | n + 1 => by
    have h1 : findRefs loop' = some [[g!"a", g!"$ref"]] := by rfl
    simp only [dereference, h1, foldRes, loop_step']
    exact loop'_forever n

theorem loop_forever : ∀ n, dereference w [] n loop = none
  | 0 => rfl
  | n + 1 => by
    have h1 : findRefs loop = some [[g!"a", g!"$ref"]] := by rfl
    have h2 : findRefs loop' = some [[g!"a", g!"$ref"]] := by rfl
    simp only [dereference, h1, foldRes, loop_step, h2]
    exact loop'_forever n

end C41ex

/-- C41 fails for circular references: no number of passes is enough, and there is no error either. -/
theorem C41_refuted : ¬ C41_statement := by
  intro h
  obtain ⟨n, r, hn⟩ := h C40ex.w [] C41ex.loop
  rw [C41ex.loop_forever n] at hn
  simp at hn

end JT
