import Verif.Model.Reference
import Verif.Spec.Ref
import Verif.Spec.Toy
import Verif.Proofs.MapMore
import Verif.Props.C34
/- C38, C39, C40, C42, C49: references in schema documents. -/
namespace JT.Ref
open JT JT.Spec

/-! ### C42 -/

theorem RefAt_iff {m : List (Str × P)} {p : List Str} : RefAt (.obj m) p ↔
    (∃ raw, (refKey, P.sc (.str raw)) ∈ m ∧ p = [refKey]) ∨ (∃ k m' q, (k, P.obj m') ∈ m ∧ RefAt (.obj m') q ∧ p = k :: q) ∨
      ∃ k l i m' q, (k, P.arr l) ∈ m ∧ l[i]? = some (.obj m') ∧ RefAt (.obj m') q ∧ p = k :: elemKey i :: q := by
  constructor
  · intro h
    generalize ho : P.obj m = o at h
    cases h with
    | here h => injection ho with ho; subst ho; exact Or.inl ⟨_, h, rfl⟩
    | field h h' => injection ho with ho; subst ho; exact Or.inr (Or.inl ⟨_, _, _, h, h', rfl⟩)
    | elem h h' h'' => injection ho with ho; subst ho; exact Or.inr (Or.inr ⟨_, _, _, _, _, h, h', h'', rfl⟩)
  · rintro (⟨raw, h, rfl⟩ | ⟨k, m', q, h, h', rfl⟩ | ⟨k, l, i, m', q, h, h', h'', rfl⟩)
    · exact .here h
    · exact .field h h'
    · exact .elem h h' h''

theorem RefAt_nil (p : List Str) : ¬ RefAt (.obj []) p := by
  rw [RefAt_iff]
  simp

theorem RefAt_cons {kv : Str × P} {t : List (Str × P)} {p : List Str} : RefAt (.obj (kv :: t)) p ↔ RefAt (.obj [kv]) p ∨ RefAt (.obj t) p := by
  constructor
  · rw [RefAt_iff]
    rintro (⟨raw, h, rfl⟩ | ⟨k, m', q, h, h', rfl⟩ | ⟨k, l, i, m', q, h, h', h'', rfl⟩) <;> simp only [List.mem_cons] at h <;> rcases h with rfl | h
    · exact Or.inl (.here (List.mem_singleton_self _))
    · exact Or.inr (.here h)
    · exact Or.inl (.field (List.mem_singleton_self _) h')
    · exact Or.inr (.field h h')
    · exact Or.inl (.elem (List.mem_singleton_self _) h' h'')
    · exact Or.inr (.elem h h' h'')
  · rintro (h | h) <;> rw [RefAt_iff] at h <;>
      rcases h with ⟨raw, h, rfl⟩ | ⟨k, m', q, h, h', rfl⟩ | ⟨k, l, i, m', q, h, h', h'', rfl⟩
    · exact .here (raw := raw) (by simp only [List.mem_singleton] at h; exact h ▸ List.mem_cons_self)
    · exact .field (by simp only [List.mem_singleton] at h; rw [h]; exact List.mem_cons_self) h'
    · exact .elem (by simp only [List.mem_singleton] at h; rw [h]; exact List.mem_cons_self) h' h''
    · exact .here (List.mem_cons_of_mem _ h)
    · exact .field (List.mem_cons_of_mem _ h) h'
    · exact .elem (List.mem_cons_of_mem _ h) h' h''

mutual
theorem mem_refsFields : ∀ (m : List (Str × P)) (p : List Str), p ∈ refsFields m ↔ RefAt (.obj m) p
  | [], p => by simp only [refsFields, List.not_mem_nil, false_iff]; exact RefAt_nil p
  | (k, v) :: t, p => by
    simp only [refsFields, List.mem_append]
    rw [RefAt_cons, mem_refsField k v p, mem_refsFields t p]
theorem mem_refsField : ∀ (k : Str) (v : P) (p : List Str), p ∈ refsField k v ↔ RefAt (.obj [(k, v)]) p
  | k, .sc s, p => by
    rw [RefAt_iff]
    cases s with
    | str raw =>
      simp only [refsField]
      by_cases hk : k = refKey
      · subst hk
        simp
      · simp only [hk, if_false, List.not_mem_nil, false_iff]
        rintro (⟨raw, h, rfl⟩ | ⟨k, m', q, h, h', rfl⟩ | ⟨k, l, i, m', q, h, h', h'', rfl⟩) <;> simp at h
        exact hk h.1.symm
    | _ =>
      simp only [refsField, List.not_mem_nil, false_iff]
      rintro (⟨raw, h, rfl⟩ | ⟨k, m', q, h, h', rfl⟩ | ⟨k, l, i, m', q, h, h', h'', rfl⟩) <;> simp at h
  | k, .obj m, p => by
    rw [RefAt_iff]
    simp only [refsField, List.mem_map]
    constructor
    · rintro ⟨q, hq, rfl⟩
      exact Or.inr (Or.inl ⟨k, m, q, by simp, (mem_refsFields m q).1 hq, rfl⟩)
    · rintro (⟨raw, h, rfl⟩ | ⟨k', m', q, h, h', rfl⟩ | ⟨k, l, i, m', q, h, h', h'', rfl⟩) <;> simp at h
      obtain ⟨rfl, rfl⟩ := h
      exact ⟨q, (mem_refsFields m' q).2 h', rfl⟩
  | k, .arr l, p => by
    rw [RefAt_iff]
    simp only [refsField, List.mem_map]
    constructor
    · rintro ⟨q, hq, rfl⟩
      obtain ⟨j, m', q', h1, rfl, h2⟩ := (mem_refsElems 0 l q).1 hq
      refine Or.inr (Or.inr ⟨k, l, j, m', q', by simp, h1, h2, by simp⟩)
    · rintro (⟨raw, h, rfl⟩ | ⟨k', m', q, h, h', rfl⟩ | ⟨k', l', i, m', q, h, h', h'', rfl⟩) <;> simp at h
      obtain ⟨rfl, rfl⟩ := h
      exact ⟨elemKey i :: q, (mem_refsElems 0 l' _).2 ⟨i, m', q, h', by simp, h''⟩, rfl⟩
theorem mem_refsElems : ∀ (i : Nat) (l : List P) (p : List Str), p ∈ refsElems i l ↔
    ∃ j m' q, l[j]? = some (P.obj m') ∧ p = elemKey (i + j) :: q ∧ RefAt (.obj m') q
  | i, [], p => by simp [refsElems]
  | i, .obj m :: t, p => by
    simp only [refsElems, List.mem_append, List.mem_map]
    rw [mem_refsElems (i + 1) t p]
    constructor
    · rintro (⟨q, hq, rfl⟩ | ⟨j, m', q, h1, rfl, h2⟩)
      · exact ⟨0, m, q, rfl, rfl, (mem_refsFields m q).1 hq⟩
      · exact ⟨j + 1, m', q, by simpa using h1, by rw [Nat.add_assoc, Nat.add_comm 1 j], h2⟩
    · rintro ⟨j, m', q, h1, rfl, h2⟩
      rcases j with _ | j
      · simp only [List.getElem?_cons_zero, Option.some.injEq, P.obj.injEq] at h1
        subst h1
        exact Or.inl ⟨q, (mem_refsFields m q).2 h2, rfl⟩
      · exact Or.inr ⟨j, m', q, by simpa using h1, by rw [Nat.add_assoc, Nat.add_comm 1 j], h2⟩
  | i, .sc s :: t, p => by
    simp only [refsElems]
    rw [mem_refsElems (i + 1) t p]
    constructor
    · rintro ⟨j, m', q, h1, rfl, h2⟩
      exact ⟨j + 1, m', q, by simpa using h1, by rw [Nat.add_assoc, Nat.add_comm 1 j], h2⟩
    · rintro ⟨j, m', q, h1, rfl, h2⟩
      rcases j with _ | j
      · simp at h1
      · exact ⟨j, m', q, by simpa using h1, by rw [Nat.add_assoc, Nat.add_comm 1 j], h2⟩
  | i, .arr l :: t, p => by
    simp only [refsElems]
    rw [mem_refsElems (i + 1) t p]
    constructor
    · rintro ⟨j, m', q, h1, rfl, h2⟩
      exact ⟨j + 1, m', q, by simpa using h1, by rw [Nat.add_assoc, Nat.add_comm 1 j], h2⟩
    · rintro ⟨j, m', q, h1, rfl, h2⟩
      rcases j with _ | j
      · simp at h1
      · exact ⟨j, m', q, by simpa using h1, by rw [Nat.add_assoc, Nat.add_comm 1 j], h2⟩
end

theorem saneFields_mem : ∀ {m : List (Str × P)} {k : Str} {v : P}, SaneFields m → (k, v) ∈ m → Sane v
  | (k', v') :: t, k, v, h, hm => by
    simp only [SaneFields] at h
    simp only [List.mem_cons, Prod.mk.injEq] at hm
    rcases hm with ⟨_, rfl⟩ | hm
    · exact h.1
    · exact saneFields_mem h.2 hm

theorem saneList_mem : ∀ {l : List P} {v : P}, SaneList l → v ∈ l → Sane v
  | p :: t, v, h, hm => by
    simp only [SaneList] at h
    simp only [List.mem_cons] at hm
    rcases hm with rfl | hm
    · exact h.1
    · exact saneList_mem h.2 hm

theorem arrIndex_elemKey {i : Nat} (h : i < 2 ^ 63) : arrIndex (elemKey i) = some i := by
  unfold arrIndex elemKey
  simp only [List.cons_append, List.nil_append]
  rw [if_pos (by simp)]
  have : (itoaNat i ++ [']']).dropLast = itoaNat i := by simp
  rw [this, atoi_itoaNat i h]
  simp

theorem at_refAt {d : P} {p : List Str} (h : RefAt d p) : Sane d → ∃ raw, d.at p = some (.sc (.str raw)) := by
  induction h with
  | here hm =>
    intro hs
    simp only [Sane] at hs
    exact ⟨_, by simp only [P.at, P.step]; rw [GMap.get_mem_nodup hs.1 hm]; rfl⟩
  | field hm _ ih =>
    intro hs
    simp only [Sane] at hs
    obtain ⟨raw, hr⟩ := ih (saneFields_mem hs.2 hm)
    exact ⟨raw, by simp only [P.at, P.step]; rw [GMap.get_mem_nodup hs.1 hm]; exact hr⟩
  | elem hm hi _ ih =>
    intro hs
    simp only [Sane] at hs
    have hl := saneFields_mem hs.2 hm
    simp only [Sane] at hl
    obtain ⟨raw, hr⟩ := ih (saneList_mem hl.2 (List.mem_of_getElem? hi))
    have hlt : _ < 2 ^ 63 := Nat.lt_trans (List.getElem?_eq_some_iff.1 hi).1 hl.1
    refine ⟨raw, ?_⟩
    simp only [P.at, P.step]
    rw [GMap.get_mem_nodup hs.1 hm]
    simp only [Option.bind_some, P.step, arrIndex_elemKey hlt, hi]
    exact hr

theorem elemKey_inj {i j : Nat} (h : elemKey i = elemKey j) : i = j := by
  unfold elemKey at h
  simp only [List.cons_append, List.nil_append, List.cons.injEq, true_and] at h
  exact itoaNat_inj (List.append_inj' h rfl).1

theorem nodup_cons_map (k : Str) {l : List (List Str)} (h : l.Nodup) : (l.map fun r => k :: r).Nodup :=
  List.Pairwise.map _ (fun _ _ h h' => h (List.cons.inj h').2) h

theorem refsField_head {k : Str} {v : P} {p : List Str} (h : p ∈ refsField k v) : p.head? = some k := by
  cases v with
  | sc s =>
    cases s <;> simp only [refsField, List.not_mem_nil] at h
    split at h
    · rename_i hk; simp only [List.mem_singleton] at h; rw [h]; rfl
    · simp at h
  | arr l => simp only [refsField, List.mem_map] at h; obtain ⟨_, _, rfl⟩ := h; rfl
  | obj l => simp only [refsField, List.mem_map] at h; obtain ⟨_, _, rfl⟩ := h; rfl

theorem refsFields_head {m : List (Str × P)} {p : List Str} (h : p ∈ refsFields m) : ∃ kv ∈ m, p.head? = some kv.1 := by
  induction m with
  | nil => simp [refsFields] at h
  | cons x t ih =>
    obtain ⟨k, v⟩ := x
    simp only [refsFields, List.mem_append] at h
    rcases h with h | h
    · exact ⟨(k, v), by simp, refsField_head h⟩
    · obtain ⟨kv, h1, h2⟩ := ih h; exact ⟨kv, by simp [h1], h2⟩

theorem refsElems_head {l : List P} {i : Nat} {p : List Str} (h : p ∈ refsElems i l) : ∃ j, i ≤ j ∧ p.head? = some (elemKey j) := by
  obtain ⟨j, m', q, h1, rfl, _⟩ := (mem_refsElems i l p).1 h
  exact ⟨i + j, by omega, rfl⟩

mutual
theorem nodup_refsFields : ∀ (m : List (Str × P)), (m.map Prod.fst).Nodup → SaneFields m → (refsFields m).Nodup
  | [], _, _ => List.nodup_nil
  | (k, v) :: t, hn, hs => by
    simp only [List.map_cons, List.nodup_cons] at hn
    simp only [SaneFields] at hs
    simp only [refsFields]
    rw [List.nodup_append]
    refine ⟨nodup_refsField k v hs.1, nodup_refsFields t hn.2 hs.2, ?_⟩
    rintro p hp q hq rfl
    have h1 := refsField_head hp
    obtain ⟨kv, h2, h3⟩ := refsFields_head hq
    rw [h1, Option.some.injEq] at h3
    subst h3
    exact hn.1 (List.mem_map.2 ⟨kv, h2, rfl⟩)
theorem nodup_refsField : ∀ (k : Str) (v : P), Sane v → (refsField k v).Nodup
  | k, .sc s, _ => by
    cases s <;> simp only [refsField]
    all_goals first | exact List.nodup_nil | skip
    split <;> simp
  | k, .obj m, h => by
    simp only [Sane] at h
    simp only [refsField]
    exact nodup_cons_map k (nodup_refsFields m h.1 h.2)
  | k, .arr l, h => by
    simp only [Sane] at h
    simp only [refsField]
    exact nodup_cons_map k (nodup_refsElems 0 l h.2)
theorem nodup_refsElems : ∀ (i : Nat) (l : List P), SaneList l → (refsElems i l).Nodup
  | _, [], _ => List.nodup_nil
  | i, .obj m :: t, h => by
    simp only [SaneList, Sane] at h
    simp only [refsElems]
    rw [List.nodup_append]
    refine ⟨nodup_cons_map _ (nodup_refsFields m h.1.1 h.1.2), nodup_refsElems (i + 1) t h.2, ?_⟩
    rintro p hp q hq rfl
    simp only [List.mem_map] at hp
    obtain ⟨r, _, rfl⟩ := hp
    obtain ⟨j, h1, h2⟩ := refsElems_head hq
    simp only [List.head?_cons, Option.some.injEq] at h2
    have := elemKey_inj (i := i) (j := j) h2
    omega
  | i, .sc s :: t, h => by
    simp only [SaneList] at h
    simp only [refsElems]
    exact nodup_refsElems (i + 1) t h.2
  | i, .arr s :: t, h => by
    simp only [SaneList] at h
    simp only [refsElems]
    exact nodup_refsElems (i + 1) t h.2
end

end JT.Ref

namespace JT
open Spec

/-- **C42**: on any object, the search returns exactly the places of references; in a document with distinct keys each place once, and looking up the place
gives the text of the reference.  (On anything but an object it is an error.) -/
theorem C42 (m : List (Str × P)) : ∃ refs, findRefs (.obj m) = some refs ∧ (∀ p, p ∈ refs ↔ RefAt (.obj m) p) ∧
    (Sane (.obj m) → refs.Nodup ∧ ∀ p ∈ refs, ∃ raw, (P.obj m).at p = some (.sc (.str raw))) := by
  refine ⟨refsFields m, rfl, Ref.mem_refsFields m, ?_⟩
  intro hs
  have hs' := hs
  simp only [Sane] at hs'
  exact ⟨Ref.nodup_refsFields m hs'.1 hs'.2, fun p hp => Ref.at_refAt ((Ref.mem_refsFields m p).1 hp) hs⟩

theorem findRefs_nil_iff {d : P} : findRefs d = some [] ↔ (∃ m, d = .obj m) ∧ ∀ p, ¬ RefAt d p := by
  cases d with
  | obj m =>
    simp only [findRefs, Option.some.injEq]
    constructor
    · intro h
      refine ⟨⟨m, rfl⟩, fun p hp => ?_⟩
      have := (Ref.mem_refsFields m p).2 hp
      rw [h] at this
      simp at this
    · rintro ⟨_, h⟩
      rw [List.eq_nil_iff_forall_not_mem]
      exact fun p hp => h p ((Ref.mem_refsFields m p).1 hp)
  | sc s => simp [findRefs]
  | arr l => simp [findRefs]

/-- **C38**: if dereferencing succeeds, there is no reference anywhere in the result; for every document, file system and number of passes. -/
theorem C38 (w : World) (schemaPath : Str) : ∀ (n : Nat) (data d : P), dereference w schemaPath n data = some (.ok d) → ∀ p, ¬ RefAt d p
  | 0, _, _, h => by simp [dereference] at h
  | n + 1, data, d, h => by
    simp only [dereference] at h
    split at h
    · simp at h
    · split at h
      · simp at h
      · simp at h
      · rename_i data' _
        split at h
        · simp at h
        · rename_i hf
          simp only [Option.some.injEq, Res.ok.injEq] at h
          subst h
          exact (findRefs_nil_iff.1 hf).2
        · exact C38 w schemaPath n _ d h

/-- **C39**: a document without references is returned as it is, by one pass. -/
theorem C39 (w : World) (schemaPath : Str) (n : Nat) (m : List (Str × P)) (h : ∀ p, ¬ RefAt (.obj m) p) :
    dereference w schemaPath (n + 1) (.obj m) = some (.ok (.obj m)) := by
  have := findRefs_nil_iff.2 ⟨⟨m, rfl⟩, h⟩
  simp only [dereference, this, foldRes]

/-- **C39**: dereferencing the result again changes nothing. -/
theorem C39_idempotent (w w' : World) (schemaPath schemaPath' : Str) (n k : Nat) (data d : P) (h : dereference w schemaPath n data = some (.ok d)) :
    dereference w' schemaPath' (k + 1) d = some (.ok d) := by
  have h1 := C38 w schemaPath n data d h
  have h2 : ∃ m, d = .obj m := by
    induction n generalizing data with
    | zero => simp [dereference] at h
    | succ n ih =>
      simp only [dereference] at h
      split at h
      · simp at h
      · split at h
        · simp at h
        · simp at h
        · split at h
          · simp at h
          · rename_i hf
            simp only [Option.some.injEq, Res.ok.injEq] at h
            subst h
            exact (findRefs_nil_iff.1 hf).1
          · exact ih _ h
  obtain ⟨m, rfl⟩ := h2
  exact C39 w' schemaPath' k m h1

end JT
