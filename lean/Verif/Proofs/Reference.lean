import Verif.Model.Reference
import Verif.Spec.Ref
import Verif.Proofs.MapMore
import Verif.Proofs.Semantics
/- Lemmas about replacing parts of a document. -/
namespace JT.Ref
open JT JT.Spec

theorem ok_bind {α β : Type} (a : α) (f : α → Res β) : (Res.ok a >>= f) = f a := rfl

theorem get_setField_self (k : Str) (v : P) : ∀ m : List (Str × P), GMap.get k (setField k v m) = some v
  | [] => by simp [setField, GMap.get]
  | (k', v') :: t => by
    simp only [setField]
    split
    · rename_i h; subst h; simp [GMap.get]
    · rename_i h; simp only [GMap.get, if_neg h]; exact get_setField_self k v t

theorem get_setField_ne {k j : Str} (h : j ≠ k) (v : P) : ∀ m : List (Str × P), GMap.get j (setField k v m) = GMap.get j m
  | [] => by simp [setField, GMap.get, h]
  | (k', v') :: t => by
    simp only [setField]
    split
    · rename_i h'; subst h'; simp [GMap.get, h]
    · simp only [GMap.get]
      rw [get_setField_ne h v t]

theorem setField_setField (k : Str) (v v' : P) : ∀ m : List (Str × P), setField k v' (setField k v m) = setField k v' m
  | [] => by simp [setField]
  | (k', w) :: t => by
    simp only [setField]
    split
    · rename_i h; simp [setField, h]
    · rename_i h; simp only [setField, if_neg h]; rw [setField_setField k v v' t]

theorem get_delField_ne {k j : Str} (h : j ≠ k) : ∀ m : List (Str × P), GMap.get j (delField k m) = GMap.get j m
  | [] => rfl
  | (k', v') :: t => by
    simp only [delField]
    split
    · rename_i h'; subst h'; simp [GMap.get, h]
    · simp only [GMap.get]
      rw [get_delField_ne h t]

theorem mem_delField {k : Str} {kv : Str × P} : ∀ {m : List (Str × P)}, kv ∈ delField k m → kv ∈ m
  | (k', v') :: t, h => by
    simp only [delField] at h
    split at h
    · exact List.mem_cons_of_mem _ h
    · simp only [List.mem_cons] at h ⊢
      rcases h with h | h
      · exact Or.inl h
      · exact Or.inr (mem_delField h)

theorem get_delField_self {k : Str} : ∀ {m : List (Str × P)}, (m.map Prod.fst).Nodup → GMap.get k (delField k m) = none
  | [], _ => rfl
  | (k', v') :: t, h => by
    simp only [List.map_cons, List.nodup_cons] at h
    simp only [delField]
    split
    · rename_i h'; subst h'
      rw [GMap.get_none_iff]
      exact h.1
    · rename_i h'
      simp only [GMap.get, if_neg h']
      exact get_delField_self h.2

theorem nodup_delField {k : Str} : ∀ {m : List (Str × P)}, (m.map Prod.fst).Nodup → ((delField k m).map Prod.fst).Nodup
  | [], _ => by simp [delField]
  | (k', v') :: t, h => by
    simp only [List.map_cons, List.nodup_cons] at h
    simp only [delField]
    split
    · exact h.2
    · simp only [List.map_cons, List.nodup_cons]
      refine ⟨?_, nodup_delField h.2⟩
      intro hm
      obtain ⟨kv, h1, h2⟩ := List.mem_map.1 hm
      exact h.1 (List.mem_map.2 ⟨kv, mem_delField h1, h2⟩)

/-- One step leads to what was put there. -/
theorem step_put_self {k : Str} {v q p : P} (h : p.step k = some q) : (p.put k v).step k = some v := by
  cases p with
  | sc s => simp [P.step] at h
  | obj m => simp only [P.put, P.step]; exact get_setField_self k v m
  | arr l =>
    simp only [P.step, Option.bind_eq_some_iff] at h
    obtain ⟨i, hi, hq⟩ := h
    simp only [P.put, hi, P.step, Option.bind_some]
    rw [List.getElem?_set_self (List.getElem?_eq_some_iff.1 hq).1]

theorem put_put (k : Str) (v v' p : P) : (p.put k v).put k v' = p.put k v' := by
  cases p with
  | sc s => rfl
  | obj m => simp only [P.put, setField_setField]
  | arr l =>
    simp only [P.put]
    rcases h : arrIndex k with _ | i <;> simp [P.put, h]

theorem set_cons {v : P} {k : Str} {ks : List Str} {p q : P} (h : p.step k = some q) : P.set v (k :: ks) p = (P.set v ks q).map fun q' => p.put k q' := by
  cases ks with
  | nil => simp only [P.set, h, Option.map_some]
  | cons a b => simp only [P.set, h]

theorem at_cons {k : Str} {ks : List Str} {p q : P} : p.at (k :: ks) = some q ↔ ∃ r, p.step k = some r ∧ r.at ks = some q := by
  simp only [P.at, Option.bind_eq_some_iff]

theorem at_append : ∀ (a b : List Str) (p : P), p.at (a ++ b) = (p.at a).bind (P.at b)
  | [], b, p => by simp [P.at]
  | k :: a, b, p => by
    simp only [List.cons_append, P.at]
    cases p.step k with
    | none => rfl
    | some q => exact at_append a b q

/-- Replacing something that is there works, and that is what is there then. -/
theorem set_some (v : P) : ∀ {path : List Str} {p q : P}, p.at path = some q → ∃ p', P.set v path p = some p' ∧ p'.at path = some v
  | [], p, q, _ => ⟨v, rfl, rfl⟩
  | k :: ks, p, q, h => by
    obtain ⟨r, hr, hq⟩ := at_cons.1 h
    obtain ⟨r', h1, h2⟩ := set_some v hq
    refine ⟨p.put k r', by rw [set_cons hr, h1]; rfl, at_cons.2 ⟨r', step_put_self hr, h2⟩⟩

theorem set_set {v v' : P} : ∀ {path : List Str} {p p' q : P}, p.at path = some q → P.set v path p = some p' → P.set v' path p' = P.set v' path p
  | [], p, p', q, _, _ => rfl
  | k :: ks, p, p', q, h, hs => by
    obtain ⟨r, hr, hq⟩ := at_cons.1 h
    rw [set_cons hr, Option.map_eq_some_iff] at hs
    obtain ⟨r', h1, rfl⟩ := hs
    rw [set_cons hr, set_cons (step_put_self hr), set_set hq h1]
    cases P.set v' ks r with
    | none => rfl
    | some x => simp only [Option.map_some, put_put]

/-- Deleting a key of an object that is there is replacing the object. -/
theorem del_eq_set {key : Str} {m : List (Str × P)} : ∀ {path : List Str} {p : P}, p.at path = some (.obj m) →
    P.set (.obj (delField key m)) path p = some (P.del key path p)
  | [], p, h => by
    simp only [P.at, Option.some.injEq] at h
    subst h
    rfl
  | k :: ks, p, h => by
    obtain ⟨r, hr, hq⟩ := at_cons.1 h
    rw [set_cons hr, del_eq_set hq]
    simp only [P.del, hr, Option.map_some]

/-- Setting a key of an object that is there is replacing the object. -/
theorem set_key {v : P} {k : Str} {m : List (Str × P)} : ∀ {path : List Str} {p : P}, p.at path = some (.obj m) →
    P.set v (path ++ [k]) p = P.set (.obj (setField k v m)) path p
  | [], p, h => by
    simp only [P.at, Option.some.injEq] at h
    subst h
    simp only [List.nil_append, P.set]
    split
    · rfl
    · rename_i h e; injection e with e; rw [e]
    · rename_i h; exact absurd rfl (h _)
  | k' :: ks, p, h => by
    obtain ⟨r, hr, hq⟩ := at_cons.1 h
    rw [List.cons_append, set_cons hr, set_cons hr, set_key hq]

/-- The fields of a resolved object with those beside the reference put over it. -/
def overlay (r : List (Str × P)) : List (Str × P) → List (Str × P)
  | [] => r
  | (k, v) :: t => overlay (setField k (siblingValue v) r) t

theorem applySiblings_eq {dest : List Str} : ∀ (prior : List (Str × P)) {r : List (Str × P)} {p p' q : P}, p.at dest = some q →
    P.set (.obj r) dest p = some p' → applySiblings dest prior p' = match P.set (.obj (overlay r prior)) dest p with | some x => .ok x | none => .err
  | [], r, p, p', q, _, h => by simp only [applySiblings, overlay, h]
  | (k, v) :: t, r, p, p', q, hq, h => by
    have hat : p'.at dest = some (.obj r) := by
      obtain ⟨x, h1, h2⟩ := set_some (.obj r) hq
      rw [h] at h1
      injection h1 with h1
      subst h1
      exact h2
    simp only [applySiblings, overlay]
    rw [set_key hat, set_set hq h]
    obtain ⟨x, h1, h2⟩ := set_some (.obj (setField k (siblingValue v) r)) hq
    rw [h1]
    exact applySiblings_eq t hq h1

/-- What resolving one reference does: the object with the reference is replaced by the target with the other keys put over it. -/
theorem derefOne_eq {w : World} {schemaPath raw : Str} {dest : List Str} {data : P} {m r : List (Str × P)} (hd : dest ≠ [])
    (hat : data.at dest = some (.obj m)) (href : GMap.get refKey m = some (.sc (.str raw))) (hres : resolveRef w schemaPath (unescStr raw) data = .ok (.obj r)) :
    ∃ data', derefOne w schemaPath (dest ++ [refKey]) data = .ok data' ∧ P.set (.obj (overlay r (delField refKey m))) dest data = some data' := by
  obtain ⟨data', h1, h2⟩ := set_some (.obj (overlay r (delField refKey m))) hat
  refine ⟨data', ?_, h1⟩
  have hstr : refString (dest ++ [refKey]) data = .ok (unescStr raw) := by
    unfold refString
    rw [at_append, hat]
    simp only [Option.bind_some, P.at, P.step, href]
  unfold derefOne
  rw [hstr, ok_bind, hres, ok_bind]
  simp only [List.dropLast_concat]
  rw [if_neg hd]
  have hdel := del_eq_set (key := refKey) hat
  have hat1 : (P.del refKey dest data).at dest = some (.obj (delField refKey m)) := by
    obtain ⟨x, h1, h2⟩ := set_some (.obj (delField refKey m)) hat
    rw [hdel] at h1
    injection h1 with h1
    rw [h1]
    exact h2
  unfold placeRef
  rw [hat1]
  obtain ⟨d2, h3, h4⟩ := set_some (.obj r) hat1
  simp only [h3]
  rw [applySiblings_eq _ hat1 h3, set_set hat hdel, h1]

/-- Resolving a reference at the root only removes it. -/
theorem derefOne_root {w : World} {schemaPath : Str} {m : List (Str × P)} {r : P} {raw : Str}
    (href : GMap.get refKey m = some (.sc (.str raw))) (hres : resolveRef w schemaPath (unescStr raw) (.obj m) = .ok r) :
    derefOne w schemaPath [refKey] (.obj m) = .ok (.obj (delField refKey m)) := by
  have hstr : refString [refKey] (.obj m) = .ok (unescStr raw) := by
    unfold refString
    simp only [P.at, P.step, href, Option.bind_some]
  unfold derefOne
  rw [hstr, ok_bind, hres, ok_bind]
  simp [P.del]

theorem get_overlay (k : Str) : ∀ (prior r : List (Str × P)), (prior.map Prod.fst).Nodup →
    GMap.get k (overlay r prior) = match GMap.get k prior with | some v => some (siblingValue v) | none => GMap.get k r
  | [], r, _ => rfl
  | (k', v) :: t, r, h => by
    simp only [List.map_cons, List.nodup_cons] at h
    simp only [overlay, GMap.get]
    rw [get_overlay k t _ h.2]
    by_cases hk : k = k'
    · subst hk
      rw [if_pos rfl, (GMap.get_none_iff).2 h.1]
      simp only [get_setField_self]
    · rw [if_neg hk]
      cases GMap.get k t with
      | none => simp only [get_setField_ne hk]
      | some x => rfl

/-- Two paths part ways in a document: at some object the keys differ, or at some array the indices. -/
def Apart : P → List Str → List Str → Prop
  | d, a :: as, b :: bs => (∃ m, d = .obj m ∧ a ≠ b) ∨ (∃ l, d = .arr l ∧ arrIndex a ≠ arrIndex b) ∨ ∃ q, a = b ∧ d.step a = some q ∧ Apart q as bs
  | _, _, _ => False

theorem step_put_ne {a b : Str} {p v : P} (h : (∃ m, p = .obj m ∧ a ≠ b) ∨ ∃ l, p = .arr l ∧ arrIndex a ≠ arrIndex b) : (p.put b v).step a = p.step a := by
  rcases h with ⟨m, rfl, h⟩ | ⟨l, rfl, h⟩
  · simp only [P.put, P.step]
    exact get_setField_ne h v m
  · simp only [P.put]
    rcases hb : arrIndex b with _ | i
    · rfl
    · simp only [P.step]
      rcases ha : arrIndex a with _ | j
      · rfl
      · simp only [Option.bind_some]
        rw [List.getElem?_set_ne]
        rintro rfl
        exact h (by rw [ha, hb])

/-- Replacing something changes nothing elsewhere. -/
theorem set_frame {v : P} : ∀ {other path : List Str} {p p' q : P}, Apart p other path → p.at path = some q → P.set v path p = some p' → p'.at other = p.at other
  | [], _, _, _, _, h, _, _ => by simp [Apart] at h
  | _ :: _, [], _, _, _, h, _, _ => by simp [Apart] at h
  | a :: as, b :: bs, p, p', q, h, hq, hs => by
    obtain ⟨r, hr, hq2⟩ := at_cons.1 hq
    rw [set_cons hr, Option.map_eq_some_iff] at hs
    obtain ⟨r', h1, rfl⟩ := hs
    simp only [Apart] at h
    rcases h with h | h | ⟨q', rfl, h2, h3⟩
    · simp only [P.at]; rw [step_put_ne (Or.inl h)]
    · simp only [P.at]; rw [step_put_ne (Or.inr h)]
    · rw [hr] at h2
      injection h2 with h2
      subst h2
      simp only [P.at]
      rw [step_put_self hr, hr]
      exact set_frame h3 hq2 h1

end JT.Ref
