import Verif.Model.Map
import Verif.Proofs.Strings
namespace JT.GMap
variable {α : Type}

@[simp] theorem get_nil (k : Str) : get k ([] : GMap α) = none := rfl

theorem get_set_self (k : Str) (v : α) (m : GMap α) : get k (set k v m) = some v := by
  induction m with
  | nil => simp [set, get]
  | cons kv t ih =>
    obtain ⟨k', v'⟩ := kv
    simp only [set]
    split
    · simp [get]
    · split
      · simp [get]
      · simp [get, *]

theorem get_set_ne {k k' : Str} (h : k ≠ k') (v : α) (m : GMap α) : get k (set k' v m) = get k m := by
  induction m with
  | nil => simp [set, get, h]
  | cons kv t ih =>
    obtain ⟨k2, v2⟩ := kv
    simp only [set]
    split
    · rename_i h2; subst h2; simp [get, h]
    · split
      · simp [get, h]
      · simp [get, ih]

theorem get_set (k k' : Str) (v : α) (m : GMap α) :
    get k (set k' v m) = if k = k' then some v else get k m := by
  by_cases h : k = k'
  · subst h; simp [get_set_self]
  · simp [h, get_set_ne h]

theorem get_del_self (k : Str) (m : GMap α) : get k (del k m) = none := by
  induction m with
  | nil => rfl
  | cons kv t ih =>
    obtain ⟨k', v'⟩ := kv
    simp only [del]
    split
    · exact ih
    · simp [get, *]

theorem get_del_ne {k k' : Str} (h : k ≠ k') (m : GMap α) : get k (del k' m) = get k m := by
  induction m with
  | nil => rfl
  | cons kv t ih =>
    obtain ⟨k2, v2⟩ := kv
    simp only [del]
    split
    · rename_i h2; subst h2; simp [get, ih, h]
    · simp [get, ih]

theorem get_some_mem {k : Str} {v : α} {m : GMap α} (h : get k m = some v) : (k, v) ∈ m := by
  induction m with
  | nil => simp at h
  | cons kv t ih =>
    obtain ⟨k', v'⟩ := kv
    simp only [get] at h
    split at h
    · rename_i h2; subst h2; cases h; simp
    · simp [ih h]

theorem mem_keys_iff {k : Str} {m : GMap α} : k ∈ keys m ↔ (get k m).isSome = true := by
  induction m with
  | nil => simp [keys]
  | cons kv t ih =>
    obtain ⟨k', v'⟩ := kv
    simp only [keys, List.map_cons, List.mem_cons, get] at *
    by_cases h : k = k' <;> simp [h, ih]

/-- Setting different keys commutes (even without the sortedness invariant). -/
theorem set_comm {k k' : Str} (h : k ≠ k') (v v' : α) (m : GMap α) :
    set k v (set k' v' m) = set k' v' (set k v m) := by
  induction m with
  | nil =>
    have := strLt_total k k'
    have h1 := @strLt_asymm k k'
    have h2 := @strLt_asymm k' k
    simp only [set]
    grind
  | cons kv t ih =>
    obtain ⟨k2, v2⟩ := kv
    have := strLt_total k k'
    have h1 := @strLt_asymm k k'
    have h2 := @strLt_asymm k' k
    have h3 := @strLt_asymm k k2
    have h4 := @strLt_asymm k' k2
    have h5 := @strLt_trans k k' k2
    have h6 := @strLt_trans k' k k2
    have h7 := @strLt_trans k k2 k'
    have h8 := @strLt_trans k' k2 k
    have h9 := strLt_total k k2
    have h10 := strLt_total k' k2
    simp only [set]
    grind [set]

theorem set_ne_nil (k : Str) (v : α) (m : GMap α) : set k v m ≠ [] := by
  cases m with
  | nil => simp [set]
  | cons kv t =>
    obtain ⟨k', v'⟩ := kv
    simp only [set]
    split
    · simp
    · split <;> simp

theorem mem_set {k : Str} {v : α} {m : GMap α} {x : Str × α} (h : x ∈ set k v m) : x = (k, v) ∨ x ∈ m := by
  induction m with
  | nil => simpa [set] using h
  | cons kv t ih =>
    obtain ⟨k', v'⟩ := kv
    simp only [set] at h
    split at h
    · simp at h; rcases h with h | h <;> simp [h]
    · split at h
      · simpa using h
      · simp at h
        rcases h with h | h
        · simp [h]
        · rcases ih h with h | h <;> simp [h]

theorem sorted_set {k : Str} {v : α} {m : GMap α} (h : Sorted m) : Sorted (set k v m) := by
  induction m with
  | nil => simp [set, Sorted]
  | cons kv t ih =>
    obtain ⟨k', v'⟩ := kv
    simp only [Sorted] at h
    simp only [set]
    split
    · rename_i he; subst he; exact ⟨h.1, h.2⟩
    · rename_i hne
      split
      · rename_i hlt
        refine ⟨?_, h.1, h.2⟩
        intro x hx
        simp at hx
        rcases hx with hx | hx
        · simp [hx, hlt]
        · exact strLt_trans hlt (h.1 x hx)
      · rename_i hnlt
        refine ⟨?_, ih h.2⟩
        intro x hx
        rcases mem_set hx with hx | hx
        · subst hx
          rcases strLt_total k' k with h1 | h1 | h1
          · exact h1
          · exact absurd h1.symm hne
          · exact absurd h1 hnlt
        · exact h.1 x hx

theorem Sorted.get_none_of_lt {k : Str} {m : GMap α} (h : ∀ kv ∈ m, strLt k kv.1 = true) : get k m = none := by
  induction m with
  | nil => rfl
  | cons kv t ih =>
    obtain ⟨k', v'⟩ := kv
    have h1 := strLt_ne (h (k', v') (by simp))
    simp only [get, if_neg h1]
    exact ih (fun x hx => h x (by simp [hx]))

/-- A sorted association list is determined by its lookup function. -/
theorem Sorted.ext {m n : GMap α} (hm : Sorted m) (hn : Sorted n) (h : ∀ k, get k m = get k n) : m = n := by
  induction m generalizing n with
  | nil =>
    cases n with
    | nil => rfl
    | cons kv t =>
      have := h kv.1
      simp [get] at this
  | cons kv t ih =>
    obtain ⟨k, v⟩ := kv
    cases n with
    | nil => have := h k; simp [get] at this
    | cons kv' t' =>
      obtain ⟨k', v'⟩ := kv'
      simp only [Sorted] at hm hn
      have hk : k = k' := by
        rcases strLt_total k k' with h1 | h1 | h1
        · have := h k
          rw [show get k ((k', v') :: t') = none from
            get_none_of_lt (by intro x hx; simp at hx; rcases hx with hx | hx
                               · simp [hx, h1]
                               · exact strLt_trans h1 (hn.1 x hx))] at this
          simp [get] at this
        · exact h1
        · have := h k'
          rw [show get k' ((k, v) :: t) = none from
            get_none_of_lt (by intro x hx; simp at hx; rcases hx with hx | hx
                               · simp [hx, h1]
                               · exact strLt_trans h1 (hm.1 x hx))] at this
          simp [get] at this
      subst hk
      have hv : v = v' := by have := h k; simpa [get] using this
      subst hv
      congr 1
      apply ih hm.2 hn.2
      intro k2
      by_cases h2 : k2 = k
      · subst h2; rw [get_none_of_lt hm.1, get_none_of_lt hn.1]
      · have := h k2; simpa [get, h2] using this

theorem get_fill (m old : GMap α) (k : Str) :
    get k (fill m old) = (get k m).or (get k old) := by
  unfold fill
  induction old generalizing m with
  | nil => simp
  | cons kv t ih =>
    obtain ⟨k', v'⟩ := kv
    simp only [List.foldl_cons]
    rw [ih]
    split
    · rename_i h
      by_cases hk : k = k'
      · subst hk
        cases hg : get k m with
        | none => simp [hg] at h
        | some x => simp
      · simp [get, hk]
    · rename_i h
      rw [get_set]
      by_cases hk : k = k'
      · subst hk
        have : get k m = none := by simpa using h
        simp [get, this]
      · simp [get, hk]

theorem sorted_fill {m old : GMap α} (h : Sorted m) : Sorted (fill m old) := by
  unfold fill
  induction old generalizing m with
  | nil => simpa
  | cons kv t ih =>
    simp only [List.foldl_cons]
    apply ih
    split
    · exact h
    · exact sorted_set h

theorem sorted_ofList (l : List (Str × α)) : Sorted (ofList l) := by
  unfold ofList
  suffices ∀ m : GMap α, Sorted m → Sorted (l.foldl (fun m kv => set kv.1 kv.2 m) m) from this [] trivial
  induction l with
  | nil => intro m h; simpa
  | cons kv t ih => intro m h; exact ih _ (sorted_set h)

end JT.GMap
