import Verif.Proofs.Map
/- More about maps: distinct keys and permutations. -/
namespace JT.GMap
variable {α : Type}

theorem get_none_iff {k : Str} {m : GMap α} : get k m = none ↔ k ∉ m.map Prod.fst := by
  induction m with
  | nil => simp
  | cons x m ih =>
    obtain ⟨k', v⟩ := x
    simp only [get, List.map_cons, List.mem_cons, not_or]
    split
    · rename_i h; simp [h]
    · rename_i h; simp [h, ih]

theorem get_mem_nodup {k : Str} {v : α} {m : GMap α} (hn : (m.map Prod.fst).Nodup) (h : (k, v) ∈ m) : get k m = some v := by
  induction m with
  | nil => simp at h
  | cons x m ih =>
    obtain ⟨k', v'⟩ := x
    simp only [List.map_cons, List.nodup_cons] at hn
    rcases List.mem_cons.1 h with h1 | h1
    · injection h1 with h1 h2; subst h1; subst h2; simp [get]
    · have : k ≠ k' := by
        rintro rfl
        exact hn.1 (List.mem_map.2 ⟨(k, v), h1, rfl⟩)
      simp [get, this, ih hn.2 h1]

theorem set_perm {k : Str} {v : α} {m : GMap α} (h : get k m = none) : (set k v m).Perm ((k, v) :: m) := by
  induction m with
  | nil => exact List.Perm.refl _
  | cons x m ih =>
    obtain ⟨k', v'⟩ := x
    simp only [get] at h
    split at h
    · contradiction
    · rename_i hne
      simp only [set, hne, if_false]
      split
      · exact List.Perm.refl _
      · exact ((ih h).cons _).trans (List.Perm.swap _ _ _)

theorem foldl_set_perm : ∀ (l acc : List (Str × α)), (l.map Prod.fst).Nodup → (∀ kv ∈ l, get kv.1 acc = none) →
    (l.foldl (fun m kv => set kv.1 kv.2 m) acc).Perm (l ++ acc)
  | [], acc, _, _ => List.Perm.refl _
  | kv :: l, acc, hn, hd => by
    simp only [List.map_cons, List.nodup_cons] at hn
    rw [List.foldl_cons]
    have h1 := foldl_set_perm l (set kv.1 kv.2 acc) hn.2 fun x hx => by
      rw [get_set_ne]
      · exact hd x (by simp [hx])
      · rintro h
        exact hn.1 (List.mem_map.2 ⟨x, hx, h⟩)
    refine h1.trans ?_
    refine ((set_perm (hd kv (by simp))).append_left l).trans ?_
    simp

theorem ofList_perm {l : List (Str × α)} (hn : (l.map Prod.fst).Nodup) : (ofList l).Perm l := by
  have := foldl_set_perm l [] hn (by simp)
  rw [List.append_nil] at this
  exact this

theorem Sorted.nodup : ∀ {m : GMap α}, Sorted m → (m.map Prod.fst).Nodup
  | [], _ => by simp
  | (k, v) :: m, h => by
    rw [List.map_cons, List.nodup_cons]
    refine ⟨?_, Sorted.nodup h.2⟩
    intro hm
    obtain ⟨x, hx, he⟩ := List.mem_map.1 hm
    have := h.1 x hx
    rw [he, strLt_irrefl] at this
    simp at this

theorem mem_ofList {l : List (Str × α)} {x : Str × α} (h : x ∈ ofList l) : x ∈ l := by
  suffices ∀ (l acc : List (Str × α)), x ∈ l.foldl (fun m kv => set kv.1 kv.2 m) acc → x ∈ l ∨ x ∈ acc by
    simpa using this l [] h
  intro l
  induction l with
  | nil => intro acc h; exact Or.inr h
  | cons kv l ih =>
    intro acc h
    rw [List.foldl_cons] at h
    rcases ih _ h with h | h
    · exact Or.inl (by simp [h])
    · rcases mem_set h with h | h
      · exact Or.inl (by simp [h])
      · exact Or.inr h

theorem mem_ofList_key {l : List (Str × α)} {k : Str} : (∃ q, (k, q) ∈ ofList l) ↔ ∃ q, (k, q) ∈ l := by
  constructor
  · rintro ⟨q, hq⟩; exact ⟨q, mem_ofList hq⟩
  · rintro ⟨q, hq⟩
    have : ∀ (l m : List (Str × α)), ((∃ q, (k, q) ∈ l) ∨ (get k m).isSome = true) → (get k (l.foldl (fun m kv => set kv.1 kv.2 m) m)).isSome = true := by
      intro l
      induction l with
      | nil => rintro m (⟨q, h⟩ | h); · simp at h
               · exact h
      | cons x xs ih =>
        intro m h
        refine ih _ ?_
        by_cases hx : k = x.1
        · right; rw [hx, get_set_self]; rfl
        · rcases h with ⟨q, h⟩ | h
          · simp only [List.mem_cons] at h
            rcases h with rfl | h
            · exact absurd rfl hx
            · exact Or.inl ⟨q, h⟩
          · right; rw [get_set_ne hx]; exact h
    have := this l [] (Or.inl ⟨q, hq⟩)
    rcases hg : get k (ofList l) with _ | v
    · unfold ofList at hg; rw [hg] at this; contradiction
    · exact ⟨v, get_some_mem hg⟩

theorem get_perm {a b : GMap α} (hp : a.Perm b) (hn : (b.map Prod.fst).Nodup) (k : Str) : get k a = get k b := by
  have hna : (a.map Prod.fst).Nodup := (hp.map Prod.fst).nodup_iff.2 hn
  cases h : get k b with
  | none =>
    rw [get_none_iff] at h ⊢
    intro hm
    exact h ((hp.map Prod.fst).mem_iff.1 hm)
  | some v => exact get_mem_nodup hna (hp.mem_iff.2 (get_some_mem h))

theorem get_ofList {l : List (Str × α)} (hn : (l.map Prod.fst).Nodup) (k : Str) : get k (ofList l) = get k l := get_perm (ofList_perm hn) hn k

end JT.GMap
