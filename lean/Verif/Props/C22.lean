import Verif.Proofs.SavePath
import Verif.Proofs.Build
import Verif.Spec.Toy
/- C22 and C23: saving values in documents. -/
namespace JT
open Spec

/-! ### Reading after saving, on documents -/

theorem readAt_append : ∀ (a b : List Step) (p : P), readAt (a ++ b) p = (readAt a p).bind (readAt b)
  | [], b, p => by simp [readAt]
  | .key k :: a, b, .obj m => by
    simp only [List.cons_append, readAt]
    cases GMap.get k m with
    | none => rfl
    | some q => simp [readAt_append a b q]
  | .idx i :: a, b, .arr ps => by
    simp only [List.cons_append, readAt]
    cases ps[i]? with
    | none => rfl
    | some q => simp [readAt_append a b q]
  | .key k :: a, b, .arr _ => rfl
  | .key k :: a, b, .sc _ => rfl
  | .idx i :: a, b, .obj _ => rfl
  | .idx i :: a, b, .sc _ => rfl

theorem readAt_sc {s : Scal} {q : List Step} (h : q ≠ []) : readAt q (.sc s) = none := by
  cases q with
  | nil => exact absurd rfl h
  | cons st q => cases st <;> rfl

theorem Apart.cons_ne {a b : Step} {q l : List Step} (h : a ≠ b) : Apart (a :: q) (b :: l) := by
  constructor
  · rintro ⟨t, e⟩; simp at e; exact h e.1
  · rintro ⟨t, e⟩; simp at e; exact h e.1.symm

theorem Apart.cons_iff {a : Step} {q l : List Step} : Apart (a :: q) (a :: l) ↔ Apart q l := by
  simp [Apart, List.cons_prefix_cons]

theorem Apart.append_iff (r : List Step) {q l : List Step} : Apart (r ++ q) (r ++ l) ↔ Apart q l := by
  simp [Apart, List.prefix_append_right_inj]

theorem Apart.ne_nil {q l : List Step} (h : Apart q l) : q ≠ [] ∧ l ≠ [] :=
  ⟨by rintro rfl; exact h.1 (List.nil_prefix), by rintro rfl; exact h.2 (List.nil_prefix)⟩

/-- Either the place leaves the indices, or it goes through all of them. -/
theorem Apart.split : ∀ (r : List Step) {q l : List Step}, Apart q (r ++ l) → Apart q r ∨ ∃ q', q = r ++ q' ∧ Apart q' l
  | [], q, l, h => Or.inr ⟨q, rfl, h⟩
  | b :: r, q, l, h => by
    cases q with
    | nil => exact absurd rfl (Apart.ne_nil h).1
    | cons a q =>
      by_cases e : a = b
      · subst e
        rw [List.cons_append, Apart.cons_iff] at h
        rcases Apart.split r h with h | ⟨q', rfl, h'⟩
        · exact Or.inl (Apart.cons_iff.2 h)
        · exact Or.inr ⟨q', rfl, h'⟩
      · exact Or.inl (Apart.cons_ne e)

theorem padTo_get (i j : Nat) (l : List P) : (padTo i l)[j]? = if j < l.length then l[j]? else if j ≤ i then some (.sc .nil) else none := by
  unfold padTo
  by_cases h : j < l.length
  · rw [if_pos h, List.getElem?_append_left h]
  · rw [if_neg h, List.getElem?_append_right (by omega), List.getElem?_replicate]
    by_cases h' : j ≤ i
    · rw [if_pos h', if_pos (by omega)]
    · rw [if_neg h', if_neg (by omega)]

theorem padTo_getD (i : Nat) (l : List P) : (padTo i l).getD i (.sc .nil) = (l[i]?).getD (.sc .nil) := by
  rw [List.getD_eq_getElem?_getD, padTo_get]
  by_cases h : i < l.length
  · rw [if_pos h]
  · rw [if_neg h, if_pos (Nat.le_refl i), List.getElem?_eq_none (by omega)]
    rfl

/-- Reading through the indices after saving there. -/
theorem sliceSet_read : ∀ (is : List Nat), is ≠ [] → ∀ (l : List P) (p : P) (r : List Step), readAt (is.map .idx ++ r) (.arr (sliceSet is l p)) = readAt r p
  | [], h, _, _, _ => absurd rfl h
  | [i], _, l, p, r => by
    simp [sliceSet, readAt, padTo_length i l]
  | i :: j :: is, _, l, p, r => by
    have := sliceSet_read (j :: is) (by simp) (arrOf ((padTo i l).getD i (.sc .nil))) p r
    simp only [List.map_cons, List.cons_append] at this
    simp only [sliceSet, List.map_cons, List.cons_append, readAt, List.getElem?_set_self (padTo_length i l), Option.bind_some]
    exact this

/-- Reading through the indices before. -/
theorem sliceOld_read : ∀ (is : List Nat), is ≠ [] → ∀ (l : List P), sliceOld is l = (readAt (is.map .idx) (.arr l)).getD (.sc .nil)
  | [], h, _ => absurd rfl h
  | [i], _, l => by
    simp only [sliceOld, padTo_getD, List.map_cons, List.map_nil, readAt]
    cases l[i]? <;> rfl
  | i :: j :: is, _, l => by
    have := sliceOld_read (j :: is) (by simp) (arrOf ((padTo i l).getD i (.sc .nil)))
    rw [sliceOld, this, padTo_getD]
    simp only [List.map_cons, readAt]
    cases l[i]? with
    | none => simp [arrOf]
    | some q => cases q <;> simp [arrOf, readAt]

theorem sliceOld_read' {is : List Nat} (h : is ≠ []) (l : List P) {r : List Step} (hr : r ≠ []) :
    readAt (is.map .idx ++ r) (.arr l) = readAt r (sliceOld is l) := by
  rw [readAt_append, sliceOld_read is h]
  cases readAt (is.map Step.idx) (.arr l) with
  | none => simp [readAt_sc hr]
  | some q => simp

theorem Kept.refl (q : List Step) (p : P) : Kept q p p := ⟨fun _ => id, fun _ => Or.inl⟩

theorem pad_kept (l : List P) {i j : Nat} (hji : j ≠ i) (r : List Step) (x : P) : Kept (.idx j :: r) (.arr l) (.arr ((padTo i l).set i x)) := by
  have e : ((padTo i l).set i x)[j]? = (padTo i l)[j]? := List.getElem?_set_ne (fun h => hji h.symm)
  constructor
  · intro y hy
    simp only [readAt, e, padTo_get] at hy ⊢
    by_cases hj : j < l.length
    · rw [if_pos hj]; exact hy
    · rw [List.getElem?_eq_none (by omega)] at hy; simp at hy
  · intro y hy
    simp only [readAt, e, padTo_get] at hy ⊢
    by_cases hj : j < l.length
    · rw [if_pos hj] at hy; exact Or.inl hy
    · rw [if_neg hj] at hy
      right
      rw [List.getElem?_eq_none (by omega)]
      refine ⟨rfl, ?_⟩
      by_cases hi : j ≤ i
      · rw [if_pos hi] at hy
        cases r with
        | nil => simpa [readAt] using hy.symm
        | cons st r => simp [readAt_sc] at hy
      · rw [if_neg hi] at hy; simp at hy

theorem readAt_empty_arr {q : List Step} (h : q ≠ []) : readAt q (.arr []) = none := by
  cases q with
  | nil => exact absurd rfl h
  | cons st q => cases st <;> simp [readAt]

/-- Places apart from the indices keep their values. -/
theorem sliceSet_kept : ∀ (is : List Nat), is ≠ [] → ∀ (l : List P) (p : P) {q : List Step}, Apart q (is.map .idx) → Fits (is.map .idx) (.arr l) →
    Kept q (.arr l) (.arr (sliceSet is l p)) := by
  intro is hne l p q ha hf
  induction is generalizing l q with
  | nil => exact absurd rfl hne
  | cons i is ih =>
    cases q with
    | nil => exact absurd rfl (Apart.ne_nil ha).1
    | cons st r =>
      cases st with
      | key k => exact ⟨fun x hx => by simp [readAt] at hx, fun x hx => by simp [readAt] at hx⟩
      | idx j =>
        by_cases hji : j = i
        · subst hji
          rw [List.map_cons, Apart.cons_iff] at ha
          cases is with
          | nil => exact absurd rfl (Apart.ne_nil ha).2
          | cons j' is =>
            simp only [sliceSet]
            rw [padTo_getD]
            simp only [List.map_cons, Fits] at hf
            have hr := (Apart.ne_nil ha).1
            have hnone := ih (by simp) (l := []) (q := r) ha (by simp [Fits])
            simp only [Kept, readAt_empty_arr hr] at hnone
            cases hl : l[j]? with
            | none =>
              simp only [Kept, readAt, List.getElem?_set_self (padTo_length j l), hl, Option.bind_some, Option.bind_none, Option.getD_none, arrOf]
              exact hnone
            | some x =>
              have hfx := hf x hl
              simp only [Kept, readAt, List.getElem?_set_self (padTo_length j l), hl, Option.bind_some, Option.getD_some]
              cases x with
              | obj o => simp [Fits] at hfx
              | arr xs => exact ih (by simp) (l := xs) (q := r) ha hfx
              | sc x =>
                simp only [arrOf, readAt_sc hr]
                exact hnone
        · cases is with
          | nil => exact pad_kept l hji r _
          | cons j' is => exact pad_kept l hji r _

theorem objOf_get (q : P) (k : Str) : GMap.get k (objOf q) = match q with | .obj o => GMap.get k o | _ => none := by
  cases q with
  | obj o => simp only [objOf, GMap.get_fill]; simp [GMap.get]
  | _ => rfl

theorem objOf_read (q : P) (k : Str) (r : List Step) : readAt (.key k :: r) (.obj (objOf q)) = readAt (.key k :: r) q := by
  simp only [readAt, objOf_get]
  cases q <;> simp [readAt]

theorem pathSteps_cons (x : Str × List Nat) (l : Path) : ∃ r, pathSteps (x :: l) = .key x.1 :: r := ⟨_, rfl⟩

theorem endsInIndex_cons (x y : Str × List Nat) (l : Path) : endsInIndex (x :: y :: l) = endsInIndex (y :: l) := rfl

theorem readAt_nil_obj (k : Str) (r : List Step) : readAt (.key k :: r) (.obj []) = none := by simp [readAt, GMap.get]

/-- Reading at the path after saving there. -/
theorem savePath_read : ∀ (path : Path) {m m' : GMap P} {p : P}, savePath path m p = .ok m' →
    readAt (pathSteps path) (.obj m') = some (stored path (.obj m) p)
  | [], _, _, _, h => by simp [savePath] at h
  | [(k, [])], m, m', p, h => by
    simp only [savePath, Res.ok.injEq] at h
    subst h
    simp [pathSteps, readAt, GMap.get_set_self, stored, endsInIndex]
  | [(k, i :: is)], m, m', p, h => by
    simp only [savePath, Res.map_eq_ok] at h
    obtain ⟨l, hl, rfl⟩ := h
    have h1 := sliceSet_read (i :: is) (by simp) l (merged p (sliceOld (i :: is) l)) []
    simp only [List.append_nil] at h1
    simp only [pathSteps, List.append_nil, readAt, GMap.get_set_self, Option.bind_some, h1, stored, endsInIndex, List.isEmpty_cons, Bool.not_false, if_true]
    rw [sliceOld_read _ (by simp)]
    cases hg : GMap.get k m with
    | none => rw [hg] at hl; simp only [curArr, Res.ok.injEq] at hl; subst hl; simp [readAt]
    | some q =>
      rw [hg] at hl
      cases q with
      | arr l' => simp only [curArr, Res.ok.injEq] at hl; subst hl; simp
      | _ => simp [curArr] at hl
  | (k, []) :: y :: l, m, m', p, h => by
    simp only [savePath, Res.bind_eq_ok, Res.pure_eq_ok] at h
    obtain ⟨m0, h0, r, hr, rfl⟩ := h
    have ih := savePath_read (y :: l) hr
    have e : pathSteps ((k, []) :: y :: l) = .key k :: pathSteps (y :: l) := rfl
    rw [e]
    simp only [readAt, GMap.get_set_self, Option.bind_some, ih, stored, endsInIndex_cons, e]
    congr 4
    obtain ⟨t, ht⟩ := pathSteps_cons y l
    rw [ht]
    cases hg : GMap.get k m with
    | none => rw [hg] at h0; simp only [curObj, Res.ok.injEq] at h0; subst h0; simp [readAt_nil_obj]
    | some q =>
      rw [hg] at h0
      cases q with
      | sc x =>
        cases x with
        | nil => simp only [curObj, Res.ok.injEq] at h0; subst h0; simp [readAt_nil_obj, readAt_sc]
        | _ => simp [curObj] at h0
      | arr _ => simp [curObj] at h0
      | obj o => simp only [curObj, Res.ok.injEq] at h0; subst h0; rfl
  | (k, i :: is) :: y :: l, m, m', p, h => by
    simp only [savePath, Res.bind_eq_ok, Res.pure_eq_ok] at h
    obtain ⟨l0, h0, r, hr, rfl⟩ := h
    have ih := savePath_read (y :: l) hr
    have e : pathSteps ((k, i :: is) :: y :: l) = .key k :: ((i :: is).map .idx ++ pathSteps (y :: l)) := rfl
    rw [e]
    simp only [readAt, GMap.get_set_self, Option.bind_some, sliceSet_read (i :: is) (by simp), ih, stored, endsInIndex_cons, e]
    congr 4
    obtain ⟨t, ht⟩ := pathSteps_cons y l
    rw [ht, objOf_read, ← sliceOld_read' (by simp) _ (by simp)]
    cases hg : GMap.get k m with
    | none => rw [hg] at h0; simp only [curArr, Res.ok.injEq] at h0; subst h0; simp [readAt]
    | some q =>
      rw [hg] at h0
      cases q with
      | arr l' => simp only [curArr, Res.ok.injEq] at h0; subst h0; rfl
      | _ => simp [curArr] at h0

theorem set_kept (m : GMap P) {k k' : Str} (hk : k' ≠ k) (r : List Step) (x : P) : Kept (.key k' :: r) (.obj m) (.obj (GMap.set k x m)) := by
  simp only [Kept, readAt, GMap.get_set_ne hk]
  exact ⟨fun _ => id, fun _ => Or.inl⟩

theorem fits_append : ∀ (a b : List Step) {p : P}, Fits (a ++ b) p → Fits a p ∧ ∀ q, readAt a p = some q → Fits b q
  | [], b, p, h => ⟨by simp [Fits], fun q hq => by simp [readAt] at hq; subst hq; exact h⟩
  | .key k :: a, b, .obj m, h => by
    simp only [List.cons_append, Fits] at h ⊢
    refine ⟨fun q hq => (fits_append a b (h q hq)).1, ?_⟩
    intro q hq
    simp only [readAt, Option.bind_eq_some_iff] at hq
    obtain ⟨x, hx, hq⟩ := hq
    exact (fits_append a b (h x hx)).2 q hq
  | .idx i :: a, b, .arr ps, h => by
    simp only [List.cons_append, Fits] at h ⊢
    refine ⟨fun q hq => (fits_append a b (h q hq)).1, ?_⟩
    intro q hq
    simp only [readAt, Option.bind_eq_some_iff] at hq
    obtain ⟨x, hx, hq⟩ := hq
    exact (fits_append a b (h x hx)).2 q hq
  | .key k :: a, b, .arr _, h => by simp [Fits] at h
  | .key k :: a, b, .sc _, h => ⟨by simp [Fits], fun q hq => by simp [readAt] at hq⟩
  | .idx i :: a, b, .obj _, h => by simp [Fits] at h
  | .idx i :: a, b, .sc _, h => ⟨by simp [Fits], fun q hq => by simp [readAt] at hq⟩

theorem curArr_fits {m : GMap P} {k : Str} {l0 : List P} {st : List Step} (h0 : curArr (GMap.get k m) = .ok l0) {i : Nat} (hf : Fits (.key k :: .idx i :: st) (.obj m)) :
    Fits (.idx i :: st) (.arr l0) := by
  cases hg : GMap.get k m with
  | none => rw [hg] at h0; simp only [curArr, Res.ok.injEq] at h0; subst h0; simp [Fits]
  | some q =>
    rw [hg] at h0
    cases q with
    | arr l' => simp only [curArr, Res.ok.injEq] at h0; subst h0; exact hf _ hg
    | _ => simp [curArr] at h0

/-- Under a key that holds an array or nothing. -/
theorem key_kept_arr {m : GMap P} {k : Str} {l0 l1 : List P} (h0 : curArr (GMap.get k m) = .ok l0) {r : List Step} (hr : r ≠ []) (h : Kept r (.arr l0) (.arr l1)) :
    Kept (.key k :: r) (.obj m) (.obj (GMap.set k (.arr l1) m)) := by
  simp only [Kept, readAt, GMap.get_set_self, Option.bind_some]
  cases hg : GMap.get k m with
  | none =>
    rw [hg] at h0; simp only [curArr, Res.ok.injEq] at h0; subst h0
    simpa [Kept, readAt_empty_arr hr] using h
  | some q =>
    rw [hg] at h0
    cases q with
    | arr l' => simp only [curArr, Res.ok.injEq] at h0; subst h0; exact h
    | _ => simp [curArr] at h0

/-- Places apart from the path keep their values. -/
theorem savePath_kept : ∀ (path : Path) {m m' : GMap P} {p : P} {q : List Step}, savePath path m p = .ok m' → Fits (pathSteps path) (.obj m) →
    Apart q (pathSteps path) → Kept q (.obj m) (.obj m')
  | [], _, _, _, _, h, _, _ => by simp [savePath] at h
  | (k, is) :: l, m, m', p, [], _, _, ha => absurd rfl (Apart.ne_nil ha).1
  | (k, is) :: l, m, m', p, .idx j :: q, _, _, _ => ⟨fun x hx => by simp [readAt] at hx, fun x hx => by simp [readAt] at hx⟩
  | [(k, [])], m, m', p, .key k' :: q, h, _, ha => by
    simp only [savePath, Res.ok.injEq] at h
    subst h
    refine set_kept m ?_ q p
    rintro rfl
    simp only [pathSteps, List.map_nil, List.append_nil, List.cons_append, Apart.cons_iff] at ha
    exact (Apart.ne_nil ha).2 rfl
  | [(k, i :: is)], m, m', p, .key k' :: q, h, hf, ha => by
    simp only [savePath, Res.map_eq_ok] at h
    obtain ⟨l, hl, rfl⟩ := h
    by_cases hk : k' = k
    · subst hk
      have e : pathSteps [(k', i :: is)] = .key k' :: (i :: is).map .idx := by simp [pathSteps]
      rw [e] at ha hf
      rw [Apart.cons_iff] at ha
      exact key_kept_arr hl (Apart.ne_nil ha).1 (sliceSet_kept (i :: is) (by simp) l _ ha (curArr_fits hl hf))
    · exact set_kept m hk q _
  | (k, []) :: y :: l, m, m', p, .key k' :: q, h, hf, ha => by
    simp only [savePath, Res.bind_eq_ok, Res.pure_eq_ok] at h
    obtain ⟨m0, h0, r, hr, rfl⟩ := h
    by_cases hk : k' = k
    · subst hk
      have e : pathSteps ((k', []) :: y :: l) = .key k' :: pathSteps (y :: l) := rfl
      rw [e] at ha hf
      rw [Apart.cons_iff] at ha
      have hq := (Apart.ne_nil ha).1
      obtain ⟨t, ht⟩ := pathSteps_cons y l
      simp only [Kept, readAt, GMap.get_set_self, Option.bind_some]
      have empty : m0 = [] → Kept q (.obj []) (.obj r) := by
        rintro rfl
        exact savePath_kept (y :: l) hr (by rw [ht]; simp [Fits, GMap.get]) ha
      have hnone : readAt q (.obj []) = none := by
        cases q with
        | nil => exact absurd rfl hq
        | cons st q => cases st <;> simp [readAt, GMap.get]
      cases hg : GMap.get k' m with
      | none =>
        rw [hg] at h0; simp only [curObj, Res.ok.injEq] at h0
        simpa [Kept, hnone] using empty h0.symm
      | some x =>
        rw [hg] at h0
        cases x with
        | sc x =>
          cases x with
          | nil =>
            simp only [curObj, Res.ok.injEq] at h0
            simpa [Kept, hnone, readAt_sc hq] using empty h0.symm
          | _ => simp [curObj] at h0
        | arr _ => simp [curObj] at h0
        | obj o =>
          simp only [curObj, Res.ok.injEq] at h0; subst h0
          exact savePath_kept (y :: l) hr (hf _ hg) ha
    · exact set_kept m hk q _
  | (k, i :: is) :: y :: l, m, m', p, .key k' :: q, h, hf, ha => by
    simp only [savePath, Res.bind_eq_ok, Res.pure_eq_ok] at h
    obtain ⟨l0, h0, r, hr, rfl⟩ := h
    by_cases hk : k' = k
    · subst hk
      have e : pathSteps ((k', i :: is) :: y :: l) = .key k' :: ((i :: is).map .idx ++ pathSteps (y :: l)) := rfl
      rw [e] at ha hf
      rw [Apart.cons_iff] at ha
      have hfa := curArr_fits h0 hf
      have hfa' : Fits ((i :: is).map .idx ++ pathSteps (y :: l)) (.arr l0) := hfa
      obtain ⟨f1, f2⟩ := fits_append _ _ hfa'
      refine key_kept_arr h0 (Apart.ne_nil ha).1 ?_
      rcases Apart.split _ ha with ha' | ⟨q', rfl, ha'⟩
      · exact sliceSet_kept (i :: is) (by simp) l0 _ ha' f1
      · have hq := (Apart.ne_nil ha').1
        simp only [Kept, sliceSet_read (i :: is) (by simp), sliceOld_read' (is := i :: is) (by simp) l0 hq]
        obtain ⟨t, ht⟩ := pathSteps_cons y l
        have hold : readAt ((i :: is).map .idx) (.arr l0) = none ∧ sliceOld (i :: is) l0 = .sc .nil ∨
            readAt ((i :: is).map .idx) (.arr l0) = some (sliceOld (i :: is) l0) := by
          rw [sliceOld_read _ (by simp)]
          cases readAt ((i :: is).map .idx) (.arr l0) with
          | none => exact Or.inl ⟨rfl, rfl⟩
          | some x => exact Or.inr rfl
        have hfo : Fits (pathSteps (y :: l)) (sliceOld (i :: is) l0) := by
          rcases hold with ⟨_, h⟩ | h
          · rw [h, ht]; simp [Fits]
          · exact f2 _ h
        generalize sliceOld (i :: is) l0 = old at hr hfo
        have hfo' : Fits (pathSteps (y :: l)) (.obj (objOf old)) := by
          rw [ht] at hfo ⊢
          simp only [Fits]
          intro x hx
          rw [objOf_get] at hx
          cases old with
          | obj o => exact hfo x hx
          | _ => simp at hx
        have ih := savePath_kept (y :: l) (q := q') hr hfo' ha'
        have hsame : readAt q' (.obj (objOf old)) = readAt q' old := by
          cases q' with
          | nil => exact absurd rfl hq
          | cons st q' =>
            cases st with
            | key k => exact objOf_read old k q'
            | idx j =>
              cases old with
              | arr _ => rw [ht] at hfo; simp [Fits] at hfo
              | _ => rfl
        rw [Kept, hsame] at ih
        exact ih
    · exact set_kept m hk q _

/-! ### In memory -/

theorem Own.ne_nil {h : Heap} {p : P} {v : V} {A : Nat → Prop} (ho : Own h p v A) (hp : p ≠ .sc .nil) : v ≠ V.nil := by
  rintro rfl
  cases p with
  | sc s => simp only [Own, V.nil, V.sc.injEq] at ho; subst ho; exact hp rfl
  | arr _ => simp only [Own] at ho; obtain ⟨_, _, _, h, _⟩ := ho; simp [V.nil] at h
  | obj _ => simp only [Own] at ho; obtain ⟨_, _, _, h, _⟩ := ho; simp [V.nil] at h

/-- `saveInTree` on documents without sharing computes `savePath`; paths may start with `$.`. -/
theorem saveInTree_own {path : Path} (hg : GoodPath path) {text : Str} (ht : text = pathText path ∨ text = g!"$." ++ pathText path) {s : St} {m : GMap P} {p : P} {tree : Nat}
    {value : V} {A B : Nat → Prop} (ho : Own s.heap (.obj m) (.obj tree) A) (hv : Own s.heap p value B) (hd : ∀ x, A x → ¬ B x) (hp : p ≠ .sc .nil) :
    SaveRes (savePath path m p) (saveInTree tree text value s) s tree A B := by
  have key : ∀ b, SaveRes (savePath path m p) (saveSplits b (path.map partText) tree value s) s tree A B := by
    intro b
    have := saveSplits_own path hg b s m p tree value _ _ (fun x hx => hx.2) (fun x hx => hx.2) (Own.bound ho) (Own.bound hv) (fun x hx hx' => hd x hx.1 hx'.1)
    unfold SaveRes at this ⊢
    cases hr : savePath path m p with
    | err => rw [hr] at this; exact this
    | panic => rw [hr] at this; exact this
    | ok m' =>
      rw [hr] at this
      obtain ⟨h1, h2, h3⟩ := this
      refine ⟨h1, Own.mono ?_ (fun _ _ _ => id) h2, ⟨h3.le, fun a ha hn => h3.old a ha ?_, h3.instrs, h3.shared, h3.tick, h3.ilog⟩⟩
      · rintro x (h | h | h)
        · exact Or.inl h.1
        · exact Or.inr (Or.inl h.1)
        · exact Or.inr (Or.inr h)
      · rintro (h | h)
        · exact hn (Or.inl h.1)
        · exact hn (Or.inr h.1)
  unfold saveInTree
  rw [if_neg (Own.ne_nil hv hp)]
  rcases ht with rfl | rfl
  · rw [splitC_path hg]
    exact key true
  · have e : splitC '.' (g!"$." ++ pathText path) = g!"$" :: path.map partText := by
      have := splitC_append '.' g!"$" (pathText path) (by decide)
      rw [splitC_path hg] at this
      exact this
    rw [e]
    obtain ⟨x, l, rfl⟩ : ∃ x l, path = x :: l := by
      cases path with
      | nil => exact absurd rfl hg.1
      | cons x l => exact ⟨x, l, rfl⟩
    have : saveSplits true (g!"$" :: (x :: l).map partText) tree value = saveSplits false ((x :: l).map partText) tree value := by
      rw [List.map_cons, saveSplits, if_pos ⟨rfl, rfl⟩]
    rw [this]
    exact key false

/-- **C22**: in a document whose parts are not shared, after saving a value other than nil at a path that fits the document, the path holds the value
(merged, if it is an object saved over an object in an array), every place apart from the path keeps its value (a missing array entry before the saved
one becomes null), the document is still without sharing, and no other data in memory has changed.
Missing: paths that do not fit the document, shared parts, and exact read-back of objects in arrays, where it is false (below). -/
theorem C22_partial {path : Path} (hg : GoodPath path) {text : Str} (ht : text = pathText path ∨ text = g!"$." ++ pathText path) {s s' : St} {m : GMap P} {p : P}
    {tree : Nat} {value : V} {A B : Nat → Prop} (ho : Own s.heap (.obj m) (.obj tree) A) (hv : Own s.heap p value B) (hd : ∀ x, A x → ¬ B x) (hp : p ≠ .sc .nil)
    (h : saveInTree tree text value s = (.ok (), s')) :
    ∃ m', Own s'.heap (.obj m') (.obj tree) (fun y => A y ∨ B y ∨ s.heap.length ≤ y) ∧
      readAt (pathSteps path) (.obj m') = some (stored path (.obj m) p) ∧
      (Fits (pathSteps path) (.obj m) → ∀ q, Apart q (pathSteps path) → Kept q (.obj m) (.obj m')) ∧
      (∀ a < s.heap.length, ¬ A a → ¬ B a → s'.heap[a]? = s.heap[a]?) ∧ s'.instrs = s.instrs := by
  have hs := saveInTree_own hg ht ho hv hd hp
  rw [h] at hs
  cases hr : savePath path m p with
  | err => rw [hr] at hs; simp [SaveRes] at hs
  | panic => rw [hr] at hs; simp [SaveRes] at hs
  | ok m' =>
    rw [hr] at hs
    obtain ⟨_, h2, h3⟩ := hs
    refine ⟨m', h2, savePath_read path hr, fun hf q hq => savePath_kept path hr hf hq, ?_, h3.instrs⟩
    intro a ha hA hB
    refine h3.old a ha ?_
    rintro (h | h)
    · exact hA h
    · exact hB h

/-- Saving nil changes nothing. -/
theorem C22_nil (tree : Addr) (text : Str) (s : St) : saveInTree tree text V.nil s = (.ok (), s) := by
  unfold saveInTree
  rw [if_pos rfl]
  rfl

namespace Spec
/-- The document has objects where the path names a property and arrays where it has an index, as far as it goes. -/
def Shaped : List Step → P → Prop
  | [], _ => True
  | .key k :: l, .obj m => ∀ q, GMap.get k m = some q → Shaped l q
  | .key _ :: _, .sc .nil => True
  | .idx i :: l, .arr ps => ∀ q, ps[i]? = some q → Shaped l q
  | _ :: _, _ => False
end Spec

theorem Shaped.fits : ∀ (l : List Step) {p : P}, Shaped l p → Fits l p
  | [], _, _ => by simp [Fits]
  | .key k :: l, .obj m, h => by simp only [Shaped, Fits] at h ⊢; exact fun q hq => Shaped.fits l (h q hq)
  | .key k :: l, .sc _, _ => by simp [Fits]
  | .key k :: l, .arr _, h => by simp [Shaped] at h
  | .idx i :: l, .arr ps, h => by simp only [Shaped, Fits] at h ⊢; exact fun q hq => Shaped.fits l (h q hq)
  | .idx i :: l, .obj _, h => by simp [Shaped] at h
  | .idx i :: l, .sc _, h => by simp [Shaped] at h

theorem Shaped.read : ∀ (a b : List Step) {p : P}, Shaped (a ++ b) p → ∀ q, readAt a p = some q → Shaped b q
  | [], b, p, h => fun q hq => by simp [readAt] at hq; subst hq; exact h
  | .key k :: a, b, .obj m, h => by
    simp only [List.cons_append, Shaped] at h
    intro q hq
    simp only [readAt, Option.bind_eq_some_iff] at hq
    obtain ⟨x, hx, hq⟩ := hq
    exact Shaped.read a b (h x hx) q hq
  | .idx i :: a, b, .arr ps, h => by
    simp only [List.cons_append, Shaped] at h
    intro q hq
    simp only [readAt, Option.bind_eq_some_iff] at hq
    obtain ⟨x, hx, hq⟩ := hq
    exact Shaped.read a b (h x hx) q hq
  | .key k :: a, b, .arr _, h => fun q hq => by simp [readAt] at hq
  | .key k :: a, b, .sc _, h => fun q hq => by simp [readAt] at hq
  | .idx i :: a, b, .obj _, h => fun q hq => by simp [readAt] at hq
  | .idx i :: a, b, .sc _, h => fun q hq => by simp [readAt] at hq

theorem shaped_curArr {m : GMap P} {k : Str} {i : Nat} {st : List Step} (h : Shaped (.key k :: .idx i :: st) (.obj m)) : ∃ l, curArr (GMap.get k m) = .ok l := by
  cases hg : GMap.get k m with
  | none => exact ⟨_, rfl⟩
  | some q =>
    have := h q hg
    cases q with
    | arr l => exact ⟨_, rfl⟩
    | sc x => cases x <;> simp [Shaped] at this
    | obj _ => simp [Shaped] at this

theorem savePath_ok : ∀ (path : Path), path ≠ [] → ∀ {m : GMap P} (p : P), Shaped (pathSteps path) (.obj m) → ∃ m', savePath path m p = .ok m'
  | [], h, _, _, _ => absurd rfl h
  | [(k, [])], _, m, p, _ => ⟨_, rfl⟩
  | [(k, i :: is)], _, m, p, h => by
    obtain ⟨l, hl⟩ := shaped_curArr h
    simp only [savePath, hl]
    exact ⟨_, rfl⟩
  | (k, []) :: y :: l, _, m, p, h => by
    have h' : Shaped (.key k :: pathSteps (y :: l)) (.obj m) := h
    obtain ⟨t, ht⟩ := pathSteps_cons y l
    have hempty : Shaped (pathSteps (y :: l)) (.obj []) := by rw [ht]; simp [Shaped, GMap.get]
    have : ∃ m0, curObj (GMap.get k m) = .ok m0 ∧ Shaped (pathSteps (y :: l)) (.obj m0) := by
      cases hg : GMap.get k m with
      | none => exact ⟨_, rfl, hempty⟩
      | some q =>
        have hq := h' q hg
        cases q with
        | arr l => rw [ht] at hq; simp [Shaped] at hq
        | obj o => exact ⟨_, rfl, hq⟩
        | sc x =>
          cases x with
          | nil => exact ⟨_, rfl, hempty⟩
          | _ => rw [ht] at hq; simp [Shaped] at hq
    obtain ⟨m0, h0, hs⟩ := this
    obtain ⟨r, hr⟩ := savePath_ok (y :: l) (by simp) p hs
    refine ⟨GMap.set k (.obj r) m, ?_⟩
    simp only [savePath, Res.bind_eq_ok, Res.pure_eq_ok]
    exact ⟨m0, h0, r, hr, rfl⟩
  | (k, i :: is) :: y :: l, _, m, p, h => by
    obtain ⟨l0, hl⟩ := shaped_curArr h
    obtain ⟨t, ht⟩ := pathSteps_cons y l
    have hs0 : Shaped ((i :: is).map .idx ++ pathSteps (y :: l)) (.arr l0) := by
      cases hg : GMap.get k m with
      | none => rw [hg] at hl; simp only [curArr, Res.ok.injEq] at hl; subst hl; simp [Shaped]
      | some q =>
        rw [hg] at hl
        cases q with
        | arr l => simp only [curArr, Res.ok.injEq] at hl; subst hl; exact h _ hg
        | _ => simp [curArr] at hl
    have hs : Shaped (pathSteps (y :: l)) (.obj (objOf (sliceOld (i :: is) l0))) := by
      rw [sliceOld_read _ (by simp)]
      rw [ht]
      simp only [Shaped]
      intro x hx
      rw [objOf_get] at hx
      cases hr : readAt (List.map Step.idx (i :: is)) (P.arr l0) with
      | none => rw [hr] at hx; simp at hx
      | some q =>
        rw [hr] at hx
        have := Shaped.read _ _ hs0 q hr
        cases q with
        | obj o => rw [ht] at this; exact this x hx
        | _ => simp at hx
    obtain ⟨r, hr⟩ := savePath_ok (y :: l) (by simp) p hs
    refine ⟨GMap.set k (.arr (sliceSet (i :: is) l0 (.obj r))) m, ?_⟩
    simp only [savePath, Res.bind_eq_ok, Res.pure_eq_ok]
    exact ⟨l0, hl, r, hr, rfl⟩

/-- Saving succeeds when the document has the shape the path supposes. -/
theorem C22_succeeds {path : Path} (hg : GoodPath path) {text : Str} (ht : text = pathText path ∨ text = g!"$." ++ pathText path) {s : St} {m : GMap P} {p : P}
    {tree : Nat} {value : V} {A B : Nat → Prop} (ho : Own s.heap (.obj m) (.obj tree) A) (hv : Own s.heap p value B) (hd : ∀ x, A x → ¬ B x) (hp : p ≠ .sc .nil)
    (hsh : Shaped (pathSteps path) (.obj m)) : ∃ s', saveInTree tree text value s = (.ok (), s') := by
  have hs := saveInTree_own hg ht ho hv hd hp
  obtain ⟨m', hr⟩ := savePath_ok path hg.1 p hsh
  rw [hr] at hs
  exact ⟨_, by rw [← hs.1]⟩

mutual
/-- A value in memory stands for one document. -/
theorem Own.unique {h : Heap} : ∀ {p p' : P} {v : V} {A A' : Nat → Prop}, Own h p v A → Own h p' v A' → p = p'
  | .sc s, p', v, A, A', h1, h2 => by
    simp only [Own] at h1
    subst h1
    cases p' with
    | sc s' => simp only [Own, V.sc.injEq] at h2; rw [h2]
    | arr _ => simp [Own] at h2
    | obj _ => simp [Own] at h2
  | .arr ps, p', v, A, A', h1, h2 => by
    simp only [Own] at h1
    obtain ⟨a, vs, B, rfl, hc, _, _, _, hl⟩ := h1
    cases p' with
    | sc s' => simp [Own] at h2
    | arr ps' =>
      simp only [Own] at h2
      obtain ⟨a', vs', B', e, hc', _, _, _, hl'⟩ := h2
      simp only [V.arr.injEq] at e
      subst e
      rw [hc] at hc'
      simp only [Option.some.injEq, Cell.slice.injEq] at hc'
      subst hc'
      rw [OwnL.unique hl hl']
    | obj _ => simp [Own] at h2
  | .obj ps, p', v, A, A', h1, h2 => by
    simp only [Own] at h1
    obtain ⟨a, vs, B, rfl, hc, _, _, _, _, hl⟩ := h1
    cases p' with
    | sc s' => simp [Own] at h2
    | arr _ => simp [Own] at h2
    | obj ps' =>
      simp only [Own] at h2
      obtain ⟨a', vs', B', e, hc', _, _, _, _, hl'⟩ := h2
      simp only [V.obj.injEq] at e
      subst e
      rw [hc] at hc'
      simp only [Option.some.injEq, Cell.map.injEq] at hc'
      subst hc'
      rw [OwnM.unique hl hl']
theorem OwnL.unique {h : Heap} : ∀ {ps ps' : List P} {vs : List V} {A A' : Nat → Prop}, OwnL h ps vs A → OwnL h ps' vs A' → ps = ps'
  | [], ps', vs, A, A', h1, h2 => by
    simp only [OwnL] at h1
    subst h1
    cases ps' with
    | nil => rfl
    | cons _ _ => simp [OwnL] at h2
  | p :: ps, ps', vs, A, A', h1, h2 => by
    simp only [OwnL] at h1
    obtain ⟨v, vs', B, C, rfl, h3, h4, _⟩ := h1
    cases ps' with
    | nil => simp [OwnL] at h2
    | cons p' ps' =>
      simp only [OwnL] at h2
      obtain ⟨v', vs2, B', C', e, h5, h6, _⟩ := h2
      simp only [List.cons.injEq] at e
      obtain ⟨rfl, rfl⟩ := e
      rw [Own.unique h3 h5, OwnL.unique h4 h6]
theorem OwnM.unique {h : Heap} : ∀ {ps ps' : List (Str × P)} {vs : GMap V} {A A' : Nat → Prop}, OwnM h ps vs A → OwnM h ps' vs A' → ps = ps'
  | [], ps', vs, A, A', h1, h2 => by
    simp only [OwnM] at h1
    subst h1
    cases ps' with
    | nil => rfl
    | cons _ _ => simp [OwnM] at h2
  | (k, p) :: ps, ps', vs, A, A', h1, h2 => by
    simp only [OwnM] at h1
    obtain ⟨v, vs', B, C, rfl, h3, h4, _⟩ := h1
    cases ps' with
    | nil => simp [OwnM] at h2
    | cons p' ps' =>
      obtain ⟨k', p'⟩ := p'
      simp only [OwnM] at h2
      obtain ⟨v', vs2, B', C', e, h5, h6, _⟩ := h2
      simp only [List.cons.injEq, Prod.mk.injEq] at e
      obtain ⟨⟨rfl, rfl⟩, rfl⟩ := e
      rw [Own.unique h3 h5, OwnM.unique h4 h6]
end

/-- **C22, full statement**: after saving, the path holds exactly the value, and every place apart from it reads as before. -/
def C22_statement : Prop :=
  ∀ (path : Path) (s s' : St) (m : GMap P) (p : P) (tree : Nat) (value : V) (A B : Nat → Prop), GoodPath path → Own s.heap (.obj m) (.obj tree) A → Own s.heap p value B →
    (∀ x, A x → ¬ B x) → p ≠ .sc .nil → saveInTree tree (pathText path) value s = (.ok (), s') →
    ∃ m' A', Own s'.heap (.obj m') (.obj tree) A' ∧ readAt (pathSteps path) (.obj m') = some p ∧
      ∀ q, Apart q (pathSteps path) → readAt q (.obj m') = readAt q (.obj m)

namespace C22ex
open Toy
/-- The document `{"a":[{"x":1}]}` in memory, and an empty object besides. -/
def heap : Heap := [.map [(g!"x", .sc (.int 1))], .slice [.obj 0], .map [(g!"a", .arr 1)], .map []]
def st : St := ⟨heap, [], 0, [], [], 0⟩
def doc : GMap P := [(g!"a", a [o [(g!"x", i 1)]])]
theorem own : Own heap (.obj doc) (.obj 2) (fun x => x < 3) := by
  simp only [Own, doc, OwnM, OwnL]
  refine ⟨2, _, fun x => x < 2, rfl, rfl, by simp [GMap.Sorted], by decide, by decide, fun x hx => by omega, .arr 1, [], fun x => x < 2, fun _ => False, rfl, ?_, rfl,
    fun _ => id, by simp, by simp⟩
  refine ⟨1, _, fun x => x < 1, rfl, rfl, by decide, by decide, fun x hx => by omega, .obj 0, [], fun x => x < 1, fun _ => False, rfl, ?_, rfl, fun _ => id, by simp, by simp⟩
  exact ⟨0, _, fun _ => False, rfl, rfl, by simp [GMap.Sorted], by decide, by simp, by simp, .sc (.int 1), [], fun _ => False, fun _ => False, rfl, rfl, rfl, by simp, by simp, by simp⟩
theorem own5 : Own heap (i 5) (.sc (.int 5)) (fun _ => False) := by simp [Own]
theorem ownEmpty : Own heap (o []) (.obj 3) (fun x => x = 3) := by
  simp only [Own]
  exact ⟨3, _, fun _ => False, rfl, rfl, by simp [GMap.Sorted], rfl, by simp, by simp, by simp [OwnM]⟩
/-- The document after saving a value. -/
def after (path : Path) (v : V) : Option Str := match saveInTree 2 (pathText path) v st with
  | (.ok (), s') => (s'.heap.toP (.obj 2)).map lib.render
  | _ => none
example : pathText [(g!"a", [1]), (g!"y", [])] = g!"a[1].y" := by decide +kernel
example : GoodPath [(g!"a", [1]), (g!"y", [])] := by unfold GoodPath; decide
example : Fits (pathSteps [(g!"a", [1]), (g!"y", [])]) (.obj doc) := by simp [pathSteps, Fits, doc, GMap.get]
example : after [(g!"a", [1]), (g!"y", [])] (.sc (.int 5)) = some g!"{a:[{x:1},{y:5}]}" := by decide +kernel
example : after [(g!"a", [0]), (g!"y", [2])] (.sc (.int 5)) = some g!"{a:[{x:1,y:[null,null,5]}]}" := by decide +kernel
example : after [(g!"a", [0, 0])] (.sc (.int 5)) = some g!"{a:[[5]]}" := by decide +kernel
example : after [(g!"a", [0])] (.obj 3) = some g!"{a:[{x:1}]}" := by decide +kernel
end C22ex

/-- What the full statement would say about the computed documents. -/
theorem C22_statement_savePath (hc : C22_statement) {path : Path} {s : St} {m m' : GMap P} {p : P} {tree : Nat} {value : V} {A B : Nat → Prop} (hg : GoodPath path)
    (ho : Own s.heap (.obj m) (.obj tree) A) (hv : Own s.heap p value B) (hd : ∀ x, A x → ¬ B x) (hp : p ≠ .sc .nil) (h : savePath path m p = .ok m') :
    readAt (pathSteps path) (.obj m') = some p ∧ ∀ q, Apart q (pathSteps path) → readAt q (.obj m') = readAt q (.obj m) := by
  have hs := saveInTree_own hg (Or.inl rfl) ho hv hd hp
  rw [h] at hs
  obtain ⟨m2, A', h1, h2, h3⟩ := hc path s (saveInTree tree (pathText path) value s).2 m p tree value A B hg ho hv hd hp (by
    rw [← hs.1])
  have := Own.unique h1 hs.2.1
  simp only [P.obj.injEq] at this
  subst this
  exact ⟨h2, h3⟩

/-- C22 is false in general: saving at `a[0][0]` in `{"a":[{"x":1}]}` loses the object at `a[0]`, although `a[0].x` is apart from that path. -/
theorem C22_refuted_conflict : ¬ C22_statement := by
  intro hc
  have h := (C22_statement_savePath hc (path := [(g!"a", [0, 0])]) (s := C22ex.st) (by unfold GoodPath; decide) C22ex.own C22ex.own5 (by simp) (by simp) rfl).2
    [.key g!"a", .idx 0, .key g!"x"] (by
    constructor
    · rintro ⟨t, e⟩; simp [pathSteps] at e
    · rintro ⟨t, e⟩; simp [pathSteps] at e)
  simp [readAt, GMap.get, C22ex.doc, GMap.set, sliceSet, sliceOld, padTo, arrOf] at h

/-- C22 is false in general: an object saved in an array over an object reads back with the entries of the old one. -/
theorem C22_refuted_merge : ¬ C22_statement := by
  intro hc
  have h := (C22_statement_savePath hc (path := [(g!"a", [0])]) (s := C22ex.st) (by unfold GoodPath; decide) C22ex.own C22ex.ownEmpty (fun x hx hx' => by omega) (by simp) rfl).1
  simp [C22ex.doc, pathSteps, readAt, GMap.get, merged, GMap.fill, GMap.set, sliceSet, sliceOld, padTo] at h

/-- C22 is false in general: entries an array lacked become null when a later one is saved. -/
theorem C22_refuted_padding : ¬ C22_statement := by
  intro hc
  have h := (C22_statement_savePath hc (path := [(g!"a", [2])]) (s := C22ex.st) (by unfold GoodPath; decide) C22ex.own C22ex.own5 (by simp) (by simp) rfl).2
    [.key g!"a", .idx 1] (by
    constructor
    · rintro ⟨t, e⟩; simp [pathSteps] at e
    · rintro ⟨t, e⟩; simp [pathSteps] at e)
  simp [readAt, GMap.get, C22ex.doc, GMap.set, sliceSet, sliceOld, padTo] at h

/-! ### C23 -/

/-- **C23**: saving at index `i` of an array (missing arrays are empty): the array gets `max length (i+1)` entries, entry `i` is the value, or for an object over an
object the merged one, entries that existed stay and the others are null. -/
theorem C23 (i : Nat) (hi : i < 2 ^ 63) {s : St} {cur : Option Addr} {ps : List P} {p : P} {value : V} {A B : Nat → Prop} (hc : CurOwn s.heap cur ps A)
    (hv : Own s.heap p value B) (hd : ∀ x, A x → ¬ B x) :
    ∃ a' s' ps', saveInSlice [itoaNat i ++ g!"]"] cur value s = (.ok a', s') ∧ Own s'.heap (.arr ps') (.arr a') (fun x => A x ∨ B x ∨ s.heap.length ≤ x) ∧
      ps'.length = max ps.length (i + 1) ∧ ps'[i]? = some (merged p (ps[i]?.getD (.sc .nil))) ∧
      (∀ j < ps.length, j ≠ i → ps'[j]? = ps[j]?) ∧ ∀ j, ps.length ≤ j → j < i → ps'[j]? = some (.sc .nil) := by
  have hc' : CurOwn s.heap cur ps (fun x => A x ∧ x < s.heap.length) := by
    cases cur with
    | none => exact hc
    | some a => exact Own.bound hc
  obtain ⟨a', s', D, C, h1, h2, h3, h4, h5, h6, h7, h8⟩ := saveInSlice_own [i] (by simp) (by simpa using hi) s cur ps p value _ _ (fun x hx => hx.2) (fun x hx => hx.2) hc'
    (Own.bound hv) (fun x hx hx' => hd x hx.1 hx'.1)
  have hown := h8 s'.heap _ D (fun x => A x ∨ B x ∨ s.heap.length ≤ x) (fun _ _ _ => id) h3 h7 (fun x hx => by
    rcases h4 x hx with h | h | h
    · exact Or.inl h.1
    · exact Or.inr (Or.inl h.1)
    · exact Or.inr (Or.inr h)) (fun x hx => by
    rcases h5 x hx with h | h
    · exact Or.inl h.1
    · exact Or.inr (Or.inr h))
  refine ⟨a', s', _, h1, hown, ?_, ?_, ?_, ?_⟩
  · simp [sliceSet, padTo]; omega
  · simp only [sliceSet, sliceOld, padTo_getD]
    rw [List.getElem?_set_self (padTo_length i ps)]
  · intro j hj hji
    simp only [sliceSet]
    rw [List.getElem?_set_ne (fun h => hji h.symm), padTo_get, if_pos hj]
  · intro j hj hji
    simp only [sliceSet]
    rw [List.getElem?_set_ne (by omega), padTo_get, if_neg (by omega), if_pos (by omega)]

/-- What merging means: the entries of the new object, and those of the old one under other keys. -/
theorem C23_merged (n o : GMap P) (k : Str) : ∃ m, merged (.obj n) (.obj o) = .obj m ∧ GMap.get k m = (GMap.get k n).or (GMap.get k o) :=
  ⟨_, rfl, GMap.get_fill n o k⟩

/-- Nested indices: the value is found at the indices, and places apart from them keep their values, if no object is in the way. -/
theorem C23_nested {is : List Nat} (hne : is ≠ []) (hi : ∀ i ∈ is, i < 2 ^ 63) {s : St} {cur : Option Addr} {ps : List P} {p : P} {value : V} {A B : Nat → Prop}
    (hc : CurOwn s.heap cur ps A) (hv : Own s.heap p value B) (hd : ∀ x, A x → ¬ B x) :
    ∃ a' s' ps', saveInSlice (is.map fun i => itoaNat i ++ g!"]") cur value s = (.ok a', s') ∧ Own s'.heap (.arr ps') (.arr a') (fun x => A x ∨ B x ∨ s.heap.length ≤ x) ∧
      readAt (is.map .idx) (.arr ps') = some (merged p ((readAt (is.map .idx) (.arr ps)).getD (.sc .nil))) ∧
      (Fits (is.map .idx) (.arr ps) → ∀ q, Apart q (is.map .idx) → Kept q (.arr ps) (.arr ps')) := by
  have hc' : CurOwn s.heap cur ps (fun x => A x ∧ x < s.heap.length) := by
    cases cur with
    | none => exact hc
    | some a => exact Own.bound hc
  obtain ⟨a', s', D, C, h1, h2, h3, h4, h5, h6, h7, h8⟩ := saveInSlice_own is hne hi s cur ps p value _ _ (fun x hx => hx.2) (fun x hx => hx.2) hc'
    (Own.bound hv) (fun x hx hx' => hd x hx.1 hx'.1)
  have hown := h8 s'.heap _ D (fun x => A x ∨ B x ∨ s.heap.length ≤ x) (fun _ _ _ => id) h3 h7 (fun x hx => by
    rcases h4 x hx with h | h | h
    · exact Or.inl h.1
    · exact Or.inr (Or.inl h.1)
    · exact Or.inr (Or.inr h)) (fun x hx => by
    rcases h5 x hx with h | h
    · exact Or.inl h.1
    · exact Or.inr (Or.inr h))
  refine ⟨a', s', _, h1, hown, ?_, fun hf q hq => sliceSet_kept is hne ps _ hq hf⟩
  have := sliceSet_read is hne ps (merged p (sliceOld is ps)) []
  rw [List.append_nil] at this
  rw [this, sliceOld_read is hne]
  rfl

example : CurOwn C22ex.heap (some 1) [Toy.o [(g!"x", Toy.i 1)]] (fun x => x < 2) := by
  simp only [CurOwn, Own, OwnL]
  refine ⟨1, _, fun x => x < 1, rfl, rfl, by decide, by decide, fun x hx => by omega, .obj 0, [], fun x => x < 1, fun _ => False, rfl, ?_, rfl, fun _ => id, by simp, by simp⟩
  exact ⟨0, _, fun _ => False, rfl, rfl, by simp [GMap.Sorted], by decide, by simp, by simp, .sc (.int 1), [], fun _ => False, fun _ => False, rfl, rfl, rfl, by simp, by simp, by simp⟩

end JT
