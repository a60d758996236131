import Verif.Proofs.Own
/- Saving in slices, on documents without sharing. -/
namespace JT
open Spec

mutual
theorem Own.bound {h : Heap} {A : Nat → Prop} : ∀ {p : P} {v : V}, Own h p v A → Own h p v (fun a => A a ∧ a < h.length)
  | .sc s, v, ho => by simpa [Own] using ho
  | .arr ps, v, ho => by
    simp only [Own] at ho ⊢
    obtain ⟨a, vs, B, rfl, hc, ha, hn, hB, hl⟩ := ho
    exact ⟨a, vs, _, rfl, hc, ⟨ha, (List.getElem?_eq_some_iff.1 hc).1⟩, fun hx => hn hx.1, fun x hx => ⟨hB x hx.1, hx.2⟩, OwnL.bound hl⟩
  | .obj m, v, ho => by
    simp only [Own] at ho ⊢
    obtain ⟨a, vs, B, rfl, hc, hs, ha, hn, hB, hl⟩ := ho
    exact ⟨a, vs, _, rfl, hc, hs, ⟨ha, (List.getElem?_eq_some_iff.1 hc).1⟩, fun hx => hn hx.1, fun x hx => ⟨hB x hx.1, hx.2⟩, OwnM.bound hl⟩
theorem OwnL.bound {h : Heap} {A : Nat → Prop} : ∀ {ps : List P} {vs : List V}, OwnL h ps vs A → OwnL h ps vs (fun a => A a ∧ a < h.length)
  | [], vs, ho => by simpa [OwnL] using ho
  | p :: ps, vs, ho => by
    simp only [OwnL] at ho ⊢
    obtain ⟨v, vs', B, C, rfl, h1, h2, hB, hC, hd⟩ := ho
    exact ⟨v, vs', _, _, rfl, Own.bound h1, OwnL.bound h2, fun x hx => ⟨hB x hx.1, hx.2⟩, fun x hx => ⟨hC x hx.1, hx.2⟩, fun x hx hx' => hd x hx.1 hx'.1⟩
theorem OwnM.bound {h : Heap} {A : Nat → Prop} : ∀ {ps : List (Str × P)} {vs : GMap V}, OwnM h ps vs A → OwnM h ps vs (fun a => A a ∧ a < h.length)
  | [], vs, ho => by simpa [OwnM] using ho
  | (k, p) :: ps, vs, ho => by
    simp only [OwnM] at ho ⊢
    obtain ⟨v, vs', B, C, rfl, h1, h2, hB, hC, hd⟩ := ho
    exact ⟨v, vs', _, _, rfl, Own.bound h1, OwnM.bound h2, fun x hx => ⟨hB x hx.1, hx.2⟩, fun x hx => ⟨hC x hx.1, hx.2⟩, fun x hx hx' => hd x hx.1 hx'.1⟩
end

/-- The state `s'` comes from `s` by allocating and by writing cells in `W`. -/
structure Grew (W : Nat → Prop) (s s' : St) : Prop where
  le : s.heap.length ≤ s'.heap.length
  old : ∀ a < s.heap.length, ¬ W a → s'.heap[a]? = s.heap[a]?
  instrs : s'.instrs = s.instrs
  shared : s'.shared = s.shared
  tick : s'.tick = s.tick
  ilog : s'.ilog = s.ilog

theorem Grew.refl (W : Nat → Prop) (s : St) : Grew W s s := ⟨Nat.le_refl _, fun _ _ _ => rfl, rfl, rfl, rfl, rfl⟩

theorem Grew.trans {W W' : Nat → Prop} {s s' s'' : St} (h1 : Grew W s s') (h2 : Grew W' s' s'') {E : Nat → Prop} (hW : ∀ a < s.heap.length, W a → E a)
    (hW' : ∀ a < s.heap.length, W' a → E a) : Grew E s s'' := by
  refine ⟨Nat.le_trans h1.le h2.le, ?_, h2.instrs.trans h1.instrs, h2.shared.trans h1.shared, h2.tick.trans h1.tick, h2.ilog.trans h1.ilog⟩
  intro a ha hE
  have hl := h1.le
  rw [h2.old a (by omega) (fun h => hE (hW' a ha h)), h1.old a ha (fun h => hE (hW a ha h))]

theorem Grew.keep {W : Nat → Prop} {s s' : St} (h : Grew W s s') {C : Nat → Prop} (hC : ∀ x, C x → ¬ W x) :
    ∀ x, C x → ∀ c, s.heap[x]? = some c → s'.heap[x]? = some c := by
  intro x hx c hc
  rw [h.old x (List.getElem?_eq_some_iff.1 hc).1 (hC x hx)]
  exact hc

theorem alloc_grew (c : Cell) (s : St) : ∃ s', alloc c s = (.ok s.heap.length, s') ∧ Grew (fun _ => False) s s' ∧ s'.heap[s.heap.length]? = some c ∧
    s'.heap.length = s.heap.length + 1 := by
  refine ⟨_, rfl, ⟨by simp, ?_, rfl, rfl, rfl, rfl⟩, by simp, by simp⟩
  intro a ha _
  simp [List.getElem?_append_left ha]

theorem writeCell_grew (a : Nat) (c : Cell) (s : St) (ha : a < s.heap.length) : ∃ s', writeCell a c s = (.ok (), s') ∧ Grew (fun x => x = a) s s' ∧
    s'.heap[a]? = some c := by
  refine ⟨_, rfl, ⟨by simp, ?_, rfl, rfl, rfl, rfl⟩, by simp [ha]⟩
  intro x _ hx
  simp only
  rw [List.getElem?_set_ne (fun h => hx h.symm)]

namespace Spec
/-- A list filled up with nulls so that it has an entry `i`. -/
def padTo (i : Nat) (l : List P) : List P := l ++ List.replicate (i + 1 - l.length) (.sc .nil)

/-- The entries of an array; anything else has none. -/
def arrOf : P → List P
  | .arr l => l
  | _ => []

/-- Replace the value at nested indices, filling up with nulls and replacing anything that is not an array by an array. -/
def sliceSet : List Nat → List P → P → List P
  | [], l, _ => l
  | [i], l, p => (padTo i l).set i p
  | i :: j :: is, l, p => (padTo i l).set i (.arr (sliceSet (j :: is) (arrOf ((padTo i l).getD i (.sc .nil))) p))

/-- The value that was at nested indices; null if there was none. -/
def sliceOld : List Nat → List P → P
  | [], _ => .sc .nil
  | [i], l => (padTo i l).getD i (.sc .nil)
  | i :: j :: is, l => sliceOld (j :: is) (arrOf ((padTo i l).getD i (.sc .nil)))
end Spec

theorem padTo_length (i : Nat) (l : List P) : i < (padTo i l).length := by simp [padTo]; omega

/-- A possibly nil slice. -/
def CurOwn (h : Heap) (cur : Option Addr) (ps : List P) (A : Nat → Prop) : Prop :=
  match cur with
  | none => ps = []
  | some a => Own h (.arr ps) (.arr a) A

theorem grow_own {s : St} {cur : Option Addr} {ps : List P} {A : Nat → Prop} (hA : ∀ x, A x → x < s.heap.length) (ho : CurOwn s.heap cur ps A) (n : Nat) :
    ∃ (l l' : List V) (a1 : Nat) (s1 : St) (B0 : Nat → Prop), readBase cur s = (.ok l, s) ∧ l' = l ++ List.replicate (n + 1 - l.length) V.nil ∧
      growSlice cur l l' n s = (.ok a1, s1) ∧ Grew (fun _ => False) s s1 ∧ s1.heap[a1]? = some (.slice l') ∧ OwnL s1.heap (padTo n ps) l' B0 ∧
      (∀ x, B0 x → A x) ∧ ¬ B0 a1 ∧ (A a1 ∨ s.heap.length ≤ a1) := by
  cases cur with
  | none =>
    simp only [CurOwn] at ho
    subst ho
    obtain ⟨s1, h1, h2, h3, h4⟩ := alloc_grew (.slice ([] ++ List.replicate (n + 1 - 0) V.nil)) s
    refine ⟨[], _, s.heap.length, s1, fun _ => False, rfl, rfl, h1, h2, h3, ?_, by simp, by simp, Or.inr (Nat.le_refl _)⟩
    exact OwnL.pad (h := s1.heap) (n + 1 - 0) (ps := []) (vs := []) (by simp [OwnL])
  | some a =>
    simp only [CurOwn, Own] at ho
    obtain ⟨a', vs, B, e, hc, ha, hn, hB, hl⟩ := ho
    simp only [V.arr.injEq] at e
    subst e
    have hlen := OwnL.length hl
    have hrd : readBase (some a) s = (.ok vs, s) := by simp only [readBase, readSlice, hc]
    by_cases hlt : n < vs.length
    · have hz : n + 1 - vs.length = 0 := by omega
      refine ⟨vs, vs, a, s, B, hrd, by simp [hz], by simp [growSlice, hlt, M.pure_apply], Grew.refl _ _, hc, ?_, hB, hn, Or.inl ha⟩
      have hz' : n + 1 - ps.length = 0 := by omega
      simpa [padTo, hz'] using hl
    · obtain ⟨s1, h1, h2, h3, h4⟩ := alloc_grew (.slice (vs ++ List.replicate (n + 1 - vs.length) V.nil)) s
      refine ⟨vs, _, s.heap.length, s1, B, hrd, rfl, by simp only [growSlice, if_neg hlt]; exact h1, h2, h3, ?_, hB, ?_, Or.inr (Nat.le_refl _)⟩
      · rw [hlen]
        exact OwnL.pad _ (OwnL.mono (fun _ => id) (h2.keep (by simp)) hl)
      · intro hx
        exact Nat.lt_irrefl _ (hA _ (hB _ hx))

theorem mergeOld_own {s : St} {p q : P} {value v0 : V} {B C : Nat → Prop} (h1 : Own s.heap p value B) (h2 : Own s.heap q v0 C) (hd : ∀ x, B x → ¬ C x) :
    ∃ s', mergeOld value v0 s = (.ok (), s') ∧ Own s'.heap (merged p q) value (fun x => B x ∨ C x) ∧ Grew B s s' := by
  have triv : mergeOld value v0 s = (.ok (), s) → merged p q = p → ∃ s', mergeOld value v0 s = (.ok (), s') ∧
      Own s'.heap (merged p q) value (fun x => B x ∨ C x) ∧ Grew B s s' := by
    intro e1 e2
    exact ⟨s, e1, by rw [e2]; exact Own.mono (fun _ => Or.inl) (fun _ _ _ => id) h1, Grew.refl _ _⟩
  cases p with
  | sc x => simp only [Own] at h1; subst h1; exact triv rfl rfl
  | arr ps => simp only [Own] at h1; obtain ⟨a, vs, _, rfl, _⟩ := h1; exact triv rfl rfl
  | obj pn =>
    have h1' := h1
    simp only [Own] at h1
    obtain ⟨a, n, B1, rfl, ha, hs, hBa, hnB, hB1, hm⟩ := h1
    cases q with
    | sc x => simp only [Own] at h2; subst h2; exact triv rfl rfl
    | arr ps => simp only [Own] at h2; obtain ⟨b, vs, _, rfl, _⟩ := h2; exact triv rfl rfl
    | obj po =>
      simp only [Own] at h2
      obtain ⟨b, o, C1, rfl, hb, hs', hCb, hnC, hC1, hm'⟩ := h2
      obtain ⟨s', e, g, hc⟩ := writeCell_grew a (.map (GMap.fill n o)) s (List.getElem?_eq_some_iff.1 ha).1
      refine ⟨s', ?_, ?_, ?_⟩
      · simp only [mergeOld]
        rw [M.bind_ok (show readMap a s = (.ok n, s) by simp only [readMap, ha]), M.bind_ok (show readMap b s = (.ok o, s) by simp only [readMap, hb])]
        exact e
      · simp only [merged, Own]
        refine ⟨a, _, fun x => B1 x ∨ C1 x, rfl, hc, GMap.sorted_fill hs, Or.inl hBa, ?_, ?_, ?_⟩
        · rintro (h | h)
          · exact hnB h
          · exact hd a hBa (hC1 a h)
        · rintro x (h | h)
          · exact Or.inl (hB1 x h)
          · exact Or.inr (hC1 x h)
        · refine OwnM.fill ?_ ?_ fun x hx hx' => hd x (hB1 x hx) (hC1 x hx')
          · exact OwnM.mono (fun _ => id) (g.keep (by rintro x hx rfl; exact hd x hBa (hC1 x hx))) hm'
          · exact OwnM.mono (fun _ => id) (g.keep (by rintro x hx rfl; exact hnB hx)) hm
      · exact ⟨g.le, fun x hx hn => g.old x hx (by rintro rfl; exact hn hBa), g.instrs, g.shared, g.tick, g.ilog⟩

/-- The text of one index, as the code splits it. -/
def idxText (i : Nat) : Str := itoaNat i ++ g!"]"

theorem dropWhile_none {p : Char → Bool} : ∀ {l : Str}, (∀ c ∈ l, p c = false) → l.dropWhile p = l
  | [], _ => rfl
  | c :: l, h => by simp [List.dropWhile_cons, h c (by simp)]

theorem atoi_idxText {i : Nat} (hi : i < 2 ^ 63) : atoi (trim [']'] (idxText i)) = some (i : Int) := by
  have hno : ∀ c ∈ itoaNat i, [']'].contains c = false := by
    intro c hc
    have := itoaNat_no_char i ']' (by decide)
    simp
    rintro rfl
    exact this hc
  have : trim [']'] (idxText i) = itoaNat i := by
    unfold trim idxText
    obtain ⟨h1, _, _⟩ := itoaNat_spec i
    have hl : trimLeft [']'] (itoaNat i ++ g!"]") = itoaNat i ++ g!"]" := by
      cases hx : itoaNat i with
      | nil => exact absurd hx h1
      | cons c l =>
        have := hno c (by simp [hx])
        simp only [trimLeft, List.cons_append, List.dropWhile_cons, this]
        rfl
    rw [hl]
    unfold trimRight
    simp only [List.reverse_append, List.reverse_cons, List.reverse_nil, List.nil_append, List.singleton_append]
    unfold trimLeft
    rw [List.dropWhile_cons_of_pos (by simp), dropWhile_none (by intro c hc; exact hno c (by simpa using hc))]
    simp
  rw [this]
  exact atoi_itoaNat i hi

/-- `saveInSlice` on a document without sharing: the value stored is the merged one, and the rest of the array is as `sliceSet` says whatever is
done to that value afterwards. -/
theorem saveInSlice_own : ∀ (is : List Nat), is ≠ [] → (∀ i ∈ is, i < 2 ^ 63) → ∀ (s : St) (cur : Option Addr) (ps : List P) (p : P) (value : V) (A B : Nat → Prop),
    (∀ x, A x → x < s.heap.length) → (∀ x, B x → x < s.heap.length) → CurOwn s.heap cur ps A → Own s.heap p value B → (∀ x, A x → ¬ B x) →
    ∃ (a' : Nat) (s' : St) (D C : Nat → Prop), saveInSlice (is.map idxText) cur value s = (.ok a', s') ∧ Grew (fun x => A x ∨ B x) s s' ∧
      Own s'.heap (merged p (sliceOld is ps)) value D ∧ (∀ x, D x → A x ∨ B x ∨ s.heap.length ≤ x) ∧
      (∀ x, C x → A x ∨ s.heap.length ≤ x) ∧ (∀ x, C x → x < s'.heap.length) ∧ (∀ x, D x → ¬ C x) ∧
      ∀ (h' : Heap) (p' : P) (D' E : Nat → Prop), (∀ x, C x → ∀ c, s'.heap[x]? = some c → h'[x]? = some c) → Own h' p' value D' → (∀ x, D' x → ¬ C x) →
        (∀ x, D' x → E x) → (∀ x, C x → E x) → Own h' (.arr (sliceSet is ps p')) (.arr a') E
  | [], hne, _ => absurd rfl hne
  | [i], _, hb => by
    intro s cur ps p value A B hA hB hcur hv hd
    obtain ⟨l, l', a1, s1, B0, hr, hl', hg, hgr, hc1, hol, hB0, hn0, ha1⟩ := grow_own hA hcur i
    obtain ⟨v0, Bn, Cn, hv0, hown, hBn, hCn, hdn, hf⟩ := OwnL.focus i (padTo_length i ps) hol
    have hv1 : Own s1.heap p value B := Own.mono (fun _ => id) (hgr.keep (by simp)) hv
    obtain ⟨s2, hm, ho2, hg2⟩ := mergeOld_own hv1 hown (fun x hx hx' => hd x (hB0 x (hBn x hx')) hx)
    have ha1B : ¬ B a1 := by
      intro hx
      rcases ha1 with h | h
      · exact hd _ h hx
      · have := hB _ hx; have : (a1 : Nat) < s.heap.length := this; have h' : s.heap.length ≤ (a1 : Nat) := h; omega
    have hl1 : (a1 : Nat) < s1.heap.length := (List.getElem?_eq_some_iff.1 hc1).1
    have hle2 := hg2.le
    obtain ⟨s3, hw, hg3, hc3⟩ := writeCell_grew a1 (.slice (l'.set i value)) s2 (by omega)
    refine ⟨a1, s3, fun x => B x ∨ Bn x, fun x => x = a1 ∨ Cn x, ?_, ?_, ?_, ?_, ?_, ?_, ?_, ?_⟩
    · simp only [List.map_cons, List.map_nil, saveInSlice, atoi_idxText (hb i (by simp))]
      rw [if_neg (by omega)]
      simp only [Int.toNat_natCast]
      rw [M.bind_ok hr, ← hl', M.bind_ok hg]
      have : l'.getD i V.nil = v0 := by simp [hv0]
      rw [this, M.bind_ok hm, M.bind_ok hw]
      rfl
    · refine Grew.trans hgr (E := fun x => A x ∨ B x) (W' := fun x => A x ∨ B x ∨ s.heap.length ≤ x) (Grew.trans hg2 hg3 ?_ ?_) (by simp) ?_
      · exact fun x _ hx => Or.inr (Or.inl hx)
      · rintro x _ rfl
        rcases ha1 with h | h
        · exact Or.inl h
        · exact Or.inr (Or.inr h)
      · rintro x hx (h | h | h)
        · exact Or.inl h
        · exact Or.inr h
        · omega
    · refine Own.mono (fun _ => id) (hg3.keep ?_) (p := merged p (sliceOld [i] ps)) (by
        have : (padTo i ps).getD i (.sc .nil) = (padTo i ps)[i]'(padTo_length i ps) := by simp [padTo_length i ps]
        simp only [sliceOld, this]
        exact ho2)
      rintro x (h | h) rfl
      · exact ha1B h
      · exact hn0 (hBn _ h)
    · rintro x (h | h)
      · exact Or.inr (Or.inl h)
      · exact Or.inl (hB0 x (hBn x h))
    · rintro x (rfl | h)
      · exact ha1
      · exact Or.inl (hB0 x (hCn x h))
    · have hle3 := hg3.le
      have hle1 := hgr.le
      rintro x (rfl | h)
      · omega
      · have := hA x (hB0 x (hCn x h)); omega
    · rintro x (h | h) (rfl | h')
      · exact ha1B h
      · exact hd x (hB0 x (hCn x h')) h
      · exact hn0 (hBn x h)
      · exact hdn x h h'
    · intro h' p' D' E hh ho' hd' hDE hCE
      simp only [sliceSet, Own]
      refine ⟨a1, _, fun x => D' x ∨ Cn x, rfl, hh a1 (Or.inl rfl) _ hc3, hCE a1 (Or.inl rfl), ?_, ?_, ?_⟩
      · rintro (h | h)
        · exact hd' a1 h (Or.inl rfl)
        · exact hn0 (hCn a1 h)
      · rintro x (h | h)
        · exact hDE x h
        · exact hCE x (Or.inr h)
      · refine hf h' p' value D' (fun x => D' x ∨ Cn x) ?_ ho' (fun x hx hx' => hd' x hx (Or.inr hx')) (fun _ => Or.inl) (fun _ => Or.inr)
        intro x hx c hc
        refine hh x (Or.inr hx) c ?_
        refine hg3.keep (C := Cn) ?_ x hx c ?_
        · rintro y hy rfl; exact hn0 (hCn y hy)
        · refine hg2.keep (C := Cn) ?_ x hx c hc
          intro y hy hy'; exact hd y (hB0 y (hCn y hy)) hy'
  | i :: j :: is, _, hb => by
    intro s cur ps p value A B hA hB hcur hv hd
    obtain ⟨l, l', a1, s1, B0, hr, hl', hg, hgr, hc1, hol, hB0, hn0, ha1⟩ := grow_own hA hcur i
    obtain ⟨v0, Bn, Cn, hv0, hown, hBn, hCn, hdn, hf⟩ := OwnL.focus i (padTo_length i ps) hol
    have hv1 : Own s1.heap p value B := Own.mono (fun _ => id) (hgr.keep (by simp)) hv
    have hle1 := hgr.le
    have hl1 : (a1 : Nat) < s1.heap.length := (List.getElem?_eq_some_iff.1 hc1).1
    have ha1B : ¬ B a1 := by
      intro hx
      rcases ha1 with h | h
      · exact hd _ h hx
      · have := hB _ hx; have : (a1 : Nat) < s.heap.length := this; have h' : s.heap.length ≤ (a1 : Nat) := h; omega
    have hgd : (padTo i ps).getD i (.sc .nil) = (padTo i ps)[i]'(padTo_length i ps) := by simp [padTo_length i ps]
    have hcur1 : CurOwn s1.heap (nestedSlice v0) (arrOf ((padTo i ps).getD i (.sc .nil))) Bn := by
      rw [hgd]
      generalize (padTo i ps)[i]'(padTo_length i ps) = q at hown
      cases q with
      | sc x => simp only [Own] at hown; subst hown; simp [nestedSlice, CurOwn, arrOf]
      | arr qs => have h := hown; simp only [Own] at h; obtain ⟨a, vs, _, rfl, _⟩ := h; simpa [nestedSlice, CurOwn, arrOf] using hown
      | obj m => simp only [Own] at hown; obtain ⟨a, vs, _, rfl, _⟩ := hown; simp [nestedSlice, CurOwn, arrOf]
    have hBnlen : ∀ x, Bn x → x < s1.heap.length := fun x hx => by have := hA x (hB0 x (hBn x hx)); omega
    obtain ⟨b', s2, D, C, hs2, hg2, ho2, hD, hC, hC2, hDC, hfin⟩ := saveInSlice_own (j :: is) (by simp) (fun x hx => hb x (by simp [hx])) s1 _ _ p value _ B hBnlen
      (fun x hx => by have := hB x hx; omega) hcur1 hv1 (fun x hx => hd x (hB0 x (hBn x hx)))
    have hle2 := hg2.le
    obtain ⟨s3, hw, hg3, hc3⟩ := writeCell_grew a1 (.slice (l'.set i (.arr b'))) s2 (by omega)
    have hle3 := hg3.le
    have ha1D : ∀ x, D x → x ≠ a1 := by
      rintro x hx rfl
      rcases hD x hx with h | h | h
      · exact hn0 (hBn x h)
      · exact ha1B h
      · have h' : s1.heap.length ≤ (x : Nat) := h; omega
    have ha1C : ∀ x, C x → x ≠ a1 := by
      rintro x hx rfl
      rcases hC x hx with h | h
      · exact hn0 (hBn x h)
      · have h' : s1.heap.length ≤ (x : Nat) := h; omega
    have hCnA : ∀ x, Cn x → A x := fun x hx => hB0 x (hCn x hx)
    have hCnlen : ∀ x, Cn x → x < s1.heap.length := fun x hx => by have := hA x (hCnA x hx); omega
    refine ⟨a1, s3, D, fun x => x = a1 ∨ Cn x ∨ C x, ?_, ?_, ?_, ?_, ?_, ?_, ?_, ?_⟩
    · rw [List.map_cons, List.map_cons, saveInSlice]
      simp only [atoi_idxText (hb i (by simp))]
      rw [if_neg (by omega)]
      simp only [Int.toNat_natCast]
      rw [M.bind_ok hr, ← hl', M.bind_ok hg]
      have hv0' : l'.getD i V.nil = v0 := by simp [hv0]
      have : orElseM (saveInSlice (idxText j :: List.map idxText is) (nestedSlice v0) value) (alloc (.slice [])) s1 = (.ok b', s2) := by
        unfold orElseM
        rw [← List.map_cons, hs2]
      rw [hv0', M.bind_ok this, M.bind_ok hw]
      rfl
    · refine Grew.trans hgr (E := fun x => A x ∨ B x) (W' := fun x => A x ∨ B x ∨ s.heap.length ≤ x) (Grew.trans hg2 hg3 ?_ ?_) (by simp) ?_
      · rintro x _ (hx | hx)
        · exact Or.inl (hB0 x (hBn x hx))
        · exact Or.inr (Or.inl hx)
      · rintro x _ rfl
        rcases ha1 with h | h
        · exact Or.inl h
        · exact Or.inr (Or.inr h)
      · rintro x hx (h | h | h)
        · exact Or.inl h
        · exact Or.inr h
        · omega
    · exact Own.mono (fun _ => id) (hg3.keep ha1D) ho2
    · intro x hx
      rcases hD x hx with h | h | h
      · exact Or.inl (hB0 x (hBn x h))
      · exact Or.inr (Or.inl h)
      · exact Or.inr (Or.inr (by omega))
    · rintro x (rfl | h | h)
      · exact ha1
      · exact Or.inl (hCnA x h)
      · rcases hC x h with h | h
        · exact Or.inl (hB0 x (hBn x h))
        · exact Or.inr (by omega)
    · rintro x (rfl | h | h)
      · omega
      · have := hCnlen x h; omega
      · have := hC2 x h; omega
    · rintro x hx (rfl | h | h)
      · exact ha1D x hx rfl
      · rcases hD x hx with h' | h' | h'
        · exact hdn x h' h
        · exact hd x (hCnA x h) h'
        · have := hCnlen x h; omega
      · exact hDC x hx h
    · intro h' p' D' E hh ho' hd' hDE hCE
      have hin := hfin h' p' D' (fun x => D' x ∨ C x) (fun x hx c hc => hh x (Or.inr (Or.inr hx)) c (hg3.keep ha1C x hx c hc)) ho'
        (fun x hx hx' => hd' x hx (Or.inr (Or.inr hx'))) (fun _ => Or.inl) (fun _ => Or.inr)
      simp only [sliceSet, Own]
      refine ⟨a1, _, fun x => (D' x ∨ C x) ∨ Cn x, rfl, hh a1 (Or.inl rfl) _ hc3, hCE a1 (Or.inl rfl), ?_, ?_, ?_⟩
      · rintro ((h | h) | h)
        · exact hd' a1 h (Or.inl rfl)
        · exact ha1C a1 h rfl
        · exact hn0 (hCn a1 h)
      · rintro x ((h | h) | h)
        · exact hDE x h
        · exact hCE x (Or.inr (Or.inr h))
        · exact hCE x (Or.inr (Or.inl h))
      · refine hf h' _ (.arr b') (fun x => D' x ∨ C x) (fun x => (D' x ∨ C x) ∨ Cn x) ?_ hin ?_ (fun _ => Or.inl) (fun _ => Or.inr)
        · intro x hx c hc
          refine hh x (Or.inr (Or.inl hx)) c ?_
          refine hg3.keep (C := Cn) ?_ x hx c ?_
          · rintro y hy rfl; exact hn0 (hCn y hy)
          · refine hg2.keep (C := Cn) ?_ x hx c hc
            rintro y hy (hy' | hy')
            · exact hdn y hy' hy
            · exact hd y (hCnA y hy) hy'
        · rintro x (hx | hx) hx'
          · exact hd' x hx (Or.inr (Or.inl hx'))
          · rcases hC x hx with h | h
            · exact hdn x h hx'
            · have := hCnlen x hx'; omega

end JT
