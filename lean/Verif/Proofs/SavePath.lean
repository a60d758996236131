import Verif.Proofs.SaveSlice
/- Saving along a path, on documents without sharing. -/
namespace JT
open Spec

namespace Spec
/-- The array under a key: a missing one is empty, and the code panics if something else is there. -/
def curArr : Option P → Res (List P)
  | none => .ok []
  | some (.arr l) => .ok l
  | some _ => .panic

/-- The object under a key: a missing one or null is empty, and the code returns an error if something else is there. -/
def curObj : Option P → Res (GMap P)
  | none => .ok []
  | some (.sc .nil) => .ok []
  | some (.obj m) => .ok m
  | some _ => .err

/-- The object at nested indices; anything else counts as empty. -/
def objOf : P → GMap P
  | .obj o => GMap.fill [] o
  | _ => []

/-- The document after saving. -/
def savePath : Path → GMap P → P → Res (GMap P)
  | [], _, _ => .panic
  | [(k, [])], m, p => .ok (GMap.set k p m)
  | [(k, i :: is)], m, p => (curArr (GMap.get k m)).map fun l => GMap.set k (.arr (sliceSet (i :: is) l (merged p (sliceOld (i :: is) l)))) m
  | (k, []) :: x :: l, m, p => do
    let m' ← curObj (GMap.get k m)
    let r ← savePath (x :: l) m' p
    return GMap.set k (.obj r) m
  | (k, i :: is) :: x :: l, m, p => do
    let l0 ← curArr (GMap.get k m)
    let r ← savePath (x :: l) (objOf (sliceOld (i :: is) l0)) p
    return GMap.set k (.arr (sliceSet (i :: is) l0 (.obj r))) m
end Spec

theorem merged_empty (q : P) : merged (.obj []) q = .obj (objOf q) := by cases q <;> rfl

/-- One entry of an object in memory. -/
theorem entry_own {s : St} {m : GMap P} {tree : Nat} {A : Nat → Prop} (ho : Own s.heap (.obj m) (.obj tree) A) (k : Str) :
    ∃ (mm : GMap V) (Bk C : Nat → Prop), s.heap[tree]? = some (.map mm) ∧
      (match GMap.get k m with | none => GMap.get k mm = none | some q => ∃ v, GMap.get k mm = some v ∧ Own s.heap q v Bk) ∧
      (∀ x, Bk x → A x) ∧ (∀ x, C x → A x) ∧ (∀ x, Bk x → ¬ C x) ∧ C tree ∧
      ∀ (s1 : St) (v' : V), (∀ x, C x → ∀ c, s.heap[x]? = some c → s1.heap[x]? = some c) → ∃ s2, setKey tree k v' s1 = (.ok (), s2) ∧ Grew (fun x => x = tree) s1 s2 ∧
        ∀ (h' : Heap) (p' : P) (D E : Nat → Prop), (∀ x, C x → ∀ c, s2.heap[x]? = some c → h'[x]? = some c) → Own h' p' v' D → (∀ x, D x → ¬ C x) →
          (∀ x, D x → E x) → (∀ x, C x → E x) → Own h' (.obj (GMap.set k p' m)) (.obj tree) E := by
  simp only [Own] at ho
  obtain ⟨a, mm, B, e, hc, hs, ha, hn, hB, hm⟩ := ho
  simp only [V.obj.injEq] at e
  subst e
  have step : ∀ (C1 : Nat → Prop), (∀ x, C1 x → B x) → (∀ (h' : Heap) (p' : P) (v' : V) (D E : Nat → Prop), (∀ x, C1 x → ∀ c, s.heap[x]? = some c → h'[x]? = some c) →
      Own h' p' v' D → (∀ x, D x → ¬ C1 x) → (∀ x, D x → E x) → (∀ x, C1 x → E x) → OwnM h' (GMap.set k p' m) (GMap.set k v' mm) E) →
      ∀ (s1 : St) (v' : V), (∀ x, (x = tree ∨ C1 x) → ∀ c, s.heap[x]? = some c → s1.heap[x]? = some c) → ∃ s2, setKey tree k v' s1 = (.ok (), s2) ∧
        Grew (fun x => x = tree) s1 s2 ∧
        ∀ (h' : Heap) (p' : P) (D E : Nat → Prop), (∀ x, (x = tree ∨ C1 x) → ∀ c, s2.heap[x]? = some c → h'[x]? = some c) → Own h' p' v' D →
          (∀ x, D x → ¬ (x = tree ∨ C1 x)) → (∀ x, D x → E x) → (∀ x, (x = tree ∨ C1 x) → E x) → Own h' (.obj (GMap.set k p' m)) (.obj tree) E := by
    intro C1 hC1 hf s1 v' hh
    have hc1 := hh tree (Or.inl rfl) _ hc
    obtain ⟨s2, hw, hg, hc2⟩ := writeCell_grew tree (.map (GMap.set k v' mm)) s1 (List.getElem?_eq_some_iff.1 hc1).1
    refine ⟨s2, ?_, hg, ?_⟩
    · unfold setKey
      rw [M.bind_ok (show readMap tree s1 = (.ok mm, s1) by simp only [readMap, hc1])]
      exact hw
    · intro h' p' D E hh' ho' hd' hDE hCE
      simp only [Own]
      refine ⟨tree, _, fun x => D x ∨ C1 x, rfl, hh' tree (Or.inl rfl) _ hc2, GMap.sorted_set hs, hCE tree (Or.inl rfl), ?_, ?_, ?_⟩
      · rintro (h | h)
        · exact hd' tree h (Or.inl rfl)
        · exact hn (hC1 tree h)
      · rintro x (h | h)
        · exact hDE x h
        · exact hCE x (Or.inr h)
      · refine hf h' p' v' D _ ?_ ho' (fun x hx hx' => hd' x hx (Or.inr hx')) (fun _ => Or.inl) (fun _ => Or.inr)
        intro x hx c hcx
        refine hh' x (Or.inr hx) c (hg.keep (C := C1) ?_ x hx c (hh x (Or.inr hx) c hcx))
        rintro y hy rfl
        exact hn (hC1 y hy)
  cases hg : GMap.get k m with
  | none =>
    refine ⟨mm, fun _ => False, fun x => x = tree ∨ B x, hc, OwnM.get k hm hg, by simp, ?_, by simp, Or.inl rfl, step B (fun _ => id) ?_⟩
    · rintro x (rfl | h)
      · exact ha
      · exact hB x h
    · intro h' p' v' D E hh ho' hd' hDE hCE
      refine OwnM.mono ?_ (fun _ _ _ => id) (OwnM.insert ho' (OwnM.mono (fun _ => id) hh hm) hg hd')
      rintro x (h | h)
      · exact hCE x h
      · exact hDE x h
  | some q =>
    obtain ⟨v, Bk, C1, e, o1, hBk, hC1, hd1, f⟩ := OwnM.focus k hm hs hg
    refine ⟨mm, Bk, fun x => x = tree ∨ C1 x, hc, ⟨v, e, o1⟩, fun x hx => hB x (hBk x hx), ?_, ?_, Or.inl rfl, step C1 hC1 f⟩
    · rintro x (rfl | h)
      · exact ha
      · exact hB x (hC1 x h)
    · rintro x hx (rfl | h)
      · exact hn (hBk x hx)
      · exact hd1 x hx h

/-- The parts of a path at its dots. -/
def partText (x : Str × List Nat) : Str := x.1 ++ indexText x.2

theorem split_part {k : Str} (hk : '[' ∉ k) : ∀ (is : List Nat), splitC '[' (partText (k, is)) = k :: is.map idxText
  | [] => by simp [partText, indexText, splitC_no _ _ hk]
  | i :: is => by
    have h2 : ∀ (i : Nat) (is : List Nat), splitC '[' (itoaNat i ++ ']' :: indexText is) = (i :: is).map idxText := by
      intro i is
      induction is generalizing i with
      | nil =>
        rw [splitC_no]
        · rfl
        · simp [indexText, itoaNat_no_char i '[' (by decide)]
      | cons j is ih =>
        have : itoaNat i ++ ']' :: indexText (j :: is) = (itoaNat i ++ [']']) ++ '[' :: (itoaNat j ++ ']' :: indexText is) := by simp [indexText]
        rw [this, splitC_append, ih]
        · rfl
        · simp [itoaNat_no_char i '[' (by decide)]
    have : partText (k, i :: is) = k ++ '[' :: (itoaNat i ++ ']' :: indexText is) := by simp [partText, indexText]
    rw [this, splitC_append _ _ _ hk, h2]

theorem indexText_no {c : Char} (h1 : isDigit c = false) (h2 : c ≠ '[') (h3 : c ≠ ']') : ∀ is : List Nat, c ∉ indexText is
  | [] => by simp [indexText]
  | i :: is => by simp [indexText, h2, h3, itoaNat_no_char i c h1, indexText_no h1 h2 h3 is]

theorem pathText_eq : ∀ (l : Path), pathText l = join g!"." (l.map partText)
  | [] => rfl
  | [(k, is)] => rfl
  | (k, is) :: x :: l => by
    have := pathText_eq (x :: l)
    simp only [pathText, this, List.map_cons, join, partText]
    simp

theorem splitC_path {l : Path} (h : GoodPath l) : splitC '.' (pathText l) = l.map partText := by
  rw [pathText_eq]
  refine splitC_join '.' _ (by simpa using h.1) ?_
  intro p hp
  obtain ⟨x, hx, rfl⟩ := List.mem_map.1 hp
  have := h.2 x hx
  simp [partText, this.1, indexText_no (c := '.') (by decide) (by decide) (by decide)]

theorem part_ne_dollar {x : Str × List Nat} (h : '$' ∉ x.1) : partText x ≠ g!"$" := by
  intro e
  have : '$' ∈ partText x := by rw [e]; simp
  simp only [partText, List.mem_append] at this
  rcases this with h' | h'
  · exact h h'
  · exact indexText_no (c := '$') (by decide) (by decide) (by decide) _ h'

theorem saveSplits_one (b : Bool) {x : Str × List Nat} (hx : '$' ∉ x.1) (tree : Addr) (value : V) :
    saveSplits b [partText x] tree value = saveLeaf tree (partText x) value := by
  simp only [saveSplits]
  rw [if_neg (fun h => part_ne_dollar hx h.2)]

theorem saveSplits_map (b : Bool) {k : Str} (hx : '$' ∉ k) (hb : '[' ∉ k) (y : Str) (l : List Str) (tree : Addr) (value : V) :
    saveSplits b (partText (k, []) :: y :: l) tree value = (do
          let m ← readMap tree
          match GMap.get k m with
          | some (.obj nt) => do
            setKey tree k (.obj nt)
            saveSplits true (y :: l) nt value
          | none | some (.sc .nil) => do
            let nt ← alloc (.map [])
            setKey tree k (.obj nt)
            saveSplits true (y :: l) nt value
          | some _ => M.fail) := by
  rw [saveSplits]
  rw [if_neg (fun h => part_ne_dollar (x := (k, [])) hx h.2)]
  simp only [split_part hb, List.map_nil]
  simp only [partText, indexText, List.append_nil]
  rfl

theorem saveSplits_arr (b : Bool) {k : Str} (hx : '$' ∉ k) (hb : '[' ∉ k) (i : Nat) (is : List Nat) (y : Str) (l : List Str) (tree : Addr) (value : V) :
    saveSplits b (partText (k, i :: is) :: y :: l) tree value = (do
          let m ← readMap tree
          let cur ← sliceAt m k
          let nt ← alloc (.map [])
          let a ← saveInSlice ((i :: is).map idxText) cur (.obj nt)
          setKey tree k (.arr a)
          saveSplits true (y :: l) nt value) := by
  rw [saveSplits]
  rw [if_neg (fun h => part_ne_dollar (x := (k, i :: is)) hx h.2)]
  simp only [split_part hb, List.map_cons]

theorem saveLeaf_map {k : Str} (hb : '[' ∉ k) (tree : Addr) (value : V) : saveLeaf tree (partText (k, [])) value = setKey tree k value := by
  simp only [saveLeaf, split_part hb, List.map_nil]
  simp [partText, indexText]

theorem saveLeaf_arr {k : Str} (hb : '[' ∉ k) (i : Nat) (is : List Nat) (tree : Addr) (value : V) : saveLeaf tree (partText (k, i :: is)) value = (do
    let m ← readMap tree
    let cur ← sliceAt m k
    let a ← saveInSlice ((i :: is).map idxText) cur value
    setKey tree k (.arr a)) := by
  simp only [saveLeaf, split_part hb, List.map_cons]

theorem sliceAt_own {s : St} {m : GMap P} {mm : GMap V} {k : Str} {Bk : Nat → Prop}
    (h : match GMap.get k m with | none => GMap.get k mm = none | some q => ∃ v, GMap.get k mm = some v ∧ Own s.heap q v Bk) :
    match curArr (GMap.get k m) with
    | .ok l => ∃ cur, sliceAt mm k = (pure cur : M _) ∧ CurOwn s.heap cur l Bk
    | .err => False
    | .panic => sliceAt mm k = M.panic := by
  cases hg : GMap.get k m with
  | none =>
    rw [hg] at h
    simp only [curArr]
    exact ⟨none, by simp only [sliceAt, h], rfl⟩
  | some q =>
    rw [hg] at h
    obtain ⟨v, hv, ho⟩ := h
    cases q with
    | sc x => simp only [Own] at ho; subst ho; simp only [curArr, sliceAt, hv]
    | arr l =>
      have ho' := ho
      simp only [Own] at ho
      obtain ⟨a, vs, _, rfl, _⟩ := ho
      simp only [curArr]
      exact ⟨some a, by simp only [sliceAt, hv], ho'⟩
    | obj o => simp only [Own] at ho; obtain ⟨a, vs, _, rfl, _⟩ := ho; simp only [curArr, sliceAt, hv]

/-- What a run of `saveSplits` does, given the result of the specification. -/
def SaveRes (r : Res (GMap P)) (x : Res Unit × St) (s : St) (tree : Nat) (A B : Nat → Prop) : Prop :=
  match r with
  | .ok m' => x.1 = .ok () ∧ Own x.2.heap (.obj m') (.obj tree) (fun y => A y ∨ B y ∨ s.heap.length ≤ y) ∧ Grew (fun y => A y ∨ B y) s x.2
  | .err => x.1 = .err
  | .panic => x.1 = .panic

theorem saveSplits_own : ∀ (path : Path), GoodPath path → ∀ (b : Bool) (s : St) (m : GMap P) (p : P) (tree : Nat) (value : V) (A B : Nat → Prop),
    (∀ x, A x → x < s.heap.length) → (∀ x, B x → x < s.heap.length) → Own s.heap (.obj m) (.obj tree) A → Own s.heap p value B → (∀ x, A x → ¬ B x) →
    SaveRes (savePath path m p) (saveSplits b (path.map partText) tree value s) s tree A B
  | [], hp, _, _, _, _, _, _, _, _, _, _, _, _, _ => absurd rfl hp.1
  | [(k, [])], hp, b, s, m, p, tree, value, A, B, hA, hB, ho, hv, hd => by
    have hk := hp.2 (k, []) (by simp)
    obtain ⟨mm, Bk, C, hc, _, _, hCA, _, hCt, hset⟩ := entry_own ho k
    obtain ⟨s2, hs2, hg, hf⟩ := hset s value (fun _ _ _ => id)
    rw [List.map_cons, List.map_nil, saveSplits_one b hk.2.2.1, saveLeaf_map hk.2.1, hs2]
    refine ⟨rfl, ?_, ?_⟩
    · refine hf s2.heap p B _ (fun _ _ _ => id) (Own.mono (fun _ => id) (hg.keep ?_) hv) (fun x hx hx' => hd x (hCA x hx') hx) (fun x hx => Or.inr (Or.inl hx))
        (fun x hx => Or.inl (hCA x hx))
      rintro x hx rfl
      exact hd x (hCA x hCt) hx
    · exact Grew.trans (Grew.refl (fun _ => False) s) hg (by simp) (by rintro a _ rfl; exact Or.inl (hCA a hCt))
  | [(k, i :: is)], hp, b, s, m, p, tree, value, A, B, hA, hB, ho, hv, hd => by
    have hk := hp.2 (k, i :: is) (by simp)
    obtain ⟨mm, Bk, C, hc, hent, hBkA, hCA, hBC, hCt, hset⟩ := entry_own ho k
    have hcur := sliceAt_own hent
    rw [List.map_cons, List.map_nil, saveSplits_one b hk.2.2.1, saveLeaf_arr hk.2.1]
    rw [M.bind_ok (show readMap tree s = (.ok mm, s) by simp only [readMap, hc])]
    simp only [savePath]
    cases hr : curArr (GMap.get k m) with
    | err => rw [hr] at hcur; exact hcur.elim
    | panic =>
      rw [hr] at hcur
      simp only at hcur
      rw [hcur]
      exact rfl
    | ok l =>
      rw [hr] at hcur
      obtain ⟨cur, hcur, hco⟩ := hcur
      rw [hcur, M.bind_ok (M.pure_apply cur s)]
      obtain ⟨a', s1, D, C1, hs1, hg1, ho1, hD, hC1, hC1b, hDC, hf1⟩ := saveInSlice_own (i :: is) (by simp) hk.2.2.2 s cur l p value Bk B
        (fun x hx => hA x (hBkA x hx)) hB hco hv (fun x hx => hd x (hBkA x hx))
      rw [M.bind_ok hs1]
      have hCkeep : ∀ x, C x → ¬ (Bk x ∨ B x) := by
        rintro x hx (h | h)
        · exact hBC x h hx
        · exact hd x (hCA x hx) h
      obtain ⟨s2, hs2, hg2, hf2⟩ := hset s1 (.arr a') (hg1.keep hCkeep)
      have hlen : ∀ x, C x → x < s.heap.length := fun x hx => hA x (hCA x hx)
      have hC1C : ∀ x, C1 x → ¬ C x := by
        intro x hx hx'
        rcases hC1 x hx with h | h
        · exact hBC x h hx'
        · have := hlen x hx'; omega
      have hDtC : ∀ x, D x → ¬ C x := by
        intro x hx hx'
        rcases hD x hx with h | h | h
        · exact hBC x h hx'
        · exact hd x (hCA x hx') h
        · have := hlen x hx'; omega
      rw [hs2]
      refine ⟨rfl, ?_, ?_⟩
      · have hin := hf1 s2.heap (merged p (sliceOld (i :: is) l)) D (fun x => D x ∨ C1 x) (hg2.keep (by rintro x hx rfl; exact hC1C x hx hCt))
          (Own.mono (fun _ => id) (hg2.keep (by rintro x hx rfl; exact hDtC x hx hCt)) ho1) hDC (fun _ => Or.inl) (fun _ => Or.inr)
        refine hf2 s2.heap _ _ _ (fun _ _ _ => id) hin ?_ ?_ (fun x hx => Or.inl (hCA x hx))
        · rintro x (h | h)
          · exact hDtC x h
          · exact hC1C x h
        · rintro x (h | h)
          · rcases hD x h with h | h | h
            · exact Or.inl (hBkA x h)
            · exact Or.inr (Or.inl h)
            · exact Or.inr (Or.inr h)
          · rcases hC1 x h with h | h
            · exact Or.inl (hBkA x h)
            · exact Or.inr (Or.inr h)
      · refine Grew.trans hg1 hg2 ?_ (by rintro a _ rfl; exact Or.inl (hCA a hCt))
        rintro x _ (h | h)
        · exact Or.inl (hBkA x h)
        · exact Or.inr h
  | (k, []) :: y :: l, hp, b, s, m, p, tree, value, A, B, hA, hB, ho, hv, hd => by
    have hk := hp.2 (k, []) (by simp)
    have hp' : GoodPath (y :: l) := ⟨by simp, fun x hx => hp.2 x (by simp [hx])⟩
    obtain ⟨mm, Bk, C, hc, hent, hBkA, hCA, hBC, hCt, hset⟩ := entry_own ho k
    have hlen : ∀ x, C x → x < s.heap.length := fun x hx => hA x (hCA x hx)
    rw [List.map_cons, List.map_cons, saveSplits_map b hk.2.2.1 hk.2.1]
    rw [M.bind_ok (show readMap tree s = (.ok mm, s) by simp only [readMap, hc])]
    -- the rest of the work, for the sub-object in a state where it has been stored
    have go : ∀ (s1 : St) (nt : Nat) (m' : GMap P) (D : Nat → Prop), (∀ x, C x → ∀ c, s.heap[x]? = some c → s1.heap[x]? = some c) →
        Own s1.heap (.obj m') (.obj nt) D → (∀ x, D x → x < s1.heap.length) → (∀ x, D x → Bk x ∨ s.heap.length ≤ x) → Grew (fun _ => False) s s1 →
        SaveRes (do let r ← savePath (y :: l) m' p; return GMap.set k (.obj r) m)
          ((do setKey tree k (.obj nt); saveSplits true ((y :: l).map partText) nt value : M Unit) s1) s tree A B := by
      intro s1 nt m' D hkeep hown hDlen hD hgr
      obtain ⟨s2, hs2, hg2, hf2⟩ := hset s1 (.obj nt) hkeep
      have hle := hgr.le
      have hle2 := hg2.le
      have hDC : ∀ x, D x → ¬ C x := by
        intro x hx hx'
        rcases hD x hx with h | h
        · exact hBC x h hx'
        · have := hlen x hx'; omega
      have htB : ∀ x, B x → x ≠ tree := by rintro x hx rfl; exact hd x (hCA x hCt) hx
      have ih := saveSplits_own (y :: l) hp' true s2 m' p nt value D B (fun x hx => by have := hDlen x hx; omega) (fun x hx => by have := hB x hx; omega)
        (Own.mono (fun _ => id) (hg2.keep (by rintro x hx rfl; exact hDC x hx hCt)) hown)
        (Own.mono (fun _ => id) (hg2.keep htB) (Own.mono (fun _ => id) (hgr.keep (by simp)) hv))
        (fun x hx hx' => by
          rcases hD x hx with h | h
          · exact hd x (hBkA x h) hx'
          · have := hB x hx'; omega)
      rw [M.bind_ok hs2]
      cases hr : savePath (y :: l) m' p with
      | err => rw [hr] at ih; exact ih
      | panic => rw [hr] at ih; exact ih
      | ok r =>
        rw [hr] at ih
        obtain ⟨i1, i2, i3⟩ := ih
        refine ⟨i1, ?_, ?_⟩
        · refine hf2 _ (.obj r) _ _ (i3.keep ?_) i2 ?_ ?_ (fun x hx => Or.inl (hCA x hx))
          · rintro x hx (h | h)
            · exact hDC x h hx
            · exact hd x (hCA x hx) h
          · rintro x (h | h | h) hx'
            · exact hDC x h hx'
            · exact hd x (hCA x hx') h
            · have := hlen x hx'; omega
          · rintro x (h | h | h)
            · rcases hD x h with h | h
              · exact Or.inl (hBkA x h)
              · exact Or.inr (Or.inr h)
            · exact Or.inr (Or.inl h)
            · exact Or.inr (Or.inr (by omega))
        · refine Grew.trans hgr (W' := fun x => A x ∨ B x ∨ s.heap.length ≤ x) (Grew.trans hg2 i3 (by rintro a _ rfl; exact Or.inl (hCA a hCt)) ?_) (by simp) ?_
          · rintro x _ (h | h)
            · rcases hD x h with h | h
              · exact Or.inl (hBkA x h)
              · exact Or.inr (Or.inr h)
            · exact Or.inr (Or.inl h)
          · rintro x hx (h | h | h)
            · exact Or.inl h
            · exact Or.inr h
            · omega
    have fresh : SaveRes (do let r ← savePath (y :: l) [] p; return GMap.set k (.obj r) m)
          ((do let nt ← alloc (.map []); setKey tree k (.obj nt); saveSplits true ((y :: l).map partText) nt value : M Unit) s) s tree A B := by
      obtain ⟨s1, h1, h2, h3, h4⟩ := alloc_grew (.map []) s
      rw [M.bind_ok h1]
      refine go s1 s.heap.length [] (fun x => x = s.heap.length) (h2.keep (by simp)) ?_ (by intro x hx; omega) (by intro x hx; right; omega) h2
      simp only [Own]
      exact ⟨_, [], fun _ => False, rfl, h3, trivial, rfl, by simp, by simp, by simp [OwnM]⟩
    simp only [savePath]
    cases hg : GMap.get k m with
    | none =>
      rw [hg] at hent
      simp only [hent, curObj]
      exact fresh
    | some q =>
      rw [hg] at hent
      obtain ⟨v, hv1, hv2⟩ := hent
      rw [hv1]
      cases q with
      | sc x =>
        simp only [Own] at hv2
        subst hv2
        cases x with
        | nil => exact fresh
        | _ => exact rfl
      | arr q =>
        simp only [Own] at hv2
        obtain ⟨a, vs, _, rfl, _⟩ := hv2
        exact rfl
      | obj o =>
        have hv2' := hv2
        simp only [Own] at hv2
        obtain ⟨nt, vs, _, rfl, _⟩ := hv2
        simp only [curObj]
        exact go s nt o Bk (fun _ _ _ => id) hv2' (fun x hx => hA x (hBkA x hx)) (fun _ => Or.inl) (Grew.refl _ _)
  | (k, i :: is) :: y :: l, hp, b, s, m, p, tree, value, A, B, hA, hB, ho, hv, hd => by
    have hk := hp.2 (k, i :: is) (by simp)
    have hp' : GoodPath (y :: l) := ⟨by simp, fun x hx => hp.2 x (by simp [hx])⟩
    obtain ⟨mm, Bk, C, hc, hent, hBkA, hCA, hBC, hCt, hset⟩ := entry_own ho k
    have hlen : ∀ x, C x → x < s.heap.length := fun x hx => hA x (hCA x hx)
    have hcur := sliceAt_own hent
    rw [List.map_cons, List.map_cons, saveSplits_arr b hk.2.2.1 hk.2.1]
    rw [M.bind_ok (show readMap tree s = (.ok mm, s) by simp only [readMap, hc])]
    simp only [savePath]
    cases hr : curArr (GMap.get k m) with
    | err => rw [hr] at hcur; exact hcur.elim
    | panic =>
      rw [hr] at hcur
      simp only at hcur
      rw [hcur]
      exact rfl
    | ok l0 =>
      rw [hr] at hcur
      obtain ⟨cur, hcur, hco⟩ := hcur
      rw [hcur, M.bind_ok (M.pure_apply cur s)]
      obtain ⟨s0, h1, h2, h3, h4⟩ := alloc_grew (.map []) s
      rw [M.bind_ok h1]
      have hco0 : CurOwn s0.heap cur l0 Bk := by
        cases cur with
        | none => exact hco
        | some a => exact Own.mono (fun _ => id) (h2.keep (by simp)) hco
      have hnt : Own s0.heap (.obj []) (.obj s.heap.length) (fun x => x = s.heap.length) := by
        simp only [Own]
        exact ⟨_, [], fun _ => False, rfl, h3, trivial, rfl, by simp, by simp, by simp [OwnM]⟩
      obtain ⟨a', s1, D, C1, hs1, hg1, ho1, hD, hC1, hC1b, hDC, hf1⟩ := saveInSlice_own (i :: is) (by simp) hk.2.2.2 s0 cur l0 (.obj []) (.obj s.heap.length) Bk
        (fun x => x = s.heap.length) (fun x hx => by have := hA x (hBkA x hx); omega) (fun x hx => by omega) hco0 hnt
        (fun x hx hx' => by have := hA x (hBkA x hx); omega)
      rw [M.bind_ok hs1]
      have ho1' := Own.bound ho1
      have hle1 := hg1.le
      have hCkeep : ∀ x, C x → ¬ (Bk x ∨ x = s.heap.length) := by
        rintro x hx (h | h)
        · exact hBC x h hx
        · have := hlen x hx; omega
      obtain ⟨s2, hs2, hg2, hf2⟩ := hset s1 (.arr a') (fun x hx c hcx => hg1.keep hCkeep x hx c (h2.keep (C := C) (by simp) x hx c hcx))
      have hle2 := hg2.le
      have hC1C : ∀ x, C1 x → ¬ C x := by
        intro x hx hx'
        rcases hC1 x hx with h | h
        · exact hBC x h hx'
        · have := hlen x hx'; omega
      have hDtC : ∀ x, D x → ¬ C x := by
        intro x hx hx'
        rcases hD x hx with h | h | h
        · exact hBC x h hx'
        · have := hlen x hx'; omega
        · have := hlen x hx'; omega
      have hDB : ∀ x, D x → ¬ B x := by
        intro x hx hx'
        rcases hD x hx with h | h | h
        · exact hd x (hBkA x h) hx'
        · have := hB x hx'; omega
        · have := hB x hx'; omega
      have hC1B : ∀ x, C1 x → ¬ B x := by
        intro x hx hx'
        rcases hC1 x hx with h | h
        · exact hd x (hBkA x h) hx'
        · have := hB x hx'; omega
      have hBkeep : ∀ x, B x → ¬ (Bk x ∨ x = s.heap.length) := by
        rintro x hx (h | h)
        · exact hd x (hBkA x h) hx
        · have := hB x hx; omega
      have htB : ∀ x, B x → x ≠ tree := by rintro x hx rfl; exact hd x (hCA x hCt) hx
      rw [merged_empty] at ho1'
      have ih := saveSplits_own (y :: l) hp' true s2 (objOf (sliceOld (i :: is) l0)) p s.heap.length value (fun x => D x ∧ x < s1.heap.length) B
        (fun x hx => by have := hx.2; omega) (fun x hx => by have := hB x hx; omega)
        (Own.mono (fun _ => id) (hg2.keep (by rintro x hx rfl; exact hDtC x hx.1 hCt)) ho1')
        (Own.mono (fun _ => id) (hg2.keep htB) (Own.mono (fun _ => id) (hg1.keep hBkeep) (Own.mono (fun _ => id) (h2.keep (by simp)) hv)))
        (fun x hx => hDB x hx.1)
      rw [M.bind_ok hs2]
      show SaveRes (do let r ← savePath (y :: l) (objOf (sliceOld (i :: is) l0)) p; return GMap.set k (.arr (sliceSet (i :: is) l0 (.obj r))) m) _ s tree A B
      cases hr2 : savePath (y :: l) (objOf (sliceOld (i :: is) l0)) p with
      | err => rw [hr2] at ih; exact ih
      | panic => rw [hr2] at ih; exact ih
      | ok r =>
        rw [hr2] at ih
        obtain ⟨i1, i2, i3⟩ := ih
        refine ⟨i1, ?_, ?_⟩
        · have hin := hf1 _ (.obj r) _ (fun x => ((D x ∧ x < s1.heap.length) ∨ B x ∨ s2.heap.length ≤ x) ∨ C1 x) (fun x hx c hcx => i3.keep (C := C1) (by
              rintro x hx (h | h)
              · exact hDC x h.1 hx
              · exact hC1B x hx h) x hx c (hg2.keep (C := C1) (by rintro x hx rfl; exact hC1C x hx hCt) x hx c hcx)) i2 (by
              rintro x (h | h | h) hx'
              · exact hDC x h.1 hx'
              · exact hC1B x hx' h
              · have := hC1b x hx'; omega) (fun _ => Or.inl) (fun _ => Or.inr)
          refine hf2 _ _ _ _ (i3.keep ?_) hin ?_ ?_ (fun x hx => Or.inl (hCA x hx))
          · rintro x hx (h | h)
            · exact hDtC x h.1 hx
            · exact hd x (hCA x hx) h
          · rintro x ((h | h | h) | h) hx'
            · exact hDtC x h.1 hx'
            · exact hd x (hCA x hx') h
            · have := hlen x hx'; omega
            · exact hC1C x h hx'
          · rintro x ((h | h | h) | h)
            · rcases hD x h.1 with h | h | h
              · exact Or.inl (hBkA x h)
              · exact Or.inr (Or.inr (by omega))
              · exact Or.inr (Or.inr (by omega))
            · exact Or.inr (Or.inl h)
            · exact Or.inr (Or.inr (by omega))
            · rcases hC1 x h with h | h
              · exact Or.inl (hBkA x h)
              · exact Or.inr (Or.inr (by omega))
        · refine Grew.trans h2 (W' := fun x => A x ∨ B x ∨ s.heap.length ≤ x) (Grew.trans hg1 (W' := fun x => A x ∨ B x ∨ s.heap.length ≤ x)
            (Grew.trans hg2 i3 (by rintro a _ rfl; exact Or.inl (hCA a hCt)) ?_) ?_ ?_) (by simp) ?_
          · rintro x _ (h | h)
            · rcases hD x h.1 with h | h | h
              · exact Or.inl (hBkA x h)
              · exact Or.inr (Or.inr (by omega))
              · exact Or.inr (Or.inr (by omega))
            · exact Or.inr (Or.inl h)
          · rintro x _ (h | h)
            · exact Or.inl (hBkA x h)
            · exact Or.inr (Or.inr (by omega))
          · exact fun x _ h => h
          · rintro x hx (h | h | h)
            · exact Or.inl h
            · exact Or.inr h
            · omega

end JT
