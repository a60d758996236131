import Verif.Model.Build
import Verif.Proofs.Map
import Mathlib.Data.List.Perm.Subperm
/- Trees represented by heap values. -/
namespace JT

theorem optAll_some_iff {α β : Type} {f : α → Option β} {l : List α} {ys : List β} :
    optAll f l = some ys ↔ l.length = ys.length ∧ ∀ i (hi : i < l.length) (hi' : i < ys.length), f l[i] = some ys[i] := by
  induction l generalizing ys with
  | nil =>
    cases ys <;> simp [optAll]
  | cons x xs ih =>
    simp only [optAll]
    cases hx : f x with
    | none =>
      constructor
      · intro h; simp at h
      · intro ⟨h1, h2⟩
        cases ys with
        | nil => simp at h1
        | cons y ys => have := h2 0 (by simp) (by simp); simp [hx] at this
    | some y =>
      cases hxs : optAll f xs with
      | none =>
        constructor
        · intro h; simp at h
        · intro ⟨h1, h2⟩
          cases ys with
          | nil => simp at h1
          | cons y' ys =>
            have : optAll f xs = some ys := ih.2 ⟨by simpa using h1, fun i hi hi' => by
              have := h2 (i+1) (by simpa using hi) (by simpa using hi'); simpa using this⟩
            simp [hxs] at this
      | some ys' =>
        constructor
        · intro h
          simp at h; subst h
          obtain ⟨h1, h2⟩ := ih.1 hxs
          refine ⟨by simpa using h1, ?_⟩
          intro i hi hi'
          cases i with
          | zero => simpa using hx
          | succ i => simpa using h2 i (by simpa using hi) (by simpa using hi')
        · intro ⟨h1, h2⟩
          cases ys with
          | nil => simp at h1
          | cons y' ys =>
            have h0 := h2 0 (by simp) (by simp)
            simp [hx] at h0
            have : optAll f xs = some ys := ih.2 ⟨by simpa using h1, fun i hi hi' => by
              have := h2 (i+1) (by simpa using hi) (by simpa using hi'); simpa using this⟩
            rw [hxs] at this
            simp at this
            simp [h0, this]

theorem optAll_mono {α β : Type} {f g : α → Option β} {l : List α} {ys : List β}
    (h : optAll f l = some ys) (hfg : ∀ x ∈ l, ∀ y, f x = some y → g x = some y) : optAll g l = some ys := by
  induction l generalizing ys with
  | nil => simpa [optAll] using h
  | cons x xs ih =>
    simp only [optAll] at *
    split at h
    · rename_i y ys' h1 h2
      rw [hfg x (by simp) y h1, ih h2 (fun z hz => hfg z (by simp [hz]))]
      exact h
    · contradiction

theorem optAll_congr {α β : Type} {f g : α → Option β} {l : List α}
    (hfg : ∀ x ∈ l, f x = g x) : optAll f l = optAll g l := by
  induction l with
  | nil => rfl
  | cons x xs ih =>
    simp only [optAll]
    rw [hfg x (by simp), ih (fun z hz => hfg z (by simp [hz]))]

theorem optAll_mem {α β : Type} {f : α → Option β} {l : List α} {ys : List β}
    (h : optAll f l = some ys) {x : α} (hx : x ∈ l) : ∃ y ∈ ys, f x = some y := by
  induction l generalizing ys with
  | nil => simp at hx
  | cons z zs ih =>
    simp only [optAll] at h
    split at h
    · rename_i y ys' h1 h2
      simp at h; subst h
      simp at hx
      rcases hx with hx | hx
      · subst hx; exact ⟨y, by simp, h1⟩
      · obtain ⟨y', hy', hf⟩ := ih h2 hx
        exact ⟨y', by simp [hy'], hf⟩
    · contradiction

theorem optAll_mem_inv {α β : Type} {f : α → Option β} {l : List α} {ys : List β}
    (h : optAll f l = some ys) {y : β} (hy : y ∈ ys) : ∃ x ∈ l, f x = some y := by
  induction l generalizing ys with
  | nil => simp [optAll] at h; subst h; simp at hy
  | cons z zs ih =>
    simp only [optAll] at h
    split at h
    · rename_i y' ys' h1 h2
      simp at h; subst h
      simp at hy
      rcases hy with hy | hy
      · subst hy; exact ⟨z, by simp, h1⟩
      · obtain ⟨x, hx, hf⟩ := ih h2 hy
        exact ⟨x, by simp [hx], hf⟩
    · contradiction

/-- Reification through cells of a region only. -/
def reifyA (h : Heap) (A : Addr → Bool) : Nat → V → Option P
  | 0, _ => none
  | _ + 1, .sc s => some (.sc s)
  | n + 1, .arr a => if A a then match h[a]? with
    | some (.slice l) => (optAll (reifyA h A n) l).map .arr
    | _ => none
    else none
  | n + 1, .obj a => if A a then match h[a]? with
    | some (.map m) => (optAll (fun kv => (reifyA h A n kv.2).map fun p => (kv.1, p)) m).map .obj
    | _ => none
    else none

/-- The heap value `v` stands for the tree `p`, using only cells in `A`. -/
def Rep (h : Heap) (A : Addr → Bool) (v : V) (p : P) : Prop := ∃ n, reifyA h A n v = some p

/-- General monotonicity: more fuel, larger region, heap agreeing on the region. -/
theorem reifyA_mono {h h' : Heap} {A A' : Addr → Bool} (hA : ∀ a, A a = true → A' a = true)
    (hh : ∀ a, A a = true → ∀ c, h[a]? = some c → h'[a]? = some c) :
    ∀ {n m : Nat} {v : V} {p : P}, n ≤ m → reifyA h A n v = some p → reifyA h' A' m v = some p := by
  intro n
  induction n with
  | zero => intro m v p _ hr; simp [reifyA] at hr
  | succ n ih =>
    intro m v p hm hr
    obtain ⟨m, rfl⟩ : ∃ k, m = k + 1 := ⟨m - 1, by omega⟩
    have hm' : n ≤ m := by omega
    cases v with
    | sc s => simpa [reifyA] using hr
    | arr a =>
      simp only [reifyA] at *
      split at hr
      · rename_i ha
        split at hr
        · rename_i l hl
          rw [if_pos (hA a ha), hh a ha _ hl]
          simp only [Option.map_eq_some_iff] at *
          obtain ⟨ps, h1, h2⟩ := hr
          exact ⟨ps, optAll_mono h1 (fun x _ y hy => ih hm' hy), h2⟩
        · contradiction
      · contradiction
    | obj a =>
      simp only [reifyA] at *
      split at hr
      · rename_i ha
        split at hr
        · rename_i l hl
          rw [if_pos (hA a ha), hh a ha _ hl]
          simp only [Option.map_eq_some_iff] at *
          obtain ⟨ps, h1, h2⟩ := hr
          refine ⟨ps, optAll_mono h1 (fun x _ y hy => ?_), h2⟩
          simp only [Option.map_eq_some_iff] at *
          obtain ⟨q, hq1, hq2⟩ := hy
          exact ⟨q, ih hm' hq1, hq2⟩
        · contradiction
      · contradiction

theorem Rep.mono {h h' : Heap} {A A' : Addr → Bool} {v : V} {p : P} (hr : Rep h A v p)
    (hA : ∀ a, A a = true → A' a = true)
    (hh : ∀ a, A a = true → ∀ c, h[a]? = some c → h'[a]? = some c) : Rep h' A' v p := by
  obtain ⟨n, hn⟩ := hr
  exact ⟨n, reifyA_mono hA hh (Nat.le_refl _) hn⟩

theorem Rep.functional {h : Heap} {A B : Addr → Bool} {v : V} {p q : P} (h1 : Rep h A v p) (h2 : Rep h B v q) :
    p = q := by
  obtain ⟨n, hn⟩ := h1
  obtain ⟨m, hm⟩ := h2
  have a1 := reifyA_mono (A' := fun _ => true) (h' := h) (by simp) (fun _ _ _ h => h) (Nat.le_max_left n m) hn
  have a2 := reifyA_mono (A' := fun _ => true) (h' := h) (by simp) (fun _ _ _ h => h) (Nat.le_max_right n m) hm
  rw [a1] at a2
  exact Option.some.inj a2

theorem reify_eq_reifyA (h : Heap) : ∀ (n : Nat) (v : V), reify h n v = reifyA h (fun _ => true) n v := by
  intro n
  induction n with
  | zero => intro v; rfl
  | succ n ih =>
    intro v
    cases v with
    | sc s => rfl
    | arr a =>
      simp only [reify, reifyA, if_true]
      have : reify h n = reifyA h (fun _ => true) n := funext ih
      rw [this]
      rcases h[a]? with _ | (_ | _) <;> rfl
    | obj a =>
      simp only [reify, reifyA, if_true]
      have : reify h n = reifyA h (fun _ => true) n := funext ih
      rw [this]
      rcases h[a]? with _ | (_ | _) <;> rfl

theorem Rep.sc (h : Heap) (A : Addr → Bool) (s : Scal) : Rep h A (.sc s) (.sc s) := ⟨1, rfl⟩

theorem rep_sc_iff {h : Heap} {A : Addr → Bool} {s : Scal} {p : P} : Rep h A (.sc s) p ↔ p = .sc s := by
  constructor
  · rintro ⟨n, hn⟩
    cases n with
    | zero => simp [reifyA] at hn
    | succ n => simp [reifyA] at hn; exact hn.symm
  · rintro rfl; exact Rep.sc _ _ _

/-- A common fuel for all elements. -/
theorem exists_fuel {h : Heap} {A : Addr → Bool} {l : List V} {ps : List P} (hl : l.length = ps.length)
    (hr : ∀ i (hi : i < l.length) (hi' : i < ps.length), Rep h A l[i] ps[i]) :
    ∃ n, optAll (reifyA h A n) l = some ps := by
  induction l generalizing ps with
  | nil => cases ps with
    | nil => exact ⟨0, rfl⟩
    | cons _ _ => simp at hl
  | cons x xs ih =>
    cases ps with
    | nil => simp at hl
    | cons q qs =>
      obtain ⟨n, hn⟩ := ih (by simpa using hl) (fun i hi hi' => by
        have := hr (i+1) (by simpa using hi) (by simpa using hi'); simpa using this)
      obtain ⟨m, hm⟩ := hr 0 (by simp) (by simp)
      simp at hm
      refine ⟨Nat.max n m, ?_⟩
      simp only [optAll]
      rw [reifyA_mono (fun _ h => h) (fun _ _ _ h => h) (Nat.le_max_right n m) hm]
      rw [optAll_mono hn (fun z _ y hy => reifyA_mono (fun _ h => h) (fun _ _ _ h => h) (Nat.le_max_left n m) hy)]

theorem rep_arr_iff {h : Heap} {A : Addr → Bool} {a : Addr} {p : P} :
    Rep h A (.arr a) p ↔ A a = true ∧ ∃ l ps, h[a]? = some (.slice l) ∧ p = .arr ps ∧ l.length = ps.length ∧
      ∀ i (hi : i < l.length) (hi' : i < ps.length), Rep h A l[i] ps[i] := by
  constructor
  · rintro ⟨n, hn⟩
    cases n with
    | zero => simp [reifyA] at hn
    | succ n =>
      simp only [reifyA] at hn
      split at hn
      · rename_i ha
        split at hn
        · rename_i l hl
          simp only [Option.map_eq_some_iff] at hn
          obtain ⟨ps, h1, h2⟩ := hn
          obtain ⟨h3, h4⟩ := optAll_some_iff.1 h1
          exact ⟨ha, l, ps, hl, h2.symm, h3, fun i hi hi' => ⟨n, h4 i hi hi'⟩⟩
        · contradiction
      · contradiction
  · rintro ⟨ha, l, ps, hl, rfl, hlen, hr⟩
    obtain ⟨n, hn⟩ := exists_fuel hlen hr
    exact ⟨n + 1, by simp [reifyA, ha, hl, hn]⟩

theorem exists_fuel_map {h : Heap} {A : Addr → Bool} {l : GMap V} {ps : GMap P} (hl : l.length = ps.length)
    (hr : ∀ i (hi : i < l.length) (hi' : i < ps.length), l[i].1 = ps[i].1 ∧ Rep h A l[i].2 ps[i].2) :
    ∃ n, optAll (fun kv : Str × V => (reifyA h A n kv.2).map fun p => (kv.1, p)) l = some ps := by
  induction l generalizing ps with
  | nil => cases ps with
    | nil => exact ⟨0, rfl⟩
    | cons _ _ => simp at hl
  | cons x xs ih =>
    cases ps with
    | nil => simp at hl
    | cons q qs =>
      obtain ⟨n, hn⟩ := ih (by simpa using hl) (fun i hi hi' => by
        have := hr (i+1) (by simpa using hi) (by simpa using hi'); simpa using this)
      obtain ⟨hk, m, hm⟩ := hr 0 (by simp) (by simp)
      simp at hm hk
      refine ⟨Nat.max n m, ?_⟩
      simp only [optAll]
      rw [reifyA_mono (fun _ h => h) (fun _ _ _ h => h) (Nat.le_max_right n m) hm]
      rw [optAll_mono hn (fun z _ y hy => by
        simp only [Option.map_eq_some_iff] at *
        obtain ⟨q, hq1, hq2⟩ := hy
        exact ⟨q, reifyA_mono (fun _ h => h) (fun _ _ _ h => h) (Nat.le_max_left n m) hq1, hq2⟩)]
      simp [hk]

theorem rep_obj_iff {h : Heap} {A : Addr → Bool} {a : Addr} {p : P} :
    Rep h A (.obj a) p ↔ A a = true ∧ ∃ l ps, h[a]? = some (.map l) ∧ p = .obj ps ∧ l.length = ps.length ∧
      ∀ i (hi : i < l.length) (hi' : i < ps.length), l[i].1 = ps[i].1 ∧ Rep h A l[i].2 ps[i].2 := by
  constructor
  · rintro ⟨n, hn⟩
    cases n with
    | zero => simp [reifyA] at hn
    | succ n =>
      simp only [reifyA] at hn
      split at hn
      · rename_i ha
        split at hn
        · rename_i l hl
          simp only [Option.map_eq_some_iff] at hn
          obtain ⟨ps, h1, h2⟩ := hn
          obtain ⟨h3, h4⟩ := optAll_some_iff.1 h1
          refine ⟨ha, l, ps, hl, h2.symm, h3, fun i hi hi' => ?_⟩
          have := h4 i hi hi'
          simp only [Option.map_eq_some_iff] at this
          obtain ⟨q, hq1, hq2⟩ := this
          rw [← hq2]
          exact ⟨rfl, n, hq1⟩
        · contradiction
      · contradiction
  · rintro ⟨ha, l, ps, hl, rfl, hlen, hr⟩
    obtain ⟨n, hn⟩ := exists_fuel_map hlen hr
    exact ⟨n + 1, by simp [reifyA, ha, hl, hn]⟩

/-! ### Depth -/

theorem depthList_mem {l : List P} {p : P} (h : p ∈ l) : p.depth ≤ depthList l := by
  induction l with
  | nil => simp at h
  | cons q qs ih =>
    simp only [depthList]
    simp at h
    rcases h with h | h
    · subst h; exact Nat.le_max_left _ _
    · exact Nat.le_trans (ih h) (Nat.le_max_right _ _)

theorem depthFields_mem {l : List (Str × P)} {kp : Str × P} (h : kp ∈ l) : kp.2.depth ≤ depthFields l := by
  induction l with
  | nil => simp at h
  | cons q qs ih =>
    obtain ⟨k, q⟩ := q
    simp only [depthFields]
    simp at h
    rcases h with h | h
    · subst h; exact Nat.le_max_left _ _
    · exact Nat.le_trans (ih h) (Nat.le_max_right _ _)

theorem depthList_attained {l : List P} (h : depthList l ≠ 0) : ∃ p ∈ l, p.depth = depthList l := by
  induction l with
  | nil => simp [depthList] at h
  | cons q qs ih =>
    simp only [depthList] at *
    by_cases hq : depthList qs ≤ q.depth
    · exact ⟨q, by simp, by rw [Nat.max_eq_left hq]⟩
    · have hq' : q.depth ≤ depthList qs := by omega
      rw [Nat.max_eq_right hq'] at h ⊢
      obtain ⟨p, hp, hd⟩ := ih h
      exact ⟨p, by simp [hp], hd⟩

theorem depthFields_attained {l : List (Str × P)} (h : depthFields l ≠ 0) : ∃ kp ∈ l, kp.2.depth = depthFields l := by
  induction l with
  | nil => simp [depthFields] at h
  | cons q qs ih =>
    obtain ⟨k, q⟩ := q
    simp only [depthFields] at *
    by_cases hq : depthFields qs ≤ q.depth
    · exact ⟨(k, q), by simp, by simp [Nat.max_eq_left hq]⟩
    · have hq' : q.depth ≤ depthFields qs := by omega
      rw [Nat.max_eq_right hq'] at h ⊢
      obtain ⟨p, hp, hd⟩ := ih h
      exact ⟨p, by simp [hp], hd⟩

/-- Fuel `depth + 1` suffices. -/
theorem reifyA_depth {h : Heap} {A : Addr → Bool} :
    ∀ {n : Nat} {v : V} {p : P}, reifyA h A n v = some p → ∀ {m : Nat}, p.depth < m → reifyA h A m v = some p := by
  intro n
  induction n with
  | zero => intro v p hr; simp [reifyA] at hr
  | succ n ih =>
    intro v p hr m hm
    obtain ⟨m, rfl⟩ : ∃ k, m = k + 1 := ⟨m - 1, by omega⟩
    cases v with
    | sc s => simpa [reifyA] using hr
    | arr a =>
      simp only [reifyA] at *
      split at hr
      · rename_i ha
        split at hr
        · rename_i l hl
          simp only [Option.map_eq_some_iff] at hr
          obtain ⟨ps, h1, h2⟩ := hr
          subst h2
          simp only [P.depth] at hm
          rw [if_pos ha]
          simp only [Option.map_eq_some_iff]
          refine ⟨ps, ?_, rfl⟩
          obtain ⟨h3, h4⟩ := optAll_some_iff.1 h1
          refine optAll_some_iff.2 ⟨h3, fun i hi hi' => ih (h4 i hi hi') ?_⟩
          have := depthList_mem (List.getElem_mem hi')
          omega
        · contradiction
      · contradiction
    | obj a =>
      simp only [reifyA] at *
      split at hr
      · rename_i ha
        split at hr
        · rename_i l hl
          simp only [Option.map_eq_some_iff] at hr
          obtain ⟨ps, h1, h2⟩ := hr
          subst h2
          simp only [P.depth] at hm
          rw [if_pos ha]
          simp only [Option.map_eq_some_iff]
          refine ⟨ps, ?_, rfl⟩
          obtain ⟨h3, h4⟩ := optAll_some_iff.1 h1
          refine optAll_some_iff.2 ⟨h3, fun i hi hi' => ?_⟩
          have h5 := h4 i hi hi'
          simp only [Option.map_eq_some_iff] at h5 ⊢
          obtain ⟨q, hq1, hq2⟩ := h5
          refine ⟨q, ih hq1 ?_, hq2⟩
          have := depthFields_mem (List.getElem_mem hi')
          rw [← hq2] at this
          simp at this
          omega
        · contradiction
      · contradiction

/-- A chain of cells below a value, of strictly decreasing depth. -/
theorem depth_chain {h : Heap} {A : Addr → Bool} : ∀ (d : Nat) {v : V} {p : P}, Rep h A v p → p.depth = d →
    ∃ l : List Addr, l.length = d ∧ (∀ a ∈ l, a < h.length ∧ ∃ q, (Rep h A (.arr a) q ∨ Rep h A (.obj a) q) ∧ q.depth ≤ d) ∧ l.Nodup := by
  intro d
  induction d with
  | zero => intro v p _ _; exact ⟨[], rfl, by simp, List.nodup_nil⟩
  | succ d ih =>
    intro v p hr hd
    -- the cell of v and a child of depth d
    have key : ∃ a, (v = .arr a ∨ v = .obj a) ∧ a < h.length ∧ (d ≠ 0 → ∃ w q, Rep h A w q ∧ q.depth = d) := by
      cases v with
      | sc s => rw [rep_sc_iff] at hr; subst hr; simp [P.depth] at hd
      | arr a =>
        obtain ⟨_, l, ps, hl, rfl, hlen, hrs⟩ := rep_arr_iff.1 hr
        simp only [P.depth] at hd
        refine ⟨a, Or.inl rfl, (List.getElem?_eq_some_iff.1 hl).1, fun hd0 => ?_⟩
        obtain ⟨q, hq, hqd⟩ := depthList_attained (l := ps) (by omega)
        obtain ⟨i, hi, rfl⟩ := List.mem_iff_getElem.1 hq
        exact ⟨l[i]'(by omega), ps[i], hrs i (by omega) hi, by omega⟩
      | obj a =>
        obtain ⟨_, l, ps, hl, rfl, hlen, hrs⟩ := rep_obj_iff.1 hr
        simp only [P.depth] at hd
        refine ⟨a, Or.inr rfl, (List.getElem?_eq_some_iff.1 hl).1, fun hd0 => ?_⟩
        obtain ⟨q, hq, hqd⟩ := depthFields_attained (l := ps) (by omega)
        obtain ⟨i, hi, rfl⟩ := List.mem_iff_getElem.1 hq
        exact ⟨(l[i]'(by omega)).2, ps[i].2, (hrs i (by omega) hi).2, by omega⟩
    obtain ⟨a, hva, ha, hchild⟩ := key
    have hra : Rep h A (.arr a) p ∨ Rep h A (.obj a) p := by
      rcases hva with rfl | rfl
      · exact Or.inl hr
      · exact Or.inr hr
    by_cases hd0 : d = 0
    · subst hd0
      refine ⟨[a], rfl, ?_, by simp⟩
      intro b hb
      simp at hb
      subst hb
      exact ⟨ha, p, hra, by omega⟩
    · obtain ⟨w, q, hw, hq⟩ := hchild hd0
      obtain ⟨l, hl1, hl2, hl3⟩ := ih hw hq
      refine ⟨a :: l, by simp [hl1], ?_, ?_⟩
      · intro b hb
        simp at hb
        rcases hb with rfl | hb
        · exact ⟨ha, p, hra, by omega⟩
        · obtain ⟨h1, q', h2, h3⟩ := hl2 b hb
          exact ⟨h1, q', h2, by omega⟩
      · refine List.nodup_cons.2 ⟨?_, hl3⟩
        intro hmem
        obtain ⟨_, q', h2, h3⟩ := hl2 a hmem
        -- the same cell has one tree
        have : q' = p := by
          rcases hra with h4 | h4 <;> rcases h2 with h5 | h5
          · exact h5.functional h4
          · obtain ⟨_, l1, _, e1, _⟩ := rep_arr_iff.1 h4
            obtain ⟨_, l2, _, e2, _⟩ := rep_obj_iff.1 h5
            rw [e1] at e2; simp at e2
          · obtain ⟨_, l1, _, e1, _⟩ := rep_obj_iff.1 h4
            obtain ⟨_, l2, _, e2, _⟩ := rep_arr_iff.1 h5
            rw [e1] at e2; simp at e2
          · exact h5.functional h4
        subst this
        omega

theorem Rep.depth_le {h : Heap} {A : Addr → Bool} {v : V} {p : P} (hr : Rep h A v p) : p.depth ≤ h.length := by
  obtain ⟨l, h1, h2, h3⟩ := depth_chain p.depth hr rfl
  have hsub : l ⊆ List.range h.length := by
    intro a ha
    exact List.mem_range.2 (h2 a ha).1
  have := (List.subperm_of_subset h3 hsub).length_le
  simp at this
  omega

theorem Rep.toP {h : Heap} {A : Addr → Bool} {v : V} {p : P} (hr : Rep h A v p) : h.toP v = some p := by
  have hd := hr.depth_le
  obtain ⟨n, hn⟩ := hr.mono (A' := fun _ => true) (h' := h) (by simp) (fun _ _ _ h => h)
  rw [Heap.toP, reify_eq_reifyA]
  exact reifyA_depth hn (by omega)

theorem rep_of_toP {h : Heap} {v : V} {p : P} (hr : h.toP v = some p) : Rep h (fun _ => true) v p := by
  rw [Heap.toP, reify_eq_reifyA] at hr
  exact ⟨_, hr⟩

theorem rep_nil_iff {h : Heap} {A : Addr → Bool} {v : V} {p : P} (hr : Rep h A v p) : v = V.nil ↔ p = .sc .nil := by
  constructor
  · rintro rfl; exact rep_sc_iff.1 hr
  · rintro rfl
    cases v with
    | sc s => have := rep_sc_iff.1 hr; simp at this; rw [← this]
    | arr a => obtain ⟨_, _, _, _, h, _⟩ := rep_arr_iff.1 hr; simp at h
    | obj a => obtain ⟨_, _, _, _, h, _⟩ := rep_obj_iff.1 hr; simp at h

theorem reifyA_below {h : Heap} {A : Addr → Bool} : ∀ (n : Nat) (v : V) (p : P), reifyA h A n v = some p →
    reifyA h (fun a => A a && decide (a < h.length)) n v = some p := by
  intro n
  induction n with
  | zero => intro v p h; simp [reifyA] at h
  | succ n ih =>
    intro v p hr
    cases v with
    | sc s => simpa [reifyA] using hr
    | arr a =>
      simp only [reifyA] at hr ⊢
      split at hr
      · rename_i hA
        split at hr
        · rename_i l hl
          have hlt := (List.getElem?_eq_some_iff.1 hl).1
          rw [Option.map_eq_some_iff] at hr
          obtain ⟨ps, h1, h2⟩ := hr
          simp only [hA, hlt, decide_true, Bool.and_self, if_true, hl]
          rw [optAll_mono h1 fun x _ y hx => ih x y hx]
          simp [h2]
        · contradiction
      · contradiction
    | obj a =>
      simp only [reifyA] at hr ⊢
      split at hr
      · rename_i hA
        split at hr
        · rename_i l hl
          have hlt := (List.getElem?_eq_some_iff.1 hl).1
          rw [Option.map_eq_some_iff] at hr
          obtain ⟨ps, h1, h2⟩ := hr
          simp only [hA, hlt, decide_true, Bool.and_self, if_true, hl]
          rw [optAll_mono h1 fun x _ y hx => ?_]
          · simp [h2]
          · rw [Option.map_eq_some_iff] at hx ⊢
            obtain ⟨q, hq, e⟩ := hx
            exact ⟨q, ih _ _ hq, e⟩
        · contradiction
      · contradiction

/-- A tree only uses existing cells. -/
theorem Rep.below {h : Heap} {A : Addr → Bool} {v : V} {p : P} (hr : Rep h A v p) :
    Rep h (fun a => A a && decide (a < h.length)) v p := by
  obtain ⟨n, hn⟩ := hr
  exact ⟨n, reifyA_below n v p hn⟩

end JT
