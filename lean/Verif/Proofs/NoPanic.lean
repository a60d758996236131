import Verif.Proofs.RunObj
/- Executions that do not panic. -/
namespace JT

variable {α β : Type}

/-! ### Values with a property that holds for everything below them -/

def OutAll (G : V → Prop) : Out V → Prop
  | .val v => G v
  | .sc _ => True
  | .arr l => ∀ v ∈ l, G v
  | .strs _ => True

def ShapeAll (G : V → Prop) : Shape V → Prop
  | .sc _ => True
  | .arr l => ∀ v ∈ l, G v
  | .obj m => ∀ kv ∈ m, G kv.2

/-- The property passes to the parts of a value. -/
def Closed (G : V → Prop) (h : Heap) : Prop := ∀ v, G v → ShapeAll G (h.shape v)

section
variable {G : V → Prop}

theorem getStep_all {h : Heap} (hh : Closed G h) {v u : V} (hv : G v) {st : Step}
    (hg : getStep h.view st v = some u) : G u := by
  have hs := hh _ hv
  unfold getStep at hg
  simp only [Heap.view] at hg
  split at hg
  · rename_i m k hm
    rw [hm] at hs
    exact hs _ (GMap.get_some_mem hg)
  · rename_i m i hm
    rw [hm] at hs
    exact hs _ (GMap.get_some_mem hg)
  · rename_i l i hl
    rw [hl] at hs
    exact hs _ (List.mem_of_getElem? hg)
  · simp at hg

theorem getSteps_all {h : Heap} (hh : Closed G h) : ∀ {ss : List Step} {v u : V}, G v →
    getSteps h.view ss v = some u → G u := by
  intro ss
  induction ss with
  | nil => intro v u hv hg; simp [getSteps] at hg; subst hg; exact hv
  | cons s ss ih =>
    intro v u hv hg
    simp only [getSteps] at hg
    cases hx : getStep h.view s v with
    | none => simp [hx] at hg
    | some x =>
      simp [hx] at hg
      exact ih (getStep_all hh hv hx) hg

theorem optAll_all {h : Heap} (hh : Closed G h) {v : V} (hv : G v) :
    ∀ {ls : List (List Step)} {us : List V}, optAll (fun ss => getSteps h.view ss v) ls = some us →
      ∀ u ∈ us, G u := by
  intro ls
  induction ls with
  | nil => intro us h1; simp [optAll] at h1; subst h1; simp
  | cons l ls ih =>
    intro us h1
    simp only [optAll] at h1
    split at h1
    · rename_i y ys hy hys
      simp at h1
      subst h1
      intro u hu
      simp at hu
      rcases hu with rfl | hu
      · exact getSteps_all hh hv hy
      · exact ih hys u hu
    · contradiction

theorem jpGet_all {lib : Lib} {h : Heap} (hh : Closed G h) {v : V} (hv : G v) {path : Str} {o : Out V}
    (hg : jpGet lib h.view path v = some o) : OutAll G o := by
  unfold jpGet at hg
  split at hg
  · simp only [Option.map_eq_some_iff] at hg
    obtain ⟨u, hu, rfl⟩ := hg
    exact getSteps_all hh hv hu
  · split at hg
    · contradiction
    · simp only [Option.map_eq_some_iff] at hg
      obtain ⟨u, hu, rfl⟩ := hg
      exact getSteps_all hh hv hu
    · simp only [Option.map_eq_some_iff] at hg
      obtain ⟨u, hu, rfl⟩ := hg
      exact optAll_all hh hv hu
    · simp at hg; subst hg; trivial

theorem convertBoolean_all (sh : Shape V) : OutAll G (convertBoolean sh).val := by
  unfold convertBoolean; (repeat' split) <;> trivial
theorem convertNumber_all (lib : Lib) (sh : Shape V) : OutAll G (convertNumber lib sh).val := by
  unfold convertNumber; (repeat' split) <;> trivial
theorem convertDateTime_all (lib : Lib) (sh : Shape V) : OutAll G (convertDateTime lib sh).val := by
  unfold convertDateTime; (repeat' split) <;> trivial
theorem convertString_all (lib : Lib) (sh : Shape V) : OutAll G (convertString lib sh).val := by
  unfold convertString; (repeat' split) <;> trivial

theorem convertTo_all {lib : Lib} {h : Heap} {ty : Str} {v : V} (hv : G v) :
    OutAll G (convertTo lib h.view ty v).val := by
  unfold convertTo
  split
  · exact convertBoolean_all _
  · split
    · exact convertNumber_all _ _
    · split
      · exact convertString_all _ _
      · split
        · exact convertDateTime_all _ _
        · exact hv

theorem convert_all {lib : Lib} {h : Heap} (hh : Closed G h) {ty : Str} : ∀ {n : Nat} {v : V} {c : Conv V}, G v →
    convert lib h.view ty n v = .ok c → OutAll G c.val := by
  intro n
  induction n with
  | zero => intro v c hv hc; simp [convert] at hc
  | succ n ih =>
    intro v c hv hc
    have hs := hh _ hv
    simp only [convert] at hc
    split at hc
    · simp at hc; subst hc; trivial
    · simp at hc; subst hc; trivial
    · rename_i x rest hsh
      rw [show h.view.shape v = h.shape v from rfl] at hsh
      rw [hsh] at hs
      have hx : G x := hs x (by simp)
      split at hc
      · split at hc
        · rename_i y ys hy
          have hsx := hh _ hx
          rw [show h.view.shape x = h.shape x from rfl] at hy
          rw [hy] at hsx
          exact ih (hsx y (by simp)) hc
        · simp at hc; subst hc; exact convertTo_all hx
      · simp at hc; subst hc; exact convertTo_all hv
    · simp at hc; subst hc; exact convertTo_all hv

theorem durationOp_all {h : Heap} {v : V} {o : Out V} (ho : durationOp h.view v = .ok o) : OutAll G o := by
  unfold durationOp at ho
  simp only at ho
  split at ho
  · simp at ho; subst ho; trivial
  · rename_i s _
    cases hd : durationStr s <;> simp [hd, Res.map] at ho
    subst ho; trivial
  · simp at ho

theorem maxOp_all {lib : Lib} {h : Heap} (hh : Closed G h) {b r : Str} {v : V} (hv : G v) {o : Out V}
    (ho : maxOp lib h.view b r v = .ok o) : OutAll G o := by
  unfold maxOp at ho
  have hs := hh _ hv
  split at ho
  · rename_i items hi
    rw [show h.view.shape v = h.shape v from rfl] at hi
    rw [hi] at hs
    simp only at ho
    split at ho
    · split at ho
      · simp at ho
      · rename_i item hit
        split at ho
        · simp at ho
        · rename_i o' hg
          simp at ho; subst ho
          exact jpGet_all hh (hs _ (List.mem_of_getElem? hit)) hg
    · simp at ho
    · simp at ho
  · simp at ho

theorem onStr_all {h : Heap} {v : V} {f : Str → Res (Out V)} {o : Out V} (hf : ∀ s o, f s = .ok o → OutAll G o)
    (ho : onStr h.view v f = .ok o) : OutAll G o := by
  unfold onStr at ho
  split at ho
  · exact hf _ _ ho
  · simp at ho

theorem runOp_all {lib : Lib} {h : Heap} (hh : Closed G h) {now : GTime} {op : Op} {v : V} (hv : G v)
    {o : Out V} (ho : runOp lib h.view now op v = .ok o) : OutAll G o := by
  cases op with
  | duration => exact durationOp_all ho
  | max b r => exact maxOp_all hh hv ho
  | changeCase u => exact onStr_all (fun s o h => by simp at h; subst h; trivial) ho
  | replace a b => exact onStr_all (fun s o h => by simp at h; subst h; trivial) ho
  | split on => exact onStr_all (fun s o h => by split at h <;> simp at h <;> subst h <;> trivial) ho
  | timeParse a b => exact onStr_all (fun s o h => by split at h <;> simp at h; subst h; trivial) ho
  | toCamelCase d => exact onStr_all (fun s o h => by simp at h; subst h; trivial) ho
  | removeHTML => exact onStr_all (fun s o h => by simp at h; subst h; trivial) ho
  | currentTime f => simp only [runOp] at ho; simp at ho; subst ho; trivial
  | valueExists => simp only [runOp] at ho; split at ho <;> simp at ho <;> subst ho <;> trivial
  | inverse => simp only [runOp] at ho; split at ho <;> simp at ho <;> subst ho <;> trivial
  | convertToFloat64 =>
    simp only [runOp] at ho
    (repeat' split at ho) <;> simp at ho <;> subst ho <;> trivial
  | convertToInt64 =>
    simp only [runOp] at ho
    (repeat' split at ho) <;> simp at ho <;> subst ho <;> trivial
  | convertToBool =>
    simp only [runOp] at ho
    (repeat' split at ho) <;> simp at ho <;> subst ho <;> trivial

theorem concat_all {h : Heap} {a b : V} (ha : G a) (hb : G b) {d : Str} {o : Out V}
    (ho : concat h.view a b d = .ok o) : OutAll G o := by
  unfold concat at ho
  split at ho
  · simp at ho; subst ho; trivial
  · simp at ho; subst ho; exact hb
  · simp at ho; subst ho; exact ha
  · split at ho
    · simp at ho
    · split at ho
      · split at ho <;> simp at ho <;> subst ho <;> trivial
      · simp at ho

end


/-! ### Well-typed memory -/

/-- The reference, if it is one, is to a cell of the right kind. -/
def V.ok (h : Heap) : V → Prop
  | .sc _ => True
  | .arr a => ∃ l, h[a]? = some (.slice l)
  | .obj a => ∃ m, h[a]? = some (.map m)

def Cell.ok (h : Heap) : Cell → Prop
  | .map m => ∀ kv ∈ m, kv.2.ok h
  | .slice l => ∀ v ∈ l, v.ok h

/-- If the value is a slice, it is older than cell `a`. -/
def V.before (a : Nat) : V → Prop
  | .arr b => b < a
  | _ => True

/-- References are well-typed; slices only refer to older slices. -/
structure TInv (s : St) : Prop where
  cell : ∀ (a : Nat) (c : Cell), s.heap[a]? = some c → c.ok s.heap
  order : ∀ (a : Nat) (l : List V), s.heap[a]? = some (.slice l) → ∀ v ∈ l, v.before a

/-- Cells keep their kind, slices their contents; instruction sets are at most permuted. -/
structure Kinds (s s' : St) : Prop where
  slice : ∀ (a : Nat) (l : List V), s.heap[a]? = some (.slice l) → s'.heap[a]? = some (.slice l)
  map : ∀ (a : Nat) (m : GMap V), s.heap[a]? = some (.map m) → ∃ m', s'.heap[a]? = some (.map m')
  instrs : ∀ (i : Nat) (t : Instrs), s.instrs[i]? = some t → ∃ t', s'.instrs[i]? = some t' ∧ ∀ ti ∈ t'.from, ti ∈ t.from
  shared : s'.shared = s.shared

theorem Kinds.refl (s : St) : Kinds s s := ⟨fun _ _ => id, fun _ m h => ⟨m, h⟩, fun _ t h => ⟨t, h, fun _ => id⟩, rfl⟩

theorem Kinds.trans {s t u : St} (h1 : Kinds s t) (h2 : Kinds t u) : Kinds s u := by
  refine ⟨fun a l h => h2.slice a l (h1.slice a l h), fun a m h => ?_, fun i x h => ?_, h2.shared.trans h1.shared⟩
  · obtain ⟨m', h'⟩ := h1.map a m h
    exact h2.map a m' h'
  · obtain ⟨t1, e1, g1⟩ := h1.instrs i x h
    obtain ⟨t2, e2, g2⟩ := h2.instrs i t1 e1
    exact ⟨t2, e2, fun ti h => g1 ti (g2 ti h)⟩

theorem V.ok_mono {s s' : St} (h : Kinds s s') {v : V} (hv : v.ok s.heap) : v.ok s'.heap := by
  cases v with
  | sc _ => trivial
  | arr a => obtain ⟨l, hl⟩ := hv; exact ⟨l, h.slice a l hl⟩
  | obj a => obtain ⟨m, hm⟩ := hv; exact h.map a m hm

theorem Cell.ok_mono {s s' : St} (h : Kinds s s') {c : Cell} (hc : c.ok s.heap) : c.ok s'.heap := by
  cases c with
  | map m => exact fun kv hkv => V.ok_mono h (hc kv hkv)
  | slice l => exact fun v hv => V.ok_mono h (hc v hv)

theorem TInv.closed {s : St} (h : TInv s) : Closed (V.ok s.heap) s.heap := by
  intro v hv
  cases v with
  | sc _ => trivial
  | arr a => obtain ⟨l, hl⟩ := hv; simp only [Heap.shape, hl]; exact h.cell a _ hl
  | obj a => obtain ⟨l, hl⟩ := hv; simp only [Heap.shape, hl]; exact h.cell a _ hl

/-- `x` does not panic in `s`, memory stays well-typed, the result satisfies `Q`. -/
def NP (s : St) (x : M α) (Q : St → α → Prop) : Prop :=
  TInv s → (x s).1 ≠ .panic ∧ TInv (x s).2 ∧ Kinds s (x s).2 ∧ ∀ a, (x s).1 = .ok a → Q (x s).2 a

abbrev NV (s : St) (v : V) : Prop := v.ok s.heap

theorem NP.pure {s : St} {a : α} {Q : St → α → Prop} (h : Q s a) : NP s (Pure.pure a : M α) Q := by
  intro hs
  refine ⟨by simp [M.pure_apply], hs, Kinds.refl s, ?_⟩
  intro b hb
  rw [M.pure_apply] at hb ⊢
  simp only [Res.ok.injEq] at hb
  subst hb
  exact h

theorem NP.fail {s : St} {Q : St → α → Prop} : NP s (M.fail : M α) Q := fun hs => ⟨by simp [M.fail], hs, Kinds.refl s, by simp [M.fail]⟩

theorem NP.bind {s : St} {x : M α} {f : α → M β} {Q : St → α → Prop} {R : St → β → Prop} (hx : NP s x Q)
    (hf : ∀ s' a, TInv s' → Kinds s s' → Q s' a → NP s' (f a) R) : NP s (x >>= f) R := by
  intro hs
  obtain ⟨h1, h2, h3, h4⟩ := hx hs
  rcases hxs : x s with ⟨r, s'⟩
  rw [hxs] at h1 h2 h3 h4
  rw [M.bind_apply, hxs]
  cases r with
  | ok a =>
    obtain ⟨g1, g2, g3, g4⟩ := hf s' a h2 h3 (h4 a rfl) h2
    exact ⟨g1, g2, h3.trans g3, g4⟩
  | err => exact ⟨by simp, h2, h3, by simp⟩
  | panic => exact absurd rfl h1

theorem NP.weaken {s : St} {x : M α} {Q R : St → α → Prop} (hx : NP s x Q) (h : ∀ s' a, Kinds s s' → Q s' a → R s' a) : NP s x R := by
  intro hs
  obtain ⟨h1, h2, h3, h4⟩ := hx hs
  exact ⟨h1, h2, h3, fun a ha => h _ a h3 (h4 a ha)⟩

theorem NP.ite {s : St} {c : Prop} [Decidable c] {x y : M α} {Q : St → α → Prop} (hx : c → NP s x Q) (hy : ¬ c → NP s y Q) : NP s (if c then x else y) Q := by
  split
  · exact hx ‹_›
  · exact hy ‹_›

theorem NP.lift {s : St} {r : Res α} {Q : St → α → Prop} (hp : TInv s → r ≠ .panic) (h : TInv s → ∀ a, r = .ok a → Q s a) : NP s (M.lift r) Q :=
  fun hs => ⟨hp hs, hs, Kinds.refl s, h hs⟩

theorem NP.getHeap {s : St} : NP s getHeap (fun s' h => s' = s ∧ h = s.heap) := fun hs => ⟨by simp [JT.getHeap], hs, Kinds.refl s, by
  intro a ha
  simp [JT.getHeap] at ha
  exact ⟨rfl, ha.symm⟩⟩

theorem NP.nextTick {s : St} : NP s nextTick (fun _ _ => True) := fun hs =>
  ⟨by simp [JT.nextTick], ⟨hs.cell, hs.order⟩, ⟨fun _ _ => id, fun _ m h => ⟨m, h⟩, fun _ t h => ⟨t, h, fun _ => id⟩, rfl⟩, fun _ _ => trivial⟩

theorem getElem?_snoc {γ : Type} {l : List γ} {x y : γ} {a : Nat} (h : (l ++ [x])[a]? = some y) : l[a]? = some y ∨ (a = l.length ∧ y = x) := by
  rw [List.getElem?_append] at h
  split at h
  · exact Or.inl h
  · rw [List.getElem?_singleton] at h
    split at h
    · simp at h; exact Or.inr ⟨by omega, h.symm⟩
    · simp at h

theorem lt_of_getElem? {γ : Type} {l : List γ} {y : γ} {a : Nat} (h : l[a]? = some y) : a < l.length := (List.getElem?_eq_some_iff.1 h).1

theorem V.ok_before {h : Heap} {v : V} (hv : v.ok h) : v.before h.length := by
  cases v with
  | arr a => obtain ⟨l, hl⟩ := hv; exact lt_of_getElem? hl
  | _ => trivial

theorem alloc_kinds (s : St) (c : Cell) : Kinds s (alloc c s).2 := by
  refine ⟨fun a l h => ?_, fun a m h => ⟨m, ?_⟩, fun _ t h => ⟨t, h, fun _ => id⟩, rfl⟩
  · simp only [JT.alloc]; rw [List.getElem?_append_left (lt_of_getElem? h)]; exact h
  · simp only [JT.alloc]; rw [List.getElem?_append_left (lt_of_getElem? h)]; exact h

theorem NP.alloc {s : St} {c : Cell} (hc : c.ok s.heap) : NP s (alloc c) (fun s' a => s'.heap[a]? = some c) := by
  intro hs
  refine ⟨by simp [JT.alloc], ⟨?_, ?_⟩, alloc_kinds s c, ?_⟩
  · intro a c' h
    have : c'.ok s.heap := by
      rcases getElem?_snoc h with h | ⟨_, rfl⟩
      · exact hs.cell a c' h
      · exact hc
    exact Cell.ok_mono (alloc_kinds s c) this
  · intro a l h
    rcases getElem?_snoc h with h | ⟨rfl, rfl⟩
    · exact hs.order a l h
    · exact fun v hv => V.ok_before (hc v hv)
  · intro a ha
    simp only [JT.alloc, Res.ok.injEq] at ha ⊢
    subst ha
    simp

theorem NP.allocSlice {s : St} {l : List V} (hc : ∀ v ∈ l, v.ok s.heap) : NP s (JT.alloc (.slice l)) (fun s' a => NV s' (.arr a)) :=
  NP.weaken (NP.alloc hc) fun _ _ _ h => ⟨l, h⟩

theorem NP.allocMap {s : St} {m : GMap V} (hc : ∀ kv ∈ m, kv.2.ok s.heap) : NP s (JT.alloc (.map m)) (fun s' a => NV s' (.obj a)) :=
  NP.weaken (NP.alloc hc) fun _ _ _ h => ⟨m, h⟩

theorem NP.readMap {s : St} {a : Addr} (ha : NV s (.obj a)) : NP s (readMap a) (fun s' m => s' = s ∧ s.heap[a]? = some (.map m) ∧ ∀ kv ∈ m, kv.2.ok s.heap) := by
  intro hs
  obtain ⟨m, hm⟩ := ha
  have e : JT.readMap a s = (.ok m, s) := by simp only [JT.readMap, hm]
  rw [e]
  refine ⟨by simp, hs, Kinds.refl s, ?_⟩
  intro m' h
  simp only [Res.ok.injEq] at h
  subst h
  exact ⟨rfl, hm, hs.cell a _ hm⟩

theorem NP.readSlice {s : St} {a : Addr} (ha : NV s (.arr a)) : NP s (readSlice a) (fun s' l => s' = s ∧ ∀ v ∈ l, v.ok s.heap) := by
  intro hs
  obtain ⟨m, hm⟩ := ha
  have e : JT.readSlice a s = (.ok m, s) := by simp only [JT.readSlice, hm]
  rw [e]
  refine ⟨by simp, hs, Kinds.refl s, ?_⟩
  intro m' h
  simp only [Res.ok.injEq] at h
  subst h
  exact ⟨rfl, hs.cell a _ hm⟩

theorem set_ok {h : Heap} {m : GMap V} {k : Str} {v : V} (hm : ∀ kv ∈ m, kv.2.ok h) (hv : v.ok h) : ∀ kv ∈ GMap.set k v m, kv.2.ok h := by
  intro kv hkv
  rcases GMap.mem_set hkv with rfl | h
  · exact hv
  · exact hm _ h

theorem NP.writeMap {s : St} {a : Addr} {m m0 : GMap V} (ha : s.heap[a]? = some (.map m0)) (hm : ∀ kv ∈ m, kv.2.ok s.heap) : NP s (writeCell a (.map m)) (fun _ _ => True) := by
  intro hs
  have hk : Kinds s (JT.writeCell a (.map m) s).2 := by
    refine ⟨fun b l h => ?_, fun b m' h => ?_, fun _ t h => ⟨t, h, fun _ => id⟩, rfl⟩
    · have : b ≠ a := by rintro rfl; rw [ha] at h; simp at h
      simp only [JT.writeCell]
      rw [List.getElem?_set_ne (fun e => this e.symm)]; exact h
    · simp only [JT.writeCell]
      by_cases hb : a = b
      · subst hb; exact ⟨m, by rw [List.getElem?_set_self (lt_of_getElem? ha)]⟩
      · exact ⟨m', by rw [List.getElem?_set_ne hb]; exact h⟩
  refine ⟨by simp [JT.writeCell], ⟨?_, ?_⟩, hk, fun _ _ => trivial⟩
  · intro b c h
    refine Cell.ok_mono hk ?_
    simp only [JT.writeCell] at h
    rw [List.getElem?_set] at h
    split at h
    · split at h
      · simp only [Option.some.injEq] at h; subst h; exact hm
      · simp at h
    · exact hs.cell b c h
  · intro b l h
    simp only [JT.writeCell] at h
    rw [List.getElem?_set] at h
    split at h
    · split at h <;> simp at h
    · exact hs.order b l h

theorem NP.setKey {s : St} {a : Addr} (ha : NV s (.obj a)) {k : Str} {v : V} (hv : NV s v) : NP s (setKey a k v) (fun _ _ => True) := by
  refine NP.bind (NP.readMap ha) fun s' m _ _ hm => ?_
  obtain ⟨rfl, hm, hmv⟩ := hm
  exact NP.writeMap hm (set_ok hmv hv)

/-! ### Operations and conversions -/

theorem NP.materialize {s : St} {o : Out V} (ho : OutAll (NV s) o) : NP s (materialize o) NV := by
  cases o with
  | val v => exact NP.pure ho
  | sc s => exact NP.pure trivial
  | arr l => exact NP.bind (NP.allocSlice ho) fun s' a _ _ ha => NP.pure ha
  | strs l =>
    refine NP.bind (NP.allocSlice ?_) fun s' a _ _ ha => NP.pure ha
    intro v hv
    simp at hv
    obtain ⟨s, _, rfl⟩ := hv
    trivial

/-- Not the operation `max`. -/
def Op.notMax : Op → Prop
  | .max _ _ => False
  | _ => True

theorem durationStr_np (x : Str) : durationStr x ≠ .panic := by
  unfold durationStr
  have ha : ∀ y, atoiOr0 y ≠ .panic := by intro y; unfold atoiOr0; split <;> (try split) <;> simp
  split
  · simp
  · rename_i sc hm
    cases h1 : atoiOr0 (capture sc 1) with
    | ok hh =>
      cases h2 : atoiOr0 (capture sc 2) with
      | ok mm =>
        cases h3 : atoiOr0 (capture sc 3) with
        | ok ss => simp [Bind.bind, Res.bind]
        | err => simp [Bind.bind, Res.bind]
        | panic => exact absurd h3 (ha _)
      | err => simp [Bind.bind, Res.bind]
      | panic => exact absurd h2 (ha _)
    | err => simp [Bind.bind, Res.bind]
    | panic => exact absurd h1 (ha _)

theorem onStr_np {γ : Type} {vw : View γ} {raw : γ} {f : Str → Res (Out γ)} (hf : ∀ s, f s ≠ .panic) : onStr vw raw f ≠ .panic := by
  unfold onStr
  split
  · exact hf _
  · simp

theorem runOp_np {lib : Lib} {h : Heap} {now : GTime} {op : Op} (hop : op.notMax) {v : V} : runOp lib h.view now op v ≠ .panic := by
  cases op with
  | max b r => exact hop.elim
  | duration =>
    simp only [runOp, durationOp]
    split
    · simp
    · rename_i x _
      have := durationStr_np x
      cases hx : durationStr x with
      | ok d => simp [Res.map]
      | err => simp [Res.map]
      | panic => exact absurd hx this
    · simp
  | changeCase u => exact onStr_np fun s => by simp
  | replace a b => exact onStr_np fun s => by simp
  | split on => exact onStr_np fun s => by simp; try (split <;> simp)
  | timeParse a b => exact onStr_np fun s => by split <;> simp
  | toCamelCase d => exact onStr_np fun s => by simp
  | removeHTML => exact onStr_np fun s => by simp
  | currentTime f => simp [runOp]
  | valueExists => simp only [runOp]; (repeat' split) <;> simp
  | inverse => simp only [runOp]; (repeat' split) <;> simp
  | convertToFloat64 => simp only [runOp]; (repeat' split) <;> simp
  | convertToInt64 => simp only [runOp]; (repeat' split) <;> simp
  | convertToBool => simp only [runOp]; (repeat' split) <;> simp

theorem NP.runOps {env : Env} : ∀ {ops : List Op}, (∀ op ∈ ops, op.notMax) → ∀ {s : St} {v : V}, NV s v → NP s (runOps env ops v) NV := by
  intro ops
  induction ops with
  | nil => intro _ s v hv; exact NP.pure hv
  | cons op ops ih =>
    intro hop s v hv
    refine NP.bind NP.nextTick fun s1 n hi1 hk1 _ => NP.bind NP.getHeap fun s2 h hi2 hk2 hh => ?_
    obtain ⟨rfl, rfl⟩ := hh
    have hv1 : NV s2 v := V.ok_mono hk1 hv
    refine NP.bind (NP.lift (Q := fun s o => OutAll (NV s) o) (fun _ => runOp_np (hop op (by simp))) fun hs o ho => runOp_all hs.closed hv1 ho) fun s3 o _ _ ho => ?_
    exact NP.bind (NP.materialize ho) fun s4 v' _ _ hv' => ih (fun op h => hop op (by simp [h])) hv'

theorem convert_np {lib : Lib} {s : St} (hs : TInv s) {ty : Str} : ∀ {n : Nat} {v : V}, NV s v → v.before n → 0 < n → convert lib s.heap.view ty n v ≠ .panic := by
  intro n
  induction n with
  | zero => intro v _ _ h; omega
  | succ n ih =>
    intro v hv hb _
    simp only [convert]
    split
    · simp
    · simp
    · rename_i x rest hsh
      split
      · split
        · rename_i y ys hy
          -- v is a slice at a ≤ n, x a slice before it, y before that
          cases v with
          | sc _ => simp [Heap.view, Heap.shape] at hsh
          | obj a =>
            obtain ⟨l, hl⟩ := hv
            simp [Heap.view, Heap.shape, hl] at hsh
          | arr a =>
            obtain ⟨l, hl⟩ := hv
            simp only [Heap.view, Heap.shape, hl, Shape.arr.injEq] at hsh
            subst hsh
            have hxo := hs.cell a _ hl x (by simp)
            have hxb := hs.order a _ hl x (by simp)
            cases x with
            | sc _ => simp [Heap.view, Heap.shape] at hy
            | obj b =>
              obtain ⟨l, hl⟩ := hxo
              simp [Heap.view, Heap.shape, hl] at hy
            | arr b =>
              obtain ⟨l2, hl2⟩ := hxo
              simp only [Heap.view, Heap.shape, hl2, Shape.arr.injEq] at hy
              subst hy
              have hyb := hs.order b _ hl2 y (by simp)
              simp only [V.before] at hb hxb
              refine ih (hs.cell b _ hl2 y (by simp)) ?_ (Nat.lt_of_lt_of_le (Nat.zero_lt_of_lt hxb) (Nat.le_of_lt_succ hb))
              cases y with
              | arr c => exact Nat.lt_of_lt_of_le (Nat.lt_trans hyb hxb) (Nat.le_of_lt_succ hb)
              | _ => trivial
        · simp
      · simp
    · simp

theorem NP.convertV {env : Env} {ty : Str} {s : St} {v : V} (hv : NV s v) : NP s (convertV env ty v) (fun s' c => s' = s ∧ OutAll (NV s) c.val) := by
  refine NP.bind NP.getHeap fun s2 h hi2 hk2 hh => ?_
  obtain ⟨rfl, rfl⟩ := hh
  refine NP.lift (fun hs => convert_np hs hv ?_ (by omega)) fun hs c hc => ⟨rfl, convert_all hs.closed hv hc⟩
  have := V.ok_before hv
  cases v with
  | arr a => exact Nat.lt_succ_of_lt this
  | _ => trivial

theorem NP.jpGetV {env : Env} {path : Str} {s : St} {v : V} (hv : NV s v) : NP s (jpGetV env path v) (fun s' r => ∀ u, r = some u → NV s' u) := by
  refine NP.bind NP.getHeap fun s2 h hi2 hk2 hh => ?_
  obtain ⟨rfl, rfl⟩ := hh
  split
  · exact NP.pure (by simp)
  · rename_i o ho
    exact NP.bind (NP.materialize (jpGet_all hi2.closed hv ho)) fun s' r _ _ hr => NP.pure (by simpa using hr)

theorem NP.convOrRaw {s : St} {c : Conv V} {raw : V} (hc : OutAll (NV s) c.val) (hr : NV s raw) : NP s (convOrRaw c raw) NV :=
  NP.ite (fun _ => NP.pure hr) fun _ => NP.materialize hc

/-- No operation of an instruction is `max`. -/
def Instr.calm (ti : Instr) : Prop := ∀ op ∈ ti.ops, op.notMax

theorem NP.instrJSON {env : Env} {s : St} {inp : V} {ty : Str} {mod : Mod} {ti : Instr} (hc : ti.calm) (hi : NV s inp) : NP s (instrJSON env inp ty mod ti) NV := by
  refine NP.bind (NP.jpGetV hi) fun s1 r _ _ hr => ?_
  split
  · exact NP.pure trivial
  · rename_i raw
    refine NP.ite (fun _ => NP.pure trivial) fun _ => ?_
    refine NP.bind (NP.convertV (hr _ rfl)) fun s2 c _ _ h2 => ?_
    obtain ⟨rfl, h2⟩ := h2
    refine NP.bind (NP.convOrRaw h2 (hr _ rfl)) fun s3 v _ _ hv => ?_
    exact NP.ite (fun _ => NP.pure trivial) fun _ => NP.runOps hc hv

/-- XPath evaluation does not panic. -/
def XOk (env : Env) : Prop := env.fmt = .xml → ∀ n p, env.lib.xfind n p ≠ none

theorem NP.xfind {env : Env} (hx : ∀ n p, env.lib.xfind n p ≠ none) {s : St} {n : NodeId} {p : Str} : NP s (xfind env n p) (fun s' _ => s' = s) := by
  unfold JT.xfind
  split
  · exact NP.pure rfl
  · exact absurd ‹_› (hx n p)

theorem NP.xmlValue {env : Env} {ty : Str} {f : NodeId} {a : List NodeId} {x y : Nat} {s : St} : NP s (xmlValue env ty f a x y) NV := by
  unfold JT.xmlValue
  refine NP.ite (fun _ => ?_) fun _ => NP.ite (fun _ => NP.pure trivial) fun _ => NP.ite (fun _ => NP.pure trivial) fun _ => ?_
  · refine NP.bind (NP.convertV trivial) fun s' c _ _ h => ?_
    obtain ⟨rfl, h⟩ := h
    exact NP.materialize h
  · refine NP.bind (NP.convertV trivial) fun s' c _ _ h => ?_
    obtain ⟨rfl, h⟩ := h
    exact NP.ite (fun _ => NP.pure trivial) fun _ => NP.materialize h

theorem NP.instrXML {env : Env} (hx : ∀ n p, env.lib.xfind n p ≠ none) {s : St} {inp : V} {ty : Str} {mod : Mod} {ti : Instr} (hc : ti.calm) :
    NP s (instrXML env inp ty mod ti) NV := by
  unfold JT.instrXML
  split
  · refine NP.bind (NP.xfind hx) fun s1 found _ _ _ => ?_
    split
    · exact NP.pure trivial
    · refine NP.bind (NP.xfind hx) fun s2 wc _ _ _ => NP.bind (NP.xfind hx) fun s3 woc _ _ _ => ?_
      exact NP.bind NP.xmlValue fun s4 v _ _ hv => NP.ite (fun _ => NP.pure trivial) fun _ => NP.runOps hc hv
  · exact NP.fail

theorem NP.instrRun {env : Env} (hx : XOk env) {s : St} {inp : V} {ty : Str} {mod : Mod} {ti : Instr} (hc : ti.calm) (hi : NV s inp) :
    NP s (instrRun env inp ty mod ti) NV := by
  unfold JT.instrRun
  split
  · exact NP.instrXML (hx ‹_›) hc
  · exact NP.instrJSON hc hi

theorem NP.firstLoop {run : Instr → M V} {P : St → Prop} (hP : ∀ s s', Kinds s s' → P s → P s') : ∀ {l : List Instr}, (∀ ti ∈ l, ∀ s, P s → NP s (run ti) NV) → ∀ {s : St},
    P s → NP s (firstLoop run l) NV := by
  intro l
  induction l with
  | nil => intro _ s _; exact NP.pure trivial
  | cons ti rest ih =>
    intro hr s hp
    exact NP.bind (hr ti (by simp) s hp) fun s' v _ hk hv => NP.ite (fun _ => ih (fun ti h => hr ti (by simp [h])) (hP _ _ hk hp)) fun _ => NP.pure hv

theorem concat_np {h : Heap} {a b : V} {d : Str} : concat h.view a b d ≠ .panic := by
  unfold concat
  (repeat' split) <;> simp

theorem NP.concatLoop {run : Instr → M V} {d : Str} {P : St → Prop} (hP : ∀ s s', Kinds s s' → P s → P s') : ∀ {l : List Instr},
    (∀ ti ∈ l, ∀ s, P s → NP s (run ti) NV) → ∀ {s : St} {v : V}, P s → NV s v → NP s (concatLoop run d l v) NV := by
  intro l
  induction l with
  | nil => intro _ s v _ hv; exact NP.pure hv
  | cons ti rest ih =>
    intro hr s v hp hv
    refine NP.bind (hr ti (by simp) s hp) fun s1 u _ hk1 hu => NP.bind NP.getHeap fun s2 h hi2 hk2 hh => ?_
    obtain ⟨rfl, rfl⟩ := hh
    refine NP.bind (NP.lift (Q := fun s o => OutAll (NV s) o) (fun _ => concat_np) fun hs o ho => concat_all (V.ok_mono hk1 hv) hu ho) fun s3 o _ hk3 ho => ?_
    exact NP.bind (NP.materialize ho) fun s4 r _ hk4 hr' => ih (fun ti h => hr ti (by simp [h])) (hP _ _ (hk1.trans (hk3.trans hk4)) hp) hr'

/-- The instruction set exists and is calm. -/
def CalmTid (s : St) (tid : Option Nat) : Prop := ∀ i, tid = some i → ∃ t, s.instrs[i]? = some t ∧ ∀ ti ∈ t.from, ti.calm

theorem CalmTid.mono {s s' : St} (hk : Kinds s s') {tid : Option Nat} (h : CalmTid s tid) : CalmTid s' tid := by
  intro i hi
  obtain ⟨t, h1, h2⟩ := h i hi
  obtain ⟨t', h3, h4⟩ := hk.instrs i t h1
  exact ⟨t', h3, fun ti h => h2 ti (h4 ti h)⟩

theorem NP.instrsRun {env : Env} (hx : XOk env) {s : St} {inp : V} {ty : Str} {mod : Mod} {i : Nat} (hc : CalmTid s (some i)) (hi : NV s inp) :
    NP s (instrsRun env inp ty mod i) NV := by
  obtain ⟨t, ht, hti⟩ := hc i rfl
  have hr : NP s (readInstrs i) (fun s' t' => s' = s ∧ t' = t) := by
    intro hs
    have e : JT.readInstrs i s = (.ok t, s) := by simp only [JT.readInstrs, ht]
    rw [e]
    exact ⟨by simp, hs, Kinds.refl s, by intro a h; simp at h; exact ⟨rfl, h.symm⟩⟩
  refine NP.bind hr fun s1 tis _ _ h => ?_
  obtain ⟨rfl, rfl⟩ := h
  have hP : ∀ s s', Kinds s s' → NV s inp → NV s' inp := fun _ _ hk h => V.ok_mono hk h
  split
  · exact NP.firstLoop (P := fun s => NV s inp) hP (fun ti hm s h => NP.instrRun hx (hti ti hm) h) hi
  · have hw : NP s1 (writeInstrs i { tis with «from» := tis.from.reverse }) (fun _ _ => True) := by
      intro hs
      refine ⟨by simp [JT.writeInstrs], ⟨hs.cell, hs.order⟩, ⟨fun _ _ => id, fun _ m h => ⟨m, h⟩, fun j t h => ?_, rfl⟩, fun _ _ => trivial⟩
      simp only [JT.writeInstrs]
      by_cases hj : i = j
      · subst hj
        rw [ht] at h
        simp only [Option.some.injEq] at h
        subst h
        exact ⟨_, by rw [List.getElem?_set_self (lt_of_getElem? ht)], by simp⟩
      · exact ⟨t, by rw [List.getElem?_set_ne hj]; exact h, fun _ => id⟩
    refine NP.bind hw fun s2 _ _ hk2 _ => ?_
    exact NP.firstLoop (P := fun s => NV s inp) hP (fun ti hm s h => NP.instrRun hx (hti ti (by simpa using hm)) h) (V.ok_mono hk2 hi)
  · exact NP.concatLoop (P := fun s => NV s inp) hP (fun ti hm s h => NP.instrRun hx (hti ti hm) h) hi trivial

theorem NP.optInstrs {env : Env} (hx : XOk env) {s : St} {inp : V} {ty : Str} {mod : Mod} {tid : Option Nat} (hc : CalmTid s tid) (hi : NV s inp) :
    NP s (optInstrs env inp ty mod tid) NV := by
  cases tid with
  | none => exact NP.pure trivial
  | some t => exact NP.instrsRun hx hc hi

theorem NP.samePath {env : Env} {s : St} {inp : V} {ty path : Str} (hi : NV s inp) : NP s (samePath env ty path inp) NV := by
  refine NP.bind (NP.jpGetV hi) fun s1 r _ _ hr => ?_
  split
  · exact NP.pure trivial
  · refine NP.bind (NP.convertV (hr _ rfl)) fun s2 c _ _ h2 => ?_
    obtain ⟨rfl, h2⟩ := h2
    refine NP.bind (NP.materialize h2) fun s3 v _ _ hv => ?_
    exact NP.ite (fun _ => NP.pure trivial) fun _ => NP.ite (fun _ => NP.fail) fun _ => NP.pure hv

/-! ### Instance transformers -/

/-- A path modifier that only affects paths with an index. -/
def ModOk (mod : Mod) : Prop := ∀ q, '[' ∉ q → mod q = q

/-- A transformer function that does not panic, as long as the condition `P` on the memory holds. -/
def NPTF (P : St → Prop) (f : TF) : Prop := ∀ s inp mod, P s → NV s inp → ModOk mod → NP s (f inp mod) NV

theorem cut_none {sub s : Str} {c : Char} (hc : c ∈ sub) (hs : c ∉ s) : cut sub s = none := by
  induction s with
  | nil =>
    cases sub with
    | nil => simp at hc
    | cons x xs => simp [cut]
  | cons x xs ih =>
    have hp : sub.isPrefixOf (x :: xs) = false := by
      rw [Bool.eq_false_iff]
      intro h
      rw [List.isPrefixOf_iff_prefix] at h
      exact hs (h.subset hc)
    simp only [cut, hp]
    rw [ih (fun h => hs (by simp [h]))]
    rfl

theorem ModOk.id : ModOk (fun p => p) := fun _ _ => rfl

theorem ModOk.replace {mod : Mod} (h : ModOk mod) (path new : Str) : ModOk (pathReplace (path ++ g!"[*]") new mod) := by
  intro q hq
  unfold pathReplace replace1
  rw [h q hq, cut_none (c := '[') (by simp) hq]

theorem NP.runScalar {env : Env} (hx : XOk env) {path ty : Str} {d : V} {tid : Option Nat} {P : St → Prop} (hP : ∀ s s', Kinds s s' → P s → P s')
    (h : ∀ s, P s → NV s d ∧ CalmTid s tid) : NPTF P (runScalar env path ty d tid) := by
  intro s inp mod hp hi _
  refine NP.bind (NP.optInstrs hx (h s hp).2 hi) fun s1 v _ hk1 hv => ?_
  refine NP.ite (fun _ => NP.pure hv) fun _ => ?_
  split
  · exact NP.bind (NP.samePath (V.ok_mono hk1 hi)) fun s2 v _ hk2 hv => NP.ite (fun _ => NP.pure hv) fun _ => NP.pure (h s2 (hP _ _ (hk1.trans hk2) hp)).1
  · exact NP.pure (h s1 (hP _ _ hk1 hp)).1

theorem NP.asSlice {s : St} {v : V} (hv : NV s v) : NP s (asSlice v) (fun s' a => NV s' (.arr a)) := by
  unfold JT.asSlice
  split
  · exact NP.pure hv
  · exact NP.allocSlice (by simpa using hv)

def OptArr (s : St) (o : Option Addr) : Prop := ∀ a, o = some a → NV s (.arr a)
def OptObj (s : St) (o : Option Addr) : Prop := ∀ a, o = some a → NV s (.obj a)

theorem OptArr.mono {s s' : St} (hk : Kinds s s') {o : Option Addr} (h : OptArr s o) : OptArr s' o := fun a ha => V.ok_mono hk (h a ha)
theorem OptObj.mono {s s' : St} (hk : Kinds s s') {o : Option Addr} (h : OptObj s o) : OptObj s' o := fun a ha => V.ok_mono hk (h a ha)

theorem NP.baseJSON {env : Env} (hx : XOk env) {d : Option Addr} {tid : Option Nat} {s : St} {inp : V} {path : Str} {mod : Mod} (hd : OptArr s d) (ht : CalmTid s tid)
    (hi : NV s inp) : NP s (baseJSON env d tid inp path mod) (fun s' r => OptArr s' r.1 ∧ (r.2 = true → d.isSome = true ∨ tid.isSome = true)) := by
  unfold JT.baseJSON
  cases tid with
  | none =>
    show NP s (do let v ← (Pure.pure V.nil : M V); _) _
    refine NP.bind (Q := fun s' v => s' = s ∧ v = V.nil) (NP.pure ⟨rfl, rfl⟩) fun s1 v _ _ h => ?_
    obtain ⟨rfl, rfl⟩ := h
    refine NP.ite (fun h => absurd rfl h) fun _ => ?_
    refine NP.bind (NP.jpGetV hi) fun s2 r _ hk2 hr => ?_
    split
    · refine NP.ite (fun _ => ?_) fun _ => NP.pure ⟨hd.mono hk2, fun h => Or.inl h⟩
      exact NP.bind (NP.asSlice (hr _ rfl)) fun s3 a _ _ ha => NP.pure ⟨by simpa [OptArr] using ha, by simp⟩
    · exact NP.pure ⟨hd.mono hk2, fun h => Or.inl h⟩
  | some t =>
    refine NP.bind (NP.optInstrs hx ht hi) fun s1 v _ hk1 hv => ?_
    refine NP.ite (fun _ => ?_) fun _ => ?_
    · exact NP.bind (NP.asSlice hv) fun s2 a _ _ ha => NP.pure ⟨by simpa [OptArr] using ha, by simp⟩
    · refine NP.bind (NP.jpGetV (V.ok_mono hk1 hi)) fun s2 r _ hk2 hr => ?_
      split
      · refine NP.ite (fun _ => ?_) fun _ => NP.pure ⟨hd.mono (hk1.trans hk2), by simp⟩
        exact NP.bind (NP.asSlice (hr _ rfl)) fun s3 a _ _ ha => NP.pure ⟨by simpa [OptArr] using ha, by simp⟩
      · exact NP.pure ⟨hd.mono (hk1.trans hk2), by simp⟩

theorem NP.baseXML {env : Env} (hx : XOk env) {d : Option Addr} {tid : Option Nat} {s : St} {inp : V} {mod : Mod} (hd : OptArr s d) (ht : CalmTid s tid) (hi : NV s inp) :
    NP s (baseXML env d tid inp mod) OptArr := by
  refine NP.bind (NP.optInstrs hx ht hi) fun s1 v _ hk1 hv => ?_
  split
  · refine NP.bind (NP.allocSlice ?_) fun s2 a _ _ ha => NP.pure (by simpa [OptArr] using ha)
    intro v hv
    simp at hv
    obtain ⟨n, _, rfl⟩ := hv
    trivial
  · refine NP.ite (fun _ => ?_) fun _ => NP.pure (hd.mono hk1)
    exact NP.bind (NP.asSlice hv) fun s2 a _ _ ha => NP.pure (by simpa [OptArr] using ha)

def AllOk (s : St) (l : List V) : Prop := ∀ v ∈ l, NV s v
theorem AllOk.mono {s s' : St} (hk : Kinds s s') {l : List V} (h : AllOk s l) : AllOk s' l := fun v hv => V.ok_mono hk (h v hv)

theorem AllOk.push {s : St} {l : List V} {v : V} (hl : AllOk s l) (hv : NV s v) : AllOk s (if v = V.nil then l else l ++ [v]) := by
  split
  · exact hl
  · intro u hu
    simp at hu
    rcases hu with hu | rfl
    · exact hl u hu
    · exact hv

theorem NP.readBase {s : St} {o : Option Addr} (ho : OptArr s o) : NP s (readBase o) (fun s' l => AllOk s' l) := by
  cases o with
  | none => exact NP.pure (by simp [AllOk])
  | some a => exact NP.weaken (NP.readSlice (ho a rfl)) fun s' l _ h => by obtain ⟨rfl, h⟩ := h; exact h

theorem NP.itemsLoop {P : St → Prop} (hP : ∀ s s', Kinds s s' → P s → P s') {child : TF} (hc : NPTF P child) {inp : V} {path : Str} {mod : Mod} (hm : ModOk mod) :
    ∀ {n i : Nat} {acc : List V} {s : St}, P s → NV s inp → AllOk s acc → NP s (itemsLoop child inp path mod n i acc) AllOk := by
  intro n
  induction n with
  | zero => intro i acc s _ _ ha; exact NP.pure ha
  | succ n ih =>
    intro i acc s hp hi ha
    exact NP.bind (hc s _ _ hp hi (hm.replace _ _)) fun s1 v _ hk hv => ih (hP _ _ hk hp) (V.ok_mono hk hi) ((ha.mono hk).push hv)

theorem NP.itemsLoopXML {P : St → Prop} (hP : ∀ s s', Kinds s s' → P s → P s') {child : TF} (hc : NPTF P child) {path : Str} {mod : Mod} (hm : ModOk mod) :
    ∀ {l : List V} {i : Nat} {acc : List V} {s : St}, P s → AllOk s l → AllOk s acc → NP s (itemsLoopXML child path mod l i acc) AllOk := by
  intro l
  induction l with
  | nil => intro i acc s _ _ ha; exact NP.pure ha
  | cons x xs ih =>
    intro i acc s hp hl ha
    have hx : NP s (itemXML child (pathReplace (path ++ g!"[*]") (path ++ g!"[" ++ itoaNat i ++ g!"]") mod) x) NV := by
      unfold itemXML
      split
      · exact hc s _ _ hp trivial (hm.replace _ _)
      · exact NP.pure (hl x (by simp))
    exact NP.bind hx fun s1 v _ hk hv => ih (hP _ _ hk hp) (AllOk.mono hk fun u hu => hl u (by simp [hu])) ((ha.mono hk).push hv)

theorem NP.baseResult {s : St} {o : Option Addr} (ho : OptArr s o) : NP s (baseResult o) NV := by
  cases o with
  | none => exact NP.bind (NP.allocSlice (by simp)) fun s' a _ _ ha => NP.pure ha
  | some a => exact NP.pure (ho a rfl)

theorem NP.arrayResult {s : St} {l : List V} (hl : AllOk s l) : NP s (arrayResult l) NV := by
  refine NP.ite (fun _ => NP.pure trivial) fun _ => ?_
  exact NP.bind (NP.allocSlice hl) fun s' a _ _ ha => NP.pure ha

/-- Saving at a path of names. -/
theorem NP.saveSplits : ∀ {splits : List Str} {strip : Bool} {s : St} {t : Addr} {v : V}, splits ≠ [] → (∀ x ∈ splits, '[' ∉ x) →
    (strip = true → splits.getLast? ≠ some g!"$") → (splits.length ≠ 1 → splits.getLast? ≠ some g!"$") → NV s (.obj t) → NV s v →
    NP s (saveSplits strip splits t v) (fun _ _ => True) := by
  intro splits
  induction splits with
  | nil => intro strip s t v h; exact absurd rfl h
  | cons x rest ih =>
    intro strip s t v _ hbr hlast hlast2 ht hv
    unfold JT.saveSplits
    refine NP.ite (fun hc => ?_) fun _ => ?_
    · cases rest with
      | nil => exact absurd (by simp [hc.2]) (hlast hc.1)
      | cons y ys =>
        refine ih (by simp) (fun z hz => hbr z (by simp [hz])) (by simp) (fun _ => ?_) ht hv
        have := hlast2 (by simp)
        rwa [List.getLast?_cons_cons] at this
    · cases rest with
      | nil =>
        unfold saveLeaf
        rw [splitC_no '[' x (hbr x (by simp))]
        exact NP.setKey ht hv
      | cons y ys =>
        have hrest : ∀ {s' : St} {nt : Addr}, NV s' (.obj nt) → NV s' v → NP s' (JT.saveSplits true (y :: ys) nt v) (fun _ _ => True) := by
          intro s' nt h1 h2
          have := hlast2 (by simp)
          rw [List.getLast?_cons_cons] at this
          exact ih (by simp) (fun z hz => hbr z (by simp [hz])) (fun _ => this) (fun _ => this) h1 h2
        simp only [splitC_no '[' x (hbr x (by simp))]
        refine NP.bind (NP.readMap ht) fun s1 m _ _ hm => ?_
        obtain ⟨rfl, hm, hmv⟩ := hm
        split
        · rename_i nt hnt
          have h := hmv _ (GMap.get_some_mem hnt)
          exact NP.bind (NP.setKey ht h) fun s2 _ _ hk2 _ => hrest (V.ok_mono hk2 h) (V.ok_mono hk2 hv)
        · refine NP.bind (NP.allocMap (by simp)) fun s2 nt _ hk2 hnt => ?_
          exact NP.bind (NP.setKey (V.ok_mono hk2 ht) (v := .obj nt) hnt) fun s3 _ _ hk3 _ => hrest (V.ok_mono hk3 hnt) (V.ok_mono (hk2.trans hk3) hv)
        · refine NP.bind (NP.allocMap (by simp)) fun s2 nt _ hk2 hnt => ?_
          exact NP.bind (NP.setKey (V.ok_mono hk2 ht) (v := .obj nt) hnt) fun s3 _ _ hk3 _ => hrest (V.ok_mono hk3 hnt) (V.ok_mono (hk2.trans hk3) hv)
        · exact NP.fail

/-- A path where an array can be saved. -/
def SavePathOk (path : Str) : Prop := '[' ∉ path ∧ (path = g!"$" ∨ (splitC '.' path).getLast? ≠ some g!"$")

theorem splitC_mem {c : Char} : ∀ {s x : Str}, x ∈ splitC c s → ∀ d ∈ x, d ∈ s := by
  intro s
  induction s with
  | nil => intro x hx; simp [splitC] at hx; subst hx; simp
  | cons e es ih =>
    intro x hx
    unfold splitC at hx
    split at hx
    · simp only [List.mem_cons] at hx
      rcases hx with rfl | hx
      · simp
      · intro d hd; exact List.mem_cons_of_mem _ (ih hx d hd)
    · split at hx
      · simp at hx; subst hx; simp
      · rename_i h t he
        simp only [List.mem_cons] at hx
        rcases hx with rfl | hx
        · intro d hd
          simp only [List.mem_cons] at hd ⊢
          rcases hd with rfl | hd
          · exact Or.inl rfl
          · exact Or.inr (ih (by rw [he]; simp) d hd)
        · intro d hd
          exact List.mem_cons_of_mem _ (ih (by rw [he]; simp [hx]) d hd)

theorem NP.saveBase {s : St} {inp : V} (hi : NV s inp) {path : Str} {base : Option Addr} (hb : OptArr s base) {c : Bool} (hp : c = true → SavePathOk path) :
    NP s (saveBase inp path base c) NV := by
  unfold JT.saveBase
  split
  · rename_i a
    refine NP.ite (fun hc => NP.ite (fun _ => NP.pure (hb _ rfl)) fun hne => ?_) fun _ => NP.pure hi
    obtain ⟨h1, h2⟩ := hp hc
    have h2 := h2.resolve_left hne
    split
    · rename_i m
      refine NP.bind (Q := fun _ _ => True) (NP.ite (fun _ => NP.pure trivial) fun _ => ?_) fun s1 _ _ hk _ => NP.pure (V.ok_mono hk hi)
      refine NP.saveSplits ?_ (fun x hx hm => h1 (splitC_mem hx _ hm)) (fun _ => h2) (fun _ => h2) hi (hb _ rfl)
      exact splitC_ne_nil '.' path
    · exact NP.fail
  · exact NP.pure hi

theorem NP.runArray {env : Env} (hx : XOk env) {path : Str} {d : Option Addr} {tid : Option Nat} {child : Option TF} {P : St → Prop} (hP : ∀ s s', Kinds s s' → P s → P s')
    (h : ∀ s, P s → OptArr s d ∧ CalmTid s tid) (hsave : env.fmt = .json → d.isSome = true ∨ tid.isSome = true → SavePathOk path)
    (hc : ∀ c, child = some c → NPTF P c) : NPTF P (runArray env path d tid child) := by
  intro s inp mod hp hi hm
  unfold JT.runArray
  split
  · rename_i hf
    refine NP.bind (NP.baseJSON hx (h s hp).1 (h s hp).2 hi) fun s1 r _ hk1 hr => ?_
    obtain ⟨base, changed⟩ := r
    show NP s1 (do let inp' ← JT.saveBase inp (mod path) base changed; _) _
    refine NP.bind (NP.saveBase (V.ok_mono hk1 hi) hr.1 fun hch => ?_) fun s2 inp' _ hk2 hi' => ?_
    · have := hsave hf (hr.2 hch)
      rw [hm path this.1]
      exact this
    · have hr2 := OptArr.mono hk2 hr.1
      split
      · exact NP.baseResult hr2
      · refine NP.bind (NP.readBase hr2) fun s3 l _ hk3 hl => ?_
        exact NP.bind (NP.itemsLoop hP (hc _ rfl) hm (hP _ _ (hk1.trans (hk2.trans hk3)) hp) (V.ok_mono hk3 hi') (by simp [AllOk])) fun s4 out _ _ ho => NP.arrayResult ho
  · refine NP.bind (NP.baseXML hx (h s hp).1 (h s hp).2 hi) fun s1 base _ hk1 hb => ?_
    split
    · exact NP.baseResult hb
    · refine NP.bind (NP.readBase hb) fun s2 l _ hk2 hl => ?_
      exact NP.bind (NP.itemsLoopXML hP (hc _ rfl) hm (hP _ _ (hk1.trans hk2) hp) hl (by simp [AllOk])) fun s3 out _ _ ho => NP.arrayResult ho

/-- The children of an object at `path`. -/
def KidOk (path : Str) (k : Str × TF) : Prop := ∃ n, k.1 = path ++ '.' :: n ∧ '.' ∉ n ∧ '[' ∉ n

theorem NP.childrenLoop {P : St → Prop} (hP : ∀ s s', Kinds s s' → P s → P s') {objPath : Str} {inp : V} {mod : Mod} (hm : ModOk mod) {nv : Addr} :
    ∀ {kids : List (Str × TF)}, (∀ k ∈ kids, KidOk objPath k ∧ NPTF P k.2) → ∀ {s : St}, P s → NV s inp → NV s (.obj nv) →
    NP s (childrenLoop objPath inp mod nv kids) (fun _ _ => True) := by
  intro kids
  induction kids with
  | nil => intro _ s _ _ _; exact NP.pure trivial
  | cons k rest ih =>
    intro hk s hp hi hn
    obtain ⟨cp, c⟩ := k
    obtain ⟨⟨n, hcp, hd, hb⟩, hc⟩ := hk (cp, c) (by simp)
    simp only at hcp
    subst hcp
    refine NP.bind (hc s _ _ hp hi hm) fun s1 v _ hk1 hv => ?_
    have hs : NP s1 (saveInTree nv (replace1 (objPath ++ '.' :: n) objPath g!"$") v) (fun _ _ => True) := by
      by_cases hvn : v = V.nil
      · unfold saveInTree
        rw [if_pos hvn]
        exact NP.pure trivial
      · rw [saveChild_eq hd hb nv hvn]
        exact NP.setKey (V.ok_mono hk1 hn) hv
    refine NP.bind hs fun s2 _ _ hk2 _ => ?_
    have hk12 := hk1.trans hk2
    exact ih (fun k h => hk k (by simp [h])) (hP _ _ hk12 hp) (V.ok_mono hk12 hi) (V.ok_mono hk12 hn)

theorem NP.objStart {s : St} {d : Option Addr} (hd : OptObj s d) : NP s (objStart d) (fun s' a => NV s' (.obj a)) := by
  cases d with
  | none => exact NP.allocMap (by simp)
  | some a => exact NP.pure (hd a rfl)

theorem NP.objTarget {s : St} {d : Option Addr} (hd : OptObj s d) {v : V} (hv : NV s v) : NP s (objTarget d v) (fun s' a => NV s' (.obj a)) := by
  unfold JT.objTarget
  split
  · exact NP.objStart hd
  · exact NP.pure hv
  · exact NP.fail

theorem NP.objFinish {env : Env} {P : St → Prop} (hP : ∀ s s', Kinds s s' → P s → P s') {path : Str} {kids : List (Str × TF)} (hk : ∀ k ∈ kids, KidOk path k ∧ NPTF P k.2)
    {inp : V} {mod : Mod} (hm : ModOk mod) {nv : Addr} {s : St} (hp : P s) (hi : NV s inp) (hn : NV s (.obj nv)) : NP s (objFinish env path kids inp mod nv) NV := by
  refine NP.bind NP.nextTick fun s1 n _ hk1 _ => ?_
  refine NP.bind (NP.childrenLoop hP hm (fun k h => hk k ((env.sched.isPerm n _ kids).mem_iff.1 h)) (hP _ _ hk1 hp) (V.ok_mono hk1 hi) (V.ok_mono hk1 hn))
    fun s2 _ _ hk2 _ => ?_
  have hn2 : NV s2 (.obj nv) := V.ok_mono (hk1.trans hk2) hn
  refine NP.bind (NP.readMap hn2) fun s3 m _ hk3 _ => NP.ite (fun _ => NP.pure trivial) fun _ => NP.pure (V.ok_mono hk3 hn2)

theorem NP.runObject {env : Env} (hx : XOk env) {path : Str} {d : Option Addr} {tid : Option Nat} {kids : List (Str × TF)} {P : St → Prop}
    (hP : ∀ s s', Kinds s s' → P s → P s') (h : ∀ s, P s → OptObj s d ∧ CalmTid s tid) (hk : ∀ k ∈ kids, KidOk path k ∧ NPTF P k.2) :
    NPTF P (runObject env path d tid kids) := by
  intro s inp mod hp hi hm
  unfold JT.runObject
  split
  · refine NP.bind (NP.optInstrs hx (h s hp).2 hi) fun s1 v _ hk1 hv => ?_
    refine NP.bind (NP.objTarget ((h s hp).1.mono hk1) hv) fun s2 nv _ hk2 hn => ?_
    exact NP.objFinish hP hk hm (hP _ _ (hk1.trans hk2) hp) (V.ok_mono (hk1.trans hk2) hi) hn
  · split
    · exact NP.bind (NP.objStart (h s hp).1) fun s2 nv _ hk2 hn => NP.objFinish hP hk hm (hP _ _ hk2 hp) (V.ok_mono hk2 hi) hn
    · refine NP.bind (NP.instrsRun hx (h s hp).2 hi) fun s1 v _ hk1 hv => ?_
      have hd := (h s hp).1.mono hk1
      split
      · split
        · exact NP.pure trivial
        · exact NP.pure (hd _ rfl)
      · exact NP.pure trivial
      · exact NP.bind (NP.objStart hd) fun s2 nv _ hk2 hn => NP.objFinish hP hk hm (hP _ _ (hk1.trans hk2) hp) (show NV s2 (.sc _) from trivial) hn
      · exact NP.bind (NP.objStart hd) fun s2 nv _ hk2 hn => NP.objFinish hP hk hm (hP _ _ (hk1.trans hk2) hp) (V.ok_mono (hk1.trans hk2) hi) hn
      · exact NP.bind (NP.objStart hd) fun s2 nv _ hk2 hn => NP.objFinish hP hk hm (hP _ _ (hk1.trans hk2) hp) (show NV s2 (.sc _) from trivial) hn
      · exact NP.fail

end JT
