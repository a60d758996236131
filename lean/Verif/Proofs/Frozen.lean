import Verif.Props.C30
/- Executions that write only memory they allocated themselves and may read array defaults. -/
namespace JT

/-- Objects only in cells from `z.1` on; arrays there or before `z.2`. -/
def V.within (z : Nat × Nat) : V → Prop
  | .sc _ => True
  | .arr a => z.1 ≤ a ∨ a < z.2
  | .obj a => z.1 ≤ a

def Cell.within (z : Nat × Nat) : Cell → Prop
  | .map m => ∀ kv ∈ m, kv.2.within z
  | .slice l => ∀ v ∈ l, v.within z

/-- Cells from `z.1` on refer only to each other and to the cells before `z.2`, which are closed slices; no instruction set uses method `last`. -/
structure InvF (z : Nat × Nat) (s : St) : Prop where
  len : z.1 ≤ s.heap.length
  le : z.2 ≤ z.1
  within : ∀ (a : Nat) (c : Cell), z.1 ≤ a ∨ a < z.2 → s.heap[a]? = some c → c.within z
  noLast : ∀ t ∈ s.instrs, t.method ≠ .last

/-- `x` preserves the invariant and its results satisfy `Q`. -/
def Frz {α : Type} (z : Nat × Nat) (x : M α) (Q : α → Prop) : Prop :=
  ∀ s, InvF z s → InvF z (x s).2 ∧ Ext z.1 s (x s).2 ∧ ∀ a, (x s).1 = .ok a → Q a

variable {α β : Type} {z : Nat × Nat}

theorem Frz.pure {a : α} {Q : α → Prop} (h : Q a) : Frz z (Pure.pure a : M α) Q := by
  intro s hs
  refine ⟨hs, Ext.refl _ _, ?_⟩
  intro b hb
  rw [M.pure_apply] at hb
  simp at hb
  subst hb
  exact h

theorem Frz.bind {x : M α} {f : α → M β} {Q : α → Prop} {R : β → Prop} (hx : Frz z x Q)
    (hf : ∀ a, Q a → Frz z (f a) R) : Frz z (x >>= f) R := by
  intro s hs
  obtain ⟨h1, h2, h3⟩ := hx s hs
  rw [M.bind_apply]
  rcases hxs : x s with ⟨r, s'⟩
  rw [hxs] at h1 h2 h3
  cases r with
  | ok a =>
    obtain ⟨h4, h5, h6⟩ := hf a (h3 a rfl) s' h1
    exact ⟨h4, h2.trans h5, h6⟩
  | err => exact ⟨h1, h2, by simp⟩
  | panic => exact ⟨h1, h2, by simp⟩

theorem Frz.weaken {x : M α} {Q R : α → Prop} (hx : Frz z x Q) (h : ∀ a, Q a → R a) : Frz z x R := by
  intro s hs
  obtain ⟨h1, h2, h3⟩ := hx s hs
  exact ⟨h1, h2, fun a ha => h a (h3 a ha)⟩

theorem Frz.fail {Q : α → Prop} : Frz z (M.fail : M α) Q := fun s hs => ⟨hs, Ext.refl _ _, by simp [M.fail]⟩
theorem Frz.panic {Q : α → Prop} : Frz z (M.panic : M α) Q := fun s hs => ⟨hs, Ext.refl _ _, by simp [M.panic]⟩
theorem Frz.lift {r : Res α} {Q : α → Prop} (h : ∀ a, r = .ok a → Q a) : Frz z (M.lift r) Q :=
  fun _ hs => ⟨hs, Ext.refl _ _, h⟩

theorem Frz.ite {c : Prop} [Decidable c] {x y : M α} {Q : α → Prop} (hx : c → Frz z x Q) (hy : ¬c → Frz z y Q) :
    Frz z (if c then x else y) Q := by
  split
  · exact hx ‹_›
  · exact hy ‹_›

/-- A heap whose cells from `z` on are closed. -/
def HeapF (z : Nat × Nat) (h : Heap) : Prop := ∀ (a : Nat) (c : Cell), z.1 ≤ a ∨ a < z.2 → h[a]? = some c → c.within z

theorem Frz.getHeap : Frz z getHeap (HeapF z) := fun _ hs => ⟨hs, Ext.refl _ _, by
  intro a ha
  simp [JT.getHeap] at ha
  subst ha
  exact hs.within⟩

theorem Frz.nextTick : Frz z nextTick (fun _ => True) := fun s hs =>
  ⟨⟨hs.len, hs.le, hs.within, hs.noLast⟩, ⟨fun _ _ => rfl, rfl, rfl, rfl, [], rfl, by simp⟩, fun _ _ => trivial⟩

theorem Frz.alloc {c : Cell} (hc : c.within z) : Frz z (alloc c) (fun a => z.1 ≤ a) := by
  intro s hs
  refine ⟨⟨?_, hs.le, ?_, hs.noLast⟩, ⟨?_, rfl, rfl, rfl, [], rfl, by simp⟩, ?_⟩
  · simp [JT.alloc]; have := hs.len; omega
  · intro a c' ha hc'
    simp only [JT.alloc] at hc'
    rw [List.getElem?_append] at hc'
    split at hc'
    · exact hs.within a c' ha hc'
    · rw [List.getElem?_singleton] at hc'
      split at hc'
      · simp at hc'; subst hc'; exact hc
      · simp at hc'
  · intro a ha
    simp only [JT.alloc]
    rw [List.getElem?_append_left (by have := hs.len; omega)]
  · intro a ha
    simp [JT.alloc] at ha
    rw [← ha]
    exact hs.len

theorem Frz.writeCell {a : Addr} {c : Cell} (ha : z.1 ≤ a) (hc : c.within z) : Frz z (writeCell a c) (fun _ => True) := by
  intro s hs
  refine ⟨⟨?_, hs.le, ?_, hs.noLast⟩, ⟨?_, rfl, rfl, rfl, [a], rfl, by simpa using ha⟩, fun _ _ => trivial⟩
  · simp [JT.writeCell]; exact hs.len
  · intro b c' hb hc'
    simp only [JT.writeCell] at hc'
    rw [List.getElem?_set] at hc'
    split at hc'
    · split at hc'
      · simp at hc'; subst hc'; exact hc
      · simp at hc'
    · exact hs.within b c' hb hc'
  · intro b hb
    simp only [JT.writeCell]
    rw [List.getElem?_set_ne (by omega)]

theorem Frz.readMap {a : Addr} (ha : z.1 ≤ a) : Frz z (readMap a) (fun m => ∀ kv ∈ m, kv.2.within z) := by
  intro s hs
  unfold JT.readMap
  split
  · rename_i m hm
    refine ⟨hs, Ext.refl _ _, ?_⟩
    intro m' hm'
    simp at hm'
    subst hm'
    exact hs.within a _ (.inl ha) hm
  · exact ⟨hs, Ext.refl _ _, by simp⟩

theorem Frz.readSlice {a : Addr} (ha : z.1 ≤ a ∨ a < z.2) : Frz z (readSlice a) (fun l => ∀ v ∈ l, v.within z) := by
  intro s hs
  unfold JT.readSlice
  split
  · rename_i m hm
    refine ⟨hs, Ext.refl _ _, ?_⟩
    intro m' hm'
    simp at hm'
    subst hm'
    exact hs.within a _ ha hm
  · exact ⟨hs, Ext.refl _ _, by simp⟩

theorem Frz.readInstrs {i : Nat} : Frz z (readInstrs i) (fun t => t.method ≠ .last) := by
  intro s hs
  unfold JT.readInstrs
  split
  · rename_i t ht
    refine ⟨hs, Ext.refl _ _, ?_⟩
    intro t' ht'
    simp at ht'
    subst ht'
    exact hs.noLast _ (List.mem_of_getElem? ht)
  · exact ⟨hs, Ext.refl _ _, by simp⟩

theorem Frz.orElseM {x y : M α} {Q : α → Prop} (hx : Frz z x Q) (hy : Frz z y Q) : Frz z (orElseM x y) Q := by
  intro s hs
  obtain ⟨h1, h2, h3⟩ := hx s hs
  unfold JT.orElseM
  rcases hxs : x s with ⟨r, s'⟩
  rw [hxs] at h1 h2 h3
  cases r with
  | ok a => exact ⟨h1, h2, h3⟩
  | err =>
    obtain ⟨h4, h5, h6⟩ := hy s' h1
    exact ⟨h4, h2.trans h5, h6⟩
  | panic => exact ⟨h1, h2, h3⟩

/-! ### Values seen through the heap -/

def Out.within (z : Nat × Nat) : Out V → Prop
  | .val v => v.within z
  | .sc _ => True
  | .arr l => ∀ v ∈ l, v.within z
  | .strs _ => True

def Shape.within (z : Nat × Nat) : Shape V → Prop
  | .sc _ => True
  | .arr l => ∀ v ∈ l, v.within z
  | .obj m => ∀ kv ∈ m, kv.2.within z

theorem shape_within {h : Heap} (hh : HeapF z h) {v : V} (hv : v.within z) : (h.shape v).within z := by
  cases v with
  | sc s => trivial
  | arr a =>
    simp only [Heap.shape]
    split
    · rename_i l hl; exact hh a _ hv hl
    · simp [Shape.within]
  | obj a =>
    simp only [Heap.shape]
    split
    · rename_i l hl; exact hh a _ (.inl hv) hl
    · simp [Shape.within]

theorem getStep_within {h : Heap} (hh : HeapF z h) {v u : V} (hv : v.within z) {st : Step}
    (hg : getStep h.view st v = some u) : u.within z := by
  have hs := shape_within hh hv
  unfold getStep at hg
  simp only [Heap.view] at hg
  split at hg
  · rename_i m k hm
    rw [hm] at hs
    exact hs _ (GMap.get_some_mem hg)
  · rename_i m i hm
    rw [hm] at hs
    exact hs _ (GMap.get_some_mem hg)
  · rename_i l i hl
    rw [hl] at hs
    exact hs _ (List.mem_of_getElem? hg)
  · simp at hg

theorem getSteps_within {h : Heap} (hh : HeapF z h) : ∀ {ss : List Step} {v u : V}, v.within z →
    getSteps h.view ss v = some u → u.within z := by
  intro ss
  induction ss with
  | nil => intro v u hv hg; simp [getSteps] at hg; subst hg; exact hv
  | cons s ss ih =>
    intro v u hv hg
    simp only [getSteps] at hg
    cases hx : getStep h.view s v with
    | none => simp [hx] at hg
    | some x =>
      simp [hx] at hg
      exact ih (getStep_within hh hv hx) hg

theorem optAll_within {h : Heap} (hh : HeapF z h) {v : V} (hv : v.within z) :
    ∀ {ls : List (List Step)} {us : List V}, optAll (fun ss => getSteps h.view ss v) ls = some us →
      ∀ u ∈ us, u.within z := by
  intro ls
  induction ls with
  | nil => intro us h1; simp [optAll] at h1; subst h1; simp
  | cons l ls ih =>
    intro us h1
    simp only [optAll] at h1
    split at h1
    · rename_i y ys hy hys
      simp at h1
      subst h1
      intro u hu
      simp at hu
      rcases hu with rfl | hu
      · exact getSteps_within hh hv hy
      · exact ih hys u hu
    · contradiction

theorem jpGet_within {lib : Lib} {h : Heap} (hh : HeapF z h) {v : V} (hv : v.within z) {path : Str} {o : Out V}
    (hg : jpGet lib h.view path v = some o) : o.within z := by
  unfold jpGet at hg
  split at hg
  · simp only [Option.map_eq_some_iff] at hg
    obtain ⟨u, hu, rfl⟩ := hg
    exact getSteps_within hh hv hu
  · split at hg
    · contradiction
    · simp only [Option.map_eq_some_iff] at hg
      obtain ⟨u, hu, rfl⟩ := hg
      exact getSteps_within hh hv hu
    · simp only [Option.map_eq_some_iff] at hg
      obtain ⟨u, hu, rfl⟩ := hg
      exact optAll_within hh hv hu
    · simp at hg; subst hg; trivial

theorem convertBoolean_within (sh : Shape V) : (convertBoolean sh).val.within z := by
  unfold convertBoolean; (repeat' split) <;> trivial
theorem convertNumber_within (lib : Lib) (sh : Shape V) : (convertNumber lib sh).val.within z := by
  unfold convertNumber; (repeat' split) <;> trivial
theorem convertDateTime_within (lib : Lib) (sh : Shape V) : (convertDateTime lib sh).val.within z := by
  unfold convertDateTime; (repeat' split) <;> trivial
theorem convertString_within (lib : Lib) (sh : Shape V) : (convertString lib sh).val.within z := by
  unfold convertString; (repeat' split) <;> trivial

theorem convertTo_within {lib : Lib} {h : Heap} {ty : Str} {v : V} (hv : v.within z) :
    (convertTo lib h.view ty v).val.within z := by
  unfold convertTo
  split
  · exact convertBoolean_within _
  · split
    · exact convertNumber_within _ _
    · split
      · exact convertString_within _ _
      · split
        · exact convertDateTime_within _ _
        · exact hv

theorem convert_within {lib : Lib} {h : Heap} (hh : HeapF z h) {ty : Str} : ∀ {n : Nat} {v : V} {c : Conv V}, v.within z →
    convert lib h.view ty n v = .ok c → c.val.within z := by
  intro n
  induction n with
  | zero => intro v c hv hc; simp [convert] at hc
  | succ n ih =>
    intro v c hv hc
    have hs := shape_within hh hv
    simp only [convert] at hc
    split at hc
    · simp at hc; subst hc; trivial
    · simp at hc; subst hc; trivial
    · rename_i x rest hsh
      rw [show h.view.shape v = h.shape v from rfl] at hsh
      rw [hsh] at hs
      have hx : x.within z := hs x (by simp)
      split at hc
      · split at hc
        · rename_i y ys hy
          have hsx := shape_within hh hx
          rw [show h.view.shape x = h.shape x from rfl] at hy
          rw [hy] at hsx
          exact ih (hsx y (by simp)) hc
        · simp at hc; subst hc; exact convertTo_within hx
      · simp at hc; subst hc; exact convertTo_within hv
    · simp at hc; subst hc; exact convertTo_within hv

theorem durationOp_within {h : Heap} {v : V} {o : Out V} (ho : durationOp h.view v = .ok o) : o.within z := by
  unfold durationOp at ho
  simp only at ho
  split at ho
  · simp at ho; subst ho; trivial
  · rename_i s _
    cases hd : durationStr s <;> simp [hd, Res.map] at ho
    subst ho; trivial
  · simp at ho

theorem maxOp_within {lib : Lib} {h : Heap} (hh : HeapF z h) {b r : Str} {v : V} (hv : v.within z) {o : Out V}
    (ho : maxOp lib h.view b r v = .ok o) : o.within z := by
  unfold maxOp at ho
  have hs := shape_within hh hv
  split at ho
  · rename_i items hi
    rw [show h.view.shape v = h.shape v from rfl] at hi
    rw [hi] at hs
    simp only at ho
    split at ho
    · split at ho
      · simp at ho
      · rename_i item hit
        split at ho
        · simp at ho
        · rename_i o' hg
          simp at ho; subst ho
          exact jpGet_within hh (hs _ (List.mem_of_getElem? hit)) hg
    · simp at ho
    · simp at ho
  · simp at ho

theorem onStr_within {h : Heap} {v : V} {f : Str → Res (Out V)} {o : Out V} (hf : ∀ s o, f s = .ok o → o.within z)
    (ho : onStr h.view v f = .ok o) : o.within z := by
  unfold onStr at ho
  split at ho
  · exact hf _ _ ho
  · simp at ho

theorem runOp_within {lib : Lib} {h : Heap} (hh : HeapF z h) {now : GTime} {op : Op} {v : V} (hv : v.within z)
    {o : Out V} (ho : runOp lib h.view now op v = .ok o) : o.within z := by
  cases op with
  | duration => exact durationOp_within ho
  | max b r => exact maxOp_within hh hv ho
  | changeCase u => exact onStr_within (fun s o h => by simp at h; subst h; trivial) ho
  | replace a b => exact onStr_within (fun s o h => by simp at h; subst h; trivial) ho
  | split on => exact onStr_within (fun s o h => by split at h <;> simp at h <;> subst h <;> trivial) ho
  | timeParse a b => exact onStr_within (fun s o h => by split at h <;> simp at h; subst h; trivial) ho
  | toCamelCase d => exact onStr_within (fun s o h => by simp at h; subst h; trivial) ho
  | removeHTML => exact onStr_within (fun s o h => by simp at h; subst h; trivial) ho
  | currentTime f => simp only [runOp] at ho; simp at ho; subst ho; trivial
  | valueExists => simp only [runOp] at ho; split at ho <;> simp at ho <;> subst ho <;> trivial
  | inverse => simp only [runOp] at ho; split at ho <;> simp at ho <;> subst ho <;> trivial
  | convertToFloat64 =>
    simp only [runOp] at ho
    (repeat' split at ho) <;> simp at ho <;> subst ho <;> trivial
  | convertToInt64 =>
    simp only [runOp] at ho
    (repeat' split at ho) <;> simp at ho <;> subst ho <;> trivial
  | convertToBool =>
    simp only [runOp] at ho
    (repeat' split at ho) <;> simp at ho <;> subst ho <;> trivial

theorem concat_within {h : Heap} {a b : V} (ha : a.within z) (hb : b.within z) {d : Str} {o : Out V}
    (ho : concat h.view a b d = .ok o) : o.within z := by
  unfold concat at ho
  split at ho
  · simp at ho; subst ho; trivial
  · simp at ho; subst ho; exact hb
  · simp at ho; subst ho; exact ha
  · split at ho
    · simp at ho
    · split at ho
      · split at ho <;> simp at ho <;> subst ho <;> trivial
      · simp at ho

theorem Frz.materialize {o : Out V} (ho : o.within z) : Frz z (materialize o) (V.within z) := by
  cases o with
  | val v => exact Frz.pure ho
  | sc s => exact Frz.pure trivial
  | arr l => exact Frz.bind (Frz.alloc ho) (fun a ha => Frz.pure (.inl ha))
  | strs l =>
    refine Frz.bind (Frz.alloc ?_) (fun a ha => Frz.pure (.inl ha))
    intro v hv
    simp at hv
    obtain ⟨s, _, rfl⟩ := hv
    trivial

/-! ### The engine -/

theorem Frz.runOps {env : Env} : ∀ {ops : List Op} {v : V}, v.within z → Frz z (runOps env ops v) (V.within z) := by
  intro ops
  induction ops with
  | nil => intro v hv; exact Frz.pure hv
  | cons op ops ih =>
    intro v hv
    refine Frz.bind Frz.nextTick fun n _ => Frz.bind Frz.getHeap fun h hh => ?_
    refine Frz.bind (Frz.lift (Q := Out.within z) fun o ho => runOp_within hh hv ho) fun o ho => ?_
    exact Frz.bind (Frz.materialize ho) fun v' hv' => ih hv'

theorem Frz.convertV {env : Env} {ty : Str} {v : V} (hv : v.within z) :
    Frz z (convertV env ty v) (fun c => c.val.within z) :=
  Frz.bind Frz.getHeap fun _ hh => Frz.lift fun _ hc => convert_within hh hv hc

theorem Frz.jpGetV {env : Env} {path : Str} {v : V} (hv : v.within z) :
    Frz z (jpGetV env path v) (fun r => ∀ u, r = some u → u.within z) := by
  refine Frz.bind Frz.getHeap fun h hh => ?_
  split
  · exact Frz.pure (by simp)
  · rename_i o ho
    exact Frz.bind (Frz.materialize (jpGet_within hh hv ho)) fun r hr => Frz.pure (by simpa using hr)

theorem Frz.convOrRaw {c : Conv V} {raw : V} (hc : c.val.within z) (hr : raw.within z) :
    Frz z (convOrRaw c raw) (V.within z) :=
  Frz.ite (fun _ => Frz.pure hr) fun _ => Frz.materialize hc

theorem Frz.instrJSON {env : Env} {inp : V} {ty : Str} {mod : Mod} {ti : Instr} (hi : inp.within z) :
    Frz z (instrJSON env inp ty mod ti) (V.within z) := by
  refine Frz.bind (Frz.jpGetV hi) fun r hr => ?_
  split
  · exact Frz.pure trivial
  · rename_i raw
    refine Frz.ite (fun _ => Frz.pure trivial) fun _ => ?_
    refine Frz.bind (Frz.convertV (hr _ rfl)) fun c hc => ?_
    refine Frz.bind (Frz.convOrRaw hc (hr _ rfl)) fun v hv => ?_
    exact Frz.ite (fun _ => Frz.pure trivial) fun _ => Frz.runOps hv

theorem Frz.xfind {env : Env} {n : NodeId} {p : Str} : Frz z (xfind env n p) (fun _ => True) := by
  unfold JT.xfind
  split
  · exact Frz.pure trivial
  · exact Frz.panic

theorem Frz.xmlValue {env : Env} {ty : Str} {f : NodeId} {a : List NodeId} {x y : Nat} :
    Frz z (xmlValue env ty f a x y) (V.within z) := by
  unfold JT.xmlValue
  refine Frz.ite (fun _ => ?_) fun _ => Frz.ite (fun _ => Frz.pure trivial) fun _ => Frz.ite (fun _ => Frz.pure trivial) fun _ => ?_
  · exact Frz.bind (Frz.convertV trivial) fun c hc => Frz.materialize hc
  · exact Frz.bind (Frz.convertV trivial) fun c hc => Frz.ite (fun _ => Frz.pure trivial) fun _ => Frz.materialize hc

theorem Frz.instrXML {env : Env} {inp : V} {ty : Str} {mod : Mod} {ti : Instr} :
    Frz z (instrXML env inp ty mod ti) (V.within z) := by
  unfold JT.instrXML
  split
  · refine Frz.bind Frz.xfind fun found _ => ?_
    split
    · exact Frz.pure trivial
    · refine Frz.bind Frz.xfind fun wc _ => Frz.bind Frz.xfind fun woc _ => ?_
      exact Frz.bind Frz.xmlValue fun v hv => Frz.ite (fun _ => Frz.pure trivial) fun _ => Frz.runOps hv
  · exact Frz.fail

theorem Frz.instrRun {env : Env} {inp : V} {ty : Str} {mod : Mod} {ti : Instr} (hi : inp.within z) :
    Frz z (instrRun env inp ty mod ti) (V.within z) := by
  unfold JT.instrRun
  split
  · exact Frz.instrXML
  · exact Frz.instrJSON hi

theorem Frz.firstLoop {run : Instr → M V} (hr : ∀ ti, Frz z (run ti) (V.within z)) :
    ∀ {l : List Instr}, Frz z (firstLoop run l) (V.within z) := by
  intro l
  induction l with
  | nil => exact Frz.pure trivial
  | cons ti rest ih => exact Frz.bind (hr ti) fun v hv => Frz.ite (fun _ => ih) fun _ => Frz.pure hv

theorem Frz.concatLoop {run : Instr → M V} {d : Str} (hr : ∀ ti, Frz z (run ti) (V.within z)) :
    ∀ {l : List Instr} {v : V}, v.within z → Frz z (concatLoop run d l v) (V.within z) := by
  intro l
  induction l with
  | nil => intro v hv; exact Frz.pure hv
  | cons ti rest ih =>
    intro v hv
    refine Frz.bind (hr ti) fun u hu => Frz.bind Frz.getHeap fun h _ => ?_
    refine Frz.bind (Frz.lift (Q := Out.within z) fun o ho => concat_within hv hu ho) fun o ho => ?_
    exact Frz.bind (Frz.materialize ho) fun r hr => ih hr

theorem Frz.instrsRun {env : Env} {inp : V} {ty : Str} {mod : Mod} {tid : Nat} (hi : inp.within z) :
    Frz z (instrsRun env inp ty mod tid) (V.within z) := by
  refine Frz.bind Frz.readInstrs fun tis ht => ?_
  split
  · exact Frz.firstLoop fun ti => Frz.instrRun hi
  · rename_i hm; exact absurd hm ht
  · exact Frz.concatLoop (fun ti => Frz.instrRun hi) trivial

theorem Frz.optInstrs {env : Env} {inp : V} {ty : Str} {mod : Mod} {tid : Option Nat} (hi : inp.within z) :
    Frz z (optInstrs env inp ty mod tid) (V.within z) := by
  cases tid with
  | none => exact Frz.pure trivial
  | some t => exact Frz.instrsRun hi

theorem Frz.samePath {env : Env} {inp : V} {ty path : Str} (hi : inp.within z) :
    Frz z (samePath env ty path inp) (V.within z) := by
  refine Frz.bind (Frz.jpGetV hi) fun r hr => ?_
  split
  · exact Frz.pure trivial
  · refine Frz.bind (Frz.convertV (hr _ rfl)) fun c hc => Frz.bind (Frz.materialize hc) fun v hv => ?_
    exact Frz.ite (fun _ => Frz.pure trivial) fun _ => Frz.ite (fun _ => Frz.fail) fun _ => Frz.pure hv

/-- A transformer function that is safe. -/
def FrzTF (z : Nat × Nat) (f : TF) : Prop := ∀ inp mod, inp.within z → ModOk mod → Frz z (f inp mod) (V.within z)

theorem Frz.runScalar {env : Env} {path ty : Str} {d : V} {tid : Option Nat} (hd : d.within z) :
    FrzTF z (runScalar env path ty d tid) := by
  intro inp mod hi _
  refine Frz.bind (Frz.optInstrs hi) fun v hv => ?_
  refine Frz.ite (fun _ => Frz.pure hv) fun _ => ?_
  split
  · exact Frz.bind (Frz.samePath hi) fun v hv => Frz.ite (fun _ => Frz.pure hv) fun _ => Frz.pure hd
  · exact Frz.pure hd

theorem Frz.asSlice {v : V} (hv : v.within z) : Frz z (asSlice v) (fun a => z.1 ≤ a ∨ a < z.2) := by
  unfold JT.asSlice
  split
  · exact Frz.pure hv
  · exact Frz.weaken (Frz.alloc (by simpa [Cell.within] using hv)) fun a ha => .inl ha

def optWithin (z : Nat × Nat) (o : Option Addr) : Prop := ∀ a, o = some a → z.1 ≤ a ∨ a < z.2

theorem Frz.baseJSON {env : Env} {d : Option Addr} {tid : Option Nat} {inp : V} {path : Str} {mod : Mod}
    (hd : optWithin z d) (hi : inp.within z) :
    Frz z (baseJSON env d tid inp path mod) (fun r => optWithin z r.1 ∧ (r.2 = true → d.isSome = true ∨ tid.isSome = true)) := by
  have hv : Frz z (JT.optInstrs env inp g!"array" mod tid) (fun v => v.within z ∧ (v ≠ V.nil → tid.isSome = true)) := by
    cases tid with
    | none => exact Frz.pure ⟨trivial, fun h => absurd rfl h⟩
    | some t => exact Frz.weaken (Frz.instrsRun hi) fun v h => ⟨h, fun _ => rfl⟩
  refine Frz.bind hv fun v hv => ?_
  refine Frz.ite (fun hn => ?_) fun _ => ?_
  · exact Frz.bind (Frz.asSlice hv.1) fun a ha => Frz.pure ⟨by simpa [optWithin] using ha, fun _ => .inr (hv.2 hn)⟩
  · refine Frz.bind (Frz.jpGetV hi) fun r hr => ?_
    split
    · refine Frz.ite (fun _ => ?_) fun _ => Frz.pure ⟨hd, fun h => .inl h⟩
      exact Frz.bind (Frz.asSlice (hr _ rfl)) fun a ha => Frz.pure ⟨by simpa [optWithin] using ha, by simp⟩
    · exact Frz.pure ⟨hd, fun h => .inl h⟩

theorem Frz.baseXML {env : Env} {d : Option Addr} {tid : Option Nat} {inp : V} {mod : Mod}
    (hd : optWithin z d) (hi : inp.within z) : Frz z (baseXML env d tid inp mod) (optWithin z) := by
  refine Frz.bind (Frz.optInstrs hi) fun v hv => ?_
  split
  · refine Frz.bind (Frz.alloc ?_) fun a ha => Frz.pure (by simpa [optWithin] using Or.inl ha)
    intro v hv
    simp at hv
    obtain ⟨n, _, rfl⟩ := hv
    trivial
  · refine Frz.ite (fun _ => ?_) fun _ => Frz.pure hd
    exact Frz.bind (Frz.asSlice hv) fun a ha => Frz.pure (by simpa [optWithin] using ha)

def listWithin (z : Nat × Nat) (l : List V) : Prop := ∀ v ∈ l, v.within z

theorem listWithin_push {l : List V} {v : V} (hl : listWithin z l) (hv : v.within z) :
    listWithin z (if v = V.nil then l else l ++ [v]) := by
  split
  · exact hl
  · intro u hu
    simp at hu
    rcases hu with hu | rfl
    · exact hl u hu
    · exact hv

theorem Frz.readBase {o : Option Addr} (ho : optWithin z o) : Frz z (readBase o) (listWithin z) := by
  cases o with
  | none => exact Frz.pure (by simp [listWithin])
  | some a => exact Frz.readSlice (ho a rfl)

theorem Frz.itemsLoop {child : TF} (hc : FrzTF z child) {inp : V} (hi : inp.within z) {path : Str} {mod : Mod} (hm : ModOk mod) :
    ∀ {n i : Nat} {acc : List V}, listWithin z acc → Frz z (itemsLoop child inp path mod n i acc) (listWithin z) := by
  intro n
  induction n with
  | zero => intro i acc ha; exact Frz.pure ha
  | succ n ih =>
    intro i acc ha
    exact Frz.bind (hc _ _ hi (hm.replace _ _)) fun v hv => ih (listWithin_push ha hv)

theorem Frz.itemXML {child : TF} (hc : FrzTF z child) {mod : Mod} (hm : ModOk mod) {x : V} (hx : x.within z) :
    Frz z (itemXML child mod x) (V.within z) := by
  unfold JT.itemXML
  split
  · exact hc _ _ hx hm
  · exact Frz.pure hx

theorem Frz.itemsLoopXML {child : TF} (hc : FrzTF z child) {path : Str} {mod : Mod} (hm : ModOk mod) :
    ∀ {l : List V} {i : Nat} {acc : List V}, listWithin z l → listWithin z acc →
      Frz z (itemsLoopXML child path mod l i acc) (listWithin z) := by
  intro l
  induction l with
  | nil => intro i acc _ ha; exact Frz.pure ha
  | cons x xs ih =>
    intro i acc hl ha
    exact Frz.bind (Frz.itemXML hc (hm.replace _ _) (hl _ (by simp))) fun v hv =>
      ih (fun u hu => hl u (by simp [hu])) (listWithin_push ha hv)

theorem Frz.baseResult {o : Option Addr} (ho : optWithin z o) : Frz z (baseResult o) (V.within z) := by
  cases o with
  | none => exact Frz.bind (Frz.alloc (by simp [Cell.within])) fun a ha => Frz.pure (.inl ha)
  | some a => exact Frz.pure (ho a rfl)

theorem Frz.arrayResult {l : List V} (hl : listWithin z l) : Frz z (arrayResult l) (V.within z) := by
  refine Frz.ite (fun _ => Frz.pure trivial) fun _ => ?_
  exact Frz.bind (Frz.alloc hl) fun a ha => Frz.pure (.inl ha)

theorem set_within {m : GMap V} {k : Str} {v : V} (hm : ∀ kv ∈ m, kv.2.within z) (hv : v.within z) :
    ∀ kv ∈ GMap.set k v m, kv.2.within z := by
  intro kv hkv
  rcases GMap.mem_set hkv with rfl | h
  · exact hv
  · exact hm _ h

theorem fill_within : ∀ {old m : GMap V}, (∀ kv ∈ m, kv.2.within z) → (∀ kv ∈ old, kv.2.within z) →
    ∀ kv ∈ GMap.fill m old, kv.2.within z := by
  intro old
  induction old with
  | nil => intro m hm _; exact hm
  | cons x xs ih =>
    intro m hm ho
    simp only [GMap.fill, List.foldl_cons]
    split
    · exact ih hm fun kv h => ho kv (by simp [h])
    · exact ih (set_within hm (ho x (by simp))) fun kv h => ho kv (by simp [h])

theorem Frz.setKey {t : Addr} (ht : z.1 ≤ t) {k : Str} {v : V} (hv : v.within z) : Frz z (setKey t k v) (fun _ => True) :=
  Frz.bind (Frz.readMap ht) fun _ hm => Frz.writeCell ht (set_within hm hv)

/-- Saving at a path without indices. -/
theorem Frz.saveSplits : ∀ {splits : List Str} {strip : Bool} {t : Addr} {v : V}, (∀ x ∈ splits, '[' ∉ x) → z.1 ≤ t → v.within z →
    Frz z (saveSplits strip splits t v) (fun _ => True) := by
  intro splits
  induction splits with
  | nil => intro strip t v _ _ _; simp only [JT.saveSplits]; exact Frz.panic
  | cons s rest ih =>
    intro strip t v hbr ht hv
    have hrest : ∀ x ∈ rest, '[' ∉ x := fun x hx => hbr x (by simp [hx])
    unfold JT.saveSplits
    refine Frz.ite (fun _ => ?_) fun _ => ?_
    · split
      · exact Frz.panic
      · exact ih hrest ht hv
    · split
      · unfold JT.saveLeaf
        rw [splitC_no '[' s (hbr s (by simp))]
        exact Frz.setKey ht hv
      · simp only [splitC_no '[' s (hbr s (by simp))]
        refine Frz.bind (Frz.readMap ht) fun m hm => ?_
        split
        · rename_i nt hnt
          have h := hm _ (GMap.get_some_mem hnt)
          exact Frz.bind (Frz.setKey ht h) fun _ _ => ih hrest h hv
        · refine Frz.bind (Frz.alloc (by simp [Cell.within])) fun nt hnt => ?_
          exact Frz.bind (Frz.setKey ht (v := .obj nt) hnt) fun _ _ => ih hrest hnt hv
        · refine Frz.bind (Frz.alloc (by simp [Cell.within])) fun nt hnt => ?_
          exact Frz.bind (Frz.setKey ht (v := .obj nt) hnt) fun _ _ => ih hrest hnt hv
        · exact Frz.fail

theorem Frz.saveBase {inp : V} (hi : inp.within z) {path : Str} {base : Option Addr} (hb : optWithin z base) {c : Bool} (hp : c = true → '[' ∉ path) :
    Frz z (saveBase inp path base c) (V.within z) := by
  unfold JT.saveBase
  split
  · rename_i a
    refine Frz.ite (fun hc => Frz.ite (fun _ => Frz.pure (hb _ rfl)) fun _ => ?_) fun _ => Frz.pure hi
    split
    · refine Frz.bind (Q := fun _ => True) (Frz.ite (fun _ => Frz.pure trivial) fun _ => ?_) fun _ _ => Frz.pure hi
      exact Frz.saveSplits (fun x hx hm => hp hc (splitC_mem hx _ hm)) hi (hb _ rfl)
    · exact Frz.fail
  · exact Frz.pure hi

theorem Frz.runArray {env : Env} {path : Str} {d : Option Addr} {tid : Option Nat} {child : Option TF}
    (hd : optWithin z d) (hsave : env.fmt = .json → d.isSome = true ∨ tid.isSome = true → SavePathOk path)
    (hc : ∀ c, child = some c → FrzTF z c) : FrzTF z (runArray env path d tid child) := by
  intro inp mod hi hm
  unfold JT.runArray
  split
  · rename_i hf
    refine Frz.bind (Frz.baseJSON hd hi) fun r hr => ?_
    obtain ⟨base, changed⟩ := r
    show Frz z (do let inp' ← JT.saveBase inp (mod path) base changed; _) _
    refine Frz.bind (Frz.saveBase hi hr.1 fun hch => ?_) fun inp' hi' => ?_
    · have := hsave hf (hr.2 hch)
      rw [hm path this.1]
      exact this.1
    split
    · exact Frz.baseResult hr.1
    · refine Frz.bind (Frz.readBase hr.1) fun l hl => ?_
      exact Frz.bind (Frz.itemsLoop (hc _ rfl) hi' hm (by simp [listWithin])) fun out ho => Frz.arrayResult ho
  · refine Frz.bind (Frz.baseXML hd hi) fun base hb => ?_
    split
    · exact Frz.baseResult hb
    · refine Frz.bind (Frz.readBase hb) fun l hl => ?_
      exact Frz.bind (Frz.itemsLoopXML (hc _ rfl) hm hl (by simp [listWithin])) fun out ho => Frz.arrayResult ho

theorem Frz.childrenLoop {objPath : Str} {inp : V} (hi : inp.within z) {mod : Mod} (hm : ModOk mod) {nv : Addr} (hn : z.1 ≤ nv) :
    ∀ {kids : List (Str × TF)}, (∀ k ∈ kids, KidOk objPath k ∧ FrzTF z k.2) → Frz z (childrenLoop objPath inp mod nv kids) (fun _ => True) := by
  intro kids
  induction kids with
  | nil => intro _; exact Frz.pure trivial
  | cons k rest ih =>
    intro hk
    obtain ⟨cp, c⟩ := k
    obtain ⟨⟨n, hcp, hd, hb⟩, hc⟩ := hk (cp, c) (by simp)
    simp only at hcp
    subst hcp
    refine Frz.bind (hc _ _ hi hm) fun v hv => ?_
    have hs : Frz z (saveInTree nv (replace1 (objPath ++ '.' :: n) objPath g!"$") v) (fun _ => True) := by
      by_cases hvn : v = V.nil
      · unfold saveInTree
        rw [if_pos hvn]
        exact Frz.pure trivial
      · intro s hs
        rw [saveChild_eq hd hb nv hvn]
        exact Frz.setKey hn hv s hs
    exact Frz.bind hs fun _ _ => ih fun k h => hk k (by simp [h])

theorem Frz.objTarget {v : V} (hv : v.within z) : Frz z (objTarget none v) (fun a => z.1 ≤ a) := by
  unfold JT.objTarget
  split
  · exact Frz.alloc (by simp [Cell.within])
  · exact Frz.pure hv
  · exact Frz.fail

theorem Frz.objFinish {env : Env} {path : Str} {kids : List (Str × TF)} (hk : ∀ k ∈ kids, KidOk path k ∧ FrzTF z k.2) {inp : V}
    (hi : inp.within z) {mod : Mod} (hm : ModOk mod) {nv : Addr} (hn : z.1 ≤ nv) : Frz z (objFinish env path kids inp mod nv) (V.within z) := by
  refine Frz.bind Frz.nextTick fun n _ => ?_
  refine Frz.bind (Frz.childrenLoop hi hm hn ?_) fun _ _ => ?_
  · intro k h
    exact hk k ((env.sched.isPerm n _ kids).mem_iff.1 h)
  · exact Frz.bind (Frz.readMap hn) fun m _ => Frz.ite (fun _ => Frz.pure trivial) fun _ => Frz.pure hn

theorem Frz.objStart : Frz z (objStart none) (fun a => z.1 ≤ a) := Frz.alloc (by simp [Cell.within])

theorem Frz.runObject {env : Env} {path : Str} {tid : Option Nat} {kids : List (Str × TF)}
    (hk : ∀ k ∈ kids, KidOk path k ∧ FrzTF z k.2) : FrzTF z (runObject env path none tid kids) := by
  intro inp mod hi hm
  unfold JT.runObject
  split
  · refine Frz.bind (Frz.optInstrs hi) fun v hv => ?_
    exact Frz.bind (Frz.objTarget hv) fun nv hn => Frz.objFinish hk hi hm hn
  · split
    · exact Frz.bind Frz.objStart fun nv hn => Frz.objFinish hk hi hm hn
    · refine Frz.bind (Frz.instrsRun hi) fun v hv => ?_
      split
      · exact Frz.pure trivial
      · exact Frz.pure trivial
      · exact Frz.bind Frz.objStart fun nv hn => Frz.objFinish hk (show V.within z (.sc _) from trivial) hm hn
      · exact Frz.bind Frz.objStart fun nv hn => Frz.objFinish hk hi hm hn
      · exact Frz.bind Frz.objStart fun nv hn => Frz.objFinish hk (show V.within z (.sc _) from trivial) hm hn
      · exact Frz.fail

/-- A default without objects, stored before `n`. -/
def V.flat (n : Nat) : V → Prop
  | .sc _ => True
  | .arr a => a < n
  | .obj _ => False

mutual
/-- All defaults are scalars or arrays without objects, stored before `n`. -/
def T.flatDefaults (n : Nat) : T → Prop
  | .scalar _ _ d _ => d.flat n
  | .array _ d _ none => ∀ a, d = some a → a < n
  | .array _ d _ (some c) => (∀ a, d = some a → a < n) ∧ c.flatDefaults n
  | .object _ d _ cs => d = none ∧ T.flatDefaultsKids n cs
def T.flatDefaultsKids (n : Nat) : List (Str × T) → Prop
  | [] => True
  | (_, t) :: r => t.flatDefaults n ∧ T.flatDefaultsKids n r
end

mutual
theorem Frz.run (env : Env) : ∀ (t : T), t.flatDefaults z.2 → t.static env.fmt → FrzTF z (t.run env)
  | .scalar p ty d tid => fun h _ => by
    simp only [T.run]
    refine Frz.runScalar ?_
    simp only [T.flatDefaults] at h
    cases d with
    | sc s => trivial
    | arr a => exact .inr h
    | obj a => exact h.elim
  | .array p d tid none => fun h hs => by
    simp only [T.run]
    simp only [T.flatDefaults, T.static] at h hs
    exact Frz.runArray (fun a ha => .inr (h a ha)) hs (by simp)
  | .array p d tid (some c) => fun h hs => by
    simp only [T.run]
    simp only [T.flatDefaults, T.static] at h hs
    exact Frz.runArray (fun a ha => .inr (h.1 a ha)) hs.1 (by
      intro c' hc'
      simp at hc'
      subst hc'
      exact Frz.run env c h.2 hs.2)
  | .object p d tid cs => fun h hs => by
    simp only [T.run]
    simp only [T.flatDefaults, T.static] at h hs
    obtain ⟨rfl, hc⟩ := h
    exact Frz.runObject (Frz.runKids env p cs hc hs)
theorem Frz.runKids (env : Env) : ∀ (p : Str) (cs : List (Str × T)), T.flatDefaultsKids z.2 cs → T.staticKids env.fmt p cs →
    ∀ k ∈ T.runKids env cs, KidOk p k ∧ FrzTF z k.2
  | _, [] => fun _ _ => by simp [T.runKids]
  | p, (n, t) :: r => fun h hs => by
    simp only [T.flatDefaultsKids, T.staticKids] at h hs
    intro k hk
    simp only [T.runKids, List.mem_cons] at hk
    rcases hk with rfl | hk
    · exact ⟨⟨n, hs.1.1, hs.1.2.1, hs.1.2.2⟩, Frz.run env t h.1 hs.2.1⟩
    · exact Frz.runKids env p r h.2 hs.2.2 k hk
end

mutual
theorem loadP_within : ∀ (p : P) (h : Heap), z.1 ≤ h.length → HeapF z h →
    (loadP p h).1.within z ∧ HeapF z (loadP p h).2 ∧ h.length ≤ (loadP p h).2.length ∧ (∀ a < h.length, (loadP p h).2[a]? = h[a]?)
  | .sc s, h => fun _ hh => ⟨trivial, hh, Nat.le_refl _, fun _ _ => rfl⟩
  | .arr l, h => fun hw hh => by
    obtain ⟨h1, h2, h3, h4⟩ := loadList_within l h hw hh
    simp only [loadP]
    refine ⟨?_, ?_, ?_, ?_⟩
    · simp [V.within]; omega
    · intro a c ha hc
      rw [List.getElem?_append] at hc
      split at hc
      · exact h2 a c ha hc
      · rw [List.getElem?_singleton] at hc
        split at hc
        · simp at hc; subst hc; exact h1
        · simp at hc
    · simp; omega
    · intro a ha
      rw [List.getElem?_append_left (by omega)]
      exact h4 a ha
  | .obj m, h => fun hw hh => by
    obtain ⟨h1, h2, h3, h4⟩ := loadFields_within m h hw hh
    simp only [loadP]
    refine ⟨?_, ?_, ?_, ?_⟩
    · simp [V.within]; omega
    · intro a c ha hc
      rw [List.getElem?_append] at hc
      split at hc
      · exact h2 a c ha hc
      · rw [List.getElem?_singleton] at hc
        split at hc
        · simp at hc; subst hc
          have : ∀ (l m : GMap V), (∀ kv ∈ l, kv.2.within z) → (∀ kv ∈ m, kv.2.within z) →
              ∀ kv ∈ l.foldl (fun m kv => GMap.set kv.1 kv.2 m) m, kv.2.within z := by
            intro l
            induction l with
            | nil => intro m _ hm; exact hm
            | cons x xs ih =>
              intro m hl hm
              exact ih _ (fun kv h => hl kv (by simp [h])) (set_within hm (hl x (by simp)))
          exact this _ [] h1 (by simp)
        · simp at hc
    · simp; omega
    · intro a ha
      rw [List.getElem?_append_left (by omega)]
      exact h4 a ha
theorem loadList_within : ∀ (l : List P) (h : Heap), z.1 ≤ h.length → HeapF z h →
    listWithin z (loadList l h).1 ∧ HeapF z (loadList l h).2 ∧ h.length ≤ (loadList l h).2.length ∧ (∀ a < h.length, (loadList l h).2[a]? = h[a]?)
  | [], h => fun _ hh => ⟨by simp [loadList, listWithin], hh, Nat.le_refl _, fun _ _ => rfl⟩
  | p :: ps, h => fun hw hh => by
    obtain ⟨h1, h2, h3, h4⟩ := loadP_within p h hw hh
    obtain ⟨g1, g2, g3, g4⟩ := loadList_within ps (loadP p h).2 (by omega) h2
    simp only [loadList]
    refine ⟨?_, g2, by omega, fun a ha => (g4 a (by omega)).trans (h4 a ha)⟩
    intro v hv
    simp at hv
    rcases hv with rfl | hv
    · exact h1
    · exact g1 v hv
theorem loadFields_within : ∀ (l : List (Str × P)) (h : Heap), z.1 ≤ h.length → HeapF z h →
    (∀ kv ∈ (loadFields l h).1, kv.2.within z) ∧ HeapF z (loadFields l h).2 ∧ h.length ≤ (loadFields l h).2.length ∧ (∀ a < h.length, (loadFields l h).2[a]? = h[a]?)
  | [], h => fun _ hh => ⟨by simp [loadFields], hh, Nat.le_refl _, fun _ _ => rfl⟩
  | (k, p) :: ps, h => fun hw hh => by
    obtain ⟨h1, h2, h3, h4⟩ := loadP_within p h hw hh
    obtain ⟨g1, g2, g3, g4⟩ := loadFields_within ps (loadP p h).2 (by omega) h2
    simp only [loadFields]
    refine ⟨?_, g2, by omega, fun a ha => (g4 a (by omega)).trans (h4 a ha)⟩
    intro v hv
    simp at hv
    rcases hv with rfl | hv
    · exact h1
    · exact g1 v hv
end

theorem Frz.load (p : P) : Frz z (load p) (V.within z) := by
  intro s hs
  obtain ⟨h1, h2, h3, h4⟩ := loadP_within (z := z) p s.heap hs.len hs.within
  refine ⟨⟨?_, hs.le, h2, hs.noLast⟩, ⟨?_, rfl, rfl, rfl, [], rfl, by simp⟩, ?_⟩
  · have := hs.len; simp only [JT.load]; omega
  · intro a ha
    have := hs.len
    exact h4 a (by omega)
  · intro v hv
    simp [JT.load] at hv
    rw [← hv]
    exact h1

theorem Frz.readInput {env : Env} (raw : Str) : Frz z (readInput env raw) (V.within z) := by
  unfold JT.readInput
  split
  · split
    · exact Frz.fail
    · exact Frz.load _
  · split
    · exact Frz.fail
    · exact Frz.pure trivial

theorem Frz.baseTransform {env : Env} {t : T} (ht : t.flatDefaults z.2) (hst : t.static env.fmt) (raw : Str) :
    Frz z (baseTransform env t raw) (fun _ => True) := by
  refine Frz.bind (Frz.readInput raw) fun inp hi => Frz.bind (Frz.run env t ht hst _ _ hi ModOk.id) fun v _ =>
    Frz.bind Frz.getHeap fun h _ => ?_
  split
  · exact Frz.fail
  · split
    · exact Frz.fail
    · exact Frz.pure trivial

end JT
