import Verif.Model.Build
import Verif.Proofs.Map
/- Executions that only write memory they allocated themselves. -/
namespace JT

/-- No reference to a cell before `w`. -/
def V.above (w : Nat) : V → Prop
  | .sc _ => True
  | .arr a => w ≤ a
  | .obj a => w ≤ a

def Cell.above (w : Nat) : Cell → Prop
  | .map m => ∀ kv ∈ m, kv.2.above w
  | .slice l => ∀ v ∈ l, v.above w

/-- Cells from `w` on do not refer to cells before `w`, and no instruction set uses method `last`. -/
structure Inv (w : Nat) (s : St) : Prop where
  len : w ≤ s.heap.length
  above : ∀ (a : Nat) (c : Cell), w ≤ a → s.heap[a]? = some c → c.above w
  noLast : ∀ t ∈ s.instrs, t.method ≠ .last

/-- The second state extends the first; cells before `w` and the instruction sets are untouched. -/
structure Ext (w : Nat) (s s' : St) : Prop where
  heap : ∀ a < w, s'.heap[a]? = s.heap[a]?
  instrs : s'.instrs = s.instrs
  ilog : s'.ilog = s.ilog
  shared : s'.shared = s.shared
  wlog : ∃ l, s'.wlog = l ++ s.wlog ∧ ∀ a ∈ l, w ≤ a

theorem Ext.refl (w : Nat) (s : St) : Ext w s s := ⟨fun _ _ => rfl, rfl, rfl, rfl, [], rfl, by simp⟩

theorem Ext.trans {w : Nat} {s t u : St} (h1 : Ext w s t) (h2 : Ext w t u) : Ext w s u := by
  refine ⟨fun a ha => (h2.heap a ha).trans (h1.heap a ha), h2.instrs.trans h1.instrs, h2.ilog.trans h1.ilog,
    h2.shared.trans h1.shared, ?_⟩
  obtain ⟨l1, e1, p1⟩ := h1.wlog
  obtain ⟨l2, e2, p2⟩ := h2.wlog
  refine ⟨l2 ++ l1, by rw [e2, e1, List.append_assoc], ?_⟩
  intro a ha
  rw [List.mem_append] at ha
  exact ha.elim (p2 a) (p1 a)

/-- `x` preserves the invariant and its results satisfy `Q`. -/
def Safe {α : Type} (w : Nat) (x : M α) (Q : α → Prop) : Prop :=
  ∀ s, Inv w s → Inv w (x s).2 ∧ Ext w s (x s).2 ∧ ∀ a, (x s).1 = .ok a → Q a

variable {α β : Type} {w : Nat}

theorem Safe.pure {a : α} {Q : α → Prop} (h : Q a) : Safe w (Pure.pure a : M α) Q := by
  intro s hs
  refine ⟨hs, Ext.refl _ _, ?_⟩
  intro b hb
  rw [M.pure_apply] at hb
  simp at hb
  subst hb
  exact h

theorem Safe.bind {x : M α} {f : α → M β} {Q : α → Prop} {R : β → Prop} (hx : Safe w x Q)
    (hf : ∀ a, Q a → Safe w (f a) R) : Safe w (x >>= f) R := by
  intro s hs
  obtain ⟨h1, h2, h3⟩ := hx s hs
  rw [M.bind_apply]
  rcases hxs : x s with ⟨r, s'⟩
  rw [hxs] at h1 h2 h3
  cases r with
  | ok a =>
    obtain ⟨h4, h5, h6⟩ := hf a (h3 a rfl) s' h1
    exact ⟨h4, h2.trans h5, h6⟩
  | err => exact ⟨h1, h2, by simp⟩
  | panic => exact ⟨h1, h2, by simp⟩

theorem Safe.weaken {x : M α} {Q R : α → Prop} (hx : Safe w x Q) (h : ∀ a, Q a → R a) : Safe w x R := by
  intro s hs
  obtain ⟨h1, h2, h3⟩ := hx s hs
  exact ⟨h1, h2, fun a ha => h a (h3 a ha)⟩

theorem Safe.fail {Q : α → Prop} : Safe w (M.fail : M α) Q := fun s hs => ⟨hs, Ext.refl _ _, by simp [M.fail]⟩
theorem Safe.panic {Q : α → Prop} : Safe w (M.panic : M α) Q := fun s hs => ⟨hs, Ext.refl _ _, by simp [M.panic]⟩
theorem Safe.lift {r : Res α} {Q : α → Prop} (h : ∀ a, r = .ok a → Q a) : Safe w (M.lift r) Q :=
  fun _ hs => ⟨hs, Ext.refl _ _, h⟩

theorem Safe.ite {c : Prop} [Decidable c] {x y : M α} {Q : α → Prop} (hx : c → Safe w x Q) (hy : ¬c → Safe w y Q) :
    Safe w (if c then x else y) Q := by
  split
  · exact hx ‹_›
  · exact hy ‹_›

/-- A heap whose cells from `w` on are closed. -/
def HeapOk (w : Nat) (h : Heap) : Prop := ∀ (a : Nat) (c : Cell), w ≤ a → h[a]? = some c → c.above w

theorem Safe.getHeap : Safe w getHeap (HeapOk w) := fun _ hs => ⟨hs, Ext.refl _ _, by
  intro a ha
  simp [JT.getHeap] at ha
  subst ha
  exact hs.above⟩

theorem Safe.nextTick : Safe w nextTick (fun _ => True) := fun s hs =>
  ⟨⟨hs.len, hs.above, hs.noLast⟩, ⟨fun _ _ => rfl, rfl, rfl, rfl, [], rfl, by simp⟩, fun _ _ => trivial⟩

theorem Safe.alloc {c : Cell} (hc : c.above w) : Safe w (alloc c) (fun a => w ≤ a) := by
  intro s hs
  refine ⟨⟨?_, ?_, hs.noLast⟩, ⟨?_, rfl, rfl, rfl, [], rfl, by simp⟩, ?_⟩
  · simp [JT.alloc]; have := hs.len; omega
  · intro a c' ha hc'
    simp only [JT.alloc] at hc'
    rw [List.getElem?_append] at hc'
    split at hc'
    · exact hs.above a c' ha hc'
    · rw [List.getElem?_singleton] at hc'
      split at hc'
      · simp at hc'; subst hc'; exact hc
      · simp at hc'
  · intro a ha
    simp only [JT.alloc]
    rw [List.getElem?_append_left (by have := hs.len; omega)]
  · intro a ha
    simp [JT.alloc] at ha
    rw [← ha]
    exact hs.len

theorem Safe.writeCell {a : Addr} {c : Cell} (ha : w ≤ a) (hc : c.above w) : Safe w (writeCell a c) (fun _ => True) := by
  intro s hs
  refine ⟨⟨?_, ?_, hs.noLast⟩, ⟨?_, rfl, rfl, rfl, [a], rfl, by simpa using ha⟩, fun _ _ => trivial⟩
  · simp [JT.writeCell]; exact hs.len
  · intro b c' hb hc'
    simp only [JT.writeCell] at hc'
    rw [List.getElem?_set] at hc'
    split at hc'
    · split at hc'
      · simp at hc'; subst hc'; exact hc
      · simp at hc'
    · exact hs.above b c' hb hc'
  · intro b hb
    simp only [JT.writeCell]
    rw [List.getElem?_set_ne (by omega)]

theorem Safe.readMap {a : Addr} (ha : w ≤ a) : Safe w (readMap a) (fun m => ∀ kv ∈ m, kv.2.above w) := by
  intro s hs
  unfold JT.readMap
  split
  · rename_i m hm
    refine ⟨hs, Ext.refl _ _, ?_⟩
    intro m' hm'
    simp at hm'
    subst hm'
    exact hs.above a _ ha hm
  · exact ⟨hs, Ext.refl _ _, by simp⟩

theorem Safe.readSlice {a : Addr} (ha : w ≤ a) : Safe w (readSlice a) (fun l => ∀ v ∈ l, v.above w) := by
  intro s hs
  unfold JT.readSlice
  split
  · rename_i m hm
    refine ⟨hs, Ext.refl _ _, ?_⟩
    intro m' hm'
    simp at hm'
    subst hm'
    exact hs.above a _ ha hm
  · exact ⟨hs, Ext.refl _ _, by simp⟩

theorem Safe.readInstrs {i : Nat} : Safe w (readInstrs i) (fun t => t.method ≠ .last) := by
  intro s hs
  unfold JT.readInstrs
  split
  · rename_i t ht
    refine ⟨hs, Ext.refl _ _, ?_⟩
    intro t' ht'
    simp at ht'
    subst ht'
    exact hs.noLast _ (List.mem_of_getElem? ht)
  · exact ⟨hs, Ext.refl _ _, by simp⟩

theorem Safe.orElseM {x y : M α} {Q : α → Prop} (hx : Safe w x Q) (hy : Safe w y Q) : Safe w (orElseM x y) Q := by
  intro s hs
  obtain ⟨h1, h2, h3⟩ := hx s hs
  unfold JT.orElseM
  rcases hxs : x s with ⟨r, s'⟩
  rw [hxs] at h1 h2 h3
  cases r with
  | ok a => exact ⟨h1, h2, h3⟩
  | err =>
    obtain ⟨h4, h5, h6⟩ := hy s' h1
    exact ⟨h4, h2.trans h5, h6⟩
  | panic => exact ⟨h1, h2, h3⟩

/-! ### Values seen through the heap -/

def Out.above (w : Nat) : Out V → Prop
  | .val v => v.above w
  | .sc _ => True
  | .arr l => ∀ v ∈ l, v.above w
  | .strs _ => True

def Shape.above (w : Nat) : Shape V → Prop
  | .sc _ => True
  | .arr l => ∀ v ∈ l, v.above w
  | .obj m => ∀ kv ∈ m, kv.2.above w

theorem shape_above {h : Heap} (hh : HeapOk w h) {v : V} (hv : v.above w) : (h.shape v).above w := by
  cases v with
  | sc s => trivial
  | arr a =>
    simp only [Heap.shape]
    split
    · rename_i l hl; exact hh a _ hv hl
    · simp [Shape.above]
  | obj a =>
    simp only [Heap.shape]
    split
    · rename_i l hl; exact hh a _ hv hl
    · simp [Shape.above]

theorem getStep_above {h : Heap} (hh : HeapOk w h) {v u : V} (hv : v.above w) {st : Step}
    (hg : getStep h.view st v = some u) : u.above w := by
  have hs := shape_above hh hv
  unfold getStep at hg
  simp only [Heap.view] at hg
  split at hg
  · rename_i m k hm
    rw [hm] at hs
    exact hs _ (GMap.get_some_mem hg)
  · rename_i m i hm
    rw [hm] at hs
    exact hs _ (GMap.get_some_mem hg)
  · rename_i l i hl
    rw [hl] at hs
    exact hs _ (List.mem_of_getElem? hg)
  · simp at hg

theorem getSteps_above {h : Heap} (hh : HeapOk w h) : ∀ {ss : List Step} {v u : V}, v.above w →
    getSteps h.view ss v = some u → u.above w := by
  intro ss
  induction ss with
  | nil => intro v u hv hg; simp [getSteps] at hg; subst hg; exact hv
  | cons s ss ih =>
    intro v u hv hg
    simp only [getSteps] at hg
    cases hx : getStep h.view s v with
    | none => simp [hx] at hg
    | some x =>
      simp [hx] at hg
      exact ih (getStep_above hh hv hx) hg

theorem optAll_above {h : Heap} (hh : HeapOk w h) {v : V} (hv : v.above w) :
    ∀ {ls : List (List Step)} {us : List V}, optAll (fun ss => getSteps h.view ss v) ls = some us →
      ∀ u ∈ us, u.above w := by
  intro ls
  induction ls with
  | nil => intro us h1; simp [optAll] at h1; subst h1; simp
  | cons l ls ih =>
    intro us h1
    simp only [optAll] at h1
    split at h1
    · rename_i y ys hy hys
      simp at h1
      subst h1
      intro u hu
      simp at hu
      rcases hu with rfl | hu
      · exact getSteps_above hh hv hy
      · exact ih hys u hu
    · contradiction

theorem jpGet_above {lib : Lib} {h : Heap} (hh : HeapOk w h) {v : V} (hv : v.above w) {path : Str} {o : Out V}
    (hg : jpGet lib h.view path v = some o) : o.above w := by
  unfold jpGet at hg
  split at hg
  · simp only [Option.map_eq_some_iff] at hg
    obtain ⟨u, hu, rfl⟩ := hg
    exact getSteps_above hh hv hu
  · split at hg
    · contradiction
    · simp only [Option.map_eq_some_iff] at hg
      obtain ⟨u, hu, rfl⟩ := hg
      exact getSteps_above hh hv hu
    · simp only [Option.map_eq_some_iff] at hg
      obtain ⟨u, hu, rfl⟩ := hg
      exact optAll_above hh hv hu
    · simp at hg; subst hg; trivial

theorem convertBoolean_above (sh : Shape V) : (convertBoolean sh).val.above w := by
  unfold convertBoolean; (repeat' split) <;> trivial
theorem convertNumber_above (lib : Lib) (sh : Shape V) : (convertNumber lib sh).val.above w := by
  unfold convertNumber; (repeat' split) <;> trivial
theorem convertDateTime_above (lib : Lib) (sh : Shape V) : (convertDateTime lib sh).val.above w := by
  unfold convertDateTime; (repeat' split) <;> trivial
theorem convertString_above (lib : Lib) (sh : Shape V) : (convertString lib sh).val.above w := by
  unfold convertString; (repeat' split) <;> trivial

theorem convertTo_above {lib : Lib} {h : Heap} {ty : Str} {v : V} (hv : v.above w) :
    (convertTo lib h.view ty v).val.above w := by
  unfold convertTo
  split
  · exact convertBoolean_above _
  · split
    · exact convertNumber_above _ _
    · split
      · exact convertString_above _ _
      · split
        · exact convertDateTime_above _ _
        · exact hv

theorem convert_above {lib : Lib} {h : Heap} (hh : HeapOk w h) {ty : Str} : ∀ {n : Nat} {v : V} {c : Conv V}, v.above w →
    convert lib h.view ty n v = .ok c → c.val.above w := by
  intro n
  induction n with
  | zero => intro v c hv hc; simp [convert] at hc
  | succ n ih =>
    intro v c hv hc
    have hs := shape_above hh hv
    simp only [convert] at hc
    split at hc
    · simp at hc; subst hc; trivial
    · simp at hc; subst hc; trivial
    · rename_i x rest hsh
      rw [show h.view.shape v = h.shape v from rfl] at hsh
      rw [hsh] at hs
      have hx : x.above w := hs x (by simp)
      split at hc
      · split at hc
        · rename_i y ys hy
          have hsx := shape_above hh hx
          rw [show h.view.shape x = h.shape x from rfl] at hy
          rw [hy] at hsx
          exact ih (hsx y (by simp)) hc
        · simp at hc; subst hc; exact convertTo_above hx
      · simp at hc; subst hc; exact convertTo_above hv
    · simp at hc; subst hc; exact convertTo_above hv

theorem durationOp_above {h : Heap} {v : V} {o : Out V} (ho : durationOp h.view v = .ok o) : o.above w := by
  unfold durationOp at ho
  simp only at ho
  split at ho
  · simp at ho; subst ho; trivial
  · rename_i s _
    cases hd : durationStr s <;> simp [hd, Res.map] at ho
    subst ho; trivial
  · simp at ho

theorem maxOp_above {lib : Lib} {h : Heap} (hh : HeapOk w h) {b r : Str} {v : V} (hv : v.above w) {o : Out V}
    (ho : maxOp lib h.view b r v = .ok o) : o.above w := by
  unfold maxOp at ho
  have hs := shape_above hh hv
  split at ho
  · rename_i items hi
    rw [show h.view.shape v = h.shape v from rfl] at hi
    rw [hi] at hs
    simp only at ho
    split at ho
    · split at ho
      · simp at ho
      · rename_i item hit
        split at ho
        · simp at ho
        · rename_i o' hg
          simp at ho; subst ho
          exact jpGet_above hh (hs _ (List.mem_of_getElem? hit)) hg
    · simp at ho
    · simp at ho
  · simp at ho

theorem onStr_above {h : Heap} {v : V} {f : Str → Res (Out V)} {o : Out V} (hf : ∀ s o, f s = .ok o → o.above w)
    (ho : onStr h.view v f = .ok o) : o.above w := by
  unfold onStr at ho
  split at ho
  · exact hf _ _ ho
  · simp at ho

theorem runOp_above {lib : Lib} {h : Heap} (hh : HeapOk w h) {now : GTime} {op : Op} {v : V} (hv : v.above w)
    {o : Out V} (ho : runOp lib h.view now op v = .ok o) : o.above w := by
  cases op with
  | duration => exact durationOp_above ho
  | max b r => exact maxOp_above hh hv ho
  | changeCase u => exact onStr_above (fun s o h => by simp at h; subst h; trivial) ho
  | replace a b => exact onStr_above (fun s o h => by simp at h; subst h; trivial) ho
  | split on => exact onStr_above (fun s o h => by split at h <;> simp at h <;> subst h <;> trivial) ho
  | timeParse a b => exact onStr_above (fun s o h => by split at h <;> simp at h; subst h; trivial) ho
  | toCamelCase d => exact onStr_above (fun s o h => by simp at h; subst h; trivial) ho
  | removeHTML => exact onStr_above (fun s o h => by simp at h; subst h; trivial) ho
  | currentTime f => simp only [runOp] at ho; simp at ho; subst ho; trivial
  | valueExists => simp only [runOp] at ho; split at ho <;> simp at ho <;> subst ho <;> trivial
  | inverse => simp only [runOp] at ho; split at ho <;> simp at ho <;> subst ho <;> trivial
  | convertToFloat64 =>
    simp only [runOp] at ho
    (repeat' split at ho) <;> simp at ho <;> subst ho <;> trivial
  | convertToInt64 =>
    simp only [runOp] at ho
    (repeat' split at ho) <;> simp at ho <;> subst ho <;> trivial
  | convertToBool =>
    simp only [runOp] at ho
    (repeat' split at ho) <;> simp at ho <;> subst ho <;> trivial

theorem concat_above {h : Heap} {a b : V} (ha : a.above w) (hb : b.above w) {d : Str} {o : Out V}
    (ho : concat h.view a b d = .ok o) : o.above w := by
  unfold concat at ho
  split at ho
  · simp at ho; subst ho; trivial
  · simp at ho; subst ho; exact hb
  · simp at ho; subst ho; exact ha
  · split at ho
    · simp at ho
    · split at ho
      · split at ho <;> simp at ho <;> subst ho <;> trivial
      · simp at ho

theorem Safe.materialize {o : Out V} (ho : o.above w) : Safe w (materialize o) (V.above w) := by
  cases o with
  | val v => exact Safe.pure ho
  | sc s => exact Safe.pure trivial
  | arr l => exact Safe.bind (Safe.alloc ho) (fun a ha => Safe.pure ha)
  | strs l =>
    refine Safe.bind (Safe.alloc ?_) (fun a ha => Safe.pure ha)
    intro v hv
    simp at hv
    obtain ⟨s, _, rfl⟩ := hv
    trivial

/-! ### The engine -/

theorem Safe.runOps {env : Env} : ∀ {ops : List Op} {v : V}, v.above w → Safe w (runOps env ops v) (V.above w) := by
  intro ops
  induction ops with
  | nil => intro v hv; exact Safe.pure hv
  | cons op ops ih =>
    intro v hv
    refine Safe.bind Safe.nextTick fun n _ => Safe.bind Safe.getHeap fun h hh => ?_
    refine Safe.bind (Safe.lift (Q := Out.above w) fun o ho => runOp_above hh hv ho) fun o ho => ?_
    exact Safe.bind (Safe.materialize ho) fun v' hv' => ih hv'

theorem Safe.convertV {env : Env} {ty : Str} {v : V} (hv : v.above w) :
    Safe w (convertV env ty v) (fun c => c.val.above w) :=
  Safe.bind Safe.getHeap fun _ hh => Safe.lift fun _ hc => convert_above hh hv hc

theorem Safe.jpGetV {env : Env} {path : Str} {v : V} (hv : v.above w) :
    Safe w (jpGetV env path v) (fun r => ∀ u, r = some u → u.above w) := by
  refine Safe.bind Safe.getHeap fun h hh => ?_
  split
  · exact Safe.pure (by simp)
  · rename_i o ho
    exact Safe.bind (Safe.materialize (jpGet_above hh hv ho)) fun r hr => Safe.pure (by simpa using hr)

theorem Safe.convOrRaw {c : Conv V} {raw : V} (hc : c.val.above w) (hr : raw.above w) :
    Safe w (convOrRaw c raw) (V.above w) :=
  Safe.ite (fun _ => Safe.pure hr) fun _ => Safe.materialize hc

theorem Safe.instrJSON {env : Env} {inp : V} {ty : Str} {mod : Mod} {ti : Instr} (hi : inp.above w) :
    Safe w (instrJSON env inp ty mod ti) (V.above w) := by
  refine Safe.bind (Safe.jpGetV hi) fun r hr => ?_
  split
  · exact Safe.pure trivial
  · rename_i raw
    refine Safe.ite (fun _ => Safe.pure trivial) fun _ => ?_
    refine Safe.bind (Safe.convertV (hr _ rfl)) fun c hc => ?_
    refine Safe.bind (Safe.convOrRaw hc (hr _ rfl)) fun v hv => ?_
    exact Safe.ite (fun _ => Safe.pure trivial) fun _ => Safe.runOps hv

theorem Safe.xfind {env : Env} {n : NodeId} {p : Str} : Safe w (xfind env n p) (fun _ => True) := by
  unfold JT.xfind
  split
  · exact Safe.pure trivial
  · exact Safe.panic

theorem Safe.xmlValue {env : Env} {ty : Str} {f : NodeId} {a : List NodeId} {x y : Nat} :
    Safe w (xmlValue env ty f a x y) (V.above w) := by
  unfold JT.xmlValue
  refine Safe.ite (fun _ => ?_) fun _ => Safe.ite (fun _ => Safe.pure trivial) fun _ => Safe.ite (fun _ => Safe.pure trivial) fun _ => ?_
  · exact Safe.bind (Safe.convertV trivial) fun c hc => Safe.materialize hc
  · exact Safe.bind (Safe.convertV trivial) fun c hc => Safe.ite (fun _ => Safe.pure trivial) fun _ => Safe.materialize hc

theorem Safe.instrXML {env : Env} {inp : V} {ty : Str} {mod : Mod} {ti : Instr} :
    Safe w (instrXML env inp ty mod ti) (V.above w) := by
  unfold JT.instrXML
  split
  · refine Safe.bind Safe.xfind fun found _ => ?_
    split
    · exact Safe.pure trivial
    · refine Safe.bind Safe.xfind fun wc _ => Safe.bind Safe.xfind fun woc _ => ?_
      exact Safe.bind Safe.xmlValue fun v hv => Safe.ite (fun _ => Safe.pure trivial) fun _ => Safe.runOps hv
  · exact Safe.fail

theorem Safe.instrRun {env : Env} {inp : V} {ty : Str} {mod : Mod} {ti : Instr} (hi : inp.above w) :
    Safe w (instrRun env inp ty mod ti) (V.above w) := by
  unfold JT.instrRun
  split
  · exact Safe.instrXML
  · exact Safe.instrJSON hi

theorem Safe.firstLoop {run : Instr → M V} (hr : ∀ ti, Safe w (run ti) (V.above w)) :
    ∀ {l : List Instr}, Safe w (firstLoop run l) (V.above w) := by
  intro l
  induction l with
  | nil => exact Safe.pure trivial
  | cons ti rest ih => exact Safe.bind (hr ti) fun v hv => Safe.ite (fun _ => ih) fun _ => Safe.pure hv

theorem Safe.concatLoop {run : Instr → M V} {d : Str} (hr : ∀ ti, Safe w (run ti) (V.above w)) :
    ∀ {l : List Instr} {v : V}, v.above w → Safe w (concatLoop run d l v) (V.above w) := by
  intro l
  induction l with
  | nil => intro v hv; exact Safe.pure hv
  | cons ti rest ih =>
    intro v hv
    refine Safe.bind (hr ti) fun u hu => Safe.bind Safe.getHeap fun h _ => ?_
    refine Safe.bind (Safe.lift (Q := Out.above w) fun o ho => concat_above hv hu ho) fun o ho => ?_
    exact Safe.bind (Safe.materialize ho) fun r hr => ih hr

theorem Safe.instrsRun {env : Env} {inp : V} {ty : Str} {mod : Mod} {tid : Nat} (hi : inp.above w) :
    Safe w (instrsRun env inp ty mod tid) (V.above w) := by
  refine Safe.bind Safe.readInstrs fun tis ht => ?_
  split
  · exact Safe.firstLoop fun ti => Safe.instrRun hi
  · rename_i hm; exact absurd hm ht
  · exact Safe.concatLoop (fun ti => Safe.instrRun hi) trivial

theorem Safe.optInstrs {env : Env} {inp : V} {ty : Str} {mod : Mod} {tid : Option Nat} (hi : inp.above w) :
    Safe w (optInstrs env inp ty mod tid) (V.above w) := by
  cases tid with
  | none => exact Safe.pure trivial
  | some t => exact Safe.instrsRun hi

theorem Safe.samePath {env : Env} {inp : V} {ty path : Str} (hi : inp.above w) :
    Safe w (samePath env ty path inp) (V.above w) := by
  refine Safe.bind (Safe.jpGetV hi) fun r hr => ?_
  split
  · exact Safe.pure trivial
  · refine Safe.bind (Safe.convertV (hr _ rfl)) fun c hc => Safe.bind (Safe.materialize hc) fun v hv => ?_
    exact Safe.ite (fun _ => Safe.pure trivial) fun _ => Safe.ite (fun _ => Safe.fail) fun _ => Safe.pure hv

/-- A transformer function that is safe. -/
def SafeTF (w : Nat) (f : TF) : Prop := ∀ inp mod, inp.above w → Safe w (f inp mod) (V.above w)

theorem Safe.runScalar {env : Env} {path ty : Str} {d : V} {tid : Option Nat} (hd : d.above w) :
    SafeTF w (runScalar env path ty d tid) := by
  intro inp mod hi
  refine Safe.bind (Safe.optInstrs hi) fun v hv => ?_
  refine Safe.ite (fun _ => Safe.pure hv) fun _ => ?_
  split
  · exact Safe.bind (Safe.samePath hi) fun v hv => Safe.ite (fun _ => Safe.pure hv) fun _ => Safe.pure hd
  · exact Safe.pure hd

theorem Safe.asSlice {v : V} (hv : v.above w) : Safe w (asSlice v) (fun a => w ≤ a) := by
  unfold JT.asSlice
  split
  · exact Safe.pure hv
  · exact Safe.alloc (by simpa [Cell.above] using hv)

def optAbove (w : Nat) (o : Option Addr) : Prop := ∀ a, o = some a → w ≤ a

theorem Safe.baseJSON {env : Env} {d : Option Addr} {tid : Option Nat} {inp : V} {path : Str} {mod : Mod}
    (hd : optAbove w d) (hi : inp.above w) : Safe w (baseJSON env d tid inp path mod) (fun r => optAbove w r.1) := by
  refine Safe.bind (Safe.optInstrs hi) fun v hv => ?_
  refine Safe.ite (fun _ => ?_) fun _ => ?_
  · exact Safe.bind (Safe.asSlice hv) fun a ha => Safe.pure (by simpa [optAbove] using ha)
  · refine Safe.bind (Safe.jpGetV hi) fun r hr => ?_
    split
    · refine Safe.ite (fun _ => ?_) fun _ => Safe.pure hd
      exact Safe.bind (Safe.asSlice (hr _ rfl)) fun a ha => Safe.pure (by simpa [optAbove] using ha)
    · exact Safe.pure hd

theorem Safe.baseXML {env : Env} {d : Option Addr} {tid : Option Nat} {inp : V} {mod : Mod}
    (hd : optAbove w d) (hi : inp.above w) : Safe w (baseXML env d tid inp mod) (optAbove w) := by
  refine Safe.bind (Safe.optInstrs hi) fun v hv => ?_
  split
  · refine Safe.bind (Safe.alloc ?_) fun a ha => Safe.pure (by simpa [optAbove] using ha)
    intro v hv
    simp at hv
    obtain ⟨n, _, rfl⟩ := hv
    trivial
  · refine Safe.ite (fun _ => ?_) fun _ => Safe.pure hd
    exact Safe.bind (Safe.asSlice hv) fun a ha => Safe.pure (by simpa [optAbove] using ha)

def listAbove (w : Nat) (l : List V) : Prop := ∀ v ∈ l, v.above w

theorem listAbove_push {l : List V} {v : V} (hl : listAbove w l) (hv : v.above w) :
    listAbove w (if v = V.nil then l else l ++ [v]) := by
  split
  · exact hl
  · intro u hu
    simp at hu
    rcases hu with hu | rfl
    · exact hl u hu
    · exact hv

theorem Safe.readBase {o : Option Addr} (ho : optAbove w o) : Safe w (readBase o) (listAbove w) := by
  cases o with
  | none => exact Safe.pure (by simp [listAbove])
  | some a => exact Safe.readSlice (ho a rfl)

theorem Safe.itemsLoop {child : TF} (hc : SafeTF w child) {inp : V} (hi : inp.above w) {path : Str} {mod : Mod} :
    ∀ {n i : Nat} {acc : List V}, listAbove w acc → Safe w (itemsLoop child inp path mod n i acc) (listAbove w) := by
  intro n
  induction n with
  | zero => intro i acc ha; exact Safe.pure ha
  | succ n ih =>
    intro i acc ha
    exact Safe.bind (hc _ _ hi) fun v hv => ih (listAbove_push ha hv)

theorem Safe.itemXML {child : TF} (hc : SafeTF w child) {mod : Mod} {x : V} (hx : x.above w) :
    Safe w (itemXML child mod x) (V.above w) := by
  unfold JT.itemXML
  split
  · exact hc _ _ hx
  · exact Safe.pure hx

theorem Safe.itemsLoopXML {child : TF} (hc : SafeTF w child) {path : Str} {mod : Mod} :
    ∀ {l : List V} {i : Nat} {acc : List V}, listAbove w l → listAbove w acc →
      Safe w (itemsLoopXML child path mod l i acc) (listAbove w) := by
  intro l
  induction l with
  | nil => intro i acc _ ha; exact Safe.pure ha
  | cons x xs ih =>
    intro i acc hl ha
    exact Safe.bind (Safe.itemXML hc (hl _ (by simp))) fun v hv =>
      ih (fun u hu => hl u (by simp [hu])) (listAbove_push ha hv)

theorem Safe.baseResult {o : Option Addr} (ho : optAbove w o) : Safe w (baseResult o) (V.above w) := by
  cases o with
  | none => exact Safe.bind (Safe.alloc (by simp [Cell.above])) fun a ha => Safe.pure ha
  | some a => exact Safe.pure (ho a rfl)

theorem Safe.arrayResult {l : List V} (hl : listAbove w l) : Safe w (arrayResult l) (V.above w) := by
  refine Safe.ite (fun _ => Safe.pure trivial) fun _ => ?_
  exact Safe.bind (Safe.alloc hl) fun a ha => Safe.pure ha

theorem set_above {m : GMap V} {k : Str} {v : V} (hm : ∀ kv ∈ m, kv.2.above w) (hv : v.above w) :
    ∀ kv ∈ GMap.set k v m, kv.2.above w := by
  intro kv hkv
  rcases GMap.mem_set hkv with rfl | h
  · exact hv
  · exact hm _ h

theorem fill_above : ∀ {old m : GMap V}, (∀ kv ∈ m, kv.2.above w) → (∀ kv ∈ old, kv.2.above w) →
    ∀ kv ∈ GMap.fill m old, kv.2.above w := by
  intro old
  induction old with
  | nil => intro m hm _; exact hm
  | cons x xs ih =>
    intro m hm ho
    simp only [GMap.fill, List.foldl_cons]
    split
    · exact ih hm fun kv h => ho kv (by simp [h])
    · exact ih (set_above hm (ho x (by simp))) fun kv h => ho kv (by simp [h])

theorem Safe.mergeOld {v old : V} (hv : v.above w) (ho : old.above w) : Safe w (mergeOld v old) (fun _ => True) := by
  unfold JT.mergeOld
  split
  · refine Safe.bind (Safe.readMap hv) fun nm hn => Safe.bind (Safe.readMap ho) fun om hom => ?_
    exact Safe.writeCell hv (fill_above hn hom)
  · exact Safe.pure trivial

theorem pad_above {l : List V} (hl : listAbove w l) (n : Nat) :
    listAbove w (l ++ List.replicate n V.nil) := by
  intro u hu
  rw [List.mem_append] at hu
  rcases hu with hu | hu
  · exact hl u hu
  · obtain ⟨_, rfl⟩ := List.mem_replicate.1 hu
    trivial

theorem getD_above {l : List V} (hl : listAbove w l) (n : Nat) : (l.getD n V.nil).above w := by
  rw [List.getD_eq_getElem?_getD]
  cases h : l[n]? with
  | none => trivial
  | some v => exact hl v (List.mem_of_getElem? h)

theorem setIdx_above {l : List V} (hl : listAbove w l) {v : V} (hv : v.above w) (n : Nat) :
    listAbove w (l.set n v) := by
  intro u hu
  rcases List.mem_or_eq_of_mem_set hu with h | rfl
  · exact hl u h
  · exact hv

theorem Safe.growSlice {cur : Option Addr} (hc : optAbove w cur) {l l' : List V} (hl : listAbove w l') {n : Nat} :
    Safe w (growSlice cur l l' n) (fun a => w ≤ a) := by
  unfold JT.growSlice
  split
  · exact Safe.ite (fun _ => Safe.pure (hc _ rfl)) fun _ => Safe.alloc hl
  · exact Safe.alloc hl

theorem nestedSlice_above {v : V} (hv : v.above w) : optAbove w (nestedSlice v) := by
  intro b hb
  cases v <;> simp [nestedSlice] at hb
  subst hb; exact hv

theorem Safe.saveInSlice : ∀ {sps : List Str} {cur : Option Addr} {v : V}, optAbove w cur → v.above w →
    Safe w (saveInSlice sps cur v) (fun a => w ≤ a) := by
  intro sps
  induction sps with
  | nil => intro cur v _ _; exact Safe.panic
  | cons sp rest ih =>
    intro cur v hc hv
    unfold JT.saveInSlice
    split
    · exact Safe.fail
    · rename_i i hi
      refine Safe.ite (fun _ => Safe.panic) fun _ => ?_
      refine Safe.bind (Safe.readBase hc) fun l hl => ?_
      have hp := pad_above hl (i.toNat + 1 - l.length)
      refine Safe.bind (Safe.growSlice hc hp) fun a ha => ?_
      split
      · refine Safe.bind (Safe.mergeOld hv (getD_above hp _)) fun _ _ => ?_
        exact Safe.bind (Safe.writeCell ha (setIdx_above hp hv _)) fun _ _ => Safe.pure ha
      · refine Safe.bind (Safe.orElseM (ih (nestedSlice_above (getD_above hp _)) hv) (Safe.alloc (by simp [Cell.above]))) fun b hb => ?_
        exact Safe.bind (Safe.writeCell ha (setIdx_above hp (v := .arr b) hb _)) fun _ _ => Safe.pure ha

theorem Safe.sliceAt {m : GMap V} {k : Str} (hm : ∀ kv ∈ m, kv.2.above w) : Safe w (sliceAt m k) (optAbove w) := by
  unfold JT.sliceAt
  split
  · exact Safe.pure (by simp [optAbove])
  · rename_i a ha
    have := hm _ (GMap.get_some_mem ha)
    refine Safe.pure ?_
    intro b hb
    simp at hb
    subst hb
    exact this
  · exact Safe.panic

theorem Safe.setKey {t : Addr} (ht : w ≤ t) {k : Str} {v : V} (hv : v.above w) : Safe w (setKey t k v) (fun _ => True) :=
  Safe.bind (Safe.readMap ht) fun _ hm => Safe.writeCell ht (set_above hm hv)

theorem Safe.saveLeaf {t : Addr} (ht : w ≤ t) {path : Str} {v : V} (hv : v.above w) :
    Safe w (saveLeaf t path v) (fun _ => True) := by
  unfold JT.saveLeaf
  split
  · refine Safe.bind (Safe.readMap ht) fun m hm => Safe.bind (Safe.sliceAt hm) fun cur hc => ?_
    exact Safe.bind (Safe.saveInSlice hc hv) fun a ha => Safe.setKey ht (v := .arr a) ha
  · exact Safe.setKey ht hv

theorem Safe.saveSplits : ∀ {splits : List Str} {strip : Bool} {t : Addr} {v : V}, w ≤ t → v.above w →
    Safe w (saveSplits strip splits t v) (fun _ => True) := by
  intro splits
  induction splits with
  | nil => intro strip t v _ _; simp only [JT.saveSplits]; exact Safe.panic
  | cons s rest ih =>
    intro strip t v ht hv
    unfold JT.saveSplits
    refine Safe.ite (fun _ => ?_) fun _ => ?_
    · split
      · exact Safe.panic
      · exact ih ht hv
    · split
      · exact Safe.saveLeaf ht hv
      · split
        · refine Safe.bind (Safe.readMap ht) fun m hm => Safe.bind (Safe.sliceAt hm) fun cur hc => ?_
          refine Safe.bind (Safe.alloc (by simp [Cell.above])) fun nt hnt => ?_
          refine Safe.bind (Safe.saveInSlice hc (v := .obj nt) hnt) fun a ha => ?_
          exact Safe.bind (Safe.setKey ht (v := .arr a) ha) fun _ _ => ih hnt hv
        · refine Safe.bind (Safe.readMap ht) fun m hm => ?_
          split
          · rename_i nt hnt
            have h := hm _ (GMap.get_some_mem hnt)
            exact Safe.bind (Safe.setKey ht h) fun _ _ => ih h hv
          · refine Safe.bind (Safe.alloc (by simp [Cell.above])) fun nt hnt => ?_
            exact Safe.bind (Safe.setKey ht (v := .obj nt) hnt) fun _ _ => ih hnt hv
          · refine Safe.bind (Safe.alloc (by simp [Cell.above])) fun nt hnt => ?_
            exact Safe.bind (Safe.setKey ht (v := .obj nt) hnt) fun _ _ => ih hnt hv
          · exact Safe.fail

theorem Safe.saveInTree {t : Addr} (ht : w ≤ t) {path : Str} {v : V} (hv : v.above w) :
    Safe w (saveInTree t path v) (fun _ => True) :=
  Safe.ite (fun _ => Safe.pure trivial) fun _ => Safe.saveSplits ht hv

theorem Safe.saveBase {inp : V} (hi : inp.above w) {path : Str} {base : Option Addr} (hb : optAbove w base) {c : Bool} :
    Safe w (saveBase inp path base c) (V.above w) := by
  unfold JT.saveBase
  split
  · rename_i a
    refine Safe.ite (fun _ => Safe.ite (fun _ => Safe.pure (hb _ rfl)) fun _ => ?_) fun _ => Safe.pure hi
    split
    · exact Safe.bind (Safe.saveInTree hi (v := .arr a) (hb _ rfl)) fun _ _ => Safe.pure hi
    · exact Safe.fail
  · exact Safe.pure hi

theorem Safe.runArray {env : Env} {path : Str} {d : Option Addr} {tid : Option Nat} {child : Option TF}
    (hd : optAbove w d) (hc : ∀ c, child = some c → SafeTF w c) : SafeTF w (runArray env path d tid child) := by
  intro inp mod hi
  unfold JT.runArray
  split
  · refine Safe.bind (Safe.baseJSON hd hi) fun r hr => ?_
    split
    rename_i base changed
    refine Safe.bind (Safe.saveBase hi hr) fun inp' hi' => ?_
    split
    · exact Safe.baseResult hr
    · refine Safe.bind (Safe.readBase hr) fun l hl => ?_
      exact Safe.bind (Safe.itemsLoop (hc _ rfl) hi' (by simp [listAbove])) fun out ho => Safe.arrayResult ho
  · refine Safe.bind (Safe.baseXML hd hi) fun base hb => ?_
    split
    · exact Safe.baseResult hb
    · refine Safe.bind (Safe.readBase hb) fun l hl => ?_
      exact Safe.bind (Safe.itemsLoopXML (hc _ rfl) hl (by simp [listAbove])) fun out ho => Safe.arrayResult ho

theorem Safe.childrenLoop {objPath : Str} {inp : V} (hi : inp.above w) {mod : Mod} {nv : Addr} (hn : w ≤ nv) :
    ∀ {kids : List (Str × TF)}, (∀ k ∈ kids, SafeTF w k.2) → Safe w (childrenLoop objPath inp mod nv kids) (fun _ => True) := by
  intro kids
  induction kids with
  | nil => intro _; exact Safe.pure trivial
  | cons k rest ih =>
    intro hk
    obtain ⟨cp, c⟩ := k
    refine Safe.bind (hk (cp, c) (by simp) _ _ hi) fun v hv => ?_
    exact Safe.bind (Safe.saveInTree hn hv) fun _ _ => ih fun k h => hk k (by simp [h])

theorem Safe.objStart {d : Option Addr} (hd : optAbove w d) : Safe w (objStart d) (fun a => w ≤ a) := by
  cases d with
  | none => exact Safe.alloc (by simp [Cell.above])
  | some a => exact Safe.pure (hd a rfl)

theorem Safe.objTarget {d : Option Addr} (hd : optAbove w d) {v : V} (hv : v.above w) :
    Safe w (objTarget d v) (fun a => w ≤ a) := by
  unfold JT.objTarget
  split
  · exact Safe.objStart hd
  · exact Safe.pure hv
  · exact Safe.fail

theorem Safe.objFinish {env : Env} {path : Str} {kids : List (Str × TF)} (hk : ∀ k ∈ kids, SafeTF w k.2) {inp : V}
    (hi : inp.above w) {mod : Mod} {nv : Addr} (hn : w ≤ nv) : Safe w (objFinish env path kids inp mod nv) (V.above w) := by
  refine Safe.bind Safe.nextTick fun n _ => ?_
  refine Safe.bind (Safe.childrenLoop hi hn ?_) fun _ _ => ?_
  · intro k h
    exact hk k ((env.sched.isPerm n _ kids).mem_iff.1 h)
  · exact Safe.bind (Safe.readMap hn) fun m _ => Safe.ite (fun _ => Safe.pure trivial) fun _ => Safe.pure hn

theorem Safe.runObject {env : Env} {path : Str} {d : Option Addr} {tid : Option Nat} {kids : List (Str × TF)}
    (hd : optAbove w d) (hk : ∀ k ∈ kids, SafeTF w k.2) : SafeTF w (runObject env path d tid kids) := by
  intro inp mod hi
  unfold JT.runObject
  split
  · refine Safe.bind (Safe.optInstrs hi) fun v hv => ?_
    exact Safe.bind (Safe.objTarget hd hv) fun nv hn => Safe.objFinish hk hi hn
  · split
    · exact Safe.bind (Safe.objStart hd) fun nv hn => Safe.objFinish hk hi hn
    · refine Safe.bind (Safe.instrsRun hi) fun v hv => ?_
      split
      · split
        · exact Safe.pure trivial
        · exact Safe.pure (hd _ rfl)
      · exact Safe.pure trivial
      · exact Safe.bind (Safe.objStart hd) fun nv hn => Safe.objFinish hk (show V.above w (.sc _) from trivial) hn
      · exact Safe.bind (Safe.objStart hd) fun nv hn => Safe.objFinish hk hi hn
      · exact Safe.bind (Safe.objStart hd) fun nv hn => Safe.objFinish hk (show V.above w (.sc _) from trivial) hn
      · exact Safe.fail

mutual
/-- All defaults are scalars (`nil` included): the transformer owns no mutable data. -/
def T.scalarDefaults : T → Prop
  | .scalar _ _ d _ => ∃ s, d = .sc s
  | .array _ d _ none => d = none
  | .array _ d _ (some c) => d = none ∧ c.scalarDefaults
  | .object _ d _ cs => d = none ∧ T.scalarDefaultsKids cs
def T.scalarDefaultsKids : List (Str × T) → Prop
  | [] => True
  | (_, t) :: r => t.scalarDefaults ∧ T.scalarDefaultsKids r
end

mutual
theorem Safe.run (env : Env) : ∀ (t : T), t.scalarDefaults → SafeTF w (t.run env)
  | .scalar p ty d tid => fun h => by
    simp only [T.run]
    obtain ⟨s, rfl⟩ := h
    exact Safe.runScalar trivial
  | .array p d tid none => fun h => by
    simp only [T.run]
    simp only [T.scalarDefaults] at h
    subst h
    exact Safe.runArray (by simp [optAbove]) (by simp)
  | .array p d tid (some c) => fun h => by
    simp only [T.run]
    simp only [T.scalarDefaults] at h
    obtain ⟨rfl, hc⟩ := h
    exact Safe.runArray (by simp [optAbove]) (by
      intro c' hc'
      simp at hc'
      subst hc'
      exact Safe.run env c hc)
  | .object p d tid cs => fun h => by
    simp only [T.run]
    simp only [T.scalarDefaults] at h
    obtain ⟨rfl, hc⟩ := h
    exact Safe.runObject (by simp [optAbove]) (Safe.runKids env cs hc)
theorem Safe.runKids (env : Env) : ∀ (cs : List (Str × T)), T.scalarDefaultsKids cs → ∀ k ∈ T.runKids env cs, SafeTF w k.2
  | [] => fun _ => by simp [T.runKids]
  | (_, t) :: r => fun h => by
    simp only [T.scalarDefaultsKids] at h
    intro k hk
    simp only [T.runKids, List.mem_cons] at hk
    rcases hk with rfl | hk
    · exact Safe.run env t h.1
    · exact Safe.runKids env r h.2 k hk
end

mutual
theorem loadP_above : ∀ (p : P) (h : Heap), w ≤ h.length → HeapOk w h →
    (loadP p h).1.above w ∧ HeapOk w (loadP p h).2 ∧ h.length ≤ (loadP p h).2.length ∧ (∀ a < h.length, (loadP p h).2[a]? = h[a]?)
  | .sc s, h => fun _ hh => ⟨trivial, hh, Nat.le_refl _, fun _ _ => rfl⟩
  | .arr l, h => fun hw hh => by
    obtain ⟨h1, h2, h3, h4⟩ := loadList_above l h hw hh
    simp only [loadP]
    refine ⟨?_, ?_, ?_, ?_⟩
    · simp [V.above]; omega
    · intro a c ha hc
      rw [List.getElem?_append] at hc
      split at hc
      · exact h2 a c ha hc
      · rw [List.getElem?_singleton] at hc
        split at hc
        · simp at hc; subst hc; exact h1
        · simp at hc
    · simp; omega
    · intro a ha
      rw [List.getElem?_append_left (by omega)]
      exact h4 a ha
  | .obj m, h => fun hw hh => by
    obtain ⟨h1, h2, h3, h4⟩ := loadFields_above m h hw hh
    simp only [loadP]
    refine ⟨?_, ?_, ?_, ?_⟩
    · simp [V.above]; omega
    · intro a c ha hc
      rw [List.getElem?_append] at hc
      split at hc
      · exact h2 a c ha hc
      · rw [List.getElem?_singleton] at hc
        split at hc
        · simp at hc; subst hc
          have : ∀ (l m : GMap V), (∀ kv ∈ l, kv.2.above w) → (∀ kv ∈ m, kv.2.above w) →
              ∀ kv ∈ l.foldl (fun m kv => GMap.set kv.1 kv.2 m) m, kv.2.above w := by
            intro l
            induction l with
            | nil => intro m _ hm; exact hm
            | cons x xs ih =>
              intro m hl hm
              exact ih _ (fun kv h => hl kv (by simp [h])) (set_above hm (hl x (by simp)))
          exact this _ [] h1 (by simp)
        · simp at hc
    · simp; omega
    · intro a ha
      rw [List.getElem?_append_left (by omega)]
      exact h4 a ha
theorem loadList_above : ∀ (l : List P) (h : Heap), w ≤ h.length → HeapOk w h →
    listAbove w (loadList l h).1 ∧ HeapOk w (loadList l h).2 ∧ h.length ≤ (loadList l h).2.length ∧ (∀ a < h.length, (loadList l h).2[a]? = h[a]?)
  | [], h => fun _ hh => ⟨by simp [loadList, listAbove], hh, Nat.le_refl _, fun _ _ => rfl⟩
  | p :: ps, h => fun hw hh => by
    obtain ⟨h1, h2, h3, h4⟩ := loadP_above p h hw hh
    obtain ⟨g1, g2, g3, g4⟩ := loadList_above ps (loadP p h).2 (by omega) h2
    simp only [loadList]
    refine ⟨?_, g2, by omega, fun a ha => (g4 a (by omega)).trans (h4 a ha)⟩
    intro v hv
    simp at hv
    rcases hv with rfl | hv
    · exact h1
    · exact g1 v hv
theorem loadFields_above : ∀ (l : List (Str × P)) (h : Heap), w ≤ h.length → HeapOk w h →
    (∀ kv ∈ (loadFields l h).1, kv.2.above w) ∧ HeapOk w (loadFields l h).2 ∧ h.length ≤ (loadFields l h).2.length ∧ (∀ a < h.length, (loadFields l h).2[a]? = h[a]?)
  | [], h => fun _ hh => ⟨by simp [loadFields], hh, Nat.le_refl _, fun _ _ => rfl⟩
  | (k, p) :: ps, h => fun hw hh => by
    obtain ⟨h1, h2, h3, h4⟩ := loadP_above p h hw hh
    obtain ⟨g1, g2, g3, g4⟩ := loadFields_above ps (loadP p h).2 (by omega) h2
    simp only [loadFields]
    refine ⟨?_, g2, by omega, fun a ha => (g4 a (by omega)).trans (h4 a ha)⟩
    intro v hv
    simp at hv
    rcases hv with rfl | hv
    · exact h1
    · exact g1 v hv
end

theorem Safe.load (p : P) : Safe w (load p) (V.above w) := by
  intro s hs
  obtain ⟨h1, h2, h3, h4⟩ := loadP_above (w := w) p s.heap hs.len hs.above
  refine ⟨⟨?_, h2, hs.noLast⟩, ⟨?_, rfl, rfl, rfl, [], rfl, by simp⟩, ?_⟩
  · have := hs.len; simp only [JT.load]; omega
  · intro a ha
    have := hs.len
    exact h4 a (by omega)
  · intro v hv
    simp [JT.load] at hv
    rw [← hv]
    exact h1

theorem Safe.readInput {env : Env} (raw : Str) : Safe w (readInput env raw) (V.above w) := by
  unfold JT.readInput
  split
  · split
    · exact Safe.fail
    · exact Safe.load _
  · split
    · exact Safe.fail
    · exact Safe.pure trivial

theorem Safe.baseTransform {env : Env} {t : T} (ht : t.scalarDefaults) (raw : Str) :
    Safe w (baseTransform env t raw) (fun _ => True) := by
  refine Safe.bind (Safe.readInput raw) fun inp hi => Safe.bind (Safe.run env t ht _ _ hi) fun v _ =>
    Safe.bind Safe.getHeap fun h _ => ?_
  split
  · exact Safe.fail
  · split
    · exact Safe.fail
    · exact Safe.pure trivial

end JT
