import Verif.Proofs.NoPanic
/- Executions that leave a set of cells alone: they neither write them nor make others refer to them. -/
namespace JT.Frame

variable {α β : Type} {R : Addr → Prop}

/-- A reference to an existing cell. -/
def valid (n : Nat) : V → Prop
  | .sc _ => True
  | .arr a => a < n
  | .obj a => a < n

/-- A reference to an existing cell outside of `R`. -/
def vok (R : Addr → Prop) (n : Nat) : V → Prop
  | .sc _ => True
  | .arr a => a < n ∧ ¬ R a
  | .obj a => a < n ∧ ¬ R a

def cellAll (G : V → Prop) : Cell → Prop
  | .map m => ∀ kv ∈ m, G kv.2
  | .slice l => ∀ v ∈ l, G v

theorem valid_mono {n n' : Nat} (h : n ≤ n') {v : V} (hv : valid n v) : valid n' v := by
  cases v with
  | sc _ => trivial
  | arr a => exact Nat.lt_of_lt_of_le hv h
  | obj a => exact Nat.lt_of_lt_of_le hv h

theorem vok.valid {n : Nat} {v : V} (hv : vok R n v) : valid n v := by
  cases v <;> simp only [vok, Frame.valid] at * <;> exact hv.1

theorem vok_mono {n n' : Nat} (h : n ≤ n') {v : V} (hv : vok R n v) : vok R n' v := by
  cases v with
  | sc _ => trivial
  | arr a => exact ⟨Nat.lt_of_lt_of_le hv.1 h, hv.2⟩
  | obj a => exact ⟨Nat.lt_of_lt_of_le hv.1 h, hv.2⟩

theorem cellAll_mono {G G' : V → Prop} (h : ∀ v, G v → G' v) {c : Cell} (hc : cellAll G c) : cellAll G' c := by
  cases c with
  | map m => exact fun kv hk => h _ (hc kv hk)
  | slice l => exact fun v hv => h _ (hc v hv)

/-- No dangling references; cells outside of `R` do not refer to cells of `R`. -/
structure Inv (R : Addr → Prop) (s : St) : Prop where
  below : ∀ a, R a → a < s.heap.length
  valid : ∀ (a : Nat) (c : Cell), s.heap[a]? = some c → cellAll (valid s.heap.length) c
  cell : ∀ (a : Nat) (c : Cell), ¬ R a → s.heap[a]? = some c → cellAll (vok R s.heap.length) c

/-- The second state extends the first; the cells of `R` are untouched. -/
structure Ext (R : Addr → Prop) (s s' : St) : Prop where
  len : s.heap.length ≤ s'.heap.length
  keep : ∀ a, R a → s'.heap[a]? = s.heap[a]?
  shared : s'.shared = s.shared

theorem Ext.refl (s : St) : Ext R s s := ⟨Nat.le_refl _, fun _ _ => rfl, rfl⟩
theorem Ext.trans {s t u : St} (h1 : Ext R s t) (h2 : Ext R t u) : Ext R s u :=
  ⟨Nat.le_trans h1.len h2.len, fun a ha => (h2.keep a ha).trans (h1.keep a ha), h2.shared.trans h1.shared⟩
theorem Ext.sub {R' : Addr → Prop} {s t : St} (h : Ext R' s t) (hr : ∀ a, R a → R' a) : Ext R s t :=
  ⟨h.len, fun a ha => h.keep a (hr a ha), h.shared⟩

theorem Inv.closed {s : St} (h : Inv R s) : Closed (vok R s.heap.length) s.heap := by
  intro v hv
  cases v with
  | sc _ => trivial
  | arr a =>
    simp only [Heap.shape]
    split
    · rename_i l hl; exact h.cell a _ hv.2 hl
    · simp [ShapeAll]
  | obj a =>
    simp only [Heap.shape]
    split
    · rename_i l hl; exact h.cell a _ hv.2 hl
    · simp [ShapeAll]

/-- From states with at least `n` cells, `x` leaves `R` alone and its results satisfy `Q`. -/
def Fr (R : Addr → Prop) (n : Nat) (x : M α) (Q : Nat → α → Prop) : Prop :=
  ∀ s, n ≤ s.heap.length → Inv R s → Inv R (x s).2 ∧ Ext R s (x s).2 ∧ ∀ a, (x s).1 = .ok a → Q (x s).2.heap.length a

variable {n : Nat}

theorem Fr.pure {a : α} {Q : Nat → α → Prop} (h : ∀ n', n ≤ n' → Q n' a) : Fr R n (Pure.pure a : M α) Q := by
  intro s hn hs
  refine ⟨hs, Ext.refl _, ?_⟩
  intro b hb
  rw [M.pure_apply] at hb
  simp only [Res.ok.injEq] at hb
  subst hb
  exact h _ hn

theorem Fr.bind {x : M α} {f : α → M β} {Q : Nat → α → Prop} {Q' : Nat → β → Prop} (hx : Fr R n x Q)
    (hf : ∀ a n', n ≤ n' → Q n' a → Fr R n' (f a) Q') : Fr R n (x >>= f) Q' := by
  intro s hn hs
  obtain ⟨h1, h2, h3⟩ := hx s hn hs
  rw [M.bind_apply]
  rcases hxs : x s with ⟨r, s'⟩
  rw [hxs] at h1 h2 h3
  cases r with
  | ok a =>
    obtain ⟨h4, h5, h6⟩ := hf a _ (Nat.le_trans hn h2.len) (h3 a rfl) s' (Nat.le_refl _) h1
    exact ⟨h4, h2.trans h5, h6⟩
  | err => exact ⟨h1, h2, by simp⟩
  | panic => exact ⟨h1, h2, by simp⟩

theorem Fr.fail {Q : Nat → α → Prop} : Fr R n (M.fail : M α) Q := fun _ _ hs => ⟨hs, Ext.refl _, by simp [M.fail]⟩
theorem Fr.panic {Q : Nat → α → Prop} : Fr R n (M.panic : M α) Q := fun _ _ hs => ⟨hs, Ext.refl _, by simp [M.panic]⟩
theorem Fr.lift {r : Res α} {Q : Nat → α → Prop} (h : ∀ a n', n ≤ n' → r = .ok a → Q n' a) : Fr R n (M.lift r) Q :=
  fun _ hn hs => ⟨hs, Ext.refl _, fun a ha => h a _ hn ha⟩

theorem Fr.ite {c : Prop} [Decidable c] {x y : M α} {Q : Nat → α → Prop} (hx : c → Fr R n x Q) (hy : ¬c → Fr R n y Q) :
    Fr R n (if c then x else y) Q := by
  split
  · exact hx ‹_›
  · exact hy ‹_›

theorem Fr.getHeap : Fr R n getHeap (fun n' h => h.length = n' ∧ Closed (vok R n') h) := fun _ _ hs => ⟨hs, Ext.refl _, by
  intro a ha
  simp only [JT.getHeap, Res.ok.injEq] at ha
  subst ha
  exact ⟨rfl, hs.closed⟩⟩

theorem Fr.nextTick : Fr R n nextTick (fun _ _ => True) := fun _ _ hs =>
  ⟨⟨hs.below, hs.valid, hs.cell⟩, ⟨Nat.le_refl _, fun _ _ => rfl, rfl⟩, fun _ _ => trivial⟩

theorem Fr.readInstrs {i : Nat} : Fr R n (readInstrs i) (fun _ _ => True) := by
  intro s _ hs
  unfold JT.readInstrs
  split
  · exact ⟨hs, Ext.refl _, fun _ _ => trivial⟩
  · exact ⟨hs, Ext.refl _, by simp⟩

theorem Fr.writeInstrs {i : Nat} {t : Instrs} : Fr R n (writeInstrs i t) (fun _ _ => True) := fun _ _ hs =>
  ⟨⟨hs.below, hs.valid, hs.cell⟩, ⟨Nat.le_refl _, fun _ _ => rfl, rfl⟩, fun _ _ => trivial⟩

theorem inv_alloc {s : St} (hs : Inv R s) {c : Cell} (hc : cellAll (vok R s.heap.length) c) : Inv R (alloc c s).2 := by
  have hl : (alloc c s).2.heap.length = s.heap.length + 1 := by simp [alloc]
  refine ⟨?_, ?_, ?_⟩
  · intro a ha; rw [hl]; exact Nat.lt_succ_of_lt (hs.below a ha)
  · intro a c' hc'
    rw [hl]
    simp only [alloc] at hc'
    rw [List.getElem?_append] at hc'
    split at hc'
    · exact cellAll_mono (fun v => valid_mono (by omega)) (hs.valid a c' hc')
    · rw [List.getElem?_singleton] at hc'
      split at hc'
      · simp only [Option.some.injEq] at hc'; subst hc'; exact cellAll_mono (fun v hv => valid_mono (by omega) hv.valid) hc
      · simp at hc'
  · intro a c' ha hc'
    rw [hl]
    simp only [alloc] at hc'
    rw [List.getElem?_append] at hc'
    split at hc'
    · exact cellAll_mono (fun v => vok_mono (by omega)) (hs.cell a c' ha hc')
    · rw [List.getElem?_singleton] at hc'
      split at hc'
      · simp only [Option.some.injEq] at hc'; subst hc'; exact cellAll_mono (fun v => vok_mono (by omega)) hc
      · simp at hc'

theorem alloc_keep {s : St} {c : Cell} {a : Nat} (ha : a < s.heap.length) : (alloc c s).2.heap[a]? = s.heap[a]? := by
  simp only [alloc]
  rw [List.getElem?_append_left ha]

theorem Fr.alloc {c : Cell} (hc : ∀ n', n ≤ n' → cellAll (vok R n') c) : Fr R n (alloc c) (fun n' a => a < n' ∧ ¬ R a) := by
  intro s hn hs
  refine ⟨inv_alloc hs (hc _ hn), ⟨by simp [JT.alloc], fun a ha => alloc_keep (hs.below a ha), rfl⟩, ?_⟩
  intro a ha
  simp only [JT.alloc, Res.ok.injEq] at ha
  subst ha
  exact ⟨by simp [JT.alloc], fun h => Nat.lt_irrefl _ (hs.below _ h)⟩

theorem Fr.writeCell {a : Addr} {c : Cell} (ha : ¬ R a) (hc : ∀ n', n ≤ n' → cellAll (vok R n') c) : Fr R n (writeCell a c) (fun _ _ => True) := by
  intro s hn hs
  have hl : (JT.writeCell a c s).2.heap.length = s.heap.length := by simp [JT.writeCell]
  refine ⟨⟨?_, ?_, ?_⟩, ⟨by rw [hl]; exact Nat.le_refl _, ?_, rfl⟩, fun _ _ => trivial⟩
  · intro b hb; rw [hl]; exact hs.below b hb
  · intro b c' hc'
    rw [hl]
    simp only [JT.writeCell] at hc'
    rw [List.getElem?_set] at hc'
    split at hc'
    · split at hc'
      · simp only [Option.some.injEq] at hc'; subst hc'; exact cellAll_mono (fun v hv => hv.valid) (hc _ hn)
      · simp at hc'
    · exact hs.valid b c' hc'
  · intro b c' hb hc'
    rw [hl]
    simp only [JT.writeCell] at hc'
    rw [List.getElem?_set] at hc'
    split at hc'
    · split at hc'
      · simp only [Option.some.injEq] at hc'; subst hc'; exact hc _ hn
      · simp at hc'
    · exact hs.cell b c' hb hc'
  · intro b hb
    simp only [JT.writeCell]
    rw [List.getElem?_set_ne (by rintro rfl; exact ha hb)]

theorem Fr.readMap {a : Addr} (ha : ¬ R a) : Fr R n (readMap a) (fun n' m => ∀ kv ∈ m, vok R n' kv.2) := by
  intro s _ hs
  unfold JT.readMap
  split
  · rename_i m hm
    refine ⟨hs, Ext.refl _, ?_⟩
    intro m' hm'
    simp only [Res.ok.injEq] at hm'
    subst hm'
    exact hs.cell a _ ha hm
  · exact ⟨hs, Ext.refl _, by simp⟩

theorem Fr.readSlice {a : Addr} (ha : ¬ R a) : Fr R n (readSlice a) (fun n' l => ∀ v ∈ l, vok R n' v) := by
  intro s _ hs
  unfold JT.readSlice
  split
  · rename_i m hm
    refine ⟨hs, Ext.refl _, ?_⟩
    intro m' hm'
    simp only [Res.ok.injEq] at hm'
    subst hm'
    exact hs.cell a _ ha hm
  · exact ⟨hs, Ext.refl _, by simp⟩

theorem Fr.orElseM {x y : M α} {Q : Nat → α → Prop} (hx : Fr R n x Q) (hy : Fr R n y Q) : Fr R n (orElseM x y) Q := by
  intro s hn hs
  obtain ⟨h1, h2, h3⟩ := hx s hn hs
  unfold JT.orElseM
  rcases hxs : x s with ⟨r, s'⟩
  rw [hxs] at h1 h2 h3
  cases r with
  | ok a => exact ⟨h1, h2, h3⟩
  | err =>
    obtain ⟨h4, h5, h6⟩ := hy s' (Nat.le_trans hn h2.len) h1
    exact ⟨h4, h2.trans h5, h6⟩
  | panic => exact ⟨h1, h2, h3⟩

theorem outAll_mono {n n' : Nat} (h : n ≤ n') {o : Out V} (ho : OutAll (vok R n) o) : OutAll (vok R n') o := by
  cases o with
  | val v => exact vok_mono h ho
  | sc s => trivial
  | arr l => exact fun v hv => vok_mono h (ho v hv)
  | strs l => trivial

theorem Fr.materialize {o : Out V} (ho : OutAll (vok R n) o) : Fr R n (materialize o) (vok R) := by
  cases o with
  | val v => exact Fr.pure fun n' hn => vok_mono hn ho
  | sc s => exact Fr.pure fun _ _ => trivial
  | arr l => exact Fr.bind (Fr.alloc fun n' hn v hv => vok_mono hn (ho v hv)) fun a n' hn ha => Fr.pure fun n2 h2 => vok_mono (v := .arr a) h2 ha
  | strs l =>
    refine Fr.bind (Fr.alloc fun n' hn v hv => ?_) fun a n' hn ha => Fr.pure fun n2 h2 => vok_mono (v := .arr a) h2 ha
    simp only [List.mem_map] at hv
    obtain ⟨s, _, rfl⟩ := hv
    trivial

/-! ### The engine -/

theorem Fr.runOps {env : Env} : ∀ {ops : List Op} {n : Nat} {v : V}, vok R n v → Fr R n (runOps env ops v) (vok R) := by
  intro ops
  induction ops with
  | nil => intro n v hv; exact Fr.pure fun n' hn => vok_mono hn hv
  | cons op ops ih =>
    intro n v hv
    refine Fr.bind Fr.nextTick fun k n1 h1 _ => Fr.bind Fr.getHeap fun h n2 h2 hh => ?_
    refine Fr.bind (Fr.lift (Q := fun n' o => OutAll (vok R n') o) fun o n' hn' ho =>
      outAll_mono hn' (runOp_all hh.2 (vok_mono (by omega) hv) ho)) fun o n3 h3 ho => ?_
    exact Fr.bind (Fr.materialize ho) fun v' n4 _ hv' => ih hv'

theorem Fr.convertV {env : Env} {ty : Str} {v : V} (hv : vok R n v) : Fr R n (convertV env ty v) (fun n' c => OutAll (vok R n') c.val) :=
  Fr.bind Fr.getHeap fun _ _ h1 hh => Fr.lift fun _ _ h2 hc => outAll_mono h2 (convert_all hh.2 (vok_mono h1 hv) hc)

theorem Fr.jpGetV {env : Env} {path : Str} {v : V} (hv : vok R n v) : Fr R n (jpGetV env path v) (fun n' r => ∀ u, r = some u → vok R n' u) := by
  refine Fr.bind Fr.getHeap fun h n1 h1 hh => ?_
  split
  · exact Fr.pure (by simp)
  · rename_i o ho
    refine Fr.bind (Fr.materialize (jpGet_all hh.2 (vok_mono h1 hv) ho)) fun r n2 h2 hr => Fr.pure fun n3 h3 u hu => ?_
    simp only [Option.some.injEq] at hu
    subst hu
    exact vok_mono h3 hr

theorem Fr.convOrRaw {c : Conv V} {raw : V} (hc : OutAll (vok R n) c.val) (hr : vok R n raw) : Fr R n (convOrRaw c raw) (vok R) :=
  Fr.ite (fun _ => Fr.pure fun _ h => vok_mono h hr) fun _ => Fr.materialize hc

theorem Fr.instrJSON {env : Env} {inp : V} {ty : Str} {mod : Mod} {ti : Instr} (hi : vok R n inp) :
    Fr R n (instrJSON env inp ty mod ti) (vok R) := by
  refine Fr.bind (Fr.jpGetV hi) fun r n1 h1 hr => ?_
  split
  · exact Fr.pure fun _ _ => trivial
  · rename_i raw
    refine Fr.ite (fun _ => Fr.pure fun _ _ => trivial) fun _ => ?_
    refine Fr.bind (Fr.convertV (hr _ rfl)) fun c n2 h2 hc => ?_
    refine Fr.bind (Fr.convOrRaw hc (vok_mono h2 (hr _ rfl))) fun v n3 h3 hv => ?_
    exact Fr.ite (fun _ => Fr.pure fun _ _ => trivial) fun _ => Fr.runOps hv

theorem Fr.xfind {env : Env} {k : NodeId} {p : Str} : Fr R n (xfind env k p) (fun _ _ => True) := by
  unfold JT.xfind
  split
  · exact Fr.pure fun _ _ => trivial
  · exact Fr.panic

theorem Fr.xmlValue {env : Env} {ty : Str} {f : NodeId} {a : List NodeId} {x y : Nat} :
    Fr R n (xmlValue env ty f a x y) (vok R) := by
  unfold JT.xmlValue
  refine Fr.ite (fun _ => ?_) fun _ => Fr.ite (fun _ => Fr.pure fun _ _ => trivial) fun _ => Fr.ite (fun _ => Fr.pure fun _ _ => trivial) fun _ => ?_
  · exact Fr.bind (Fr.convertV trivial) fun c n' hn hc => Fr.materialize hc
  · exact Fr.bind (Fr.convertV trivial) fun c n' hn hc => Fr.ite (fun _ => Fr.pure fun _ _ => trivial) fun _ => Fr.materialize hc

theorem Fr.instrXML {env : Env} {inp : V} {ty : Str} {mod : Mod} {ti : Instr} : Fr R n (instrXML env inp ty mod ti) (vok R) := by
  unfold JT.instrXML
  split
  · refine Fr.bind Fr.xfind fun found _ _ _ => ?_
    split
    · exact Fr.pure fun _ _ => trivial
    · refine Fr.bind Fr.xfind fun wc _ _ _ => Fr.bind Fr.xfind fun woc _ _ _ => ?_
      exact Fr.bind Fr.xmlValue fun v n' hn hv => Fr.ite (fun _ => Fr.pure fun _ _ => trivial) fun _ => Fr.runOps hv
  · exact Fr.fail

theorem Fr.instrRun {env : Env} {inp : V} {ty : Str} {mod : Mod} {ti : Instr} (hi : vok R n inp) : Fr R n (instrRun env inp ty mod ti) (vok R) := by
  unfold JT.instrRun
  split
  · exact Fr.instrXML
  · exact Fr.instrJSON hi

theorem Fr.firstLoop {run : Instr → M V} (hr : ∀ ti n', n ≤ n' → Fr R n' (run ti) (vok R)) :
    ∀ {l : List Instr} {n' : Nat}, n ≤ n' → Fr R n' (firstLoop run l) (vok R) := by
  intro l
  induction l with
  | nil => intro n' _; exact Fr.pure fun _ _ => trivial
  | cons ti rest ih =>
    intro n' hn
    exact Fr.bind (hr ti n' hn) fun v n1 h1 hv => Fr.ite (fun _ => ih (by omega)) fun _ => Fr.pure fun _ h => vok_mono h hv

theorem Fr.concatLoop {run : Instr → M V} {d : Str} (hr : ∀ ti n', n ≤ n' → Fr R n' (run ti) (vok R)) :
    ∀ {l : List Instr} {n' : Nat} {v : V}, n ≤ n' → vok R n' v → Fr R n' (concatLoop run d l v) (vok R) := by
  intro l
  induction l with
  | nil => intro n' v _ hv; exact Fr.pure fun _ h => vok_mono h hv
  | cons ti rest ih =>
    intro n' v hn hv
    refine Fr.bind (hr ti n' hn) fun u n1 h1 hu => Fr.bind Fr.getHeap fun h n2 h2 _ => ?_
    refine Fr.bind (Fr.lift (Q := fun n' o => OutAll (vok R n') o) fun o k hk ho =>
      outAll_mono hk (concat_all (vok_mono (by omega) hv) (vok_mono h2 hu) ho)) fun o n3 h3 ho => ?_
    exact Fr.bind (Fr.materialize ho) fun r n4 h4 hr => ih (by omega) hr

theorem Fr.instrsRun {env : Env} {inp : V} {ty : Str} {mod : Mod} {tid : Nat} (hi : vok R n inp) : Fr R n (instrsRun env inp ty mod tid) (vok R) := by
  refine Fr.bind Fr.readInstrs fun tis n1 h1 _ => ?_
  split
  · exact Fr.firstLoop (fun ti n' hn => Fr.instrRun (vok_mono (by omega) hi)) h1
  · exact Fr.bind Fr.writeInstrs fun _ n2 h2 _ => Fr.firstLoop (fun ti n' hn => Fr.instrRun (vok_mono hn hi)) (Nat.le_trans h1 h2)
  · exact Fr.concatLoop (fun ti n' hn => Fr.instrRun (vok_mono hn hi)) h1 trivial

theorem Fr.optInstrs {env : Env} {inp : V} {ty : Str} {mod : Mod} {tid : Option Nat} (hi : vok R n inp) :
    Fr R n (optInstrs env inp ty mod tid) (vok R) := by
  cases tid with
  | none => exact Fr.pure fun _ _ => trivial
  | some t => exact Fr.instrsRun hi

theorem Fr.samePath {env : Env} {inp : V} {ty path : Str} (hi : vok R n inp) : Fr R n (samePath env ty path inp) (vok R) := by
  refine Fr.bind (Fr.jpGetV hi) fun r n1 h1 hr => ?_
  split
  · exact Fr.pure fun _ _ => trivial
  · refine Fr.bind (Fr.convertV (hr _ rfl)) fun c n2 h2 hc => Fr.bind (Fr.materialize hc) fun v n3 h3 hv => ?_
    exact Fr.ite (fun _ => Fr.pure fun _ _ => trivial) fun _ => Fr.ite (fun _ => Fr.fail) fun _ => Fr.pure fun _ h => vok_mono h hv

theorem Fr.runScalar {env : Env} {path ty : Str} {d : V} {tid : Option Nat} {inp : V} {mod : Mod} (hd : vok R n d) (hi : vok R n inp) :
    Fr R n (runScalar env path ty d tid inp mod) (vok R) := by
  refine Fr.bind (Fr.optInstrs hi) fun v n1 h1 hv => ?_
  refine Fr.ite (fun _ => Fr.pure fun _ h => vok_mono h hv) fun _ => ?_
  split
  · exact Fr.bind (Fr.samePath (vok_mono h1 hi)) fun v n2 h2 hv => Fr.ite (fun _ => Fr.pure fun _ h => vok_mono h hv) fun _ =>
      Fr.pure fun _ h => vok_mono (by omega) hd
  · exact Fr.pure fun _ h => vok_mono (by omega) hd

/-- A possible slice, outside of `R`. -/
def optOk (R : Addr → Prop) (n : Nat) (o : Option Addr) : Prop := ∀ a, o = some a → a < n ∧ ¬ R a

theorem optOk_mono {n n' : Nat} (h : n ≤ n') {o : Option Addr} (ho : optOk R n o) : optOk R n' o :=
  fun a ha => ⟨Nat.lt_of_lt_of_le (ho a ha).1 h, (ho a ha).2⟩

theorem optOk_some {n : Nat} {a : Addr} (h : a < n ∧ ¬ R a) : optOk R n (some a) := by
  intro b hb
  simp only [Option.some.injEq] at hb
  subst hb
  exact h

theorem Fr.asSlice {v : V} (hv : vok R n v) : Fr R n (asSlice v) (fun n' a => a < n' ∧ ¬ R a) := by
  unfold JT.asSlice
  split
  · rename_i a
    exact Fr.pure fun _ h => vok_mono (v := .arr a) h hv
  · refine Fr.alloc fun n' hn u hu => ?_
    simp only [List.mem_singleton] at hu
    subst hu
    exact vok_mono hn hv

theorem Fr.baseJSON {env : Env} {d : Option Addr} {tid : Option Nat} {inp : V} {path : Str} {mod : Mod}
    (hd : optOk R n d) (hi : vok R n inp) : Fr R n (baseJSON env d tid inp path mod) (fun n' r => optOk R n' r.1) := by
  refine Fr.bind (Fr.optInstrs hi) fun v n1 h1 hv => ?_
  refine Fr.ite (fun _ => ?_) fun _ => ?_
  · exact Fr.bind (Fr.asSlice hv) fun a n2 h2 ha => Fr.pure fun _ h => optOk_mono h (optOk_some ha)
  · refine Fr.bind (Fr.jpGetV (vok_mono h1 hi)) fun r n2 h2 hr => ?_
    split
    · refine Fr.ite (fun _ => ?_) fun _ => Fr.pure fun _ h => optOk_mono (by omega) hd
      exact Fr.bind (Fr.asSlice (hr _ rfl)) fun a n3 h3 ha => Fr.pure fun _ h => optOk_mono h (optOk_some ha)
    · exact Fr.pure fun _ h => optOk_mono (by omega) hd

theorem Fr.baseXML {env : Env} {d : Option Addr} {tid : Option Nat} {inp : V} {mod : Mod}
    (hd : optOk R n d) (hi : vok R n inp) : Fr R n (baseXML env d tid inp mod) (optOk R) := by
  refine Fr.bind (Fr.optInstrs hi) fun v n1 h1 hv => ?_
  split
  · refine Fr.bind (Fr.alloc fun n' hn u hu => ?_) fun a n2 h2 ha => Fr.pure fun _ h => optOk_mono h (optOk_some ha)
    simp only [List.mem_map] at hu
    obtain ⟨k, _, rfl⟩ := hu
    trivial
  · refine Fr.ite (fun _ => ?_) fun _ => Fr.pure fun _ h => optOk_mono (by omega) hd
    exact Fr.bind (Fr.asSlice hv) fun a n2 h2 ha => Fr.pure fun _ h => optOk_mono h (optOk_some ha)

theorem Fr.readBase {o : Option Addr} (ho : optOk R n o) : Fr R n (readBase o) (fun n' l => ∀ v ∈ l, vok R n' v) := by
  cases o with
  | none => exact Fr.pure (by simp)
  | some a => exact Fr.readSlice (ho a rfl).2

/-! ### Saving in the input -/

theorem set_ok {n : Nat} {m : GMap V} {k : Str} {v : V} (hm : ∀ kv ∈ m, vok R n kv.2) (hv : vok R n v) :
    ∀ kv ∈ GMap.set k v m, vok R n kv.2 := by
  intro kv hkv
  rcases GMap.mem_set hkv with rfl | h
  · exact hv
  · exact hm _ h

theorem fill_ok {n : Nat} : ∀ {old m : GMap V}, (∀ kv ∈ m, vok R n kv.2) → (∀ kv ∈ old, vok R n kv.2) →
    ∀ kv ∈ GMap.fill m old, vok R n kv.2 := by
  intro old
  induction old with
  | nil => intro m hm _; exact hm
  | cons x xs ih =>
    intro m hm ho
    simp only [GMap.fill, List.foldl_cons]
    split
    · exact ih hm fun kv h => ho kv (by simp [h])
    · exact ih (set_ok hm (ho x (by simp))) fun kv h => ho kv (by simp [h])

theorem Fr.mergeOld {v old : V} (hv : vok R n v) (ho : vok R n old) : Fr R n (mergeOld v old) (fun _ _ => True) := by
  unfold JT.mergeOld
  split
  · refine Fr.bind (Fr.readMap hv.2) fun nm n1 h1 hn => Fr.bind (Fr.readMap ho.2) fun om n2 h2 hom => ?_
    exact Fr.writeCell hv.2 fun n' hn' => fill_ok (fun kv h => vok_mono (by omega) (hn kv h)) (fun kv h => vok_mono hn' (hom kv h))
  · exact Fr.pure fun _ _ => trivial

theorem pad_ok {n : Nat} {l : List V} (hl : ∀ v ∈ l, vok R n v) (k : Nat) : ∀ v ∈ l ++ List.replicate k V.nil, vok R n v := by
  intro u hu
  rw [List.mem_append] at hu
  rcases hu with hu | hu
  · exact hl u hu
  · obtain ⟨_, rfl⟩ := List.mem_replicate.1 hu
    trivial

theorem getD_ok {n : Nat} {l : List V} (hl : ∀ v ∈ l, vok R n v) (k : Nat) : vok R n (l.getD k V.nil) := by
  rw [List.getD_eq_getElem?_getD]
  cases h : l[k]? with
  | none => trivial
  | some v => exact hl v (List.mem_of_getElem? h)

theorem setIdx_ok {n : Nat} {l : List V} (hl : ∀ v ∈ l, vok R n v) {v : V} (hv : vok R n v) (k : Nat) : ∀ u ∈ l.set k v, vok R n u := by
  intro u hu
  rcases List.mem_or_eq_of_mem_set hu with h | rfl
  · exact hl u h
  · exact hv

theorem Fr.growSlice {cur : Option Addr} (hc : optOk R n cur) {l l' : List V} (hl : ∀ v ∈ l', vok R n v) {k : Nat} :
    Fr R n (growSlice cur l l' k) (fun n' a => a < n' ∧ ¬ R a) := by
  unfold JT.growSlice
  split
  · exact Fr.ite (fun _ => Fr.pure fun _ h => optOk_mono h hc _ rfl) fun _ => Fr.alloc fun n' hn v hv => vok_mono hn (hl v hv)
  · exact Fr.alloc fun n' hn v hv => vok_mono hn (hl v hv)

theorem nestedSlice_ok {n : Nat} {v : V} (hv : vok R n v) : optOk R n (nestedSlice v) := by
  intro b hb
  cases v <;> simp [nestedSlice] at hb
  subst hb; exact hv

theorem Fr.saveInSlice : ∀ {sps : List Str} {n : Nat} {cur : Option Addr} {v : V}, optOk R n cur → vok R n v →
    Fr R n (saveInSlice sps cur v) (fun n' a => a < n' ∧ ¬ R a) := by
  intro sps
  induction sps with
  | nil => intro n cur v _ _; exact Fr.panic
  | cons sp rest ih =>
    intro n cur v hc hv
    unfold JT.saveInSlice
    split
    · exact Fr.fail
    · rename_i i hi
      refine Fr.ite (fun _ => Fr.panic) fun _ => ?_
      refine Fr.bind (Fr.readBase hc) fun l n1 h1 hl => ?_
      have hp := pad_ok hl (i.toNat + 1 - l.length)
      refine Fr.bind (Fr.growSlice (optOk_mono h1 hc) hp) fun a n2 h2 ha => ?_
      have hp2 : ∀ {n'}, n2 ≤ n' → ∀ v ∈ l ++ List.replicate (i.toNat + 1 - l.length) V.nil, vok R n' v := fun h v hv => vok_mono (by omega) (hp v hv)
      split
      · refine Fr.bind (Fr.mergeOld (vok_mono (by omega) hv) (getD_ok (hp2 (Nat.le_refl _)) _)) fun _ n3 h3 _ => ?_
        exact Fr.bind (Fr.writeCell ha.2 fun n' hn' => setIdx_ok (hp2 (by omega)) (vok_mono (by omega) hv) _) fun _ n4 h4 _ =>
          Fr.pure fun _ h => ⟨Nat.lt_of_lt_of_le ha.1 (by omega), ha.2⟩
      · refine Fr.bind (Fr.orElseM (ih (nestedSlice_ok (getD_ok (hp2 (Nat.le_refl _)) _)) (vok_mono (by omega) hv))
          (Fr.alloc (by intro n' _ v hv; simp at hv))) fun b n3 h3 hb => ?_
        exact Fr.bind (Fr.writeCell ha.2 fun n' hn' => setIdx_ok (hp2 (by omega)) (v := .arr b) (vok_mono (v := .arr b) hn' hb) _) fun _ n4 h4 _ =>
          Fr.pure fun _ h => ⟨Nat.lt_of_lt_of_le ha.1 (by omega), ha.2⟩

theorem Fr.sliceAt {m : GMap V} {k : Str} (hm : ∀ kv ∈ m, vok R n kv.2) : Fr R n (sliceAt m k) (optOk R) := by
  unfold JT.sliceAt
  split
  · exact Fr.pure (by simp [optOk])
  · rename_i a ha
    exact Fr.pure fun _ h => optOk_mono h (optOk_some (hm _ (GMap.get_some_mem ha)))
  · exact Fr.panic

theorem Fr.setKey {t : Addr} (ht : ¬ R t) {k : Str} {v : V} (hv : vok R n v) : Fr R n (setKey t k v) (fun _ _ => True) :=
  Fr.bind (Fr.readMap ht) fun _ n1 h1 hm => Fr.writeCell ht fun n' hn => set_ok (fun kv h => vok_mono hn (hm kv h)) (vok_mono (by omega) hv)

theorem Fr.saveLeaf {t : Addr} (ht : ¬ R t) {path : Str} {v : V} (hv : vok R n v) : Fr R n (saveLeaf t path v) (fun _ _ => True) := by
  unfold JT.saveLeaf
  split
  · refine Fr.bind (Fr.readMap ht) fun m n1 h1 hm => Fr.bind (Fr.sliceAt hm) fun cur n2 h2 hc => ?_
    exact Fr.bind (Fr.saveInSlice hc (vok_mono (by omega) hv)) fun a n3 h3 ha => Fr.setKey ht (v := .arr a) ha
  · exact Fr.setKey ht hv

theorem Fr.saveSplits : ∀ {splits : List Str} {strip : Bool} {n : Nat} {t : Addr} {v : V}, ¬ R t → vok R n v →
    Fr R n (saveSplits strip splits t v) (fun _ _ => True) := by
  intro splits
  induction splits with
  | nil => intro strip n t v _ _; simp only [JT.saveSplits]; exact Fr.panic
  | cons s rest ih =>
    intro strip n t v ht hv
    unfold JT.saveSplits
    refine Fr.ite (fun _ => ?_) fun _ => ?_
    · split
      · exact Fr.panic
      · exact ih ht hv
    · split
      · exact Fr.saveLeaf ht hv
      · split
        · refine Fr.bind (Fr.readMap ht) fun m n1 h1 hm => Fr.bind (Fr.sliceAt hm) fun cur n2 h2 hc => ?_
          refine Fr.bind (Fr.alloc (by intro n' _ v hv; simp at hv)) fun nt n3 h3 hnt => ?_
          refine Fr.bind (Fr.saveInSlice (optOk_mono h3 hc) (v := .obj nt) hnt) fun a n4 h4 ha => ?_
          exact Fr.bind (Fr.setKey ht (v := .arr a) ha) fun _ n5 h5 _ => ih hnt.2 (vok_mono (by omega) hv)
        · refine Fr.bind (Fr.readMap ht) fun m n1 h1 hm => ?_
          split
          · rename_i nt hnt
            have h := hm _ (GMap.get_some_mem hnt)
            exact Fr.bind (Fr.setKey ht h) fun _ n2 h2 _ => ih h.2 (vok_mono (by omega) hv)
          · refine Fr.bind (Fr.alloc (by intro n' _ v hv; simp at hv)) fun nt n2 h2 hnt => ?_
            exact Fr.bind (Fr.setKey ht (v := .obj nt) hnt) fun _ n3 h3 _ => ih hnt.2 (vok_mono (by omega) hv)
          · refine Fr.bind (Fr.alloc (by intro n' _ v hv; simp at hv)) fun nt n2 h2 hnt => ?_
            exact Fr.bind (Fr.setKey ht (v := .obj nt) hnt) fun _ n3 h3 _ => ih hnt.2 (vok_mono (by omega) hv)
          · exact Fr.fail

theorem Fr.saveInTree {t : Addr} (ht : ¬ R t) {path : Str} {v : V} (hv : vok R n v) : Fr R n (saveInTree t path v) (fun _ _ => True) :=
  Fr.ite (fun _ => Fr.pure fun _ _ => trivial) fun _ => Fr.saveSplits ht hv

theorem Fr.saveBase {inp : V} (hi : vok R n inp) {path : Str} {base : Option Addr} (hb : optOk R n base) {c : Bool} :
    Fr R n (saveBase inp path base c) (vok R) := by
  unfold JT.saveBase
  split
  · rename_i a
    refine Fr.ite (fun _ => Fr.ite (fun _ => Fr.pure fun _ h => vok_mono (v := .arr a) h (hb _ rfl)) fun _ => ?_) fun _ => Fr.pure fun _ h => vok_mono h hi
    split
    · exact Fr.bind (Fr.saveInTree hi.2 (v := .arr a) (hb _ rfl)) fun _ n1 h1 _ => Fr.pure fun _ h => vok_mono (by omega) hi
    · exact Fr.fail
  · exact Fr.pure fun _ h => vok_mono h hi

end JT.Frame
