import Verif.Proofs.Param
import Verif.Proofs.Safe
import Verif.Spec.Eval
import Verif.Spec.Isolated
/- The engine computes what the direct semantics says: instructions and scalars. -/
namespace JT
open Spec

/-- The second state only has more cells: everything that existed is unchanged. -/
structure Grow (s s' : St) : Prop where
  len : s.heap.length ≤ s'.heap.length
  ext : Ext s.heap.length s s'

theorem Ext.mono {w w' : Nat} {s s' : St} (h : Ext w s s') (hw : w' ≤ w) : Ext w' s s' := by
  refine ⟨fun a ha => h.heap a (by omega), h.instrs, h.ilog, h.shared, ?_⟩
  obtain ⟨l, h1, h2⟩ := h.wlog
  exact ⟨l, h1, fun a ha => Nat.le_trans hw (h2 a ha)⟩

theorem Grow.refl (s : St) : Grow s s := ⟨Nat.le_refl _, Ext.refl _ _⟩
theorem Grow.trans {s t u : St} (h1 : Grow s t) (h2 : Grow t u) : Grow s u :=
  ⟨Nat.le_trans h1.len h2.len, h1.ext.trans (h2.ext.mono h1.len)⟩

theorem Grow.cell {s s' : St} (g : Grow s s') {a : Nat} {c : Cell} (h : s.heap[a]? = some c) : s'.heap[a]? = some c := by
  have := (List.getElem?_eq_some_iff.1 h).1
  rw [g.ext.heap a this]
  exact h

theorem Rep.grow {s s' : St} (g : Grow s s') {A : Addr → Bool} {v : V} {p : P} (h : Rep s.heap A v p) : Rep s'.heap A v p :=
  h.mono (fun _ h => h) (fun _ _ _ h => g.cell h)

/-- Region containing all cells to be allocated. -/
def FreshIn (A : Addr → Bool) (s : St) : Prop := ∀ a, s.heap.length ≤ a → A a = true

theorem FreshIn.grow {A : Addr → Bool} {s s' : St} (h : FreshIn A s) (g : Grow s s') : FreshIn A s' :=
  fun a ha => h a (Nat.le_trans g.len ha)

/-- The computation `x` started in `s` only allocates and its result is related to `r`. -/
def RefM {α β : Type} (s : St) (x : M α) (Q : Heap → α → β → Prop) (r : Res β) : Prop :=
  Grow s (x s).2 ∧ ResRel (Q (x s).2.heap) (x s).1 r

theorem RefM.bind {α β γ δ : Type} {s : St} {x : M α} {f : α → M γ} {Q : Heap → α → β → Prop} {Q' : Heap → γ → δ → Prop}
    {r : Res β} {g : β → Res δ} (hx : RefM s x Q r)
    (hf : ∀ s' a b, Grow s s' → Q s'.heap a b → RefM s' (f a) Q' (g b)) : RefM s (x >>= f) Q' (r.bind g) := by
  obtain ⟨h1, h2⟩ := hx
  unfold RefM
  rw [M.bind_apply]
  rcases hxs : x s with ⟨rx, s'⟩
  rw [hxs] at h1 h2
  simp only at h1 h2
  cases h2 with
  | ok hab =>
    obtain ⟨h3, h4⟩ := hf s' _ _ h1 hab
    exact ⟨h1.trans h3, h4⟩
  | err => exact ⟨h1, .err⟩
  | panic => exact ⟨h1, .panic⟩

theorem RefM.pure {α β : Type} {s : St} {a : α} {b : β} {Q : Heap → α → β → Prop} (h : Q s.heap a b) :
    RefM s (Pure.pure a : M α) Q (.ok b) := ⟨Grow.refl s, .ok h⟩

theorem RefM.lift {α β : Type} {s : St} {r : Res α} {r' : Res β} {Q : Heap → α → β → Prop} (h : ResRel (Q s.heap) r r') :
    RefM s (M.lift r) Q r' := ⟨Grow.refl s, h⟩

theorem RefM.ite {α β : Type} {s : St} {c c' : Prop} [Decidable c] [Decidable c'] {x y : M α} {Q : Heap → α → β → Prop} {r r' : Res β}
    (hc : c ↔ c') (h1 : c → RefM s x Q r) (h2 : ¬c → RefM s y Q r') : RefM s (if c then x else y) Q (if c' then r else r') := by
  by_cases h : c
  · rw [if_pos h, if_pos (hc.1 h)]; exact h1 h
  · rw [if_neg h, if_neg (fun h' => h (hc.2 h'))]; exact h2 h

theorem isNilP_iff {p : P} : isNilP p = true ↔ p = .sc .nil := by
  constructor
  · intro h
    unfold isNilP at h
    split at h
    · rfl
    · contradiction
  · rintro rfl; rfl

theorem nil_iff {h : Heap} {A : Addr → Bool} {v : V} {p : P} (hr : Rep h A v p) : v = V.nil ↔ isNilP p = true := by
  rw [isNilP_iff]; exact rep_nil_iff hr

/-- Allocation of a cell. -/
theorem grow_alloc (s : St) (c : Cell) : Grow s { s with heap := s.heap ++ [c] } := by
  refine ⟨by simp, ⟨?_, rfl, rfl, rfl, [], rfl, by simp⟩⟩
  intro a ha
  simp only
  rw [List.getElem?_append_left ha]

theorem All2.rep_grow {s s' : St} (g : Grow s s') {A : Addr → Bool} {l : List V} {m : List P}
    (h : All2 (Rep s.heap A) l m) : All2 (Rep s'.heap A) l m := h.imp fun _ _ h => h.grow g

theorem OutRel.grow {s s' : St} (g : Grow s s') {A : Addr → Bool} {o : Out V} {o' : Out P}
    (h : OutRel (Rep s.heap A) o o') : OutRel (Rep s'.heap A) o o' := by
  cases h with
  | val h => exact .val (h.grow g)
  | sc s => exact .sc s
  | arr h => exact .arr (h.rep_grow g)
  | strs l => exact .strs l

theorem RefM.alloc_slice {s : St} {A : Addr → Bool} (hA : FreshIn A s) {l : List V} {ps : List P}
    (h : All2 (Rep s.heap A) l ps) : RefM s (do let a ← alloc (.slice l); return .arr a) (fun h v p => Rep h A v p) (.ok (.arr ps)) := by
  have g := grow_alloc s (.slice l)
  refine ⟨g, .ok ?_⟩
  have h' := h.rep_grow g
  refine rep_arr_iff.2 ⟨hA _ (Nat.le_refl _), l, ps, ?_, rfl, h.length, h'.idx⟩
  simp [JT.alloc, M.bind_apply, Bind.bind, M.bind, M.pure, Pure.pure]

theorem RefM.materialize {s : St} {A : Addr → Bool} (hA : FreshIn A s) {o : Out V} {o' : Out P}
    (h : OutRel (Rep s.heap A) o o') : RefM s (materialize o) (fun h v p => Rep h A v p) (.ok (outP o')) := by
  cases h with
  | val h => exact RefM.pure h
  | sc s => exact RefM.pure (Rep.sc _ _ _)
  | arr h => exact RefM.alloc_slice hA h
  | strs l =>
    refine RefM.alloc_slice hA ?_
    induction l with
    | nil => exact .nil
    | cons x xs ih => exact .cons (Rep.sc _ _ _) ih

theorem convert_fuel (lib : Lib) (ty : Str) : ∀ (n m : Nat) (p : P), p.depth < n → p.depth < m →
    convert lib P.view ty n p = convert lib P.view ty m p := by
  intro n
  induction n with
  | zero => intro m p h; omega
  | succ n ih =>
    intro m p hn hm
    obtain ⟨m, rfl⟩ : ∃ k, m = k + 1 := ⟨m - 1, by omega⟩
    simp only [convert]
    cases p with
    | sc s => cases s <;> rfl
    | obj o => rfl
    | arr l =>
      cases l with
      | nil => rfl
      | cons x rest =>
        simp only [P.view, P.shape]
        split
        · cases x with
          | sc s => rfl
          | obj o => rfl
          | arr l' =>
            cases l' with
            | nil => rfl
            | cons y ys =>
              simp only [P.shape]
              simp only [P.depth, depthList] at hn hm
              exact ih m y (by omega) (by omega)
        · rfl

theorem RefM.convertV {env : Env} {ty : Str} {s : St} {A : Addr → Bool} {v : V} {p : P} (h : Rep s.heap A v p) :
    RefM s (convertV env ty v) (fun h c d => ConvRel (Rep h A) c d) (convert env.lib P.view ty (p.depth + 1) p) := by
  have hd := h.depth_le
  rw [convert_fuel env.lib ty (p.depth + 1) (s.heap.length + 1) p (by omega) (by omega)]
  exact ⟨Grow.refl s, convert_rel (rep_viewRel s.heap A) env.lib ty _ h⟩

/-- How the input of a transformer is represented: as a tree in the region `A`; or its top level is a map outside `A`, and some
top level fields `W` may have other contents than in the tree, as long as the paths that are read (`ok`) avoid them. -/
inductive InpAt (lib : Lib) (ok : Str → Prop) (h : Heap) (A : Addr → Bool) (inp : V) (p : P) : Prop
  | whole : Rep h A inp p → InpAt lib ok h A inp p
  | root {r : Addr} {mm : GMap V} {m mc : GMap P} {W : Str → Prop} : inp = .obj r → p = .obj m → A r = false → h[r]? = some (.map mm) →
      All2 (KVRel (Rep h A)) mm mc → (∀ k, ¬ W k → GMap.get k mc = GMap.get k m) → (∀ path, ok path → Avoids lib W path) →
      InpAt lib ok h A inp p

theorem optAll_rel' {α β γ : Type} {R : α → β → Prop} {f : γ → Option α} {g : γ → Option β} :
    ∀ (l : List γ), (∀ x ∈ l, OptRel R (f x) (g x)) → OptRel (All2 R) (optAll f l) (optAll g l) := by
  intro l
  induction l with
  | nil => intro _; exact .some .nil
  | cons x xs ih =>
    intro h
    simp only [optAll]
    have hx := h x (by simp)
    have ih := ih fun y hy => h y (by simp [hy])
    generalize f x = u at hx
    generalize g x = v at hx
    generalize optAll f xs = us at ih
    generalize optAll g xs = vs at ih
    cases hx with
    | none => exact .none
    | some h1 =>
      cases ih with
      | none => exact .none
      | some h2 => exact .some (.cons h1 h2)

theorem InpAt.mono {lib : Lib} {ok : Str → Prop} {h h' : Heap} {A A' : Addr → Bool} {inp : V} {p : P} (hi : InpAt lib ok h A inp p)
    (hA : ∀ a, A a = true → a < h.length → A' a = true) (hA' : ∀ a, A a = false → a < h.length → A' a = false)
    (hh : ∀ a c, h[a]? = some c → (A a = true ∨ inp = .obj a) → h'[a]? = some c) : InpAt lib ok h' A' inp p := by
  have rep : ∀ {v : V} {q : P}, Rep h A v q → Rep h' A' v q := by
    intro v q hr
    refine hr.below.mono (fun a ha => ?_) (fun a ha c hc => ?_)
    · simp only [Bool.and_eq_true, decide_eq_true_eq] at ha
      exact hA a ha.1 ha.2
    · simp only [Bool.and_eq_true] at ha
      exact hh a c hc (Or.inl ha.1)
  cases hi with
  | whole hr => exact .whole (rep hr)
  | root h1 h2 h3 h4 h5 h6 h7 =>
    exact .root h1 h2 (hA' _ h3 (List.getElem?_eq_some_iff.1 h4).1) (hh _ _ h4 (Or.inr h1)) (h5.imp fun _ _ hk => ⟨hk.1, rep hk.2⟩) h6 h7

theorem InpAt.grow {lib : Lib} {ok : Str → Prop} {s s' : St} (g : Grow s s') {A : Addr → Bool} {inp : V} {p : P} (h : InpAt lib ok s.heap A inp p) :
    InpAt lib ok s'.heap A inp p :=
  h.mono (fun _ h _ => h) (fun _ h _ => h) (fun _ _ hc _ => g.cell hc)

/-- A path on the heap and on the tree. -/
theorem jpGet_inp {lib : Lib} {ok : Str → Prop} {h : Heap} {A : Addr → Bool} {inp : V} {p : P} (hi : InpAt lib ok h A inp p) {path : Str} (hok : ok path) :
    OptRel (OutRel (Rep h A)) (jpGet lib h.view path inp) (jpGet lib P.view path p) := by
  cases hi with
  | whole hr => exact jpGet_rel (rep_viewRel h A) lib path hr
  | @root r mm m mc W h1 h2 h3 h4 h5 h6 h7 =>
    subst h1 h2
    obtain ⟨hout, hsel⟩ := h7 path hok
    have hsame := hsel mc m h6
    have hrep : Rep h (fun _ => true) (.obj r) (.obj mc) :=
      rep_obj_iff.2 ⟨rfl, mm, mc, h4, rfl, h5.length, fun i hi hi' =>
        ⟨(h5.idx i hi hi').1, (h5.idx i hi hi').2.mono (fun _ _ => rfl) (fun _ _ _ h => h)⟩⟩
    have hsteps : ∀ ss, Outside W ss → OptRel (Rep h A) (getSteps h.view ss (.obj r)) (getSteps P.view ss (.obj m)) := by
      rintro ss ⟨k, rest, rfl, hk⟩
      have hg := get_rel h5 k
      rw [h6 k hk] at hg
      have e1 : getStep h.view (.key k) (.obj r) = GMap.get k mm := by simp [getStep, Heap.view, Heap.shape, h4]
      have e2 : getStep P.view (.key k) (.obj m) = GMap.get k m := rfl
      simp only [getSteps, e1, e2]
      generalize GMap.get k mm = x at hg
      generalize GMap.get k m = y at hg
      cases hg with
      | none => exact .none
      | some hab => exact getSteps_rel (rep_viewRel h A) rest hab
    have hm := hout m
    unfold jpGet
    unfold select at hsame hm
    cases hp : parsePath path with
    | some ss =>
      rw [hp] at hm
      exact (hsteps ss hm).map fun _ _ h => .val h
    | none =>
      rw [hp] at hm hsame
      simp only at hm hsame
      have e1 : (h.view.toP (.obj r)).bind (lib.jsonpath path) = lib.jsonpath path (.obj m) := by
        show (h.toP (.obj r)).bind _ = _
        rw [hrep.toP]
        exact hsame
      have e2 : (P.view.toP (.obj m)).bind (lib.jsonpath path) = lib.jsonpath path (.obj m) := rfl
      simp only [e1, e2]
      cases hs : lib.jsonpath path (.obj m) with
      | none => exact .none
      | some sel =>
        rw [hs] at hm
        cases sel with
        | loc ss => exact (hsteps ss hm).map fun _ _ h => .val h
        | many l => exact (optAll_rel' l fun ss hss => hsteps ss (hm ss hss)).map fun _ _ h => .arr h
        | const s => exact .some (.sc _)

theorem RefM.jpGetV {env : Env} {path : Str} {s : St} {A : Addr → Bool} (hA : FreshIn A s) {ok : Str → Prop} {v : V} {p : P}
    (h : InpAt env.lib ok s.heap A v p) (hok : ok path) :
    RefM s (jpGetV env path v) (fun h r q => OptRel (Rep h A) r q) (.ok ((jpGet env.lib P.view path p).map outP)) := by
  have hr := jpGet_inp h hok
  unfold RefM JT.jpGetV
  rw [M.bind_apply]
  simp only [getHeap]
  generalize jpGet env.lib s.heap.view path v = x at hr
  generalize jpGet env.lib P.view path p = y at hr
  cases hr with
  | none => exact ⟨Grow.refl s, .ok .none⟩
  | @some o o' ho =>
    have := RefM.materialize hA ho
    have h2 := RefM.bind (f := fun r => (Pure.pure (some r) : M (Option V))) (g := fun q => Res.ok (some q))
      (Q' := fun h r q => OptRel (Rep h A) r q) this
      (fun s' a b g hab => RefM.pure (OptRel.some hab))
    exact h2

theorem runOp_now {α : Type} (lib : Lib) (vw : View α) (now now' : GTime) (op : Op) (a : α) (h : ∀ f, op ≠ .currentTime f) :
    runOp lib vw now op a = runOp lib vw now' op a := by
  cases op <;> first | rfl | exact absurd rfl (h _)

/-- Operations that do not read the clock. -/
def Clockless (ops : List Op) : Prop := ∀ op ∈ ops, ∀ f, op ≠ .currentTime f

theorem grow_tick (s : St) (n : Nat) : Grow s { s with tick := n } :=
  ⟨Nat.le_refl _, ⟨fun _ _ => rfl, rfl, rfl, rfl, [], rfl, by simp⟩⟩

theorem RefM.runOps {env : Env} : ∀ {ops : List Op} (_ : Clockless ops) {s : St} {A : Addr → Bool} (_ : FreshIn A s) {v : V} {p : P},
    Rep s.heap A v p → RefM s (runOps env ops v) (fun h v p => Rep h A v p) (opsP env.lib ops p) := by
  intro ops
  induction ops with
  | nil => intro _ s A _ v p h; exact RefM.pure h
  | cons op ops ih =>
    intro hc s A hA v p h
    unfold JT.runOps
    simp only [opsP]
    have hnow : runOp env.lib P.view ⟨0, 0, 0⟩ op p = runOp env.lib P.view (env.lib.now s.tick) op p :=
      runOp_now _ _ _ _ _ _ (hc op (by simp))
    rw [hnow]
    have g0 := grow_tick s (s.tick + 1)
    have hr := runOp_rel (rep_viewRel s.heap A) env.lib (env.lib.now s.tick) op h
    have step : RefM { s with tick := s.tick + 1 }
        (M.lift (runOp env.lib s.heap.view (env.lib.now s.tick) op v) >>= fun o => JT.materialize o >>= fun v' => JT.runOps env ops v')
        (fun h v p => Rep h A v p)
        ((runOp env.lib P.view (env.lib.now s.tick) op p).bind fun o => opsP env.lib ops (outP o)) := by
      refine RefM.bind (Q := fun h o o' => OutRel (Rep h A) o o') (RefM.lift hr) fun s' o o' g ho => ?_
      have hA' := (hA.grow g0).grow g
      exact RefM.bind (r := .ok (outP o')) (g := fun q => opsP env.lib ops q) (RefM.materialize hA' ho)
        fun s'' v' p' g' hv => ih (fun op hop => hc op (by simp [hop])) (hA'.grow g') hv
    exact ⟨g0.trans step.1, step.2⟩

theorem RefM.convOrRaw {s : St} {A : Addr → Bool} (hA : FreshIn A s) {c : Conv V} {d : Conv P} (hc : ConvRel (Rep s.heap A) c d)
    {raw : V} {p : P} (hr : Rep s.heap A raw p) :
    RefM s (convOrRaw c raw) (fun h v p => Rep h A v p) (.ok (if d.err then p else outP d.val)) := by
  unfold JT.convOrRaw
  obtain ⟨h1, h2⟩ := hc
  rw [h2]
  split
  · exact RefM.pure hr
  · exact RefM.materialize hA h1

theorem RefM.instrJSON {env : Env} {ty : Str} {mod : Mod} {ti : Instr} (hc : Clockless ti.ops) {s : St} {A : Addr → Bool}
    (hA : FreshIn A s) {ok : Str → Prop} {inp : V} {p : P} (h : InpAt env.lib ok s.heap A inp p) (hok : ok (mod ti.jsonPath)) :
    RefM s (instrJSON env inp ty mod ti) (fun h v p => Rep h A v p) (instrP env.lib ty (mod ti.jsonPath) ti.ops p) := by
  have key : instrP env.lib ty (mod ti.jsonPath) ti.ops p =
      (Res.ok ((jpGet env.lib P.view (mod ti.jsonPath) p).map outP)).bind fun o => match o with
        | none => .ok nilP
        | some raw => if isNilP raw then .ok nilP
          else (convert env.lib P.view ty (raw.depth + 1) raw).bind fun c =>
            (Res.ok (if c.err then raw else outP c.val)).bind fun value =>
            if isNilP value then .ok nilP else opsP env.lib ti.ops value := by
    unfold instrP
    cases jpGet env.lib P.view (mod ti.jsonPath) p <;> rfl
  rw [key]
  unfold JT.instrJSON
  refine RefM.bind (RefM.jpGetV hA h hok) fun s1 r q g1 hrq => ?_
  cases hrq with
  | none => exact RefM.pure (Rep.sc _ _ _)
  | @some raw rp hraw =>
    refine RefM.ite (nil_iff hraw) (fun _ => RefM.pure (Rep.sc _ _ _)) fun _ => ?_
    refine RefM.bind (RefM.convertV hraw) fun s2 c d g2 hcd => ?_
    have hA2 := (hA.grow g1).grow g2
    refine RefM.bind (RefM.convOrRaw hA2 hcd (hraw.grow g2)) fun s3 v q g3 hvq => ?_
    exact RefM.ite (nil_iff hvq) (fun _ => RefM.pure (Rep.sc _ _ _)) fun _ => RefM.runOps hc (hA2.grow g3) hvq

theorem RefM.firstLoop {run : Instr → M V} {A : Addr → Bool} {f : Instr → Res P} : ∀ {l : List Instr} {s : St} (_ : FreshIn A s)
    (_ : ∀ ti ∈ l, ∀ s', Grow s s' → RefM s' (run ti) (fun h v p => Rep h A v p) (f ti)),
    RefM s (firstLoop run l) (fun h v p => Rep h A v p) (firstP (l.map f)) := by
  intro l
  induction l with
  | nil => intro s _ _; exact RefM.pure (Rep.sc _ _ _)
  | cons ti rest ih =>
    intro s hA hr
    refine RefM.bind (hr ti (by simp) s (Grow.refl s)) fun s' v p g hv => ?_
    refine RefM.ite (nil_iff hv) (fun _ => ?_) fun _ => RefM.pure hv
    exact ih (hA.grow g) fun t ht s'' g' => hr t (by simp [ht]) s'' (g.trans g')

theorem RefM.concatLoop {run : Instr → M V} {A : Addr → Bool} {f : Instr → Res P} {d : Str} : ∀ {l : List Instr} {s : St} (_ : FreshIn A s)
    (_ : ∀ ti ∈ l, ∀ s', Grow s s' → RefM s' (run ti) (fun h v p => Rep h A v p) (f ti)) {acc : V} {ap : P} (_ : Rep s.heap A acc ap),
    RefM s (concatLoop run d l acc) (fun h v p => Rep h A v p) (concatP d (l.map f) ap) := by
  intro l
  induction l with
  | nil => intro s _ _ acc ap h; exact RefM.pure h
  | cons ti rest ih =>
    intro s hA hr acc ap hacc
    refine RefM.bind (hr ti (by simp) s (Grow.refl s)) fun s' v p g hv => ?_
    have step : RefM s' (M.lift (concat s'.heap.view acc v d) >>= fun o => JT.materialize o >>= fun r => JT.concatLoop run d rest r)
        (fun h v p => Rep h A v p) ((concat P.view ap p d).bind fun o => concatP d (rest.map f) (outP o)) := by
      refine RefM.bind (Q := fun h o o' => OutRel (Rep h A) o o')
        (RefM.lift (concat_rel (rep_viewRel s'.heap A) (hacc.grow g) hv d)) fun s2 o o' g2 ho => ?_
      have hA2 := (hA.grow g).grow g2
      exact RefM.bind (r := .ok (outP o')) (g := fun q => concatP d (rest.map f) q) (RefM.materialize hA2 ho)
        fun s3 r rp g3 hrr => ih (hA2.grow g3) (fun t ht s'' g' => hr t (by simp [ht]) s'' (((g.trans g2).trans g3).trans g')) hrr
    exact step

/-- Instruction sets covered by the direct semantics. -/
def GoodInstrs (tis : Instrs) : Prop := tis.method ≠ .last ∧ ∀ ti ∈ tis.from, Clockless ti.ops

theorem RefM.instrsRun {env : Env} (hf : env.fmt = .json) {ty : Str} {mod : Mod} {tid : Nat} {s : St} {A : Addr → Bool} (hA : FreshIn A s)
    {tis : Instrs} (ht : s.instrs[tid]? = some tis) (hg : GoodInstrs tis) {ok : Str → Prop} {inp : V} {p : P} (h : InpAt env.lib ok s.heap A inp p)
    (hok : ∀ ti ∈ tis.from, ok (mod ti.jsonPath)) :
    RefM s (instrsRun env inp ty mod tid) (fun h v p => Rep h A v p) (instrsP env.lib ty mod tis p) := by
  unfold JT.instrsRun
  refine RefM.bind (s := s) (x := readInstrs tid) (r := .ok tis) (Q := fun _ a b => a = tis ∧ tis = b)
    (g := fun tis => instrsP env.lib ty mod tis p) ?_ ?_
  · unfold RefM readInstrs
    rw [ht]
    exact ⟨Grow.refl s, .ok ⟨rfl, rfl⟩⟩
  · rintro s' a b g ⟨h1, h2⟩
    subst h1
    subst h2
    have hrun : ∀ ti ∈ a.from, ∀ s'', Grow s' s'' → RefM s'' (instrRun env inp ty mod ti) (fun h v p => Rep h A v p)
        (instrP env.lib ty (mod ti.jsonPath) ti.ops p) := by
      intro ti hti s'' g'
      unfold instrRun
      rw [hf]
      exact RefM.instrJSON (hg.2 ti hti) ((hA.grow g).grow g') ((h.grow g).grow g') (hok ti hti)
    unfold instrsP
    cases hm : a.method with
    | first => exact RefM.firstLoop (hA.grow g) hrun
    | last => exact absurd hm hg.1
    | concatenate => exact RefM.concatLoop (hA.grow g) hrun (Rep.sc _ _ _)

/-- The result of an optional transform. -/
def optInstrsP (lib : Lib) (ins : List Instrs) (ty : Str) (mod : Mod) (inp : P) : Option Nat → Res P
  | none => .ok nilP
  | some i => match ins[i]? with
    | none => .panic
    | some tis => instrsP lib ty mod tis inp

/-- The transform, if any, exists and is covered. -/
def GoodTid (ins : List Instrs) (tid : Option Nat) : Prop := ∀ i, tid = some i → ∃ tis, ins[i]? = some tis ∧ GoodInstrs tis

/-- The paths read by the transform are `ok`. -/
def TidReads (ok : Str → Prop) (ins : List Instrs) (mod : Mod) (tid : Option Nat) : Prop :=
  ∀ i tis, tid = some i → ins[i]? = some tis → ∀ ti ∈ tis.from, ok (mod ti.jsonPath)

theorem RefM.optInstrs {env : Env} (hf : env.fmt = .json) {ty : Str} {mod : Mod} {tid : Option Nat} {s : St} {A : Addr → Bool}
    (hA : FreshIn A s) (ht : GoodTid s.instrs tid) {ok : Str → Prop} {inp : V} {p : P} (h : InpAt env.lib ok s.heap A inp p)
    (hok : TidReads ok s.instrs mod tid) :
    RefM s (optInstrs env inp ty mod tid) (fun h v p => Rep h A v p) (optInstrsP env.lib s.instrs ty mod p tid) := by
  cases tid with
  | none => exact RefM.pure (Rep.sc _ _ _)
  | some i =>
    obtain ⟨tis, h1, h2⟩ := ht i rfl
    simp only [optInstrsP, h1, JT.optInstrs]
    exact RefM.instrsRun hf hA h1 h2 h (hok i tis rfl h1)

theorem RefM.samePath {env : Env} {ty path : Str} {s : St} {A : Addr → Bool} (hA : FreshIn A s) {ok : Str → Prop} {inp : V} {p : P}
    (h : InpAt env.lib ok s.heap A inp p) (hok : ok path) : RefM s (samePath env ty path inp) (fun h v p => Rep h A v p) (sameP env.lib ty path p) := by
  have key : sameP env.lib ty path p =
      (Res.ok ((jpGet env.lib P.view path p).map outP)).bind fun o => match o with
        | none => .ok nilP
        | some raw => (convert env.lib P.view ty (raw.depth + 1) raw).bind fun c =>
          (Res.ok (outP c.val)).bind fun v => if isNilP v then .ok nilP else if c.err then .err else .ok v := by
    unfold sameP
    cases jpGet env.lib P.view path p <;> rfl
  rw [key]
  unfold JT.samePath
  refine RefM.bind (RefM.jpGetV hA h hok) fun s1 r q g1 hrq => ?_
  cases hrq with
  | none => exact RefM.pure (Rep.sc _ _ _)
  | @some raw rp hraw =>
    refine RefM.bind (RefM.convertV hraw) fun s2 c d g2 hcd => ?_
    have hA2 := (hA.grow g1).grow g2
    refine RefM.bind (RefM.materialize hA2 hcd.1) fun s3 v q g3 hvq => ?_
    refine RefM.ite (nil_iff hvq) (fun _ => RefM.pure (Rep.sc _ _ _)) fun _ => ?_
    refine RefM.ite (by rw [hcd.2]) (fun _ => ⟨Grow.refl _, .err⟩) fun _ => RefM.pure hvq

theorem RefM.runScalar {env : Env} (hf : env.fmt = .json) {path ty : Str} {d : V} {dp : P} {tid : Option Nat} {s : St} {A : Addr → Bool}
    (hA : FreshIn A s) (ht : GoodTid s.instrs tid) (hd : Rep s.heap A d dp) {ok : Str → Prop} {inp : V} {p : P}
    (h : InpAt env.lib ok s.heap A inp p) (mod : Mod) (hok : ok (mod path)) (hoks : TidReads ok s.instrs mod tid) :
    RefM s (runScalar env path ty d tid inp mod) (fun h v p => Rep h A v p)
      (precedence (optInstrsP env.lib s.instrs ty mod p tid) (sameP env.lib ty (mod path) p) dp) := by
  unfold JT.runScalar precedence
  refine RefM.bind (RefM.optInstrs hf hA ht h hoks) fun s1 v q g1 hvq => ?_
  have hn := nil_iff hvq
  by_cases hv : v = V.nil
  · rw [if_neg (by simpa using hv), if_pos (hn.1 hv), hf]
    refine RefM.bind (RefM.samePath (hA.grow g1) (h.grow g1) hok) fun s2 u q2 g2 hu => ?_
    have hn2 := nil_iff hu
    by_cases hv2 : u = V.nil
    · rw [if_neg (by simpa using hv2), if_pos (hn2.1 hv2)]
      exact RefM.pure ((hd.grow g1).grow g2)
    · rw [if_pos hv2, if_neg (fun h => hv2 (hn2.2 h))]
      exact RefM.pure hu
  · rw [if_pos hv, if_neg (fun h => hv (hn.2 h))]
    exact RefM.pure hvq

end JT
