import Verif.Proofs.Frozen
import Verif.Props.C79
/- C01, C02 and C79 for schemas with array defaults. -/
namespace JT
open Spec

namespace Spec
/-- A value without objects. -/
inductive Flat : P → Prop
  | sc (s : Scal) : Flat (.sc s)
  | arr {l : List P} : (∀ x ∈ l, Flat x) → Flat (.arr l)

/-- The default of an instance, if any, contains no object. -/
def FlatDefault (q : P) : Prop := ∀ d, q.key g!"default" = some d → Flat d

/-- Schemas whose array defaults are never written: plain property names other than `$`; defaults without objects; no method `last`; for JSON input, an array inside
the items of another array has no default and no transform of its own. -/
structure SteadySchema (fmt : Format) (ident : Str) (sc : Schema) : Prop where
  plain : PlainSchema sc
  dollar : (∀ m, sc.properties = some m → ∀ kv ∈ m, kv.1 ≠ g!"$") ∧ ∀ q, SchemaInst sc q → NoDollar q
  flat : ∀ q, SchemaInst sc q → FlatDefault q
  notLast : ∀ q, SchemaInst sc q → NotLast ident q
  inner : fmt = .json → ∀ q, SchemaWithin sc q → ArrayInst q → NoDefault q ∧ NoTransform ident q
end Spec

/-! ### Transformers built from such schemas -/

/-- Cells that are slices of scalars and earlier slices. -/
def FlatHeap (h : Heap) : Prop := ∀ (a : Nat) (c : Cell), h[a]? = some c → ∃ l, c = .slice l ∧ ∀ v ∈ l, v.flat a

theorem V.flat_mono {n m : Nat} (h : n ≤ m) {v : V} (hv : v.flat n) : v.flat m := by
  cases v with
  | sc s => trivial
  | arr a => exact Nat.lt_of_lt_of_le hv h
  | obj a => exact hv

mutual
theorem loadP_flat : ∀ (p : P) (h : Heap), Flat p → FlatHeap h →
    (loadP p h).1.flat (loadP p h).2.length ∧ FlatHeap (loadP p h).2 ∧ h.length ≤ (loadP p h).2.length
  | .sc s, h, _, hh => ⟨trivial, hh, Nat.le_refl _⟩
  | .arr l, h, hp, hh => by
    cases hp with
    | arr hl =>
      obtain ⟨h1, h2, h3⟩ := loadList_flat l h hl hh
      simp only [loadP]
      refine ⟨by simp [V.flat], ?_, by simp; omega⟩
      intro a c hc
      rw [List.getElem?_append] at hc
      split at hc
      · exact h2 a c hc
      · rw [List.getElem?_singleton] at hc
        split at hc
        · simp only [Option.some.injEq] at hc
          subst hc
          exact ⟨_, rfl, fun v hv => V.flat_mono (by omega) (h1 v hv)⟩
        · simp at hc
  | .obj m, h, hp, _ => nomatch hp
theorem loadList_flat : ∀ (l : List P) (h : Heap), (∀ x ∈ l, Flat x) → FlatHeap h →
    (∀ v ∈ (loadList l h).1, v.flat (loadList l h).2.length) ∧ FlatHeap (loadList l h).2 ∧ h.length ≤ (loadList l h).2.length
  | [], h, _, hh => ⟨by simp [loadList], hh, Nat.le_refl _⟩
  | p :: ps, h, hl, hh => by
    obtain ⟨h1, h2, h3⟩ := loadP_flat p h (hl p (by simp)) hh
    obtain ⟨g1, g2, g3⟩ := loadList_flat ps (loadP p h).2 (fun x hx => hl x (by simp [hx])) h2
    simp only [loadList]
    refine ⟨?_, g2, by omega⟩
    intro v hv
    simp only [List.mem_cons] at hv
    rcases hv with rfl | hv
    · exact V.flat_mono g3 h1
    · exact g1 v hv
end

/-- State during the construction. -/
structure FlatSt (s : St) : Prop where
  heap : FlatHeap s.heap
  tick : s.tick = 0
  wlog : s.wlog = []
  ilog : s.ilog = []
  noLast : ∀ t ∈ s.instrs, t.method ≠ .last

theorem addInstrs_flat {t : Option Instrs} {s s' : St} {r : Option Nat} (h : addInstrs t s = (.ok r, s'))
    (hs : FlatSt s) (ht : ∀ tis, t = some tis → tis.method ≠ .last) : FlatSt s' ∧ s'.heap = s.heap := by
  unfold addInstrs at h
  cases t with
  | none => simp at h; obtain ⟨_, rfl⟩ := h; exact ⟨hs, rfl⟩
  | some tis =>
    simp at h
    obtain ⟨_, rfl⟩ := h
    refine ⟨⟨hs.heap, hs.tick, hs.wlog, hs.ilog, ?_⟩, rfl⟩
    intro t ht'
    simp at ht'
    rcases ht' with h' | rfl
    · exact hs.noLast t h'
    · exact ht _ rfl

theorem schemaDefault_flat {raw d : P} (hs : FlatDefault raw) (h : schemaDefault raw = .ok d) : Flat d := by
  unfold schemaDefault at h
  simp only [Res.bind_eq_ok, Res.pure_eq_ok] at h
  obtain ⟨q, hq, rfl⟩ := h
  rw [asStruct_key hq]
  cases hd : raw.key g!"default" with
  | none => exact .sc .nil
  | some d => exact hs d hd

theorem load_flat {p : P} {s s' : St} {v : V} (h : load p s = (.ok v, s')) (hp : Flat p) (hs : FlatSt s) :
    v.flat s'.heap.length ∧ FlatSt s' ∧ s.heap.length ≤ s'.heap.length := by
  obtain ⟨h1, h2, h3⟩ := loadP_flat p s.heap hp hs.heap
  simp only [load, Prod.mk.injEq, Res.ok.injEq] at h
  obtain ⟨rfl, rfl⟩ := h
  exact ⟨h1, ⟨h2, hs.tick, hs.wlog, hs.ilog, hs.noLast⟩, h3⟩

/-- What the constructors give. -/
def FlatNew (s : St) (t : T) (s' : St) : Prop := t.flatDefaults s'.heap.length ∧ FlatSt s' ∧ s.heap.length ≤ s'.heap.length

theorem newScalar_flat {lib : Lib} {path ident ty : Str} {raw : P} {s s' : St} {t : T}
    (h : newScalar lib path ident raw ty s = (.ok t, s')) (hs : FlatSt s) (hd : FlatDefault raw) (hn : NotLast ident raw) : FlatNew s t s' := by
  unfold newScalar at h
  simp only [M.bind_eq_ok, M.lift_eq_ok, M.pure_eq_ok] at h
  obtain ⟨_, _, ⟨_, rfl⟩, tis, _, ⟨htis, rfl⟩, d, _, ⟨hdd, rfl⟩, dv, s1, hl, tid, s2, ha, rfl, rfl⟩ := h
  obtain ⟨h1, h2, h3⟩ := load_flat hl (schemaDefault_flat hd hdd) hs
  obtain ⟨h4, h5⟩ := addInstrs_flat ha h2 (by rintro t rfl; exact extractInstrs_notLast hn htis)
  exact ⟨by simp only [T.flatDefaults, h5]; exact h1, h4, by rw [h5]; exact h3⟩

theorem newArray_flat {lib : Lib} {path ident : Str} {raw : P} {s s' : St} {t : T}
    (h : newArray lib path ident raw s = (.ok t, s')) (hs : FlatSt s) (hd : FlatDefault raw) (hn : NotLast ident raw) : FlatNew s t s' := by
  unfold newArray at h
  simp only [M.bind_eq_ok, M.lift_eq_ok] at h
  obtain ⟨tis, _, ⟨htis, rfl⟩, d, _, ⟨hdd, rfl⟩, dv, s1, hl, tid, s2, ha, h⟩ := h
  obtain ⟨h1, h2, h3⟩ := load_flat hl (schemaDefault_flat hd hdd) hs
  obtain ⟨h4, h5⟩ := addInstrs_flat ha h2 (by rintro t rfl; exact extractInstrs_notLast hn htis)
  split at h
  · rw [M.pure_eq_ok] at h
    obtain ⟨rfl, rfl⟩ := h
    exact ⟨by simp [T.flatDefaults], h4, by rw [h5]; exact h3⟩
  · rw [M.pure_eq_ok] at h
    obtain ⟨rfl, rfl⟩ := h
    refine ⟨?_, h4, by rw [h5]; exact h3⟩
    simp only [T.flatDefaults, Option.some.injEq, h5]
    rintro a rfl
    exact h1
  · simp [M.fail] at h

theorem newObject_flat {lib : Lib} {path ident : Str} {raw : P} {s s' : St} {t : T}
    (h : newObject lib path ident raw s = (.ok t, s')) (hs : FlatSt s) (hd : FlatDefault raw) (hn : NotLast ident raw) : FlatNew s t s' := by
  unfold newObject at h
  simp only [M.bind_eq_ok, M.lift_eq_ok] at h
  obtain ⟨tis, _, ⟨htis, rfl⟩, d, _, ⟨hdd, rfl⟩, dv, s1, hl, tid, s2, ha, h⟩ := h
  obtain ⟨h1, h2, h3⟩ := load_flat hl (schemaDefault_flat hd hdd) hs
  obtain ⟨h4, h5⟩ := addInstrs_flat ha h2 (by rintro t rfl; exact extractInstrs_notLast hn htis)
  split at h
  · rw [M.pure_eq_ok] at h
    obtain ⟨rfl, rfl⟩ := h
    exact ⟨by simp [T.flatDefaults, T.flatDefaultsKids], h4, by rw [h5]; exact h3⟩
  · exact h1.elim
  · simp [M.fail] at h

theorem newInstance_flat {lib : Lib} {path ident : Str} {raw : P} {s s' : St} {t : T}
    (h : newInstance lib ident path raw s = (.ok t, s')) (hs : FlatSt s) (hd : FlatDefault raw) (hn : NotLast ident raw) : FlatNew s t s' := by
  unfold newInstance at h
  simp only [M.bind_eq_ok, M.lift_eq_ok] at h
  obtain ⟨⟨ty, nu⟩, _, ⟨_, rfl⟩, h⟩ := h
  simp only at h
  by_cases h1 : ty = g!"object"
  · rw [if_pos h1] at h
    rcases hp : raw.key g!"properties" with _ | (_ | _ | (_ | _))
    · simp [hp, M.fail] at h
    all_goals rw [hp] at h
    · exact newObject_flat h hs hd hn
    · exact newObject_flat h hs hd hn
    · exact newScalar_flat h hs hd hn
    · exact newObject_flat h hs hd hn
  · rw [if_neg h1] at h
    by_cases h2 : ty = g!"array"
    · rw [if_pos h2] at h
      exact newArray_flat h hs hd hn
    · rw [if_neg h2] at h
      exact newScalar_flat h hs hd hn

theorem flatDefaultsKids_iff {n : Nat} {cs : List (Str × T)} : T.flatDefaultsKids n cs ↔ ∀ kt ∈ cs, kt.2.flatDefaults n := by
  induction cs with
  | nil => simp [T.flatDefaultsKids]
  | cons x xs ih => obtain ⟨k, t⟩ := x; simp [T.flatDefaultsKids, ih]

mutual
theorem T.flatDefaults_mono {n m : Nat} (h : n ≤ m) : ∀ (t : T), t.flatDefaults n → t.flatDefaults m
  | .scalar _ _ d _, ht => V.flat_mono h ht
  | .array _ d _ none, ht => by simp only [T.flatDefaults] at ht ⊢; exact fun a ha => Nat.lt_of_lt_of_le (ht a ha) h
  | .array _ d _ (some c), ht => by
    simp only [T.flatDefaults] at ht ⊢
    exact ⟨fun a ha => Nat.lt_of_lt_of_le (ht.1 a ha) h, T.flatDefaults_mono h c ht.2⟩
  | .object _ d _ cs, ht => by
    simp only [T.flatDefaults] at ht ⊢
    exact ⟨ht.1, T.flatDefaultsKids_mono h cs ht.2⟩
theorem T.flatDefaultsKids_mono {n m : Nat} (h : n ≤ m) : ∀ (cs : List (Str × T)), T.flatDefaultsKids n cs → T.flatDefaultsKids m cs
  | [], _ => trivial
  | (_, t) :: r, ht => by
    simp only [T.flatDefaultsKids] at ht ⊢
    exact ⟨T.flatDefaults_mono h t ht.1, T.flatDefaultsKids_mono h r ht.2⟩
end

theorem updateAt_flat {n : Nat} {f : T → Res T} (hf : ∀ t t', t.flatDefaults n → f t = .ok t' → t'.flatDefaults n) :
    ∀ {parts : List Str} {t t' : T}, t.flatDefaults n → T.updateAt f parts t = .ok t' → t'.flatDefaults n := by
  intro parts
  induction parts with
  | nil => intro t t' ht h; exact hf t t' ht h
  | cons sp rest ih =>
    intro t t' ht h
    simp only [T.updateAt] at h
    split at h
    · split at h
      · rw [Res.map_eq_ok] at h
        obtain ⟨c', hc', rfl⟩ := h
        simp only [T.flatDefaults] at ht ⊢
        exact ⟨ht.1, ih ht.2 hc'⟩
      · contradiction
    · split at h
      · split at h
        · rename_i c hc
          rw [Res.map_eq_ok] at h
          obtain ⟨c', hc', rfl⟩ := h
          simp only [T.flatDefaults, flatDefaultsKids_iff] at ht ⊢
          refine ⟨ht.1, ?_⟩
          intro kt hkt
          rcases GMap.mem_set hkt with rfl | hkt
          · exact ih (ht.2 _ (GMap.get_some_mem hc)) hc'
          · exact ht.2 _ hkt
        · contradiction
      · contradiction

theorem addChild_flat {n : Nat} {child t t' : T} (hc : child.flatDefaults n) (ht : t.flatDefaults n)
    (h : T.addChild child t = .ok t') : t'.flatDefaults n := by
  cases t with
  | scalar p ty d i => simp [T.addChild] at h; subst h; exact ht
  | array p d i c =>
    simp [T.addChild] at h
    subst h
    cases c <;> simp only [T.flatDefaults] at ht ⊢
    · exact ⟨ht, hc⟩
    · exact ⟨ht.1, hc⟩
  | object p d i cs =>
    simp only [T.addChild] at h
    split at h
    · simp at h
      subst h
      simp only [T.flatDefaults, flatDefaultsKids_iff] at ht ⊢
      refine ⟨ht.1, ?_⟩
      intro kt hkt
      rcases GMap.mem_set hkt with rfl | hkt
      · exact hc
      · exact ht.2 _ hkt
    · contradiction

theorem newTransformer_flat {env : Env} {sc : Schema} {ident : Str} {t : T} {s : St}
    (h : newTransformer env sc ident = .ok (t, s))
    (hd : ∀ q, SchemaInst sc q → FlatDefault q) (hn : ∀ q, SchemaInst sc q → NotLast ident q) :
    t.flatDefaults s.heap.length ∧ FlatSt s ∧ s.shared = s.heap.length := by
  unfold newTransformer at h
  simp only at h
  split at h
  · contradiction
  · rename_i r hr
    rw [Res.map_eq_ok] at h
    obtain ⟨⟨t1, s1⟩, hw, he⟩ := h
    simp at he
    obtain ⟨rfl, rfl⟩ := he
    have : (fun st : T × St => st.1.flatDefaults st.2.heap.length ∧ FlatSt st.2) (t1, s1) := by
      refine walkRawSchema_inv (I := fun st : T × St => st.1.flatDefaults st.2.heap.length ∧ FlatSt st.2) ?_ hw ?_
      · rintro path q ⟨ta, sa⟩ ⟨tb, sb⟩ hq hfn ⟨h1, h2⟩
        unfold walker at hfn
        split at hfn
        · contradiction
        · contradiction
        · rename_i node s2 hni
          obtain ⟨h3, h4, h5⟩ := newInstance_flat hni h2 (hd q hq) (hn q hq)
          split at hfn
          · contradiction
          · contradiction
          · rw [Res.map_eq_ok] at hfn
            obtain ⟨root, hroot, he⟩ := hfn
            simp at he
            obtain ⟨rfl, rfl⟩ := he
            exact ⟨updateAt_flat (fun t t' ht h => addChild_flat h3 ht h) (T.flatDefaults_mono h5 _ h1) hroot, h4⟩
      · refine ⟨?_, ⟨by intro a c h; simp [St.empty] at h, rfl, rfl, rfl, by simp [St.empty]⟩⟩
        split at hr
        · simp at hr; subst hr; simp [T.flatDefaults, T.flatDefaultsKids]
        · split at hr
          · simp at hr; subst hr; simp [T.flatDefaults]
          · contradiction
    obtain ⟨h1, h2⟩ := this
    exact ⟨h1, ⟨h2.heap, h2.tick, h2.wlog, h2.ilog, h2.noLast⟩, rfl⟩

/-! ### Calls -/

theorem invF_with {s0 : St} (hs : FlatSt s0) (other : Heap) : InvF ((s0.heap ++ other).length, s0.heap.length) (s0.with other) := by
  refine ⟨Nat.le_refl _, by simp, ?_, hs.noLast⟩
  intro a c ha hc
  have hlt := (List.getElem?_eq_some_iff.1 hc).1
  simp only [St.with] at hlt hc
  rcases ha with ha | ha
  · simp only at ha; omega
  · simp only at ha
    rw [List.getElem?_append_left ha] at hc
    obtain ⟨l, rfl, hl⟩ := hs.heap a c hc
    intro v hv
    have := hl v hv
    cases v with
    | sc s => trivial
    | arr b => exact .inr (Nat.lt_trans this ha)
    | obj b => exact this.elim

/-- C02 holds for steady schemas (`SteadySchema`): array defaults are allowed, and are not written.
Missing: schemas with object defaults or with method `last`, where it is false; array defaults that contain objects; arrays with a default or transform inside the
items of an array with a default. -/
theorem C02_arrays_partial {env0 : Env} {sc : Schema} {ident : Str} {t : T} {s0 : St} {fmt : Format} (hb : newTransformer env0 sc ident = .ok (t, s0))
    (hs : SteadySchema fmt ident sc) (env : Env) (hf : env.fmt = fmt) (raw : Str) (other : Heap) :
    let s := (baseTransform env t raw (s0.with other)).2
    (∀ a ∈ s.wlog, (s0.heap ++ other).length ≤ a) ∧ s.ilog = [] ∧
    (∀ a < (s0.heap ++ other).length, s.heap[a]? = (s0.heap ++ other)[a]?) ∧ s.instrs = s0.instrs := by
  obtain ⟨ht, hst, _⟩ := newTransformer_flat hb hs.flat hs.notLast
  have hstat := static_transformer hb hs.plain hs.dollar hs.inner
  obtain ⟨_, he, _⟩ := Frz.baseTransform (z := ((s0.heap ++ other).length, s0.heap.length)) (env := env) ht (by rw [hf]; exact hstat) raw _ (invF_with hst other)
  refine ⟨?_, ?_, he.heap, he.instrs⟩
  · obtain ⟨l, hl1, hl2⟩ := he.wlog
    rw [hl1, show (s0.with other).wlog = [] from hst.wlog, List.append_nil]
    exact hl2
  · exact he.ilog.trans hst.ilog

/-- A call leaves the Transformer exactly as it was. -/
theorem transform_steady {t : T} {s0 : St} (hs : FlatSt s0) (hsh : s0.shared = s0.heap.length) (ht : t.flatDefaults s0.heap.length) {env : Env} (hst : t.static env.fmt)
    (raw : Str) : (transform env t raw s0).2 = s0 := by
  have hinv := invF_with hs []
  have h0 : s0.with [] = s0 := by simp [St.with]
  rw [h0, List.append_nil] at hinv
  obtain ⟨hi, he, _⟩ := Frz.baseTransform (env := env) ht hst raw s0 hinv
  have hgc : (baseTransform env t raw s0).2.gc = s0 := by
    have h1 := he.instrs
    have h2 := he.shared
    have h3 := he.heap
    generalize (baseTransform env t raw s0).2 = s1 at *
    have htake : s1.heap.take s0.heap.length = s0.heap := by
      apply List.ext_getElem?
      intro a
      rw [List.getElem?_take]
      split
      · exact h3 a ‹_›
      · rw [List.getElem?_eq_none (by omega)]
    have hall : s0.heap.all (Cell.below s0.heap.length) = true := by
      rw [List.all_eq_true]
      intro c hc
      obtain ⟨a, hlt, hac⟩ := List.mem_iff_getElem.1 hc
      obtain ⟨l, rfl, hl⟩ := hs.heap a c (by rw [List.getElem?_eq_getElem hlt, hac])
      simp only [Cell.below, List.all_eq_true]
      intro v hv
      have := hl v hv
      cases v with
      | sc s => rfl
      | arr b => simp only [V.below, decide_eq_true_eq]; exact Nat.lt_trans this hlt
      | obj b => exact this.elim
    unfold St.gc
    rw [h2, hsh, htake, if_pos hall]
    obtain ⟨heap, instrs, tick, wlog, ilog, shared⟩ := s0
    have := hs.tick; have := hs.wlog; have := hs.ilog
    obtain ⟨heap1, instrs1, tick1, wlog1, ilog1, shared1⟩ := s1
    simp_all
  have hno : (transformNoValidation env t raw s0).2 = s0 := by
    unfold transformNoValidation
    exact hgc
  unfold transform validated
  rw [M.bind_apply]
  rcases hx : transformNoValidation env t raw s0 with ⟨r, s1⟩
  rw [hx] at hno
  simp only at hno
  subst hno
  cases r with
  | ok out =>
    simp only
    rcases env.lib.validate out with _ | (_ | _) <;> rfl
  | err => rfl
  | panic => rfl

/-- C01 holds for steady schemas (`SteadySchema`), for JSON and XML input, any library behaviour and any iteration order.
Missing: as for C02. -/
theorem C01_arrays_partial {env0 : Env} {sc : Schema} {ident : Str} {t : T} {s0 : St} {fmt : Format} (hb : newTransformer env0 sc ident = .ok (t, s0))
    (hs : SteadySchema fmt ident sc) (history : List (Env × Str)) (hh : ∀ c ∈ history, c.1.fmt = fmt) (env : Env) (raw : Str) :
    afterCalls t history s0 = s0 ∧ (transform env t raw (afterCalls t history s0)).1 = (transform env t raw s0).1 := by
  obtain ⟨ht, hst, hsh⟩ := newTransformer_flat hb hs.flat hs.notLast
  have hstat := static_transformer hb hs.plain hs.dollar hs.inner
  have key : afterCalls t history s0 = s0 := by
    induction history with
    | nil => rfl
    | cons c rest ih =>
      obtain ⟨env, raw⟩ := c
      simp only [afterCalls]
      rw [transform_steady hst hsh ht (by rw [show env.fmt = fmt from hh (env, raw) (by simp)]; exact hstat)]
      exact ih fun c hc => hh c (by simp [hc])
  rw [key]
  exact ⟨rfl, rfl⟩

/-- C79 holds for steady schemas (`SteadySchema`), for calls with input of one format.
Missing: as for C02. -/
theorem C79_arrays_partial {env0 : Env} {sc : Schema} {ident : Str} {t : T} {s0 : St} {fmt : Format} (hb : newTransformer env0 sc ident = .ok (t, s0))
    (hs : SteadySchema fmt ident sc) (calls : List (Env × Str)) (hf : ∀ c ∈ calls, c.1.fmt = fmt) (ps : List (Prog Str)) (hps : CallsOf t calls ps) :
    Concurrent t s0 calls ps := by
  refine concurrent_of_own calls ps hps fun p hp => ?_
  obtain ⟨i, hi, rfl⟩ := List.mem_iff_getElem.mp hp
  have hi' : i < calls.length := by rw [← hps.1]; exact hi
  have hc := hps.2 i _ _ (List.getElem?_eq_getElem hi') (List.getElem?_eq_getElem hi)
  obtain ⟨h1, h2, -⟩ := C02_arrays_partial hb hs calls[i].1 (hf _ (List.getElem_mem hi')) calls[i].2 []
  have h0 : s0.with [] = s0 := by simp [St.with]
  rw [h0, List.append_nil] at h1
  rw [h0] at h2
  have hil : s0.ilog = [] := (newTransformer_flat hb hs.flat hs.notLast).2.1.ilog
  rw [IsCall] at hc
  refine ⟨fun a ha => h1 a ?_, ?_⟩
  · rw [hc, validated_state] at ha; exact ha
  · rw [hc, validated_state, h2, hil]

/-! ### Examples -/

namespace C01arrex
open Toy C01ex

mutual
def flatB : P → Bool
  | .sc _ => true
  | .arr l => flatsB l
  | .obj _ => false
def flatsB : List P → Bool
  | [] => true
  | p :: ps => flatB p && flatsB ps
end

mutual
theorem flatB_sound : ∀ {p : P}, flatB p = true → Flat p
  | .sc s, _ => .sc s
  | .arr l, h => .arr (flatsB_sound (by simpa only [flatB] using h))
  | .obj m, h => by simp [flatB] at h
theorem flatsB_sound : ∀ {l : List P}, flatsB l = true → ∀ x ∈ l, Flat x
  | [], _ => by simp
  | p :: ps, h => by
    simp only [flatsB, Bool.and_eq_true] at h
    intro x hx
    simp only [List.mem_cons] at hx
    rcases hx with rfl | hx
    · exact flatB_sound h.1
    · exact flatsB_sound h.2 x hx
end

def flatDefaultB (q : P) : Bool := match q.key g!"default" with
  | some d => flatB d
  | none => true

theorem flatDefaultB_sound {q : P} (h : flatDefaultB q = true) : FlatDefault q := by
  intro d hd
  unfold flatDefaultB at h
  rw [hd] at h
  exact flatB_sound h

theorem steady_of {fmt : Format} {ident : Str} {n : Nat} {sc : Schema} (h : (calmSchemaB fmt ident n sc && checkSchema flatDefaultB n sc && checkSchema (notLastB ident) n sc) = true) :
    SteadySchema fmt ident sc := by
  simp only [Bool.and_eq_true] at h
  have hc := calmSchemaB_sound h.1.1
  exact ⟨hc.plain, hc.dollar, fun q hq => flatDefaultB_sound (checkSchema_sound h.1.2 hq), fun q hq => notLastB_sound (checkSchema_sound h.2 hq), hc.inner⟩

/-- An array whose default has arrays as entries; an array with a default below an object; a transform. -/
def okArrays : Schema := ⟨some [
  (g!"l", o [(g!"type", s g!"array"), (g!"default", a [a [s g!"1", s g!"2"], a []]), (g!"items", o [(g!"type", s g!"array"), (g!"items", o [(g!"type", s g!"string")])])]),
  (g!"o", .obj [(g!"type", s g!"object"), (g!"properties", o [
    (g!"e", o [(g!"type", s g!"array"), (g!"default", a [s g!"z"]), (g!"items", o [(g!"type", s g!"string")])]),
    (g!"x", strFrom g!"concatenate" [g!"$.a", g!"$.b"])])])], none⟩

/-- An array with a default whose items have an array with a transform. -/
def leaky : Schema := ⟨some [
  (g!"l", o [(g!"type", s g!"array"), (g!"default", a [s g!"1"]), (g!"items", o [(g!"type", s g!"object"), (g!"properties", o [
    (g!"c", o [(g!"type", s g!"array"), (g!"items", o [(g!"type", s g!"string")]), (g!"transform", o [(g!"t", o [(g!"from", a [o [(g!"jsonPath", s g!"$.a")]])])])])])])])], none⟩

theorem ok_steady : SteadySchema .json g!"t" okArrays := steady_of (n := 6) (by decide +kernel)

theorem ok_runs : two okArrays g!"in" g!"in3" = .ok (g!"{l:[[\"1\",\"2\"]],o:{e:[\"z\"]}}", g!"{l:[[\"1\",\"2\"]],o:{e:[\"z\"]}}") := by decide +kernel

/-- The defaults of `leaky` after a call contain what that call read from its input. -/
theorem leaks : two leaky g!"in" g!"in3" = .ok (g!"{l:[{c:[\"A\"]}]}", g!"null") := by decide +kernel

/-- The hypotheses are met by a schema whose array defaults are in fact used, with any calls before and at the same time. -/
example : ∃ t s0, newTransformer (env docs) okArrays g!"t" = .ok (t, s0) ∧ s0.heap.length = 4 ∧ (∀ history : List Str,
      (transform (env docs) t g!"in3" (afterCalls t (history.map fun r => (env docs, r)) s0)).1 = .ok g!"{l:[[\"1\",\"2\"]],o:{e:[\"z\"]}}") ∧
    ∀ calls : List Str, ∀ ps, CallsOf t (calls.map fun r => (env docs, r)) ps → Concurrent t s0 (calls.map fun r => (env docs, r)) ps := by
  have h : (match built okArrays with
    | .ok (t, s0) => decide ((transform (env docs) t g!"in3" s0).1 = .ok g!"{l:[[\"1\",\"2\"]],o:{e:[\"z\"]}}") && decide (s0.heap.length = 4)
    | _ => false) = true := by decide +kernel
  split at h
  · rename_i t s0 hb
    simp only [Bool.and_eq_true, decide_eq_true_eq] at h
    refine ⟨t, s0, hb, h.2, fun history => ?_, fun calls ps hps => C79_arrays_partial hb ok_steady _ ?_ ps hps⟩
    · rw [(C01_arrays_partial hb ok_steady _ ?_ _ _).2, h.1]
      intro c hc
      obtain ⟨_, _, rfl⟩ := List.mem_map.1 hc
      rfl
    · intro c hc
      obtain ⟨_, _, rfl⟩ := List.mem_map.1 hc
      rfl
  · contradiction

end C01arrex

/-- C01 is false in general: with an array transform inside the items of an array, what one call read from its input is stored in the default of the outer array and
returned by the next call. -/
theorem C01_refuted_array : ¬ C01_statement := C01_of_two C01arrex.leaks (by decide)

/-- C02 is false in general: the slice of an array default is written during the call. -/
theorem C02_refuted_array : ¬ C02_statement :=
  C02_of_write (sc := C01arrex.leaky) (raw := g!"in") (by
    have : C01ex.writesShared C01arrex.leaky g!"in" = (true, false) := by decide +kernel
    rw [this]; decide)

end JT
