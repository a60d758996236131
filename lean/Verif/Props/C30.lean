import Verif.Proofs.NoPanic
import Verif.Proofs.SchemaVal
import Verif.Props.C25
import Verif.Spec.CheckSimple
/- C30: Transform does not panic. -/
namespace JT
open Spec

namespace Spec
/-- No `max` in the transform for the identifier. -/
def NoMax (ident : Str) (q : P) : Prop :=
  ∀ tr l e ops op, (q.key g!"transform").bind (P.key ident) = some tr → tr.key g!"from" = some (.arr l) → e ∈ l →
    e.key g!"operations" = some (.arr ops) → op ∈ ops → op.key g!"type" ≠ some (.sc (.str g!"max"))

/-- `q` is an instance inside the items of an array of `p`. -/
def Within (p q : P) : Prop := ∃ r i, Inst p r ∧ r.key g!"items" = some i ∧ Inst i q

/-- `q` is an instance inside the items of an array of the schema. -/
def SchemaWithin (sc : Schema) (q : P) : Prop := (∃ m k p, sc.properties = some m ∧ (k, p) ∈ m ∧ Within p q) ∨ ∃ p, sc.items = some p ∧ Inst p q

/-- An array instance. -/
def ArrayInst (q : P) : Prop := ∃ nu, fieldType q = .ok (g!"array", nu)

/-- No property is called `$`. -/
def NoDollar (q : P) : Prop := ∀ m, q.key g!"properties" = some (.obj m) → ∀ kv ∈ m, kv.1 ≠ g!"$"

/-- Schemas for which no input makes the code panic: plain property names other than `$`; no operation `max`; for JSON input, an array inside the items of another
array has no default and no transform of its own. -/
structure CalmSchema (fmt : Format) (ident : Str) (sc : Schema) : Prop where
  plain : PlainSchema sc
  dollar : (∀ m, sc.properties = some m → ∀ kv ∈ m, kv.1 ≠ g!"$") ∧ ∀ q, SchemaInst sc q → NoDollar q
  noMax : ∀ q, SchemaInst sc q → NoMax ident q
  inner : fmt = .json → ∀ q, SchemaWithin sc q → ArrayInst q → NoDefault q ∧ NoTransform ident q
end Spec

/-- **C30, full statement**: at no time in the life of a Transformer does a call panic. -/
def C30_statement : Prop :=
  ∀ (env0 : Env) (sc : Schema) (ident : Str) (t : T) (s0 : St), newTransformer env0 sc ident = .ok (t, s0) →
    ∀ (history : List (Env × Str)) (env : Env) (raw : Str), (transform env t raw (afterCalls t history s0)).1 ≠ .panic

/-! ### Transformers without panics -/

mutual
/-- Paths of a transformer tree. -/
def T.static (fmt : Format) : T → Prop
  | .scalar _ _ _ _ => True
  | .array p d tid none => fmt = .json → d.isSome = true ∨ tid.isSome = true → SavePathOk p
  | .array p d tid (some c) => (fmt = .json → d.isSome = true ∨ tid.isSome = true → SavePathOk p) ∧ c.static fmt
  | .object p _ _ cs => T.staticKids fmt p cs
def T.staticKids (fmt : Format) : Str → List (Str × T) → Prop
  | _, [] => True
  | p, (k, t) :: r => (t.path = p ++ '.' :: k ∧ '.' ∉ k ∧ '[' ∉ k) ∧ t.static fmt ∧ T.staticKids fmt p r
end

/-- A default: well-typed and shared. -/
def DOk (s : St) (d : V) : Prop := NV s d ∧ d.below s.shared = true
def DArr (s : St) (o : Option Addr) : Prop := ∀ a, o = some a → DOk s (.arr a)
def DObj (s : St) (o : Option Addr) : Prop := ∀ a, o = some a → DOk s (.obj a)

theorem DOk.mono {s s' : St} (hk : Kinds s s') {d : V} (h : DOk s d) : DOk s' d := ⟨V.ok_mono hk h.1, by rw [hk.shared]; exact h.2⟩

mutual
/-- Defaults and instruction sets of a transformer tree in memory. -/
def T.mem (s : St) : T → Prop
  | .scalar _ _ d tid => DOk s d ∧ CalmTid s tid
  | .array _ d tid none => DArr s d ∧ CalmTid s tid
  | .array _ d tid (some c) => (DArr s d ∧ CalmTid s tid) ∧ c.mem s
  | .object _ d tid cs => (DObj s d ∧ CalmTid s tid) ∧ T.memKids s cs
def T.memKids (s : St) : List (Str × T) → Prop
  | [] => True
  | (_, t) :: r => t.mem s ∧ T.memKids s r
end

/-- A change of memory that keeps defaults and instruction sets. -/
structure KeepsMem (s s' : St) : Prop where
  dflt : ∀ d, DOk s d → DOk s' d
  tid : ∀ tid, CalmTid s tid → CalmTid s' tid

theorem Kinds.keeps {s s' : St} (h : Kinds s s') : KeepsMem s s' := ⟨fun _ => DOk.mono h, fun _ => CalmTid.mono h⟩

mutual
theorem T.mem_mono {s s' : St} (h : KeepsMem s s') : ∀ (t : T), t.mem s → t.mem s'
  | .scalar _ _ d tid, hm => by simp only [T.mem] at hm ⊢; exact ⟨h.dflt _ hm.1, h.tid _ hm.2⟩
  | .array _ d tid none, hm => by simp only [T.mem] at hm ⊢; exact ⟨fun a ha => h.dflt _ (hm.1 a ha), h.tid _ hm.2⟩
  | .array _ d tid (some c), hm => by
    simp only [T.mem] at hm ⊢
    exact ⟨⟨fun a ha => h.dflt _ (hm.1.1 a ha), h.tid _ hm.1.2⟩, T.mem_mono h c hm.2⟩
  | .object _ d tid cs, hm => by
    simp only [T.mem] at hm ⊢
    exact ⟨⟨fun a ha => h.dflt _ (hm.1.1 a ha), h.tid _ hm.1.2⟩, T.memKids_mono h cs hm.2⟩
theorem T.memKids_mono {s s' : St} (h : KeepsMem s s') : ∀ (cs : List (Str × T)), T.memKids s cs → T.memKids s' cs
  | [], _ => trivial
  | (_, t) :: r, hm => by
    simp only [T.memKids] at hm ⊢
    exact ⟨T.mem_mono h t hm.1, T.memKids_mono h r hm.2⟩
end

mutual
theorem NP.run {env : Env} (hx : XOk env) {P : St → Prop} (hP : ∀ s s', Kinds s s' → P s → P s') : ∀ (t : T), t.static env.fmt → (∀ s, P s → t.mem s) →
    NPTF P (t.run env)
  | .scalar p ty d tid, _, hm => by
    simp only [T.run]
    refine NP.runScalar hx hP fun s hp => ?_
    have := hm s hp
    simp only [T.mem] at this
    exact ⟨this.1.1, this.2⟩
  | .array p d tid none, hs, hm => by
    simp only [T.run, T.static] at hs ⊢
    refine NP.runArray hx hP (fun s hp => ?_) hs (by simp)
    have := hm s hp
    simp only [T.mem] at this
    exact ⟨fun a ha => (this.1 a ha).1, this.2⟩
  | .array p d tid (some c), hs, hm => by
    simp only [T.run, T.static] at hs ⊢
    refine NP.runArray hx hP (fun s hp => ?_) hs.1 ?_
    · have := hm s hp
      simp only [T.mem] at this
      exact ⟨fun a ha => (this.1.1 a ha).1, this.1.2⟩
    · intro c' hc'
      simp only [Option.some.injEq] at hc'
      subst hc'
      refine NP.run hx hP c hs.2 fun s hp => ?_
      have := hm s hp
      simp only [T.mem] at this
      exact this.2
  | .object p d tid cs, hs, hm => by
    simp only [T.run, T.static] at hs ⊢
    refine NP.runObject hx hP (fun s hp => ?_) ?_
    · have := hm s hp
      simp only [T.mem] at this
      exact ⟨fun a ha => (this.1.1 a ha).1, this.1.2⟩
    · refine NP.runKids hx hP p cs hs fun s hp => ?_
      have := hm s hp
      simp only [T.mem] at this
      exact this.2
theorem NP.runKids {env : Env} (hx : XOk env) {P : St → Prop} (hP : ∀ s s', Kinds s s' → P s → P s') : ∀ (p : Str) (cs : List (Str × T)), T.staticKids env.fmt p cs →
    (∀ s, P s → T.memKids s cs) → ∀ k ∈ T.runKids env cs, KidOk p k ∧ NPTF P k.2
  | _, [], _, _ => by simp [T.runKids]
  | p, (n, t) :: r, hs, hm => by
    simp only [T.staticKids] at hs
    intro k hk
    simp only [T.runKids, List.mem_cons] at hk
    rcases hk with rfl | hk
    · refine ⟨⟨n, hs.1.1, hs.1.2.1, hs.1.2.2⟩, NP.run hx hP t hs.2.1 fun s hp => ?_⟩
      have := hm s hp
      simp only [T.memKids] at this
      exact this.1
    · refine NP.runKids hx hP p r hs.2.2 (fun s hp => ?_) k hk
      have := hm s hp
      simp only [T.memKids] at this
      exact this.2
end

/-! ### Loading documents -/

/-- As `TInv`, for a heap. -/
structure HInv (h : Heap) : Prop where
  cell : ∀ (a : Nat) (c : Cell), h[a]? = some c → c.ok h
  order : ∀ (a : Nat) (l : List V), h[a]? = some (.slice l) → ∀ v ∈ l, v.before a

/-- A heap that was only extended. -/
def HExt (h h' : Heap) : Prop := ∀ (a : Nat) (c : Cell), h[a]? = some c → h'[a]? = some c

theorem V.ok_ext {h h' : Heap} (he : HExt h h') {v : V} (hv : v.ok h) : v.ok h' := by
  cases v with
  | sc _ => trivial
  | arr a => obtain ⟨l, hl⟩ := hv; exact ⟨l, he a _ hl⟩
  | obj a => obtain ⟨l, hl⟩ := hv; exact ⟨l, he a _ hl⟩

theorem HExt.snoc (h : Heap) (c : Cell) : HExt h (h ++ [c]) := fun a c' hc => by
  rw [List.getElem?_append_left (lt_of_getElem? hc)]; exact hc

theorem HInv.snoc {h : Heap} (hi : HInv h) {c : Cell} (hc : c.ok h) : HInv (h ++ [c]) := by
  have mono : ∀ {c' : Cell}, c'.ok h → c'.ok (h ++ [c]) := by
    intro c' h'
    cases c' with
    | map m => exact fun kv hkv => V.ok_ext (HExt.snoc h c) (h' kv hkv)
    | slice l => exact fun v hv => V.ok_ext (HExt.snoc h c) (h' v hv)
  constructor
  · intro a c' h'
    rcases getElem?_snoc h' with h' | ⟨_, rfl⟩
    · exact mono (hi.cell a c' h')
    · exact mono hc
  · intro a l h'
    rcases getElem?_snoc h' with h' | ⟨rfl, rfl⟩
    · exact hi.order a l h'
    · exact fun v hv => V.ok_before (hc v hv)

theorem ofList_ok {h : Heap} {l : List (Str × V)} (hl : ∀ kv ∈ l, kv.2.ok h) : ∀ kv ∈ GMap.ofList l, kv.2.ok h := by
  have : ∀ (l m : GMap V), (∀ kv ∈ l, kv.2.ok h) → (∀ kv ∈ m, kv.2.ok h) → ∀ kv ∈ l.foldl (fun m kv => GMap.set kv.1 kv.2 m) m, kv.2.ok h := by
    intro l
    induction l with
    | nil => intro m _ hm; exact hm
    | cons x xs ih =>
      intro m hl hm
      exact ih _ (fun kv h => hl kv (by simp [h])) (set_ok hm (hl x (by simp)))
  exact this _ [] hl (by simp)

mutual
theorem loadP_hinv : ∀ (p : P) (h : Heap), HInv h → (loadP p h).1.ok (loadP p h).2 ∧ HInv (loadP p h).2 ∧ HExt h (loadP p h).2
  | .sc s, h, hi => ⟨trivial, hi, fun _ _ => id⟩
  | .arr l, h, hi => by
    obtain ⟨h1, h2, h3⟩ := loadList_hinv l h hi
    simp only [loadP]
    exact ⟨⟨(loadList l h).1, by simp⟩, HInv.snoc h2 h1, fun a c hc => HExt.snoc _ _ a c (h3 a c hc)⟩
  | .obj m, h, hi => by
    obtain ⟨h1, h2, h3⟩ := loadFields_hinv m h hi
    simp only [loadP]
    exact ⟨⟨GMap.ofList (loadFields m h).1, by simp⟩, HInv.snoc h2 (ofList_ok h1), fun a c hc => HExt.snoc _ _ a c (h3 a c hc)⟩
theorem loadList_hinv : ∀ (l : List P) (h : Heap), HInv h → (∀ v ∈ (loadList l h).1, v.ok (loadList l h).2) ∧ HInv (loadList l h).2 ∧ HExt h (loadList l h).2
  | [], h, hi => ⟨by simp [loadList], hi, fun _ _ => id⟩
  | p :: ps, h, hi => by
    obtain ⟨h1, h2, h3⟩ := loadP_hinv p h hi
    obtain ⟨g1, g2, g3⟩ := loadList_hinv ps (loadP p h).2 h2
    simp only [loadList]
    refine ⟨?_, g2, fun a c hc => g3 a c (h3 a c hc)⟩
    intro v hv
    simp only [List.mem_cons] at hv
    rcases hv with rfl | hv
    · exact V.ok_ext g3 h1
    · exact g1 v hv
theorem loadFields_hinv : ∀ (l : List (Str × P)) (h : Heap), HInv h →
    (∀ kv ∈ (loadFields l h).1, kv.2.ok (loadFields l h).2) ∧ HInv (loadFields l h).2 ∧ HExt h (loadFields l h).2
  | [], h, hi => ⟨by simp [loadFields], hi, fun _ _ => id⟩
  | (k, p) :: ps, h, hi => by
    obtain ⟨h1, h2, h3⟩ := loadP_hinv p h hi
    obtain ⟨g1, g2, g3⟩ := loadFields_hinv ps (loadP p h).2 h2
    simp only [loadFields]
    refine ⟨?_, g2, fun a c hc => g3 a c (h3 a c hc)⟩
    intro v hv
    simp only [List.mem_cons] at hv
    rcases hv with rfl | hv
    · exact V.ok_ext g3 h1
    · exact g1 v hv
end

theorem NP.load (p : P) {s : St} : NP s (load p) NV := by
  intro hs
  obtain ⟨h1, h2, h3⟩ := loadP_hinv p s.heap ⟨hs.cell, hs.order⟩
  refine ⟨by simp [JT.load], ⟨h2.cell, h2.order⟩, ⟨fun a l h => h3 a _ h, fun a m h => ⟨m, h3 a _ h⟩, fun _ t h => ⟨t, h, fun _ => id⟩, rfl⟩, ?_⟩
  intro v hv
  simp only [JT.load, Res.ok.injEq] at hv ⊢
  subst hv
  exact h1

theorem NP.baseTransform {env : Env} (hx : XOk env) {t : T} (ht : t.static env.fmt) {s : St} (hm : t.mem s) (raw : Str) :
    NP s (baseTransform env t raw) (fun _ _ => True) := by
  have hr : NP s (readInput env raw) NV := by
    unfold readInput
    split
    · split
      · exact NP.fail
      · exact NP.load _
    · split
      · exact NP.fail
      · exact NP.pure trivial
  refine NP.bind hr fun s1 inp _ hk1 hi => ?_
  refine NP.bind (NP.run hx (P := fun s => t.mem s) (fun _ _ hk h => T.mem_mono hk.keeps t h) t ht (fun _ h => h) s1 inp _ (T.mem_mono hk1.keeps t hm) hi ModOk.id)
    fun s2 v _ _ _ => ?_
  refine NP.bind NP.getHeap fun s3 h _ _ _ => ?_
  split
  · exact NP.fail
  · split
    · exact NP.fail
    · exact NP.pure trivial

/-! ### Between calls -/

theorem gc_inv {s : St} (h : TInv s) : TInv s.gc ∧ KeepsMem s s.gc := by
  by_cases hb : (s.heap.take s.shared).all (Cell.below s.shared) = true
  · have he : s.gc = { s with heap := s.heap.take s.shared, tick := 0, wlog := [], ilog := [] } := by unfold St.gc; simp only [hb, if_true]
    rw [he]
    have tk : ∀ (a : Nat) (c : Cell), (s.heap.take s.shared)[a]? = some c → s.heap[a]? = some c := by
      intro a c hc
      rw [List.getElem?_take] at hc
      split at hc
      · exact hc
      · simp at hc
    have vok : ∀ v : V, v.ok s.heap → v.below s.shared = true → v.ok (s.heap.take s.shared) := by
      intro v hv hbv
      cases v with
      | sc _ => trivial
      | arr a =>
        obtain ⟨l, hl⟩ := hv
        simp only [V.below, decide_eq_true_eq] at hbv
        exact ⟨l, by rw [List.getElem?_take, if_pos hbv]; exact hl⟩
      | obj a =>
        obtain ⟨l, hl⟩ := hv
        simp only [V.below, decide_eq_true_eq] at hbv
        exact ⟨l, by rw [List.getElem?_take, if_pos hbv]; exact hl⟩
    refine ⟨⟨?_, ?_⟩, ⟨?_, fun _ => id⟩⟩
    · intro a c hc
      have h1 := h.cell a c (tk a c hc)
      have h2 := List.all_eq_true.1 hb c (List.mem_of_getElem? hc)
      cases c with
      | map m => exact fun kv hkv => vok kv.2 (h1 kv hkv) (List.all_eq_true.1 h2 kv hkv)
      | slice l => exact fun v hv => vok v (h1 v hv) (List.all_eq_true.1 h2 v hv)
    · exact fun a l hl => h.order a l (tk a _ hl)
    · exact fun d hd => ⟨vok d hd.1 hd.2, hd.2⟩
  · have he : s.gc = { s with tick := 0, wlog := [], ilog := [] } := by unfold St.gc; simp only [hb]; rfl
    rw [he]
    exact ⟨⟨h.cell, h.order⟩, ⟨fun _ => id, fun _ => id⟩⟩

theorem transform_np {env : Env} (hx : XOk env) {t : T} (ht : t.static env.fmt) {s : St} (hs : TInv s) (hm : t.mem s) (raw : Str) :
    (transform env t raw s).1 ≠ .panic ∧ (transformNoValidation env t raw s).1 ≠ .panic ∧ TInv (transform env t raw s).2 ∧ t.mem (transform env t raw s).2 := by
  obtain ⟨h1, h2, h3, _⟩ := NP.baseTransform hx ht hm raw hs
  obtain ⟨g1, g2⟩ := gc_inv h2
  have hm2 := T.mem_mono g2 t (T.mem_mono h3.keeps t hm)
  have hn : transformNoValidation env t raw s = ((baseTransform env t raw s).1, (baseTransform env t raw s).2.gc) := rfl
  unfold transform validated
  rw [M.bind_apply, hn]
  rcases hr : (baseTransform env t raw s).1 with out | _ | _
  · simp only
    rcases env.lib.validate out with _ | (_ | _) <;> exact ⟨by simp [M.fail, Pure.pure, M.pure], by simp, g1, hm2⟩
  · exact ⟨by simp, by simp, g1, hm2⟩
  · exact absurd hr h1

theorem afterCalls_np {t : T} {fmt : Format} (ht : t.static fmt) : ∀ {history : List (Env × Str)} {s : St}, (∀ c ∈ history, c.1.fmt = fmt ∧ XOk c.1) → TInv s → t.mem s →
    TInv (afterCalls t history s) ∧ t.mem (afterCalls t history s)
  | [], _, _, h1, h2 => ⟨h1, h2⟩
  | (env, raw) :: rest, s, hc, h1, h2 => by
    have h0 := hc (env, raw) (by simp)
    obtain ⟨_, _, g1, g2⟩ := transform_np h0.2 (by rw [h0.1]; exact ht) h1 h2 raw
    rw [afterCalls]
    exact afterCalls_np ht (fun c h => hc c (by simp [h])) g1 g2

/-! ### Transformers built from schemas -/

theorem newInstance_tinv {lib : Lib} {path ident : Str} {raw : P} {s s' : St} {t : T} (h : newInstance lib ident path raw s = (.ok t, s')) (hs : TInv s) : TInv s' := by
  have comb : ∀ {p : P} {a b c : St} {v : V} {ti : Option Instrs} {r : Option Nat}, load p a = (.ok v, b) → addInstrs ti b = (.ok r, c) → TInv a → TInv c := by
    intro p a b c v ti r h1 h2 ha
    have hb : TInv b := by
      have := (NP.load p (s := a) ha).2.1
      rw [h1] at this
      exact this
    unfold addInstrs at h2
    split at h2
    · simp only [Prod.mk.injEq, Res.ok.injEq] at h2; rw [← h2.2]; exact hb
    · simp only [Prod.mk.injEq, Res.ok.injEq] at h2; rw [← h2.2]; exact ⟨hb.cell, hb.order⟩
  have ho : newObject lib path ident raw s = (.ok t, s') → TInv s' := by
    intro h
    unfold newObject at h
    simp only [M.bind_eq_ok, M.lift_eq_ok] at h
    obtain ⟨tis, _, ⟨htis, rfl⟩, d, _, ⟨hdd, rfl⟩, dv, s1, hl, tid, s2, ha, h⟩ := h
    split at h
    · rw [M.pure_eq_ok] at h; obtain ⟨_, rfl⟩ := h; exact comb hl ha hs
    · rw [M.pure_eq_ok] at h; obtain ⟨_, rfl⟩ := h; exact comb hl ha hs
    · simp [M.fail] at h
  have hsc : ∀ ty, newScalar lib path ident raw ty s = (.ok t, s') → TInv s' := by
    intro ty h
    unfold newScalar at h
    simp only [M.bind_eq_ok, M.lift_eq_ok, M.pure_eq_ok] at h
    obtain ⟨_, _, ⟨_, rfl⟩, tis, _, ⟨htis, rfl⟩, d, _, ⟨hdd, rfl⟩, dv, s1, hl, tid, s2, ha, rfl, rfl⟩ := h
    exact comb hl ha hs
  unfold newInstance at h
  simp only [M.bind_eq_ok, M.lift_eq_ok] at h
  obtain ⟨⟨ty, nu⟩, _, ⟨_, rfl⟩, h⟩ := h
  simp only at h
  by_cases h1 : ty = g!"object"
  · rw [if_pos h1] at h
    rcases hp : raw.key g!"properties" with _ | (_ | _ | (_ | _))
    · simp [hp, M.fail] at h
    all_goals rw [hp] at h
    · exact ho h
    · exact ho h
    · exact hsc _ h
    · exact ho h
  · rw [if_neg h1] at h
    by_cases h2 : ty = g!"array"
    · rw [if_pos h2] at h
      unfold newArray at h
      simp only [M.bind_eq_ok, M.lift_eq_ok] at h
      obtain ⟨tis, _, ⟨htis, rfl⟩, d, _, ⟨hdd, rfl⟩, dv, s1, hl, tid, s2, ha, h⟩ := h
      split at h
      · rw [M.pure_eq_ok] at h; obtain ⟨_, rfl⟩ := h; exact comb hl ha hs
      · rw [M.pure_eq_ok] at h; obtain ⟨_, rfl⟩ := h; exact comb hl ha hs
      · simp [M.fail] at h
    · rw [if_neg h2] at h
      exact hsc _ h

theorem newTransformer_tinv {env : Env} {sc : Schema} {ident : Str} {t : T} {s0 : St} (hb : newTransformer env sc ident = .ok (t, s0)) :
    TInv s0 ∧ s0.shared = s0.heap.length := by
  unfold newTransformer at hb
  simp only at hb
  split at hb
  · contradiction
  · rename_i r hr
    rw [Res.map_eq_ok] at hb
    obtain ⟨⟨t1, s1⟩, hw, he⟩ := hb
    simp at he
    obtain ⟨rfl, rfl⟩ := he
    have : (fun st : T × St => TInv st.2) (t1, s1) := by
      refine walkRawSchema_inv (I := fun st : T × St => TInv st.2) ?_ hw ⟨by simp [St.empty], by simp [St.empty]⟩
      rintro path q ⟨ta, sa⟩ ⟨tb, sb⟩ hq hfn h1
      unfold walker at hfn
      split at hfn
      · contradiction
      · contradiction
      · rename_i node s2 hni
        have := newInstance_tinv hni h1
        split at hfn
        · contradiction
        · contradiction
        · rw [Res.map_eq_ok] at hfn
          obtain ⟨root, hroot, he⟩ := hfn
          simp at he
          obtain ⟨rfl, rfl⟩ := he
          exact this
    exact ⟨⟨this.cell, this.order⟩, rfl⟩

theorem toP_ok {h : Heap} {d : V} {p : P} (hd : h.toP d = some p) : d.ok h := by
  unfold Heap.toP at hd
  cases d with
  | sc _ => trivial
  | arr a =>
    simp only [reify] at hd
    split at hd
    · exact ⟨_, by assumption⟩
    · contradiction
  | obj a =>
    simp only [reify] at hd
    split at hd
    · exact ⟨_, by assumption⟩
    · contradiction

theorem DefaultIs.dok {s : St} (hsh : s.shared = s.heap.length) {d : V} {raw : P} (h : DefaultIs s d raw) : DOk s d := by
  have hd := toP_ok h
  refine ⟨hd, ?_⟩
  rw [hsh]
  cases d with
  | sc _ => rfl
  | arr a => obtain ⟨l, hl⟩ := hd; simp only [V.below, decide_eq_true_eq]; exact lt_of_getElem? hl
  | obj a => obtain ⟨l, hl⟩ := hd; simp only [V.below, decide_eq_true_eq]; exact lt_of_getElem? hl

theorem initOp_max {lib : Lib} {name : Str} {args : GMap Str} : ∀ op, initOp lib name args = some op → (∃ b r, op = .max b r) → name = g!"max" := by
  unfold initOp
  repeat' (first | (refine ite_all (fun hc => ?_) (fun hc => ?_)) | (intro z h; cases h; done) | (intro z h; cases h; rintro ⟨b, r, hf⟩; cases hf; done))
  intro z h _
  assumption

theorem parseInstrs_max {lib : Lib} {tr : P} {tis : Instrs} (h : parseInstrs lib tr = .ok tis)
    (hc : ∀ l e ops op, tr.key g!"from" = some (.arr l) → e ∈ l → e.key g!"operations" = some (.arr ops) → op ∈ ops →
      op.key g!"type" ≠ some (.sc (.str g!"max"))) : ∀ ti ∈ tis.from, ti.calm := by
  unfold parseInstrs at h
  simp only [Res.bind_eq_ok, Res.pure_eq_ok] at h
  obtain ⟨p, hp, fromJ, hfr, fr, hmap, _, _, _, _, _, _, m, _, rfl⟩ := h
  intro ti hti op hop
  rcases Classical.em (∃ b r, op = .max b r) with hf | hf
  case inr =>
    cases op <;> first | trivial | exact absurd ⟨_, _, rfl⟩ hf
  simp only at hti
  obtain ⟨e, he, hpe⟩ := mapRes_mem hmap ti hti
  have hfr' := asList_mem hfr he
  rw [asStruct_key hp] at hfr'
  have hpi : ∃ p2 opsJ, asStruct e = .ok p2 ∧ asList (p2.key g!"operations") = .ok opsJ ∧ mapRes (parseOp lib) opsJ = .ok ti.ops := by
    unfold parseInstr at hpe
    split at hpe
    · contradiction
    · simp only [Res.bind_eq_ok, Res.pure_eq_ok] at hpe
      obtain ⟨p2, h2, _, _, _, _, opsJ, h3, ops, h4, rfl⟩ := hpe
      exact ⟨p2, opsJ, h2, h3, h4⟩
  obtain ⟨p2, opsJ, h2, h3, h4⟩ := hpi
  obtain ⟨oj, hoj, hpo⟩ := mapRes_mem h4 _ hop
  have hops := asList_mem h3 hoj
  rw [asStruct_key h2] at hops
  exfalso
  refine hc fromJ e opsJ oj hfr' he hops hoj ?_
  unfold parseOp at hpo
  simp only [Res.bind_eq_ok] at hpo
  obtain ⟨p3, h5, name, h6, args, _, h7⟩ := hpo
  split at h7
  · rename_i op' hop'
    simp only [Res.pure_eq_ok] at h7
    subst h7
    have := initOp_max _ hop' hf
    subst this
    have := asString_some h6 (by simp)
    rw [asStruct_key h5] at this
    exact this
  · contradiction

theorem instrsAre_calm {lib : Lib} {ident : Str} {s : St} {tid : Option Nat} {path : Str} {kind : Kind} {raw : P}
    (h : InstrsAre lib ident s tid path kind raw) (hc : NoMax ident raw) : CalmTid s tid := by
  obtain ⟨o, h1, h2⟩ := h
  intro i hi
  subst hi
  cases o with
  | none => simp at h2
  | some tis =>
    simp only at h2
    refine ⟨tis, h2, ?_⟩
    rcases extractInstrs_cases h1 with ⟨h3, _⟩ | ⟨tr, tis', h3, h4, h5, h6⟩
    · simp at h3
    · simp only [Option.some.injEq] at h6
      subst h6
      intro ti hti
      simp only [replaceJSONPathPrefix, List.map_map, List.mem_map] at hti
      obtain ⟨ti', hti', rfl⟩ := hti
      exact parseInstrs_max h5 (fun l e ops op => hc tr l e ops op h3) ti' hti'

mutual
theorem mem_of_mirrors {lib : Lib} {ident : Str} {s : St} (hsh : s.shared = s.heap.length) : ∀ (t : T) {path : Str} {raw : P},
    Mirrors lib ident s t path raw → (∀ q, Inst raw q → NoMax ident q) → t.mem s
  | .scalar p ty d tid, path, raw, h, hs => by
    simp only [Mirrors] at h
    simp only [T.mem]
    exact ⟨DefaultIs.dok hsh h.2.2.1, instrsAre_calm h.2.2.2 (hs raw (.self raw))⟩
  | .array p d tid none, path, raw, h, hs => by simp [Mirrors] at h
  | .array p d tid (some c), path, raw, h, hs => by
    simp only [Mirrors] at h
    obtain ⟨h1, h2, h3, h4, items, h5, h6⟩ := h
    simp only [T.mem]
    refine ⟨⟨?_, instrsAre_calm h4 (hs raw (.self raw))⟩, mem_of_mirrors hsh c h6 fun q hq => hs q (Inst.trans (.items (.self raw) h5) hq)⟩
    intro a ha
    subst ha
    exact DefaultIs.dok hsh h3
  | .object p d tid cs, path, raw, h, hs => by
    simp only [Mirrors] at h
    obtain ⟨h1, h2, h3, h4, m, h5, hne, h6, h7, h8⟩ := h
    simp only [T.mem]
    refine ⟨⟨?_, instrsAre_calm h4 (hs raw (.self raw))⟩, memKids_of_mirrors hsh cs h8 fun k q hq r hr => hs r (Inst.trans (.prop (.self raw) h5 hq) hr)⟩
    intro a ha
    subst ha
    exact DefaultIs.dok hsh h3
theorem memKids_of_mirrors {lib : Lib} {ident : Str} {s : St} (hsh : s.shared = s.heap.length) : ∀ (cs : List (Str × T)) {path : Str} {m : List (Str × P)},
    MirrorsKids lib ident s cs path m → (∀ k q, (k, q) ∈ m → ∀ r, Inst q r → NoMax ident r) → T.memKids s cs
  | [], _, _, _, _ => trivial
  | (k, t) :: r, path, m, h, hs => by
    simp only [MirrorsKids] at h
    obtain ⟨⟨q, hq, hm⟩, hr⟩ := h
    simp only [T.memKids]
    exact ⟨mem_of_mirrors hsh t hm (hs k q hq), memKids_of_mirrors hsh r hr hs⟩
end

/-- An array without default and transform. -/
def BareArrays (ident : Str) (Q : P → Prop) : Prop := ∀ q, Q q → ArrayInst q → NoDefault q ∧ NoTransform ident q

/-- Where arrays may have defaults and transforms: at paths of names; elsewhere they are bare. -/
def PathCond (ident : Str) (path : Str) (raw : P) : Prop :=
  BareArrays ident (Inst raw) ∨ (('[' ∉ path ∧ (splitC '.' path).getLast? ≠ some g!"$") ∧ BareArrays ident (Within raw))

theorem PathCond.prop {ident path : Str} {raw q : P} {m : List (Str × P)} {k : Str} (h : PathCond ident path raw ∨ ('[' ∉ path ∧ BareArrays ident (Within raw)))
    (hp : raw.key g!"properties" = some (.obj m)) (hq : (k, q) ∈ m) (hk : '.' ∉ k ∧ '[' ∉ k ∧ k ≠ g!"$") : PathCond ident (path ++ '.' :: k) q := by
  have hlast : (splitC '.' (path ++ '.' :: k)).getLast? ≠ some g!"$" := by
    rw [splitC_general, splitC_no '.' k hk.1]
    simp only [List.getLast?_append, List.getLast?_singleton, Option.some_or]
    intro e
    simp only [Option.some.injEq] at e
    exact hk.2.2 e
  have hwi : BareArrays ident (Within raw) → BareArrays ident (Within q) := by
    rintro hb x ⟨r, i, h1, h2, h3⟩ ha
    exact hb x ⟨r, i, Inst.trans (.prop (.self raw) hp hq) h1, h2, h3⟩ ha
  have hbr : '[' ∉ path → '[' ∉ path ++ '.' :: k := by
    intro h hm
    simp only [List.mem_append, List.mem_cons] at hm
    rcases hm with hm | hm | hm
    · exact h hm
    · simp at hm
    · exact hk.2.1 hm
  rcases h with (h | ⟨⟨h1, h2⟩, h3⟩) | ⟨h1, h3⟩
  · exact Or.inl fun x hx ha => h x (Inst.trans (.prop (.self raw) hp hq) hx) ha
  · exact Or.inr ⟨⟨hbr h1, hlast⟩, hwi h3⟩
  · exact Or.inr ⟨⟨hbr h1, hlast⟩, hwi h3⟩

mutual
theorem static_of_mirrors {lib : Lib} {ident : Str} {s : St} : ∀ (t : T) {path : Str} {raw : P},
    Mirrors lib ident s t path raw → (∀ q, Inst raw q → PlainProps q ∧ NoDollar q) → PathCond ident path raw → t.static .json
  | .scalar p ty d tid, path, raw, h, hs, hc => by simp only [T.static]
  | .array p d tid none, path, raw, h, hs, hc => by simp [Mirrors] at h
  | .array p d tid (some c), path, raw, h, hs, hc => by
    simp only [Mirrors] at h
    obtain ⟨rfl, h2, h3, h4, items, h5, h6⟩ := h
    simp only [T.static]
    refine ⟨fun _ hdt => ?_, static_of_mirrors c h6 (fun q hq => hs q (Inst.trans (.items (.self raw) h5) hq)) ?_⟩
    · rcases hc with hc | ⟨hc, _⟩
      · exfalso
        obtain ⟨b1, b2⟩ := hc raw (.self raw) h2
        rcases hdt with hdt | hdt
        · cases d with
          | none => simp at hdt
          | some a =>
            unfold DefaultIs at h3
            rw [noDefault_canon b1] at h3
            exact absurd h3 toP_arr_ne
        · rw [instrsAre_none h4 b2] at hdt
          simp at hdt
      · exact ⟨hc.1, Or.inr hc.2⟩
    · left
      intro q hq ha
      rcases hc with hc | ⟨_, hc⟩
      · exact hc q (Inst.trans (.items (.self raw) h5) hq) ha
      · exact hc q ⟨raw, items, .self raw, h5, hq⟩ ha
  | .object p d tid cs, path, raw, h, hs, hc => by
    simp only [Mirrors] at h
    obtain ⟨rfl, h2, h3, h4, m, h5, hne, h6, h7, h8⟩ := h
    simp only [T.static]
    have hpl := hs raw (.self raw)
    exact staticKids_of_mirrors cs h8 (fun k q hq r hr => hs r (Inst.trans (.prop (.self raw) h5 hq) hr))
      (fun k q hq => ⟨((hpl.1 m h5).2 (k, q) hq).2, PathCond.prop (Or.inl hc) h5 hq ⟨((hpl.1 m h5).2 (k, q) hq).2.1, ((hpl.1 m h5).2 (k, q) hq).2.2, hpl.2 m h5 (k, q) hq⟩⟩)
theorem staticKids_of_mirrors {lib : Lib} {ident : Str} {s : St} : ∀ (cs : List (Str × T)) {path : Str} {m : List (Str × P)},
    MirrorsKids lib ident s cs path m → (∀ k q, (k, q) ∈ m → ∀ r, Inst q r → PlainProps r ∧ NoDollar r) →
    (∀ k q, (k, q) ∈ m → ('.' ∉ k ∧ '[' ∉ k) ∧ PathCond ident (path ++ '.' :: k) q) → T.staticKids .json path cs
  | [], _, _, _, _, _ => trivial
  | (k, t) :: r, path, m, h, hs, hc => by
    simp only [MirrorsKids] at h
    obtain ⟨⟨q, hq, hm⟩, hr⟩ := h
    simp only [T.staticKids]
    exact ⟨⟨Mirrors.path_eq hm, (hc k q hq).1.1, (hc k q hq).1.2⟩, static_of_mirrors t hm (hs k q hq) (hc k q hq).2, staticKids_of_mirrors r hr hs hc⟩
end

mutual
theorem static_xml_of_mirrors {lib : Lib} {ident : Str} {s : St} : ∀ (t : T) {path : Str} {raw : P},
    Mirrors lib ident s t path raw → (∀ q, Inst raw q → PlainProps q) → t.static .xml
  | .scalar p ty d tid, path, raw, h, hs => by simp only [T.static]
  | .array p d tid none, path, raw, h, hs => by simp [Mirrors] at h
  | .array p d tid (some c), path, raw, h, hs => by
    simp only [Mirrors] at h
    obtain ⟨rfl, h2, h3, h4, items, h5, h6⟩ := h
    simp only [T.static]
    exact ⟨fun e => by simp at e, static_xml_of_mirrors c h6 (fun q hq => hs q (Inst.trans (.items (.self raw) h5) hq))⟩
  | .object p d tid cs, path, raw, h, hs => by
    simp only [Mirrors] at h
    obtain ⟨rfl, h2, h3, h4, m, h5, hne, h6, h7, h8⟩ := h
    simp only [T.static]
    have hpl := hs raw (.self raw)
    exact staticKids_xml_of_mirrors cs h8 (fun k q hq r hr => hs r (Inst.trans (.prop (.self raw) h5 hq) hr)) (fun k q hq => ((hpl m h5).2 (k, q) hq).2)
theorem staticKids_xml_of_mirrors {lib : Lib} {ident : Str} {s : St} : ∀ (cs : List (Str × T)) {path : Str} {m : List (Str × P)},
    MirrorsKids lib ident s cs path m → (∀ k q, (k, q) ∈ m → ∀ r, Inst q r → PlainProps r) →
    (∀ k q, (k, q) ∈ m → '.' ∉ k ∧ '[' ∉ k) → T.staticKids .xml path cs
  | [], _, _, _, _, _ => trivial
  | (k, t) :: r, path, m, h, hs, hc => by
    simp only [MirrorsKids] at h
    obtain ⟨⟨q, hq, hm⟩, hr⟩ := h
    simp only [T.staticKids]
    exact ⟨⟨Mirrors.path_eq hm, (hc k q hq).1, (hc k q hq).2⟩, static_xml_of_mirrors t hm (hs k q hq), staticKids_xml_of_mirrors r hr hs hc⟩
end

theorem static_transformer {env : Env} {fmt : Format} {sc : Schema} {ident : Str} {t : T} {s0 : St} (hb : newTransformer env sc ident = .ok (t, s0)) (hpl0 : PlainSchema sc)
    (hdol : (∀ m, sc.properties = some m → ∀ kv ∈ m, kv.1 ≠ g!"$") ∧ ∀ q, SchemaInst sc q → NoDollar q)
    (hin : fmt = .json → ∀ q, SchemaWithin sc q → ArrayInst q → NoDefault q ∧ NoTransform ident q) : t.static fmt := by
  have hm := newTransformer_mirrors hb hpl0
  rcases hm with ⟨m, cs, h1, h2, rfl, h3, h4, h5⟩ | ⟨q, c, h1, h2, rfl, h3⟩
  · have hpl := hpl0.1 m h1
    have inst : ∀ k q, (k, q) ∈ m → ∀ r, Inst q r → SchemaInst sc r := fun k q hq r hr => Or.inl ⟨m, k, q, h1, hq, hr⟩
    simp only [T.static]
    cases hf : fmt with
    | xml => exact staticKids_xml_of_mirrors cs h5 (fun k q hq r hr => hpl0.2 r (inst k q hq r hr)) (fun k q hq => (hpl.2 (k, q) hq).2)
    | json =>
      refine staticKids_of_mirrors cs h5 (fun k q hq r hr => ⟨hpl0.2 r (inst k q hq r hr), hdol.2 r (inst k q hq r hr)⟩)
        (fun k q hq => ⟨(hpl.2 (k, q) hq).2, ?_⟩)
      have hk := (hpl.2 (k, q) hq).2
      have hlast : (splitC '.' (g!"$" ++ '.' :: k)).getLast? ≠ some g!"$" := by
        rw [splitC_general, splitC_no '.' k hk.1]
        simp only [List.getLast?_append, List.getLast?_singleton, Option.some_or]
        intro e
        simp only [Option.some.injEq] at e
        exact hdol.1 m h1 (k, q) hq e
      refine Or.inr ⟨⟨?_, hlast⟩, fun x hx ha => hin hf x (Or.inl ⟨m, k, q, h1, hq, hx⟩) ha⟩
      intro hm
      simp only [List.mem_append, List.mem_cons, List.not_mem_nil, or_false] at hm
      rcases hm with hm | hm | hm
      · simp at hm
      · simp at hm
      · exact hk.2 hm
  · have inst : ∀ r, Inst q r → SchemaInst sc r := fun r hr => Or.inr ⟨q, h2, hr⟩
    simp only [T.static]
    refine ⟨fun _ h => by simp at h, ?_⟩
    cases hf : fmt with
    | xml => exact static_xml_of_mirrors c h3 (fun r hr => hpl0.2 r (inst r hr))
    | json =>
      exact static_of_mirrors c h3 (fun r hr => ⟨hpl0.2 r (inst r hr), hdol.2 r (inst r hr)⟩) (Or.inl fun x hx ha => hin hf x (Or.inr ⟨q, h2, hx⟩) ha)

theorem calm_transformer {env : Env} {fmt : Format} {sc : Schema} {ident : Str} {t : T} {s0 : St} (hb : newTransformer env sc ident = .ok (t, s0)) (hs : CalmSchema fmt ident sc) :
    t.static fmt ∧ t.mem s0 ∧ TInv s0 := by
  have hm := newTransformer_mirrors hb hs.plain
  obtain ⟨hi, hsh⟩ := newTransformer_tinv hb
  refine ⟨static_transformer hb hs.plain hs.dollar hs.inner, ?_, hi⟩
  · rcases hm with ⟨m, cs, h1, h2, rfl, h3, h4, h5⟩ | ⟨q, c, h1, h2, rfl, h3⟩
    · simp only [T.mem]
      exact ⟨⟨by simp [DObj], by simp [CalmTid]⟩, memKids_of_mirrors hsh cs h5 fun k q hq r hr => hs.noMax r (Or.inl ⟨m, k, q, h1, hq, hr⟩)⟩
    · simp only [T.mem]
      exact ⟨⟨by simp [DArr], by simp [CalmTid]⟩, mem_of_mirrors hsh c h3 fun r hr => hs.noMax r (Or.inr ⟨q, h2, hr⟩)⟩

/-- C30 for calm schemas (`CalmSchema`): at any time in the life of a Transformer, with any library behaviour, iteration orders and input text, a call returns a
document or an error and never panics, with and without validation.  For XML input the XPath library must not panic itself.
Missing: schemas with the operation `max`, with array defaults or transforms inside array items, or with names that are not plain, where the code can panic
(`C30_refuted`, `C30_refuted_max`). -/
theorem C30_partial {env0 : Env} {sc : Schema} {ident : Str} {t : T} {s0 : St} {fmt : Format} (hb : newTransformer env0 sc ident = .ok (t, s0))
    (hs : CalmSchema fmt ident sc) (history : List (Env × Str)) (hh : ∀ c ∈ history, c.1.fmt = fmt ∧ XOk c.1) (env : Env) (hf : env.fmt = fmt) (hx : XOk env) (raw : Str) :
    (transform env t raw (afterCalls t history s0)).1 ≠ .panic ∧ (transformNoValidation env t raw (afterCalls t history s0)).1 ≠ .panic := by
  obtain ⟨h1, h2, h3⟩ := calm_transformer hb hs
  obtain ⟨h4, h5⟩ := afterCalls_np h1 hh h3 h2
  have := transform_np hx (by rw [hf]; exact h1) h4 h5 raw
  exact ⟨this.1, this.2.1⟩

/-! ### Checks, for the example -/

def noDollarB (m : List (Str × P)) : Bool := m.all fun kv => decide (kv.1 ≠ g!"$")

def noMaxB (ident : Str) (q : P) : Bool := match (q.key g!"transform").bind (P.key ident) with
  | none => true
  | some tr => (opsOf tr).all fun op => match op.key g!"type" with
    | some (.sc (.str s)) => decide (s ≠ g!"max")
    | _ => true

def bareB (ident : Str) (q : P) : Bool := match fieldType q with
  | .ok (ty, _) => decide (ty ≠ g!"array") || (isNilB ((q.key g!"default").getD nilP) && noTransformB ident q)
  | _ => true

def calmInstB (fmt : Format) (ident : Str) (n : Nat) (q : P) : Bool :=
  plainPropsB q && noMaxB ident q
    && (match q.key g!"properties" with
      | some (.obj m) => noDollarB m
      | _ => true)
    && (decide (fmt = .xml) || match q.key g!"items" with
      | some i => checkInst (bareB ident) n i
      | none => true)

def calmSchemaB (fmt : Format) (ident : Str) (n : Nat) (sc : Schema) : Bool :=
  checkSchema (calmInstB fmt ident n) n sc
    && (match sc.properties with
      | some m => plainMapB m && noDollarB m
      | none => true)
    && (decide (fmt = .xml) || match sc.items with
      | some i => checkInst (bareB ident) n i
      | none => true)

theorem calmSchemaB_sound {fmt : Format} {ident : Str} {n : Nat} {sc : Schema} (h : calmSchemaB fmt ident n sc = true) : CalmSchema fmt ident sc := by
  unfold calmSchemaB at h
  rw [Bool.and_eq_true, Bool.and_eq_true] at h
  have key : ∀ q, SchemaInst sc q → calmInstB fmt ident n q = true := fun q hq => checkSchema_sound h.1.1 hq
  have dol : ∀ m, noDollarB m = true → ∀ kv ∈ m, kv.1 ≠ g!"$" := fun m hm kv hkv => by simpa using List.all_eq_true.1 hm kv hkv
  have bare : ∀ q, bareB ident q = true → ArrayInst q → NoDefault q ∧ NoTransform ident q := by
    rintro q hb ⟨nu, hq⟩
    unfold bareB at hb
    rw [hq] at hb
    simp only [ne_eq, not_true_eq_false, decide_false, Bool.false_or, Bool.and_eq_true] at hb
    refine ⟨?_, noTransformB_sound hb.2⟩
    have := hb.1
    unfold NoDefault
    generalize (q.key g!"default").getD nilP = d at this
    unfold isNilB at this
    split at this
    · rfl
    · contradiction
  refine ⟨⟨?_, ?_⟩, ⟨?_, ?_⟩, ?_, ?_⟩
  · intro m hm
    have := h.1.2
    rw [hm, Bool.and_eq_true] at this
    exact plainMapB_sound this.1
  · intro q hq
    have := key q hq
    simp only [calmInstB, Bool.and_eq_true] at this
    exact plainPropsB_sound this.1.1.1
  · intro m hm
    have := h.1.2
    rw [hm, Bool.and_eq_true] at this
    exact dol m this.2
  · intro q hq m hm
    have := key q hq
    simp only [calmInstB, Bool.and_eq_true, hm] at this
    exact dol m this.1.2
  · intro q hq tr l e ops op h1 h2 h3 h4 h5 h6
    have := key q hq
    simp only [calmInstB, Bool.and_eq_true] at this
    have := this.1.1.2
    unfold noMaxB at this
    rw [h1] at this
    simp only [List.all_eq_true] at this
    have := this op (by
      unfold opsOf
      rw [h2]
      simp only [List.mem_flatMap]
      exact ⟨e, h3, by rw [h4]; exact h5⟩)
    rw [h6] at this
    simp at this
  · rintro rfl q (⟨m, k, p, h1, h2, r, i, h3, h4, h5⟩ | ⟨p, h1, h2⟩) ha
    · have := key r (Or.inl ⟨m, k, p, h1, h2, h3⟩)
      simp only [calmInstB, Bool.and_eq_true, h4, reduceCtorEq, decide_false, Bool.false_or] at this
      exact bare q (checkInst_sound this.2 h5) ha
    · have := h.2
      rw [h1] at this
      simp only [reduceCtorEq, decide_false, Bool.false_or] at this
      exact bare q (checkInst_sound this h2) ha

namespace C30ex
open Toy

def docs : List (Str × P) := [(g!"in", o [(g!"a", o [])]), (g!"in2", o [(g!"s", s g!"")]), (g!"in3", o [(g!"a", a [o [(g!"c", a [a [s g!"x"]])]])])]

/-- An array of objects with an array that has a default. -/
def inner : Schema := ⟨some [(g!"a", o [(g!"type", s g!"array"), (g!"items", o [(g!"type", s g!"object"), (g!"properties", o [
  (g!"b", o [(g!"type", s g!"array"), (g!"default", a [s g!"x"]), (g!"items", o [(g!"type", s g!"string")])])])])])], none⟩

/-- Splitting a text and taking the maximum. -/
def maxed : Schema := ⟨some [(g!"x", o [(g!"type", s g!"string"), (g!"transform", o [(g!"t", o [(g!"from", a [o [(g!"jsonPath", s g!"$.s"),
  (g!"operations", a [o [(g!"type", s g!"split"), (g!"args", o [(g!"on", s g!"")])],
    o [(g!"type", s g!"max"), (g!"args", o [(g!"by", s g!"@.x"), (g!"return", s g!"@.y")])]])]])])])])], none⟩

/-- A calm schema: an array with a default outside of arrays, nested arrays inside. -/
def calm : Schema := ⟨some [
  (g!"a", o [(g!"type", s g!"array"), (g!"default", a [o []]), (g!"items", o [(g!"type", s g!"object"), (g!"default", o [(g!"d", i 1)]), (g!"properties", o [
    (g!"c", o [(g!"type", s g!"array"), (g!"items", o [(g!"type", s g!"string")])])])])]),
  (g!"x", strFrom g!"last" [g!"$.a", g!"$.b"])], none⟩

/-- The outcome of a call on a new Transformer. -/
def run (sc : Schema) (raw : Str) : Option (Res Str) := match newTransformer (env docs) sc g!"t" with
  | .ok (t, s0) => some (transform (env docs) t raw s0).1
  | _ => none

theorem inner_panics : run inner g!"in" = some .panic := by decide +kernel
theorem max_panics : run maxed g!"in2" = some .panic := by decide +kernel
theorem calm_ok : CalmSchema .json g!"t" calm := calmSchemaB_sound (n := 5) (by decide +kernel)
theorem calm_built : (match newTransformer (env docs) calm g!"t" with | .ok _ => true | _ => false) = true := by decide +kernel

/-- The hypotheses are met by a schema with an array default outside of arrays, nested arrays and a transform, after any calls. -/
example (history : List Str) (raw : Str) : ∃ t s0, newTransformer (env docs) calm g!"t" = .ok (t, s0) ∧
    (transform (env docs) t raw (afterCalls t (history.map fun r => (env docs, r)) s0)).1 ≠ .panic := by
  have h := calm_built
  split at h
  · rename_i r hr
    refine ⟨r.1, r.2, hr, (C30_partial hr calm_ok _ ?_ _ rfl ?_ raw).1⟩
    · intro c hc
      obtain ⟨_, _, rfl⟩ := List.mem_map.1 hc
      exact ⟨rfl, fun h => by simp [env] at h⟩
    · exact fun h => by simp [env] at h
  · contradiction

example : run calm g!"in3" = some (.ok g!"{a:[{c:[\"x\"],d:1}],x:[{c:[[\"x\"]]}]}") := by decide +kernel

theorem refutes {sc : Schema} {raw : Str} (h : run sc raw = some .panic) : ¬ C30_statement := by
  intro hc
  unfold run at h
  split at h
  · rename_i t s0 hb
    simp only [Option.some.injEq] at h
    exact hc _ sc g!"t" t s0 hb [] (env docs) raw h
  · contradiction
end C30ex

/-- C30 is false in general: an array with a default inside the items of an array, and an input with something else in place of the outer array. -/
theorem C30_refuted : ¬ C30_statement := C30ex.refutes C30ex.inner_panics

/-- C30 is false in general: the maximum of no values. -/
theorem C30_refuted_max : ¬ C30_statement := C30ex.refutes C30ex.max_panics

end JT
