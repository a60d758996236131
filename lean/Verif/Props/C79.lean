import Verif.Props.C01
import Verif.Proofs.Steps
/- C79: calls of Transform that run at the same time. -/
namespace JT
open Spec

/-- What goroutines that call Transform at the same time get, whatever the scheduler does: no execution is infinite, none gets stuck before all calls have returned, the
Transformer stays as it is, and each call returns what it returns alone. -/
def Concurrent (t : T) (s0 : St) (calls : List (Env × Str)) (ps : List (Prog Str)) : Prop :=
  ∃ N, ∀ n w, Turns n (World.init s0 ps) w →
    n ≤ N ∧ w.heap = s0.heap ∧ w.sets = s0.instrs ∧
    (∀ (i : Nat) g r c, w.gs[i]? = some g → calls[i]? = some c → g.prog = .done r → r = (transform c.1 t c.2 s0).1) ∧
    ((∀ (i : Nat) g, w.gs[i]? = some g → ∃ r, g.prog = .done r) ∨ ∃ w', Turn w w')

/-- The programs of the calls. -/
def CallsOf (t : T) (calls : List (Env × Str)) (ps : List (Prog Str)) : Prop :=
  ps.length = calls.length ∧ ∀ (i : Nat) c p, calls[i]? = some c → ps[i]? = some p → IsCall c.1 t c.2 p

/-- **C79, full statement**. -/
def C79_statement : Prop :=
  ∀ (env0 : Env) (sc : Schema) (ident : Str) (t : T) (s0 : St), newTransformer env0 sc ident = .ok (t, s0) →
    ∀ (calls : List (Env × Str)) (ps : List (Prog Str)), CallsOf t calls ps → Concurrent t s0 calls ps

/-! ### Proof -/

variable {α : Type}

/-- The number of steps of a program run alone. -/
def Spec.Prog.count : Prog α → Heap → List Instrs → Nat → Nat
  | .done _, _, _, _ => 0
  | .read a k, h, l, n => (k h[a]?).count h l n + 1
  | .scan k, h, l, n => (k h).count h l n + 1
  | .alloc c k, h, l, n => (k h.length).count (h ++ [c]) l n + 1
  | .write a c k, h, l, n => k.count (h.set a c) l n + 1
  | .readSet i k, h, l, n => (k l[i]?).count h l n + 1
  | .writeSet i t k, h, l, n => k.count h (l.set i t) n + 1
  | .choose k, h, l, n => (k n).count h l (n + 1) + 1

/-- The logs only grow. -/
theorem logs_grow : ∀ (p : Prog α) (s : St), (∃ l, (p.run s).2.wlog = l ++ s.wlog) ∧ ∃ l, (p.run s).2.ilog = l ++ s.ilog := by
  intro p
  induction p with
  | done r => intro s; exact ⟨⟨[], rfl⟩, [], rfl⟩
  | read a k ih => intro s; exact ih _ s
  | scan k ih => intro s; exact ih _ s
  | alloc c k ih => intro s; exact ih _ { s with heap := s.heap ++ [c] }
  | write a c k ih =>
    intro s
    obtain ⟨⟨l, h1⟩, h2⟩ := ih { s with heap := s.heap.set a c, wlog := a :: s.wlog }
    exact ⟨⟨l ++ [a], by rw [List.append_assoc]; exact h1⟩, h2⟩
  | readSet i k ih => intro s; exact ih _ s
  | writeSet i t k ih =>
    intro s
    obtain ⟨h1, l, h2⟩ := ih { s with instrs := s.instrs.set i t, ilog := i :: s.ilog }
    exact ⟨h1, l ++ [i], by rw [List.append_assoc]; exact h2⟩
  | choose k ih => intro s; exact ih _ { s with tick := s.tick + 1 }

/-- A program that, run alone from `s`, writes none of the cells and instruction sets of `s`. -/
def WritesOwn (s : St) (p : Prog α) : Prop := (∀ a ∈ (p.run s).2.wlog, s.heap.length ≤ a) ∧ (p.run s).2.ilog = s.ilog

/-- The memory as the goroutine sees it. -/
def viewOf (s : St) (g : Goroutine α) (wl : List Addr) : St := { s with heap := s.heap ++ g.own, tick := g.tick, wlog := wl }

/-- The goroutine goes on as if it was alone. -/
def AsAlone (s : St) (g : Goroutine α) (p : Prog α) : Prop := ∃ wl, g.prog.run (viewOf s g wl) = p.run s

/-- The steps that a goroutine has still to make. -/
def remaining (s : St) (g : Goroutine α) : Nat := g.prog.count (s.heap ++ g.own) s.instrs g.tick

/-- A step of a goroutine that writes nothing common. -/
theorem step_alone {s : St} {g g' : Goroutine α} {p : Prog α} {heap : Heap} {sets : List Instrs} (hp : WritesOwn s p) (hg : AsAlone s g p)
    (h : g.step s.heap s.instrs = some (heap, sets, g')) : heap = s.heap ∧ sets = s.instrs ∧ AsAlone s g' p ∧ remaining s g = remaining s g' + 1 := by
  obtain ⟨wl, hr⟩ := hg
  obtain ⟨q, own, tick⟩ := g
  cases q with
  | done r => cases h
  | read a k => cases h; exact ⟨rfl, rfl, ⟨wl, hr⟩, rfl⟩
  | scan k => cases h; exact ⟨rfl, rfl, ⟨wl, hr⟩, rfl⟩
  | alloc c k =>
    cases h
    refine ⟨rfl, rfl, ⟨wl, ?_⟩, ?_⟩
    · rw [← hr]
      simp only [Prog.run, viewOf, List.length_append, List.append_assoc]
    · simp only [remaining, Prog.count, List.length_append, List.append_assoc]
  | write a c k =>
    have ha : s.heap.length ≤ a := by
      refine hp.1 a ?_
      obtain ⟨⟨l, h1⟩, -⟩ := logs_grow k { viewOf s ⟨.write a c k, own, tick⟩ wl with heap := (s.heap ++ own).set a c, wlog := a :: wl }
      rw [← hr]
      show a ∈ (k.run _).2.wlog
      erw [h1]
      simp
    simp only [Goroutine.step, if_neg (Nat.not_lt.mpr ha), Option.some.injEq, Prod.mk.injEq] at h
    obtain ⟨rfl, rfl, rfl⟩ := h
    have hset : (s.heap ++ own).set a c = s.heap ++ own.set (a - s.heap.length) c := by rw [List.set_append_right _ _ ha]
    refine ⟨rfl, rfl, ⟨a :: wl, ?_⟩, ?_⟩
    · rw [← hr]
      simp only [Prog.run, viewOf, hset]
    · simp only [remaining, Prog.count, hset]
  | readSet i k => cases h; exact ⟨rfl, rfl, ⟨wl, hr⟩, rfl⟩
  | writeSet i t k =>
    exfalso
    obtain ⟨-, l, h1⟩ := logs_grow k { viewOf s ⟨.writeSet i t k, own, tick⟩ wl with instrs := s.instrs.set i t, ilog := i :: s.ilog }
    have h2 := hp.2
    rw [← hr] at h2
    have h3 := (congrArg List.length (h1.symm.trans h2))
    simp only [List.length_append, List.length_cons] at h3
    omega
  | choose k => cases h; exact ⟨rfl, rfl, ⟨wl, hr⟩, rfl⟩

/-- Replacing an entry of a sum. -/
theorem sum_set_succ {β : Type} (f : β → Nat) : ∀ (l : List β) (i : Nat) (x y : β), l[i]? = some x → f x = f y + 1 →
    (l.map f).sum = ((l.set i y).map f).sum + 1
  | [], _, _, _, h, _ => by simp at h
  | z :: l, 0, x, y, h, hf => by
    simp only [List.getElem?_cons_zero, Option.some.injEq] at h
    subst h
    simp only [List.map_cons, List.sum_cons, List.set_cons_zero]
    omega
  | z :: l, i + 1, x, y, h, hf => by
    have := sum_set_succ f l i x y (by simpa using h) hf
    simp only [List.map_cons, List.sum_cons, List.set_cons_succ]
    omega

/-- The invariant of executions. -/
structure ConcInv (s : St) (ps : List (Prog α)) (n : Nat) (w : World α) : Prop where
  heap : w.heap = s.heap
  sets : w.sets = s.instrs
  length : w.gs.length = ps.length
  alone : ∀ (i : Nat) g p, w.gs[i]? = some g → ps[i]? = some p → AsAlone s g p
  count : n + (w.gs.map (remaining s)).sum = (ps.map fun p => p.count s.heap s.instrs s.tick).sum

theorem concInv {s : St} {ps : List (Prog α)} (hps : ∀ p ∈ ps, WritesOwn s p) {n : Nat} {w : World α} (h : Turns n (World.init s ps) w) : ConcInv s ps n w := by
  generalize hi : World.init s ps = w0 at h
  induction h with
  | zero =>
    subst hi
    refine ⟨rfl, rfl, by simp [World.init], fun i g p hg hp => ?_, ?_⟩
    · simp only [World.init, List.getElem?_map, hp, Option.map_some, Option.some.injEq] at hg
      subst hg
      refine ⟨s.wlog, ?_⟩
      simp only [viewOf, List.append_nil]
    · simp only [World.init, List.map_map, Nat.zero_add]
      congr 1
      refine List.map_congr_left fun p _ => ?_
      simp only [Function.comp, remaining, List.append_nil]
  | @more n w0 w' w'' _ hst ih =>
    have hI := ih hi
    obtain ⟨hg, hstep⟩ := hst
    rename_i i g g' heap sets
    rw [hI.heap, hI.sets] at hstep
    have hlt : i < ps.length := by rw [← hI.length]; exact (List.getElem?_eq_some_iff.mp hg).1
    have hpi : ps[i]? = some ps[i] := List.getElem?_eq_getElem hlt
    obtain ⟨rfl, rfl, ha, hc⟩ := step_alone (hps _ (List.getElem_mem hlt)) (hI.alone i g _ hg hpi) hstep
    refine ⟨rfl, rfl, by rw [List.length_set, hI.length], fun j k p hk hp => ?_, ?_⟩
    · by_cases hij : i = j
      · subst hij
        rw [hpi, Option.some.injEq] at hp
        simp only [List.getElem?_set, if_true] at hk
        split at hk
        · cases hk; subst hp; exact ha
        · cases hk
      · simp only [List.getElem?_set, if_neg hij] at hk
        exact hI.alone j k p hk hp
    · have h1 := sum_set_succ (remaining s) w'.gs i g g' hg hc
      have h2 := hI.count
      simp only
      omega

/-- A call alone, with and without the garbage collection at its end, returns the same. -/
theorem transform_eq_call (env : Env) (t : T) (raw : Str) (s : St) : (transform env t raw s).1 = (validated env (baseTransform env t raw) s).1 := by
  unfold transform validated
  rw [M.bind_apply, M.bind_apply]
  unfold transformNoValidation
  rcases hb : baseTransform env t raw s with ⟨r, s'⟩
  cases r with
  | ok out =>
    simp only
    rcases env.lib.validate out with _ | (_ | _) <;> rfl
  | err => rfl
  | panic => rfl

/-- Validation does not touch memory. -/
theorem validated_state (env : Env) (t : T) (raw : Str) (s : St) : (validated env (baseTransform env t raw) s).2 = (baseTransform env t raw s).2 := by
  unfold validated
  rw [M.bind_apply]
  rcases hb : baseTransform env t raw s with ⟨r, s'⟩
  cases r with
  | ok out =>
    simp only
    rcases env.lib.validate out with _ | (_ | _) <;> rfl
  | err => rfl
  | panic => rfl

/-- Calls that write only what they allocated themselves. -/
theorem concurrent_of_own {t : T} {s0 : St} (calls : List (Env × Str)) (ps : List (Prog Str)) (hps : CallsOf t calls ps) (hown : ∀ p ∈ ps, WritesOwn s0 p) :
    Concurrent t s0 calls ps := by
  refine ⟨(ps.map fun p => p.count s0.heap s0.instrs s0.tick).sum, fun n w hw => ?_⟩
  have hI := concInv hown hw
  refine ⟨by have := hI.count; omega, hI.heap, hI.sets, fun i g r c hg hc hr => ?_, ?_⟩
  · have hlt : i < ps.length := by rw [← hI.length]; exact (List.getElem?_eq_some_iff.mp hg).1
    have hpi : ps[i]? = some ps[i] := List.getElem?_eq_getElem hlt
    obtain ⟨wl, ha⟩ := hI.alone i g _ hg hpi
    have hc' := hps.2 i c _ hc hpi
    rw [IsCall] at hc'
    rw [transform_eq_call, ← hc', ← ha, hr]
    rfl
  · by_cases hdone : ∀ (i : Nat) g, w.gs[i]? = some g → ∃ r, g.prog = .done r
    · exact .inl hdone
    · refine .inr ?_
      simp only [Classical.not_forall, exists_prop] at hdone
      obtain ⟨i, g, hg, hn⟩ := hdone
      have hst : ∃ x, g.step w.heap w.sets = some x := by
        obtain ⟨q, own, tick⟩ := g
        cases q with
        | done r => exact absurd ⟨r, rfl⟩ hn
        | write a c k =>
          simp only [Goroutine.step]
          split <;> exact ⟨_, rfl⟩
        | _ => exact ⟨_, rfl⟩
      obtain ⟨⟨heap, sets, g'⟩, hx⟩ := hst
      exact ⟨_, .mk hg hx⟩

/-- C79 holds for schemas without array and object defaults and without method `last`: under every schedule of any number of calls, for JSON and XML input, any library
behaviour and any iteration order.
Missing: schemas with such defaults or with method `last`, where it is false (below). -/
theorem C79_partial {env0 : Env} {sc : Schema} {ident : Str} {t : T} {s0 : St} (hb : newTransformer env0 sc ident = .ok (t, s0))
    (hd : ∀ q, SchemaInst sc q → ScalarDefault q) (hl : ∀ q, SchemaInst sc q → NotLast ident q)
    (calls : List (Env × Str)) (ps : List (Prog Str)) (hps : CallsOf t calls ps) : Concurrent t s0 calls ps := by
  have hown : ∀ p ∈ ps, WritesOwn s0 p := fun p hp => by
    obtain ⟨i, hi, rfl⟩ := List.mem_iff_getElem.mp hp
    have hi' : i < calls.length := by rw [← hps.1]; exact hi
    have hc := hps.2 i _ _ (List.getElem?_eq_getElem hi') (List.getElem?_eq_getElem hi)
    obtain ⟨h1, h2, -⟩ := C02_partial hb hd hl calls[i].1 calls[i].2 []
    have h0 : s0.with [] = s0 := by simp [St.with]
    rw [h0, List.append_nil] at h1
    rw [h0] at h2
    have hil : s0.ilog = [] := (newTransformer_clean hb hd hl).2.ilog
    rw [IsCall] at hc
    refine ⟨fun a ha => h1 a ?_, ?_⟩
    · rw [hc, validated_state] at ha; exact ha
    · rw [hc, validated_state, h2, hil]
  exact concurrent_of_own calls ps hps hown

/-- There are such programs for any calls. -/
theorem callsOf_exists (t : T) (calls : List (Env × Str)) : ∃ ps, CallsOf t calls ps := by
  induction calls with
  | nil => exact ⟨[], rfl, fun i c p h => by simp at h⟩
  | cons c l ih =>
    obtain ⟨ps, h1, h2⟩ := ih
    obtain ⟨p, hp⟩ := isCall_exists c.1 t c.2
    refine ⟨p :: ps, by simp [h1], fun i c' p' hc hp' => ?_⟩
    cases i with
    | zero => simp at hc hp'; subst hc; subst hp'; exact hp
    | succ i => exact h2 i c' p' (by simpa using hc) (by simpa using hp')

/-! ### Method last -/

theorem Spec.Turns.trans {a b : Nat} {w w' w'' : World α} (h : Turns a w w') (h' : Turns b w' w'') : Turns (a + b) w w'' := by
  induction h' with
  | zero => exact h
  | more _ hs ih => exact .more (ih h) hs

/-- The scheduler may let a goroutine run to its end. -/
theorem run_to_end : ∀ (p : Prog α) (heap own : Heap) (sets : List Instrs) (tick : Nat) (wl : List Addr) (il : List Nat) (sh : Nat) (gs : List (Goroutine α)) (i : Nat),
    gs[i]? = some ⟨p, own, tick⟩ → ∃ n heap' own' tick', heap'.length = heap.length ∧
      (p.run ⟨heap ++ own, sets, tick, wl, il, sh⟩).2.heap = heap' ++ own' ∧
      Turns n ⟨heap, sets, gs⟩ ⟨heap', (p.run ⟨heap ++ own, sets, tick, wl, il, sh⟩).2.instrs, gs.set i ⟨.done (p.run ⟨heap ++ own, sets, tick, wl, il, sh⟩).1, own', tick'⟩⟩ := by
  intro p
  have key : ∀ {heap heap1 : Heap} {own own1 : Heap} {sets sets1 : List Instrs} {tick tick1 : Nat} {q q1 : Prog α} {gs : List (Goroutine α)} {i : Nat},
      gs[i]? = some ⟨q, own, tick⟩ → Goroutine.step heap sets ⟨q, own, tick⟩ = some (heap1, sets1, ⟨q1, own1, tick1⟩) → heap1.length = heap.length →
      ∀ {wl1 il1 sh}, (∀ gs : List (Goroutine α), gs[i]? = some ⟨q1, own1, tick1⟩ → ∃ n heap' own' tick', heap'.length = heap1.length ∧
        (q1.run ⟨heap1 ++ own1, sets1, tick1, wl1, il1, sh⟩).2.heap = heap' ++ own' ∧
        Turns n ⟨heap1, sets1, gs⟩ ⟨heap', (q1.run ⟨heap1 ++ own1, sets1, tick1, wl1, il1, sh⟩).2.instrs, gs.set i ⟨.done (q1.run ⟨heap1 ++ own1, sets1, tick1, wl1, il1, sh⟩).1, own', tick'⟩⟩) →
      ∃ n heap' own' tick', heap'.length = heap.length ∧
        (q1.run ⟨heap1 ++ own1, sets1, tick1, wl1, il1, sh⟩).2.heap = heap' ++ own' ∧
        Turns n ⟨heap, sets, gs⟩ ⟨heap', (q1.run ⟨heap1 ++ own1, sets1, tick1, wl1, il1, sh⟩).2.instrs, gs.set i ⟨.done (q1.run ⟨heap1 ++ own1, sets1, tick1, wl1, il1, sh⟩).1, own', tick'⟩⟩ := by
    intro heap heap1 own own1 sets sets1 tick tick1 q q1 gs i hg hs hl wl1 il1 sh ih
    have hlt := (List.getElem?_eq_some_iff.mp hg).1
    obtain ⟨n, heap', own', tick', h1, h2, h3⟩ := ih (gs.set i ⟨q1, own1, tick1⟩) (by simp [hlt])
    rw [List.set_set] at h3
    refine ⟨_, heap', own', tick', h1.trans hl, h2, Turns.trans (.more .zero (.mk hg hs)) h3⟩
  induction p with
  | done r =>
    intro heap own sets tick wl il sh gs i hg
    refine ⟨0, heap, own, tick, rfl, rfl, ?_⟩
    have : gs.set i ⟨.done r, own, tick⟩ = gs := by
      obtain ⟨hlt, hg⟩ := List.getElem?_eq_some_iff.mp hg
      rw [← hg, List.set_getElem_self]
    show Turns 0 _ ⟨heap, sets, gs.set i ⟨.done r, own, tick⟩⟩
    rw [this]
    exact .zero
  | read a k ih => intro heap own sets tick wl il sh gs i hg; exact key hg rfl rfl fun gs hg => ih _ heap own sets tick wl il sh gs i hg
  | scan k ih => intro heap own sets tick wl il sh gs i hg; exact key hg rfl rfl fun gs hg => ih _ heap own sets tick wl il sh gs i hg
  | alloc c k ih =>
    intro heap own sets tick wl il sh gs i hg
    have := key (wl1 := wl) (il1 := il) (sh := sh) hg rfl rfl fun gs hg => ih _ heap (own ++ [c]) sets tick wl il sh gs i hg
    simp only [Prog.run, List.length_append, List.append_assoc] at this ⊢
    exact this
  | write a c k ih =>
    intro heap own sets tick wl il sh gs i hg
    by_cases ha : a < heap.length
    · have := key (wl1 := a :: wl) (il1 := il) (sh := sh) (heap1 := heap.set a c) (own1 := own) (q1 := k) (tick1 := tick) (sets1 := sets) hg
        (show Goroutine.step heap sets ⟨.write a c k, own, tick⟩ = some (heap.set a c, sets, ⟨k, own, tick⟩) from if_pos ha) List.length_set fun gs hg =>
        ih (heap.set a c) own sets tick (a :: wl) il sh gs i hg
      simp only [Prog.run, List.set_append_left _ _ ha] at this ⊢
      exact this
    · have := key (wl1 := a :: wl) (il1 := il) (sh := sh) (heap1 := heap) (own1 := own.set (a - heap.length) c) (q1 := k) (tick1 := tick) (sets1 := sets) hg
        (show Goroutine.step heap sets ⟨.write a c k, own, tick⟩ = some (heap, sets, ⟨k, own.set (a - heap.length) c, tick⟩) from if_neg ha) rfl fun gs hg =>
        ih heap _ sets tick (a :: wl) il sh gs i hg
      simp only [Prog.run, List.set_append_right _ _ (Nat.not_lt.mp ha)] at this ⊢
      exact this
  | readSet j k ih => intro heap own sets tick wl il sh gs i hg; exact key hg rfl rfl fun gs hg => ih _ heap own sets tick wl il sh gs i hg
  | writeSet j t k ih => intro heap own sets tick wl il sh gs i hg; exact key hg rfl rfl fun gs hg => ih heap own (sets.set j t) tick wl (j :: il) sh gs i hg
  | choose k ih => intro heap own sets tick wl il sh gs i hg; exact key hg rfl rfl fun gs hg => ih _ heap own sets (tick + 1) wl il sh gs i hg

namespace C79ex
open Toy C01ex

/-- What two calls with the same input give on a new Transformer, and the second after the first. -/
def check : Bool :=
  match built lastSchema with
  | .ok (t, s0) =>
    let call := validated (env docs) (baseTransform (env docs) t g!"in")
    decide (s0.heap = []) && decide ((transform (env docs) t g!"in" s0).1 = .ok g!"{x:\"B\"}") &&
      decide ((call ⟨[] ++ [], (call ⟨[] ++ [], s0.instrs, s0.tick, [], [], 0⟩).2.instrs, s0.tick, [], [], 0⟩).1 = .ok g!"{x:\"A\"}")
  | _ => false

theorem check_eq : check = true := by decide +kernel

end C79ex

/-- Two calls on a schema with method `last`: the second returns something else than alone. -/
theorem C79_refuted : ¬ C79_statement := by
  intro h
  have hc := C79ex.check_eq
  unfold C79ex.check at hc
  split at hc
  · rename_i t s0 hb
    simp only [Bool.and_eq_true, decide_eq_true_eq] at hc
    obtain ⟨⟨h1, h2⟩, h3⟩ := hc
    obtain ⟨p, hp⟩ := isCall_exists (Toy.env C01ex.docs) t g!"in"
    have hcalls : CallsOf t [(Toy.env C01ex.docs, g!"in"), (Toy.env C01ex.docs, g!"in")] [p, p] := by
      refine ⟨rfl, fun i c q hc hq => ?_⟩
      match i with
      | 0 | 1 =>
        simp at hc hq
        subst hc; subst hq; exact hp
      | i + 2 => simp at hc
    obtain ⟨N, hN⟩ := h _ _ _ t s0 hb _ _ hcalls
    rw [IsCall] at hp
    obtain ⟨n, hp1, own, tick, hl1, -, hs1⟩ := run_to_end p [] [] s0.instrs s0.tick [] [] 0 [⟨p, [], s0.tick⟩, ⟨p, [], s0.tick⟩] 0 rfl
    cases hp1 with
    | cons _ _ => simp at hl1
    | nil =>
      rw [hp] at hs1
      obtain ⟨S, hS⟩ : ∃ S, S = (validated (Toy.env C01ex.docs) (baseTransform (Toy.env C01ex.docs) t g!"in") ⟨[] ++ [], s0.instrs, s0.tick, [], [], 0⟩).2.instrs := ⟨_, rfl⟩
      rw [← hS] at hs1 h3
      obtain ⟨R, hR⟩ : ∃ R, R = (validated (Toy.env C01ex.docs) (baseTransform (Toy.env C01ex.docs) t g!"in") ⟨[] ++ [], s0.instrs, s0.tick, [], [], 0⟩).1 := ⟨_, rfl⟩
      rw [← hR] at hs1
      obtain ⟨m, hp2, own2, tick2, -, -, hs2⟩ := run_to_end p [] [] S s0.tick [] [] 0 [⟨.done R, own, tick⟩, ⟨p, [], s0.tick⟩] 1 rfl
      rw [hp] at hs2
      have hw : World.init s0 [p, p] = ⟨[], s0.instrs, [⟨p, [], s0.tick⟩, ⟨p, [], s0.tick⟩]⟩ := by simp [World.init, h1]
      have := (hN _ _ (hw ▸ hs1.trans hs2)).2.2.2.1 1 _ _ _ rfl rfl rfl
      rw [h3, h2] at this
      revert this
      decide
  · cases hc

/-- The hypotheses are met: a schema with nested objects, arrays and transforms, and two calls with different documents. -/
example : ∃ t s0 ps, newTransformer (Toy.env C01ex.docs) C01ex.okSchema g!"t" = .ok (t, s0) ∧
    CallsOf t [(Toy.env C01ex.docs, g!"in"), (Toy.env C01ex.docs, g!"in2")] ps ∧ (World.init s0 ps).gs.length = 2 := by
  have h : (match C01ex.built C01ex.okSchema with | .ok _ => true | _ => false) = true := by decide +kernel
  split at h
  · rename_i r hb
    obtain ⟨ps, hps⟩ := callsOf_exists r.1 [(Toy.env C01ex.docs, g!"in"), (Toy.env C01ex.docs, g!"in2")]
    exact ⟨r.1, r.2, ps, hb, hps, by simp [World.init, hps.1]⟩
  · cases h

end JT
