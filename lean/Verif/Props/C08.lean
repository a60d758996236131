import Verif.Proofs.Full
import Verif.Props.C01
/- C08–C10: methods first, last and concatenate.  They are stated for every state, input format, path modifier and instruction list:
`run ti s = (r, s')` is the execution of one instruction. -/
namespace JT
open Spec

namespace Spec

/-- The instructions of a list, run one after the other, all yield nil. -/
inductive AllNil (run : Instr → M V) : List Instr → St → St → Prop
  | nil {s : St} : AllNil run [] s s
  | cons {ti : Instr} {rest : List Instr} {s s1 s2 : St} : run ti s = (.ok V.nil, s1) → AllNil run rest s1 s2 → AllNil run (ti :: rest) s s2

/-- The instructions of a list, run one after the other, yield the given values. -/
inductive Yields (run : Instr → M V) : List Instr → St → List V → St → Prop
  | nil {s : St} : Yields run [] s [] s
  | cons {ti : Instr} {rest : List Instr} {s s1 s2 : St} {v : V} {vs : List V} : run ti s = (.ok v, s1) → Yields run rest s1 vs s2 →
      Yields run (ti :: rest) s (v :: vs) s2

/-- The first non-nil result of a list of instructions. -/
inductive FirstOf (run : Instr → M V) (l : List Instr) (s : St) : Res V × St → Prop
  /-- some instruction yields a value, those before it nil; the ones after it are not run -/
  | value {pre post : List Instr} {ti : Instr} {v : V} {s1 s2 : St} : l = pre ++ ti :: post → AllNil run pre s s1 →
      run ti s1 = (.ok v, s2) → v ≠ V.nil → FirstOf run l s (.ok v, s2)
  /-- all yield nil -/
  | none {s1 : St} : AllNil run l s s1 → FirstOf run l s (.ok V.nil, s1)
  /-- an instruction fails and those before it yield nil -/
  | err {pre post : List Instr} {ti : Instr} {s1 s2 : St} : l = pre ++ ti :: post → AllNil run pre s s1 →
      run ti s1 = (.err, s2) → FirstOf run l s (.err, s2)
  | panic {pre post : List Instr} {ti : Instr} {s1 s2 : St} : l = pre ++ ti :: post → AllNil run pre s s1 →
      run ti s1 = (.panic, s2) → FirstOf run l s (.panic, s2)

/-- A list of values combined: absent ones are dropped; a single one is kept; several must be strings, whose non-empty ones are joined
with the delimiter. -/
inductive Combined (delim : Str) (vs : List V) : Res V → Prop
  | none : vs.filter (· ≠ V.nil) = [] → Combined delim vs (.ok V.nil)
  | one {v : V} : vs.filter (· ≠ V.nil) = [v] → Combined delim vs (.ok v)
  | strs {l : List Str} : 2 ≤ l.length → vs.filter (· ≠ V.nil) = l.map (fun x => V.sc (.str x)) →
      Combined delim vs (.ok (.sc (.str (join delim (l.filter (· ≠ []))))))
  | err : 2 ≤ (vs.filter (· ≠ V.nil)).length → (∃ v ∈ vs, v ≠ V.nil ∧ ∀ x, v ≠ .sc (.str x)) → Combined delim vs .err

end Spec

theorem firstLoop_first (run : Instr → M V) : ∀ (l : List Instr) (s : St), FirstOf run l s (firstLoop run l s)
  | [], s => .none .nil
  | ti :: rest, s => by
    rw [firstLoop, M.bind_apply]
    rcases hr : run ti s with ⟨r, s1⟩
    cases r with
    | err => exact .err (pre := []) rfl .nil hr
    | panic => exact .panic (pre := []) rfl .nil hr
    | ok v =>
      by_cases hv : v = V.nil
      · simp only [if_pos hv]
        subst hv
        have ih := firstLoop_first run rest s1
        generalize he : firstLoop run rest s1 = o at ih
        cases ih with
        | value h1 h2 h3 h4 => exact .value (pre := ti :: _) (by rw [h1]; rfl) (.cons hr h2) h3 h4
        | none h => exact .none (.cons hr h)
        | err h1 h2 h3 => exact .err (pre := ti :: _) (by rw [h1]; rfl) (.cons hr h2) h3
        | panic h1 h2 h3 => exact .panic (pre := ti :: _) (by rw [h1]; rfl) (.cons hr h2) h3
      · simp only [if_neg hv]
        exact .value (pre := []) rfl .nil hr hv

theorem readInstrs_apply {tid : Nat} {tis : Instrs} {s : St} (h : s.instrs[tid]? = some tis) : readInstrs tid s = (.ok tis, s) := by
  unfold readInstrs; rw [h]

/-- **C08**: with method `first` (or none) the result is the first non-nil value; later instructions are not evaluated; an error before it
aborts. -/
theorem C08 (env : Env) (inp : V) (ty : Str) (mod : Mod) (tid : Nat) (tis : Instrs) (s : St) (h : s.instrs[tid]? = some tis)
    (hm : tis.method = .first) : FirstOf (instrRun env inp ty mod) tis.from s (instrsRun env inp ty mod tid s) := by
  unfold instrsRun
  rw [M.bind_apply, readInstrs_apply h]
  simp only [hm]
  exact firstLoop_first _ _ _

/-- The method of a transform is `first` iff the schema says so or says nothing; its instructions are those of the schema, in order. -/
theorem C08_parse {lib : Lib} {tr : P} {tis : Instrs} (h : parseInstrs lib tr = .ok tis) :
    (tis.method = .first ↔ tr.key g!"method" = none ∨ tr.key g!"method" = some (.sc .nil) ∨ tr.key g!"method" = some (.sc (.str [])) ∨
      tr.key g!"method" = some (.sc (.str g!"first"))) ∧
    (tis.method = .last ↔ tr.key g!"method" = some (.sc (.str g!"last"))) ∧
    (tis.method = .concatenate ↔ tr.key g!"method" = some (.sc (.str g!"concatenate"))) ∧
    ∀ l, tr.key g!"from" = some (.arr l) → mapRes (parseInstr lib) l = .ok tis.from := by
  unfold parseInstrs at h
  simp only [Res.bind_eq_ok, Res.pure_eq_ok] at h
  obtain ⟨p, hp, fromJ, hfr, fr, hmap, ms, hms, opts, _, delim, _, m, hm, rfl⟩ := h
  have hk : ∀ k, tr.key k = p.key k := by
    intro k
    unfold asStruct at hp
    split at hp
    · simp only [Res.ok.injEq] at hp; subst hp; rfl
    · simp only [Res.ok.injEq] at hp; subst hp; rfl
    · contradiction
  have hms' : (p.key g!"method" = none ∧ ms = []) ∨ (p.key g!"method" = some (.sc .nil) ∧ ms = []) ∨ p.key g!"method" = some (.sc (.str ms)) := by
    unfold asString at hms
    split at hms
    · rename_i h; simp only [Res.ok.injEq] at hms; exact Or.inl ⟨h, hms.symm⟩
    · rename_i h; simp only [Res.ok.injEq] at hms; exact Or.inr (Or.inl ⟨h, hms.symm⟩)
    · rename_i h; simp only [Res.ok.injEq] at hms; subst hms; exact Or.inr (Or.inr h)
    · contradiction
  simp only [hk]
  refine ⟨?_, ?_, ?_, ?_⟩
  · unfold parseMethod at hm
    rcases hms' with ⟨h1, rfl⟩ | ⟨h1, rfl⟩ | h1
    · simp at hm; simp [h1, hm.symm]
    · simp at hm; simp [h1, hm.symm]
    · rw [h1]
      by_cases c1 : ms = []
      · subst c1; simp at hm; simp [hm.symm]
      · rw [if_neg c1] at hm
        by_cases c2 : ms = g!"first"
        · subst c2; simp at hm; simp [hm.symm]
        · rw [if_neg c2] at hm
          have : m ≠ .first := by
            split at hm
            · simp at hm; simp [hm.symm]
            · split at hm
              · simp at hm; simp [hm.symm]
              · contradiction
          simp [this, c1, c2]
  · unfold parseMethod at hm
    rcases hms' with ⟨h1, rfl⟩ | ⟨h1, rfl⟩ | h1
    · simp at hm; simp [h1, hm.symm]
    · simp at hm; simp [h1, hm.symm]
    · rw [h1]
      by_cases c3 : ms = g!"last"
      · subst c3; simp at hm; simp [hm.symm]
      · have : m ≠ .last := by
          intro e
          subst e
          repeat' split at hm
          all_goals first | contradiction | exact absurd ‹ms = g!"last"› c3 | simp at hm
        simp [this, c3]
  · unfold parseMethod at hm
    rcases hms' with ⟨h1, rfl⟩ | ⟨h1, rfl⟩ | h1
    · simp at hm; simp [h1, hm.symm]
    · simp at hm; simp [h1, hm.symm]
    · rw [h1]
      by_cases c4 : ms = g!"concatenate"
      · subst c4; simp at hm; simp [hm.symm]
      · have : m ≠ .concatenate := by
          intro e
          subst e
          repeat' split at hm
          all_goals first | contradiction | exact absurd ‹ms = g!"concatenate"› c4 | simp at hm
        simp [this, c4]
  · intro l hl
    rw [hl] at hfr
    simp only [asList, Res.ok.injEq] at hfr
    subst hfr
    exact hmap

/-- `x` never touches the stored instruction lists. -/
def KeepsInstrs {α : Type} (x : M α) : Prop := ∀ s, (x s).2.instrs = s.instrs

theorem KeepsInstrs.bind {α β : Type} {x : M α} {f : α → M β} (hx : KeepsInstrs x) (hf : ∀ a, KeepsInstrs (f a)) :
    KeepsInstrs (x >>= f) := by
  intro s
  rw [M.bind_apply]
  have := hx s
  rcases hr : x s with ⟨r, s1⟩
  rw [hr] at this
  cases r with
  | err => exact this
  | panic => exact this
  | ok a => exact (hf a s1).trans this

theorem KeepsInstrs.pure {α : Type} (a : α) : KeepsInstrs (Pure.pure a : M α) := fun _ => rfl
theorem KeepsInstrs.fail {α : Type} : KeepsInstrs (M.fail : M α) := fun _ => rfl
theorem KeepsInstrs.panic {α : Type} : KeepsInstrs (M.panic : M α) := fun _ => rfl
theorem KeepsInstrs.lift {α : Type} (r : Res α) : KeepsInstrs (M.lift r) := fun _ => rfl
theorem KeepsInstrs.getHeap : KeepsInstrs JT.getHeap := fun _ => rfl
theorem KeepsInstrs.nextTick : KeepsInstrs JT.nextTick := fun _ => rfl
theorem KeepsInstrs.alloc (c : Cell) : KeepsInstrs (JT.alloc c) := fun _ => rfl
theorem KeepsInstrs.ite {α : Type} {c : Prop} [Decidable c] {x y : M α} (hx : KeepsInstrs x) (hy : KeepsInstrs y) :
    KeepsInstrs (if c then x else y) := by split <;> assumption
theorem KeepsInstrs.materialize (o : Out V) : KeepsInstrs (JT.materialize o) := by
  cases o <;> intro s <;> rfl

theorem KeepsInstrs.runOps (env : Env) : ∀ (ops : List Op) (v : V), KeepsInstrs (JT.runOps env ops v)
  | [], _ => .pure _
  | _ :: ops, _ => by
    unfold JT.runOps
    exact .bind .nextTick fun _ => .bind .getHeap fun _ => .bind (.lift _) fun _ => .bind (.materialize _) fun _ => KeepsInstrs.runOps env ops _

theorem KeepsInstrs.convertV (env : Env) (ty : Str) (raw : V) : KeepsInstrs (JT.convertV env ty raw) :=
  .bind .getHeap fun _ => .lift _

theorem KeepsInstrs.jpGetV (env : Env) (path : Str) (v : V) : KeepsInstrs (JT.jpGetV env path v) := by
  refine .bind .getHeap fun h => ?_
  cases jpGet env.lib h.view path v with
  | none => exact .pure _
  | some o => exact .bind (.materialize _) fun _ => .pure _

theorem KeepsInstrs.xfind (env : Env) (n : NodeId) (p : Str) : KeepsInstrs (JT.xfind env n p) := by
  unfold JT.xfind
  cases env.lib.xfind n p with
  | none => exact .panic
  | some l => exact .pure _

theorem KeepsInstrs.instrRun (env : Env) (inp : V) (ty : Str) (mod : Mod) (ti : Instr) : KeepsInstrs (JT.instrRun env inp ty mod ti) := by
  unfold JT.instrRun
  cases env.fmt with
  | json =>
    refine .bind (.jpGetV _ _ _) fun r => ?_
    cases r with
    | none => exact .pure _
    | some raw =>
      refine .ite (.pure _) (.bind (.convertV _ _ _) fun c => .bind ?_ fun v => .ite (.pure _) (.runOps _ _ _))
      exact .ite (.pure _) (.materialize _)
  | xml =>
    show KeepsInstrs (instrXML env inp ty mod ti)
    unfold instrXML
    split
    · refine .bind (.xfind _ _ _) fun found => ?_
      cases found with
      | nil => exact .pure _
      | cons first others =>
        refine .bind (.xfind _ _ _) fun wc => .bind (.xfind _ _ _) fun woc => .bind ?_ fun v => .ite (.pure _) (.runOps _ _ _)
        refine .ite (.bind (.convertV _ _ _) fun _ => .materialize _) (.ite (.pure _) (.ite (.pure _) ?_))
        exact .bind (.convertV _ _ _) fun _ => .ite (.pure _) (.materialize _)
    · exact .fail

theorem KeepsInstrs.firstLoop {run : Instr → M V} (h : ∀ ti, KeepsInstrs (run ti)) : ∀ l, KeepsInstrs (JT.firstLoop run l)
  | [] => .pure _
  | ti :: rest => .bind (h ti) fun _ => .ite (KeepsInstrs.firstLoop h rest) (.pure _)

/-- One evaluation of a transform: the environment, input, type and path modifier it is run with. -/
structure Use where
  env : Env
  inp : V
  ty : Str
  mod : Mod

/-- The state after evaluating the transform `tid` several times. -/
def afterUses (tid : Nat) : List Use → St → St
  | [], s => s
  | u :: us, s => afterUses tid us (instrsRun u.env u.inp u.ty u.mod tid s).2

/-- **C09, full statement**: with method `last` every evaluation returns the last non-nil value in document order, whatever evaluations
were made before (the memory `s'` it starts from may differ from the one they left only in the stored instruction lists). -/
def C09_statement : Prop :=
  ∀ (tid : Nat) (tis : Instrs) (s0 : St), s0.instrs[tid]? = some tis → tis.method = .last →
    ∀ (history : List Use) (u : Use),
      let s := afterUses tid history s0
      ∃ s', s'.heap = s.heap ∧ s'.tick = s.tick ∧
        FirstOf (instrRun u.env u.inp u.ty u.mod) tis.from.reverse s' (instrsRun u.env u.inp u.ty u.mod tid s)

/-- The stored list is reversed by every evaluation. -/
theorem last_state (u : Use) (tid : Nat) (tis : Instrs) (s : St) (h : s.instrs[tid]? = some tis) (hm : tis.method = .last) :
    (instrsRun u.env u.inp u.ty u.mod tid s).2.instrs[tid]? = some { tis with «from» := tis.from.reverse } := by
  unfold instrsRun
  rw [M.bind_apply, readInstrs_apply h]
  simp only [hm]
  rw [M.bind_apply]
  simp only [writeInstrs]
  rw [KeepsInstrs.firstLoop (KeepsInstrs.instrRun _ _ _ _)]
  have := (List.getElem?_eq_some_iff.1 h).1
  simp [List.getElem?_set, this]

theorem last_run (u : Use) (tid : Nat) (tis : Instrs) (s : St) (h : s.instrs[tid]? = some tis) (hm : tis.method = .last) :
    ∃ s', s'.heap = s.heap ∧ s'.tick = s.tick ∧
      FirstOf (instrRun u.env u.inp u.ty u.mod) tis.from.reverse s' (instrsRun u.env u.inp u.ty u.mod tid s) := by
  unfold instrsRun
  rw [M.bind_apply, readInstrs_apply h]
  simp only [hm]
  rw [M.bind_apply]
  exact ⟨{ s with instrs := s.instrs.set tid { tis with «from» := tis.from.reverse, method := .last }, ilog := tid :: s.ilog }, rfl, rfl,
    firstLoop_first _ _ _⟩

/-- C09 for the first, third, fifth, ... evaluation: the last non-nil value in document order.  Missing: the others, where it is false
(`C09_refuted`): they return the first non-nil value (`C09_even`). -/
theorem C09_partial (tid : Nat) (tis : Instrs) (s0 : St) (h : s0.instrs[tid]? = some tis) (hm : tis.method = .last)
    (history : List Use) (u : Use) (heven : history.length % 2 = 0) :
    let s := afterUses tid history s0
    ∃ s', s'.heap = s.heap ∧ s'.tick = s.tick ∧
      FirstOf (instrRun u.env u.inp u.ty u.mod) tis.from.reverse s' (instrsRun u.env u.inp u.ty u.mod tid s) := by
  suffices hs : ∀ (n : Nat) (history : List Use) (s0 : St), history.length = 2 * n → s0.instrs[tid]? = some tis →
      (afterUses tid history s0).instrs[tid]? = some tis by
    exact last_run u tid tis _ (hs (history.length / 2) history s0 (by omega) h) hm
  intro n
  induction n with
  | zero =>
    intro hist s0 hl h0
    obtain rfl : hist = [] := List.length_eq_zero_iff.1 (by omega)
    exact h0
  | succ n ih =>
    intro hist s0 hl h0
    match hist, hl with
    | a :: b :: rest, hl =>
      simp only [List.length_cons] at hl
      refine ih rest _ (by omega) ?_
      have h1 := last_state a tid tis s0 h0 hm
      have h2 := last_state b tid _ _ h1 hm
      simpa using h2

/-- After an odd number of evaluations the result is the first non-nil value in document order. -/
theorem C09_even (tid : Nat) (tis : Instrs) (s0 : St) (h : s0.instrs[tid]? = some tis) (hm : tis.method = .last)
    (history : List Use) (u : Use) (hodd : history.length % 2 = 1) :
    let s := afterUses tid history s0
    ∃ s', s'.heap = s.heap ∧ s'.tick = s.tick ∧
      FirstOf (instrRun u.env u.inp u.ty u.mod) tis.from s' (instrsRun u.env u.inp u.ty u.mod tid s) := by
  match history, hodd with
  | a :: rest, hodd =>
    have h1 := last_state a tid tis s0 h hm
    simp only [List.length_cons] at hodd
    have := C09_partial tid { tis with «from» := tis.from.reverse } _ h1 hm rest u (by omega)
    simp only [List.reverse_reverse] at this
    exact this

namespace C09ex
open Toy
def st : St := ⟨[.map [(g!"a", .sc (.int 1)), (g!"b", .sc (.int 2))]], [⟨[⟨g!"$.a", [], []⟩, ⟨g!"$.b", [], []⟩], .last, []⟩], 0, [], [], 0⟩
def use : Use := ⟨env [], .obj 0, g!"integer", id⟩
/-- The first evaluation gives 2, the second 1. -/
theorem first_call : (instrsRun use.env use.inp use.ty use.mod 0 st).1 = .ok (.sc (.int 2)) := by decide +kernel
theorem second_call : (instrsRun use.env use.inp use.ty use.mod 0 (afterUses 0 [use] st)).1 = .ok (.sc (.int 1)) := by decide +kernel
end C09ex

theorem FirstOf.unique_of {run : Instr → M V} {l : List Instr} {s : St} {o : Res V × St} (h : FirstOf run l s o) : o = firstLoop run l s := by
  have hnil : ∀ (pre post : List Instr) (s s1 : St), AllNil run pre s s1 → firstLoop run (pre ++ post) s = firstLoop run post s1 := by
    intro pre post s s1 h
    induction h with
    | nil => rfl
    | cons h1 _ ih => rw [List.cons_append, firstLoop, M.bind_apply, h1]; exact ih
  cases h with
  | value h1 h2 h3 h4 => rw [h1, hnil _ _ _ _ h2, firstLoop, M.bind_apply, h3]; simp only [if_neg h4]; rfl
  | none h => have := hnil _ [] _ _ h; rw [List.append_nil] at this; rw [this]; rfl
  | err h1 h2 h3 => rw [h1, hnil _ _ _ _ h2, firstLoop, M.bind_apply, h3]
  | panic h1 h2 h3 => rw [h1, hnil _ _ _ _ h2, firstLoop, M.bind_apply, h3]

/-- C09 as stated is false: a second evaluation returns the first value. -/
theorem C09_refuted : ¬ C09_statement := by
  intro h
  obtain ⟨s', h1, h2, h3⟩ := h 0 ⟨[⟨g!"$.a", [], []⟩, ⟨g!"$.b", [], []⟩], .last, []⟩ C09ex.st rfl rfl [C09ex.use] C09ex.use
  have h4 := FirstOf.unique_of h3
  have h5 := congrArg Prod.fst h4
  rw [C09ex.second_call] at h5
  obtain ⟨heap, instrs, tick, wlog, ilog, shared⟩ := s'
  have e1 : heap = C09ex.st.heap := h1
  subst e1
  have : (firstLoop (instrRun C09ex.use.env C09ex.use.inp C09ex.use.ty C09ex.use.mod)
      (List.reverse [⟨g!"$.a", [], []⟩, ⟨g!"$.b", [], []⟩]) ⟨C09ex.st.heap, instrs, tick, wlog, ilog, shared⟩).1 = .ok (.sc (.int 2)) := rfl
  rw [this] at h5
  simp at h5

/- ## concatenate -/

namespace Spec
/-- What evaluating a list of instructions with method `concatenate` gives. -/
inductive ConcatOf (run : Instr → M V) (delim : Str) (l : List Instr) (s : St) : Res V × St → Prop
  /-- all are evaluated in order and the values combined -/
  | done {vs : List V} {s1 : St} {v : V} : Yields run l s vs s1 → Combined delim vs (.ok v) → ConcatOf run delim l s (.ok v, s1)
  /-- the values so far cannot be combined -/
  | clash {pre post : List Instr} {vs : List V} {s1 : St} : l = pre ++ post → Yields run pre s vs s1 → Combined delim vs .err →
      ConcatOf run delim l s (.err, s1)
  /-- an instruction fails -/
  | err {pre post : List Instr} {ti : Instr} {vs : List V} {s1 s2 : St} : l = pre ++ ti :: post → Yields run pre s vs s1 →
      run ti s1 = (.err, s2) → ConcatOf run delim l s (.err, s2)
  | panic {pre post : List Instr} {ti : Instr} {vs : List V} {s1 s2 : St} : l = pre ++ ti :: post → Yields run pre s vs s1 →
      run ti s1 = (.panic, s2) → ConcatOf run delim l s (.panic, s2)
end Spec

/-- `concat` on heap values, without the heap. -/
def catV (delim : Str) : V → V → Res V
  | .sc .nil, b => .ok b
  | a, .sc .nil => .ok a
  | .sc (.str x), .sc (.str y) => .ok (.sc (.str (if delim ≠ [] ∧ x ≠ [] ∧ y ≠ [] then x ++ delim ++ y else x ++ y)))
  | _, _ => .err

theorem concat_catV (h : Heap) (a b : V) (delim : Str) (s : St) :
    ((M.lift (concat h.view a b delim) >>= fun o => materialize o) : M V) s = (catV delim a b, s) := by
  have hs : ∀ n, ∃ l, h.shape (.arr n) = .arr l := by intro n; simp only [Heap.shape]; split <;> exact ⟨_, rfl⟩
  have ho : ∀ n, ∃ l, h.shape (.obj n) = .obj l := by intro n; simp only [Heap.shape]; split <;> exact ⟨_, rfl⟩
  have hsc : ∀ x, h.shape (.sc x) = .sc x := fun _ => rfl
  rw [M.bind_apply]
  simp only [M.lift, concat, Heap.view]
  cases a with
  | arr n =>
    obtain ⟨l, hl⟩ := hs n
    cases b with
    | arr m => obtain ⟨l', hl'⟩ := hs m; simp [hl, hl', catV, Shape.gtype]
    | obj m => obtain ⟨l', hl'⟩ := ho m; simp [hl, hl', catV, Shape.gtype]
    | sc y => cases y <;> simp [hl, hsc, catV, Shape.gtype, Scal.gtype, materialize, M.pure_apply]
  | obj n =>
    obtain ⟨l, hl⟩ := ho n
    cases b with
    | arr m => obtain ⟨l', hl'⟩ := hs m; simp [hl, hl', catV, Shape.gtype]
    | obj m => obtain ⟨l', hl'⟩ := ho m; simp [hl, hl', catV, Shape.gtype]
    | sc y => cases y <;> simp [hl, hsc, catV, Shape.gtype, Scal.gtype, materialize, M.pure_apply]
  | sc x =>
    cases b with
    | arr m => obtain ⟨l', hl'⟩ := hs m; cases x <;> simp [hsc, hl', catV, Shape.gtype, Scal.gtype, materialize, M.pure_apply]
    | obj m => obtain ⟨l', hl'⟩ := ho m; cases x <;> simp [hsc, hl', catV, Shape.gtype, Scal.gtype, materialize, M.pure_apply]
    | sc y =>
      by_cases hstr : ∃ u v, x = .str u ∧ y = .str v
      · obtain ⟨u, v, rfl, rfl⟩ := hstr
        simp only [hsc, catV, ne_eq, not_true_eq_false, if_false]
        by_cases hc : ¬delim = [] ∧ ¬u = [] ∧ ¬v = []
        · rw [if_pos hc, if_pos hc]; rfl
        · rw [if_neg hc, if_neg hc]; rfl
      · cases x <;> cases y <;> simp only [hsc, catV, Shape.gtype, Scal.gtype, materialize, M.pure_apply, ne_eq, not_true_eq_false, if_false, reduceCtorEq, not_false_eq_true, if_true] <;> try rfl
        exact absurd ⟨_, _, rfl, rfl⟩ hstr

theorem Yields.snoc {run : Instr → M V} {l : List Instr} {s s1 s2 : St} {vs : List V} {ti : Instr} {v : V} (h : Yields run l s vs s1)
    (hr : run ti s1 = (.ok v, s2)) : Yields run (l ++ [ti]) s (vs ++ [v]) s2 := by
  induction h with
  | nil => exact .cons hr .nil
  | cons h1 _ ih => exact .cons h1 (ih hr)

/-- Adding one more value to combined values. -/
theorem Combined.snoc {delim : Str} {vs : List V} {r v : V} (h : Combined delim vs (.ok r)) : Combined delim (vs ++ [v]) (catV delim r v) := by
  by_cases hv : v = V.nil
  · subst hv
    have hf : (vs ++ [V.nil]).filter (· ≠ V.nil) = vs.filter (· ≠ V.nil) := by simp
    have hc : catV delim r V.nil = .ok r := by
      show catV delim r (.sc .nil) = _
      cases r with
      | sc x => cases x <;> rfl
      | _ => rfl
    rw [hc]
    cases h with
    | none h => exact .none (hf ▸ h)
    | one h => exact .one (hf ▸ h)
    | strs h1 h2 => exact .strs h1 (hf ▸ h2)
  · have hf : (vs ++ [v]).filter (· ≠ V.nil) = vs.filter (· ≠ V.nil) ++ [v] := by simp [hv]
    cases h with
    | none h => rw [h] at hf; exact .one hf
    | one h =>
      rw [h] at hf
      have hr : r ≠ V.nil := by
        have : r ∈ vs.filter (· ≠ V.nil) := by rw [h]; simp
        simpa using (List.mem_filter.1 this).2
      by_cases hs : ∃ x y, r = .sc (.str x) ∧ v = .sc (.str y)
      · obtain ⟨x, y, rfl, rfl⟩ := hs
        have := Combined.strs (delim := delim) (vs := vs ++ [.sc (.str y)]) (l := [x, y]) (by simp) hf
        have he : join delim ([x, y].filter (· ≠ [])) = if delim ≠ [] ∧ x ≠ [] ∧ y ≠ [] then x ++ delim ++ y else x ++ y := by
          by_cases hx : x = [] <;> by_cases hy : y = [] <;> by_cases hd : delim = [] <;> simp [hx, hy, hd, join]
        rw [he] at this
        exact this
      · have hc : catV delim r v = .err := by
          unfold catV
          split
          · exact absurd rfl hr
          · exact absurd rfl hv
          · exact absurd ⟨_, _, rfl, rfl⟩ hs
          · rfl
        rw [hc]
        refine .err (by rw [hf]; simp) ?_
        by_cases hrs : ∃ x, r = .sc (.str x)
        · obtain ⟨x, rfl⟩ := hrs
          exact ⟨v, by simp, hv, fun y hy => hs ⟨x, y, rfl, hy⟩⟩
        · refine ⟨r, ?_, hr, fun x hx => hrs ⟨x, hx⟩⟩
          have : r ∈ vs.filter (· ≠ V.nil) := by rw [h]; simp
          simp [(List.mem_filter.1 this).1]
    | @strs l h1 h2 =>
      by_cases hs : ∃ y, v = .sc (.str y)
      · obtain ⟨y, rfl⟩ := hs
        have h3 : (vs ++ [V.sc (.str y)]).filter (· ≠ V.nil) = (l ++ [y]).map (fun x => V.sc (.str x)) := by rw [hf, h2]; simp
        have := Combined.strs (delim := delim) (by simp; omega) h3
        have he : join delim ((l ++ [y]).filter (· ≠ [])) =
            (if delim ≠ [] ∧ join delim (l.filter (· ≠ [])) ≠ [] ∧ y ≠ [] then join delim (l.filter (· ≠ [])) ++ delim ++ y
             else join delim (l.filter (· ≠ [])) ++ y) := by
          have hne : ∀ x ∈ l.filter (· ≠ []), x ≠ [] := fun x hx => by simpa using (List.mem_filter.1 hx).2
          rw [List.filter_append]
          generalize l.filter (· ≠ []) = m at hne
          by_cases hy : y = []
          · simp [hy]
          · have : [y].filter (· ≠ []) = [y] := by simp [hy]
            rw [this]
            clear h1 h2 h3 this
            induction m with
            | nil => simp [join]
            | cons a m ih =>
              have ha := hne a (by simp)
              cases m with
              | nil =>
                by_cases hd : delim = [] <;> simp [join, ha, hy, hd]
              | cons b m =>
                have ih := ih (fun x hx => hne x (List.mem_cons_of_mem _ hx))
                rw [show a :: b :: m ++ [y] = a :: b :: (m ++ [y]) from rfl, join, ← List.cons_append, ih]
                have hb := hne b (by simp)
                have hj : join delim (b :: m) ≠ [] := by
                  cases m with
                  | nil => simpa [join] using hb
                  | cons c m => simp [join, hb]
                have hj' : join delim (a :: b :: m) ≠ [] := by simp [join, ha]
                by_cases hd : delim = []
                · simp [hd, join]
                · rw [if_pos ⟨hd, hj, hy⟩, if_pos ⟨hd, hj', hy⟩, join]; simp
        rw [he] at this
        exact this
      · have hc : catV delim (.sc (.str (join delim (l.filter (· ≠ []))))) v = .err := by
          generalize join delim (l.filter (· ≠ [])) = x
          cases v with
          | sc y =>
            cases y with
            | nil => exact absurd rfl hv
            | str z => exact absurd ⟨z, rfl⟩ hs
            | _ => rfl
          | _ => rfl
        rw [hc]
        refine .err (by rw [hf, h2]; simp; omega) ⟨v, by simp, hv, fun y hy => hs ⟨y, hy⟩⟩

theorem catV_ne_panic (delim : Str) (a b : V) : catV delim a b ≠ .panic := by
  unfold catV; split <;> simp

theorem concatLoop_of (run : Instr → M V) (delim : Str) : ∀ (post pre : List Instr) (s s1 : St) (vs : List V) (r : V), Yields run pre s vs s1 →
    Combined delim vs (.ok r) → ConcatOf run delim (pre ++ post) s (concatLoop run delim post r s1)
  | [], pre, s, s1, vs, r, hy, hc => by rw [List.append_nil]; exact .done hy hc
  | ti :: post, pre, s, s1, vs, r, hy, hc => by
    rw [concatLoop, M.bind_apply]
    rcases hr : run ti s1 with ⟨v, s2⟩
    cases v with
    | err => exact .err rfl hy hr
    | panic => exact .panic rfl hy hr
    | ok v =>
      have hy' := Yields.snoc hy hr
      have hc' := Combined.snoc (v := v) hc
      have happ : pre ++ ti :: post = (pre ++ [ti]) ++ post := by simp
      simp only
      have hgo : (do
          let h ← getHeap
          let o ← M.lift (concat h.view r v delim)
          let r ← materialize o
          concatLoop run delim post r : M V) s2 =
          match catV delim r v with
          | .ok x => concatLoop run delim post x s2
          | .err => (.err, s2)
          | .panic => (.panic, s2) := by
        rw [M.bind_apply]
        simp only [getHeap]
        have := concat_catV s2.heap r v delim s2
        rw [M.bind_apply] at this
        rw [M.bind_apply]
        rcases hl : M.lift (concat s2.heap.view r v delim) s2 with ⟨o, s3⟩
        rw [hl] at this
        cases o with
        | err => simp only at this ⊢; rw [Prod.mk.injEq] at this; rw [← this.1, this.2]
        | panic => simp only at this ⊢; rw [Prod.mk.injEq] at this; rw [← this.1, this.2]
        | ok o =>
          simp only at this ⊢
          rw [M.bind_apply, this]
          cases catV delim r v <;> rfl
      rw [hgo]
      cases hcat : catV delim r v with
      | ok x =>
        rw [hcat] at hc'
        rw [happ]
        exact concatLoop_of run delim post (pre ++ [ti]) s s2 (vs ++ [v]) x hy' hc'
      | err => rw [hcat] at hc'; exact .clash happ hy' hc'
      | panic => exact absurd hcat (catV_ne_panic _ _ _)

/-- **C10**: with method `concatenate` the non-nil values of all instructions are combined in document order. -/
theorem C10 (env : Env) (inp : V) (ty : Str) (mod : Mod) (tid : Nat) (tis : Instrs) (s : St) (h : s.instrs[tid]? = some tis)
    (hm : tis.method = .concatenate) : ConcatOf (instrRun env inp ty mod) tis.delim tis.from s (instrsRun env inp ty mod tid s) := by
  unfold instrsRun
  rw [M.bind_apply, readInstrs_apply h]
  simp only [hm]
  exact concatLoop_of _ _ tis.from [] s s [] V.nil .nil (.none rfl)

/-- How values combine is determined by the values. -/
theorem Combined.unique {delim : Str} {vs : List V} {r r' : Res V} (h : Combined delim vs r) (h' : Combined delim vs r') : r = r' := by
  have hno : ∀ {l : List Str} {v : V}, vs.filter (· ≠ V.nil) = l.map (fun x => V.sc (.str x)) → v ∈ vs → v ≠ V.nil → (∀ x, v ≠ .sc (.str x)) →
      False := by
    intro l v hl hm hn hx
    have : v ∈ vs.filter (· ≠ V.nil) := List.mem_filter.2 ⟨hm, by simpa using hn⟩
    rw [hl] at this
    obtain ⟨x, _, e⟩ := List.mem_map.1 this
    exact hx x e.symm
  cases h with
  | none h => cases h' with
    | none h' => rfl
    | one h' => rw [h] at h'; simp at h'
    | strs h1 h2 => rw [h] at h2; have := congrArg List.length h2; simp at this; omega
    | err h1 h2 => rw [h] at h1; simp at h1
  | one h => cases h' with
    | none h' => rw [h] at h'; simp at h'
    | one h' => rw [h] at h'; simp at h'; rw [h']
    | strs h1 h2 => rw [h] at h2; have := congrArg List.length h2; simp at this; omega
    | err h1 h2 => rw [h] at h1; simp at h1
  | strs h1 h2 => cases h' with
    | none h' => rw [h2] at h'; simp at h'; subst h'; simp at h1
    | one h' => rw [h2] at h'; have := congrArg List.length h'; simp at this; omega
    | strs h3 h4 =>
      rw [h2] at h4
      have := List.map_inj_right (f := fun x => V.sc (.str x)) (fun _ _ h => by simpa using h) |>.1 h4
      rw [this]
    | err h3 h4 => obtain ⟨v, hv, hn, hx⟩ := h4; exact (hno h2 hv hn hx).elim
  | err h1 h2 =>
    obtain ⟨v, hv, hn, hx⟩ := h2
    cases h' with
    | none h' => rw [h'] at h1; simp at h1
    | one h' => rw [h'] at h1; simp at h1
    | strs h3 h4 => exact (hno h4 hv hn hx).elim
    | err _ _ => rfl

namespace C10ex
open Toy
def st : St := ⟨[.map [(g!"a", .sc (.str g!"x")), (g!"b", .sc (.str [])), (g!"d", .sc (.str g!"y"))]],
  [⟨[⟨g!"$.a", [], []⟩, ⟨g!"$.b", [], []⟩, ⟨g!"$.c", [], []⟩, ⟨g!"$.d", [], []⟩], .concatenate, g!"-"⟩,
   ⟨[⟨g!"$.c", [], []⟩, ⟨g!"$.d", [], []⟩, ⟨g!"$.a", [], []⟩], .first, []⟩], 0, [], [], 0⟩
example : (instrsRun (env []) (.obj 0) g!"string" id 0 st).1 = .ok (.sc (.str g!"x-y")) := by decide +kernel
example : (instrsRun (env []) (.obj 0) g!"string" id 1 st).1 = .ok (.sc (.str g!"y")) := by decide +kernel
example : ∃ tis, st.instrs[0]? = some tis ∧ tis.method = .concatenate := ⟨_, rfl, rfl⟩
example : ∃ tis, st.instrs[1]? = some tis ∧ tis.method = .first := ⟨_, rfl, rfl⟩
/-- A transform that parses, with each method. -/
example : (parseInstrs (lib []) (o [(g!"method", s g!"last"), (g!"from", a [o [(g!"jsonPath", s g!"$.a")]])])).toOption.map (fun t => (t.method, t.from)) =
    some (.last, [⟨g!"$.a", [], []⟩]) := by decide +kernel
end C10ex

end JT
