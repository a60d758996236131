import Verif.Props.C06
/- C14 (operation chains), C15 (max), C17 (arguments). -/
namespace JT
open Spec

variable {α : Type} {lib : Lib} {vw : View α}

/- ## C15: max -/

namespace Spec
/-- The number at a path of an entry, as a float. -/
def keyOf (lib : Lib) (vw : View α) (path : Str) (item : α) : Option F64 := (jpGet lib vw path item).bind (numberOf lib vw)
end Spec

theorem F64.gt_trans {a b c : F64} (h1 : F64.gt a b = true) (h2 : F64.gt b c = true) : F64.gt a c = true := by
  simp only [F64.gt, Bool.and_eq_true, decide_eq_true_eq, Bool.not_eq_true'] at *
  exact ⟨⟨h1.1.1, h2.1.2⟩, by omega⟩

theorem F64.gt_of_not {a b c : F64} (h1 : F64.gt a b = true) (h2 : F64.gt c b = false) : F64.isNaN c = true ∨ F64.gt a c = true := by
  simp only [F64.gt, Bool.and_eq_true, decide_eq_true_eq, Bool.not_eq_true', Bool.and_eq_false_iff, Bool.not_eq_false',
    decide_eq_false_iff_not] at *
  by_cases hc : F64.isNaN c = true
  · exact Or.inl hc
  · refine Or.inr ⟨⟨h1.1.1, by simpa using hc⟩, ?_⟩
    rcases h2 with (h2 | h2) | h2
    · exact absurd h2 hc
    · rw [h1.1.2] at h2; simp at h2
    · omega

theorem F64.not_nan {a b : F64} (h : F64.gt a b = true) : F64.isNaN a = false := by
  simp only [F64.gt, Bool.and_eq_true, Bool.not_eq_true'] at h
  exact h.1.1

theorem F64.gt_irrefl (a : F64) : F64.gt a a = false := by simp [F64.gt]

/-- State of the loop after the entries with keys `ks`: no positive key yet, or the first greatest one at `idx`. -/
def MaxState (ks : List F64) (largest : F64) (idx : Nat) : Prop :=
  (largest = F64.zero ∧ idx = 0 ∧ ∀ k ∈ ks, F64.gt k F64.zero = false) ∨
  (F64.gt largest F64.zero = true ∧ ks[idx]? = some largest ∧ (∀ k ∈ ks, F64.gt k largest = false) ∧
    ∀ j k, j < idx → ks[j]? = some k → F64.isNaN k = true ∨ F64.gt largest k = true)

theorem maxLoop_spec {path : Str} : ∀ (items : List α) (ks : List F64) (largest : F64) (idx : Nat), MaxState ks largest idx →
    match maxLoop lib vw path items ks.length largest idx with
    | .ok i => ∃ ks' l', items.map (keyOf lib vw path) = ks'.map some ∧ MaxState (ks ++ ks') l' i
    | .err => ∃ item ∈ items, keyOf lib vw path item = none
    | .panic => False
  | [], ks, largest, idx, h => by
    rw [maxLoop]
    exact ⟨[], largest, rfl, by rw [List.append_nil]; exact h⟩
  | item :: rest, ks, largest, idx, h => by
    rw [maxLoop]
    cases hj : jpGet lib vw path item with
    | none => exact ⟨item, by simp, by simp [keyOf, hj]⟩
    | some o =>
      simp only
      cases hn : numberOf lib vw o with
      | none => exact ⟨item, by simp, by simp [keyOf, hj, hn]⟩
      | some k =>
        simp only
        have hk : keyOf lib vw path item = some k := by simp [keyOf, hj, hn]
        have hlen : (ks ++ [k]).length = ks.length + 1 := by simp
        by_cases hg : F64.gt k largest = true
        · rw [if_pos hg]
          have hst : MaxState (ks ++ [k]) k ks.length := by
            right
            rcases h with ⟨rfl, _, h3⟩ | ⟨h1, h2, h3, h4⟩
            · refine ⟨hg, by simp, ?_, ?_⟩
              · intro k' hk'
                rcases List.mem_append.1 hk' with hm | hm
                · cases hc : F64.gt k' k with
                  | false => rfl
                  | true => have := h3 k' hm; rw [F64.gt_trans hc hg] at this; exact absurd this (by simp)
                · simp at hm; subst hm; exact F64.gt_irrefl _
              · intro j k' hj hk'
                rw [List.getElem?_append_left hj] at hk'
                exact F64.gt_of_not hg (h3 k' (List.mem_of_getElem? hk'))
            · refine ⟨F64.gt_trans hg h1, by simp, ?_, ?_⟩
              · intro k' hk'
                rcases List.mem_append.1 hk' with hm | hm
                · cases hc : F64.gt k' k with
                  | false => rfl
                  | true => have := h3 k' hm; rw [F64.gt_trans hc hg] at this; exact absurd this (by simp)
                · simp at hm; subst hm; exact F64.gt_irrefl _
              · intro j k' hj hk'
                rw [List.getElem?_append_left hj] at hk'
                exact F64.gt_of_not hg (h3 k' (List.mem_of_getElem? hk'))
          have ih := maxLoop_spec (path := path) rest (ks ++ [k]) k ks.length hst
          rw [hlen] at ih
          split at ih
          · obtain ⟨ks', l', h1, h2⟩ := ih
            exact ⟨k :: ks', l', by simp [hk, h1], by simpa using h2⟩
          · obtain ⟨x, h1, h2⟩ := ih; exact ⟨x, List.mem_cons_of_mem _ h1, h2⟩
          · exact ih.elim
        · rw [if_neg hg]
          have hg' : F64.gt k largest = false := by simpa using hg
          have hst : MaxState (ks ++ [k]) largest idx := by
            rcases h with ⟨rfl, h2, h3⟩ | ⟨h1, h2, h3, h4⟩
            · refine Or.inl ⟨rfl, h2, ?_⟩
              intro k' hk'
              rcases List.mem_append.1 hk' with hm | hm
              · exact h3 k' hm
              · simp at hm; subst hm; exact hg'
            · have hlt : idx < ks.length := (List.getElem?_eq_some_iff.1 h2).1
              refine Or.inr ⟨h1, by rw [List.getElem?_append_left hlt]; exact h2, ?_, ?_⟩
              · intro k' hk'
                rcases List.mem_append.1 hk' with hm | hm
                · exact h3 k' hm
                · simp at hm; subst hm; exact hg'
              · intro j k' hj hk'
                rw [List.getElem?_append_left (Nat.lt_trans hj hlt)] at hk'
                exact h4 j k' hj hk'
          have ih := maxLoop_spec (path := path) rest (ks ++ [k]) largest idx hst
          rw [hlen] at ih
          split at ih
          · obtain ⟨ks', l', h1, h2⟩ := ih
            exact ⟨k :: ks', l', by simp [hk, h1], by simpa using h2⟩
          · obtain ⟨x, h1, h2⟩ := ih; exact ⟨x, List.mem_cons_of_mem _ h1, h2⟩
          · exact ih.elim

namespace Spec
/-- Entry number `i` has the greatest key, a number, and is the first one to have it (`ks` are the keys of all entries). -/
def FirstGreatest (ks : List F64) (i : Nat) : Prop :=
  ∃ k, ks[i]? = some k ∧ F64.isNaN k = false ∧ (∀ k' ∈ ks, F64.gt k' k = false) ∧ ∀ j k', j < i → ks[j]? = some k' → F64.isNaN k' = true ∨ F64.gt k k' = true
end Spec

/-- The argument paths are written with `@` for the entry. -/
abbrev entryPath (p : Str) : Str := replace1 p g!"@" g!"$"

/-- **C15, full statement**: if `max` succeeds on an array, every entry has a number at the `by` path and the result is the value at the
`return` path of the first entry with the greatest number. -/
def C15_statement : Prop :=
  ∀ (lib : Lib) (byPath retPath : Str) (items : List P) (o : Out P), maxOp lib P.view byPath retPath (.arr items) = .ok o →
    ∃ ks i item, items.map (keyOf lib P.view (entryPath byPath)) = ks.map some ∧ FirstGreatest ks i ∧ items[i]? = some item ∧
      jpGet lib P.view (entryPath retPath) item = some o

/-- C15 when some number is positive; otherwise the first entry is taken, whatever the numbers.  Missing: arrays with only numbers that
are not positive (`C15_refuted`). -/
theorem C15_partial {byPath retPath : Str} {raw : α} {items : List α} {o : Out α} (hs : vw.shape raw = .arr items)
    (h : maxOp lib vw byPath retPath raw = .ok o) :
    ∃ ks i item, items.map (keyOf lib vw (entryPath byPath)) = ks.map some ∧ items[i]? = some item ∧
      jpGet lib vw (entryPath retPath) item = some o ∧
      ((∃ k ∈ ks, F64.gt k F64.zero = true) → FirstGreatest ks i) ∧ ((∀ k ∈ ks, F64.gt k F64.zero = false) → i = 0) := by
  unfold maxOp at h
  rw [hs] at h
  simp only at h
  have hl := maxLoop_spec (lib := lib) (vw := vw) (path := entryPath byPath) items [] F64.zero 0 (Or.inl ⟨rfl, rfl, by simp⟩)
  rw [List.length_nil] at hl
  split at h
  · rename_i i hi
    rw [hi] at hl
    obtain ⟨ks, l, h1, h2⟩ := hl
    rw [List.nil_append] at h2
    split at h
    · contradiction
    · rename_i item hit
      split at h
      · contradiction
      · rename_i o' ho
        simp only [Res.ok.injEq] at h
        subst h
        refine ⟨ks, i, item, h1, hit, ho, ?_, ?_⟩
        · rintro ⟨k, hk, hp⟩
          rcases h2 with ⟨_, _, h3⟩ | ⟨h3, h4, h5, h6⟩
          · rw [h3 k hk] at hp; simp at hp
          · exact ⟨l, h4, F64.not_nan h3, h5, h6⟩
        · intro hnp
          rcases h2 with ⟨_, h3, _⟩ | ⟨h3, h4, _⟩
          · exact h3
          · rw [hnp l (List.mem_of_getElem? h4)] at h3; simp at h3
  · contradiction
  · contradiction

namespace C15ex
open Toy
/-- -2 and -1 (as floats) with names a and b. -/
def items : List P := [o [(g!"n", .sc (.f64 0xC000000000000000#64)), (g!"s", s g!"a")], o [(g!"n", .sc (.f64 0xBFF0000000000000#64)), (g!"s", s g!"b")]]
def pos : List P := [o [(g!"n", .sc (.f64 0x3FF0000000000000#64)), (g!"s", s g!"a")], o [(g!"n", .sc (.f64 0x4000000000000000#64)), (g!"s", s g!"b")]]
theorem first : (match maxOp (Toy.lib []) P.view g!"@.n" g!"@.s" (.arr items) with | .ok (.val (.sc (.str x))) => x | _ => []) = g!"a" := by decide +kernel
example : (match maxOp (Toy.lib []) P.view g!"@.n" g!"@.s" (.arr pos) with | .ok (.val (.sc (.str x))) => x | _ => []) = g!"b" := by decide +kernel
end C15ex

/-- C15 as stated is false: with the numbers -2, -1 the entry with -2 is chosen. -/
theorem C15_refuted : ¬ C15_statement := by
  intro h
  have hx : maxOp (Toy.lib []) P.view g!"@.n" g!"@.s" (.arr C15ex.items) = .ok (.val (.sc (.str g!"a"))) := rfl
  obtain ⟨ks, i, item, h1, ⟨k, h2, _, h3, _⟩, h4, h5⟩ := h _ _ _ _ _ hx
  have hk : C15ex.items.map (keyOf (Toy.lib []) P.view (entryPath g!"@.n")) =
    [some 0xC000000000000000#64, some 0xBFF0000000000000#64] := by decide +kernel
  rw [hk] at h1
  obtain rfl : ks = [0xC000000000000000#64, 0xBFF0000000000000#64] := by
    match ks, h1 with
    | [a, b], h1 => simp at h1; rw [← h1.1, ← h1.2]
    | [], h1 => simp at h1
    | [_], h1 => simp at h1
    | _ :: _ :: _ :: _, h1 => simp at h1
  match i, h2, h4 with
  | 0, h2, h4 =>
    simp at h2; subst h2
    exact absurd (h3 0xBFF0000000000000#64 (by simp)) (by decide)
  | 1, h2, h4 =>
    simp only [C15ex.items] at h4
    simp at h4
    subst h4
    have : jpGet (Toy.lib []) P.view (entryPath g!"@.s") (Toy.o [(g!"n", .sc (.f64 0xBFF0000000000000#64)), (g!"s", Toy.s g!"b")]) =
      some (.val (.sc (.str g!"b"))) := rfl
    rw [this] at h5
    simp at h5
  | n + 2, h2, _ => simp at h2

/- ## C14 -/

/-- The only operation that can panic is `max`, on an empty array. -/
theorem runOp_panic_iff {now : GTime} {op : Op} {raw : α} :
    runOp lib vw now op raw = .panic ↔ (∃ b r, op = .max b r) ∧ vw.shape raw = .arr [] := by
  constructor
  · intro h
    cases op with
    | max b r =>
      refine ⟨⟨b, r, rfl⟩, ?_⟩
      simp only [runOp, maxOp] at h
      split at h
      · rename_i items hs
        have hl := maxLoop_spec (lib := lib) (vw := vw) (path := entryPath b) items [] F64.zero 0 (Or.inl ⟨rfl, rfl, by simp⟩)
        rw [List.length_nil] at hl
        split at h
        · rename_i i hi
          rw [hi] at hl
          split at h
          · rename_i hit
            obtain ⟨ks, l, h1, h2⟩ := hl
            have hlen : items.length = ks.length := by simpa using congrArg List.length h1
            rw [List.nil_append] at h2
            rcases h2 with ⟨_, h3, _⟩ | ⟨_, h4, _⟩
            · subst h3
              rw [hs]
              cases items with
              | nil => rfl
              | cons _ _ => simp at hit
            · have := (List.getElem?_eq_some_iff.1 h4).1
              rw [List.getElem?_eq_none_iff] at hit
              omega
          · split at h <;> contradiction
        · contradiction
        · rename_i hi; rw [hi] at hl; exact hl.elim
      · contradiction
    | duration =>
      simp only [runOp, durationOp] at h
      have hd : ∀ x, durationStr x ≠ .panic := by
        intro x
        have ha : ∀ y, atoiOr0 y ≠ .panic := by intro y; unfold atoiOr0; split <;> (try split) <;> simp
        unfold durationStr
        split
        · simp
        · rename_i caps _
          cases h1 : atoiOr0 (capture caps 1) with
          | ok a => cases h2 : atoiOr0 (capture caps 2) with
            | ok b => cases h3 : atoiOr0 (capture caps 3) with
              | ok c => simp
              | err => simp
              | panic => exact absurd h3 (ha _)
            | err => simp
            | panic => exact absurd h2 (ha _)
          | err => simp
          | panic => exact absurd h1 (ha _)
      split at h
      · contradiction
      · rename_i x _
        have := hd x
        cases hx : durationStr x with
        | ok a => rw [hx] at h; simp [Res.map] at h
        | err => rw [hx] at h; simp [Res.map] at h
        | panic => exact absurd hx this
      · contradiction
    | _ =>
      exfalso
      simp only [runOp, onStr] at h
      first
        | contradiction
        | (split at h <;> first | contradiction | (split at h <;> contradiction))
  · rintro ⟨⟨b, r, rfl⟩, hs⟩
    simp [runOp, maxOp, hs, maxLoop]

namespace Spec
/-- Running operations from left to right, each on the result of the one before; `step op v s` is one operation. -/
inductive Chain (step : Op → V → M V) : List Op → V → St → Res V × St → Prop
  | done {v : V} {s : St} : Chain step [] v s (.ok v, s)
  | next {op : Op} {ops : List Op} {v v' : V} {s s1 : St} {r : Res V × St} : step op v s = (.ok v', s1) → Chain step ops v' s1 r →
      Chain step (op :: ops) v s r
  | fails {op : Op} {ops : List Op} {v : V} {s s1 : St} : step op v s = (.err, s1) → Chain step (op :: ops) v s (.err, s1)
  | panics {op : Op} {ops : List Op} {v : V} {s s1 : St} : step op v s = (.panic, s1) → Chain step (op :: ops) v s (.panic, s1)
end Spec

/-- One operation on a value in memory. -/
def opStep (env : Env) (op : Op) (v : V) : M V := fun s =>
  match runOp env.lib s.heap.view (env.lib.now s.tick) op v with
  | .ok o => materialize o { s with tick := s.tick + 1 }
  | .err => (.err, { s with tick := s.tick + 1 })
  | .panic => (.panic, { s with tick := s.tick + 1 })

theorem materialize_ok (o : Out V) (s : St) : ∃ v s', materialize o s = (.ok v, s') := by
  cases o <;> exact ⟨_, _, rfl⟩

/-- **C14, full statement**: a chain of operations runs them from left to right and stops at the first error; it never panics. -/
def C14_statement : Prop :=
  ∀ (env : Env) (ops : List Op) (v : V) (s : St), Chain (opStep env) ops v s (runOps env ops v s) ∧ (runOps env ops v s).1 ≠ .panic

theorem runOps_chain (env : Env) : ∀ (ops : List Op) (v : V) (s : St), Chain (opStep env) ops v s (runOps env ops v s)
  | [], v, s => .done
  | op :: ops, v, s => by
    rw [runOps, M.bind_apply]
    simp only [nextTick]
    rw [M.bind_apply]
    simp only [getHeap]
    rw [M.bind_apply]
    simp only [M.lift]
    cases ho : runOp env.lib s.heap.view (env.lib.now s.tick) op v with
    | err => exact .fails (by unfold opStep; rw [ho])
    | panic => exact .panics (by unfold opStep; rw [ho])
    | ok o =>
      simp only
      obtain ⟨v', s', hm⟩ := materialize_ok o { s with tick := s.tick + 1 }
      rw [M.bind_ok hm]
      exact .next (by unfold opStep; rw [ho]; exact hm) (runOps_chain env ops v' s')

/-- C14 for chains without `max`; and in any chain, left-to-right order and stopping at the first error.  Missing: `max` panics on an
empty array (`C14_refuted`), which e.g. `split` of an empty string produces; that is the only way (`runOp_panic_iff`). -/
theorem C14_partial (env : Env) (ops : List Op) (v : V) (s : St) :
    Chain (opStep env) ops v s (runOps env ops v s) ∧
    ((∀ b r, Op.max b r ∉ ops) → (runOps env ops v s).1 ≠ .panic) := by
  refine ⟨runOps_chain env ops v s, ?_⟩
  intro hno
  have h := runOps_chain env ops v s
  generalize runOps env ops v s = r at h
  induction h with
  | done => simp
  | next _ _ ih => exact ih fun b r hm => hno b r (List.mem_cons_of_mem _ hm)
  | fails _ => simp
  | @panics op ops v s s1 h =>
    exfalso
    unfold opStep at h
    split at h
    · obtain ⟨v', s', hm⟩ := materialize_ok _ { s with tick := s.tick + 1 }
      rw [hm] at h; simp at h
    · simp at h
    · rename_i hp
      obtain ⟨⟨b, r, rfl⟩, _⟩ := runOp_panic_iff.1 hp
      exact hno b r (by simp)

/-- C14 as stated is false: splitting an empty string and taking the maximum panics. -/
theorem C14_refuted : ¬ C14_statement := by
  intro h
  have := (h (Toy.env []) [.split g!",", .max g!"@.n" g!"@.s"] (.sc (.str [])) ⟨[], [], 0, [], [], 0⟩).2
  exact this (by decide +kernel)

namespace C14ex
example : (runOps (Toy.env []) [.split g!",", .convertToBool, .inverse] (.sc (.str g!"a,b")) ⟨[], [], 0, [], [], 0⟩).1 = .ok (.sc (.bool false)) := by
  decide +kernel
example : ∀ b r, Op.max b r ∉ [Op.split g!",", .convertToBool, .inverse] := by simp
end C14ex

end JT
