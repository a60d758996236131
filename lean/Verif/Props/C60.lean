import Verif.Model.Bulk
/- C60: the protocol of the bulk writer. -/
namespace JT.Bulk
variable {α : Type}

/-! ### Specification -/

/-- The items sent. -/
def sent : List (Ev α) → List α
  | [] => []
  | .sent x :: t => x :: sent t
  | _ :: t => sent t

/-- The records written. -/
def wrote : List (Ev α) → List α
  | [] => []
  | .wrote x :: t => x :: wrote t
  | _ :: t => wrote t

/-- How often something with a property was seen. -/
def count (p : Ev α → Bool) (tr : List (Ev α)) : Nat := (tr.filter p).length

def isReported : Ev α → Bool
  | .reported => true
  | _ => false
def isFailed : Ev α → Bool
  | .failed => true
  | _ => false
def isClosedErr : Ev α → Bool
  | .closedErr => true
  | _ => false
def isClosedReq : Ev α → Bool
  | .closedReq => true
  | _ => false
def isGot : Ev α → Bool
  | .gotErr => true
  | _ => false
def isFlushed : Ev α → Bool
  | .flushed => true
  | _ => false

/-- An event of the goroutine (not one of its user). -/
def ofWriter : Ev α → Bool
  | .closedReq => false
  | .gotErr => false
  | _ => true

/-! ### Invariant -/

theorem sent_append : ∀ a b : List (Ev α), sent (a ++ b) = sent a ++ sent b
  | [], b => rfl
  | x :: a, b => by cases x <;> simp [sent, sent_append a b]

theorem wrote_append : ∀ a b : List (Ev α), wrote (a ++ b) = wrote a ++ wrote b
  | [], b => rfl
  | x :: a, b => by cases x <;> simp [wrote, wrote_append a b]

theorem count_append (p : Ev α → Bool) (a b : List (Ev α)) : count p (a ++ b) = count p a + count p b := by simp [count]

theorem count_nil (p : Ev α → Bool) : count p [] = 0 := rfl

theorem count_one (p : Ev α → Bool) (x : Ev α) : count p [x] = if p x then 1 else 0 := by
  cases h : p x <;> simp [count, h]

/-- The items not yet written. -/
def Pc.item : Pc α → List α
  | .write x => [x]
  | _ => []

/-- The goroutine got beyond its loop. -/
def Pc.over : Pc α → Prop
  | .closing => True
  | .exited => True
  | _ => False

/-- What holds after every execution. -/
structure Inv (s : St α) (tr : List (Ev α)) : Prop where
  /-- Errors are reported at most once, and what was reported has failed before. -/
  fails : count isFailed tr = count isReported tr + match s.pc with | .send => 1 | _ => 0
  once : count isReported tr ≤ 1
  before : count isReported tr = 1 → s.pc.over
  flushes : count isFlushed tr ≤ 1 ∧ (count isFlushed tr = 1 → s.pc.over ∧ count isFailed tr = 0)
  ends : s.pc.over → count isReported tr = 1 ∨ count isFlushed tr = 1
  flushing : (match s.pc with | .flush => True | _ => False) ∨ count isFlushed tr = 1 → count isClosedReq tr = 1
  buffer : count isReported tr = count isGot tr + if s.buf then 1 else 0
  closedErr : count isClosedErr tr = if s.errClosed then 1 else 0
  exit : s.errClosed = true ↔ s.pc = .exited
  closedReq : count isClosedReq tr = if s.reqClosed then 1 else 0
  /-- The records written are the items sent, apart from the last one. -/
  order : ∃ rest, sent tr = wrote tr ++ rest ∧ rest.length ≤ 1 ∧ (count isFailed tr = 0 → rest = s.pc.item)

theorem inv_step {s s' : St α} {tr b : List (Ev α)} (h : Inv s tr) (hs : Step s b s') : Inv s' (tr ++ b) := by
  obtain ⟨h1, h2, h3, h4, h5, h6, h7, h8, h9, h10, rest, h11, h12, h13⟩ := h
  cases hs <;> simp only [Pc.over, Pc.item] at *
  all_goals
    refine ⟨?_, ?_, ?_, ?_, ?_, ?_, ?_, ?_, ?_, ?_, ?_⟩
  all_goals
    simp only [count_append, count_nil, count_one, isFailed, isReported, isFlushed, isClosedErr, isClosedReq, isGot, sent_append, wrote_append, sent, wrote,
      List.append_nil, Pc.over, Pc.item, if_true, if_false, Nat.add_zero, Bool.false_eq_true, reduceCtorEq, false_or, true_or, true_implies, false_implies, and_true, true_and, imp_false, and_false, false_and, implies_true, iff_false, iff_true] at *
  all_goals try assumption
  all_goals try omega
  all_goals try grind
  all_goals first
    | exact ⟨rest, h11, h12, h13⟩
    | exact ⟨rest, h11, h12⟩
    | exact ⟨[_], by rw [h11, h13 (by omega), List.append_nil], by simp, by simp⟩
    | exact ⟨[], by rw [h11, h13 (by omega), List.append_nil], by simp, by simp⟩
    | skip

theorem inv_exec {s : St α} {tr : List (Ev α)} (h : Exec .init tr s) : Inv s tr := by
  generalize hi : St.init = s0 at h
  induction h with
  | refl => 
    subst hi
    constructor <;> simp [St.init, count, Pc.over, sent, wrote, Pc.item]
  | step _ hs ih => exact inv_step ih hs

/-! ### Theorems -/

/-- At most one error is reported; the channel of errors is closed at most once; at most one error can be received. -/
theorem C60 {s : St α} {tr : List (Ev α)} (h : Exec .init tr s) :
    count isReported tr ≤ 1 ∧ count isClosedErr tr ≤ 1 ∧ count isGot tr ≤ 1 ∧
    (s.pc = .exited ↔ count isClosedErr tr = 1) := by
  have i := inv_exec h
  have h1 := i.once
  have h2 := i.closedErr
  have h3 := i.buffer
  have h4 := i.exit
  refine ⟨h1, ?_, by omega, ?_⟩
  · rw [h2]; split <;> omega
  · rw [← h4, h2]; cases s.errClosed <;> simp

/-- The records written are the items sent in their order, up to the last one at most. -/
theorem C60_order {s : St α} {tr : List (Ev α)} (h : Exec .init tr s) :
    ∃ rest, sent tr = wrote tr ++ rest ∧ rest.length ≤ 1 := by
  obtain ⟨r, h1, h2, _⟩ := (inv_exec h).order
  exact ⟨r, h1, h2⟩

/-- If the channel of errors is closed without an error then every item was written, the container is flushed, and the request channel was closed. -/
theorem C60_complete {s : St α} {tr : List (Ev α)} (h : Exec .init tr s) (hc : count isClosedErr tr = 1) (he : count isReported tr = 0) :
    wrote tr = sent tr ∧ count isFlushed tr = 1 ∧ count isClosedReq tr = 1 ∧ count isFailed tr = 0 := by
  have hx := (C60 h).2.2.2.2 hc
  have i := inv_exec h
  have hf : count isFailed tr = 0 := by have := i.fails; rw [hx] at this; simp only at this; omega
  have hl : count isFlushed tr = 1 := by
    cases i.ends (by rw [hx]; trivial) with
    | inl h => omega
    | inr h => exact h
  obtain ⟨r, h1, _, h3⟩ := i.order
  have : r = [] := by rw [h3 hf, hx]; rfl
  subst this
  exact ⟨by rw [h1, List.append_nil], hl, i.flushing (Or.inr hl), hf⟩

/-- Once the channel of errors is closed a failure was reported, exactly once, if there was one. -/
theorem C60_reported {s : St α} {tr : List (Ev α)} (h : Exec .init tr s) (hc : count isClosedErr tr = 1) :
    count isReported tr = count isFailed tr ∧ count isFailed tr ≤ 1 := by
  have hx := (C60 h).2.2.2.2 hc
  have i := inv_exec h
  have h1 := i.fails
  have h2 := i.once
  rw [hx] at h1
  simp only at h1
  omega

theorem split_snoc {β : Type} {tr a b : List β} {x e : β} (h : tr ++ [e] = a ++ x :: b) :
    (b = [] ∧ tr = a ∧ e = x) ∨ ∃ b', b = b' ++ [e] ∧ tr = a ++ x :: b' := by
  obtain hb | ⟨b', y, hb⟩ := List.eq_nil_or_concat b
  · subst hb
    have := List.append_inj' h rfl
    exact Or.inl ⟨rfl, this.1, by simpa using this.2⟩
  · subst hb
    have h' : tr ++ [e] = (a ++ x :: b') ++ [y] := by simpa using h
    have := List.append_inj' h' rfl
    have he : e = y := by simpa using this.2
    subst he
    exact Or.inr ⟨b', by simp, this.1⟩

theorem step_short {s s' : St α} {b : List (Ev α)} (h : Step s b s') : b = [] ∨ ∃ e, b = [e] := by
  cases h <;> simp

theorem count_split {p : Ev α → Bool} {a b : List (Ev α)} {x : Ev α} (hx : p x = true) : 1 ≤ count p (a ++ x :: b) := by
  rw [count_append]
  simp [count, hx]
  omega

/-- Something that ends the work of the goroutine, apart from what may follow. -/
theorem after (x : Ev α) (ok : Ev α → Prop)
    (hstep : ∀ (s s' : St α) tr e, Inv s tr → x ∈ tr → Step s [e] s' → ok e) {s : St α} {tr : List (Ev α)} (h : Exec .init tr s) :
    ∀ a b, tr = a ++ x :: b → ∀ e ∈ b, ok e := by
  generalize hi : St.init = s0 at h
  induction h with
  | refl => intro a b h; simp at h
  | @step s1 s2 tr ev hx hs ih =>
    subst hi
    intro a b hab e he
    obtain hb | ⟨e', hb⟩ := step_short hs
    · subst hb
      exact ih a b (by simpa using hab) e he
    · subst hb
      obtain ⟨hb, _, _⟩ | ⟨b', hb, ht⟩ := split_snoc hab
      · subst hb; cases he
      · subst hb
        cases List.mem_append.1 he with
        | inl h => exact ih a b' ht e h
        | inr h =>
          simp only [List.mem_singleton] at h
          subst h
          exact hstep _ _ tr e (inv_exec hx) (by rw [ht]; simp) hs

theorem count_mem {p : Ev α → Bool} {x : Ev α} {tr : List (Ev α)} (hx : p x = true) (h : x ∈ tr) : 1 ≤ count p tr := by
  obtain ⟨a, b, rfl⟩ := List.append_of_mem h
  exact count_split hx

/-- Closing the channel of errors is the last thing the goroutine does: nothing is written, sent or reported afterwards. -/
theorem C60_last {s : St α} {tr : List (Ev α)} (h : Exec .init tr s) :
    ∀ a b, tr = a ++ .closedErr :: b → ∀ e ∈ b, ofWriter e = false := by
  refine after .closedErr _ ?_ h
  intro s s' tr e i hm hs
  have hc := count_mem (p := isClosedErr) rfl hm
  rw [i.closedErr] at hc
  have he : s.errClosed = true := by cases h : s.errClosed <;> simp_all
  have hx := i.exit.1 he
  cases hs <;> simp_all [ofWriter]

/-- After a failure the goroutine only reports it and closes the channel: no further item is received or written. -/
theorem C60_stops {s : St α} {tr : List (Ev α)} (h : Exec .init tr s) :
    ∀ a b, tr = a ++ .failed :: b → ∀ e ∈ b, e = .reported ∨ e = .closedErr ∨ ofWriter e = false := by
  refine after .failed _ ?_ h
  intro s s' tr e i hm hs
  have hc := count_mem (p := isFailed) rfl hm
  have h1 := i.fails
  have h2 := i.before
  have h3 := i.once
  cases hs <;> simp_all [ofWriter, Pc.over] <;> omega

/-- The goroutine is never stuck: unless it has ended, or waits for an item of a request channel that is not closed, it can go on by itself.  In particular
reporting an error never waits for the user. -/
theorem C60_progress {s : St α} {tr : List (Ev α)} (h : Exec .init tr s) :
    s.pc = .exited ∨ (s.pc = .recv ∧ s.reqClosed = false) ∨ ∃ ev s', Step s ev s' ∧ (∀ e ∈ ev, ofWriter e = true) ∧ sent ev = [] := by
  have i := inv_exec h
  obtain ⟨pc, r, b, e⟩ := s
  cases pc with
  | start => exact Or.inr (Or.inr ⟨_, _, .newOk, by simp, rfl⟩)
  | recv =>
    cases r with
    | true => exact Or.inr (Or.inr ⟨_, _, .done, by simp, rfl⟩)
    | false => exact Or.inr (Or.inl ⟨rfl, rfl⟩)
  | write x => exact Or.inr (Or.inr ⟨_, _, .writeOk, by simp [ofWriter], rfl⟩)
  | flush => exact Or.inr (Or.inr ⟨_, _, .flushOk, by simp [ofWriter], rfl⟩)
  | send =>
    have h1 := i.before
    have h2 := i.once
    have h3 := i.buffer
    simp only [Pc.over] at h1
    have hb : b = false := by
      cases b with
      | false => rfl
      | true => simp only [if_true] at h3; exact absurd (by omega) h1
    subst hb
    exact Or.inr (Or.inr ⟨_, _, .report, by simp [ofWriter], rfl⟩)
  | closing =>
    have he : e = false := by
      have := i.exit
      cases e with
      | false => rfl
      | true => simp at this
    subst he
    exact Or.inr (Or.inr ⟨_, _, .close, by simp [ofWriter], rfl⟩)
  | exited => exact Or.inl rfl

/-- How many steps of the goroutine are left at most once the request channel is closed. -/
def rank : Pc α → Nat
  | .start => 6
  | .write _ => 5
  | .recv => 4
  | .flush => 3
  | .send => 2
  | .closing => 1
  | .exited => 0

/-- After the request channel is closed every step of the goroutine brings it nearer to its end, and those of the user do not throw it back. -/
theorem C60_terminates {s s' : St α} {ev : List (Ev α)} (h : Step s ev s') (hc : s.reqClosed = true) :
    s'.reqClosed = true ∧ ((∀ e ∈ ev, ofWriter e = true) → rank s'.pc < rank s.pc) ∧ rank s'.pc ≤ rank s.pc := by
  cases h <;> simp_all [rank, ofWriter]

/-- From every state with a closed request channel the end is reached without the user's help. -/
theorem C60_finishes : ∀ (n : Nat) {s : St α} {tr : List (Ev α)}, rank s.pc ≤ n → Exec .init tr s → s.reqClosed = true →
    ∃ tr' s', Exec .init (tr ++ tr') s' ∧ s'.pc = .exited ∧ ∀ e ∈ tr', ofWriter e = true := by
  intro n
  induction n with
  | zero =>
    intro s tr hn h _
    refine ⟨[], s, by simpa using h, ?_, by simp⟩
    cases hp : s.pc <;> simp_all [rank]
  | succ n ih =>
    intro s tr hn h hc
    obtain hx | ⟨_, hx⟩ | ⟨ev, s', hs, hw, _⟩ := C60_progress h
    · exact ⟨[], s, by simpa using h, hx, by simp⟩
    · rw [hc] at hx; cases hx
    · obtain ⟨hc', hr, _⟩ := C60_terminates hs hc
      have hr := hr hw
      obtain ⟨tr', s2, h2, h3, h4⟩ := ih (by omega) (Exec.step h hs) hc'
      refine ⟨ev ++ tr', s2, by simpa using h2, h3, ?_⟩
      intro e he
      cases List.mem_append.1 he with
      | inl h => exact hw e h
      | inr h => exact h4 e h

/-- Nobody receives items once the goroutine has ended: a user who goes on sending after an error waits forever. -/
theorem C60_blocked {s s' : St α} {ev : List (Ev α)} (h : Exec s ev s') (hx : s.pc = .exited) : sent ev = [] ∧ s'.pc = .exited := by
  induction h with
  | refl => exact ⟨rfl, hx⟩
  | step _ hs ih =>
    obtain ⟨h1, h2⟩ := ih
    rw [sent_append, h1]
    cases hs <;> simp_all [sent]

/-! ### The cases exist -/

/-- Two items, the second cannot be written. -/
example : Exec (α := Nat) .init [.sent 1, .wrote 1, .sent 2, .failed, .reported, .closedErr, .gotErr] ⟨.exited, false, false, true⟩ :=
  .step (a := [.sent 1, .wrote 1, .sent 2, .failed, .reported, .closedErr])
    (.step (a := [.sent 1, .wrote 1, .sent 2, .failed, .reported])
      (.step (a := [.sent 1, .wrote 1, .sent 2, .failed])
        (.step (a := [.sent 1, .wrote 1, .sent 2])
          (.step (a := [.sent 1, .wrote 1])
            (.step (a := [.sent 1]) (.step (a := []) (.step (a := []) .refl .newOk) (.item 1)) .writeOk) (.item 2)) .writeFail) .report) .close) .get

/-- One item, everything goes well. -/
example : Exec (α := Nat) .init [.sent 1, .closedReq, .wrote 1, .flushed, .closedErr] ⟨.exited, true, false, true⟩ :=
  .step (a := [.sent 1, .closedReq, .wrote 1, .flushed])
    (.step (a := [.sent 1, .closedReq, .wrote 1])
      (.step (a := [.sent 1, .closedReq, .wrote 1])
        (.step (a := [.sent 1, .closedReq])
          (.step (a := [.sent 1]) (.step (a := []) (.step (a := []) .refl .newOk) (.item 1)) .closeReq) .writeOk) .done) .flushOk) .close

end JT.Bulk
