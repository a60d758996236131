import Verif.Model.BulkUser
import Verif.Props.C60
/- C129: the bulk writer and a program that uses it as in the generated example. -/
namespace JT.Bulk
variable {α : Type}

/-! ### Specification -/

/-- Nothing can happen any more. -/
def Sys.Stuck (closes : Bool) (s : Sys α) : Prop := ∀ ev s', ¬ SysStep closes s ev s'

/-- A run that never ends. -/
def Endless (closes : Bool) (xs : List α) : Prop :=
  ∃ f : Nat → Sys α, f 0 = .init xs ∧ ∀ n, ∃ ev, SysStep closes (f n) ev (f (n + 1))

/-! ### What holds after every execution -/

theorem sys_project {closes : Bool} {s s' : Sys α} {tr : List (Ev α)} (h : SysExec closes s tr s') : Exec s.writer tr s'.writer := by
  induction h with
  | refl => exact .refl
  | step _ hs ih =>
    cases hs with
    | writer h _ => exact ih.step h
    | item h => exact ih.step h
    | loopErr h => exact ih.step h
    | loopNil => simpa using ih
    | keepOpen _ => simpa using ih
    | closeReq _ h => exact ih.step h
    | drainErr h => exact ih.step h
    | drainEnd => simpa using ih

/-- What the user's position says. -/
def At (closes : Bool) (xs : List α) (w : St α) (tr : List (Ev α)) : User α → Prop
  | .sending ys => xs = sent tr ++ ys ∧ w.reqClosed = false ∧ count isGot tr = 0
  | .draining => xs = sent tr ∧ w.reqClosed = closes ∧ count isGot tr = 0
  | .returned true => sent tr <+: xs ∧ (w.reqClosed = true → closes = true) ∧ count isGot tr = 1
  | .returned false => xs = sent tr ∧ closes = true ∧ w.errClosed = true ∧ count isReported tr = 0

theorem alone_sent {ev : List (Ev α)} (h : ev.all Ev.alone = true) : sent ev = [] ∧ count isGot ev = 0 ∧ count isClosedReq ev = 0 := by
  induction ev with
  | nil => exact ⟨rfl, rfl, rfl⟩
  | cons e t ih =>
    simp only [List.all_cons, Bool.and_eq_true] at h
    obtain ⟨h1, h2, h3⟩ := ih h.2
    have h0 := h.1
    cases e <;> simp_all [Ev.alone, sent, count, isGot, isClosedReq]

theorem writer_keeps {w w' : St α} {ev : List (Ev α)} (h : Step w ev w') (ho : ev.all Ev.alone = true) :
    w'.reqClosed = w.reqClosed ∧ (w.errClosed = true → w'.errClosed = true) := by
  cases h <;> simp_all [Ev.alone]

/-- Once the channel of errors is closed and no error was reported, the user has closed the request channel. -/
theorem silent_closed {w : St α} {tr : List (Ev α)} (i : Inv w tr) (hb : w.buf = false) (he : w.errClosed = true) (hg : count isGot tr = 0) :
    w.reqClosed = true ∧ count isReported tr = 0 := by
  have h1 := i.buffer
  simp only [hb, hg, Bool.false_eq_true, if_false] at h1
  have h2 := i.exit.1 he
  have h3 := i.ends (by rw [h2]; trivial)
  have h4 := i.flushing (Or.inr (by omega))
  have h5 := i.closedReq
  rw [h4] at h5
  refine ⟨?_, by omega⟩
  cases hr : w.reqClosed with
  | true => rfl
  | false => simp [hr] at h5

theorem at_step {closes : Bool} {xs : List α} {s s' : Sys α} {tr ev : List (Ev α)} (i : Inv s.writer tr)
    (h : At closes xs s.writer tr s.user) (hs : SysStep closes s ev s') : At closes xs s'.writer (tr ++ ev) s'.user := by
  cases hs with
  | @writer w w' ev u hw ho =>
    obtain ⟨h1, h2, _⟩ := alone_sent ho
    obtain ⟨h3, h4⟩ := writer_keeps hw ho
    match u, h with
    | .sending ys, h => exact ⟨by rw [sent_append, h1, List.append_nil]; exact h.1, h3.trans h.2.1, by rw [count_append, h2]; exact h.2.2⟩
    | .draining, h => exact ⟨by rw [sent_append, h1, List.append_nil]; exact h.1, h3.trans h.2.1, by rw [count_append, h2]; exact h.2.2⟩
    | .returned true, h =>
      exact ⟨by rw [sent_append, h1, List.append_nil]; exact h.1, fun hr => h.2.1 (h3.symm.trans hr), by rw [count_append, h2]; exact h.2.2⟩
    | .returned false, h =>
      refine ⟨by rw [sent_append, h1, List.append_nil]; exact h.1, h.2.1, h4 h.2.2.1, ?_⟩
      have hx := i.exit.1 h.2.2.1
      have hr := h.2.2.2
      have hi := inv_step i hw
      cases hw <;> simp_all [Ev.alone]
  | @item w w' x ys hw =>
    obtain ⟨h1, h2, h3⟩ := h
    cases hw
    exact ⟨by rw [sent_append, h1]; simp [sent], rfl, by rw [count_append, h3]; rfl⟩
  | @loopErr w w' x ys hw =>
    obtain ⟨h1, h2, h3⟩ := h
    cases hw
    refine ⟨⟨x :: ys, by rw [sent_append, h1]; simp [sent]⟩, fun hr => ?_, by rw [count_append, h3]; rfl⟩
    simp_all
  | @loopNil p r x ys =>
    obtain ⟨h1, h2, h3⟩ := h
    have := (silent_closed i rfl rfl h3).1
    simp_all
  | keepOpen hc =>
    obtain ⟨h1, h2, h3⟩ := h
    exact ⟨by simpa using h1, h2.trans hc.symm, by simpa using h3⟩
  | closeReq hc hw =>
    obtain ⟨h1, h2, h3⟩ := h
    cases hw
    exact ⟨by rw [sent_append, h1]; simp [sent], hc.symm, by rw [count_append, h3]; rfl⟩
  | drainErr hw =>
    obtain ⟨h1, h2, h3⟩ := h
    cases hw
    exact ⟨⟨[], by rw [sent_append, h1]; simp [sent]⟩, fun hr => h2.symm.trans hr, by rw [count_append, h3]; rfl⟩
  | drainEnd =>
    obtain ⟨h1, h2, h3⟩ := h
    obtain ⟨h4, h5⟩ := silent_closed i rfl rfl h3
    exact ⟨by simpa using h1, h2.symm.trans h4, rfl, by simpa using h5⟩

theorem at_exec {closes : Bool} {xs : List α} {s : Sys α} {tr : List (Ev α)} (h : SysExec closes (.init xs) tr s) :
    Inv s.writer tr ∧ At closes xs s.writer tr s.user := by
  refine ⟨inv_exec (sys_project h), ?_⟩
  generalize hi : Sys.init xs = s0 at h
  induction h with
  | refl => subst hi; exact ⟨rfl, rfl, rfl⟩
  | step h0 hs ih => subst hi; exact at_step (inv_exec (sys_project h0)) ih hs

/-- The only ways to be stuck. -/
theorem stuck_cases {closes : Bool} {xs : List α} {s : Sys α} {tr : List (Ev α)} (h : SysExec closes (.init xs) tr s) (hs : s.Stuck closes) :
    (∃ f, s.user = .returned f ∧ s.writer.pc = .exited) ∨ (closes = false ∧ s.user = .draining ∧ s.writer.pc = .recv) := by
  obtain ⟨i, a⟩ := at_exec h
  obtain ⟨⟨pc, r, b, e⟩, u⟩ := s
  rcases C60_progress (sys_project h) with hx | ⟨hp, hr⟩ | ⟨ev, w', hw, ho, hse⟩
  · cases hx
    have he : e = true := i.exit.2 rfl
    subst he
    match u, a with
    | .sending (x :: ys), a =>
      cases b with
      | true => exact absurd (SysStep.loopErr .get) (hs _ _)
      | false => exact absurd SysStep.loopNil (hs _ _)
    | .sending [], a =>
      have hr : r = false := a.2.1
      subst hr
      cases hc : closes with
      | true => exact absurd (SysStep.closeReq hc .closeReq) (hs _ _)
      | false => exact absurd (SysStep.keepOpen hc) (hs _ _)
    | .draining, a =>
      cases b with
      | true => exact absurd (SysStep.drainErr .get) (hs _ _)
      | false => exact absurd SysStep.drainEnd (hs _ _)
    | .returned f, a => exact Or.inl ⟨f, rfl, rfl⟩
  · cases hp
    cases hr
    match u, a with
    | .sending (x :: ys), a => exact absurd (SysStep.item (.item x)) (hs _ _)
    | .sending [], a =>
      cases hc : closes with
      | true => exact absurd (SysStep.closeReq hc .closeReq) (hs _ _)
      | false => exact absurd (SysStep.keepOpen hc) (hs _ _)
    | .draining, a => exact Or.inr ⟨a.2.1.symm, rfl, rfl⟩
    | .returned true, a =>
      have h1 := i.buffer
      have h2 := a.2.2
      have h3 := i.once
      exact (i.before (by omega)).elim
    | .returned false, a =>
      have := i.exit.1 a.2.2.1
      cases this
  · have ho : ev.all Ev.alone = true := by
      rw [List.all_eq_true]
      intro e he
      have h1 := ho e he
      cases e with
      | sent x =>
        obtain ⟨l, m, rfl⟩ := List.append_of_mem he
        rw [sent_append] at hse
        simp [sent] at hse
      | closedReq => cases h1
      | gotErr => cases h1
      | _ => rfl
    exact absurd (SysStep.writer hw ho) (hs _ _)

/-! ### Theorems -/

/-- The program that closes the request channel after its last item comes to its end, and so does the goroutine: whatever calls of the container writer fail and
in whatever order the steps are taken, when nothing more can happen the program has returned and the goroutine has exited.  It returns with an error exactly if
a call failed, and then once; without one every item was written, in order, and the container flushed. -/
theorem C129 {xs : List α} {s : Sys α} {tr : List (Ev α)} (h : SysExec true (.init xs) tr s) (hs : s.Stuck true) :
    ∃ failed, s.user = .returned failed ∧ s.writer.pc = .exited ∧ wrote tr <+: xs ∧
      count isFailed tr = (if failed then 1 else 0) ∧
      (failed = false → wrote tr = xs ∧ count isFlushed tr = 1) := by
  obtain ⟨i, a⟩ := at_exec h
  rcases stuck_cases h hs with ⟨f, hu, hx⟩ | ⟨hc, _⟩
  · rw [hu] at a
    have hf := i.fails
    rw [hx] at hf
    simp only at hf
    obtain ⟨rest, ho, _, hz⟩ := i.order
    refine ⟨f, hu, hx, ?_⟩
    cases f with
    | true =>
      have h1 := i.buffer
      have h2 := a.2.2
      have h3 := i.once
      exact ⟨List.IsPrefix.trans ⟨rest, ho.symm⟩ a.1, by simp only [if_true]; omega, by simp⟩
    | false =>
      obtain ⟨h1, _, _, h4⟩ := a
      have h0 : count isFailed tr = 0 := by omega
      have hr := hz h0
      rw [hx] at hr
      change rest = [] at hr
      subst hr
      have hw : wrote tr = xs := by rw [h1, ho, List.append_nil]
      refine ⟨hw ▸ List.prefix_refl _, by simpa using h0, fun _ => ⟨hw, ?_⟩⟩
      have := i.ends (by rw [hx]; trivial)
      omega
  · cases hc

/-- What is left to do at most. -/
def User.left : User α → Nat
  | .sending xs => 2 * xs.length + 2
  | .draining => 1
  | .returned _ => 0

theorem sys_rank {closes : Bool} {s s' : Sys α} {ev : List (Ev α)} (h : SysStep closes s ev s') :
    s'.user.left + rank s'.writer.pc < s.user.left + rank s.writer.pc := by
  cases h with
  | writer hw ho => cases hw <;> simp_all [rank, Ev.alone]
  | item hw => cases hw; simp only [User.left, rank, List.length_cons]; omega
  | loopErr hw => cases hw; simp only [User.left]; omega
  | loopNil => simp only [User.left]; omega
  | keepOpen _ => simp only [User.left, List.length_nil]; omega
  | closeReq _ hw => cases hw; simp only [User.left, List.length_nil]; omega
  | drainErr hw => cases hw; simp only [User.left]; omega
  | drainEnd => simp only [User.left]; omega

/-- No run goes on for ever. -/
theorem C129_ends (closes : Bool) (xs : List α) : ¬ Endless closes xs := by
  intro ⟨f, _, hf⟩
  have : ∀ n, (f n).user.left + rank (f n).writer.pc + n ≤ (f 0).user.left + rank (f 0).writer.pc := by
    intro n
    induction n with
    | zero => omega
    | succ n ih =>
      obtain ⟨ev, h⟩ := hf n
      have := sys_rank h
      omega
  have := this ((f 0).user.left + rank (f 0).writer.pc + 1)
  omega

/-- The generated example, which does not close the request channel: it never flushes the container, and it ends exactly if a call fails.  If none fails it waits
for ever with the goroutine waiting for it, though every item was written. -/
theorem C129_example {xs : List α} {s : Sys α} {tr : List (Ev α)} (h : SysExec false (.init xs) tr s) :
    count isFlushed tr = 0 ∧ (s.Stuck false →
      (count isFailed tr = 1 ∧ s.user = .returned true ∧ s.writer.pc = .exited) ∨
      (count isFailed tr = 0 ∧ s.user = .draining ∧ s.writer.pc = .recv ∧ wrote tr = xs)) := by
  obtain ⟨i, a⟩ := at_exec h
  have hr : s.writer.reqClosed = false := by
    obtain ⟨w, u⟩ := s
    match u, a with
    | .sending _, a => exact a.2.1
    | .draining, a => exact a.2.1
    | .returned true, a =>
      cases hw : w.reqClosed with
      | false => rfl
      | true => exact absurd (a.2.1 hw) (by simp)
    | .returned false, a => exact absurd a.2.1 (by simp)
  have hfl : count isFlushed tr = 0 := by
    have h1 := i.flushes.1
    have h2 := i.closedReq
    rw [hr] at h2
    by_cases h3 : count isFlushed tr = 1
    · have := i.flushing (Or.inr h3)
      simp only [Bool.false_eq_true, if_false] at h2
      omega
    · omega
  refine ⟨hfl, fun hs => ?_⟩
  have hf := i.fails
  obtain ⟨rest, ho, _, hz⟩ := i.order
  rcases stuck_cases h hs with ⟨f, hu, hx⟩ | ⟨_, hu, hp⟩
  · rw [hu] at a
    rw [hx] at hf
    simp only at hf
    cases f with
    | true =>
      have h1 := i.buffer
      have h2 := a.2.2
      have h3 := i.once
      exact Or.inl ⟨by omega, hu, hx⟩
    | false => exact absurd a.2.1 (by simp)
  · rw [hu] at a
    rw [hp] at hf
    simp only at hf
    have h0 : count isFailed tr = 0 := by
      have h1 := i.before
      rw [hp] at h1
      have h2 := i.once
      by_cases h3 : count isReported tr = 1
      · exact (h1 h3).elim
      · omega
    have hr := hz h0
    rw [hp] at hr
    change rest = [] at hr
    subst hr
    exact Or.inr ⟨h0, hu, hp, by rw [a.1, ho, List.append_nil]⟩

/-- The generated example ends on its own. -/
def C129_example_statement : Prop :=
  ∀ (α : Type) (xs : List α) (s : Sys α) (tr : List (Ev α)), SysExec false (.init xs) tr s → s.Stuck false → ∃ failed, s.user = .returned failed

theorem example_sends {xs ys : List α} {tr : List (Ev α)} (h : SysExec false (.init xs) tr ⟨⟨.recv, false, false, false⟩, .sending ys⟩) :
    ∃ tr', SysExec false (.init xs) tr' ⟨⟨.recv, false, false, false⟩, .draining⟩ := by
  induction ys generalizing tr with
  | nil => exact ⟨_, h.step (.keepOpen rfl)⟩
  | cons x ys ih => exact ih ((h.step (.item (.item x))).step (.writer .writeOk rfl))

theorem example_waits : (⟨⟨.recv, false, false, false⟩, .draining⟩ : Sys α).Stuck false := by
  intro ev s' h
  cases h with
  | writer hw ho => cases hw <;> simp_all [Ev.alone]
  | drainErr hw => cases hw

/-- Whatever the items are, the generated example can come to wait for ever. -/
theorem C129_waits (xs : List α) : ∃ tr s, SysExec false (.init xs) tr s ∧ s.Stuck false ∧ s.user = .draining := by
  obtain ⟨tr, h⟩ := example_sends ((SysExec.refl (s := .init xs)).step (.writer .newOk rfl))
  exact ⟨tr, _, h, example_waits, rfl⟩

theorem C129_example_refuted : ¬ C129_example_statement := by
  intro h
  obtain ⟨tr, s, h1, h2, h3⟩ := C129_waits (α := Nat) [1, 2, 3]
  obtain ⟨f, hf⟩ := h Nat _ s tr h1 h2
  rw [h3] at hf
  cases hf

/-! ### The cases exist -/

/-- Two items and no failure: the program that closes the channel returns without an error. -/
example : ∃ tr s, SysExec (α := Nat) true (.init [1, 2]) tr s ∧ s.user = .returned false ∧ wrote tr = [1, 2] ∧ s.Stuck true :=
  ⟨_, _, (((((((((((SysExec.refl.step (.writer .newOk rfl)).step (.item (.item 1))).step (.writer .writeOk rfl)).step (.item (.item 2))).step
    (.writer .writeOk rfl)).step (.closeReq rfl .closeReq)).step (.writer .done rfl)).step (.writer .flushOk rfl)).step (.writer .close rfl)).step .drainEnd)),
    rfl, rfl, by
      intro ev s' h
      cases h with
      | writer hw ho => cases hw <;> simp_all [Ev.alone]⟩

/-- The second item cannot be written: the error arrives while the third is to be sent. -/
example : ∃ tr s, SysExec (α := Nat) true (.init [1, 2, 3]) tr s ∧ s.user = .returned true ∧ wrote tr = [1] ∧ count isFailed tr = 1 :=
  ⟨_, _, (((((((SysExec.refl.step (.writer .newOk rfl)).step (.item (.item 1))).step (.writer .writeOk rfl)).step (.item (.item 2))).step
    (.writer .writeFail rfl)).step (.writer .report rfl)).step (.loopErr .get)), rfl, rfl, rfl⟩

end JT.Bulk
