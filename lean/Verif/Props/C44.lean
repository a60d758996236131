import Verif.Props.C43
/- C44 (failures are not cached). -/
namespace JT.Cache

variable {V : Type}

/-! ### Running a schedule, for examples -/

/-- The step of a goroutine when the builder of every key is known. -/
def tstep (b : Str → Prog V) (s : Shared V) : Thread V → Option (Shared V × Thread V)
  | ⟨.run (.load key k), F⟩ => some (s, ⟨.enter key, .cont k :: F⟩)
  | ⟨.enter key, F⟩ => match s.flight key with
    | some c => some (s, ⟨.wait ⟨key, c, s.now⟩, F⟩)
    | none => some ({ s with flight := upd s.flight key (some s.calls.length), calls := s.calls ++ [⟨key, none⟩] }, ⟨.check ⟨key, s.calls.length, s.now⟩, F⟩)
  | ⟨.check j, F⟩ => match s.data j.key with
    | some v => some (s, ⟨.finish j (some v), F⟩)
    | none => some (s, ⟨.run (b j.key), .build j :: F⟩)
  | ⟨.run (.ret none), .build j :: F⟩ => some (s, ⟨.finish j none, F⟩)
  | ⟨.run (.ret (some v)), .build j :: F⟩ => some (s, ⟨.store j v, F⟩)
  | ⟨.store j v, F⟩ => some ({ s with data := upd s.data j.key (some v) }, ⟨.finish j (some v), F⟩)
  | ⟨.finish j r, F⟩ => some ({ s with flight := upd s.flight j.key none, calls := s.calls.set j.call ⟨j.key, some (r, s.now)⟩ }, ⟨.back j r, F⟩)
  | ⟨.wait j, F⟩ => match s.calls[j.call]? with
    | some ⟨_, some (r, _)⟩ => some (s, ⟨.back j r, F⟩)
    | _ => none
  | ⟨.back _ r, .cont k :: F⟩ => some (s, ⟨.run (k r), F⟩)
  | _ => none

/-- The builders are known. -/
def Det (b : Str → Prog V) : Str → Prog V → Prop := fun key p => p = b key

theorem tstep_iff {b : Str → Prog V} {s s' : Shared V} {th th' : Thread V} : tstep b s th = some (s', th') ↔ TStep (Det b) s th s' th' := by
  constructor
  · intro h
    unfold tstep at h
    split at h
    · simp only [Option.some.injEq, Prod.mk.injEq] at h; obtain ⟨rfl, rfl⟩ := h; exact .load
    · split at h <;> simp only [Option.some.injEq, Prod.mk.injEq] at h <;> obtain ⟨rfl, rfl⟩ := h
      · exact .join (by assumption)
      · exact .lead (by assumption)
    · split at h <;> simp only [Option.some.injEq, Prod.mk.injEq] at h <;> obtain ⟨rfl, rfl⟩ := h
      · exact .hit (by assumption)
      · exact .miss (by assumption) rfl
    · simp only [Option.some.injEq, Prod.mk.injEq] at h; obtain ⟨rfl, rfl⟩ := h; exact .failed
    · simp only [Option.some.injEq, Prod.mk.injEq] at h; obtain ⟨rfl, rfl⟩ := h; exact .built
    · simp only [Option.some.injEq, Prod.mk.injEq] at h; obtain ⟨rfl, rfl⟩ := h; exact .store
    · simp only [Option.some.injEq, Prod.mk.injEq] at h; obtain ⟨rfl, rfl⟩ := h; exact .finish
    · split at h
      · simp only [Option.some.injEq, Prod.mk.injEq] at h; obtain ⟨rfl, rfl⟩ := h; exact .wake (by assumption)
      · simp at h
    · simp only [Option.some.injEq, Prod.mk.injEq] at h; obtain ⟨rfl, rfl⟩ := h; exact .back
    · simp at h
  · intro h
    cases h with
    | load => rfl
    | join h => simp only [tstep, h]
    | lead h => simp only [tstep, h]
    | hit h => simp only [tstep, h]
    | miss h hp => simp only [tstep, h]; rw [hp]
    | failed => rfl
    | built => rfl
    | store => rfl
    | finish => rfl
    | wake h => simp only [tstep, h]
    | back => rfl

/-- Let the goroutines with the given numbers make a step each. -/
def exec (b : Str → Prog V) : List Nat → State V → Option (State V)
  | [], s => some s
  | i :: is, s =>
    match s.threads[i]? with
    | none => none
    | some th => match tstep b s.shared th with
      | none => none
      | some (sh, th') => exec b is ⟨{ sh with now := s.shared.now + 1 }, s.threads.set i th'⟩

theorem steps_head {B : Str → Prog V → Prop} {s s' s'' : State V} (h : Step B s s') (h' : Steps B s' s'') : Steps B s s'' := by
  induction h' with
  | refl => exact .tail .refl h
  | tail _ h2 ih => exact .tail ih h2

theorem Steps.trans {B : Str → Prog V → Prop} {s s' s'' : State V} (h : Steps B s s') (h' : Steps B s' s'') : Steps B s s'' := by
  induction h' with
  | refl => exact h
  | tail _ h2 ih => exact .tail ih h2

theorem split_get {α : Type} : ∀ {l : List α} {i : Nat} {x : α}, l[i]? = some x → ∃ a b, l = a ++ x :: b ∧ ∀ y, l.set i y = a ++ y :: b
  | z :: l, 0, x, h => by
    simp only [List.getElem?_cons_zero, Option.some.injEq] at h
    subst h
    exact ⟨[], l, rfl, fun _ => rfl⟩
  | z :: l, i + 1, x, h => by
    simp only [List.getElem?_cons_succ] at h
    obtain ⟨a, b, h1, h2⟩ := split_get h
    exact ⟨z :: a, b, by rw [h1]; rfl, fun y => by rw [List.set_cons_succ, h2]; rfl⟩

theorem exec_steps {b : Str → Prog V} : ∀ {is : List Nat} {s s' : State V}, exec b is s = some s' → Steps (Det b) s s'
  | [], s, s', h => by simp only [exec, Option.some.injEq] at h; exact h ▸ .refl
  | i :: is, s, s', h => by
    simp only [exec] at h
    split at h
    · simp at h
    · rename_i th hth
      split at h
      · simp at h
      · rename_i sh th' ht
        obtain ⟨a, b', h1, h2⟩ := split_get hth
        refine steps_head ?_ (exec_steps h)
        rw [h2]
        obtain ⟨shared, threads⟩ := s
        simp only at h1
        subst h1
        exact Step.mk (tstep_iff.1 ht)

/-! ### C44 -/

/-- In this step a goroutine completes its call for a key with a result. -/
def Completes (key : Str) (call : Nat) (r : Option V) (s s' : State V) : Prop :=
  ∃ a b j F, s.threads = a ++ ⟨.finish j r, F⟩ :: b ∧ s'.threads = a ++ ⟨.back j r, F⟩ :: b ∧ j.key = key ∧ j.call = call ∧
    s'.shared = { s.shared with flight := upd s.shared.flight j.key none, calls := s.shared.calls.set j.call ⟨j.key, some (r, s.shared.now)⟩, now := s.shared.now + 1 }

/-- There was a failed build of the key. -/
def Failed (B : Str → Prog V → Prop) (s0 : State V) (key : Str) (s : State V) : Prop := ∃ s1 s2, Steps B s0 s1 ∧ BuildEnds B key none s1 s2 ∧ Steps B s2 s

/-- There was a call of the key that was completed with an error at time `t`, after a failed build. -/
def FailedCall (B : Str → Prog V → Prop) (s0 : State V) (key : Str) (call t : Nat) (s : State V) : Prop :=
  ∃ s1 s2, Steps B s0 s1 ∧ Failed B s0 key s1 ∧ Completes key call none s1 s2 ∧ s1.shared.now = t ∧ Steps B s2 s

theorem Failed.step {B : Str → Prog V → Prop} {s0 s s' : State V} {key : Str} (h : Failed B s0 key s) (h' : Step B s s') : Failed B s0 key s' := by
  obtain ⟨s1, s2, h1, h2, h3⟩ := h
  exact ⟨s1, s2, h1, h2, .tail h3 h'⟩

/-- What is known about failures in the past. -/
structure Past (B : Str → Prog V → Prop) (s0 s : State V) : Prop where
  calls : ∀ (c : Nat) key t, s.shared.calls[c]? = some ⟨key, some (none, t)⟩ → FailedCall B s0 key c t s
  threads : ∀ th ∈ s.threads, ∀ j, th.ctl = .finish j none → Failed B s0 j.key s

theorem past_step {B : Str → Prog V → Prop} {s0 s s' : State V} (hr : Steps B s0 s) (hi : Inv s.shared s.threads) (hp : Past B s0 s) (h : Step B s s') : Past B s0 s' := by
  have h0 := h
  cases h with
  | @mk s s' a b th th' h =>
    have keepF : ∀ c key t, FailedCall B s0 key c t ⟨s, a ++ th :: b⟩ → FailedCall B s0 key c t ⟨{ s' with now := s.now + 1 }, a ++ th' :: b⟩ := by
      rintro c key t ⟨s1, s2, h1, h2, h3, h4, h5⟩
      exact ⟨s1, s2, h1, h2, h3, h4, .tail h5 h0⟩
    have other : ∀ th1, (th1 ∈ a ∨ th1 ∈ b) → ∀ j, th1.ctl = .finish j none → Failed B s0 j.key ⟨{ s' with now := s.now + 1 }, a ++ th' :: b⟩ := by
      intro th1 hm j hj
      exact (hp.threads th1 (by rcases hm with h | h <;> simp [h]) j hj).step h0
    have thr : (∀ j, th'.ctl = .finish j none → Failed B s0 j.key ⟨{ s' with now := s.now + 1 }, a ++ th' :: b⟩) →
        ∀ th1 ∈ a ++ th' :: b, ∀ j, th1.ctl = .finish j none → Failed B s0 j.key ⟨{ s' with now := s.now + 1 }, a ++ th' :: b⟩ := by
      intro hthr th1 hm
      rw [List.mem_append, List.mem_cons] at hm
      rcases hm with hm | rfl | hm
      · exact other th1 (Or.inl hm)
      · exact hthr
      · exact other th1 (Or.inr hm)
    have hown := hi.own.perm (owned_split a b th)
    cases h with
    | @lead key F h1 =>
      refine ⟨?_, thr fun j hj => by simp at hj⟩
      intro c k t hc
      simp only at hc
      by_cases hcl : c < s.calls.length
      · rw [List.getElem?_append_left hcl] at hc
        exact keepF _ _ _ (hp.calls _ _ _ hc)
      · rw [List.getElem?_append_right (by omega)] at hc
        rcases hx : c - s.calls.length with _ | n <;> rw [hx] at hc <;> simp at hc
    | @failed j F =>
      refine ⟨fun c k t hc => keepF _ _ _ (hp.calls _ _ _ hc), thr ?_⟩
      intro j' hj'
      simp only [Ctl.finish.injEq, and_true] at hj'
      subst hj'
      exact ⟨_, _, hr, ⟨a, b, j, F, _, rfl, rfl, rfl, .failed, rfl⟩, .refl⟩
    | @finish j r F =>
      refine ⟨?_, thr fun j hj => by simp at hj⟩
      intro c k t hc
      have hlt : j.call < s.calls.length := by
        have := hi.flight _ _ (hown.reg j (by simp [owned, ctlJobs]))
        exact (List.getElem?_eq_some_iff.1 this).1
      simp only at hc
      by_cases hcj : c = j.call
      · subst hcj
        rw [List.getElem?_set_self hlt] at hc
        simp only [Option.some.injEq, Call.mk.injEq, Prod.mk.injEq] at hc
        obtain ⟨rfl, rfl, rfl⟩ := hc
        exact ⟨_, _, hr, hp.threads ⟨.finish j none, F⟩ (by simp) j rfl, ⟨a, b, j, F, rfl, rfl, rfl, rfl, rfl⟩, rfl, .refl⟩
      · rw [List.getElem?_set_ne (fun e => hcj e.symm)] at hc
        exact keepF _ _ _ (hp.calls _ _ _ hc)
    | @hit j v F h1 => exact ⟨fun c k t hc => keepF _ _ _ (hp.calls _ _ _ hc), thr fun j hj => by simp at hj⟩
    | @store j v F => exact ⟨fun c k t hc => keepF _ _ _ (hp.calls _ _ _ hc), thr fun j hj => by simp at hj⟩
    | _ => exact ⟨fun c k t hc => keepF _ _ _ (hp.calls _ _ _ hc), thr fun j hj => by simp at hj⟩

theorem past_steps {B : Str → Prog V → Prop} (ps : List (Prog V)) {s : State V} (h : Steps B (init ps) s) : Past B (init ps) s := by
  induction h with
  | refl =>
    refine ⟨fun c key t hc => by simp [init] at hc, ?_⟩
    intro th hth j hj
    simp only [init, List.mem_map] at hth
    obtain ⟨p, _, rfl⟩ := hth
    simp at hj
  | tail h1 h2 ih => exact past_step h1 (inv_steps (inv_init ps) h1) ih h2

end JT.Cache

namespace JT
open Cache

variable {V : Type}

/-- **C44**: a load fails only because of a failed build of its key, whose call was completed while the load was waiting for it (not before the load began). -/
theorem C44 (B : Str → Prog V → Prop) (ps : List (Prog V)) {s : State V} (hs : Steps B (init ps) s) {key : Str} {since : Nat} (h : Returns s key since none) :
    ∃ call t, since ≤ t ∧ FailedCall B (init ps) key call t s := by
  obtain ⟨th, hm, c, hc⟩ := h
  have h1 := ((inv_steps (inv_init ps) hs).threads th hm).1
  rw [hc] at h1
  obtain ⟨t, h2, h3⟩ := h1
  exact ⟨c, t, h3, (past_steps ps hs).calls _ _ _ h2⟩

/-- **C44**: a failed build stores nothing: when its call is completed, the cache is as before, and has neither a value nor a call in progress for the key. -/
theorem C44_nothing (B : Str → Prog V → Prop) (ps : List (Prog V)) {s s' : State V} (hs : Steps B (init ps) s) {key : Str} {call : Nat} (h : Completes key call none s s') :
    s'.shared.data = s.shared.data ∧ s'.shared.data key = none ∧ s'.shared.flight key = none := by
  obtain ⟨a, b, j, F, h1, _, rfl, _, h2⟩ := h
  have hth := (inv_steps (inv_init ps) hs).threads ⟨.finish j none, F⟩ (by rw [h1]; simp)
  rw [h2]
  exact ⟨rfl, hth.1.1, upd_self _ _ _⟩

/-- **C44**: then the next load of the key calls the builder: it can only start a new call and, as nobody else can store the key meanwhile, only miss. -/
theorem C44_retry (B : Str → Prog V → Prop) (ps : List (Prog V)) {s : State V} (hs : Steps B (init ps) s) :
    (∀ a b F key sh th', s.threads = a ++ ⟨.enter key, F⟩ :: b → s.shared.flight key = none → TStep B s.shared ⟨.enter key, F⟩ sh th' →
      ∃ j, th' = ⟨.check j, F⟩ ∧ j.key = key ∧ sh.data = s.shared.data) ∧
    (∀ a b F j sh th', s.threads = a ++ ⟨.check j, F⟩ :: b → s.shared.data j.key = none → TStep B s.shared ⟨.check j, F⟩ sh th' →
      ∃ p, B j.key p ∧ th' = ⟨.run p, .build j :: F⟩) ∧
    ∀ a b F j a' b' th1 th2 sh, s.threads = a ++ ⟨.check j, F⟩ :: b → a ++ b = a' ++ th1 :: b' → TStep B s.shared th1 sh th2 → sh.data j.key = s.shared.data j.key := by
  have hi := inv_steps (inv_init ps) hs
  refine ⟨?_, ?_, ?_⟩
  · intro a b F key sh th' _ hf h
    cases h with
    | join h => rw [hf] at h; simp at h
    | lead h => exact ⟨_, rfl, rfl, rfl⟩
  · intro a b F j sh th' _ hd h
    cases h with
    | hit h => rw [hd] at h; simp at h
    | miss _ hp => exact ⟨_, hp, rfl⟩
  · intro a b F j a' b' th1 th2 sh h1 h2 h
    have hown := hi.own
    rw [h1] at hown
    have h0 := hown.perm (owned_split a b _)
    simp only [owned, ctlJobs, List.cons_append, List.nil_append] at h0
    have hal := h0.alone
    cases h with
    | @store j' v F' =>
      have : j' ∈ (a ++ b).flatMap owned := by
        rw [h2]
        exact List.mem_flatMap.2 ⟨⟨.store j' v, F'⟩, by simp, by simp [owned, ctlJobs]⟩
      exact upd_ne _ (fun e => hal j' (List.mem_append_right _ this) e.symm) _
    | _ => rfl

end JT
