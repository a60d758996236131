import Verif.Model.Cache
import Verif.Proofs.Strings
/- C43 (one build, all loads agree), C44 (failures are not cached), C45 (deadlock), C46 (keys): the schema cache. -/
namespace JT.Cache

variable {V : Type}

/-- The jobs whose call this goroutine is to complete. -/
def ctlJobs : Ctl V → List Job
  | .check j => [j]
  | .store j _ => [j]
  | .finish j _ => [j]
  | _ => []

def frameJob : Frame V → Option Job
  | .build j => some j
  | .cont _ => none

def owned (th : Thread V) : List Job := ctlJobs th.ctl ++ th.frames.filterMap frameJob

/-- Every owned call is the unfinished one of its key, and no two are the same. -/
structure OwnOk (flight : Str → Option Nat) (L : List Job) : Prop where
  nodup : (L.map Job.call).Nodup
  reg : ∀ j ∈ L, flight j.key = some j.call

theorem OwnOk.perm {flight : Str → Option Nat} {L L' : List Job} (h : OwnOk flight L) (hp : L.Perm L') : OwnOk flight L' :=
  ⟨(hp.map Job.call).nodup h.nodup, fun j hj => h.reg j (hp.symm.mem_iff.1 hj)⟩

/-- The owner of a key is unique. -/
theorem OwnOk.alone {flight : Str → Option Nat} {L : List Job} {j : Job} (h : OwnOk flight (j :: L)) : ∀ j' ∈ L, j'.key ≠ j.key := by
  intro j' hj' he
  have h1 := h.reg j' (List.mem_cons_of_mem _ hj')
  rw [he, h.reg j List.mem_cons_self] at h1
  have h2 := h.nodup
  simp only [List.map_cons, List.nodup_cons] at h2
  injection h1 with h1
  exact h2.1 (List.mem_map.2 ⟨j', hj', h1.symm⟩)

def CtlOk (s : Shared V) : Ctl V → Prop
  | .store j _ => s.data j.key = none
  | .finish j (some v) => s.data j.key = some v
  | .finish j none => s.data j.key = none ∧ j.since ≤ s.now
  | .check j => j.since ≤ s.now
  | .wait j => j.since ≤ s.now ∧ ∃ c, s.calls[j.call]? = some c ∧ c.key = j.key ∧ ∀ r t, c.result = some (r, t) → j.since ≤ t
  | .back j (some v) => s.data j.key = some v
  | .back j none => ∃ t, s.calls[j.call]? = some ⟨j.key, some (none, t)⟩ ∧ j.since ≤ t
  | _ => True

def FrameOk (s : Shared V) (f : Frame V) : Prop := ∀ j, f = .build j → s.data j.key = none ∧ j.since ≤ s.now

def ThreadOk (s : Shared V) (th : Thread V) : Prop := CtlOk s th.ctl ∧ ∀ f ∈ th.frames, FrameOk s f

structure Inv (s : Shared V) (ths : List (Thread V)) : Prop where
  own : OwnOk s.flight (ths.flatMap owned)
  flight : ∀ key c, s.flight key = some c → s.calls[c]? = some ⟨key, none⟩
  calls : ∀ (c : Nat) key v t, s.calls[c]? = some ⟨key, some (some v, t)⟩ → s.data key = some v
  threads : ∀ th ∈ ths, ThreadOk s th

theorem upd_self {α : Type} (f : Str → α) (k : Str) (a : α) : upd f k a k = a := by simp [upd]
theorem upd_ne {α : Type} (f : Str → α) {k k' : Str} (h : k' ≠ k) (a : α) : upd f k a k' = f k' := by simp [upd, h]

theorem frame_jobs {F : List (Frame V)} {j : Job} : j ∈ F.filterMap frameJob ↔ Frame.build j ∈ F := by
  rw [List.mem_filterMap]
  constructor
  · rintro ⟨f, h1, h2⟩
    cases f with
    | cont k => simp [frameJob] at h2
    | build j' => simp only [frameJob, Option.some.injEq] at h2; subst h2; exact h1
  · intro h
    exact ⟨_, h, rfl⟩

theorem owned_split (a b : List (Thread V)) (th : Thread V) : ((a ++ th :: b).flatMap owned).Perm (owned th ++ (a ++ b).flatMap owned) := by
  simp only [List.flatMap_append, List.flatMap_cons]
  rw [← List.append_assoc, ← List.append_assoc]
  exact List.Perm.append_right _ List.perm_append_comm

/-- A change of the shared state that does not disturb goroutines that do not own the key. -/
structure Quiet (s s' : Shared V) (key : Str) : Prop where
  data : ∀ k, k ≠ key → s'.data k = s.data k
  keep : ∀ k v, s.data k = some v → s'.data k = some v
  now : s.now ≤ s'.now
  calls : ∀ (c : Nat) cl, s.calls[c]? = some cl → s'.calls[c]? = some cl ∨
    (cl.result = none ∧ ∃ cl', s'.calls[c]? = some cl' ∧ cl'.key = cl.key ∧ ∀ r t, cl'.result = some (r, t) → s.now ≤ t)

theorem Quiet.ctl {s s' : Shared V} {key : Str} (h : Quiet s s' key) {c : Ctl V} (hc : CtlOk s c) (hk : ∀ j ∈ ctlJobs c, j.key ≠ key) : CtlOk s' c := by
  cases c with
  | run p => trivial
  | enter k => trivial
  | check j => exact Nat.le_trans hc h.now
  | store j v => simp only [CtlOk] at hc ⊢; rw [h.data _ (hk j (by simp [ctlJobs]))]; exact hc
  | finish j r =>
    cases r with
    | none =>
      simp only [CtlOk] at hc ⊢
      rw [h.data _ (hk j (by simp [ctlJobs]))]
      exact ⟨hc.1, Nat.le_trans hc.2 h.now⟩
    | some v => exact h.keep _ _ hc
  | wait j =>
    obtain ⟨h1, cl, h2, h3, h4⟩ := hc
    refine ⟨Nat.le_trans h1 h.now, ?_⟩
    rcases h.calls _ _ h2 with h5 | ⟨_, cl', h6, h7, h8⟩
    · exact ⟨cl, h5, h3, h4⟩
    · exact ⟨cl', h6, h7.trans h3, fun r t e => Nat.le_trans h1 (h8 r t e)⟩
  | back j r =>
    cases r with
    | none =>
      obtain ⟨t, h1, h2⟩ := hc
      rcases h.calls _ _ h1 with h5 | ⟨h6, _⟩
      · exact ⟨t, h5, h2⟩
      · simp at h6
    | some v => exact h.keep _ _ hc

theorem Quiet.frames {s s' : Shared V} {key : Str} (h : Quiet s s' key) {F : List (Frame V)} (hF : ∀ f ∈ F, FrameOk s f) (hk : ∀ j ∈ F.filterMap frameJob, j.key ≠ key) :
    ∀ f ∈ F, FrameOk s' f := by
  rintro f hf j rfl
  obtain ⟨h1, h2⟩ := hF _ hf j rfl
  rw [h.data _ (hk j (frame_jobs.2 hf))]
  exact ⟨h1, Nat.le_trans h2 h.now⟩

theorem Quiet.thread {s s' : Shared V} {key : Str} (h : Quiet s s' key) {th : Thread V} (ht : ThreadOk s th) (hk : ∀ j ∈ owned th, j.key ≠ key) : ThreadOk s' th :=
  ⟨h.ctl ht.1 fun j hj => hk j (List.mem_append_left _ hj), h.frames ht.2 fun j hj => hk j (List.mem_append_right _ hj)⟩

/-- Time passes. -/
def tick (s : Shared V) (t : Nat) : Shared V := { s with now := t }

/-- Putting the parts together: what is to be shown for a step of one goroutine. -/
theorem inv_step {s s' : Shared V} {a b : List (Thread V)} {th th' : Thread V} (key : Str) (hi : Inv s (a ++ th :: b)) (hq : Quiet s s' key)
    (hown : OwnOk s'.flight (owned th' ++ (a ++ b).flatMap owned)) (halone : ∀ j ∈ (a ++ b).flatMap owned, j.key ≠ key)
    (hf : ∀ key c, s'.flight key = some c → s'.calls[c]? = some ⟨key, none⟩)
    (hc : ∀ (c : Nat) key v t, s'.calls[c]? = some ⟨key, some (some v, t)⟩ → s'.data key = some v) (ht : ThreadOk s' th') : Inv s' (a ++ th' :: b) := by
  refine ⟨hown.perm (owned_split a b th').symm, hf, hc, ?_⟩
  intro th1 h1
  rw [List.mem_append, List.mem_cons] at h1
  have other : th1 ∈ a ++ b → ThreadOk s' th1 := fun hm =>
    hq.thread (hi.threads th1 (by rw [List.mem_append] at hm; rcases hm with h | h <;> simp [h])) fun j hj => halone j (List.mem_flatMap.2 ⟨th1, hm, hj⟩)
  rcases h1 with h | rfl | h
  · exact other (by simp [h])
  · exact ht
  · exact other (by simp [h])

/-- A step that changes nothing shared. -/
theorem inv_local {s : Shared V} {a b : List (Thread V)} {th th' : Thread V} (hi : Inv s (a ++ th :: b)) (t : Nat) (hle : s.now ≤ t)
    (hown : (owned th').Perm (owned th)) (ht : ThreadOk (tick s t) th') : Inv (tick s t) (a ++ th' :: b) := by
  have hq : ∀ key, Quiet s (tick s t) key := fun key => ⟨fun _ _ => rfl, fun _ _ h => h, hle, fun _ _ h => Or.inl h⟩
  have h0 := hi.own.perm (owned_split a b th)
  refine ⟨?_, hi.flight, hi.calls, ?_⟩
  · exact (h0.perm (List.Perm.append_right _ hown.symm)).perm (owned_split a b th').symm
  · intro th1 h1
    rw [List.mem_append, List.mem_cons] at h1
    have other : th1 ∈ a ++ th :: b → ThreadOk (tick s t) th1 := by
      intro hm
      have := hi.threads th1 hm
      constructor
      · have h2 := this.1
        cases hc : th1.ctl with
        | run p => trivial
        | enter k => trivial
        | check j => rw [hc] at h2; exact Nat.le_trans h2 hle
        | store j v => rw [hc] at h2; exact h2
        | finish j r =>
          rw [hc] at h2
          cases r with
          | none => exact ⟨h2.1, Nat.le_trans h2.2 hle⟩
          | some v => exact h2
        | wait j => rw [hc] at h2; exact ⟨Nat.le_trans h2.1 hle, h2.2⟩
        | back j r => rw [hc] at h2; cases r <;> exact h2
      · intro f hf j hj
        exact ⟨(this.2 f hf j hj).1, Nat.le_trans (this.2 f hf j hj).2 hle⟩
    rcases h1 with h | rfl | h
    · exact other (by simp [h])
    · exact ht
    · exact other (by simp [h])

theorem inv_tstep {B : Str → Prog V → Prop} {s s' : Shared V} {a b : List (Thread V)} {th th' : Thread V} (hi : Inv s (a ++ th :: b)) (h : TStep B s th s' th') :
    Inv (tick s' (s.now + 1)) (a ++ th' :: b) := by
  have hle : s.now ≤ s.now + 1 := Nat.le_succ _
  have hth : ThreadOk s th := hi.threads th (by simp)
  have h0 := hi.own.perm (owned_split a b th)
  have hFr : ∀ f ∈ th.frames, FrameOk (tick s (s.now + 1)) f := fun f hf j hj => ⟨(hth.2 f hf j hj).1, Nat.le_trans (hth.2 f hf j hj).2 hle⟩
  cases h with
  | load =>
    refine inv_local hi _ hle (List.Perm.refl _) ⟨trivial, ?_⟩
    intro f hf
    simp only [List.mem_cons] at hf
    rcases hf with rfl | hf
    · intro j hj; simp at hj
    · exact hFr f hf
  | @join key F c h1 =>
    refine inv_local hi _ hle (by simp [owned, ctlJobs]) ⟨?_, hFr⟩
    refine ⟨hle, ⟨key, none⟩, hi.flight _ _ h1, rfl, ?_⟩
    intro r t e
    simp at e
  | @lead key F h1 =>
    have hkey : ∀ j ∈ owned (⟨.enter key, F⟩ : Thread V) ++ (a ++ b).flatMap owned, j.key ≠ key := by
      intro j hj he
      have := h0.reg j hj
      rw [he, h1] at this
      simp at this
    have hlt : ∀ j ∈ owned (⟨.enter key, F⟩ : Thread V) ++ (a ++ b).flatMap owned, j.call < s.calls.length := by
      intro j hj
      have := hi.flight _ _ (h0.reg j hj)
      exact (List.getElem?_eq_some_iff.1 this).1
    refine inv_step key hi ?_ ?_ (fun j hj => hkey j (List.mem_append_right _ hj)) ?_ ?_ ?_
    · refine ⟨fun _ _ => rfl, fun _ _ h => h, hle, ?_⟩
      intro c cl hc
      left
      simp only [tick]
      rw [List.getElem?_append_left (List.getElem?_eq_some_iff.1 hc).1, hc]
    · constructor
      · have := h0.nodup
        simp only [owned, ctlJobs, List.nil_append] at this
        simp only [owned, ctlJobs, List.cons_append, List.nil_append, List.map_cons, List.nodup_cons]
        refine ⟨?_, this⟩
        intro hm
        obtain ⟨j, hj, he⟩ := List.mem_map.1 hm
        have := hlt j (by simpa [owned, ctlJobs] using hj)
        omega
      · intro j hj
        simp only [owned, ctlJobs, List.cons_append, List.nil_append, List.mem_cons] at hj
        simp only [tick]
        rcases hj with rfl | hj
        · exact upd_self _ _ _
        · have hj' : j ∈ owned (⟨.enter key, F⟩ : Thread V) ++ (a ++ b).flatMap owned := by simpa [owned, ctlJobs] using hj
          rw [upd_ne _ (hkey j hj')]
          exact h0.reg j hj'
    · intro k c hc
      simp only [tick] at hc ⊢
      by_cases hk : k = key
      · subst hk
        rw [upd_self] at hc
        injection hc with hc
        subst hc
        simp
      · rw [upd_ne _ hk] at hc
        have := hi.flight _ _ hc
        rw [List.getElem?_append_left (List.getElem?_eq_some_iff.1 this).1, this]
    · intro c k v t hc
      simp only [tick] at hc ⊢
      by_cases hcl : c < s.calls.length
      · rw [List.getElem?_append_left hcl] at hc
        exact hi.calls _ _ _ _ hc
      · rw [List.getElem?_append_right (by omega)] at hc
        rcases hx : c - s.calls.length with _ | n <;> rw [hx] at hc <;> simp at hc
    · exact ⟨hle, hFr⟩
  | @hit j v F h1 => exact inv_local hi _ hle (by simp [owned, ctlJobs]) ⟨h1, hFr⟩
  | @miss j p F h1 h2 =>
    refine inv_local hi _ hle (by simp [owned, ctlJobs, frameJob]) ⟨trivial, ?_⟩
    intro f hf
    simp only [List.mem_cons] at hf
    rcases hf with rfl | hf
    · intro j' hj
      injection hj with hj
      subst hj
      exact ⟨h1, Nat.le_trans hth.1 hle⟩
    · exact hFr f hf
  | @failed j F =>
    have h2 := hth.2 (.build j) (by simp) j rfl
    refine inv_local hi _ hle (by simp [owned, ctlJobs, frameJob]) ⟨⟨h2.1, Nat.le_trans h2.2 hle⟩, fun f hf => hFr f (by simp [hf])⟩
  | @built j v F =>
    have h2 := hth.2 (.build j) (by simp) j rfl
    exact inv_local hi _ hle (by simp [owned, ctlJobs, frameJob]) ⟨h2.1, fun f hf => hFr f (by simp [hf])⟩
  | @store j v F =>
    have h1 : s.data j.key = none := hth.1
    simp only [owned, ctlJobs, List.cons_append, List.nil_append] at h0
    have hal := h0.alone
    refine inv_step j.key hi ?_ ?_ (fun j' hj => hal j' (List.mem_append_right _ hj)) hi.flight ?_ ?_
    · refine ⟨fun k hk => upd_ne _ hk _, ?_, hle, fun _ _ h => Or.inl h⟩
      intro k v' hv
      have : k ≠ j.key := by rintro rfl; rw [h1] at hv; simp at hv
      simp only [tick]
      rw [upd_ne _ this, hv]
    · exact h0
    · intro c k v' t hc
      have := hi.calls _ _ _ _ hc
      simp only [tick]
      by_cases hk : k = j.key
      · subst hk; rw [h1] at this; simp at this
      · rw [upd_ne _ hk]; exact this
    · refine ⟨upd_self _ _ _, ?_⟩
      rintro f hf j' rfl
      have h3 := hth.2 _ hf j' rfl
      refine ⟨?_, Nat.le_trans h3.2 hle⟩
      simp only [tick]
      rw [upd_ne _ (hal j' (List.mem_append_left _ (frame_jobs.2 hf)))]
      exact h3.1
  | @finish j r F =>
    simp only [owned, ctlJobs, List.cons_append, List.nil_append] at h0
    have hal := h0.alone
    have hreg := h0.reg j List.mem_cons_self
    have hcall := hi.flight _ _ hreg
    have hlt := (List.getElem?_eq_some_iff.1 hcall).1
    have hother : ∀ j' ∈ List.filterMap frameJob F ++ List.flatMap owned (a ++ b), upd s.flight j.key none j'.key = some j'.call := by
      intro j' hj'
      rw [upd_ne _ (hal j' hj')]
      exact h0.reg j' (List.mem_cons_of_mem _ hj')
    have hdata : ∀ v, r = some v → s.data j.key = some v := by
      rintro v rfl
      exact hth.1
    refine inv_step j.key hi ?_ ?_ (fun j' hj => hal j' (List.mem_append_right _ hj)) ?_ ?_ ?_
    · refine ⟨fun _ _ => rfl, fun _ _ h => h, hle, ?_⟩
      intro c cl hc
      simp only [tick]
      by_cases hcj : c = j.call
      · subst hcj
        rw [hcall] at hc
        injection hc with hc
        subst hc
        right
        refine ⟨rfl, _, List.getElem?_set_self hlt, rfl, ?_⟩
        intro r' t e
        simp only [Option.some.injEq, Prod.mk.injEq] at e
        omega
      · left
        rw [List.getElem?_set_ne (fun e => hcj e.symm)]
        exact hc
    · constructor
      · have := h0.nodup
        simp only [List.map_cons, List.nodup_cons] at this
        simpa [owned, ctlJobs] using this.2
      · intro j' hj'
        exact hother j' (by simpa [owned, ctlJobs] using hj')
    · intro k c hc
      simp only [tick] at hc ⊢
      by_cases hk : k = j.key
      · subst hk; rw [upd_self] at hc; simp at hc
      · rw [upd_ne _ hk] at hc
        have h2 := hi.flight _ _ hc
        have : c ≠ j.call := by
          rintro rfl
          rw [hcall] at h2
          simp only [Option.some.injEq, Call.mk.injEq, and_true] at h2
          exact hk h2.symm
        rw [List.getElem?_set_ne (fun e => this e.symm)]
        exact h2
    · intro c k v t hc
      simp only [tick] at hc ⊢
      by_cases hcj : c = j.call
      · subst hcj
        rw [List.getElem?_set_self hlt] at hc
        simp only [Option.some.injEq, Call.mk.injEq, Prod.mk.injEq] at hc
        rw [← hc.1]
        exact hdata v hc.2.1
      · rw [List.getElem?_set_ne (fun e => hcj e.symm)] at hc
        exact hi.calls _ _ _ _ hc
    · refine ⟨?_, ?_⟩
      · cases r with
        | none => exact ⟨s.now, List.getElem?_set_self hlt, hth.1.2⟩
        | some v => exact hth.1
      · rintro f hf j' rfl
        have h3 := hth.2 _ hf j' rfl
        exact ⟨h3.1, Nat.le_trans h3.2 hle⟩
  | @wake j r t key F h1 =>
    refine inv_local hi _ hle (by simp [owned, ctlJobs]) ⟨?_, hFr⟩
    obtain ⟨h2, cl, h3, h4, h5⟩ := hth.1
    rw [h1] at h3
    injection h3 with h3
    subst h3
    simp only at h4
    subst h4
    cases r with
    | none => exact ⟨t, h1, h5 _ _ rfl⟩
    | some v => exact hi.calls _ _ _ _ h1
  | @back j r k F =>
    exact inv_local hi _ hle (List.Perm.refl _) ⟨trivial, fun f hf => hFr f (by simp [hf])⟩

theorem inv_init (ps : List (Prog V)) : Inv (init ps).shared (init ps).threads := by
  have h : ((init ps).threads.flatMap owned) = [] := by
    rw [List.flatMap_eq_nil_iff]
    intro th hth
    simp only [init, List.mem_map] at hth
    obtain ⟨p, _, rfl⟩ := hth
    rfl
  refine ⟨⟨by rw [h]; simp, by rw [h]; simp⟩, ?_, ?_, ?_⟩
  · intro key c hc; simp [init] at hc
  · intro c key v t hc; simp [init] at hc
  · intro th hth
    simp only [init, List.mem_map] at hth
    obtain ⟨p, _, rfl⟩ := hth
    exact ⟨trivial, by simp⟩

theorem inv_steps {B : Str → Prog V → Prop} {s s' : State V} (hi : Inv s.shared s.threads) (h : Steps B s s') : Inv s'.shared s'.threads := by
  induction h with
  | refl => exact hi
  | tail _ h ih =>
    cases h with
    | mk h => exact inv_tstep ih h

/-! ### Observations -/

def isBuild (key : Str) : Frame V → Bool
  | .build j => decide (j.key = key)
  | .cont _ => false

/-- The number of builders of a key that are running. -/
def running (key : Str) (s : State V) : Nat := ((s.threads.flatMap Thread.frames).filter (isBuild key)).length

/-- In this step a goroutine calls the builder for a key. -/
def BuildStarts (B : Str → Prog V → Prop) (key : Str) (s s' : State V) : Prop :=
  ∃ a b j p F, s.threads = a ++ ⟨.check j, F⟩ :: b ∧ s'.threads = a ++ ⟨.run p, .build j :: F⟩ :: b ∧ j.key = key ∧ Step B s s'

/-- In this step a builder for a key returns a result. -/
def BuildEnds (B : Str → Prog V → Prop) (key : Str) (r : Option V) (s s' : State V) : Prop :=
  ∃ a b j F th', s.threads = a ++ ⟨.run (.ret r), .build j :: F⟩ :: b ∧ s'.threads = a ++ th' :: b ∧ j.key = key ∧ TStep B s.shared ⟨.run (.ret r), .build j :: F⟩ s.shared th' ∧
    s'.shared = tick s.shared (s.shared.now + 1)

/-- A goroutine is at the point where its `Load` of the key, which it called at time `since`, returns a result. -/
def Returns (s : State V) (key : Str) (since : Nat) (r : Option V) : Prop := ∃ th ∈ s.threads, ∃ c, th.ctl = .back ⟨key, c, since⟩ r

theorem frames_jobs_sub : ∀ ths : List (Thread V), ((ths.flatMap Thread.frames).filterMap frameJob).Sublist (ths.flatMap owned)
  | [] => List.Sublist.refl _
  | th :: t => by
    simp only [List.flatMap_cons, List.filterMap_append]
    exact List.Sublist.append (List.sublist_append_right _ _) (frames_jobs_sub t)

theorem running_le {s : State V} (hi : Inv s.shared s.threads) (key : Str) : running key s ≤ 1 := by
  have h1 : OwnOk s.shared.flight ((s.threads.flatMap Thread.frames).filterMap frameJob) := by
    have hs := frames_jobs_sub s.threads
    exact ⟨List.Nodup.sublist (hs.map _) hi.own.nodup, fun j hj => hi.own.reg j (hs.subset hj)⟩
  unfold running
  generalize s.threads.flatMap Thread.frames = F at h1
  induction F with
  | nil => simp
  | cons f F ih =>
    cases f with
    | cont k => exact ih h1
    | build j =>
      have h2 : OwnOk s.shared.flight (j :: F.filterMap frameJob) := h1
      by_cases hk : j.key = key
      · have h3 := h2.alone
        have : F.filter (isBuild key) = [] := by
          rw [List.filter_eq_nil_iff]
          intro f hf
          cases f with
          | cont k => simp [isBuild]
          | build j' =>
            simp only [isBuild, decide_eq_true_eq]
            rw [← hk]
            exact h3 j' (frame_jobs.2 hf)
        rw [List.filter_cons]
        split
        · rw [this]; simp
        · rw [this]; simp
      · rw [List.filter_cons_of_neg (by simp [isBuild, hk])]
        exact ih ⟨(List.nodup_cons.1 h2.nodup).2, fun j' hj' => h2.reg j' (List.mem_cons_of_mem _ hj')⟩

/-- The stored value of a key never changes. -/
theorem data_keep {B : Str → Prog V → Prop} {s s' : State V} (hi : Inv s.shared s.threads) (h : Step B s s') {key : Str} {v : V} (hv : s.shared.data key = some v) :
    s'.shared.data key = some v := by
  cases h with
  | @mk s s' a b th th' h =>
    have hth := hi.threads th (by simp)
    cases h with
    | @store j v' F =>
      have h1 : s.data j.key = none := hth.1
      have hk : key ≠ j.key := by rintro rfl; simp only at hv; rw [h1] at hv; simp at hv
      simp only
      rw [upd_ne _ hk]
      exact hv
    | _ => exact hv

/-- A key has been built: the value is stored or about to be. -/
def Has (s : State V) (key : Str) (v : V) : Prop := s.shared.data key = some v ∨ ∃ th ∈ s.threads, ∃ j, th.ctl = .store j v ∧ j.key = key

theorem has_step {B : Str → Prog V → Prop} {s s' : State V} (hi : Inv s.shared s.threads) (h : Step B s s') {key : Str} {v : V} (hv : Has s key v) : Has s' key v := by
  rcases hv with hv | ⟨th0, hm, j0, hc, hk⟩
  · exact Or.inl (data_keep hi h hv)
  · cases h with
    | @mk s s' a b th th' h =>
      rw [List.mem_append, List.mem_cons] at hm
      have other : th0 ∈ a ∨ th0 ∈ b → Has ⟨{ s' with now := s.now + 1 }, a ++ th' :: b⟩ key v := by
        intro h
        exact Or.inr ⟨th0, by rcases h with h | h <;> simp [h], j0, hc, hk⟩
      rcases hm with hm | rfl | hm
      · exact other (Or.inl hm)
      · cases h with
        | @store j v' F =>
          simp only [Ctl.store.injEq] at hc
          obtain ⟨rfl, rfl⟩ := hc
          left
          simp only
          rw [← hk, upd_self]
        | _ => simp at hc
      · exact other (Or.inr hm)

theorem has_steps {B : Str → Prog V → Prop} {s s' : State V} (hi : Inv s.shared s.threads) (h : Steps B s s') {key : Str} {v : V} (hv : Has s key v) : Has s' key v := by
  induction h with
  | refl => exact hv
  | tail h1 h2 ih => exact has_step (inv_steps hi h1) h2 ih

theorem has_no_start {B : Str → Prog V → Prop} {s s' : State V} (hi : Inv s.shared s.threads) {key : Str} {v : V} (hv : Has s key v) : ¬ BuildStarts B key s s' := by
  rintro ⟨a, b, j, p, F, h1, h2, hk, h3⟩
  have hnone : s.shared.data j.key = none := by
    cases h3 with
    | @mk s s' a' b' th th' h =>
      simp only at h1 h2
      -- the goroutine that moved is the one at `check`
      have : a' ++ th :: b' = a ++ ⟨.check j, F⟩ :: b := h1
      have h4 : a' ++ th' :: b' = a ++ ⟨.run p, .build j :: F⟩ :: b := h2
      have key : ∀ (a a' b b' : List (Thread V)) (x y x' y' : Thread V), a' ++ x :: b' = a ++ y :: b → a' ++ x' :: b' = a ++ y' :: b → y ≠ y' → x = y ∧ x' = y' := by
        intro a
        induction a with
        | nil =>
          intro a' b b' x y x' y' h h' hne
          cases a' with
          | nil => simp only [List.nil_append, List.cons.injEq] at h h'; exact ⟨h.1, h'.1⟩
          | cons z a' =>
            simp only [List.cons_append, List.nil_append, List.cons.injEq] at h h'
            exact absurd (h.1.symm.trans h'.1) hne
        | cons w a ih =>
          intro a' b b' x y x' y' h h' hne
          cases a' with
          | nil =>
            simp only [List.cons_append, List.nil_append, List.cons.injEq] at h h'
            have := h.2.symm.trans h'.2
            simp only [List.append_cancel_left_eq, List.cons.injEq] at this
            exact absurd this.1 hne
          | cons z a' =>
            simp only [List.cons_append, List.cons.injEq] at h h'
            exact ih a' b b' x y x' y' h.2 h'.2 hne
      obtain ⟨rfl, rfl⟩ := key a a' b b' th ⟨.check j, F⟩ th' ⟨.run p, .build j :: F⟩ this h4 (by simp)
      cases h with
      | miss h5 _ => exact h5
  have hown := hi.own
  rw [h1] at hown
  have h0 := hown.perm (owned_split a b _)
  simp only [owned, ctlJobs, List.cons_append, List.nil_append] at h0
  have hal := h0.alone
  rcases hv with hv | ⟨th0, hm, j0, hc, hk0⟩
  · rw [← hk, hnone] at hv; simp at hv
  · rw [h1, List.mem_append, List.mem_cons] at hm
    have hin : j0 ∈ owned th0 := by unfold owned; rw [hc]; simp [ctlJobs]
    have other : th0 ∈ a ++ b → False := fun hm => hal j0 (List.mem_append_right _ (List.mem_flatMap.2 ⟨th0, hm, hin⟩)) (hk0.trans hk.symm)
    rcases hm with hm | rfl | hm
    · exact other (by simp [hm])
    · simp at hc
    · exact other (by simp [hm])

end JT.Cache

namespace JT
open Cache

variable {V : Type}

/-- **C43**: for any goroutines, builders and interleaving: at most one builder of a key is running at any time; once a builder has succeeded, the builder of that key
is never called again and every load of that key that succeeds returns the value built. -/
theorem C43 (B : Str → Prog V → Prop) (ps : List (Prog V)) {s : State V} (hs : Steps B (init ps) s) :
    (∀ key, running key s ≤ 1) ∧
    ∀ key v s' t, BuildEnds B key (some v) s s' → Steps B s' t → (∀ t', ¬ BuildStarts B key t t') ∧ ∀ since v', Returns t key since (some v') → v' = v := by
  have hi := inv_steps (inv_init ps) hs
  refine ⟨running_le hi, ?_⟩
  rintro key v s' t ⟨a, b, j, F, th', h1, h2, hk, h3, h4⟩ ht
  have hstep : Step B s s' := by
    obtain ⟨sh, ths⟩ := s
    obtain ⟨sh', ths'⟩ := s'
    simp only at h1 h2 h4
    subst h1 h2 h4
    exact Step.mk h3
  have hi' := inv_steps hi (Steps.tail .refl hstep)
  have hhas : Has s' key v := by
    cases h3 with
    | built =>
      refine Or.inr ⟨⟨.store j v, F⟩, by rw [h2]; simp, j, rfl, hk⟩
  have hit := inv_steps hi' ht
  have hht := has_steps hi' ht hhas
  refine ⟨fun t' => has_no_start hit hht, ?_⟩
  rintro since v' ⟨th, hm, c, hc⟩
  have h5 := (hit.threads th hm).1
  rw [hc] at h5
  have h6 : t.shared.data key = some v' := h5
  rcases hht with h7 | ⟨th0, hm0, j0, hc0, hk0⟩
  · rw [h6] at h7; injection h7
  · have h7 := (hit.threads th0 hm0).1
    rw [hc0] at h7
    have h8 : t.shared.data j0.key = none := h7
    rw [hk0, h6] at h8
    simp at h8

/-- **C43**: two loads of the same key that succeed, at any times and in any goroutines, return the same value. -/
theorem C43_agree (B : Str → Prog V → Prop) (ps : List (Prog V)) {s t : State V} (hs : Steps B (init ps) s) (ht : Steps B s t) {key : Str} {n m : Nat} {v v' : V}
    (h : Returns s key n (some v)) (h' : Returns t key m (some v')) : v = v' := by
  have hi := inv_steps (inv_init ps) hs
  have hit := inv_steps hi ht
  obtain ⟨th, hm, c, hc⟩ := h
  obtain ⟨th', hm', c', hc'⟩ := h'
  have h1 := (hi.threads th hm).1
  rw [hc] at h1
  have h2 := (hit.threads th' hm').1
  rw [hc'] at h2
  have h3 : s.shared.data key = some v := h1
  have h4 : t.shared.data key = some v' := h2
  rcases has_steps hi ht (Or.inl h3) with h5 | ⟨th0, hm0, j0, hc0, hk0⟩
  · rw [h4] at h5; injection h5 with h5; exact h5.symm
  · have h7 := (hit.threads th0 hm0).1
    rw [hc0] at h7
    have h8 : t.shared.data j0.key = none := h7
    rw [hk0, h4] at h8
    simp at h8

end JT
