import Verif.Props.C45
/- C100: loads under any schedule end exactly if each ends when it runs alone. -/
namespace JT.Cache

variable {V : Type}

/-! ### Programs with the results that loads have -/

/-- All loads of a program, with answers as in `A`, are of good keys below a bound (`none`: no bound). -/
inductive LowIn (A : Str → Option V → Prop) (G : Str → Prop) (rank : Str → Nat) : Option Nat → Prog V → Prop where
  | ret {n r} : LowIn A G rank n (.ret r)
  | load {n key k} : G key → (∀ m, n = some m → rank key < m) → (∀ r, A key r → LowIn A G rank n (k r)) → LowIn A G rank n (.load key k)

/-- The stack below running code. -/
inductive StackIn (A : Str → Option V → Prop) (G : Str → Prop) (rank : Str → Nat) : Option Nat → List (Frame V) → Prop where
  | bottom : StackIn A G rank none []
  | build {j k F n} : G j.key → StackIn A G rank n F → (∀ m, n = some m → rank j.key < m) → (∀ r, A j.key r → LowIn A G rank n (k r)) →
      StackIn A G rank (some (rank j.key)) (.build j :: .cont k :: F)

/-- The form of a goroutine. -/
def ShapeIn (A : Str → Option V → Prop) (G : Str → Prop) (rank : Str → Nat) (th : Thread V) : Prop :=
  match ctlKey th.ctl with
  | none => ∃ p n, th.ctl = .run p ∧ LowIn A G rank n p ∧ StackIn A G rank n th.frames
  | some key => G key ∧ ∃ n k F, th.frames = .cont k :: F ∧ StackIn A G rank n F ∧ (∀ m, n = some m → rank key < m) ∧ ∀ r, A key r → LowIn A G rank n (k r)

/-- Good keys have builders that load only good keys of smaller rank. -/
def AcyclicIn (A : Str → Option V → Prop) (G : Str → Prop) (rank : Str → Nat) (B : Str → Prog V → Prop) : Prop :=
  ∀ key p, G key → B key p → LowIn A G rank (some (rank key)) p

section
variable {A : Str → Option V → Prop} {G : Str → Prop} {rank : Str → Nat} {B : Str → Prog V → Prop}

theorem LowIn.any {n : Option Nat} {p : Prog V} (h : LowIn A G rank n p) : LowIn A G rank none p := by
  induction h with
  | ret => exact .ret
  | load h1 _ _ ih => exact .load h1 (fun m hm => by simp at hm) ih

theorem shapeIn_tstep (hB : AcyclicIn A G rank B) {s s' : Shared V} {th th' : Thread V} (hs : ShapeIn A G rank th) (hA : ∀ j r F, th = ⟨.back j r, F⟩ → A j.key r)
    (h : TStep B s th s' th') : ShapeIn A G rank th' := by
  cases h with
  | load =>
    obtain ⟨p, n, h1, h2, h3⟩ := hs
    injection h1 with h1
    subst h1
    cases h2 with
    | load h0 h4 h5 => exact ⟨h0, n, _, _, rfl, h3, h4, h5⟩
  | join => exact hs
  | lead => exact hs
  | hit => exact hs
  | @miss j p F h1 h2 =>
    obtain ⟨h0, n, k, F', rfl, h4, h5, h6⟩ := hs
    exact ⟨p, _, rfl, hB _ _ h0 h2, .build h0 h4 h5 h6⟩
  | @failed j F =>
    obtain ⟨p, n, h1, h2, h3⟩ := hs
    cases h3 with
    | build h0 h4 h5 h6 => exact ⟨h0, _, _, _, rfl, h4, h5, h6⟩
  | @built j v F =>
    obtain ⟨p, n, h1, h2, h3⟩ := hs
    cases h3 with
    | build h0 h4 h5 h6 => exact ⟨h0, _, _, _, rfl, h4, h5, h6⟩
  | store => exact hs
  | finish => exact hs
  | wake => exact hs
  | @back j r k F =>
    obtain ⟨h0, n, k', F', h3, h4, h5, h6⟩ := hs
    simp only [List.cons.injEq, Frame.cont.injEq] at h3
    obtain ⟨rfl, rfl⟩ := h3
    exact ⟨_, n, rfl, h6 r (hA j r _ rfl), h4⟩

theorem stackIn_le {n : Option Nat} {F : List (Frame V)} (h : StackIn A G rank n F) : ∀ j, Frame.build j ∈ F → ∃ m, n = some m ∧ m ≤ rank j.key := by
  induction h with
  | bottom => intro j hj; simp at hj
  | @build j k F n h0 h1 h2 h3 ih =>
    intro j' hj'
    simp only [List.mem_cons, Frame.build.injEq] at hj'
    rcases hj' with rfl | hj' | hj'
    · exact ⟨_, rfl, Nat.le_refl _⟩
    · simp at hj'
    · obtain ⟨m, h4, h5⟩ := ih j' hj'
      exact ⟨_, rfl, Nat.le_of_lt (Nat.lt_of_lt_of_le (h2 m h4) h5)⟩

theorem can_stepIn (hne : ∀ key, ∃ p, B key p) {s : Shared V} {ths : List (Thread V)} (hi : Inv s ths) {th : Thread V} (hm : th ∈ ths)
    (hs : ShapeIn A G rank th) : th.done ∨ (∃ s' th', TStep B s th s' th') ∨ ∃ j F, th = ⟨.wait j, F⟩ ∧ s.calls[j.call]? = some ⟨j.key, none⟩ := by
  obtain ⟨ctl, F⟩ := th
  cases ctl with
  | run p =>
    obtain ⟨p', n, h1, h2, h3⟩ := hs
    cases p with
    | load key k => exact Or.inr (Or.inl ⟨_, _, .load⟩)
    | ret r =>
      cases h3 with
      | bottom => exact Or.inl ⟨r, rfl⟩
      | build _ _ _ _ =>
        cases r with
        | none => exact Or.inr (Or.inl ⟨_, _, .failed⟩)
        | some v => exact Or.inr (Or.inl ⟨_, _, .built⟩)
  | enter key =>
    rcases hf : s.flight key with _ | c
    · exact Or.inr (Or.inl ⟨_, _, .lead hf⟩)
    · exact Or.inr (Or.inl ⟨_, _, .join hf⟩)
  | check j =>
    rcases hd : s.data j.key with _ | v
    · obtain ⟨p, hp⟩ := hne j.key
      exact Or.inr (Or.inl ⟨_, _, .miss hd hp⟩)
    · exact Or.inr (Or.inl ⟨_, _, .hit hd⟩)
  | store j v => exact Or.inr (Or.inl ⟨_, _, .store⟩)
  | finish j r => exact Or.inr (Or.inl ⟨_, _, .finish⟩)
  | wait j =>
    obtain ⟨h1, ⟨key, res⟩, h2, h3, h4⟩ := (hi.threads _ hm).1
    simp only at h3
    subst h3
    rcases res with _ | ⟨r, t⟩
    · exact Or.inr (Or.inr ⟨j, F, rfl, h2⟩)
    · exact Or.inr (Or.inl ⟨_, _, .wake h2⟩)
  | back j r =>
    obtain ⟨_, n, k, F', h1, _⟩ := hs
    simp only at h1
    subst h1
    exact Or.inr (Or.inl ⟨_, _, .back⟩)

theorem progressIn (hne : ∀ key, ∃ p, B key p) {s : State V} (hi : Inv s.shared s.threads) (hsh : ∀ th ∈ s.threads, ShapeIn A G rank th)
    (hsv : Served s) : ∀ (n : Nat) (th : Thread V), th ∈ s.threads → ¬ th.done → (∀ j F, th = ⟨.wait j, F⟩ → rank j.key < n) → ∃ s', Step B s s'
  | 0, th, hm, hd, hw => by
    rcases can_stepIn hne hi hm (hsh th hm) with h | ⟨s', th', h⟩ | ⟨j, F, h1, h2⟩
    · exact absurd h hd
    · obtain ⟨a, b, hab⟩ := List.append_of_mem hm
      obtain ⟨sh, ths⟩ := s
      simp only at hab
      subst hab
      exact ⟨_, .mk h⟩
    · exact absurd (hw j F h1) (by omega)
  | n + 1, th, hm, hd, hw => by
    rcases can_stepIn hne hi hm (hsh th hm) with h | ⟨s', th', h⟩ | ⟨j, F, h1, h2⟩
    · exact absurd h hd
    · obtain ⟨a, b, hab⟩ := List.append_of_mem hm
      obtain ⟨sh, ths⟩ := s
      simp only at hab
      subst hab
      exact ⟨_, .mk h⟩
    · obtain ⟨th1, hm1, j1, hj1, hc1, hk1⟩ := hsv _ _ h2
      have hlt := hw j F h1
      refine progressIn hne hi hsh hsv n th1 hm1 ?_ ?_
      · rintro ⟨r, rfl⟩
        simp [owned, ctlJobs] at hj1
      · rintro j2 F2 rfl
        obtain ⟨_, m, k, F', h4, h5, h6, _⟩ := hsh _ hm1
        simp only at h4
        subst h4
        have hb : Frame.build j1 ∈ F' := by
          have : j1 ∈ List.filterMap frameJob F' := hj1
          exact frame_jobs.1 this
        obtain ⟨m', rfl, h7⟩ := stackIn_le h5 j1 hb
        have h8 := h6 m' rfl
        rw [hk1] at h7
        exact Nat.lt_of_lt_of_le h8 (by omega)

/-! ### Termination -/

/-- A goroutine makes a step, whatever the others do, where loads return only what `A` says. -/
def MovesIn (A : Str → Option V → Prop) (B : Str → Prog V → Prop) (th' th : Thread V) : Prop :=
  (∃ s s', TStep B s th s' th') ∧ ∀ j r F, th = ⟨.back j r, F⟩ → A j.key r

theorem accIn_ret {F : List (Frame V)} {j : Job} (hF : ∀ j', j'.key = j.key → ∀ r, Acc (MovesIn A B) ⟨.back j' r, F⟩) (r : Option V) :
    Acc (MovesIn A B) ⟨.run (.ret r), .build j :: F⟩ := by
  have hfin : ∀ r, Acc (MovesIn A B) ⟨.finish j r, F⟩ := by
    intro r
    constructor
    rintro th' ⟨⟨s, s', h⟩, _⟩
    cases h with
    | finish => exact hF _ rfl _
  constructor
  rintro th' ⟨⟨s, s', h⟩, _⟩
  cases h with
  | failed => exact hfin _
  | built =>
    constructor
    rintro th' ⟨⟨s, s', h⟩, _⟩
    cases h with
    | store => exact hfin _

theorem accIn_run {n : Option Nat}
    (hload : ∀ key F, G key → (∀ m, n = some m → rank key < m) → (∀ j, j.key = key → ∀ r, Acc (MovesIn A B) ⟨.back j r, F⟩) → Acc (MovesIn A B) ⟨.enter key, F⟩) {p : Prog V}
    (hp : LowIn A G rank n p) : ∀ F, (∀ r, Acc (MovesIn A B) ⟨.run (.ret r), F⟩) → Acc (MovesIn A B) ⟨.run p, F⟩ := by
  induction hp with
  | ret => intro F hF; exact hF _
  | @load key k h0 h1 _ ih =>
    intro F hF
    constructor
    rintro th' ⟨⟨s, s', h⟩, _⟩
    cases h with
    | load =>
      refine hload key _ h0 h1 ?_
      rintro j rfl r
      constructor
      rintro th' ⟨⟨s, s', h⟩, hA⟩
      cases h with
      | back => exact ih r (hA j r _ rfl) F hF

theorem accIn_enter (hB : AcyclicIn A G rank B) : ∀ (n : Nat) (key : Str), G key → rank key < n → ∀ F, (∀ j, j.key = key → ∀ r, Acc (MovesIn A B) ⟨.back j r, F⟩) →
    Acc (MovesIn A B) ⟨.enter key, F⟩
  | 0, _, _, h, _, _ => by omega
  | n + 1, key, hg, hn, F, hF => by
    constructor
    rintro th' ⟨⟨s, s', h⟩, _⟩
    cases h with
    | join _ =>
      constructor
      rintro th' ⟨⟨s, s', h⟩, _⟩
      cases h with
      | wake _ => exact hF _ rfl _
    | lead _ =>
      constructor
      rintro th' ⟨⟨s, s', h⟩, _⟩
      cases h with
      | hit _ =>
        constructor
        rintro th' ⟨⟨s, s', h⟩, _⟩
        cases h with
        | finish => exact hF _ rfl _
      | miss _ hp =>
        refine accIn_run (n := some (rank key)) ?_ (hB _ _ hg hp) _ fun r => accIn_ret (j := ⟨key, _, _⟩) hF r
        intro key' F' hg' hk hF'
        exact accIn_enter hB n key' hg' (by have := hk _ rfl; omega) F' hF'

theorem accIn_prog (hB : AcyclicIn A G rank B) {p : Prog V} (hp : LowIn A G rank none p) : Acc (MovesIn A B) ⟨.run p, []⟩ := by
  refine accIn_run (n := none) (fun key F hg _ hF => accIn_enter hB (rank key + 1) key hg (by omega) F hF) hp [] ?_
  intro r
  constructor
  rintro th' ⟨⟨s, s', h⟩, _⟩
  cases h

/-- The same for the program, in states that satisfy an invariant by which loads return what `A` says. -/
theorem accIn_state {I : State V → Prop} (hI : ∀ s s', I s → Step B s s' → I s') (hA : ∀ s, I s → ∀ th ∈ s.threads, ∀ j r F, th = ⟨.back j r, F⟩ → A j.key r)
    {ths : List (Thread V)} (h : Acc (MovesOne (MovesIn A B)) ths) : ∀ sh, I ⟨sh, ths⟩ → Acc (fun s' s => Step B s s') ⟨sh, ths⟩ := by
  induction h with
  | intro ths _ ih =>
    intro sh hi
    constructor
    rintro s' hs
    have hi' := hI _ _ hi hs
    have hA' := hA _ hi
    generalize hst : (⟨sh, ths⟩ : State V) = st at hs
    cases hs with
    | @mk s s' a b th th' h =>
      simp only [State.mk.injEq] at hst
      obtain ⟨rfl, rfl⟩ := hst
      exact ih _ (movesOne_split ⟨⟨_, _, h⟩, hA' th (by simp)⟩ b a) _ hi'

end

/-! ### The depth of loads -/

/-- As `Alone`, with a bound for the depth to which loads are nested. -/
inductive AloneIn (b : Str → Prog V) : Nat → Prog V → Option V → Prop where
  | ret {n r} : AloneIn b n (.ret r) r
  | load {n key k r r'} : AloneIn b n (b key) r → AloneIn b (n + 1) (k r) r' → AloneIn b (n + 1) (.load key k) r'

section
variable {b : Str → Prog V}

theorem AloneIn.alone {n : Nat} {p : Prog V} {r : Option V} (h : AloneIn b n p r) : Alone b p r := by
  induction h with
  | ret => exact .ret
  | load _ _ ih1 ih2 => exact .load ih1 ih2

theorem AloneIn.mono {n : Nat} {p : Prog V} {r : Option V} (h : AloneIn b n p r) : ∀ {m : Nat}, n ≤ m → AloneIn b m p r := by
  induction h with
  | ret => intro m _; exact .ret
  | load _ _ ih1 ih2 =>
    intro m hm
    cases m with
    | zero => omega
    | succ m => exact .load (ih1 (by omega)) (ih2 hm)

theorem Alone.depth {p : Prog V} {r : Option V} (h : Alone b p r) : ∃ n, AloneIn b n p r := by
  induction h with
  | ret => exact ⟨0, .ret⟩
  | load _ _ ih1 ih2 =>
    obtain ⟨n, h1⟩ := ih1
    obtain ⟨m, h2⟩ := ih2
    exact ⟨max n m + 1, .load (h1.mono (by omega)) (h2.mono (by omega))⟩

/-- The least depth with which the builder of a key ends. -/
theorem least_depth {key : Str} (h : ∃ r, Alone b (b key) r) : ∃ n, (∃ r, AloneIn b n (b key) r) ∧ ∀ m r, AloneIn b m (b key) r → n ≤ m := by
  obtain ⟨r, hr⟩ := h
  obtain ⟨n, hn⟩ := hr.depth
  induction n using Nat.strongRecOn generalizing r with
  | ind n ih =>
    by_cases hx : ∀ m r, AloneIn b m (b key) r → n ≤ m
    · exact ⟨n, ⟨r, hn⟩, hx⟩
    · obtain ⟨m, hx⟩ := Classical.not_forall.1 hx
      obtain ⟨r', hx⟩ := Classical.not_forall.1 hx
      obtain ⟨h1, h2⟩ := Classical.not_imp.1 hx
      exact ih m (by omega) r' h1.alone h1

open Classical in
noncomputable def depth (b : Str → Prog V) (key : Str) : Nat := if h : ∃ r, Alone b (b key) r then (least_depth h).choose else 0

theorem depth_spec {key : Str} (h : ∃ r, Alone b (b key) r) : (∃ r, AloneIn b (depth b key) (b key) r) ∧ ∀ m r, AloneIn b m (b key) r → depth b key ≤ m := by
  unfold depth
  rw [dif_pos h]
  exact (least_depth h).choose_spec

theorem AloneIn.low {n : Nat} {p : Prog V} {r : Option V} (h : AloneIn b n p r) :
    LowIn (fun key r => Alone b (b key) r) (fun key => ∃ r, Alone b (b key) r) (depth b) (some n) p := by
  induction h with
  | ret => exact .ret
  | @load n key k r r' h1 _ _ ih2 =>
    refine .load ⟨r, h1.alone⟩ ?_ ?_
    · intro m hm
      injection hm with hm
      have := (depth_spec ⟨r, h1.alone⟩).2 n r h1
      omega
    · intro r1 hr1
      rw [alone_unique hr1 h1.alone]
      exact ih2

end

end JT.Cache

namespace JT
open Cache

variable {V : Type}

/-- All goroutines are done. -/
def AllDone (s : State V) : Prop := ∀ th ∈ s.threads, th.done

/-- The program ends under every schedule: every execution is finite, and one that cannot go on has no goroutine left. -/
def EndsAlways (B : Str → Prog V → Prop) (ps : List (Prog V)) : Prop :=
  Acc (fun s' s => Step B s s') (init ps) ∧ ∀ s, Steps B (init ps) s → AllDone s ∨ ∃ s', Step B s s'

theorem ends_of_alone (b : Str → Prog V) (ps : List (Prog V)) (h : ∀ p ∈ ps, ∃ r, Alone b p r) : EndsAlways (Det b) ps := by
  have hac : AcyclicIn (fun key r => Alone b (b key) r) (fun key => ∃ r, Alone b (b key) r) (depth b) (Det b) := by
    rintro key p hg rfl
    obtain ⟨r, hr⟩ := (depth_spec hg).1
    exact hr.low
  have hlow : ∀ p ∈ ps, LowIn (fun key r => Alone b (b key) r) (fun key => ∃ r, Alone b (b key) r) (depth b) none p := by
    intro p hp
    obtain ⟨r, hr⟩ := h p hp
    obtain ⟨n, hn⟩ := hr.depth
    exact hn.low.any
  have hback : ∀ s, Steps (Det b) (init ps) s → ∀ th ∈ s.threads, ∀ j r F, th = ⟨.back j r, F⟩ → Alone b (b j.key) r := by
    rintro s hs th hth ⟨key, c, since⟩ r F rfl
    exact (C67 b ps hs).1 key since r ⟨_, hth, c, rfl⟩
  constructor
  · refine accIn_state (A := fun key r => Alone b (b key) r) (I := fun s => Steps (Det b) (init ps) s) (fun s s' h1 h2 => .tail h1 h2) hback (acc_all ?_) _ .refl
    intro th hth
    simp only [List.mem_map] at hth
    obtain ⟨p, hp, rfl⟩ := hth
    exact accIn_prog hac (hlow p hp)
  · intro s hs
    by_cases hd : AllDone s
    · exact Or.inl hd
    · right
      have hsh : ∀ th ∈ s.threads, ShapeIn (fun key r => Alone b (b key) r) (fun key => ∃ r, Alone b (b key) r) (depth b) th := by
        clear hd
        induction hs with
        | refl =>
          intro th hth
          simp only [init, List.mem_map] at hth
          obtain ⟨p, hp, rfl⟩ := hth
          exact ⟨p, none, rfl, hlow p hp, .bottom⟩
        | tail h1 h2 ih =>
          have hb := hback _ h1
          cases h2 with
          | @mk s s' a b' th th' h =>
            intro th1 hm
            rw [List.mem_append, List.mem_cons] at hm
            rcases hm with hm | rfl | hm
            · exact ih th1 (by simp [hm])
            · exact shapeIn_tstep hac (ih th (by simp)) (hb th (by simp)) h
            · exact ih th1 (by simp [hm])
      obtain ⟨th, hd⟩ := Classical.not_forall.1 hd
      obtain ⟨hm, hd⟩ := Classical.not_imp.1 hd
      refine progressIn (B := Det b) (fun key => ⟨_, rfl⟩) (inv_steps (inv_init ps) hs) hsh (served_steps ps hs) (match ctlKey th.ctl with | some k => depth b k + 1 | none => 0) th hm hd ?_
      rintro j F rfl
      simp [ctlKey]

/-- If a program ends under every schedule, it ends under one. -/
theorem ends_some {B : Str → Prog V → Prop} {ps : List (Prog V)} (h : EndsAlways B ps) : ∃ s, Steps B (init ps) s ∧ AllDone s := by
  obtain ⟨h1, h2⟩ := h
  suffices H : ∀ s, Acc (fun s' s => Step B s s') s → Steps B (init ps) s → ∃ s', Steps B (init ps) s' ∧ AllDone s' from H _ h1 .refl
  intro s hs
  induction hs with
  | intro s _ ih =>
    intro hr
    rcases h2 s hr with hd | ⟨s', hs'⟩
    · exact ⟨s, hr, hd⟩
    · exact ih s' hs' (.tail hr hs')

theorem alone_of_done (b : Str → Prog V) (ps : List (Prog V)) {s : State V} (hs : Steps (Det b) (init ps) s) {i : Nat} {p : Prog V} (hp : ps[i]? = some p)
    (hd : ∃ th, s.threads[i]? = some th ∧ th.done) : ∃ r, Alone b p r := by
  obtain ⟨th, hth, r, rfl⟩ := hd
  exact ⟨r, (C67 b ps hs).2 i p r hp hth⟩

/-- **C100**: for any goroutines that load schemas through one cache, these are equivalent: every one of them ends when it runs alone and nothing is cached; under some schedule all of
them end; and under every schedule all of them end. -/
theorem C100 (b : Str → Prog V) (ps : List (Prog V)) :
    ((∀ p ∈ ps, ∃ r, Alone b p r) ↔ ∃ s, Steps (Det b) (init ps) s ∧ AllDone s) ∧
    ((∀ p ∈ ps, ∃ r, Alone b p r) ↔ EndsAlways (Det b) ps) := by
  have back : (∃ s, Steps (Det b) (init ps) s ∧ AllDone s) → ∀ p ∈ ps, ∃ r, Alone b p r := by
    rintro ⟨s, hs, hd⟩ p hp
    obtain ⟨i, hi⟩ := List.getElem?_of_mem hp
    have hlt : i < s.threads.length := by rw [(allAlone_steps hs).2.1]; exact (List.getElem?_eq_some_iff.1 hi).1
    exact alone_of_done b ps hs hi ⟨_, List.getElem?_eq_getElem hlt, hd _ (List.getElem_mem hlt)⟩
  exact ⟨⟨fun h => ends_some (ends_of_alone b ps h), back⟩, ⟨ends_of_alone b ps, fun h => back (ends_some h)⟩⟩

/-- A goroutine that does not end alone does not end next to others, whatever these have put into the cache. -/
theorem C100_never (b : Str → Prog V) (ps : List (Prog V)) {i : Nat} {p : Prog V} (hp : ps[i]? = some p) (h : ¬ ∃ r, Alone b p r) {s : State V} (hs : Steps (Det b) (init ps) s) :
    ¬ ∃ th, s.threads[i]? = some th ∧ th.done :=
  fun hd => h (alone_of_done b ps hs hp hd)

end JT

namespace JT.C100ex
open Cache

/-- A file that refers to another one, and to itself only if that could not be loaded. -/
def careful (key : Str) : Prog Nat :=
  if key = g!"a" then .load g!"b" (fun | some v => .ret (some (v + 1)) | none => .load g!"a" .ret) else if key = g!"b" then .ret (some 41) else .load key .ret

theorem careful_a : Alone careful (careful g!"a") (some 42) :=
  .load (key := g!"b") (r := some 41) .ret .ret

/-- Three goroutines, which end in every schedule. -/
theorem careful_ends : EndsAlways (Det careful) [.load g!"a" .ret, .load g!"b" fun _ => .load g!"a" .ret, .load g!"a" fun _ => .load g!"a" .ret] := by
  rw [← (C100 careful _).2]
  intro p hp
  simp only [List.mem_cons, List.not_mem_nil, or_false] at hp
  rcases hp with rfl | rfl | rfl
  · exact ⟨_, .load careful_a .ret⟩
  · exact ⟨_, .load (r := some 41) .ret (.load careful_a .ret)⟩
  · exact ⟨_, .load careful_a (.load careful_a .ret)⟩

/-- The references are circular as far as C45 can tell. -/
example : ¬ ∃ rank, Acyclic rank (Det careful) := by
  rintro ⟨rank, h⟩
  have h1 := h g!"a" _ rfl
  simp only [careful, if_true] at h1
  cases h1 with
  | load _ h2 =>
    cases h2 none with
    | load h3 _ => exact absurd (h3 _ rfl) (Nat.lt_irrefl _)

/-- A file that refers to itself never loads, alone or not. -/
theorem itself_never : ¬ ∃ r, Alone careful (.load g!"c" .ret) r := by
  rintro ⟨r, h⟩
  obtain ⟨n, hn⟩ := h.depth
  have key : ∀ n r, ¬ AloneIn careful n (.load g!"c" .ret) r := by
    intro n
    induction n with
    | zero => intro r h; cases h
    | succ n ih =>
      intro r h
      cases h with
      | load h1 h2 => exact ih _ h1
  exact key n r hn

/-- So it does not end next to the others either. -/
example {s : State Nat} (hs : Steps (Det careful) (init [.load g!"a" .ret, .load g!"c" .ret]) s) : ¬ ∃ th, s.threads[1]? = some th ∧ th.done :=
  C100_never careful _ (i := 1) rfl itself_never hs

end JT.C100ex
