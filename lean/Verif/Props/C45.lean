import Verif.Props.C44
/- C45 (deadlock), C46 (keys), C67 (loads give the result without a cache). -/
namespace JT.Cache

variable {V : Type}

/-! ### Programs that load keys of small rank only -/

/-- All loads of a program are of keys below a bound (`none`: no bound). -/
inductive Low (rank : Str → Nat) : Option Nat → Prog V → Prop where
  | ret {n r} : Low rank n (.ret r)
  | load {n key k} : (∀ m, n = some m → rank key < m) → (∀ r, Low rank n (k r)) → Low rank n (.load key k)

/-- References between keys are not circular: the builder of a key loads only keys of smaller rank. -/
def Acyclic (rank : Str → Nat) (B : Str → Prog V → Prop) : Prop := ∀ key p, B key p → Low rank (some (rank key)) p

theorem low_top (rank : Str → Nat) : ∀ p : Prog V, Low rank none p
  | .ret _ => .ret
  | .load _ k => .load (fun _ h => by simp at h) fun r => low_top rank (k r)

/-- The stack below running code has the right form, and the bound for that code is `n`. -/
inductive RunStack (rank : Str → Nat) : Option Nat → List (Frame V) → Prop where
  | bottom : RunStack rank none []
  | build {j k F n} : RunStack rank n F → (∀ m, n = some m → rank j.key < m) → (∀ r, Low rank n (k r)) → RunStack rank (some (rank j.key)) (.build j :: .cont k :: F)

def ctlKey : Ctl V → Option Str
  | .run _ => none
  | .enter key => some key
  | .check j => some j.key
  | .store j _ => some j.key
  | .finish j _ => some j.key
  | .wait j => some j.key
  | .back j _ => some j.key

/-- The form of a goroutine. -/
def Shape (rank : Str → Nat) (th : Thread V) : Prop :=
  match ctlKey th.ctl with
  | none => ∃ p n, th.ctl = .run p ∧ Low rank n p ∧ RunStack rank n th.frames
  | some key => ∃ n k F, th.frames = .cont k :: F ∧ RunStack rank n F ∧ (∀ m, n = some m → rank key < m) ∧ ∀ r, Low rank n (k r)

theorem shape_tstep {rank : Str → Nat} {B : Str → Prog V → Prop} (hB : Acyclic rank B) {s s' : Shared V} {th th' : Thread V} (hs : Shape rank th) (h : TStep B s th s' th') :
    Shape rank th' := by
  cases h with
  | load =>
    obtain ⟨p, n, h1, h2, h3⟩ := hs
    injection h1 with h1
    subst h1
    cases h2 with
    | load h4 h5 => exact ⟨n, _, _, rfl, h3, h4, h5⟩
  | join => exact hs
  | lead => exact hs
  | hit => exact hs
  | @miss j p F h1 h2 =>
    obtain ⟨n, k, F', rfl, h4, h5, h6⟩ := hs
    exact ⟨p, _, rfl, hB _ _ h2, .build h4 h5 h6⟩
  | @failed j F =>
    obtain ⟨p, n, h1, h2, h3⟩ := hs
    cases h3 with
    | build h4 h5 h6 => exact ⟨_, _, _, rfl, h4, h5, h6⟩
  | @built j v F =>
    obtain ⟨p, n, h1, h2, h3⟩ := hs
    cases h3 with
    | build h4 h5 h6 => exact ⟨_, _, _, rfl, h4, h5, h6⟩
  | store => exact hs
  | finish => exact hs
  | wake => exact hs
  | @back j r k F =>
    obtain ⟨n, k', F', h3, h4, h5, h6⟩ := hs
    simp only [List.cons.injEq, Frame.cont.injEq] at h3
    obtain ⟨rfl, rfl⟩ := h3
    exact ⟨_, n, rfl, h6 r, h4⟩

theorem shape_steps {rank : Str → Nat} {B : Str → Prog V → Prop} (hB : Acyclic rank B) {s s' : State V} (h : Steps B s s') (hs : ∀ th ∈ s.threads, Shape rank th) :
    ∀ th ∈ s'.threads, Shape rank th := by
  induction h with
  | refl => exact hs
  | tail _ h2 ih =>
    cases h2 with
    | @mk s s' a b th th' h =>
      intro th1 hm
      rw [List.mem_append, List.mem_cons] at hm
      rcases hm with hm | rfl | hm
      · exact ih th1 (by simp [hm])
      · exact shape_tstep hB (ih th (by simp)) h
      · exact ih th1 (by simp [hm])

theorem shape_init (rank : Str → Nat) (ps : List (Prog V)) : ∀ th ∈ (init ps).threads, Shape rank th := by
  intro th hth
  simp only [init, List.mem_map] at hth
  obtain ⟨p, _, rfl⟩ := hth
  exact ⟨p, none, rfl, low_top rank p, .bottom⟩

/-- Builds below in the stack have a rank of at least the bound. -/
theorem runStack_le {rank : Str → Nat} {n : Option Nat} {F : List (Frame V)} (h : RunStack rank n F) : ∀ j, Frame.build j ∈ F → ∃ m, n = some m ∧ m ≤ rank j.key := by
  induction h with
  | bottom => intro j hj; simp at hj
  | @build j k F n h1 h2 h3 ih =>
    intro j' hj'
    simp only [List.mem_cons, Frame.build.injEq] at hj'
    rcases hj' with rfl | hj' | hj'
    · exact ⟨_, rfl, Nat.le_refl _⟩
    · simp at hj'
    · obtain ⟨m, h4, h5⟩ := ih j' hj'
      exact ⟨_, rfl, Nat.le_of_lt (Nat.lt_of_lt_of_le (h2 m h4) h5)⟩

/-- Every unfinished call has a goroutine that is to complete it. -/
def Served (s : State V) : Prop := ∀ (c : Nat) key, s.shared.calls[c]? = some ⟨key, none⟩ → ∃ th ∈ s.threads, ∃ j ∈ owned th, j.call = c ∧ j.key = key

theorem served_step {B : Str → Prog V → Prop} {s s' : State V} (hi : Inv s.shared s.threads) (hs : Served s) (h : Step B s s') : Served s' := by
  cases h with
  | @mk s s' a b th th' h =>
    -- the goroutine that moved still owns what it owned
    have keep : (∀ j ∈ owned th, j ∈ owned th') → s'.calls = s.calls → Served ⟨{ s' with now := s.now + 1 }, a ++ th' :: b⟩ := by
      intro hk hc c key hcall
      simp only at hcall
      rw [hc] at hcall
      obtain ⟨th1, hm, j, hj, h1⟩ := hs c key hcall
      simp only [List.mem_append, List.mem_cons] at hm
      rcases hm with hm | rfl | hm
      · exact ⟨th1, by simp [hm], j, hj, h1⟩
      · exact ⟨th', by simp, j, hk j hj, h1⟩
      · exact ⟨th1, by simp [hm], j, hj, h1⟩
    cases h with
    | load => exact keep (by simp [owned, ctlJobs, frameJob]) rfl
    | join => exact keep (by simp [owned, ctlJobs]) rfl
    | @lead key F h1 =>
      intro c k hc
      simp only at hc
      by_cases hcl : c < s.calls.length
      · rw [List.getElem?_append_left hcl] at hc
        obtain ⟨th1, hm, j, hj, h2⟩ := hs c k hc
        simp only [List.mem_append, List.mem_cons] at hm
        rcases hm with hm | rfl | hm
        · exact ⟨th1, by simp [hm], j, hj, h2⟩
        · exact ⟨⟨.check ⟨key, s.calls.length, s.now⟩, F⟩, by simp, j, List.mem_append_right _ (by simpa [owned, ctlJobs] using hj), h2⟩
        · exact ⟨th1, by simp [hm], j, hj, h2⟩
      · rw [List.getElem?_append_right (by omega)] at hc
        rcases hx : c - s.calls.length with _ | n <;> rw [hx] at hc <;> simp at hc
        refine ⟨⟨.check ⟨key, s.calls.length, s.now⟩, F⟩, by simp, ⟨key, s.calls.length, s.now⟩, by simp [owned, ctlJobs], ?_, hc⟩
        simp only
        omega
    | hit => exact keep (by simp [owned, ctlJobs]) rfl
    | miss => exact keep (by simp [owned, ctlJobs, frameJob]) rfl
    | failed => exact keep (by simp [owned, ctlJobs, frameJob]) rfl
    | built => exact keep (by simp [owned, ctlJobs, frameJob]) rfl
    | store => exact keep (by simp [owned, ctlJobs]) rfl
    | @finish j r F =>
      have hown := hi.own.perm (owned_split a b _)
      have hcall := hi.flight _ _ (hown.reg j (by simp [owned, ctlJobs]))
      have hlt := (List.getElem?_eq_some_iff.1 hcall).1
      intro c k hc
      simp only at hc
      by_cases hcj : c = j.call
      · subst hcj
        rw [List.getElem?_set_self hlt] at hc
        simp at hc
      · rw [List.getElem?_set_ne (fun e => hcj e.symm)] at hc
        obtain ⟨th1, hm, j', hj', h2⟩ := hs c k hc
        simp only [List.mem_append, List.mem_cons] at hm
        rcases hm with hm | rfl | hm
        · exact ⟨th1, by simp [hm], j', hj', h2⟩
        · refine ⟨⟨.back j r, F⟩, by simp, j', ?_, h2⟩
          simp only [owned, ctlJobs, List.cons_append, List.nil_append, List.mem_cons] at hj' ⊢
          rcases hj' with rfl | hj'
          · exact absurd h2.1.symm hcj
          · exact hj'
        · exact ⟨th1, by simp [hm], j', hj', h2⟩
    | wake => exact keep (by simp [owned, ctlJobs]) rfl
    | back => exact keep (by simp [owned, ctlJobs, frameJob]) rfl

theorem served_steps {B : Str → Prog V → Prop} (ps : List (Prog V)) {s : State V} (h : Steps B (init ps) s) : Served s := by
  induction h with
  | refl => intro c key hc; simp [init] at hc
  | tail h1 h2 ih => exact served_step (inv_steps (inv_init ps) h1) ih h2

/-- A goroutine that is not done and not waiting for an unfinished call can make a step. -/
theorem can_step {rank : Str → Nat} {B : Str → Prog V → Prop} (hne : ∀ key, ∃ p, B key p) {s : Shared V} {ths : List (Thread V)} (hi : Inv s ths) {th : Thread V} (hm : th ∈ ths)
    (hs : Shape rank th) : th.done ∨ (∃ s' th', TStep B s th s' th') ∨ ∃ j F, th = ⟨.wait j, F⟩ ∧ s.calls[j.call]? = some ⟨j.key, none⟩ := by
  obtain ⟨ctl, F⟩ := th
  cases ctl with
  | run p =>
    obtain ⟨p', n, h1, h2, h3⟩ := hs
    cases p with
    | load key k => exact Or.inr (Or.inl ⟨_, _, .load⟩)
    | ret r =>
      cases h3 with
      | bottom => exact Or.inl ⟨r, rfl⟩
      | build _ _ _ =>
        cases r with
        | none => exact Or.inr (Or.inl ⟨_, _, .failed⟩)
        | some v => exact Or.inr (Or.inl ⟨_, _, .built⟩)
  | enter key =>
    rcases hf : s.flight key with _ | c
    · exact Or.inr (Or.inl ⟨_, _, .lead hf⟩)
    · exact Or.inr (Or.inl ⟨_, _, .join hf⟩)
  | check j =>
    rcases hd : s.data j.key with _ | v
    · obtain ⟨p, hp⟩ := hne j.key
      exact Or.inr (Or.inl ⟨_, _, .miss hd hp⟩)
    · exact Or.inr (Or.inl ⟨_, _, .hit hd⟩)
  | store j v => exact Or.inr (Or.inl ⟨_, _, .store⟩)
  | finish j r => exact Or.inr (Or.inl ⟨_, _, .finish⟩)
  | wait j =>
    obtain ⟨h1, ⟨key, res⟩, h2, h3, h4⟩ := (hi.threads _ hm).1
    simp only at h3
    subst h3
    rcases res with _ | ⟨r, t⟩
    · exact Or.inr (Or.inr ⟨j, F, rfl, h2⟩)
    · exact Or.inr (Or.inl ⟨_, _, .wake h2⟩)
  | back j r =>
    obtain ⟨n, k, F', h1, _⟩ := hs
    simp only at h1
    subst h1
    exact Or.inr (Or.inl ⟨_, _, .back⟩)

theorem progress {rank : Str → Nat} {B : Str → Prog V → Prop} (hne : ∀ key, ∃ p, B key p) {s : State V} (hi : Inv s.shared s.threads) (hsh : ∀ th ∈ s.threads, Shape rank th)
    (hsv : Served s) : ∀ (n : Nat) (th : Thread V), th ∈ s.threads → ¬ th.done → (∀ j F, th = ⟨.wait j, F⟩ → rank j.key < n) → ∃ s', Step B s s'
  | 0, th, hm, hd, hw => by
    rcases can_step hne hi hm (hsh th hm) with h | ⟨s', th', h⟩ | ⟨j, F, h1, h2⟩
    · exact absurd h hd
    · obtain ⟨a, b, hab⟩ := List.append_of_mem hm
      obtain ⟨sh, ths⟩ := s
      simp only at hab
      subst hab
      exact ⟨_, .mk h⟩
    · exact absurd (hw j F h1) (by omega)
  | n + 1, th, hm, hd, hw => by
    rcases can_step hne hi hm (hsh th hm) with h | ⟨s', th', h⟩ | ⟨j, F, h1, h2⟩
    · exact absurd h hd
    · obtain ⟨a, b, hab⟩ := List.append_of_mem hm
      obtain ⟨sh, ths⟩ := s
      simp only at hab
      subst hab
      exact ⟨_, .mk h⟩
    · obtain ⟨th1, hm1, j1, hj1, hc1, hk1⟩ := hsv _ _ h2
      have hlt := hw j F h1
      refine progress hne hi hsh hsv n th1 hm1 ?_ ?_
      · rintro ⟨r, rfl⟩
        simp [owned, ctlJobs] at hj1
      · rintro j2 F2 rfl
        have h3 := hsh _ hm1
        obtain ⟨m, k, F', h4, h5, h6, _⟩ := h3
        simp only at h4
        subst h4
        have hb : Frame.build j1 ∈ F' := by
          have : j1 ∈ List.filterMap frameJob F' := hj1
          exact frame_jobs.1 this
        obtain ⟨m', rfl, h7⟩ := runStack_le h5 j1 hb
        have h8 := h6 m' rfl
        rw [hk1] at h7
        exact Nat.lt_of_lt_of_le h8 (by omega)

/-! ### Termination -/

/-- A goroutine makes a step, whatever the others do. -/
def Moves (B : Str → Prog V → Prop) (th' th : Thread V) : Prop := ∃ s s', TStep B s th s' th'

theorem acc_ret {B : Str → Prog V → Prop} {F : List (Frame V)} {j : Job} (hF : ∀ j r, Acc (Moves B) ⟨.back j r, F⟩) (r : Option V) :
    Acc (Moves B) ⟨.run (.ret r), .build j :: F⟩ := by
  have hfin : ∀ r, Acc (Moves B) ⟨.finish j r, F⟩ := by
    intro r
    constructor
    rintro th' ⟨s, s', h⟩
    cases h with
    | finish => exact hF _ _
  constructor
  rintro th' ⟨s, s', h⟩
  cases h with
  | failed => exact hfin _
  | built =>
    constructor
    rintro th' ⟨s, s', h⟩
    cases h with
    | store => exact hfin _

theorem acc_run {B : Str → Prog V → Prop} {rank : Str → Nat} {n : Option Nat} (hload : ∀ key F, (∀ m, n = some m → rank key < m) → (∀ j r, Acc (Moves B) ⟨.back j r, F⟩) →
    Acc (Moves B) ⟨.enter key, F⟩) : ∀ (p : Prog V), Low rank n p → ∀ F, (∀ r, Acc (Moves B) ⟨.run (.ret r), F⟩) → Acc (Moves B) ⟨.run p, F⟩
  | .ret r, _, F, hF => hF r
  | .load key k, hl, F, hF => by
    cases hl with
    | load h1 h2 =>
      constructor
      rintro th' ⟨s, s', h⟩
      cases h with
      | load =>
        refine hload key _ h1 ?_
        intro j r
        constructor
        rintro th' ⟨s, s', h⟩
        cases h with
        | back => exact acc_run hload (k r) (h2 r) F hF

theorem acc_enter {B : Str → Prog V → Prop} {rank : Str → Nat} (hB : Acyclic rank B) : ∀ (n : Nat) (key : Str), rank key < n → ∀ F, (∀ j r, Acc (Moves B) ⟨.back j r, F⟩) →
    Acc (Moves B) ⟨.enter key, F⟩
  | 0, _, h, _, _ => by omega
  | n + 1, key, hn, F, hF => by
    constructor
    rintro th' ⟨s, s', h⟩
    cases h with
    | join _ =>
      constructor
      rintro th' ⟨s, s', h⟩
      cases h with
      | wake _ => exact hF _ _
    | lead _ =>
      constructor
      rintro th' ⟨s, s', h⟩
      cases h with
      | hit _ =>
        constructor
        rintro th' ⟨s, s', h⟩
        cases h with
        | finish => exact hF _ _
      | miss _ hp =>
        refine acc_run (n := some (rank key)) ?_ _ (hB _ _ hp) _ fun r => acc_ret hF r
        intro key' F' hk hF'
        exact acc_enter hB n key' (by have := hk _ rfl; omega) F' hF'

theorem acc_prog {B : Str → Prog V → Prop} {rank : Str → Nat} (hB : Acyclic rank B) (p : Prog V) : Acc (Moves B) ⟨.run p, []⟩ := by
  refine acc_run (n := none) (fun key F _ hF => acc_enter hB (rank key + 1) key (by omega) F hF) p (low_top rank p) [] ?_
  intro r
  constructor
  rintro th' ⟨s, s', h⟩
  cases h

/-- One of several moves. -/
inductive MovesOne {α : Type} (R : α → α → Prop) : List α → List α → Prop where
  | head {x' x l} : R x' x → MovesOne R (x' :: l) (x :: l)
  | tail {x l' l} : MovesOne R l' l → MovesOne R (x :: l') (x :: l)

theorem acc_cons {α : Type} {R : α → α → Prop} {x : α} (hx : Acc R x) : ∀ {l : List α}, Acc (MovesOne R) l → Acc (MovesOne R) (x :: l) := by
  induction hx with
  | intro x _ ihx =>
    intro l hl
    induction hl with
    | intro l hl ihl =>
      constructor
      intro y hy
      cases hy with
      | head h => exact ihx _ h (Acc.intro l hl)
      | tail h => exact ihl _ h

theorem acc_all {α : Type} {R : α → α → Prop} : ∀ {l : List α}, (∀ x ∈ l, Acc R x) → Acc (MovesOne R) l
  | [], _ => by
    constructor
    intro y hy
    cases hy
  | x :: l, h => acc_cons (h x List.mem_cons_self) (acc_all fun y hy => h y (List.mem_cons_of_mem _ hy))

theorem movesOne_split {α : Type} {R : α → α → Prop} {x' x : α} (h : R x' x) (b : List α) : ∀ a : List α, MovesOne R (a ++ x' :: b) (a ++ x :: b)
  | [] => .head h
  | _ :: a => .tail (movesOne_split h b a)

theorem acc_state {B : Str → Prog V → Prop} {ths : List (Thread V)} (h : Acc (MovesOne (Moves B)) ths) : ∀ sh, Acc (fun s' s => Step B s s') ⟨sh, ths⟩ := by
  induction h with
  | intro ths _ ih =>
    intro sh
    constructor
    rintro s' hs
    generalize hst : (⟨sh, ths⟩ : State V) = st at hs
    cases hs with
    | @mk s s' a b th th' h =>
      simp only [State.mk.injEq] at hst
      obtain ⟨rfl, rfl⟩ := hst
      exact ih _ (movesOne_split ⟨_, _, h⟩ b a) _

end JT.Cache

namespace JT
open Cache

variable {V : Type}

/-- C45 as one would like it: whatever the builders load, some goroutine can go on until all are done. -/
def C45_statement : Prop := ∀ (B : Str → Prog Nat → Prop) (ps : List (Prog Nat)), (∀ key, ∃ p, B key p) → ∀ s, Steps B (init ps) s →
  (∀ th ∈ s.threads, th.done) ∨ ∃ s', Step B s s'

/-- **C45**, partial: if the references between keys are not circular, then in every reachable state either all goroutines are done or one can make a step, and every execution is
finite; so under every schedule all loads return. -/
theorem C45_partial (rank : Str → Nat) (B : Str → Prog V → Prop) (hB : Acyclic rank B) (hne : ∀ key, ∃ p, B key p) (ps : List (Prog V)) :
    (∀ s, Steps B (init ps) s → (∀ th ∈ s.threads, th.done) ∨ ∃ s', Step B s s') ∧ Acc (fun s' s => Step B s s') (init ps) := by
  constructor
  · intro s hs
    by_cases h : ∀ th ∈ s.threads, th.done
    · exact Or.inl h
    · right
      obtain ⟨th, h⟩ := Classical.not_forall.1 h
      obtain ⟨hm, hd⟩ := Classical.not_imp.1 h
      have hi := inv_steps (inv_init ps) hs
      have hsh := shape_steps hB hs (shape_init rank ps)
      refine progress hne hi hsh (served_steps ps hs) (match ctlKey th.ctl with | some k => rank k + 1 | none => 0) th hm hd ?_
      rintro j F rfl
      simp [ctlKey]
  · refine acc_state (acc_all ?_) _
    intro th hth
    simp only [List.mem_map] at hth
    obtain ⟨p, _, rfl⟩ := hth
    exact acc_prog hB p

end JT

namespace JT.C45ex
open Cache

/-- Two files that refer to each other. -/
def cyc (key : Str) : Prog Nat := if key = g!"a" then .load g!"b" .ret else if key = g!"b" then .load g!"a" .ret else .ret none

/-- One goroutine that loads one of them. -/
def client : Prog Nat := .load g!"a" .ret

def stuck : State Nat := (exec cyc (List.replicate 8 0) (init [client])).getD (init [])

theorem stuck_reached : exec cyc (List.replicate 8 0) (init [client]) = some stuck := rfl

/-- The goroutine waits for the call that it is to complete itself. -/
theorem stuck_threads : ∃ F, stuck.threads = [⟨.wait ⟨g!"a", 0, 7⟩, F⟩] ∧ stuck.shared.calls[0]? = some ⟨g!"a", none⟩ := ⟨_, rfl, rfl⟩

end JT.C45ex

namespace JT
open Cache

/-- Circular references between files: a load waits for itself for ever. -/
theorem C45_refuted : ¬ C45_statement := by
  intro h
  obtain ⟨F, h1, h2⟩ := C45ex.stuck_threads
  rcases h (Det C45ex.cyc) [C45ex.client] (fun key => ⟨_, rfl⟩) C45ex.stuck (exec_steps C45ex.stuck_reached) with h3 | ⟨s', h3⟩
  · obtain ⟨r, h4⟩ := h3 ⟨.wait ⟨g!"a", 0, 7⟩, F⟩ (by rw [h1]; simp)
    simp at h4
  · generalize C45ex.stuck = st at h1 h2 h3
    cases h3 with
    | @mk s s' a b th th' h =>
      have : th = ⟨.wait ⟨g!"a", 0, 7⟩, F⟩ := by
        have hm : th ∈ a ++ th :: b := by simp
        simp only at h1
        rw [h1] at hm
        simpa using hm
      subst this
      cases h with
      | wake h5 =>
        simp only at h5 h2
        rw [h2] at h5
        simp at h5

/-! ### C46 -/

/-- C46 as one would like it: different requests have different keys. -/
def C46_statement : Prop := ∀ p o f p' o' f', schemaKey p o f = schemaKey p' o' f' → p = p' ∧ o = o' ∧ f = f'

theorem C46_refuted : ¬ C46_statement := by
  intro h
  have := (h g!"a|b" g!"c" true g!"a" g!"b|c" true rfl).1
  revert this
  decide

theorem bar_split {a b a' b' : Str} (hb : '|' ∉ b) (hb' : '|' ∉ b') (h : a ++ '|' :: b = a' ++ '|' :: b') : a = a' ∧ b = b' := by
  rcases List.append_eq_append_iff.1 h with ⟨m, h1, h2⟩ | ⟨m, h1, h2⟩
  · cases m with
    | nil => simp at h1 h2; exact ⟨h1.symm, h2⟩
    | cons x m => simp only [List.cons_append, List.cons.injEq] at h2; exact absurd (by rw [h2.2]; simp) hb
  · cases m with
    | nil => simp at h1 h2; exact ⟨h1, h2.symm⟩
    | cons x m => simp only [List.cons_append, List.cons.injEq] at h2; exact absurd (by rw [h2.2]; simp) hb'

theorem bar_split' {a b a' b' : Str} (ha : '|' ∉ a) (ha' : '|' ∉ a') (h : a ++ '|' :: b = a' ++ '|' :: b') : a = a' ∧ b = b' := by
  rcases List.append_eq_append_iff.1 h with ⟨m, h1, h2⟩ | ⟨m, h1, h2⟩
  · cases m with
    | nil => simp at h1 h2; exact ⟨h1.symm, h2⟩
    | cons x m => simp only [List.cons_append, List.cons.injEq] at h2; exact absurd (by rw [h1, ← h2.1]; simp) ha'
  · cases m with
    | nil => simp at h1 h2; exact ⟨h1, h2.symm⟩
    | cons x m => simp only [List.cons_append, List.cons.injEq] at h2; exact absurd (by rw [h1, ← h2.1]; simp) ha

/-- **C46**, partial: different requests have different keys if no type name contains a bar, or if no path does. -/
theorem C46_partial {p o p' o' : Str} {f f' : Bool} (hb : ('|' ∉ o ∧ '|' ∉ o') ∨ ('|' ∉ p ∧ '|' ∉ p')) (h : schemaKey p o f = schemaKey p' o' f') : p = p' ∧ o = o' ∧ f = f' := by
  have hf : ∀ f : Bool, '|' ∉ (if f then g!"true" else g!"false") := by decide
  simp only [schemaKey, List.append_assoc, List.cons_append, List.nil_append] at h
  have h' : (p ++ '|' :: o) ++ '|' :: (if f then g!"true" else g!"false") = (p' ++ '|' :: o') ++ '|' :: (if f' then g!"true" else g!"false") := by
    simpa only [List.append_assoc, List.cons_append] using h
  obtain ⟨h1, h2⟩ := bar_split (hf f) (hf f') h'
  have h3 : f = f' := by revert h2; cases f <;> cases f' <;> decide
  rcases hb with ⟨ho, ho'⟩ | ⟨hp, hp'⟩
  · obtain ⟨h4, h5⟩ := bar_split ho ho' h1
    exact ⟨h4, h5, h3⟩
  · obtain ⟨h4, h5⟩ := bar_split' hp hp' h1
    exact ⟨h4, h5, h3⟩

example : ('|' ∉ g!"image" ∧ '|' ∉ g!"video") ∧ schemaKey g!"/x/y|z.json" g!"image" true ≠ schemaKey g!"/x/y|z.json" g!"video" true := by decide

end JT

namespace JT.Cache

variable {V : Type}

/-! ### C67 -/

/-- What a program gives when it runs alone and without a cache: every load runs the builder. -/
inductive Alone (b : Str → Prog V) : Prog V → Option V → Prop where
  | ret {r} : Alone b (.ret r) r
  | load {key k r r'} : Alone b (b key) r → Alone b (k r) r' → Alone b (.load key k) r'

theorem alone_unique {b : Str → Prog V} {p : Prog V} {r : Option V} (h : Alone b p r) : ∀ {r'}, Alone b p r' → r = r' := by
  induction h with
  | ret => intro r' h; cases h; rfl
  | load _ _ ih1 ih2 =>
    intro r' h
    cases h with
    | load h1 h2 =>
      cases ih1 h1
      exact ih2 h2

/-- Running `p` on a stack ends in a result that satisfies `P`, if the results of `p` and of all builders are as without a cache. -/
def RunOk (b : Str → Prog V) (P : Option V → Prop) : List (Frame V) → Prog V → Prop
  | [], p => ∀ r, Alone b p r → P r
  | .build j :: .cont k :: F, p => (∀ r, Alone b p r → Alone b (b j.key) r) ∧ ∀ r, Alone b (b j.key) r → RunOk b P F (k r)
  | _, _ => False

def LoadOk (b : Str → Prog V) (P : Option V → Prop) (key : Str) : List (Frame V) → Prop
  | .cont k :: F => ∀ r, Alone b (b key) r → RunOk b P F (k r)
  | _ => False

def AloneOk (b : Str → Prog V) (P : Option V → Prop) : Thread V → Prop
  | ⟨.run p, F⟩ => RunOk b P F p
  | ⟨.enter key, F⟩ => LoadOk b P key F
  | ⟨.check j, F⟩ => LoadOk b P j.key F
  | ⟨.store j v, F⟩ => LoadOk b P j.key F ∧ Alone b (b j.key) (some v)
  | ⟨.finish j r, F⟩ => LoadOk b P j.key F ∧ Alone b (b j.key) r
  | ⟨.wait j, F⟩ => LoadOk b P j.key F
  | ⟨.back j r, F⟩ => LoadOk b P j.key F ∧ Alone b (b j.key) r

structure SharedOk (b : Str → Prog V) (s : Shared V) : Prop where
  data : ∀ key v, s.data key = some v → Alone b (b key) (some v)
  calls : ∀ (c : Nat) key r t, s.calls[c]? = some ⟨key, some (r, t)⟩ → Alone b (b key) r

theorem loadOk_build {b : Str → Prog V} {P : Option V → Prop} {j : Job} {F : List (Frame V)} {p : Prog V} :
    RunOk b P (.build j :: F) p ↔ LoadOk b P j.key F ∧ ∀ r, Alone b p r → Alone b (b j.key) r := by
  cases F with
  | nil => simp [RunOk, LoadOk]
  | cons f F =>
    cases f with
    | cont k => simp only [RunOk, LoadOk]; exact And.comm
    | build j' => simp [RunOk, LoadOk]

theorem alone_tstep {b : Str → Prog V} {P : Option V → Prop} {s s' : Shared V} {th th' : Thread V} (hs : SharedOk b s) (hct : CtlOk s th.ctl) (ht : AloneOk b P th)
    (h : TStep (Det b) s th s' th') : SharedOk b s' ∧ AloneOk b P th' := by
  cases h with
  | @load key k F =>
    refine ⟨hs, ?_⟩
    cases F with
    | nil => intro r hr r' hr'; exact ht r' (.load hr hr')
    | cons f F =>
      cases f with
      | cont k => exact ht.elim
      | build j =>
        obtain ⟨h1, h2⟩ := loadOk_build.1 ht
        intro r hr
        exact loadOk_build.2 ⟨h1, fun r' hr' => h2 r' (.load hr hr')⟩
  | join _ => exact ⟨hs, ht⟩
  | @lead key F hf =>
    refine ⟨⟨hs.data, ?_⟩, ht⟩
    intro c key' r t hc
    simp only at hc
    by_cases hcl : c < s.calls.length
    · rw [List.getElem?_append_left hcl] at hc
      exact hs.calls c key' r t hc
    · rw [List.getElem?_append_right (by omega)] at hc
      rcases hx : c - s.calls.length with _ | n <;> rw [hx] at hc <;> simp at hc
  | hit hd => exact ⟨hs, ht, hs.data _ _ hd⟩
  | miss hd hp =>
    subst hp
    exact ⟨hs, loadOk_build.2 ⟨ht, fun r hr => hr⟩⟩
  | failed =>
    obtain ⟨h1, h2⟩ := loadOk_build.1 ht
    exact ⟨hs, h1, h2 _ .ret⟩
  | built =>
    obtain ⟨h1, h2⟩ := loadOk_build.1 ht
    exact ⟨hs, h1, h2 _ .ret⟩
  | @store j v F =>
    refine ⟨⟨?_, hs.calls⟩, ht⟩
    intro key v' hv
    simp only [upd] at hv
    split at hv
    · rename_i hk
      simp only [Option.some.injEq] at hv
      subst hv hk
      exact ht.2
    · exact hs.data key v' hv
  | @finish j r F =>
    refine ⟨⟨hs.data, ?_⟩, ht⟩
    intro c key r' t hc
    simp only at hc
    rw [List.getElem?_set] at hc
    split at hc
    · split at hc
      · simp only [Option.some.injEq, Call.mk.injEq, Prod.mk.injEq] at hc
        obtain ⟨rfl, rfl, _⟩ := hc
        exact ht.2
      · simp at hc
    · exact hs.calls c key r' t hc
  | @wake j r t key F hc =>
    obtain ⟨_, cl, h2, h3, _⟩ := hct
    rw [hc] at h2
    simp only [Option.some.injEq] at h2
    subst h2
    simp only at h3
    subst h3
    exact ⟨hs, ht, hs.calls _ _ _ _ hc⟩
  | @back j r k F =>
    exact ⟨hs, ht.1 r ht.2⟩

/-- The goroutines correspond to the programs they were started with. -/
def AllAlone (b : Str → Prog V) (ps : List (Prog V)) (s : State V) : Prop :=
  SharedOk b s.shared ∧ s.threads.length = ps.length ∧ ∀ (i : Nat) th p, s.threads[i]? = some th → ps[i]? = some p → AloneOk b (Alone b p) th

theorem allAlone_steps {b : Str → Prog V} {ps : List (Prog V)} {s : State V} (h : Steps (Det b) (init ps) s) : AllAlone b ps s := by
  induction h with
  | refl =>
    refine ⟨⟨fun _ _ h => by simp [init] at h, fun c _ _ _ h => by simp [init] at h⟩, by simp [init], ?_⟩
    intro i th p h1 h2
    simp only [init, List.getElem?_map, h2, Option.map_some, Option.some.injEq] at h1
    subst h1
    exact fun r hr => hr
  | tail h1 h2 ih =>
    have hi := inv_steps (inv_init ps) h1
    cases h2 with
    | @mk s s' a b' th th' h =>
      obtain ⟨ih1, ih2, ih3⟩ := ih
      simp only at ih1 ih2 ih3
      have hct := (hi.threads th (by simp)).1
      have hget : (a ++ th :: b')[a.length]? = some th := by simp
      have hlt : a.length < ps.length := by rw [← ih2]; simp
      have hp := List.getElem?_eq_getElem hlt
      obtain ⟨h3, h4⟩ := alone_tstep ih1 hct (ih3 _ _ _ hget hp) h
      refine ⟨⟨h3.data, h3.calls⟩, by rw [← ih2]; simp, ?_⟩
      intro i th1 p hth1 hpi
      simp only at hth1
      rw [show a ++ th' :: b' = (a ++ th :: b').set a.length th' by simp, List.getElem?_set] at hth1
      split at hth1
      · rename_i hia
        subst hia
        rw [hp] at hpi
        simp only [Option.some.injEq] at hpi
        subst hpi
        split at hth1
        · simp only [Option.some.injEq] at hth1
          subst hth1
          exact h4
        · simp at hth1
      · exact ih3 i th1 p hth1 hpi

end JT.Cache

namespace JT
open Cache

variable {V : Type}

/-- **C67**: whatever the schedule, a load returns what its builder gives when everything runs alone and without a cache, and so does every goroutine that ends. -/
theorem C67 (b : Str → Prog V) (ps : List (Prog V)) {s : State V} (hs : Steps (Det b) (init ps) s) :
    (∀ key since r, Returns s key since r → Alone b (b key) r) ∧
    ∀ (i : Nat) p r, ps[i]? = some p → s.threads[i]? = some ⟨.run (.ret r), []⟩ → Alone b p r := by
  obtain ⟨h1, h2, h3⟩ := allAlone_steps hs
  constructor
  · rintro key since r ⟨⟨ctl, F⟩, hm, c, hc⟩
    obtain ⟨i, hi⟩ := List.getElem?_of_mem hm
    have hlt : i < ps.length := by rw [← h2]; exact (List.getElem?_eq_some_iff.1 hi).1
    simp only at hc
    subst hc
    exact (h3 i _ _ hi (List.getElem?_eq_getElem hlt)).2
  · intro i p r hp hth
    exact h3 i _ _ hth hp r .ret

/-- So the results do not depend on the schedule. -/
theorem C67_schedule (b : Str → Prog V) (ps : List (Prog V)) {s t : State V} (hs : Steps (Det b) (init ps) s) (ht : Steps (Det b) (init ps) t) {i : Nat} {r r' : Option V}
    (h : s.threads[i]? = some ⟨.run (.ret r), []⟩) (h' : t.threads[i]? = some ⟨.run (.ret r'), []⟩) : r = r' := by
  have hlt : i < ps.length := by rw [← (allAlone_steps hs).2.1]; exact (List.getElem?_eq_some_iff.1 h).1
  have hp := List.getElem?_eq_getElem hlt
  exact alone_unique ((C67 b ps hs).2 i _ r hp h) ((C67 b ps ht).2 i _ r' hp h')

end JT

namespace JT.C45ex
open Cache

/-- Two files, one of which refers to the other; the third cannot be built. -/
def tree (key : Str) : Prog Nat :=
  if key = g!"a" then .load g!"b" fun r => .ret (r.map (· + 1)) else if key = g!"b" then .ret (some 41) else .ret none

def rk (key : Str) : Nat := if key = g!"a" then 1 else 0

theorem tree_acyclic : Acyclic rk (Det tree) := by
  rintro key p rfl
  unfold tree
  split
  · rename_i h; subst h
    exact .load (fun m hm => by cases hm; decide) fun _ => .ret
  · split <;> exact .ret

/-- Two goroutines: one loads the first file, the other the one that cannot be built and then the first. -/
def clients : List (Prog Nat) := [.load g!"a" .ret, .load g!"c" fun _ => .load g!"a" .ret]

/-- The first starts building, the second fails, then joins the first, which goes on and ends. -/
def sched : List Nat := [0, 0, 0, 1, 1, 1, 1, 1, 1, 1, 1, 0, 0, 0, 0, 0, 0, 0, 0, 0, 0, 0, 1, 1]

def final : State Nat := (exec tree sched (init clients)).getD (init [])

theorem final_reached : exec tree sched (init clients) = some final := rfl

/-- Both end with the right value; there were three calls, and the one for `c` failed. -/
example : final.threads = [⟨.run (.ret (some 42)), []⟩, ⟨.run (.ret (some 42)), []⟩] ∧ final.shared.calls.map (fun c => c.result.map (·.1)) = [some (some 42), some none, some (some 41)] := ⟨rfl, rfl⟩

/-- In the same schedule, a load of `a` returns to each of them. -/
example : ∃ s, Steps (Det tree) (init clients) s ∧ Returns s g!"a" 1 (some 42) ∧ Returns s g!"a" 10 (some 42) := by
  refine ⟨(exec tree (sched.take 21 ++ [1]) (init clients)).getD (init []), exec_steps (is := sched.take 21 ++ [1]) rfl, ⟨_, List.mem_cons_self, 0, rfl⟩, ⟨_, List.mem_cons_of_mem _ List.mem_cons_self, 0, rfl⟩⟩

/-- In the same schedule, the load of `c` fails (C44). -/
example : ∃ s, Steps (Det tree) (init clients) s ∧ Returns s g!"c" 4 none := by
  refine ⟨(exec tree (sched.take 8) (init clients)).getD (init []), exec_steps (is := sched.take 8) rfl, ⟨_, List.mem_cons_of_mem _ List.mem_cons_self, 1, rfl⟩⟩

/-- In the same schedule, the builder of `b` ends with a value (C43). -/
example : ∃ s s', Steps (Det tree) (init clients) s ∧ BuildEnds (Det tree) g!"b" (some 41) s s' ∧ Steps (Det tree) s' final := by
  refine ⟨(exec tree (sched.take 14) (init clients)).getD (init []), (exec tree (sched.take 15) (init clients)).getD (init []), exec_steps (is := sched.take 14) rfl,
    ⟨[], _, _, _, _, rfl, rfl, rfl, .built, rfl⟩, exec_steps (is := sched.drop 15) rfl⟩

end JT.C45ex
