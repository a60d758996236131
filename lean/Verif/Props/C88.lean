import Verif.Proofs.Loading
import Verif.Model.FilePath
/- C88: loading schemas from files that refer to each other. -/
namespace JT.Loading
open JT JT.Spec JT.Ref JT.Cache

/-- Schemas without references, which is what loading gives. -/
abbrev Loaded : Type := { i : Instance // Clean (encodeInst i) }

theorem tame_answer (r : Option Loaded) : Tame (loadAnswer Subtype.val r) := by
  intro p hp
  cases r with
  | none => simp [loadAnswer] at hp
  | some v =>
    simp only [loadAnswer, Res.ok.injEq] at hp
    exact hp ▸ v.2

theorem tame_err : Tame .err := fun p h => by simp at h

/-! ### There is exactly one builder -/

section
variable {F : Files} {o : Str} {fl : Bool} {path : Str}

theorem builds_unique {refs : List (List Str)} {d : P} {p : Prog Loaded} (h : Builds F Subtype.val o fl path refs d p) :
    ∀ {p' : Prog Loaded}, Builds F Subtype.val o fl path refs d p' → p = p' := by
  induction h with
  | inside h1 h2 _ ih =>
    intro p' h'
    cases h' with
    | inside h3 h4 h5 => rw [h2, Res.ok.injEq] at h4; subst h4; exact ih h5
    | fails h3 h4 => exact absurd h2 (h4 _)
    | load h3 _ _ => rw [h1] at h3; simp at h3
  | fails h1 h2 =>
    intro p' h'
    cases h' with
    | inside h3 h4 h5 => exact absurd h4 (h2 _)
    | fails h3 h4 => rfl
    | load h3 _ _ => rw [h1] at h3; simp at h3
  | @load refPath refs d file k h1 h2 h3 ih =>
    intro p' h'
    cases h' with
    | inside h4 _ _ => rw [h1] at h4; simp at h4
    | fails h4 _ => rw [h1] at h4; simp at h4
    | load h4 h5 h6 =>
      rw [h1] at h4
      injection h4 with h4
      subst h4
      congr 1
      funext r
      by_cases hr : ∃ d', derefOne (F.world fun _ => loadAnswer Subtype.val r) path refPath d = .ok d'
      · obtain ⟨d', hd'⟩ := hr
        exact ih r d' hd' (h5 r d' hd')
      · have hr' : ∀ d', derefOne (F.world fun _ => loadAnswer Subtype.val r) path refPath d ≠ .ok d' := fun d' h => hr ⟨d', h⟩
        rw [h3 r hr', h6 r hr']
  | noObject h1 =>
    intro p' h'
    cases h' with
    | noObject _ => rfl
    | again h2 _ _ => rw [h1] at h2; simp at h2
    | made h2 _ => rw [h1] at h2; simp at h2
    | unfit h2 _ => rfl
  | again h1 h2 _ ih =>
    intro p' h'
    cases h' with
    | noObject h3 => rw [h1] at h3; simp at h3
    | again h3 _ h5 => rw [h1] at h3; injection h3 with h3; subst h3; exact ih h5
    | made h3 _ => rw [h1] at h3; injection h3 with h3; exact absurd h3 h2
    | unfit h3 _ => rw [h1] at h3; injection h3 with h3; exact absurd h3 h2
  | @made sched d v h1 h2 =>
    intro p' h'
    cases h' with
    | noObject h3 => rw [h1] at h3; simp at h3
    | again h3 h4 _ => rw [h1] at h3; injection h3 with h3; exact absurd h3.symm h4
    | @made sched' _ v' _ h4 =>
      rw [schemaOfDoc_sched sched' sched, h2, Res.ok.injEq] at h4
      rw [Subtype.ext h4]
    | @unfit sched' _ _ h4 => rw [schemaOfDoc_sched sched' sched] at h4; exact absurd h2 (h4 _)
  | @unfit sched d h1 h2 =>
    intro p' h'
    cases h' with
    | noObject h3 => rfl
    | again h3 h4 _ => rw [h1] at h3; injection h3 with h3; exact absurd h3.symm h4
    | @made sched' _ v' _ h4 => rw [schemaOfDoc_sched sched' sched] at h4; exact absurd h4 (h2 _)
    | unfit _ _ => rfl

theorem builds_exists (hnet : ∀ url p, F.http url = .ok p → Clean p) {rk : Str → Nat} {D : List Str} (d : P) (hd : Doc F path rk D d) :
    ∀ refs : List (List Str), (∀ p ∈ refs, ∃ dest, p = dest ++ [refKey]) → ∃ p : Prog Loaded, Builds F Subtype.val o fl path refs d p := by
  generalize hM : ranks rk d = M
  induction M using (Multiset.wellFounded_isDershowitzMannaLT (α := Nat)).induction generalizing d with
  | _ M ih =>
    have more : ∀ (r : List Str) (rs : List (List Str)), (∀ p ∈ r :: rs, ∃ dest, p = dest ++ [refKey]) → ∃ p : Prog Loaded, Builds F Subtype.val o fl path (r :: rs) d p := by
      intro r rs hrs
      obtain ⟨dest, rfl⟩ := hrs r List.mem_cons_self
      have hrs' : ∀ p ∈ rs, ∃ dest, p = dest ++ [refKey] := fun p hp => hrs p (List.mem_cons_of_mem _ hp)
      have next : ∀ (a : Res P), Tame a → ∀ d', derefOne (F.world fun _ => a) path (dest ++ [refKey]) d = .ok d' →
          ∃ p : Prog Loaded, Builds F Subtype.val o fl path rs d' p := by
        intro a ha d' h
        obtain ⟨h1, h2⟩ := doc_step hnet (fun _ => ha) hd h
        exact ih _ (hM ▸ h2) d' h1 rfl rs hrs'
      rcases hl : derefLoads F path (dest ++ [refKey]) d with _ | file
      · by_cases hr : ∃ d', derefOne (F.world fun _ => .err) path (dest ++ [refKey]) d = .ok d'
        · obtain ⟨d', hd'⟩ := hr
          obtain ⟨p, hp⟩ := next _ tame_err d' hd'
          exact ⟨p, .inside hl hd' hp⟩
        · exact ⟨_, .fails hl fun d' h => hr ⟨d', h⟩⟩
      · have hk : ∀ r : Option Loaded, ∃ p : Prog Loaded,
            (∀ d', derefOne (F.world fun _ => loadAnswer Subtype.val r) path (dest ++ [refKey]) d = .ok d' → Builds F Subtype.val o fl path rs d' p) ∧
            ((∀ d', derefOne (F.world fun _ => loadAnswer Subtype.val r) path (dest ++ [refKey]) d ≠ .ok d') → p = .ret none) := by
          intro r
          by_cases hr : ∃ d', derefOne (F.world fun _ => loadAnswer Subtype.val r) path (dest ++ [refKey]) d = .ok d'
          · obtain ⟨d', hd'⟩ := hr
            obtain ⟨p, hp⟩ := next _ (tame_answer r) d' hd'
            refine ⟨p, ?_, fun h => absurd hd' (h d')⟩
            intro d'' h
            rw [hd', Res.ok.injEq] at h
            exact h ▸ hp
          · exact ⟨.ret none, fun d' h => absurd ⟨d', h⟩ hr, fun _ => rfl⟩
        exact ⟨_, .load (k := fun r => (hk r).choose) hl (fun r => (hk r).choose_spec.1) fun r => (hk r).choose_spec.2⟩
    intro refs hrefs
    rcases refs with _ | ⟨r, rs⟩
    · rcases hf : findRefs d with _ | rs
      · exact ⟨_, .noObject hf⟩
      · rcases rs with _ | ⟨r, rs⟩
        · rcases hs : schemaOfDoc Sched.id o fl d with i | _ | _
          · exact ⟨_, .made (v := ⟨i, schema_clean ⟨none_left hd.flat hf, hd.tidy⟩ hs⟩) hf hs⟩
          · exact ⟨_, .unfit hf fun i h => by rw [hs] at h; simp at h⟩
          · exact ⟨_, .unfit hf fun i h => by rw [hs] at h; simp at h⟩
        · obtain ⟨p, hp⟩ := more r rs (findRefs_last hf)
          exact ⟨p, .again hf (by simp) hp⟩
    · exact more r rs hrefs

/-- The keys loaded are those of files the file refers to. -/
theorem builds_low (hnet : ∀ url p, F.http url = .ok p → Clean p) {rk : Str → Nat} {D : List Str} {rank : Str → Nat} {n : Nat} (hD : ∀ ref ∈ D, ∀ file, LeadsTo F path ref file → rank (schemaKey file o fl) < n)
    {refs : List (List Str)} {d : P} {p : Prog Loaded} (h : Builds F Subtype.val o fl path refs d p) :
    Doc F path rk D d → (∀ p ∈ refs, ∃ dest, p = dest ++ [refKey]) → Low rank (some n) p := by
  induction h with
  | inside h1 h2 _ ih =>
    intro hd hr
    obtain ⟨dest, rfl⟩ := hr _ List.mem_cons_self
    exact ih (doc_step hnet (fun _ => tame_err) hd h2).1 fun p hp => hr p (List.mem_cons_of_mem _ hp)
  | fails _ _ => intro _ _; exact .ret
  | @load refPath refs d file k h1 h2 h3 ih =>
    intro hd hr
    obtain ⟨dest, rfl⟩ := hr _ List.mem_cons_self
    obtain ⟨ref, href, hlead⟩ := derefLoads_mem h1
    refine .load ?_ ?_
    · intro m hm
      injection hm with hm
      exact hm ▸ hD ref (hd.sub ref href) file hlead
    · intro r
      by_cases hr' : ∃ d', derefOne (F.world fun _ => loadAnswer Subtype.val r) path (dest ++ [refKey]) d = .ok d'
      · obtain ⟨d', hd'⟩ := hr'
        exact ih r d' hd' (doc_step hnet (fun _ => tame_answer r) hd hd').1 fun p hp => hr p (List.mem_cons_of_mem _ hp)
      · rw [h3 r fun d' h => hr' ⟨d', h⟩]
        exact .ret
  | noObject _ => intro _ _; exact .ret
  | again h1 _ _ ih => intro hd _; exact ih hd (findRefs_last h1)
  | made _ _ => intro _ _; exact .ret
  | unfit _ _ => intro _ _; exact .ret

/-! ### What a builder computes -/

/-- The schema made of the result of dereferencing. -/
def Finish (o : Str) (fl : Bool) (x : Res P) (r : Option Instance) : Prop :=
  match x with
  | .ok d => (∃ i, r = some i ∧ ∀ sched, schemaOfDoc sched o fl d = .ok i) ∨ (r = none ∧ ∀ sched i, schemaOfDoc sched o fl d ≠ .ok i)
  | _ => r = none

/-- The rest of a pass and what comes after it. -/
def Ends (w : World) (o : Str) (fl : Bool) (path : Str) (refs : List (List Str)) (d : P) (r : Option Instance) : Prop :=
  (∃ d', foldRes (derefOne w path) refs d = .ok d' ∧ ∃ n x, dereference w path n d' = some x ∧ Finish o fl x r) ∨
    (∀ d', foldRes (derefOne w path) refs d ≠ .ok d') ∧ r = none

theorem ends_cons {w : World} {refPath : List Str} {refs : List (List Str)} {d d' : P} {r : Option Instance} (h : derefOne w path refPath d = .ok d') :
    Ends w o fl path (refPath :: refs) d r ↔ Ends w o fl path refs d' r := by
  unfold Ends
  simp only [foldRes, h]

theorem ends_fail {w : World} {refPath : List Str} {refs : List (List Str)} {d : P} (h : ∀ d', derefOne w path refPath d ≠ .ok d') :
    Ends w o fl path (refPath :: refs) d none := by
  right
  refine ⟨?_, rfl⟩
  intro d'
  simp only [foldRes]
  rcases hx : derefOne w path refPath d with x | _ | _
  · exact absurd hx (h x)
  · simp
  · simp

theorem deref_settled {w : World} {d : P} (h : findRefs d = some []) : dereference w path 1 d = some (.ok d) := by
  simp only [dereference, h, foldRes]

theorem ends_again {w : World} {refs : List (List Str)} {d : P} {r : Option Instance} (h : findRefs d = some refs) (he : Ends w o fl path refs d r) :
    ∃ n x, dereference w path n d = some x ∧ Finish o fl x r := by
  rcases he with ⟨d', h1, n, x, h2, h3⟩ | ⟨h1, rfl⟩
  · rcases n with _ | n
    · simp [dereference] at h2
    rcases hf : findRefs d' with _ | rs
    · simp only [dereference, hf, Option.some.injEq] at h2
      subst h2
      exact ⟨1, .err, by simp only [dereference, h, h1, hf], h3⟩
    · rcases rs with _ | ⟨a, b⟩
      · simp only [dereference, hf, foldRes, Option.some.injEq] at h2
        subst h2
        exact ⟨1, .ok d', by simp only [dereference, h, h1, hf], h3⟩
      · exact ⟨n + 2, x, by rw [dereference]; simp only [h, h1, hf]; exact h2, h3⟩
  · rcases hx : foldRes (derefOne w path) refs d with y | _ | _
    · exact absurd hx (h1 y)
    · exact ⟨1, .err, by simp only [dereference, h, hx], rfl⟩
    · exact ⟨1, .panic, by simp only [dereference, h, hx], rfl⟩

theorem builds_sem {b : Str → Prog Loaded} {sem : Str → Option Loaded} (hsem : ∀ file r, Alone b (b (schemaKey file o fl)) r → r = sem file)
    {refs : List (List Str)} {d : P} {p : Prog Loaded} (h : Builds F Subtype.val o fl path refs d p) :
    ∀ r, Alone b p r → Ends (F.world fun q => loadAnswer Subtype.val (sem q)) o fl path refs d (r.map Subtype.val) := by
  induction h with
  | inside h1 h2 _ ih =>
    intro r hr
    have hw := derefOne_world (F := F) (l1 := fun _ => .err) (l2 := fun q => loadAnswer Subtype.val (sem q)) (path := path) fun file hf => by rw [h1] at hf; simp at hf
    rw [ends_cons (hw ▸ h2)]
    exact ih r hr
  | fails h1 h2 =>
    intro r hr
    cases hr
    have hw := derefOne_world (F := F) (l1 := fun _ => .err) (l2 := fun q => loadAnswer Subtype.val (sem q)) (path := path) fun file hf => by rw [h1] at hf; simp at hf
    exact ends_fail (hw ▸ h2)
  | @load refPath refs d file k h1 h2 h3 ih =>
    intro r hr
    cases hr with
    | @load _ _ r' _ ha hb =>
      have := hsem file r' ha
      subst this
      have hw := derefOne_world (F := F) (l1 := fun _ => loadAnswer Subtype.val (sem file)) (l2 := fun q => loadAnswer Subtype.val (sem q)) (path := path) (refPath := refPath) (d := d)
        fun f hf => by rw [h1] at hf; injection hf with hf; rw [hf]
      by_cases hx : ∃ d', derefOne (F.world fun _ => loadAnswer Subtype.val (sem file)) path refPath d = .ok d'
      · obtain ⟨d', hd'⟩ := hx
        rw [ends_cons (hw ▸ hd')]
        exact ih _ d' hd' r hb
      · have hx' : ∀ d', derefOne (F.world fun _ => loadAnswer Subtype.val (sem file)) path refPath d ≠ .ok d' := fun d' h => hx ⟨d', h⟩
        rw [h3 _ hx'] at hb
        cases hb
        exact ends_fail (hw ▸ hx')
  | noObject h1 =>
    intro r hr
    cases hr
    exact Or.inl ⟨_, rfl, 1, .err, by simp only [dereference, h1], rfl⟩
  | again h1 _ _ ih =>
    intro r hr
    exact Or.inl ⟨_, rfl, ends_again h1 (ih r hr)⟩
  | @made sched d v h1 h2 =>
    intro r hr
    cases hr
    exact Or.inl ⟨_, rfl, 1, _, deref_settled h1, Or.inl ⟨_, rfl, fun sched' => schemaOfDoc_sched sched' sched o fl d ▸ h2⟩⟩
  | @unfit sched d h1 h2 =>
    intro r hr
    cases hr
    exact Or.inl ⟨_, rfl, 1, _, deref_settled h1, Or.inr ⟨rfl, fun sched' => schemaOfDoc_sched sched' sched o fl d ▸ h2⟩⟩

end

/-! ### Without a cache, every load has a result -/

theorem alone_ret {V : Type} {b : Str → Prog V} {x r : Option V} (h : Alone b (.ret x) r) : r = x := by
  cases h
  rfl

theorem alone_low {V : Type} {b : Str → Prog V} {rank : Str → Nat} {n : Nat} (h : ∀ key, rank key < n → ∃ r, Alone b (b key) r) : ∀ p : Prog V, Low rank (some n) p → ∃ r, Alone b p r
  | .ret r, _ => ⟨r, .ret⟩
  | .load key k, hl => by
    cases hl with
    | load h1 h2 =>
      obtain ⟨r, hr⟩ := h key (h1 n rfl)
      obtain ⟨r', hr'⟩ := alone_low h (k r) (h2 r)
      exact ⟨r', .load hr hr'⟩

theorem alone_exists {V : Type} {b : Str → Prog V} {rank : Str → Nat} (h : Acyclic rank (Det b)) : ∀ (n : Nat) (key : Str), rank key < n → ∃ r, Alone b (b key) r
  | 0, _, hn => by omega
  | n + 1, key, hn => by
    refine alone_low (n := rank key) (fun key' h' => alone_exists h n key' (by omega)) (b key) (h key _ rfl)

/-! ### The builders of all keys -/

section
variable {F : Files} {rank : Str → Nat}

theorem doc_start (h : NotCircular F rank) {path : Str} {d : P} (hd : F.read path = .ok d) : ∃ rk, Doc F path rk (allRefs d) d := by
  obtain ⟨rk, hr⟩ := h.inside path d hd
  exact ⟨rk, h.tidy path d hd, h.flat path d hd, hr, fun _ hs => hs⟩

theorem file_exists (h : NotCircular F rank) (o : Str) (fl : Bool) (path : Str) : ∃ p : Prog Loaded, BuildsFile F Subtype.val o fl path p := by
  rcases hd : F.read path with d | _ | _
  · rcases hv : F.valid path with _ | _
    · exact ⟨_, .invalid hv⟩
    · obtain ⟨rk, hdoc⟩ := doc_start h hd
      obtain ⟨p, hp⟩ := builds_exists (o := o) (fl := fl) h.network d hdoc [] (by simp)
      exact ⟨p, .start hd hv hp⟩
  · exact ⟨_, .unreadable fun d h => by rw [hd] at h; simp at h⟩
  · exact ⟨_, .unreadable fun d h => by rw [hd] at h; simp at h⟩

theorem file_unique {o : Str} {fl : Bool} {path : Str} {p p' : Prog Loaded} (h : BuildsFile F Subtype.val o fl path p) (h' : BuildsFile F Subtype.val o fl path p') : p = p' := by
  cases h with
  | unreadable h1 =>
    cases h' with
    | unreadable _ => rfl
    | invalid _ => rfl
    | start h2 _ _ => exact absurd h2 (h1 _)
  | invalid h1 =>
    cases h' with
    | unreadable _ => rfl
    | invalid _ => rfl
    | start _ h2 _ => rw [h1] at h2; simp at h2
  | start h1 h2 h3 =>
    cases h' with
    | unreadable h4 => exact absurd h1 (h4 _)
    | invalid h4 => rw [h4] at h2; simp at h2
    | start h4 _ h5 =>
      rw [h1, Res.ok.injEq] at h4
      subst h4
      exact builds_unique h3 h5

theorem builder_exists (h : NotCircular F rank) (key : Str) : ∃ p : Prog Loaded, FileBuilder F Subtype.val key p := by
  by_cases hk : ∃ path o fl, '|' ∉ o ∧ key = schemaKey path o fl
  · obtain ⟨path, o, fl, ho, rfl⟩ := hk
    obtain ⟨p, hp⟩ := file_exists h o fl path
    exact ⟨p, .schema ho hp⟩
  · exact ⟨_, .other fun path o fl ho he => hk ⟨path, o, fl, ho, he⟩⟩

theorem builder_file {o : Str} {fl : Bool} {path : Str} {p : Prog Loaded} (ho : '|' ∉ o) (h : FileBuilder F Subtype.val (schemaKey path o fl) p) : BuildsFile F Subtype.val o fl path p := by
  generalize hk : schemaKey path o fl = key at h
  cases h with
  | schema ho' hp =>
    obtain ⟨rfl, rfl, rfl⟩ := C46_partial (Or.inl ⟨ho, ho'⟩) hk
    exact hp
  | other h1 => exact absurd hk.symm (h1 path o fl ho)

theorem builder_unique {key : Str} {p p' : Prog Loaded} (h : FileBuilder F Subtype.val key p) (h' : FileBuilder F Subtype.val key p') : p = p' := by
  cases h with
  | schema ho hp => exact file_unique hp (builder_file ho h')
  | other h1 =>
    cases h' with
    | schema ho _ => exact absurd rfl (h1 _ _ _ ho)
    | other _ => rfl

open Classical in
/-- The rank of the file of a key. -/
noncomputable def keyRank (rank : Str → Nat) (key : Str) : Nat :=
  if h : ∃ path o fl, '|' ∉ o ∧ key = schemaKey path o fl then rank h.choose else 0

theorem keyRank_schema {path o : Str} {fl : Bool} (ho : '|' ∉ o) : keyRank rank (schemaKey path o fl) = rank path := by
  have h : ∃ path' o' fl', '|' ∉ o' ∧ schemaKey path o fl = schemaKey path' o' fl' := ⟨path, o, fl, ho, rfl⟩
  unfold keyRank
  rw [dif_pos h]
  obtain ⟨o', fl', ho', he⟩ := h.choose_spec
  rw [(C46_partial (Or.inl ⟨ho, ho'⟩) he).1.symm]

theorem builder_acyclic (h : NotCircular F rank) : Acyclic (keyRank rank) (FileBuilder F (Subtype.val : Loaded → Instance)) := by
  intro key p hp
  cases hp with
  | other _ => exact .ret
  | @schema path o fl p ho hp =>
    rw [keyRank_schema ho]
    cases hp with
    | unreadable _ => exact .ret
    | invalid _ => exact .ret
    | @start d p h1 h2 h3 =>
      obtain ⟨rk, hdoc⟩ := doc_start h h1
      refine builds_low h.network (D := allRefs d) ?_ h3 hdoc (by simp)
      intro ref href file hl
      rw [keyRank_schema ho]
      exact h.files path d h1 ref href file hl

/-! ### The equation for schemas has one solution -/

theorem deref_congr (hnet : ∀ url p, F.http url = .ok p → Clean p) {path : Str} {l1 l2 : Str → Res P} {rk : Str → Nat} {D : List Str}
    (hD : ∀ ref ∈ D, ∀ file, LeadsTo F path ref file → l1 file = l2 file ∧ Tame (l1 file)) : ∀ (refs : List (List Str)) (d : P), Doc F path rk D d →
    (∀ p ∈ refs, ∃ dest, p = dest ++ [refKey]) →
    foldRes (derefOne (F.world l1) path) refs d = foldRes (derefOne (F.world l2) path) refs d ∧
      ∀ d', foldRes (derefOne (F.world l1) path) refs d = .ok d' → Doc F path rk D d'
  | [], d, hd, _ => ⟨rfl, fun d' h => by simp only [foldRes, Res.ok.injEq] at h; exact h ▸ hd⟩
  | r :: rs, d, hd, hr => by
    obtain ⟨dest, rfl⟩ := hr _ List.mem_cons_self
    have hw : derefOne (F.world l1) path (dest ++ [refKey]) d = derefOne (F.world l2) path (dest ++ [refKey]) d := derefOne_world fun file hf => by
      obtain ⟨ref, h1, h2⟩ := derefLoads_mem hf
      exact (hD ref (hd.sub ref h1) file h2).1
    have hstep : ∀ d1, derefOne (F.world l1) path (dest ++ [refKey]) d = .ok d1 → Doc F path rk D d1 := by
      intro d1 h1
      rcases hl : derefLoads F path (dest ++ [refKey]) d with _ | file
      · have hw' := derefOne_world (F := F) (l1 := l1) (l2 := fun _ => .err) (path := path) (refPath := dest ++ [refKey]) (d := d) fun file hf => by rw [hl] at hf; simp at hf
        rw [hw'] at h1
        exact (doc_step hnet (fun _ => tame_err) hd h1).1
      · have hw' := derefOne_world (F := F) (l1 := l1) (l2 := fun _ => l1 file) (path := path) (refPath := dest ++ [refKey]) (d := d)
          fun f hf => by rw [hl] at hf; injection hf with hf; rw [hf]
        rw [hw'] at h1
        obtain ⟨ref, h2, h3⟩ := derefLoads_mem hl
        exact (doc_step hnet (fun _ => (hD ref (hd.sub ref h2) file h3).2) hd h1).1
    simp only [foldRes]
    rw [← hw]
    rcases h1 : derefOne (F.world l1) path (dest ++ [refKey]) d with d1 | _ | _
    · exact deref_congr hnet hD rs d1 (hstep d1 h1) fun p hp => hr p (List.mem_cons_of_mem _ hp)
    · exact ⟨rfl, fun d' h => by simp at h⟩
    · exact ⟨rfl, fun d' h => by simp at h⟩

theorem dereference_congr (hnet : ∀ url p, F.http url = .ok p → Clean p) {path : Str} {l1 l2 : Str → Res P} {rk : Str → Nat} {D : List Str}
    (hD : ∀ ref ∈ D, ∀ file, LeadsTo F path ref file → l1 file = l2 file ∧ Tame (l1 file)) : ∀ (n : Nat) (d : P), Doc F path rk D d →
    dereference (F.world l1) path n d = dereference (F.world l2) path n d
  | 0, _, _ => rfl
  | n + 1, d, hd => by
    simp only [dereference]
    rcases hf : findRefs d with _ | refs
    · rfl
    · simp only
      have := deref_congr hnet hD refs d hd (findRefs_last hf)
      rw [← this.1]
      rcases hx : foldRes (derefOne (F.world l1) path) refs d with d' | _ | _
      · simp only
        rw [dereference_congr hnet hD n d' (this.2 d' hx)]
      · rfl
      · rfl

theorem dereference_more {w : World} {path : Str} : ∀ (n k : Nat) (d : P) (x : Res P), dereference w path n d = some x → dereference w path (n + k) d = some x
  | 0, _, _, _, h => by simp [dereference] at h
  | n + 1, k, d, x, h => by
    rw [Nat.add_right_comm]
    simp only [dereference] at h ⊢
    split at h
    · exact h
    · split at h
      · exact h
      · exact h
      · split at h
        · exact h
        · exact h
        · exact dereference_more n k _ x h

theorem dereference_det {w : World} {path : Str} {n n' : Nat} {d : P} {x x' : Res P} (h : dereference w path n d = some x) (h' : dereference w path n' d = some x') : x = x' := by
  have h1 := dereference_more n n' d x h
  have h2 := dereference_more n' n d x' h'
  rw [Nat.add_comm, h1] at h2
  exact Option.some.inj h2

/-- The schema of a file is determined by those of the files it refers to. -/
theorem schemaOf_unique (h : NotCircular F rank) {o : Str} {fl : Bool} {path : Str} {l1 l2 : Str → Option Instance} {r1 r2 : Option Instance}
    (hl : ∀ file, rank file < rank path → l1 file = l2 file ∧ Tame (encoded l1 file)) (h1 : SchemaOf F o fl l1 path r1) (h2 : SchemaOf F o fl l2 path r2) : r1 = r2 := by
  have same : ∀ {d n n' x x'}, F.read path = .ok d → dereference (F.world (encoded l1)) path n d = some x → dereference (F.world (encoded l2)) path n' d = some x' → x = x' := by
    intro d n n' x x' hd hx hx'
    obtain ⟨rk, hdoc⟩ := doc_start h hd
    rw [dereference_congr h.network (l2 := encoded l2) (D := allRefs d) ?_ n d hdoc] at hx
    · exact dereference_det hx hx'
    · intro ref href file hlead
      obtain ⟨h3, h4⟩ := hl file (h.files path d hd ref href file hlead)
      exact ⟨by unfold encoded; rw [h3], h4⟩
  cases h1 with
  | unreadable a =>
    cases h2 with
    | unreadable _ => rfl
    | invalid _ => rfl
    | broken _ _ _ _ => rfl
    | unfit _ _ _ _ => rfl
    | made b _ _ _ => exact absurd b (a _)
  | invalid a =>
    cases h2 with
    | unreadable _ => rfl
    | invalid _ => rfl
    | broken _ _ _ _ => rfl
    | unfit _ _ _ _ => rfl
    | made _ b _ _ => rw [a] at b; simp at b
  | broken a1 a2 a3 a4 =>
    cases h2 with
    | unreadable _ => rfl
    | invalid _ => rfl
    | broken _ _ _ _ => rfl
    | unfit _ _ _ _ => rfl
    | made b1 b2 b3 b4 =>
      rw [a1, Res.ok.injEq] at b1
      subst b1
      exact absurd (same a1 a3 b3) (a4 _)
  | unfit a1 a2 a3 a4 =>
    cases h2 with
    | unreadable _ => rfl
    | invalid _ => rfl
    | broken _ _ _ _ => rfl
    | unfit _ _ _ _ => rfl
    | made b1 b2 b3 b4 =>
      rw [a1, Res.ok.injEq] at b1
      subst b1
      have := same a1 a3 b3
      rw [Res.ok.injEq] at this
      subst this
      exact absurd (b4 Sched.id) (a4 _ _)
  | made a1 a2 a3 a4 =>
    cases h2 with
    | unreadable b => exact absurd a1 (b _)
    | invalid b => rw [b] at a2; simp at a2
    | broken b1 b2 b3 b4 =>
      rw [a1, Res.ok.injEq] at b1
      subst b1
      exact absurd (same a1 a3 b3).symm (b4 _)
    | unfit b1 b2 b3 b4 =>
      rw [a1, Res.ok.injEq] at b1
      subst b1
      have := same a1 a3 b3
      rw [Res.ok.injEq] at this
      subst this
      exact absurd (a4 Sched.id) (b4 _ _)
    | made b1 b2 b3 b4 =>
      rw [a1, Res.ok.injEq] at b1
      subst b1
      have := same a1 a3 b3
      rw [Res.ok.injEq] at this
      subst this
      have := a4 Sched.id
      rw [b4 Sched.id, Res.ok.injEq] at this
      rw [this]

theorem schemaOf_of_ends {o : Str} {fl : Bool} {path : Str} {sem : Str → Option Loaded} {d : P} {r : Option Instance} (hd : F.read path = .ok d) (hv : F.valid path = true)
    (h : Ends (F.world fun q => loadAnswer Subtype.val (sem q)) o fl path [] d r) : SchemaOf F o fl (fun q => (sem q).map Subtype.val) path r := by
  have he : (fun q => loadAnswer Subtype.val (sem q)) = encoded fun q => (sem q).map Subtype.val := by
    funext q
    unfold encoded loadAnswer
    rcases hs : sem q with _ | v <;> simp only [hs, Option.map_none, Option.map_some]
  rw [he] at h
  rcases h with ⟨d', h1, n, x, h2, h3⟩ | ⟨h1, rfl⟩
  · simp only [foldRes, Res.ok.injEq] at h1
    subst h1
    unfold Finish at h3
    rcases x with d' | _ | _
    · rcases h3 with ⟨i, rfl, h4⟩ | ⟨rfl, h4⟩
      · exact .made hd hv h2 h4
      · exact .unfit hd hv h2 h4
    · simp only at h3; subst h3; exact .broken hd hv h2 (by simp)
    · simp only at h3; subst h3; exact .broken hd hv h2 (by simp)
  · exact absurd rfl (h1 d)

end

end JT.Loading

namespace JT
open Spec Cache Loading

/-- **C88**, partial: if files do not refer to each other in circles, then there is exactly one way to give every file a schema (or an error) such that each is made from its document with the references
replaced by the schemas of the others; these schemas have no references left; and however many goroutines load schemas through the cache, under every schedule all loads end and return these schemas. -/
theorem C88_partial (F : Files) (rank : Str → Nat) (h : NotCircular F rank) : ∃ sem : Str → Bool → Str → Option Instance,
    (∀ o fl path, '|' ∉ o → SchemaOf F o fl (sem o fl) path (sem o fl path)) ∧
    (∀ o fl, '|' ∉ o → ∀ sem', (∀ path, SchemaOf F o fl sem' path (sem' path)) → sem' = sem o fl) ∧
    (∀ o fl path i, sem o fl path = some i → allRefs (encodeInst i) = []) ∧
    ∀ ps : List (Prog Loaded),
      (∀ s, Steps (FileBuilder F Subtype.val) (init ps) s → (∀ th ∈ s.threads, th.done) ∨ ∃ s', Cache.Step (FileBuilder F Subtype.val) s s') ∧
      Acc (fun s' s => Cache.Step (FileBuilder F Subtype.val) s s') (init ps) ∧
      ∀ s, Steps (FileBuilder F Subtype.val) (init ps) s → ∀ path o fl since r, '|' ∉ o → Returns s (schemaKey path o fl) since r → r.map Subtype.val = sem o fl path := by
  have hb : ∃ b : Str → Prog Loaded, FileBuilder F Subtype.val = Det b := by
    refine ⟨fun key => (builder_exists h key).choose, ?_⟩
    funext key p
    exact propext ⟨fun hp => builder_unique hp (builder_exists h key).choose_spec, fun hp => hp ▸ (builder_exists h key).choose_spec⟩
  obtain ⟨b, hb⟩ := hb
  have hac : Acyclic (keyRank rank) (Det b) := hb ▸ builder_acyclic h
  have hal := fun key => alone_exists hac (keyRank rank key + 1) key (Nat.lt_succ_self _)
  have hbf : ∀ {o fl path}, '|' ∉ o → BuildsFile F Subtype.val o fl path (b (schemaKey path o fl)) := by
    intro o fl path ho
    refine builder_file ho ?_
    rw [hb]
    rfl
  let sem' : Str → Bool → Str → Option Loaded := fun o fl path => (hal (schemaKey path o fl)).choose
  have hsem : ∀ o fl path r, Alone b (b (schemaKey path o fl)) r → r = sem' o fl path := fun o fl path r hr => alone_unique hr (hal (schemaKey path o fl)).choose_spec
  have hsol : ∀ o fl path, '|' ∉ o → SchemaOf F o fl (fun q => (sem' o fl q).map Subtype.val) path ((sem' o fl path).map Subtype.val) := by
    intro o fl path ho
    have ha : Alone b (b (schemaKey path o fl)) (sem' o fl path) := (hal (schemaKey path o fl)).choose_spec
    generalize hp : b (schemaKey path o fl) = p at ha
    have hf := hp ▸ hbf (fl := fl) (path := path) ho
    cases hf with
    | unreadable h1 => rw [alone_ret ha]; exact .unreadable h1
    | invalid h1 => rw [alone_ret ha]; exact .invalid h1
    | start h1 h2 h3 => exact schemaOf_of_ends h1 h2 (builds_sem (hsem o fl) h3 _ ha)
  refine ⟨fun o fl path => (sem' o fl path).map Subtype.val, hsol, ?_, ?_, ?_⟩
  · intro o fl ho sem1 h1
    have key : ∀ n path, rank path < n → sem1 path = (sem' o fl path).map Subtype.val := by
      intro n
      induction n with
      | zero => intro path hn; omega
      | succ n ih =>
        intro path hn
        refine schemaOf_unique h ?_ (h1 path) (hsol o fl path ho)
        intro file hf
        have he := ih file (by omega)
        refine ⟨he, ?_⟩
        intro p hp
        unfold encoded at hp
        rw [he] at hp
        rcases hs : sem' o fl file with _ | v
        · rw [hs] at hp; simp at hp
        · rw [hs] at hp
          simp only [Option.map_some, Res.ok.injEq] at hp
          exact hp ▸ v.2
    funext path
    exact key (rank path + 1) path (Nat.lt_succ_self _)
  · intro o fl path i hi
    rw [Option.map_eq_some_iff] at hi
    obtain ⟨v, _, rfl⟩ := hi
    exact v.2.1
  · intro ps
    rw [hb]
    obtain ⟨h1, h2⟩ := C45_partial (keyRank rank) (Det b) hac (fun key => ⟨_, rfl⟩) ps
    refine ⟨h1, h2, ?_⟩
    intro s hs path o fl since r _ hr
    rw [hsem o fl path r ((C67 b ps hs).1 _ _ _ hr)]

end JT

/-! ### Three files -/

namespace JT.C88ex
open Spec Cache Loading

def str (s : Str) : P := .sc (.str s)

/-- Refers to itself and to the two others. -/
def a : P := .obj [(g!"type", str g!"object"), (g!"properties", .obj [(g!"x", .obj [(g!"$ref", str g!"#/definitions/d")]),
  (g!"y", .obj [(g!"$ref", str g!"b.json#/properties/z"), (g!"description", str g!"y")])]), (g!"definitions", .obj [(g!"d", .obj [(g!"type", str g!"string")])]),
  (g!"allOf", .arr [.obj [(g!"$ref", str g!"sub/../c.json")]])]
def b : P := .obj [(g!"type", str g!"object"), (g!"properties", .obj [(g!"z", .obj [(g!"$ref", str g!"c.json")])])]
def c : P := .obj [(g!"type", str g!"object"), (g!"properties", .obj [(g!"w", .obj [(g!"type", str g!"number")])])]

def files : Files where
  read p := if p = g!"/s/a.json" then .ok a else if p = g!"/s/b.json" then .ok b else if p = g!"/s/c.json" then .ok c else .err
  valid _ := true
  http _ := .err
  absRef p f := .ok (joinPath (pathDir p) f)
  quote s := s

def rank (p : Str) : Nat := if p = g!"/s/a.json" then 2 else if p = g!"/s/b.json" then 1 else 0

/-- Schemas without a cache, for the example. -/
def direct : Nat → Str → Option Instance
  | 0, _ => none
  | n + 1, path => match files.read path with
    | .ok d => match dereference (files.world (encoded (direct n))) path 5 d with
      | some (.ok d') => match schemaOfDoc Sched.id [] true d' with
        | .ok i => some i
        | _ => none
      | _ => none
    | _ => none

/-- A checker for references inside a file. -/
def rankedIn (F : Files) (path : Str) (rk : Str → Nat) (d : P) : Bool :=
  (allRefs d).all fun ref => (refLoads F path ref).isSome || ((match d.at (localKeys ref) with
    | some (.obj m) => (allRefs (.obj m)).all fun ref' => decide (rk ref' < rk ref)
    | _ => true) &&
    (List.range (localKeys ref).length).all fun i => i == 0 || match d.at ((localKeys ref).take i) with
      | some q => !isRefB q
      | none => true)

theorem rankedIn_sound {F : Files} {path : Str} {rk : Str → Nat} {d : P} (h : rankedIn F path rk d = true) : Ranked (F.world fun _ => .err) path rk d := by
  unfold rankedIn at h
  rw [List.all_eq_true] at h
  have hk : ∀ ref keys, LocalRef (F.world fun _ => .err) path ref keys → localKeys ref = keys ∧ refLoads F path ref = none := by
    rintro ref keys ⟨f, hp, hf⟩
    constructor
    · unfold localKeys
      rcases (Ref.splitRef_keys hp).2 with ⟨a, b⟩ | ⟨a, b, c⟩
      · rw [if_pos b, a]
      · rw [if_neg b, c]
    · rcases hl : refLoads F path ref with _ | file
      · rfl
      · obtain ⟨f', keys', hp', h1, h2, h3, h4⟩ := refLoads_iff.1 hl
        obtain ⟨_, _, _, hu⟩ := C49_total ref
        obtain ⟨rfl, _⟩ := hu f keys hp
        obtain ⟨rfl, _⟩ := hu f' keys' hp'
        rcases hf with h5 | ⟨h5, h6⟩
        · exact absurd h5 h1
        · simp only [Files.world] at h6
          rw [h6] at h3
          injection h3 with h3
          exact absurd h3.symm h4
  constructor
  · intro ref href keys m hl hat ref' href'
    have h1 := h ref href
    obtain ⟨rfl, h3⟩ := hk ref keys hl
    simp only [h3, Option.isSome_none, Bool.false_or, Bool.and_eq_true] at h1
    have h2 := h1.1
    rw [hat] at h2
    simp only [List.all_eq_true, decide_eq_true_eq] at h2
    exact h2 ref' href'
  · intro ref href keys hl pre post q hpp hpre hpost hq hir
    have h1 := h ref href
    obtain ⟨rfl, h3⟩ := hk ref keys hl
    simp only [h3, Option.isSome_none, Bool.false_or, Bool.and_eq_true] at h1
    have h2 := h1.2
    rw [List.all_eq_true] at h2
    have hlen : pre.length < (localKeys ref).length := by
      rw [hpp, List.length_append]
      have := List.length_pos_of_ne_nil hpost
      omega
    have h4 := h2 pre.length (List.mem_range.2 hlen)
    have htake : (localKeys ref).take pre.length = pre := by rw [hpp, List.take_left]
    rw [htake, hq] at h4
    have hpos := List.length_pos_of_ne_nil hpre
    simp only [Bool.or_eq_true, beq_iff_eq, Bool.not_eq_true'] at h4
    rcases h4 with h4 | h4
    · omega
    · rw [isRefB_of hir] at h4; simp at h4

/-- A checker for references to other files. -/
def filesIn (F : Files) (path : Str) (rank : Str → Nat) (d : P) : Bool :=
  (allRefs d).all fun ref => match refLoads F path ref with
    | some file => decide (rank file < rank path)
    | none => true

theorem filesIn_sound {F : Files} {path : Str} {rank : Str → Nat} {d : P} (h : filesIn F path rank d = true) : ∀ ref ∈ allRefs d, ∀ file, LeadsTo F path ref file → rank file < rank path := by
  intro ref href file hl
  unfold filesIn at h
  rw [List.all_eq_true] at h
  have := h ref href
  rw [refLoads_iff.2 hl] at this
  simpa using this

theorem files_cases {path : Str} {d : P} (h : files.read path = .ok d) :
    (path = g!"/s/a.json" ∧ d = a) ∨ (path = g!"/s/b.json" ∧ d = b) ∨ (path = g!"/s/c.json" ∧ d = c) := by
  simp only [files] at h
  split at h
  · rename_i hp; exact Or.inl ⟨hp, by simpa using h.symm⟩
  · split at h
    · rename_i hp; exact Or.inr (Or.inl ⟨hp, by simpa using h.symm⟩)
    · split at h
      · rename_i hp; exact Or.inr (Or.inr ⟨hp, by simpa using h.symm⟩)
      · simp at h

theorem not_circular : NotCircular files rank where
  tidy := by
    intro path d h
    rcases files_cases h with ⟨_, rfl⟩ | ⟨_, rfl⟩ | ⟨_, rfl⟩ <;> simp [a, b, c, Tidy, TidyFields, TidyList, str]
  flat := by
    intro path d h
    rcases files_cases h with ⟨_, rfl⟩ | ⟨_, rfl⟩ | ⟨_, rfl⟩ <;> simp [a, b, c, FlatRefs, FlatRefsFields, FlatRefsList, str]
  inside := by
    intro path d h
    refine ⟨fun _ => 0, ?_⟩
    rcases files_cases h with ⟨rfl, rfl⟩ | ⟨rfl, rfl⟩ | ⟨rfl, rfl⟩ <;> exact rankedIn_sound (by decide +kernel)
  files := by
    intro path d h
    rcases files_cases h with ⟨rfl, rfl⟩ | ⟨rfl, rfl⟩ | ⟨rfl, rfl⟩ <;> exact filesIn_sound (by decide +kernel)
  network := by
    intro url p h
    simp [files] at h

example := C88_partial files rank not_circular

/-- The first file has the property of the third by `allOf`, and two resolved references. -/
example : (direct 3 g!"/s/a.json").map (fun i => i.properties) = some (some [(g!"w", .obj [(g!"type", str g!"number")]),
    (g!"x", .obj [(g!"type", str g!"string"), (g!"fromRef", str g!"#/definitions/d")]),
    (g!"y", .obj [(g!"additionalProperties", .sc (.bool true)), (g!"properties", .obj [(g!"w", .obj [(g!"type", str g!"number")])]), (g!"type", .arr [str g!"object"]),
      (g!"fromRef", str g!"b.json#/properties/z"), (g!"description", str g!"y")])]) := by rfl

/-! Two files that refer to each other. -/

def left : P := .obj [(g!"properties", .obj [(g!"x", .obj [(g!"$ref", str g!"b.json")])])]
def right : P := .obj [(g!"properties", .obj [(g!"x", .obj [(g!"$ref", str g!"a.json")])])]

def circle : Files := { files with read := fun p => if p = g!"/s/a.json" then .ok left else if p = g!"/s/b.json" then .ok right else .err }

theorem builds_first {F : Files} {o : Str} {fl : Bool} {path file : Str} {rk : Str → Nat} {d : P} {r : List Str} {rs : List (List Str)} (hnet : ∀ url p, F.http url = .ok p → Clean p)
    (hd : Doc F path rk (allRefs d) d) (hf : findRefs d = some (r :: rs)) (hl : derefLoads F path r d = some file) :
    ∃ k, Builds F (Subtype.val : Loaded → Instance) o fl path [] d (.load (schemaKey file o fl) k) := by
  obtain ⟨p, hp⟩ := builds_exists (o := o) (fl := fl) hnet d hd (r :: rs) (Ref.findRefs_last hf)
  generalize hrs : r :: rs = refs at hp
  cases hp with
  | inside h1 _ _ => injection hrs with h2 h3; subst h2; rw [hl] at h1; simp at h1
  | fails h1 _ => injection hrs with h2 h3; subst h2; rw [hl] at h1; simp at h1
  | @load refPath refs' _ file' k h1 h2 h3 =>
    injection hrs with h4 h5
    subst h4 h5
    rw [hl] at h1
    injection h1 with h1
    subst h1
    exact ⟨k, .again hf (by simp) (.load hl h2 h3)⟩
  | _ => simp at hrs

theorem left_doc : Doc circle g!"/s/a.json" (fun _ => 0) (allRefs left) left :=
  ⟨by simp [left, Tidy, TidyFields, str], by simp [left, FlatRefs, FlatRefsFields, str], rankedIn_sound (by decide +kernel), fun _ h => h⟩
theorem right_doc : Doc circle g!"/s/b.json" (fun _ => 0) (allRefs right) right :=
  ⟨by simp [right, Tidy, TidyFields, str], by simp [right, FlatRefs, FlatRefsFields, str], rankedIn_sound (by decide +kernel), fun _ h => h⟩

def keyA : Str := schemaKey g!"/s/a.json" [] true
def keyB : Str := schemaKey g!"/s/b.json" [] true

theorem build_left : ∃ k, FileBuilder circle (Subtype.val : Loaded → Instance) keyA (.load keyB k) := by
  obtain ⟨k, hk⟩ := builds_first (F := circle) (o := []) (fl := true) (file := g!"/s/b.json") (fun url p h => by simp [circle, files] at h) left_doc
    (r := [g!"properties", g!"x", g!"$ref"]) (rs := []) (by rfl) (by decide +kernel)
  exact ⟨k, .schema (by simp) (.start (d := left) (by rfl) rfl hk)⟩

theorem build_right : ∃ k, FileBuilder circle (Subtype.val : Loaded → Instance) keyB (.load keyA k) := by
  obtain ⟨k, hk⟩ := builds_first (F := circle) (o := []) (fl := true) (file := g!"/s/a.json") (fun url p h => by simp [circle, files] at h) right_doc
    (r := [g!"properties", g!"x", g!"$ref"]) (rs := []) (by rfl) (by decide +kernel)
  exact ⟨k, .schema (by simp) (.start (d := right) (by rfl) rfl hk)⟩

theorem one {B : Str → Prog Loaded → Prop} {s s' : Shared Loaded} {th th' : Thread Loaded} (h : TStep B s th s' th') : Cache.Step B ⟨s, [th]⟩ ⟨{ s' with now := s.now + 1 }, [th']⟩ :=
  Cache.Step.mk (a := []) (b := []) h

/-- One goroutine that loads the first of them comes to wait for itself. -/
theorem stuck : ∃ s F, Steps (FileBuilder circle (Subtype.val : Loaded → Instance)) (init [.load keyA .ret]) s ∧ s.threads = [⟨.wait ⟨keyA, 0, 7⟩, F⟩] ∧
    s.shared.calls[0]? = some ⟨keyA, none⟩ := by
  obtain ⟨k1, h1⟩ := build_left
  obtain ⟨k2, h2⟩ := build_right
  have hne : keyB ≠ keyA := by decide +kernel
  have e1 : upd (fun _ => none) keyA (some 0) keyB = (none : Option Nat) := if_neg hne
  have e2 : upd (upd (fun _ => none) keyA (some 0)) keyB (some 1) keyA = (some 0 : Option Nat) := (if_neg (Ne.symm hne)).trans (if_pos rfl)
  have t1 := Steps.tail (B := FileBuilder circle (Subtype.val : Loaded → Instance)) (s := init [.load keyA .ret]) .refl (one .load)
  have t2 := t1.tail (one (.lead rfl))
  have t3 := t2.tail (one (.miss rfl h1))
  have t4 := t3.tail (one .load)
  have t5 := t4.tail (one (.lead e1))
  have t6 := t5.tail (one (.miss rfl h2))
  have t7 := t6.tail (one .load)
  have t8 := t7.tail (one (.join e2))
  exact ⟨_, _, t8, rfl, rfl⟩

end JT.C88ex

namespace JT
open Spec Cache Loading

/-- C88 as one would like it: schemas load whatever the references between files are. -/
def C88_statement : Prop := ∀ (F : Files) (ps : List (Prog Loaded)) (s : State Loaded), Steps (FileBuilder F Subtype.val) (init ps) s →
  (∀ th ∈ s.threads, th.done) ∨ ∃ s', Cache.Step (FileBuilder F Subtype.val) s s'

/-- If two files refer to each other, loading one of them never ends. -/
theorem C88_refuted : ¬ C88_statement := by
  intro h
  obtain ⟨s, F, h0, h1, h2⟩ := C88ex.stuck
  rcases h C88ex.circle _ s h0 with h3 | ⟨s', h3⟩
  · obtain ⟨r, h4⟩ := h3 _ (by rw [h1]; exact List.mem_singleton.2 rfl)
    simp at h4
  · clear h0
    cases h3 with
    | @mk s s' a b th th' h =>
      have : th = ⟨.wait ⟨C88ex.keyA, 0, 7⟩, F⟩ := by
        have hm : th ∈ a ++ th :: b := by simp
        simp only at h1
        rw [h1] at hm
        simpa using hm
      subst this
      cases h with
      | wake h5 =>
        simp only at h5 h2
        rw [h2] at h5
        simp at h5

end JT
