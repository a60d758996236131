import Verif.Proofs.Walk
import Verif.Proofs.MapMore
import Verif.Proofs.Semantics
import Verif.Spec.Toy
import Verif.Spec.Check
/- C31, C32, C33: walking a schema. -/
namespace JT
open Spec

/-! ### The two views of an instance -/

theorem key_depth {p q : P} {k : Str} (h : p.key k = some q) : q.depth < p.depth := by
  cases p with
  | sc s => simp [P.key] at h
  | arr l => simp [P.key] at h
  | obj m =>
    have := depthFields_mem (GMap.get_some_mem h)
    simp only [P.depth] at *
    omega

theorem rawNode_shrinks : Shrinks rawNode := by
  constructor
  · intro raw m h kv hkv
    unfold rawNode at h
    split at h
    · split at h
      · split at h
        · rename_i m' hm
          simp only [Option.some.injEq, Node.object.injEq] at h
          subst h
          have := key_depth hm
          have := depthFields_mem hkv
          simp only [P.depth] at *
          omega
        · contradiction
      · split at h
        · simp only [Option.map_eq_some_iff] at h
          obtain ⟨_, _, h⟩ := h
          contradiction
        · simp at h
    · contradiction
  · intro raw q h
    unfold rawNode at h
    split at h
    · split at h
      · split at h <;> simp at h
      · split at h
        · simp only [Option.map_eq_some_iff] at h
          obtain ⟨q', hq, h⟩ := h
          injection h with h
          subst h
          exact key_depth hq
        · simp at h
    · contradiction

theorem asRawMap_some {o : Option P} {m : GMap P} (h : asRawMap o = .ok (some m)) : ∃ l, o = some (.obj l) ∧ m = GMap.ofList l := by
  unfold asRawMap at h
  split at h <;> simp at h
  exact ⟨_, rfl, h.symm⟩

/-- The fields of a decoded instance that matter for walking. -/
theorem decodeInstance_fields {ap : Bool} {p : P} {i : Instance} (h : decodeInstance ap p = .ok i) :
    asRawMap (p.key g!"properties") = .ok i.properties ∧ i.items = p.key g!"items" ∧ asStrings (typeField (p.key g!"type")) = .ok i.type := by
  unfold decodeInstance at h
  simp only [decodeInst, Res.bind_eq_ok, Res.pure_eq_ok] at h
  obtain ⟨q, hq, h⟩ := h
  have hk : ∀ k, q.key k = p.key k := asStruct_key hq
  obtain ⟨_, _, _, _, _, _, _, _, _, _, _, _, _, _, _, _, _, _, _, _, _, _, _, _, props, hp, _, _, _, _, _, _, _, _, ty, ht, rfl⟩ := h
  rw [hk] at hp ht
  exact ⟨hp, hk _, ht⟩

theorem instNode_shrinks : Shrinks instNode := by
  constructor
  · intro raw m h kv hkv
    unfold instNode at h
    split at h
    · rename_i i hi
      obtain ⟨h1, h2, h3⟩ := decodeInstance_fields hi
      split at h
      · simp only [Option.map_eq_some_iff] at h
        obtain ⟨m', hm, h⟩ := h
        injection h with h
        subst h
        rw [hm] at h1
        obtain ⟨l, hl, rfl⟩ := asRawMap_some h1
        have := key_depth hl
        have := depthFields_mem (GMap.mem_ofList hkv)
        simp only [P.depth] at *
        omega
      · split at h
        · simp only [Option.map_eq_some_iff] at h
          obtain ⟨_, _, h⟩ := h
          contradiction
        · simp at h
    · contradiction
  · intro raw q h
    unfold instNode at h
    split at h
    · rename_i i hi
      obtain ⟨h1, h2, h3⟩ := decodeInstance_fields hi
      split at h
      · simp only [Option.map_eq_some_iff] at h
        obtain ⟨_, _, h⟩ := h
        contradiction
      · split at h
        · simp only [Option.map_eq_some_iff] at h
          obtain ⟨q', hq, h⟩ := h
          injection h with h
          subst h
          rw [h2] at hq
          exact key_depth hq
        · simp at h
    · contradiction

/-! ### Both walks are the generic one -/

/-- The function of `Walk` on raw instances. -/
def onInst {σ : Type} (fn : Str → Instance → σ → Res σ) (path : Str) (p : P) (s : σ) : Res σ :=
  match decodeInstance false p with
  | .ok i => fn path i s
  | .err => .err
  | .panic => .panic

theorem walkInst_gwalk {σ : Type} (sched : Sched) (fn : Str → Instance → σ → Res σ) : ∀ (n : Nat) (raw : P) (path : Str) (s : Nat × σ),
    walkInst sched fn n raw path s = gwalk instNode (fun n m => sched.perm n _ m) (onInst fn) n raw path s := by
  intro n
  induction n with
  | zero => intro raw path s; rfl
  | succ n ih =>
    intro raw path s
    simp only [walkInst, gwalk, onInst]
    cases hd : decodeInstance false raw with
    | err => rfl
    | panic => rfl
    | ok i =>
      simp only
      cases fn path i s.2 with
      | err => rfl
      | panic => rfl
      | ok s' =>
        simp only [instNode, hd]
        by_cases h1 : g!"object" ∈ i.type
        · rw [if_pos h1, if_pos h1]
          cases i.properties with
          | none => rfl
          | some m =>
            simp only [Option.map_some]
            exact foldRes_congr _ _ fun kv _ s => ih kv.2 _ s
        · rw [if_neg h1, if_neg h1]
          by_cases h2 : g!"array" ∈ i.type
          · rw [if_pos h2, if_pos h2]
            cases i.items with
            | none => rfl
            | some q => simp only [Option.map_some]; exact ih q _ _
          · rw [if_neg h2, if_neg h2]

theorem walkSchema_gwalk {σ : Type} (sched : Sched) (tick : Nat) (fn : Str → Instance → σ → Res σ) (sc : Schema) (s : σ) :
    walkSchema sched tick fn sc s = gwalkSchema instNode (fun n m => sched.perm n _ m) tick (onInst fn) sc s := by
  unfold walkSchema gwalkSchema
  rw [foldRes_congr _ _ fun kv _ s => walkInst_gwalk sched fn (kv.2.depth + 1) kv.2 _ s]
  generalize foldRes _ _ _ = r
  cases r with
  | err => rfl
  | panic => rfl
  | ok st =>
    simp only
    cases sc.items with
    | none => rfl
    | some q => simp only; rw [walkInst_gwalk]

/-- The order used by `WalkRaw`: the schedule's for the first iteration, document order below. -/
def rawOrder (sched : Sched) (tick : Nat) (n : Nat) (m : List (Str × P)) : List (Str × P) := if n = 0 then sched.perm tick _ m else m

theorem foldRes_raw {σ β : Type} {f : β → σ → Res σ} {g : β → Nat × σ → Res (Nat × σ)} :
    ∀ (l : List β), (∀ x ∈ l, ∀ tk s, tk ≠ 0 → (∃ tk' s', tk' ≠ 0 ∧ g x (tk, s) = .ok (tk', s') ∧ f x s = .ok s') ∨
      (g x (tk, s) = .err ∧ f x s = .err) ∨ (g x (tk, s) = .panic ∧ f x s = .panic)) → ∀ tk s, tk ≠ 0 →
      (∃ tk' s', tk' ≠ 0 ∧ foldRes g l (tk, s) = .ok (tk', s') ∧ foldRes f l s = .ok s') ∨
      (foldRes g l (tk, s) = .err ∧ foldRes f l s = .err) ∨ (foldRes g l (tk, s) = .panic ∧ foldRes f l s = .panic)
  | [], _, tk, s, htk => Or.inl ⟨tk, s, htk, rfl, rfl⟩
  | x :: l, h, tk, s, htk => by
    simp only [foldRes]
    rcases h x (by simp) tk s htk with ⟨tk', s', h1, h2, h3⟩ | ⟨h2, h3⟩ | ⟨h2, h3⟩
    · rw [h2, h3]
      exact foldRes_raw l (fun y hy => h y (by simp [hy])) tk' s' h1
    · rw [h2, h3]; exact Or.inr (Or.inl ⟨rfl, rfl⟩)
    · rw [h2, h3]; exact Or.inr (Or.inr ⟨rfl, rfl⟩)

theorem walkRaw_gwalk {σ : Type} (sched : Sched) (tick : Nat) (fn : Str → P → σ → Res σ) : ∀ (n : Nat) (raw : P) (path : Str) (tk : Nat) (s : σ),
    tk ≠ 0 → (∃ tk' s', tk' ≠ 0 ∧ gwalk rawNode (rawOrder sched tick) fn n raw path (tk, s) = .ok (tk', s') ∧ walkRaw fn n raw path s = .ok s') ∨
      (gwalk rawNode (rawOrder sched tick) fn n raw path (tk, s) = .err ∧ walkRaw fn n raw path s = .err) ∨
      (gwalk rawNode (rawOrder sched tick) fn n raw path (tk, s) = .panic ∧ walkRaw fn n raw path s = .panic) := by
  intro n
  induction n with
  | zero => intro raw path tk s _; exact Or.inr (Or.inl ⟨rfl, rfl⟩)
  | succ n ih =>
    intro raw path tk s htk
    simp only [gwalk, walkRaw]
    cases fn path raw s with
    | err => exact Or.inr (Or.inl ⟨rfl, rfl⟩)
    | panic => exact Or.inr (Or.inr ⟨rfl, rfl⟩)
    | ok s' =>
      simp only
      cases hf : fieldType raw with
      | err => simp only [rawNode, hf]; simp
      | panic =>
        exfalso
        unfold fieldType at hf
        split at hf
        · contradiction
        · split at hf <;> contradiction
        · contradiction
      | ok tn =>
        obtain ⟨ty, nu⟩ := tn
        simp only [rawNode, hf]
        by_cases h1 : ty = g!"object"
        · rw [if_pos h1, if_pos h1]
          cases hp : raw.key g!"properties" with
          | none => exact Or.inr (Or.inl ⟨rfl, rfl⟩)
          | some q => cases q with
            | sc _ => exact Or.inr (Or.inl ⟨rfl, rfl⟩)
            | arr _ => exact Or.inr (Or.inl ⟨rfl, rfl⟩)
            | obj m =>
              simp only [rawOrder, if_neg htk]
              exact foldRes_raw m (fun kv _ tk s htk => ih kv.2 _ tk s htk) (tk + 1) s' (by omega)
        · rw [if_neg h1, if_neg h1]
          by_cases h2 : ty = g!"array"
          · rw [if_pos h2, if_pos h2]
            cases raw.key g!"items" with
            | none => exact Or.inr (Or.inl ⟨rfl, rfl⟩)
            | some q => exact ih q _ tk s' htk
          · rw [if_neg h2, if_neg h2]
            exact Or.inl ⟨tk, s', htk, rfl, rfl⟩

theorem walkRawSchema_gwalk {σ : Type} (sched : Sched) (tick : Nat) (fn : Str → P → σ → Res σ) (sc : Schema) (s : σ) :
    walkRawSchema sched tick fn sc s = (gwalkSchema rawNode (rawOrder sched tick) 0 fn sc s).map Prod.snd := by
  unfold walkRawSchema gwalkSchema
  have ho : rawOrder sched tick 0 (sc.properties.getD []) = sched.perm tick _ (sc.properties.getD []) := by simp [rawOrder]
  rw [ho]
  rcases foldRes_raw (sched.perm tick _ (sc.properties.getD []))
    (fun kv _ tk s htk => walkRaw_gwalk sched tick fn (kv.2.depth + 1) kv.2 (prependPath g!"$" kv.1) tk s htk) 1 s (by omega) with
    ⟨tk', s', h1, h2, h3⟩ | ⟨h2, h3⟩ | ⟨h2, h3⟩
  · rw [h2, h3]
    simp only
    cases sc.items with
    | none => rfl
    | some q =>
      simp only
      rcases walkRaw_gwalk sched tick fn (q.depth + 1) q (starPath g!"$") tk' s' h1 with ⟨_, _, _, h4, h5⟩ | ⟨h4, h5⟩ | ⟨h4, h5⟩ <;>
        rw [h4, h5] <;> rfl
  · rw [h2, h3]; rfl
  · rw [h2, h3]; rfl

/-! ### Sequences of calls -/

theorem foldRes_calls {σ β : Type} {f : β → σ → Res σ} : ∀ {l : List β} {s s' : σ}, foldRes f l s = .ok s' ↔ Calls f l s s'
  | [], s, s' => by
    constructor
    · intro h; simp [foldRes] at h; subst h; exact .nil
    · intro h; cases h; rfl
  | x :: l, s, s' => by
    constructor
    · intro h
      simp only [foldRes] at h
      split at h
      · rename_i s1 h1; exact .cons h1 (foldRes_calls.1 h)
      · contradiction
      · contradiction
    · intro h
      cases h with
      | cons h1 h2 => simp only [foldRes, h1]; exact foldRes_calls.2 h2

theorem foldRes_stops {σ β : Type} {f f' : β → σ → Res σ} {x : β} {s1 : σ} : ∀ {a : List β} (b : List β) {s : σ}, Calls f a s s1 → f x s1 = .err →
    (∀ y ∈ a ++ [x], ∀ t, f' y t = f y t) → foldRes f' (a ++ x :: b) s = .err
  | [], b, s, h, hx, hf => by
    cases h
    simp [foldRes, hf x (by simp), hx]
  | y :: a, b, s, h, hx, hf => by
    cases h with
    | cons h1 h2 =>
      simp only [List.cons_append, foldRes]
      rw [hf y (by simp), h1]
      exact foldRes_stops b h2 hx fun z hz => hf z (by simp only [List.cons_append, List.mem_cons]; exact Or.inr hz)

theorem Spec.Calls.congr {σ β : Type} {f g : β → σ → Res σ} {l : List β} {s s' : σ} (h : ∀ x ∈ l, f x = g x) : Calls f l s s' ↔ Calls g l s s' := by
  rw [← foldRes_calls, ← foldRes_calls, foldRes_congr l s fun x hx s => by rw [h x hx]]

/-- **C112 (WalkRaw)**: the function is called exactly once for every instance of the schema, each object or array before what it contains, in whatever order maps are
visited, with its path, in which empty names are left out; `WalkRaw` succeeds iff all calls succeed and every instance can be read. -/
theorem C112_raw (sched : Sched) (tick : Nat) {sc : Schema} (hn : SchemaDistinct rawNode sc) :
    ∃ vs done, Visits rawNode sc vs done ∧ ∀ (σ : Type) (fn : Str → P → σ → Res σ) (s s' : σ),
      walkRawSchema sched tick fn sc s = .ok s' ↔ done = true ∧ Calls (fun x => fn (shownPath x.1) x.2) vs s s' := by
  obtain ⟨vs, done, tk, h1, h2⟩ := gwalkSchema_shown rawNode_shrinks (order := rawOrder sched tick)
    (fun n m => by unfold rawOrder; split; exacts [sched.isPerm _ _ _, List.Perm.refl _]) sc 0 hn
  refine ⟨vs, done, h1, fun σ fn s s' => ?_⟩
  rw [walkRawSchema_gwalk, h2 σ fn s, ← foldRes_calls]
  have he : (fun (x : List Seg × P) => fn (shownPath x.1) x.2) = fnShown fn g!"$" := by
    funext x s; simp [fnShown, shownPath_eq]
  rw [he]
  cases foldRes (fnShown fn g!"$") vs s with
  | ok t => cases done <;> simp [outcome, Res.map]
  | err => simp [outcome, Res.map]
  | panic => simp [outcome, Res.map]

/-- Properties of decoded instances have distinct names. -/
theorem instNode_distinct {q : P} {m : List (Str × P)} (h : instNode q = some (.object m)) : (m.map Prod.fst).Nodup := by
  unfold instNode at h
  split at h
  · rename_i i hi
    obtain ⟨h1, h2, h3⟩ := decodeInstance_fields hi
    split at h
    · simp only [Option.map_eq_some_iff] at h
      obtain ⟨m', hm, h⟩ := h
      injection h with h
      subst h
      rw [hm] at h1
      obtain ⟨l, hl, rfl⟩ := asRawMap_some h1
      exact (GMap.sorted_ofList _).nodup
    · split at h
      · simp only [Option.map_eq_some_iff] at h
        obtain ⟨_, _, h⟩ := h
        contradiction
      · simp at h
  · contradiction

/-- **C112 (Walk)**: the same for `Walk`, whose function gets the decoded instance; the properties of a schema are a map, whose keys are distinct. -/
theorem C112_inst (sched : Sched) (tick : Nat) {sc : Schema} (hn : ∀ m, sc.properties = some m → (m.map Prod.fst).Nodup) :
    ∃ vs done tick', Visits instNode sc vs done ∧ ∀ (σ : Type) (fn : Str → Instance → σ → Res σ) (s s' : σ),
      walkSchema sched tick fn sc s = .ok (tick', s') ↔ done = true ∧ Calls (fun x => onInst fn (shownPath x.1) x.2) vs s s' := by
  obtain ⟨vs, done, tk, h1, h2⟩ := gwalkSchema_shown instNode_shrinks (order := fun n m => sched.perm n _ m)
    (fun n m => sched.isPerm _ _ _) sc tick ⟨hn, fun l q m _ hv => instNode_distinct hv⟩
  refine ⟨vs, done, tk, h1, fun σ fn s s' => ?_⟩
  rw [walkSchema_gwalk, h2 σ (onInst fn) s, ← foldRes_calls]
  have he : (fun (x : List Seg × P) => onInst fn (shownPath x.1) x.2) = fnShown (onInst fn) g!"$" := by
    funext x s; simp [fnShown, shownPath_eq]
  rw [he]
  cases foldRes (fnShown (onInst fn) g!"$") vs s with
  | ok t => cases done <;> simp [outcome]
  | err => simp [outcome]
  | panic => simp [outcome]

/-- **C31 (WalkRaw)**: the function is called exactly once for every instance of the schema, with its path, each object or array before what
it contains, in whatever order maps are visited; `WalkRaw` succeeds iff all calls succeed and every instance can be read. -/
theorem C31_raw_partial (sched : Sched) (tick : Nat) {sc : Schema} (hn : SchemaNames rawNode sc) :
    ∃ vs done, Visits rawNode sc vs done ∧ ∀ (σ : Type) (fn : Str → P → σ → Res σ) (s s' : σ),
      walkRawSchema sched tick fn sc s = .ok s' ↔ done = true ∧ Calls (fun x => fn (pathOf x.1) x.2) vs s s' := by
  obtain ⟨vs, done, h1, h2⟩ := C112_raw sched tick hn.distinct
  refine ⟨vs, done, h1, fun σ fn s s' => ?_⟩
  rw [h2, Calls.congr (g := fun x => fn (pathOf x.1) x.2) fun x hx => by rw [shownPath_names ((h1.sound x hx).no_empty hn)]]

/-- **C31 (Walk)**: the same for `Walk`, whose function gets the decoded instance. -/
theorem C31_inst_partial (sched : Sched) (tick : Nat) {sc : Schema} (hn : SchemaNames instNode sc) :
    ∃ vs done tick', Visits instNode sc vs done ∧ ∀ (σ : Type) (fn : Str → Instance → σ → Res σ) (s s' : σ),
      walkSchema sched tick fn sc s = .ok (tick', s') ↔ done = true ∧ Calls (fun x => onInst fn (pathOf x.1) x.2) vs s s' := by
  obtain ⟨vs, done, tk, h1, h2⟩ := C112_inst sched tick fun m h => (hn.1 m h).1
  refine ⟨vs, done, tk, h1, fun σ fn s s' => ?_⟩
  rw [h2, Calls.congr (g := fun x => onInst fn (pathOf x.1) x.2) fun x hx => by rw [shownPath_names ((h1.sound x hx).no_empty hn)]]

/-- The calls of a walk below the members of an object, for any names. -/
theorem gwalk_calls_kids {view : P → Option Node} {order : Nat → List (Str × P) → List (Str × P)} {fuel : P → Nat}
    (ih : ∀ (raw : P) (path : Str) (tk : Nat), ∃ (cs : List (Str × P)) (done : Bool) (tk' : Nat), (∀ x ∈ cs, ∃ l, At view raw l x.2) ∧
      ∀ (σ : Type) (fn : Str → P → σ → Res σ) (s : σ),
        gwalk view order fn (fuel raw) raw path (tk, s) = outcome done tk' (foldRes (fun x => fn x.1 x.2) cs s)) (path : Str) :
    ∀ (ms : List (Str × P)) (tk : Nat), ∃ (cs : List (Str × P)) (done : Bool) (tk' : Nat), (∀ x ∈ cs, ∃ kv ∈ ms, ∃ l, At view kv.2 l x.2) ∧
      ∀ (σ : Type) (fn : Str → P → σ → Res σ) (s : σ),
        foldRes (fun kv s => gwalk view order fn (fuel kv.2) kv.2 (prependPath path kv.1) s) ms (tk, s) =
          outcome done tk' (foldRes (fun x => fn x.1 x.2) cs s) := by
  intro ms
  induction ms with
  | nil => intro tk; exact ⟨[], true, tk, by simp, fun σ fn s => by simp [foldRes, outcome]⟩
  | cons kv ms ihm =>
    intro tk
    obtain ⟨c1, d1, t1, h1, h2⟩ := ih kv.2 (prependPath path kv.1) tk
    have hs : ∀ x ∈ c1, ∃ kv' ∈ kv :: ms, ∃ l, At view kv'.2 l x.2 := fun x hx => ⟨kv, by simp, h1 x hx⟩
    cases d1 with
    | false =>
      refine ⟨c1, false, t1, hs, fun σ fn s => ?_⟩
      simp only [foldRes]
      rw [h2 σ fn s]
      cases foldRes (fun x => fn x.1 x.2) c1 s <;> rfl
    | true =>
      obtain ⟨c2, d2, t2, h3, h4⟩ := ihm t1
      refine ⟨c1 ++ c2, d2, t2, ?_, fun σ fn s => ?_⟩
      · intro x hx
        rcases List.mem_append.1 hx with hx | hx
        · exact hs x hx
        · obtain ⟨kv', hk, l, hl⟩ := h3 x hx
          exact ⟨kv', by simp [hk], l, hl⟩
      · simp only [foldRes]
        rw [h2 σ fn s, foldRes_append]
        cases foldRes (fun x => fn x.1 x.2) c1 s with
        | ok s1 => simp only [outcome, if_true]; exact h4 σ fn s1
        | err => rfl
        | panic => rfl

/-- The calls of a walk below an instance, for any names. -/
theorem gwalk_calls {view : P → Option Node} {order : Nat → List (Str × P) → List (Str × P)} (ho : ∀ n m, (order n m).Perm m) :
    ∀ (n : Nat) (raw : P) (path : Str) (tk : Nat), ∃ (cs : List (Str × P)) (done : Bool) (tk' : Nat), (∀ x ∈ cs, ∃ l, At view raw l x.2) ∧
      ∀ (σ : Type) (fn : Str → P → σ → Res σ) (s : σ), gwalk view order fn n raw path (tk, s) = outcome done tk' (foldRes (fun x => fn x.1 x.2) cs s) := by
  intro n
  induction n with
  | zero => intro raw path tk; exact ⟨[], false, tk, by simp, fun σ fn s => by simp [gwalk, foldRes, outcome]⟩
  | succ n ih =>
    intro raw path tk
    cases hv : view raw with
    | none =>
      refine ⟨[(path, raw)], false, tk, by simp only [List.mem_singleton]; rintro _ rfl; exact ⟨[], .here⟩, fun σ fn s => ?_⟩
      simp only [gwalk, foldRes, hv]
      cases fn path raw s <;> rfl
    | some nd => cases nd with
      | leaf =>
        refine ⟨[(path, raw)], true, tk, by simp only [List.mem_singleton]; rintro _ rfl; exact ⟨[], .here⟩, fun σ fn s => ?_⟩
        simp only [gwalk, foldRes, hv]
        cases fn path raw s <;> rfl
      | array q =>
        obtain ⟨cs, d, t, h1, h2⟩ := ih q (starPath path) tk
        refine ⟨(path, raw) :: cs, d, t, ?_, fun σ fn s => ?_⟩
        · intro x hx
          rcases List.mem_cons.1 hx with rfl | hx
          · exact ⟨[], .here⟩
          · obtain ⟨l, hl⟩ := h1 x hx
            exact ⟨_, .item hv hl⟩
        · simp only [gwalk, foldRes, hv]
          cases fn path raw s with
          | ok s' => exact h2 σ fn s'
          | err => rfl
          | panic => rfl
      | object m =>
        obtain ⟨cs, d, t, h1, h2⟩ := gwalk_calls_kids (view := view) (order := order) (fuel := fun _ => n) ih path (order tk m) (tk + 1)
        refine ⟨(path, raw) :: cs, d, t, ?_, fun σ fn s => ?_⟩
        · intro x hx
          rcases List.mem_cons.1 hx with rfl | hx
          · exact ⟨[], .here⟩
          · obtain ⟨kv, hkv, l, hl⟩ := h1 x hx
            exact ⟨_, .prop hv ((ho tk m).mem_iff.1 hkv) hl⟩
        · simp only [gwalk, foldRes, hv]
          cases fn path raw s with
          | ok s' => exact h2 σ fn s'
          | err => rfl
          | panic => rfl

/-- The calls of a walk of a schema, for any names. -/
theorem gwalkSchema_calls {view : P → Option Node} {order : Nat → List (Str × P) → List (Str × P)} (ho : ∀ n m, (order n m).Perm m) (sc : Schema) (tk : Nat) :
    ∃ (cs : List (Str × P)) (done : Bool) (tk' : Nat), (∀ x ∈ cs, ∃ l, SchemaAt view sc l x.2) ∧
      ∀ (σ : Type) (fn : Str → P → σ → Res σ) (s : σ), gwalkSchema view order tk fn sc s = outcome done tk' (foldRes (fun x => fn x.1 x.2) cs s) := by
  obtain ⟨c1, d1, t1, h1, h2⟩ := gwalk_calls_kids (view := view) (order := order) (fuel := fun q => q.depth + 1)
    (fun raw path tk => gwalk_calls ho (raw.depth + 1) raw path tk) g!"$" (order tk (sc.properties.getD [])) (tk + 1)
  have hs : ∀ x ∈ c1, ∃ l, SchemaAt view sc l x.2 := by
    intro x hx
    obtain ⟨kv, hkv, l, hl⟩ := h1 x hx
    replace hkv := (ho tk _).mem_iff.1 hkv
    cases hp : sc.properties with
    | none => rw [hp] at hkv; simp at hkv
    | some m => rw [hp] at hkv; exact ⟨_, .prop hp hkv hl⟩
  cases hi : sc.items with
  | none =>
    refine ⟨c1, d1, t1, hs, fun σ fn s => ?_⟩
    unfold gwalkSchema
    rw [h2 σ fn s]
    cases foldRes (fun x => fn x.1 x.2) c1 s <;> cases d1 <;> simp [outcome, hi]
  | some q =>
    cases d1 with
    | false =>
      refine ⟨c1, false, t1, hs, fun σ fn s => ?_⟩
      unfold gwalkSchema
      rw [h2 σ fn s]
      cases foldRes (fun x => fn x.1 x.2) c1 s <;> simp [outcome]
    | true =>
      obtain ⟨c2, d2, t2, h3, h4⟩ := gwalk_calls (view := view) (order := order) ho (q.depth + 1) q (starPath g!"$") t1
      refine ⟨c1 ++ c2, d2, t2, ?_, fun σ fn s => ?_⟩
      · intro x hx
        rcases List.mem_append.1 hx with hx | hx
        · exact hs x hx
        · obtain ⟨l, hl⟩ := h3 x hx
          exact ⟨_, .item hi hl⟩
      · unfold gwalkSchema
        rw [h2 σ fn s, foldRes_append]
        cases foldRes (fun x => fn x.1 x.2) c1 s with
        | ok s' => simp only [outcome, if_true, hi]; exact h4 σ fn s'
        | err => rfl
        | panic => rfl

/-- **C32 (WalkRaw)**, for every schema: the calls are made one after the other; if one fails the walk fails, whatever the function would do in later
calls: there are none.  If the walk succeeds every call succeeded.  (Which calls these are is `C31_raw_partial`.) -/
theorem C32_raw (sched : Sched) (tick : Nat) (sc : Schema) :
    ∃ cs : List (Str × P), (∀ x ∈ cs, ∃ l, SchemaAt rawNode sc l x.2) ∧ ∀ (σ : Type) (fn : Str → P → σ → Res σ) (s : σ),
      (∀ s', walkRawSchema sched tick fn sc s = .ok s' → Calls (fun x => fn x.1 x.2) cs s s') ∧
      ∀ a x b s1, cs = a ++ x :: b → Calls (fun x => fn x.1 x.2) a s s1 → fn x.1 x.2 s1 = .err →
        ∀ fn' : Str → P → σ → Res σ, (∀ y ∈ a ++ [x], ∀ t, fn' y.1 y.2 t = fn y.1 y.2 t) → walkRawSchema sched tick fn' sc s = .err := by
  obtain ⟨cs, done, tk, h1, h2⟩ := gwalkSchema_calls (view := rawNode) (order := rawOrder sched tick)
    (fun n m => by unfold rawOrder; split; exacts [sched.isPerm _ _ _, List.Perm.refl _]) sc 0
  refine ⟨cs, h1, fun σ fn s => ⟨?_, ?_⟩⟩
  · intro s' h
    rw [walkRawSchema_gwalk, h2 σ fn s] at h
    rw [← foldRes_calls]
    cases hf : foldRes (fun x => fn x.1 x.2) cs s with
    | ok t => rw [hf] at h; cases done <;> simp [outcome, Res.map] at h; rw [h]
    | err => rw [hf] at h; simp [outcome, Res.map] at h
    | panic => rw [hf] at h; simp [outcome, Res.map] at h
  · intro a x b s1 hcs hc hx fn' hf
    rw [walkRawSchema_gwalk, h2 σ fn' s, hcs, foldRes_stops (f := fun x => fn x.1 x.2) (f' := fun x => fn' x.1 x.2) b hc hx hf]
    rfl

/-- **C32 (Walk)**, for every schema. -/
theorem C32_inst (sched : Sched) (tick : Nat) (sc : Schema) :
    ∃ cs : List (Str × P), (∀ x ∈ cs, ∃ l, SchemaAt instNode sc l x.2) ∧ ∀ (σ : Type) (fn : Str → Instance → σ → Res σ) (s : σ),
      (∀ s', walkSchema sched tick fn sc s = .ok s' → Calls (fun x => onInst fn x.1 x.2) cs s s'.2) ∧
      ∀ a x b s1, cs = a ++ x :: b → Calls (fun x => onInst fn x.1 x.2) a s s1 → onInst fn x.1 x.2 s1 = .err →
        ∀ fn' : Str → Instance → σ → Res σ, (∀ y ∈ a ++ [x], ∀ t, onInst fn' y.1 y.2 t = onInst fn y.1 y.2 t) →
          walkSchema sched tick fn' sc s = .err := by
  obtain ⟨cs, done, tk, h1, h2⟩ := gwalkSchema_calls (view := instNode) (order := fun n m => sched.perm n _ m)
    (fun n m => sched.isPerm _ _ _) sc tick
  refine ⟨cs, h1, fun σ fn s => ⟨?_, ?_⟩⟩
  · intro s' h
    rw [walkSchema_gwalk, h2 σ (onInst fn) s] at h
    rw [← foldRes_calls]
    cases hf : foldRes (fun x => onInst fn x.1 x.2) cs s with
    | ok t => rw [hf] at h; cases done <;> simp [outcome] at h; rw [← h]
    | err => rw [hf] at h; simp [outcome] at h
    | panic => rw [hf] at h; simp [outcome] at h
  · intro a x b s1 hcs hc hx fn' hf
    rw [walkSchema_gwalk, h2 σ (onInst fn') s, hcs, foldRes_stops (f := fun x => onInst fn x.1 x.2) (f' := fun x => onInst fn' x.1 x.2) b hc hx hf]
    rfl

/-! ### C33 -/

namespace Spec
/-- The instance decodes, has a type with at most one name other than `null`, and distinct property names. -/
structure OneType (q : P) (i : Instance) : Prop where
  decodes : decodeInstance false q = .ok i
  typed : ∃ t, q.key g!"type" = some t ∧ t ≠ .sc .nil
  single : (i.type.filter (· ≠ g!"null")).length ≤ 1
  distinct : ∀ m, q.key g!"properties" = some (.obj m) → (m.map Prod.fst).Nodup
end Spec

/-- The same contents up to the order of properties. -/
inductive NodeEq : Option Node → Option Node → Prop
  | none : NodeEq none none
  | leaf : NodeEq (some .leaf) (some .leaf)
  | array {q : P} : NodeEq (some (.array q)) (some (.array q))
  | object {m m' : List (Str × P)} : m.Perm m' → NodeEq (some (.object m)) (some (.object m'))

theorem asString_item {p : P} {t : Str} (h : asString (some p) = .ok t) : (p = .sc .nil ∧ t = []) ∨ p = .sc (.str t) := by
  unfold asString at h
  split at h
  · contradiction
  · rename_i h1; simp only [Option.some.injEq] at h1; simp at h; exact Or.inl ⟨h1, h⟩
  · rename_i h1; simp only [Option.some.injEq] at h1; simp at h; subst h; exact Or.inr h1
  · contradiction

theorem typeFold_null : ∀ {l : List P} {ts : List Str}, mapRes (fun p => asString (some p)) l = .ok ts → ts.filter (· ≠ g!"null") = [] →
    ∀ t0 nu b, ∃ nu', l.foldl typeStep (t0, nu, b) = (t0, nu', b)
  | [], ts, _, _, t0, nu, b => ⟨nu, rfl⟩
  | p :: l, ts, h, hf, t0, nu, b => by
    simp only [mapRes, Res.bind_eq_ok, Res.pure_eq_ok] at h
    obtain ⟨t, ht, ts', hts, rfl⟩ := h
    by_cases hn : t = g!"null"
    · rcases asString_item ht with ⟨_, rfl⟩ | rfl
      · simp at hn
      · simp only [List.foldl_cons, typeStep, hn, if_true]
        refine typeFold_null hts ?_ t0 true b
        simpa [List.filter_cons, hn] using hf
    · rw [List.filter_cons, if_pos (by simpa using hn)] at hf
      simp at hf

theorem typeFold_one : ∀ {l : List P} {ts : List Str}, mapRes (fun p => asString (some p)) l = .ok ts →
    (ts.filter (· ≠ g!"null")).length ≤ 1 → ∀ nu, ∃ nu', l.foldl typeStep ([], nu, false) = ((ts.filter (· ≠ g!"null")).headD [], nu', false)
  | [], ts, h, _, nu => by simp [mapRes] at h; subst h; exact ⟨nu, rfl⟩
  | p :: l, ts, h, hf, nu => by
    simp only [mapRes, Res.bind_eq_ok, Res.pure_eq_ok] at h
    obtain ⟨t, ht, ts', hts, rfl⟩ := h
    by_cases hn : t = g!"null"
    · rcases asString_item ht with ⟨_, rfl⟩ | rfl
      · simp at hn
      · rw [List.filter_cons, if_neg (by simpa using hn)] at hf ⊢
        simp only [List.foldl_cons, typeStep, hn, if_true]
        exact typeFold_one hts hf true
    · rw [List.filter_cons, if_pos (by simpa using hn)] at hf ⊢
      have hnil : ts'.filter (· ≠ g!"null") = [] := by
        apply List.eq_nil_of_length_eq_zero
        simp only [List.length_cons] at hf
        omega
      rw [List.headD_cons]
      rcases asString_item ht with ⟨rfl, rfl⟩ | rfl
      · simp only [List.foldl_cons, typeStep]
        exact typeFold_null hts hnil [] nu false
      · simp only [List.foldl_cons, typeStep, hn, if_false]
        exact typeFold_null hts hnil t nu _

theorem OneType.fieldType {q : P} {i : Instance} (h : OneType q i) : ∃ nu, fieldType q = .ok ((i.type.filter (· ≠ g!"null")).headD [], nu) ∨
    (∃ t, q.key g!"type" = some (.sc (.str t)) ∧ i.type = [t] ∧ fieldType q = .ok (t, nu)) := by
  obtain ⟨_, _, h3⟩ := decodeInstance_fields h.decodes
  obtain ⟨t, ht, hne⟩ := h.typed
  rw [ht] at h3
  cases t with
  | obj m => simp [typeField, asStrings, asList] at h3
  | sc s =>
    cases s with
    | str t =>
      simp [typeField, asStrings, asList, mapRes, asString] at h3
      exact ⟨false, Or.inr ⟨t, ht, h3.symm, by simp [JT.fieldType, ht]⟩⟩
    | nil => exact absurd rfl hne
    | _ => simp [typeField, asStrings, asList] at h3
  | arr l =>
    simp only [typeField, asStrings, asList, Res.bind_ok] at h3
    obtain ⟨nu, hnu⟩ := typeFold_one h3 h.single false
    refine ⟨nu, Or.inl ?_⟩
    simp [JT.fieldType, ht, hnu]

theorem OneType.type {q : P} {i : Instance} (h : OneType q i) : ∃ t nu, JT.fieldType q = .ok (t, nu) ∧ ∀ x, x ≠ [] → x ≠ g!"null" → (x ∈ i.type ↔ t = x) := by
  obtain ⟨nu, h1 | ⟨t, _, h2, h3⟩⟩ := OneType.fieldType h
  · refine ⟨_, nu, h1, ?_⟩
    intro x hx0 hx
    have hs := h.single
    have hmem : x ∈ i.type ↔ x ∈ i.type.filter (· ≠ g!"null") := by simp [hx]
    rw [hmem]
    cases hf : i.type.filter (· ≠ g!"null") with
    | nil => simp [Ne.symm hx0]
    | cons y l =>
      rw [hf] at hs
      simp only [List.length_cons] at hs
      have : l = [] := List.eq_nil_of_length_eq_zero (by omega)
      subst this
      simp [eq_comm]
  · exact ⟨t, nu, h3, by intro x _ _; rw [h2]; simp [eq_comm]⟩

theorem OneType.node {q : P} {i : Instance} (h : OneType q i) : NodeEq (rawNode q) (instNode q) := by
  obtain ⟨t, nu, h1, h2⟩ := OneType.type h
  obtain ⟨h3, h4, _⟩ := decodeInstance_fields h.decodes
  have hobj := h2 g!"object" (by simp) (by simp)
  have harr := h2 g!"array" (by simp) (by simp)
  unfold rawNode instNode
  rw [h1, h.decodes]
  simp only
  by_cases ho : t = g!"object"
  · rw [if_pos ho, if_pos (hobj.2 ho)]
    cases hp : q.key g!"properties" with
    | none => rw [hp] at h3; simp [asRawMap] at h3; rw [← h3]; exact .none
    | some p =>
      rw [hp] at h3
      cases p with
      | obj m =>
        simp [asRawMap] at h3
        rw [← h3]
        exact .object (GMap.ofList_perm (h.distinct m hp)).symm
      | arr l => simp [asRawMap] at h3
      | sc s => cases s <;> simp [asRawMap] at h3; rw [← h3]; exact .none
  · rw [if_neg ho, if_neg (fun hm => ho (hobj.1 hm))]
    by_cases ha : t = g!"array"
    · rw [if_pos ha, if_pos (harr.2 ha), h4]
      cases q.key g!"items" with
      | none => exact .none
      | some _ => exact .array
    · rw [if_neg ha, if_neg (fun hm => ha (harr.1 hm))]
      exact .leaf

theorem At.agree {raw : P} {l : List Seg} {q : P} (hone : ∀ l q, At rawNode raw l q → ∃ i, OneType q i) :
    At rawNode raw l q ↔ At instNode raw l q := by
  constructor
  · intro h
    induction h with
    | here => exact .here
    | @prop raw q r m k l h1 h2 _ ih =>
      obtain ⟨i, hi⟩ := hone [] raw .here
      have hn := OneType.node hi
      rw [h1] at hn
      generalize he : instNode raw = o at hn
      cases hn with
      | object hp => exact .prop he (hp.mem_iff.1 h2) (ih fun l x hx => hone _ x (.prop h1 h2 hx))
    | @item raw q r l h1 _ ih =>
      obtain ⟨i, hi⟩ := hone [] raw .here
      have hn := OneType.node hi
      rw [h1] at hn
      generalize he : instNode raw = o at hn
      cases hn with
      | array => exact .item he (ih fun l x hx => hone _ x (.item h1 hx))
  · intro h
    induction h with
    | here => exact .here
    | @prop raw q r m k l h1 h2 _ ih =>
      obtain ⟨i, hi⟩ := hone [] raw .here
      have hn := OneType.node hi
      rw [h1] at hn
      generalize he : rawNode raw = o at hn
      cases hn with
      | object hp => exact .prop he (hp.mem_iff.2 h2) (ih fun l x hx => hone _ x (.prop he (hp.mem_iff.2 h2) hx))
    | @item raw q r l h1 _ ih =>
      obtain ⟨i, hi⟩ := hone [] raw .here
      have hn := OneType.node hi
      rw [h1] at hn
      generalize he : rawNode raw = o at hn
      cases hn with
      | array => exact .item he (ih fun l x hx => hone _ x (.item he hx))

/-- **C33**: on schemas in which every instance decodes and has a type with at most one name besides `null`, `Walk` and `WalkRaw` visit the
same instances at the same paths, and one gets to its end iff the other does. -/
theorem C33 {sc : Schema} (hone : ∀ l q, SchemaAt rawNode sc l q → ∃ i, OneType q i) :
    (∀ l q, SchemaAt rawNode sc l q ↔ SchemaAt instNode sc l q) ∧ (WellFormed rawNode sc ↔ WellFormed instNode sc) := by
  have hat : ∀ l q, SchemaAt rawNode sc l q ↔ SchemaAt instNode sc l q := by
    intro l q
    constructor
    · intro h
      cases h with
      | prop h1 h2 h3 => exact .prop h1 h2 ((At.agree fun l x hx => hone _ x (.prop h1 h2 hx)).1 h3)
      | item h1 h2 => exact .item h1 ((At.agree fun l x hx => hone _ x (.item h1 hx)).1 h2)
    · intro h
      cases h with
      | prop h1 h2 h3 => exact .prop h1 h2 ((At.agree fun l x hx => hone _ x (.prop h1 h2 hx)).2 h3)
      | item h1 h2 => exact .item h1 ((At.agree fun l x hx => hone _ x (.item h1 hx)).2 h2)
  have hnode : ∀ l q, SchemaAt rawNode sc l q → (rawNode q ≠ none ↔ instNode q ≠ none) := by
    intro l q h
    obtain ⟨i, hi⟩ := hone l q h
    have := OneType.node hi
    generalize rawNode q = a at this
    generalize instNode q = b at this
    cases this <;> simp
  refine ⟨hat, ?_, ?_⟩
  · intro h l q hq
    exact (hnode l q ((hat l q).2 hq)).1 (h l q ((hat l q).2 hq))
  · intro h l q hq
    exact (hnode l q hq).2 (h l q ((hat l q).1 hq))

/-- C33 for the walks themselves: the same paths are visited, and both succeed or both fail with a function that always succeeds. -/
theorem C33_walks (sched sched' : Sched) (tick tick' : Nat) {sc : Schema} (hone : ∀ l q, SchemaAt rawNode sc l q → ∃ i, OneType q i)
    (hr : SchemaNames rawNode sc) (hi : SchemaNames instNode sc) :
    ∃ vs vs' done tick2, Visits rawNode sc vs done ∧ Visits instNode sc vs' done ∧
      (∀ (σ : Type) (fn : Str → P → σ → Res σ) (s s' : σ),
        walkRawSchema sched tick fn sc s = .ok s' ↔ done = true ∧ Calls (fun x => fn (pathOf x.1) x.2) vs s s') ∧
      (∀ (σ : Type) (fn : Str → Instance → σ → Res σ) (s s' : σ),
        walkSchema sched' tick' fn sc s = .ok (tick2, s') ↔ done = true ∧ Calls (fun x => onInst fn (pathOf x.1) x.2) vs' s s') ∧
      (done = true → ∀ x, x ∈ vs ↔ x ∈ vs') := by
  obtain ⟨vs, d, h1, h2⟩ := C31_raw_partial sched tick hr
  obtain ⟨vs', d', t2, h3, h4⟩ := C31_inst_partial sched' tick' hi
  obtain ⟨hat, hwf⟩ := C33 hone
  have hd : d' = d := by
    have := (h1.ends.trans hwf).trans h3.ends.symm
    cases d <;> cases d' <;> simp_all
  subst hd
  refine ⟨vs, vs', d', t2, h1, h3, h2, h4, ?_⟩
  rintro hd ⟨l, q⟩
  exact ⟨fun h => h3.complete hd l q ((hat l q).1 (h1.sound _ h)), fun h => h1.complete hd l q ((hat l q).2 (h3.sound _ h))⟩

/-! ### The hypotheses are met by concrete schemas -/

theorem rawNode_object {q : P} {m : List (Str × P)} (h : rawNode q = some (.object m)) : q.key g!"properties" = some (.obj m) := by
  unfold rawNode at h
  split at h
  · split at h
    · split at h
      · rename_i hm
        simp only [Option.some.injEq, Node.object.injEq] at h
        rw [hm, h]
      · contradiction
    · split at h
      · simp only [Option.map_eq_some_iff] at h
        obtain ⟨_, _, h⟩ := h
        contradiction
      · simp at h
  · contradiction

theorem rawNode_array {q r : P} (h : rawNode q = some (.array r)) : q.key g!"items" = some r := by
  unfold rawNode at h
  split at h
  · split at h
    · split at h <;> simp at h
    · split at h
      · simp only [Option.map_eq_some_iff] at h
        obtain ⟨_, h1, h⟩ := h
        injection h with h
        rw [h1, h]
      · simp at h
  · contradiction

theorem instNode_object {q : P} {m : List (Str × P)} (h : instNode q = some (.object m)) : ∃ l, q.key g!"properties" = some (.obj l) ∧ m = GMap.ofList l := by
  unfold instNode at h
  split at h
  · rename_i i hi
    obtain ⟨h1, h2, h3⟩ := decodeInstance_fields hi
    split at h
    · simp only [Option.map_eq_some_iff] at h
      obtain ⟨m', hm, h⟩ := h
      injection h with h
      subst h
      rw [hm] at h1
      exact asRawMap_some h1
    · split at h
      · simp only [Option.map_eq_some_iff] at h
        obtain ⟨_, _, h⟩ := h
        contradiction
      · simp at h
  · contradiction

theorem instNode_array {q r : P} (h : instNode q = some (.array r)) : q.key g!"items" = some r := by
  unfold instNode at h
  split at h
  · rename_i i hi
    obtain ⟨h1, h2, h3⟩ := decodeInstance_fields hi
    split at h
    · simp only [Option.map_eq_some_iff] at h
      obtain ⟨_, _, h⟩ := h
      contradiction
    · split at h
      · simp only [Option.map_eq_some_iff] at h
        obtain ⟨_, hq, h⟩ := h
        injection h with h
        rw [← h2, hq, h]
      · simp at h
  · contradiction

theorem Inst.after {p q r : P} (h : Inst q r) (h0 : Inst p q) : Inst p r := by
  induction h with
  | self => exact h0
  | prop _ h1 h2 ih => exact .prop ih h1 h2
  | items _ h1 ih => exact .items ih h1

theorem At.rawInst {raw q : P} {l : List Seg} (h : At rawNode raw l q) : Inst raw q := by
  induction h with
  | here => exact .self _
  | prop h1 h2 _ ih => exact Inst.after ih (.prop (.self _) (rawNode_object h1) h2)
  | item h1 _ ih => exact Inst.after ih (.items (.self _) (rawNode_array h1))

theorem At.instInst {raw q : P} {l : List Seg} (h : At instNode raw l q) : Inst raw q := by
  induction h with
  | here => exact .self _
  | prop h1 h2 _ ih =>
    obtain ⟨l, h3, rfl⟩ := instNode_object h1
    exact Inst.after ih (.prop (.self _) h3 (GMap.mem_ofList h2))
  | item h1 _ ih => exact Inst.after ih (.items (.self _) (instNode_array h1))

theorem SchemaAt.rawInst {sc : Schema} {q : P} {l : List Seg} (h : SchemaAt rawNode sc l q) : SchemaInst sc q := by
  cases h with
  | prop h1 h2 h3 => exact Or.inl ⟨_, _, _, h1, h2, At.rawInst h3⟩
  | item h1 h2 => exact Or.inr ⟨_, h1, At.rawInst h2⟩

theorem SchemaAt.instInst {sc : Schema} {q : P} {l : List Seg} (h : SchemaAt instNode sc l q) : SchemaInst sc q := by
  cases h with
  | prop h1 h2 h3 => exact Or.inl ⟨_, _, _, h1, h2, At.instInst h3⟩
  | item h1 h2 => exact Or.inr ⟨_, h1, At.instInst h2⟩

namespace C31ex
open Toy
/-- An object with a nested object and an array that may be null. -/
def sc : Schema := ⟨some [(g!"a", o [(g!"type", s g!"object"), (g!"properties", o [(g!"b", o [(g!"type", s g!"string")])])]),
  (g!"c", o [(g!"type", a [s g!"array", s g!"null"]), (g!"items", o [(g!"type", s g!"integer")])])], none⟩

def namesB (q : P) : Bool := match q.key g!"properties" with
  | some (.obj m) => decide ((m.map Prod.fst).Nodup ∧ [] ∉ m.map Prod.fst)
  | _ => true

theorem names {q : P} (h : SchemaInst sc q) {m : List (Str × P)} (hm : q.key g!"properties" = some (.obj m)) : NamesOK m := by
  have := checkSchema_sound (f := namesB) (n := 4) (s := sc) (by decide +kernel) h
  unfold namesB at this
  rw [hm] at this
  simp only [decide_eq_true_eq] at this
  exact this

theorem namesRaw : SchemaNames rawNode sc :=
  ⟨by intro m hm; simp only [sc, Option.some.injEq] at hm; subst hm; exact ⟨by decide, by decide⟩,
   fun l q m h hm => names (SchemaAt.rawInst h) (rawNode_object hm)⟩

theorem namesInst : SchemaNames instNode sc :=
  ⟨namesRaw.1, fun l q m h hm => by
    obtain ⟨l', h1, rfl⟩ := instNode_object hm
    have := names (SchemaAt.instInst h) h1
    exact NamesOK.perm (GMap.ofList_perm this.1) this⟩

def oneB (q : P) : Bool := (match decodeInstance false q with
    | .ok i => decide ((i.type.filter (· ≠ g!"null")).length ≤ 1)
    | _ => false) &&
  (match q.key g!"type" with
    | some (.sc .nil) => false
    | some _ => true
    | none => false) && namesB q

theorem one (l : List Seg) (q : P) (h : SchemaAt rawNode sc l q) : ∃ i, OneType q i := by
  have := checkSchema_sound (f := oneB) (n := 4) (s := sc) (by decide +kernel) (SchemaAt.rawInst h)
  unfold oneB at this
  rw [Bool.and_eq_true, Bool.and_eq_true] at this
  obtain ⟨⟨h1, h2⟩, h3⟩ := this
  split at h1
  · rename_i i hi
    refine ⟨i, hi, ?_, of_decide_eq_true h1, fun m hm => (names (SchemaAt.rawInst h) hm).1⟩
    split at h2
    · contradiction
    · rename_i t hne ht
      exact ⟨t, ht, fun he => by subst he; simp at hne⟩
    · contradiction
  · contradiction

/-- The recorded calls of both walks. -/
example : (match walkRawSchema Sched.rev 0 (fun p _ (l : List Str) => .ok (l ++ [p])) sc [] with | .ok l => l | _ => []) =
    [g!"$.c", g!"$.c[*]", g!"$.a", g!"$.a.b"] := by decide +kernel
example : (match walkSchema Sched.id 0 (fun p _ (l : List Str) => .ok (l ++ [p])) sc [] with | .ok l => l.2 | _ => []) =
    [g!"$.a", g!"$.a.b", g!"$.c", g!"$.c[*]"] := by decide +kernel
example : SchemaDistinct rawNode sc := namesRaw.distinct
/-- A property with the empty name in an object: its path is that of the object. -/
example : (match walkSchema Sched.id 0 (fun p _ (l : List Str) => .ok (l ++ [p]))
      ⟨some [(g!"a", Toy.o [(g!"type", Toy.s g!"object"), (g!"properties", Toy.o [([], Toy.o [(g!"type", Toy.s g!"string")])])])], none⟩ [] with | .ok l => l.2 | _ => []) =
    [g!"$.a", g!"$.a"] := by decide +kernel
example : shownPath [.key g!"a", .key [], .star] = g!"$.a[*]" := by decide
end C31ex

end JT
