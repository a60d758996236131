import Verif.Spec.Walk
import Verif.Proofs.Reify
/- The two walks of jsonschema/walk.go as one generic walk, and the sequence of calls it makes. -/
namespace JT
open Spec

theorem foldRes_append {σ β : Type} (f : β → σ → Res σ) : ∀ (a b : List β) (s : σ),
    foldRes f (a ++ b) s = match foldRes f a s with | .ok s' => foldRes f b s' | .err => .err | .panic => .panic
  | [], b, s => rfl
  | x :: a, b, s => by
    simp only [List.cons_append, foldRes]
    cases f x s with
    | ok s1 => exact foldRes_append f a b s1
    | err => rfl
    | panic => rfl

theorem foldRes_map {σ β γ : Type} (f : β → σ → Res σ) (g : γ → β) : ∀ (l : List γ) (s : σ),
    foldRes f (l.map g) s = foldRes (fun x => f (g x)) l s
  | [], s => rfl
  | x :: l, s => by
    simp only [List.map_cons, foldRes]
    cases f (g x) s with
    | ok s1 => exact foldRes_map f g l s1
    | err => rfl
    | panic => rfl

theorem foldRes_congr {σ β : Type} {f g : β → σ → Res σ} : ∀ (l : List β) (s : σ), (∀ x ∈ l, ∀ s, f x s = g x s) → foldRes f l s = foldRes g l s
  | [], s, _ => rfl
  | x :: l, s, h => by
    simp only [foldRes]
    rw [h x (by simp) s]
    cases g x s with
    | ok s1 => exact foldRes_congr l s1 fun y hy => h y (by simp [hy])
    | err => rfl
    | panic => rfl

/-- Both walks at once. -/
def gwalk {σ : Type} (view : P → Option Node) (order : Nat → List (Str × P) → List (Str × P)) (fn : Str → P → σ → Res σ) :
    Nat → P → Str → Nat × σ → Res (Nat × σ)
  | 0, _, _, _ => .err
  | n + 1, raw, path, s =>
    match fn path raw s.2 with
    | .err => .err
    | .panic => .panic
    | .ok s' => match view raw with
      | none => .err
      | some (.object m) => foldRes (fun kv s => gwalk view order fn n kv.2 (prependPath path kv.1) s) (order s.1 m) (s.1 + 1, s')
      | some (.array q) => gwalk view order fn n q (starPath path) (s.1, s')
      | some .leaf => .ok (s.1, s')

def outcome {σ : Type} (done : Bool) (tk : Nat) : Res σ → Res (Nat × σ)
  | .ok s => if done then .ok (tk, s) else .err
  | .err => .err
  | .panic => .panic

structure NVisits (view : P → Option Node) (raw : P) (vs : List (List Seg × P)) (done : Bool) : Prop where
  sound : ∀ x ∈ vs, At view raw x.1 x.2
  once : (vs.map Prod.fst).Nodup
  parents : ∀ a l g q b, vs = a ++ (l ++ [g], q) :: b → ∃ q', (l, q') ∈ a
  complete : done = true → ∀ l q, At view raw l q → (l, q) ∈ vs
  ends : done = true ↔ ∀ l q, At view raw l q → view q ≠ none

structure KVisits (view : P → Option Node) (ms : List (Str × P)) (vs : List (List Seg × P)) (done : Bool) : Prop where
  sound : ∀ x ∈ vs, ∃ k q l, x.1 = .key k :: l ∧ (k, q) ∈ ms ∧ At view q l x.2
  once : (vs.map Prod.fst).Nodup
  parents : ∀ a l g q b, vs = a ++ (l ++ [g], q) :: b → l = [] ∨ ∃ q', (l, q') ∈ a
  complete : done = true → ∀ k q l r, (k, q) ∈ ms → At view q l r → (.key k :: l, r) ∈ vs
  ends : done = true ↔ ∀ k q l r, (k, q) ∈ ms → At view q l r → view r ≠ none

def under (g : Seg) (x : List Seg × P) : List Seg × P := (g :: x.1, x.2)

theorem under_nodup {g : Seg} {vs : List (List Seg × P)} (h : (vs.map Prod.fst).Nodup) : ((vs.map (under g)).map Prod.fst).Nodup := by
  have : (vs.map (under g)).map Prod.fst = (vs.map Prod.fst).map (g :: ·) := by simp [under, Function.comp_def]
  rw [this]
  exact List.Pairwise.map (g :: ·) (fun a b hab h => hab (List.cons.inj h).2) h

theorem under_parents {g0 : Seg} {vs : List (List Seg × P)} (h : ∀ a l g q b, vs = a ++ (l ++ [g], q) :: b → ∃ q', (l, q') ∈ a) :
    ∀ a l g q b, vs.map (under g0) = a ++ (l ++ [g], q) :: b → l = [] ∨ ∃ q', (l, q') ∈ a := by
  intro a l g q b he
  obtain ⟨a', b', rfl, ha, hb⟩ := List.map_eq_append_iff.1 he
  obtain ⟨x, b'', rfl, hx, _⟩ := List.map_eq_cons_iff.1 hb
  cases l with
  | nil => exact Or.inl rfl
  | cons s l =>
    right
    simp only [under, List.cons_append, Prod.mk.injEq, List.cons.injEq] at hx
    obtain ⟨⟨rfl, hx1⟩, hx2⟩ := hx
    obtain ⟨q', hq'⟩ := h a' l g x.2 b'' (by rw [← hx1])
    exact ⟨q', by rw [← ha]; exact List.mem_map.2 ⟨_, hq', rfl⟩⟩

/-- Two lists of visits one after the other. -/
theorem parents_append {u v : List (List Seg × P)}
    (hu : ∀ a l g q b, u = a ++ (l ++ [g], q) :: b → l = [] ∨ ∃ q', (l, q') ∈ a)
    (hv : ∀ a l g q b, v = a ++ (l ++ [g], q) :: b → l = [] ∨ ∃ q', (l, q') ∈ a) :
    ∀ a l g q b, u ++ v = a ++ (l ++ [g], q) :: b → l = [] ∨ ∃ q', (l, q') ∈ a := by
  intro a l g q b he
  rcases List.append_eq_append_iff.1 he with ⟨c, rfl, hc⟩ | ⟨c, rfl, hc⟩
  · rcases hv c l g q b hc with h | ⟨q', h⟩
    · exact Or.inl h
    · exact Or.inr ⟨q', List.mem_append_right _ h⟩
  · cases c with
    | nil =>
      simp only [List.nil_append] at hc
      rcases hv [] l g q b (by simpa using hc.symm) with h | ⟨q', h⟩
      · exact Or.inl h
      · simp at h
    | cons x c =>
      simp only [List.cons_append, List.cons.injEq] at hc
      exact hu a l g q c (by rw [hc.1])

variable {view : P → Option Node} {order : Nat → List (Str × P) → List (Str × P)}

/-- What a segment adds to the path: nothing for an empty name. -/
def Seg.shown : Seg → Str
  | .key [] => []
  | g => g.text

/-- What the segments add to the path. -/
def shownText (l : List Seg) : Str := (l.map Seg.shown).flatten

theorem prependPath_shown {path k : Str} (hp : path ≠ []) : prependPath path k = path ++ Seg.shown (.key k) := by
  cases k <;> simp [prependPath, hp, Seg.shown, Seg.text]

theorem shownText_cons (g : Seg) (l : List Seg) : shownText (g :: l) = g.shown ++ shownText l := rfl

theorem segsText_cons (g : Seg) (l : List Seg) : segsText (g :: l) = g.text ++ segsText l := rfl

theorem shownPath_eq : ∀ l : List Seg, shownPath l = '$' :: shownText l := by
  intro l
  unfold shownPath pathOf
  congr 1
  induction l with
  | nil => rfl
  | cons g l ih =>
    rw [shownText_cons, ← ih]
    cases g with
    | star => rfl
    | key k => cases k with
      | nil => rfl
      | cons c k => rfl

theorem shownPath_names {l : List Seg} (h : Seg.key [] ∉ l) : shownPath l = pathOf l := by
  unfold shownPath
  rw [List.filter_eq_self.2]
  intro g hg
  cases g with
  | star => rfl
  | key k => cases k with
    | nil => exact absurd hg h
    | cons c k => rfl

def fnShown {σ : Type} (fn : Str → P → σ → Res σ) (path : Str) (x : List Seg × P) (s : σ) : Res σ := fn (path ++ shownText x.1) x.2 s

theorem foldRes_under {σ : Type} (fn : Str → P → σ → Res σ) (path : Str) (g : Seg) (vs : List (List Seg × P)) (s : σ) :
    foldRes (fnShown fn path) (vs.map (under g)) s = foldRes (fnShown fn (path ++ g.shown)) vs s := by
  rw [foldRes_map]
  refine foldRes_congr vs s fun x _ s => ?_
  simp [fnShown, under, shownText_cons]

theorem gwalk_kids {fuel : P → Nat} {R : P → Prop}
    (ih : ∀ (raw : P) (tk : Nat), R raw → (∀ l q m, At view raw l q → view q = some (.object m) → (m.map Prod.fst).Nodup) →
      ∃ vs done tk', NVisits view raw vs done ∧ ∀ (σ : Type) (fn : Str → P → σ → Res σ) (path : Str) (s : σ), path ≠ [] →
        gwalk view order fn (fuel raw) raw path (tk, s) = outcome done tk' (foldRes (fnShown fn path) vs s)) :
    ∀ (ms : List (Str × P)) (tk : Nat), (∀ kv ∈ ms, R kv.2) → (ms.map Prod.fst).Nodup →
      (∀ kv ∈ ms, ∀ l q m, At view kv.2 l q → view q = some (.object m) → (m.map Prod.fst).Nodup) →
      ∃ vs done tk', KVisits view ms vs done ∧ ∀ (σ : Type) (fn : Str → P → σ → Res σ) (path : Str) (s : σ), path ≠ [] →
        foldRes (fun kv s => gwalk view order fn (fuel kv.2) kv.2 (prependPath path kv.1) s) ms (tk, s) =
          outcome done tk' (foldRes (fnShown fn path) vs s) := by
  intro ms
  induction ms with
  | nil =>
    intro tk _ _ _
    exact ⟨[], true, tk, ⟨by simp, by simp, by simp, by simp, by simp⟩, fun σ fn path s _ => by simp [foldRes, outcome]⟩
  | cons kv ms ihm =>
    intro tk hd hn hk
    obtain ⟨k, q⟩ := kv
    have hn1 := hn
    simp only [List.map_cons, List.nodup_cons] at hn1
    obtain ⟨v1, d1, t1, hv1, hg1⟩ := ih q tk (hd (k, q) (by simp)) (hk (k, q) (by simp))
    cases d1 with
    | false =>
      refine ⟨v1.map (under (.key k)), false, t1, ⟨?_, under_nodup hv1.once, under_parents hv1.parents, by simp, ?_⟩, ?_⟩
      · intro x hx
        obtain ⟨y, hy, rfl⟩ := List.mem_map.1 hx
        exact ⟨k, q, y.1, rfl, by simp, hv1.sound y hy⟩
      · constructor
        · simp
        · intro h
          exact hv1.ends.2 fun l r hr => h k q l r (by simp) hr
      · intro σ fn path s hp
        simp only [foldRes]
        rw [prependPath_shown hp, hg1 σ fn _ s (by simp [hp]), foldRes_under]
        cases foldRes (fnShown fn (path ++ Seg.shown (.key k))) v1 s <;> rfl
    | true =>
      obtain ⟨v2, d2, t2, hv2, hg2⟩ := ihm t1 (fun kv h => hd kv (by simp [h])) hn1.2 (fun kv h => hk kv (by simp [h]))
      refine ⟨v1.map (under (.key k)) ++ v2, d2, t2, ⟨?_, ?_, parents_append (under_parents hv1.parents) hv2.parents, ?_, ?_⟩, ?_⟩
      · intro x hx
        rcases List.mem_append.1 hx with hx | hx
        · obtain ⟨y, hy, rfl⟩ := List.mem_map.1 hx
          exact ⟨k, q, y.1, rfl, by simp, hv1.sound y hy⟩
        · obtain ⟨k', q', l, h1, h2, h3⟩ := hv2.sound x hx
          exact ⟨k', q', l, h1, by simp [h2], h3⟩
      · rw [List.map_append, List.nodup_append]
        refine ⟨under_nodup hv1.once, hv2.once, ?_⟩
        intro a ha b hb hab
        subst hab
        obtain ⟨x, hx, rfl⟩ := List.mem_map.1 ha
        obtain ⟨y, hy, rfl⟩ := List.mem_map.1 hx
        obtain ⟨z, hz, hzy⟩ := List.mem_map.1 hb
        obtain ⟨k', q', l, h1, h2, _⟩ := hv2.sound z hz
        rw [hzy] at h1
        simp only [under, List.cons.injEq, Seg.key.injEq] at h1
        obtain ⟨rfl, _⟩ := h1
        exact hn1.1 (List.mem_map.2 ⟨_, h2, rfl⟩)
      · intro hd2 k' q' l r hm hr
        rcases List.mem_cons.1 hm with h | h
        · injection h with h1 h2
          subst h1; subst h2
          exact List.mem_append_left _ (List.mem_map.2 ⟨(l, r), hv1.complete rfl l r hr, rfl⟩)
        · exact List.mem_append_right _ (hv2.complete hd2 k' q' l r h hr)
      · constructor
        · intro hd2 k' q' l r hm hr
          rcases List.mem_cons.1 hm with h | h
          · injection h with h1 h2
            subst h1; subst h2
            exact hv1.ends.1 rfl l r hr
          · exact hv2.ends.1 hd2 k' q' l r h hr
        · intro h
          exact hv2.ends.2 fun k' q' l r hm hr => h k' q' l r (by simp [hm]) hr
      · intro σ fn path s hp
        simp only [foldRes]
        rw [prependPath_shown hp, hg1 σ fn _ s (by simp [hp]), foldRes_append, foldRes_under]
        cases foldRes (fnShown fn (path ++ Seg.shown (.key k))) v1 s with
        | ok s1 => simp only [outcome, if_true]; exact hg2 σ fn path s1 hp
        | err => rfl
        | panic => rfl

/-- Instances contained in another one are smaller. -/
def Shrinks (view : P → Option Node) : Prop :=
  (∀ raw m, view raw = some (.object m) → ∀ kv ∈ m, kv.2.depth < raw.depth) ∧ ∀ raw q, view raw = some (.array q) → q.depth < raw.depth

theorem NamesOK.perm {a b : List (Str × P)} (h : a.Perm b) (hb : NamesOK b) : NamesOK a := by
  have hp := h.map Prod.fst
  exact ⟨hp.nodup_iff.2 hb.1, fun hm => hb.2 (hp.mem_iff.1 hm)⟩

theorem gwalk_visits (hsh : Shrinks view) (ho : ∀ n m, (order n m).Perm m) : ∀ (n : Nat) (raw : P) (tk : Nat), raw.depth < n →
    (∀ l q m, At view raw l q → view q = some (.object m) → (m.map Prod.fst).Nodup) →
    ∃ vs done tk', NVisits view raw vs done ∧ ∀ (σ : Type) (fn : Str → P → σ → Res σ) (path : Str) (s : σ), path ≠ [] →
      gwalk view order fn n raw path (tk, s) = outcome done tk' (foldRes (fnShown fn path) vs s) := by
  intro n
  induction n with
  | zero => intro raw tk h; omega
  | succ n ih =>
    intro raw tk hd hn
    have hself : ∀ {σ : Type} (fn : Str → P → σ → Res σ) (path : Str) (s : σ), fnShown fn path ([], raw) s = fn path raw s := by
      intro σ fn path s
      simp [fnShown, shownText]
    cases hv : view raw with
    | none =>
      refine ⟨[([], raw)], false, tk, ⟨?_, by simp, ?_, by simp, ?_⟩, ?_⟩
      · intro x hx
        simp only [List.mem_singleton] at hx
        subst hx
        exact .here
      · intro a l g q b he
        cases a with
        | nil => simp at he
        | cons x a => simp at he
      · constructor
        · simp
        · intro h
          exact absurd hv (h [] raw .here)
      · intro σ fn path s hp
        simp only [gwalk, foldRes, hself, hv]
        cases fn path raw s <;> simp [outcome]
    | some nd => cases nd with
      | leaf =>
        have hat : ∀ l q, At view raw l q → l = [] ∧ q = raw := by
          intro l q h
          cases h with
          | here => exact ⟨rfl, rfl⟩
          | prop h _ _ => rw [hv] at h; simp at h
          | item h _ => rw [hv] at h; simp at h
        refine ⟨[([], raw)], true, tk, ⟨?_, by simp, ?_, ?_, ?_⟩, ?_⟩
        · intro x hx
          simp only [List.mem_singleton] at hx
          subst hx
          exact .here
        · intro a l g q b he
          cases a with
          | nil => simp at he
          | cons x a => simp at he
        · intro _ l q h
          obtain ⟨rfl, rfl⟩ := hat l q h
          simp
        · simp only [true_iff]
          intro l q h
          obtain ⟨rfl, rfl⟩ := hat l q h
          simp [hv]
        · intro σ fn path s hp
          simp only [gwalk, foldRes, hself, hv]
          cases fn path raw s <;> simp [outcome]
      | array q =>
        have hq := hsh.2 raw q hv
        obtain ⟨vs, d, t, hvs, hg⟩ := ih q tk (by omega) fun l r m h => hn (.star :: l) r m (.item hv h)
        refine ⟨([], raw) :: vs.map (under .star), d, t, ⟨?_, ?_, ?_, ?_, ?_⟩, ?_⟩
        · intro x hx
          rcases List.mem_cons.1 hx with rfl | hx
          · exact .here
          · obtain ⟨y, hy, rfl⟩ := List.mem_map.1 hx
            exact .item hv (hvs.sound y hy)
        · rw [List.map_cons, List.nodup_cons]
          refine ⟨?_, under_nodup hvs.once⟩
          intro h
          obtain ⟨x, hx, he⟩ := List.mem_map.1 h
          obtain ⟨y, hy, rfl⟩ := List.mem_map.1 hx
          simp [under] at he
        · intro a l g q' b he
          cases a with
          | nil => simp at he
          | cons x a =>
            simp only [List.cons_append, List.cons.injEq] at he
            rcases under_parents hvs.parents a l g q' b he.2 with h | ⟨r, h⟩
            · exact ⟨raw, by rw [h, ← he.1]; simp⟩
            · exact ⟨r, by simp [h]⟩
        · intro hd' l r h
          cases h with
          | here => simp
          | prop h _ _ => rw [hv] at h; simp at h
          | @item q' _ _ l' h h' =>
            rw [hv] at h
            simp only [Option.some.injEq, Node.array.injEq] at h
            subst h
            exact List.mem_cons_of_mem _ (List.mem_map.2 ⟨_, hvs.complete hd' _ _ h', rfl⟩)
        · constructor
          · intro hd' l r h
            cases h with
            | here => simp [hv]
            | prop h _ _ => rw [hv] at h; simp at h
            | item h h' =>
              rw [hv] at h
              simp only [Option.some.injEq, Node.array.injEq] at h
              subst h
              exact hvs.ends.1 hd' _ _ h'
          · intro h
            exact hvs.ends.2 fun l r hr => h (.star :: l) r (.item hv hr)
        · intro σ fn path s hp
          simp only [gwalk, foldRes, hself, hv]
          cases fn path raw s with
          | ok s' =>
            simp only
            rw [hg σ fn (starPath path) s' (by simp [starPath]), foldRes_under]
            rfl
          | err => rfl
          | panic => rfl
      | object m =>
        have hm := hsh.1 raw m hv
        have hmem : ∀ kv, kv ∈ order tk m ↔ kv ∈ m := fun kv => (ho tk m).mem_iff
        obtain ⟨vs, d, t, hvs, hg⟩ := gwalk_kids (view := view) (order := order) (fuel := fun _ => n) (R := fun q => q.depth < n) ih (order tk m) (tk + 1)
          (fun kv h => by have := hm kv ((hmem kv).1 h); omega) (((ho tk m).map Prod.fst).nodup_iff.2 (hn [] raw m .here hv))
          (fun kv h l q m' hq hv' => hn (.key kv.1 :: l) q m' (.prop hv ((hmem kv).1 h) hq) hv')
        refine ⟨([], raw) :: vs, d, t, ⟨?_, ?_, ?_, ?_, ?_⟩, ?_⟩
        · intro x hx
          rcases List.mem_cons.1 hx with rfl | hx
          · exact .here
          · obtain ⟨k, q, l, h1, h2, h3⟩ := hvs.sound x hx
            obtain ⟨x1, x2⟩ := x
            simp only at h1
            subst h1
            exact .prop hv ((hmem _).1 h2) h3
        · rw [List.map_cons, List.nodup_cons]
          refine ⟨?_, hvs.once⟩
          intro h
          obtain ⟨x, hx, he⟩ := List.mem_map.1 h
          obtain ⟨k, q, l, h1, _⟩ := hvs.sound x hx
          rw [h1] at he
          simp at he
        · intro a l g q' b he
          cases a with
          | nil => simp at he
          | cons x a =>
            simp only [List.cons_append, List.cons.injEq] at he
            rcases hvs.parents a l g q' b he.2 with h | ⟨r, h⟩
            · exact ⟨raw, by rw [h, ← he.1]; simp⟩
            · exact ⟨r, by simp [h]⟩
        · intro hd' l r h
          cases h with
          | here => simp
          | item h _ => rw [hv] at h; simp at h
          | prop h h1 h' =>
            rw [hv] at h
            simp only [Option.some.injEq, Node.object.injEq] at h
            subst h
            exact List.mem_cons_of_mem _ (hvs.complete hd' _ _ _ _ ((hmem _).2 h1) h')
        · constructor
          · intro hd' l r h
            cases h with
            | here => simp [hv]
            | item h _ => rw [hv] at h; simp at h
            | prop h h1 h' =>
              rw [hv] at h
              simp only [Option.some.injEq, Node.object.injEq] at h
              subst h
              exact hvs.ends.1 hd' _ _ _ _ ((hmem _).2 h1) h'
          · intro h
            exact hvs.ends.2 fun k q l r hk hr => h (.key k :: l) r (.prop hv ((hmem _).1 hk) hr)
        · intro σ fn path s hp
          simp only [gwalk, foldRes, hself, hv]
          cases fn path raw s with
          | ok s' =>
            simp only
            exact hg σ fn path s' hp
          | err => rfl
          | panic => rfl

/-- Both walks from the root of a schema. -/
def gwalkSchema {σ : Type} (view : P → Option Node) (order : Nat → List (Str × P) → List (Str × P)) (tick : Nat)
    (fn : Str → P → σ → Res σ) (s : Schema) (st : σ) : Res (Nat × σ) :=
  match foldRes (fun kv st => gwalk view order fn (kv.2.depth + 1) kv.2 (prependPath g!"$" kv.1) st)
      (order tick (s.properties.getD [])) (tick + 1, st) with
  | .err => .err
  | .panic => .panic
  | .ok st =>
    match s.items with
    | none => .ok st
    | some items => gwalk view order fn (items.depth + 1) items (starPath g!"$") st

theorem gwalkSchema_shown (hsh : Shrinks view) (ho : ∀ n m, (order n m).Perm m) (sc : Schema) (tk : Nat) (hn : SchemaDistinct view sc) :
    ∃ vs done tk', Visits view sc vs done ∧ ∀ (σ : Type) (fn : Str → P → σ → Res σ) (s : σ),
      gwalkSchema view order tk fn sc s = outcome done tk' (foldRes (fnShown fn g!"$") vs s) := by
  have hg := fun (raw : P) (tk : Nat) => gwalk_visits hsh ho (raw.depth + 1) raw tk (by omega)
  have hprops : ∀ kv ∈ sc.properties.getD [], ∃ m, sc.properties = some m ∧ kv ∈ m := by
    intro kv h
    cases hp : sc.properties with
    | none => rw [hp] at h; simp at h
    | some m => rw [hp] at h; exact ⟨m, rfl, h⟩
  have hmem : ∀ kv, kv ∈ order tk (sc.properties.getD []) ↔ kv ∈ sc.properties.getD [] := fun kv => (ho _ _).mem_iff
  have hnk : ((order tk (sc.properties.getD [])).map Prod.fst).Nodup := by
    refine ((ho _ _).map Prod.fst).nodup_iff.2 ?_
    cases hp : sc.properties with
    | none => simp
    | some m => exact hn.1 m hp
  obtain ⟨v1, d1, t1, hv1, hg1⟩ := gwalk_kids (view := view) (order := order) (fuel := fun q => q.depth + 1) (R := fun _ => True)
    (fun raw tk _ h => hg raw tk h) (order tk (sc.properties.getD [])) (tk + 1) (fun _ _ => trivial) hnk
    (fun kv h l q m hq hv => by
      obtain ⟨m0, h0, h1⟩ := hprops kv ((hmem kv).1 h)
      exact hn.2 (.key kv.1 :: l) q m (.prop h0 h1 hq) hv)
  have hs1 : ∀ x ∈ v1, SchemaAt view sc x.1 x.2 := by
    intro x hx
    obtain ⟨k, q, l, h1, h2, h3⟩ := hv1.sound x hx
    obtain ⟨m0, h0, h4⟩ := hprops _ ((hmem _).1 h2)
    rw [h1]
    exact .prop h0 h4 h3
  have hp1 : ∀ {m k q}, sc.properties = some m → (k, q) ∈ m → (k, q) ∈ order tk (sc.properties.getD []) := by
    intro m k q h1 h2
    rw [hmem, h1]
    exact h2
  have hitem : d1 = false → ¬ WellFormed view sc := by
    rintro rfl h
    have := hv1.ends.2 fun k q l r hk hr => by
      obtain ⟨m0, h0, h4⟩ := hprops _ ((hmem _).1 hk)
      exact h _ _ (.prop h0 h4 hr)
    simp at this
  cases d1 with
  | false =>
    refine ⟨v1, false, t1, ⟨hs1, hv1.once, hv1.parents, by simp, ?_⟩, ?_⟩
    · constructor
      · simp
      · intro h; exact absurd h (hitem rfl)
    · intro σ fn s
      unfold gwalkSchema
      rw [hg1 σ fn g!"$" s (by simp)]
      cases foldRes (fnShown fn g!"$") v1 s <;> rfl
  | true =>
    cases hi : sc.items with
    | none =>
      have hat : ∀ l q, SchemaAt view sc l q → ∃ k q' l', l = .key k :: l' ∧ (k, q') ∈ order tk (sc.properties.getD []) ∧ At view q' l' q := by
        intro l q h
        cases h with
        | prop h1 h2 h3 => exact ⟨_, _, _, rfl, hp1 h1 h2, h3⟩
        | item h _ => rw [hi] at h; simp at h
      refine ⟨v1, true, t1, ⟨hs1, hv1.once, hv1.parents, ?_, ?_⟩, ?_⟩
      · intro _ l q h
        obtain ⟨k, q', l', rfl, h2, h3⟩ := hat l q h
        exact hv1.complete rfl _ _ _ _ h2 h3
      · simp only [true_iff]
        intro l q h
        obtain ⟨k, q', l', rfl, h2, h3⟩ := hat l q h
        exact hv1.ends.1 rfl _ _ _ _ h2 h3
      · intro σ fn s
        unfold gwalkSchema
        rw [hg1 σ fn g!"$" s (by simp)]
        cases foldRes (fnShown fn g!"$") v1 s <;> simp [outcome, hi]
    | some q0 =>
      obtain ⟨v2, d2, t2, hv2, hg2⟩ := hg q0 t1 (fun l q m h hv => hn.2 (.star :: l) q m (.item hi h) hv)
      refine ⟨v1 ++ v2.map (under .star), d2, t2, ⟨?_, ?_, parents_append hv1.parents (under_parents hv2.parents), ?_, ?_⟩, ?_⟩
      · intro x hx
        rcases List.mem_append.1 hx with hx | hx
        · exact hs1 x hx
        · obtain ⟨y, hy, rfl⟩ := List.mem_map.1 hx
          exact .item hi (hv2.sound y hy)
      · rw [List.map_append, List.nodup_append]
        refine ⟨hv1.once, under_nodup hv2.once, ?_⟩
        intro a ha b hb hab
        subst hab
        obtain ⟨x, hx, rfl⟩ := List.mem_map.1 ha
        obtain ⟨y, hy, he⟩ := List.mem_map.1 hb
        obtain ⟨z, hz, rfl⟩ := List.mem_map.1 hy
        obtain ⟨k, q, l, h1, _⟩ := hv1.sound x hx
        rw [h1] at he
        simp [under] at he
      · intro hd l q h
        cases h with
        | prop h1 h2 h3 => exact List.mem_append_left _ (hv1.complete rfl _ _ _ _ (hp1 h1 h2) h3)
        | item h h' =>
          rw [hi] at h
          simp only [Option.some.injEq] at h
          subst h
          exact List.mem_append_right _ (List.mem_map.2 ⟨_, hv2.complete hd _ _ h', rfl⟩)
      · constructor
        · intro hd l q h
          cases h with
          | prop h1 h2 h3 => exact hv1.ends.1 rfl _ _ _ _ (hp1 h1 h2) h3
          | item h h' =>
            rw [hi] at h
            simp only [Option.some.injEq] at h
            subst h
            exact hv2.ends.1 hd _ _ h'
        · intro h
          exact hv2.ends.2 fun l q hq => h _ _ (.item hi hq)
      · intro σ fn s
        unfold gwalkSchema
        rw [hg1 σ fn g!"$" s (by simp), foldRes_append]
        cases foldRes (fnShown fn g!"$") v1 s with
        | ok s1 =>
          simp only [outcome, if_true, hi]
          rw [foldRes_under]
          exact hg2 σ fn _ s1 (by simp [starPath])
        | err => rfl
        | panic => rfl

/-- Without empty names the path shown is that of the position. -/
theorem Spec.At.no_empty {view : P → Option Node} {raw q : P} {l : List Seg} (h : At view raw l q)
    (hn : ∀ l q m, At view raw l q → view q = some (.object m) → NamesOK m) : Seg.key [] ∉ l := by
  induction h with
  | here => simp
  | prop hv hm _ ih =>
    have h1 := hn [] _ _ .here hv
    have h2 := ih fun l q m hq => hn _ q m (.prop hv hm hq)
    simp only [List.mem_cons, not_or]
    refine ⟨?_, h2⟩
    intro he
    injection he with he
    subst he
    exact h1.2 (List.mem_map.2 ⟨_, hm, rfl⟩)
  | item hv _ ih =>
    have h2 := ih fun l q m hq => hn _ q m (.item hv hq)
    simp [h2]

theorem Spec.SchemaAt.no_empty {view : P → Option Node} {sc : Schema} {q : P} {l : List Seg} (h : SchemaAt view sc l q) (hn : SchemaNames view sc) :
    Seg.key [] ∉ l := by
  cases h with
  | prop h1 h2 h3 =>
    have h4 := h3.no_empty fun l q m hq => hn.2 _ q m (.prop h1 h2 hq)
    simp only [List.mem_cons, not_or]
    refine ⟨?_, h4⟩
    intro he
    injection he with he
    subst he
    exact (hn.1 _ h1).2 (List.mem_map.2 ⟨_, h2, rfl⟩)
  | item h1 h3 =>
    have h4 := h3.no_empty fun l q m hq => hn.2 _ q m (.item h1 hq)
    simp [h4]

theorem Spec.SchemaNames.distinct {view : P → Option Node} {sc : Schema} (hn : SchemaNames view sc) : SchemaDistinct view sc :=
  ⟨fun m h => (hn.1 m h).1, fun l q m h hv => (hn.2 l q m h hv).1⟩

/-- The call at a position, if no name on it is empty. -/
def fnAt {σ : Type} (fn : Str → P → σ → Res σ) (path : Str) (x : List Seg × P) (s : σ) : Res σ := fn (path ++ segsText x.1) x.2 s

theorem gwalkSchema_visits (hsh : Shrinks view) (ho : ∀ n m, (order n m).Perm m) (sc : Schema) (tk : Nat) (hn : SchemaNames view sc) :
    ∃ vs done tk', Visits view sc vs done ∧ ∀ (σ : Type) (fn : Str → P → σ → Res σ) (s : σ),
      gwalkSchema view order tk fn sc s = outcome done tk' (foldRes (fnAt fn g!"$") vs s) := by
  obtain ⟨vs, done, tk', h1, h2⟩ := gwalkSchema_shown hsh ho sc tk hn.distinct
  refine ⟨vs, done, tk', h1, fun σ fn s => ?_⟩
  rw [h2, foldRes_congr vs s fun x hx s => ?_]
  have h3 : '$' :: shownText x.1 = '$' :: segsText x.1 := by
    rw [← shownPath_eq, shownPath_names ((h1.sound x hx).no_empty hn)]
    rfl
  simp only [List.cons.injEq, true_and] at h3
  simp only [fnShown, fnAt, h3]

end JT
