import Verif.Proofs.Build
import Verif.Spec.Toy
import Verif.Spec.Check
/- C01 (history independence) and C02 (no writes to shared data). -/
namespace JT
open Spec

/-- Sequential use of one Transformer: each call comes with its own environment (iteration orders, clock)
and input text. -/
def afterCalls (t : T) : List (Env × Str) → St → St
  | [], s => s
  | (env, raw) :: rest, s => afterCalls t rest (transform env t raw s).2

/-- **C01, full statement**: what `Transform` returns does not depend on the calls made before. -/
def C01_statement : Prop :=
  ∀ (env0 : Env) (sc : Schema) (ident : Str) (t : T) (s0 : St), newTransformer env0 sc ident = .ok (t, s0) →
    ∀ (history : List (Env × Str)) (env : Env) (raw : Str),
      (transform env t raw (afterCalls t history s0)).1 = (transform env t raw s0).1

/-- The memory of a Transformer next to other live data: the inputs and results of other calls. -/
def St.with (s : St) (other : Heap) : St := { s with heap := s.heap ++ other }

/-- **C02, full statement**: a call writes no map, slice or instruction list that existed when it started,
whether it belongs to the Transformer or to other calls. -/
def C02_statement : Prop :=
  ∀ (env0 : Env) (sc : Schema) (ident : Str) (t : T) (s0 : St), newTransformer env0 sc ident = .ok (t, s0) →
    ∀ (env : Env) (raw : Str) (other : Heap),
      (∀ a ∈ (baseTransform env t raw (s0.with other)).2.wlog, (s0.heap ++ other).length ≤ a) ∧
      (baseTransform env t raw (s0.with other)).2.ilog = []

/-- C02 holds for schemas without array/object defaults and without method `last`, for JSON and XML input,
any library behaviour and any iteration order; the Transformer's data also stays the same.
Missing: schemas with array or object defaults or with method `last`, where it is false (below). -/
theorem C02_partial {env0 : Env} {sc : Schema} {ident : Str} {t : T} {s0 : St}
    (hb : newTransformer env0 sc ident = .ok (t, s0))
    (hd : ∀ q, SchemaInst sc q → ScalarDefault q) (hl : ∀ q, SchemaInst sc q → NotLast ident q)
    (env : Env) (raw : Str) (other : Heap) :
    let s := (baseTransform env t raw (s0.with other)).2
    (∀ a ∈ s.wlog, (s0.heap ++ other).length ≤ a) ∧ s.ilog = [] ∧
    (∀ a < (s0.heap ++ other).length, s.heap[a]? = (s0.heap ++ other)[a]?) ∧ s.instrs = s0.instrs := by
  obtain ⟨ht, hs⟩ := newTransformer_clean hb hd hl
  have hinv : Inv (s0.heap ++ other).length (s0.with other) := by
    refine ⟨Nat.le_refl _, ?_, hs.noLast⟩
    intro a c ha hc
    have := (List.getElem?_eq_some_iff.1 hc).1
    simp only [St.with] at this
    omega
  obtain ⟨_, he, _⟩ := Safe.baseTransform (env := env) ht raw _ hinv
  refine ⟨?_, ?_, he.heap, he.instrs⟩
  · obtain ⟨l, hl1, hl2⟩ := he.wlog
    rw [hl1, show (s0.with other).wlog = [] from hs.wlog, List.append_nil]
    exact hl2
  · exact he.ilog.trans hs.ilog

/-- A call on a Transformer without mutable data leaves the Transformer exactly as it was. -/
theorem transform_state {t : T} {s0 : St} (ht : t.scalarDefaults) (hs : CleanSt s0) (env : Env) (raw : Str) :
    (transform env t raw s0).2 = s0 := by
  have hinv : Inv 0 s0 := by
    refine ⟨Nat.zero_le _, ?_, hs.noLast⟩
    intro a c _ hc
    rw [hs.heap] at hc
    simp at hc
  obtain ⟨_, he, _⟩ := Safe.baseTransform (env := env) ht raw s0 hinv
  have hgc : (baseTransform env t raw s0).2.gc = s0 := by
    have h1 := he.instrs
    have h2 := he.shared
    rw [hs.shared] at h2
    unfold St.gc
    simp only [h2, List.take_zero, List.all_nil, if_true]
    obtain ⟨heap, instrs, tick, wlog, ilog, shared⟩ := s0
    have := hs.heap; have := hs.shared; have := hs.tick; have := hs.wlog; have := hs.ilog
    simp_all
  have hno : (transformNoValidation env t raw s0).2 = s0 := by
    unfold transformNoValidation
    exact hgc
  unfold transform validated
  rw [M.bind_apply]
  rcases hx : transformNoValidation env t raw s0 with ⟨r, s1⟩
  rw [hx] at hno
  simp only at hno
  subst hno
  cases r with
  | ok out =>
    simp only
    rcases env.lib.validate out with _ | (_ | _) <;> rfl
  | err => rfl
  | panic => rfl

theorem afterCalls_state {t : T} {s0 : St} (ht : t.scalarDefaults) (hs : CleanSt s0) (history : List (Env × Str)) :
    afterCalls t history s0 = s0 := by
  induction history with
  | nil => rfl
  | cons c rest ih =>
    obtain ⟨env, raw⟩ := c
    simp only [afterCalls]
    rw [transform_state ht hs]
    exact ih

/-- C01 holds for schemas without array/object defaults and without method `last`.
Missing: schemas with array or object defaults or with method `last`, where it is false (below). -/
theorem C01_partial {env0 : Env} {sc : Schema} {ident : Str} {t : T} {s0 : St}
    (hb : newTransformer env0 sc ident = .ok (t, s0))
    (hd : ∀ q, SchemaInst sc q → ScalarDefault q) (hl : ∀ q, SchemaInst sc q → NotLast ident q)
    (history : List (Env × Str)) (env : Env) (raw : Str) :
    (transform env t raw (afterCalls t history s0)).1 = (transform env t raw s0).1 := by
  obtain ⟨ht, hs⟩ := newTransformer_clean hb hd hl
  rw [afterCalls_state ht hs]

namespace C01ex
open Toy

/-- `{"x": {"type":"string","transform":{"t":{"method":"last","from":[{"jsonPath":"$.a"},{"jsonPath":"$.b"}]}}}}` -/
def lastSchema : Schema := ⟨some [(g!"x", strFrom g!"last" [g!"$.a", g!"$.b"])], none⟩

def docs : List (Str × P) := [(g!"in", o [(g!"a", s g!"A"), (g!"b", s g!"B")]),
  (g!"in2", o [(g!"o", o [(g!"q", s g!"1")])]), (g!"in3", o [])]

/-- An object with a default. -/
def dfltSchema : Schema := ⟨some [(g!"o", .obj [(g!"type", s g!"object"), (g!"default", o [(g!"p", s g!"0")]),
  (g!"properties", o [(g!"q", o [(g!"type", s g!"string")])])])], none⟩

/-- A schema covered by the positive theorems: nested objects, arrays, scalar defaults, transforms. -/
def okSchema : Schema := ⟨some [
  (g!"n", o [(g!"type", s g!"number"), (g!"default", i 3)]),
  (g!"o", .obj [(g!"type", s g!"object"), (g!"properties", o [
    (g!"l", o [(g!"type", s g!"array"), (g!"items", o [(g!"type", s g!"string")])]),
    (g!"x", strFrom g!"concatenate" [g!"$.a", g!"$.b"])])])], none⟩

def built (sc : Schema) : Res (T × St) := newTransformer (env docs) sc g!"t"

/-- The first and the second result of calling Transform on one input, then another. -/
def two (sc : Schema) (first second : Str) : Res (Str × Str) :=
  match built sc with
  | .ok (t, s0) =>
    match (transform (env docs) t second (transform (env docs) t first s0).2).1, (transform (env docs) t second s0).1 with
    | .ok x, .ok y => .ok (x, y)
    | _, _ => .err
  | _ => .err

theorem last_differs : two lastSchema g!"in" g!"in" = .ok (g!"{x:\"A\"}", g!"{x:\"B\"}") := by decide +kernel

theorem default_leaks : two dfltSchema g!"in2" g!"in3" = .ok (g!"{o:{p:\"0\",q:\"1\"}}", g!"{o:{p:\"0\"}}") := by
  decide +kernel

/-- The hypotheses of the positive theorems are met by a non-trivial schema. -/
example : ∃ t s0, newTransformer (env docs) okSchema g!"t" = .ok (t, s0) ∧
    (∀ q, SchemaInst okSchema q → ScalarDefault q) ∧ (∀ q, SchemaInst okSchema q → NotLast g!"t" q) ∧
    (transform (env docs) t g!"in" s0).1 = .ok g!"{n:3,o:{x:\"AB\"}}" := by
  have h : (match built okSchema with
    | .ok (t, s0) => decide ((transform (env docs) t g!"in" s0).1 = .ok g!"{n:3,o:{x:\"AB\"}}")
    | _ => false) = true := by decide +kernel
  split at h
  · rename_i t s0 hb
    refine ⟨t, s0, hb, ?_, ?_, of_decide_eq_true h⟩
    · intro q hq
      exact scalarDefaultB_sound (checkSchema_sound (f := scalarDefaultB) (n := 5) (by decide +kernel) hq)
    · intro q hq
      exact notLastB_sound (checkSchema_sound (f := notLastB g!"t") (n := 5) (by decide +kernel) hq)
  · contradiction

end C01ex

theorem C01_of_two {sc : Schema} {a b : Str} {x y : Str} (h : C01ex.two sc a b = .ok (x, y)) (hne : x ≠ y) :
    ¬ C01_statement := by
  intro hc
  unfold C01ex.two at h
  split at h
  · rename_i t s0 hb
    have := hc _ sc g!"t" t s0 hb [(Toy.env C01ex.docs, a)] (Toy.env C01ex.docs) b
    simp only [afterCalls] at this
    split at h
    · rename_i x' y' hx hy
      simp at h
      rw [hx, hy] at this
      simp at this
      exact hne (by rw [← h.1, ← h.2, this])
    · contradiction
  · contradiction

/-- C01 is false in general: with method `last`, two equal calls in a row return different results, because
every call reverses the stored list of instructions. -/
theorem C01_refuted_last : ¬ C01_statement := C01_of_two C01ex.last_differs (by decide)

/-- C01 is false in general: an object default is modified by the first call and seen by the second. -/
theorem C01_refuted_default : ¬ C01_statement := C01_of_two C01ex.default_leaks (by decide)

namespace C01ex
open Toy
/-- Does the call write a shared cell or a shared instruction list? -/
def writesShared (sc : Schema) (raw : Str) : Bool × Bool :=
  match built sc with
  | .ok (t, s0) =>
    let s := (baseTransform (env docs) t raw s0).2
    (s.wlog.any fun a => decide (a < s0.heap.length), decide (s.ilog ≠ []))
  | _ => (false, false)
end C01ex

theorem C02_of_write {sc : Schema} {raw : Str} (h : C01ex.writesShared sc raw ≠ (false, false)) : ¬ C02_statement := by
  intro hc
  apply h
  unfold C01ex.writesShared
  split
  · rename_i t s0 hb
    obtain ⟨h1, h2⟩ := hc _ sc g!"t" t s0 hb (Toy.env C01ex.docs) raw []
    simp only [St.with, List.append_nil] at h1 h2
    simp only [h2]
    simp
    intro a ha
    exact h1 a ha
  · rfl

/-- C02 is false in general: method `last` writes the shared instruction list, so two concurrent calls race. -/
theorem C02_refuted_last : ¬ C02_statement :=
  C02_of_write (sc := C01ex.lastSchema) (raw := g!"in") (by
    have : C01ex.writesShared C01ex.lastSchema g!"in" = (false, true) := by decide +kernel
    rw [this]; decide)

/-- C02 is false in general: the map of an object default is written during the call. -/
theorem C02_refuted_default : ¬ C02_statement :=
  C02_of_write (sc := C01ex.dfltSchema) (raw := g!"in2") (by
    have : C01ex.writesShared C01ex.dfltSchema g!"in2" = (true, false) := by decide +kernel
    rw [this]; decide)

end JT
