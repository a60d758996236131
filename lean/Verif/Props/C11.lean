import Verif.Spec.Toy
/- C11–C13: conversion of raw values to schema types.  The conversion is modelled generically over a view of values (documents as trees, or
values in memory); the theorems hold for every view, every library behaviour and every recursion budget `n` that suffices.  `inj` embeds
scalars in the value type. -/
namespace JT

namespace Spec

/-- The scalars that represent a schema type in Go: `bool`, `string`, `int` or `float64`, `time.Time`; nil is "no value". -/
def Represents (ty : Str) (s : Scal) : Prop :=
  (ty = g!"boolean" ∧ ∃ b, s = .bool b) ∨
  ((ty = g!"number" ∨ ty = g!"integer") ∧ ((∃ i, s = .int i) ∨ ∃ f, s = .f64 f)) ∨
  (ty = g!"string" ∧ ∃ x, s = .str x) ∨
  (ty = g!"date-time" ∧ ∃ t, s = .time t)

/-- The scalar schema types. -/
def ScalarType (ty : Str) : Prop := ty = g!"boolean" ∨ ty = g!"number" ∨ ty = g!"integer" ∨ ty = g!"string" ∨ ty = g!"date-time"

/-- What conversion of a non-array value to a scalar type is meant to give, independent of the code: `none` is an error, `some nil` no value. -/
def scalarOf (lib : Lib) (ty : Str) : Scal → Option Scal
  | .nil => some .nil
  | .bool b => if ty = g!"boolean" then some (.bool b) else if ty = g!"string" then some (.str (if b then g!"true" else g!"false"))
      else if ty = g!"date-time" then none else some (.int (if b then 1 else 0))
  | .str s =>
    if ty = g!"string" then some (.str s)
    else if ty = g!"boolean" then
      if s = [] then some (.bool false)
      else if s ∈ [g!"1", g!"t", g!"T", g!"TRUE", g!"true", g!"True"] then some (.bool true)
      else if s ∈ [g!"0", g!"f", g!"F", g!"FALSE", g!"false", g!"False"] then some (.bool false)
      else none
    else if ty = g!"date-time" then
      if s = [] then some .nil
      else match lib.parseTime g!"2006-01-02T15:04:05Z07:00" s with
        | none => none
        | some t => some (if t.isZero then .nil else .time t)
    else if s = [] then some .nil
    else match atoi s with
      | some i => some (.int i)
      | none => (lib.parseFloat s).map .f64
  | .int i => if ty = g!"boolean" then some (.bool (decide (0 < i))) else if ty = g!"string" then some (.str (itoa i))
      else if ty = g!"date-time" then some (.time ⟨i, 0, 0⟩) else some (.int i)
  | .f64 f => if ty = g!"boolean" then some (.bool (F64.gt f F64.zero)) else if ty = g!"string" then some (.str (lib.formatFloat f))
      else if ty = g!"date-time" then some (.time ⟨lib.toInt f, 0, 0⟩) else some (.f64 f)
  | _ => none

/-- The first leaf of a value: arrays are unwrapped at any depth; an empty array has none. -/
inductive FirstLeaf {α : Type} (vw : View α) : α → Option α → Prop
  | leaf {x : α} : (∀ l, vw.shape x ≠ .arr l) → FirstLeaf vw x (some x)
  | empty {x : α} : vw.shape x = .arr [] → FirstLeaf vw x none
  | cons {x y : α} {l : List α} {r : Option α} : vw.shape x = .arr (y :: l) → FirstLeaf vw y r → FirstLeaf vw x r

end Spec
open Spec

variable {α : Type} {lib : Lib} {vw : View α}

theorem convertTo_boolean (raw : α) : convertTo lib vw g!"boolean" raw = convertBoolean (vw.shape raw) := by simp [convertTo]
theorem convertTo_number (raw : α) : convertTo lib vw g!"number" raw = convertNumber lib (vw.shape raw) := by simp [convertTo]
theorem convertTo_integer (raw : α) : convertTo lib vw g!"integer" raw = convertNumber lib (vw.shape raw) := by simp [convertTo]
theorem convertTo_string (raw : α) : convertTo lib vw g!"string" raw = convertString lib (vw.shape raw) := by simp [convertTo]
theorem convertTo_dateTime (raw : α) : convertTo lib vw g!"date-time" raw = convertDateTime lib (vw.shape raw) := by simp [convertTo]

/-- Conversion of a non-array value to a scalar type agrees with the specification; if it fails the value is nil, or `false` for booleans. -/
theorem convertTo_scalarOf {ty : Str} (hty : ScalarType ty) {raw : α} {s : Scal} (hs : vw.shape raw = .sc s) (hn : s ≠ .nil) :
    match scalarOf lib ty s with
    | some r => convertTo lib vw ty raw = ⟨.sc r, false⟩
    | none => (convertTo lib vw ty raw).err = true ∧
        ((convertTo lib vw ty raw).val = .sc .nil ∨ ty = g!"boolean" ∧ (convertTo lib vw ty raw).val = .sc (.bool false)) := by
  rcases hty with rfl | rfl | rfl | rfl | rfl
  · rw [convertTo_boolean, hs]
    cases s with
    | nil => exact absurd rfl hn
    | str x =>
      simp only [scalarOf, convertBoolean, parseBool, List.mem_cons, List.not_mem_nil, or_false]
      by_cases h0 : x = []
      · subst h0; simp
      · by_cases h1 : x = g!"1" ∨ x = g!"t" ∨ x = g!"T" ∨ x = g!"TRUE" ∨ x = g!"true" ∨ x = g!"True"
        · simp [h0, h1]
        · by_cases h2 : x = g!"0" ∨ x = g!"f" ∨ x = g!"F" ∨ x = g!"FALSE" ∨ x = g!"false" ∨ x = g!"False"
          · simp [h0, h1, h2]
          · simp [h0, h1, h2]
    | _ => simp [scalarOf, convertBoolean]
  · rw [convertTo_number, hs]
    cases s with
    | nil => exact absurd rfl hn
    | str x =>
      simp only [scalarOf, convertNumber]
      by_cases h0 : x = []
      · subst h0; simp
      · simp only [h0, if_false]
        cases atoi x with
        | some i => simp
        | none => cases lib.parseFloat x <;> simp
    | _ => simp [scalarOf, convertNumber]
  · rw [convertTo_integer, hs]
    cases s with
    | nil => exact absurd rfl hn
    | str x =>
      simp only [scalarOf, convertNumber]
      by_cases h0 : x = []
      · subst h0; simp
      · simp only [h0, if_false]
        cases atoi x with
        | some i => simp
        | none => cases lib.parseFloat x <;> simp
    | _ => simp [scalarOf, convertNumber]
  · rw [convertTo_string, hs]
    cases s with
    | nil => exact absurd rfl hn
    | _ => simp [scalarOf, convertString, formatBool]
  · rw [convertTo_dateTime, hs]
    cases s with
    | nil => exact absurd rfl hn
    | str x =>
      simp only [scalarOf, convertDateTime, rfc3339]
      by_cases h0 : x = []
      · subst h0; simp
      · simp only [h0, if_false]
        cases lib.parseTime g!"2006-01-02T15:04:05Z07:00" x with
        | none => simp
        | some t => by_cases ht : t.isZero <;> simp [ht]
    | _ => simp [scalarOf, convertDateTime]

/-- Arrays, objects and nil themselves have no scalar representation. -/
theorem convertTo_noscalar {ty : Str} (hty : ScalarType ty) {raw : α} (hs : ∀ s, s ≠ .nil → vw.shape raw ≠ .sc s) :
    (convertTo lib vw ty raw).val = .sc .nil := by
  have h : vw.shape raw = .sc .nil ∨ (∃ l, vw.shape raw = .arr l) ∨ ∃ l, vw.shape raw = .obj l := by
    cases h : vw.shape raw with
    | sc x => cases x with
      | nil => exact Or.inl rfl
      | _ => exact absurd h (hs _ (by simp))
    | arr l => exact Or.inr (Or.inl ⟨l, rfl⟩)
    | obj l => exact Or.inr (Or.inr ⟨l, rfl⟩)
  rcases hty with rfl | rfl | rfl | rfl | rfl
  · rw [convertTo_boolean]; rcases h with h | ⟨l, h⟩ | ⟨l, h⟩ <;> rw [h] <;> rfl
  · rw [convertTo_number]; rcases h with h | ⟨l, h⟩ | ⟨l, h⟩ <;> rw [h] <;> rfl
  · rw [convertTo_integer]; rcases h with h | ⟨l, h⟩ | ⟨l, h⟩ <;> rw [h] <;> rfl
  · rw [convertTo_string]; rcases h with h | ⟨l, h⟩ | ⟨l, h⟩ <;> rw [h] <;> rfl
  · rw [convertTo_dateTime]; rcases h with h | ⟨l, h⟩ | ⟨l, h⟩ <;> rw [h] <;> rfl

theorem ScalarType.ne_array {ty : Str} (h : ScalarType ty) : ty ≠ g!"array" := by
  rcases h with rfl | rfl | rfl | rfl | rfl <;> decide

/-- Every conversion comes down to the final switch on some part of the value, or gives nil. -/
theorem convert_cases {ty : Str} : ∀ {n : Nat} {raw : α} {c : Conv α}, convert lib vw ty n raw = .ok c →
    c = ⟨.sc .nil, false⟩ ∨ ∃ x, c = convertTo lib vw ty x
  | 0, _, _, h => by simp [convert] at h
  | n + 1, raw, c, h => by
    rw [convert] at h
    split at h
    · exact Or.inl (by simpa using h.symm)
    · exact Or.inl (by simpa using h.symm)
    · split at h
      · split at h
        · exact convert_cases h
        · exact Or.inr ⟨_, by simpa using h.symm⟩
      · exact Or.inr ⟨_, by simpa using h.symm⟩
    · exact Or.inr ⟨_, by simpa using h.symm⟩

theorem scalarOf_represents {ty : Str} (hty : ScalarType ty) {s r : Scal} (h : scalarOf lib ty s = some r) : r = .nil ∨ Represents ty r := by
  unfold Represents
  rcases hty with rfl | rfl | rfl | rfl | rfl <;> cases s <;> simp [scalarOf] at h
  all_goals try (subst h; simp)
  · rename_i x
    by_cases h0 : x = []
    · subst h0; simp at h; subst h; simp
    · simp only [h0, if_false] at h
      split at h
      · simp at h; subst h; simp
      · split at h
        · simp at h; subst h; simp
        · simp at h
  · split at h
    · simp at h; simp [h.symm]
    · split at h
      · simp at h; simp [h.symm]
      · obtain ⟨a, _, h⟩ := Option.map_eq_some_iff.1 h; simp [h.symm]
  · split at h
    · simp at h; simp [h.symm]
    · split at h
      · simp at h; simp [h.symm]
      · obtain ⟨a, _, h⟩ := Option.map_eq_some_iff.1 h; simp [h.symm]
  · split at h
    · simp at h; simp [h.symm]
    · split at h
      · simp at h
      · simp at h
        split at h <;> simp [h.symm]

/-- **C11**: whenever a conversion to a scalar type succeeds, it gives no value or a value of the Go type that represents the schema type.
(When it fails, the value returned beside the error is nil, or `false` for booleans: also of that type.) -/
theorem C11 {ty : Str} (hty : ScalarType ty) {n : Nat} {raw : α} {c : Conv α} (h : convert lib vw ty n raw = .ok c) :
    ∃ s, c.val = .sc s ∧ (s = .nil ∨ Represents ty s) := by
  rcases convert_cases h with rfl | ⟨x, rfl⟩
  · exact ⟨.nil, rfl, Or.inl rfl⟩
  · by_cases hs : ∃ s, s ≠ .nil ∧ vw.shape x = .sc s
    · obtain ⟨s, hn, hs⟩ := hs
      have := convertTo_scalarOf (lib := lib) hty hs hn
      cases hr : scalarOf lib ty s with
      | some r =>
        rw [hr] at this
        simp only at this
        rw [this]
        exact ⟨r, rfl, scalarOf_represents hty hr⟩
      | none =>
        rw [hr] at this
        rcases this with ⟨_, h1 | ⟨h1, h2⟩⟩
        · exact ⟨_, h1, Or.inl rfl⟩
        · exact ⟨_, h2, Or.inr (Or.inl ⟨h1, _, rfl⟩)⟩
    · exact ⟨_, convertTo_noscalar hty fun s h1 h2 => hs ⟨s, h1, h2⟩, Or.inl rfl⟩

/-- **C12, full statement**: converting the result of a successful conversion to the same scalar type again gives the same value. -/
def C12_statement : Prop :=
  ∀ (lib : Lib) (ty : Str) (n m : Nat) (raw : P) (s : Scal), ScalarType ty → convert lib P.view ty n raw = .ok ⟨.sc s, false⟩ →
    convert lib P.view ty (m + 1) (.sc s) = .ok ⟨.sc s, false⟩

/-- C12 for all scalar types but date-time.  Missing: date-time, where it is false (`C12_refuted`): a `time.Time` cannot be converted. -/
theorem C12_partial {ty : Str} (hty : ScalarType ty) (hd : ty ≠ g!"date-time") {n m : Nat} {raw x : α} {s : Scal} {e : Bool}
    (h : convert lib vw ty n raw = .ok ⟨.sc s, e⟩) (hx : vw.shape x = .sc s) : convert lib vw ty (m + 1) x = .ok ⟨.sc s, false⟩ := by
  obtain ⟨s', h1, h2⟩ := C11 hty h
  simp only [Out.sc.injEq] at h1
  subst h1
  by_cases hn : s = .nil
  · subst hn
    rw [convert, hx]
  · have hr : Represents ty s := h2.resolve_left hn
    have hc : convert lib vw ty (m + 1) x = .ok (convertTo lib vw ty x) := by
      rw [convert, hx]
      cases s with
      | nil => exact absurd rfl hn
      | _ => rfl
    rw [hc]
    rcases hr with ⟨rfl, b, rfl⟩ | ⟨rfl | rfl, ⟨i, rfl⟩ | ⟨f, rfl⟩⟩ | ⟨rfl, z, rfl⟩ | ⟨h, _⟩
    · rw [convertTo_boolean, hx]; rfl
    · rw [convertTo_number, hx]; rfl
    · rw [convertTo_number, hx]; rfl
    · rw [convertTo_integer, hx]; rfl
    · rw [convertTo_integer, hx]; rfl
    · rw [convertTo_string, hx]; rfl
    · exact absurd h hd

/-- C12 as stated is false: 0 converts to a time, which does not convert again. -/
theorem C12_refuted : ¬ C12_statement := by
  intro h
  have := h (Toy.lib []) g!"date-time" 1 0 (.sc (.int 0)) (.time ⟨0, 0, 0⟩) (by unfold ScalarType; simp) rfl
  have h2 : convert (Toy.lib []) P.view g!"date-time" 1 (.sc (.time ⟨0, 0, 0⟩)) = .ok ⟨.sc .nil, true⟩ := rfl
  rw [h2] at this
  simp at this

/-- **C13, full statement**: converting an array to a scalar type converts its first leaf and an array without one gives no value;
converting an array to type array keeps all its elements. -/
def C13_statement : Prop :=
  (∀ (lib : Lib) (ty : Str) (l : List P) (n : Nat) (c : Conv P), ScalarType ty → convert lib P.view ty n (.arr l) = .ok c →
    (FirstLeaf P.view (.arr l) none → c = ⟨.sc .nil, false⟩) ∧
    ∀ x, FirstLeaf P.view (.arr l) (some x) → ∃ m, convert lib P.view ty m x = .ok c) ∧
  (∀ (lib : Lib) (l : List P) (n : Nat) (c : Conv P), convert lib P.view g!"array" n (.arr l) = .ok c → c = ⟨.val (.arr l), false⟩)

theorem FirstLeaf.unique {x : α} {r r' : Option α} (h : FirstLeaf vw x r) (h' : FirstLeaf vw x r') : r = r' := by
  induction h generalizing r' with
  | leaf h => cases h' with
    | leaf _ => rfl
    | empty h1 => exact absurd h1 (h _)
    | cons h1 _ => exact absurd h1 (h _)
  | empty h => cases h' with
    | leaf h1 => exact absurd h (h1 _)
    | empty _ => rfl
    | cons h1 _ => rw [h] at h1; simp at h1
  | cons h _ ih => cases h' with
    | leaf h1 => exact absurd h (h1 _)
    | empty h1 => rw [h] at h1; simp at h1
    | cons h1 h2 => rw [h] at h1; simp at h1; exact ih (h1.1 ▸ h2)

/-- C13 for scalar types, up to the error: the value is that of the first leaf (with the same error unless the leaf is nil), and nil if
there is none.  Missing: when the first leaf is nil or absent an error may be reported as well (`C13_refuted`: `[[]]`). -/
theorem C13_partial {ty : Str} (hty : ScalarType ty) : ∀ {n : Nat} {raw : α} {c : Conv α} {r : Option α}, convert lib vw ty n raw = .ok c →
    FirstLeaf vw raw r →
    match r with
    | none => c.val = .sc .nil
    | some x => c.val = (convertTo lib vw ty x).val ∧ (vw.shape x ≠ .sc .nil → c = convertTo lib vw ty x)
  | 0, _, _, _, h, _ => by simp [convert] at h
  | n + 1, raw, c, r, h, hf => by
    rw [convert] at h
    cases hf with
    | leaf hl =>
      split at h
      · rename_i hs
        simp only [Res.ok.injEq] at h
        subst h
        refine ⟨?_, fun hne => absurd hs hne⟩
        rw [convertTo_noscalar hty]
        intro s hn; rw [hs]; simpa using hn.symm
      · rename_i hs; exact absurd hs (hl _)
      · rename_i hs; exact absurd hs (hl _)
      · simp only [Res.ok.injEq] at h
        subst h
        exact ⟨rfl, fun _ => rfl⟩
    | empty hs => rw [hs] at h; simp only [Res.ok.injEq] at h; subst h; rfl
    | @cons _ y l _ hs hf =>
      rw [hs] at h
      simp only [ScalarType.ne_array hty, ne_eq, not_false_eq_true, or_true, if_true] at h
      split at h
      · rename_i z l' hy
        cases hf with
        | leaf hl => exact absurd hy (hl _)
        | empty he => rw [hy] at he; simp at he
        | cons he hf =>
          rw [hy] at he
          simp only [Shape.arr.injEq, List.cons.injEq] at he
          obtain ⟨rfl, rfl⟩ := he
          exact C13_partial hty h hf
      · rename_i hne
        simp only [Res.ok.injEq] at h
        subst h
        cases hf with
        | leaf hl => exact ⟨rfl, fun _ => rfl⟩
        | empty he => exact convertTo_noscalar hty fun s _ => by rw [he]; simp
        | cons he hf => exact absurd he (hne _ _)

/-- Arrays with several elements, or a single one which is not an array, keep their elements when converted to type array (the single
element is returned unwrapped; array instances wrap it again, C06). -/
theorem C13_array_partial {n : Nat} {raw : α} {x : α} {l : List α} {c : Conv α} (hs : vw.shape raw = .arr (x :: l))
    (h : convert lib vw g!"array" n raw = .ok c) :
    (l ≠ [] → c = ⟨.val raw, false⟩) ∧ (l = [] → (∀ l', vw.shape x ≠ .arr l') → c = ⟨.val x, false⟩) := by
  cases n with
  | zero => simp [convert] at h
  | succ n =>
    rw [convert, hs] at h
    have ht : ∀ y, convertTo lib vw g!"array" y = ⟨.val y, false⟩ := fun y => by simp [convertTo]
    constructor
    · intro hl
      simp only [hl, ne_eq, not_true_eq_false, or_self, if_false, ht, Res.ok.injEq] at h
      exact h.symm
    · intro hl hx
      simp only [hl, ne_eq, not_true_eq_false, or_false, if_true] at h
      split at h
      · rename_i hy; exact absurd hy (hx _)
      · simp only [ht, Res.ok.injEq] at h
        exact h.symm

/-- C13 as stated is false: `[[]]` converted to a number is an error. -/
theorem C13_refuted : ¬ C13_statement := by
  intro h
  have := (h.1 (Toy.lib []) g!"number" [.arr []] 1 ⟨.sc .nil, true⟩ (by unfold ScalarType; simp) rfl).1 (.cons rfl (.empty rfl))
  simp at this

/-- Nor does conversion to type array keep the elements: `[[1,2]]` becomes 1. -/
theorem C13_refuted_array : ¬ C13_statement := by
  intro h
  have := h.2 (Toy.lib []) [.arr [.sc (.int 1), .sc (.int 2)]] 2 ⟨.val (.sc (.int 1)), false⟩ rfl
  simp at this

namespace C11ex
/-- The hypotheses are met by non-trivial values. -/
example : convert (Toy.lib []) P.view g!"number" 5 (.arr [.arr [.sc (.str g!"12")], .sc .nil]) = .ok ⟨.sc (.int 12), false⟩ := rfl
example : FirstLeaf P.view (.arr [.arr [.sc (.str g!"12")], .sc .nil]) (some (.sc (.str g!"12"))) :=
  .cons rfl (.cons rfl (.leaf (by simp [P.view, P.shape])))
example : ScalarType g!"number" ∧ g!"number" ≠ g!"date-time" := ⟨by unfold ScalarType; simp, by decide⟩
end C11ex

end JT
