import Verif.Model.AvroTime
/- C51, C52: Avro timestamps. -/
namespace JT.Avro

/-- A time: the nanoseconds are less than a second. -/
def Time.ok (t : Time) : Prop := t.nsec < 1000000000

/-- The moment, in nanoseconds since the epoch. -/
def Time.at (t : Time) : Int := t.sec * 1000000000 + t.nsec

/-- The moment can be told in nanoseconds with 64 bits: from 1677-09-21 to 2262-04-11. -/
def Time.near (t : Time) : Prop := -(2 ^ 63) ≤ t.at ∧ t.at < 2 ^ 63

theorem wrap64_id {n : Int} (h1 : -(2 ^ 63) ≤ n) (h2 : n < 2 ^ 63) : wrap64 n = n := by
  unfold wrap64
  rw [Int.emod_eq_of_lt (by omega) (by omega)]
  omega

theorem unixNano_near {t : Time} (h : t.near) : t.unixNano = t.at := wrap64_id h.1 h.2

theorem tdiv_nonneg {n : Int} (h : 0 ≤ n) : n.tdiv 1000000 = n / 1000000 := Int.tdiv_eq_ediv_of_nonneg h

/-- Rounding towards zero. -/
theorem tdiv_spec (n : Int) : n.tdiv 1000000 = if 0 ≤ n then n / 1000000 else -((-n) / 1000000) := by
  split
  · exact Int.tdiv_eq_ediv_of_nonneg (by assumption)
  · have h : 0 ≤ -n := by omega
    have := Int.tdiv_eq_ediv_of_nonneg (b := 1000000) h
    rw [Int.neg_tdiv] at this
    omega

end JT.Avro

namespace JT
open Avro

/-- C51 as one would like it: the milliseconds since the epoch, rounded down. -/
def C51_statement : Prop := ∀ t : Time, t.ok → (avroTime t : Int) = t.at / 1000000

/-- **C51**, partial: for times from 1970 to 2262 it is the number of milliseconds since the epoch, rounded down. -/
theorem C51_partial {t : Time} (h1 : 0 ≤ t.at) (h2 : t.at < 2 ^ 63) : avroTime t * 1000000 ≤ t.at ∧ t.at < (avroTime t + 1) * 1000000 := by
  unfold avroTime
  rw [unixNano_near ⟨by omega, h2⟩, tdiv_spec]
  simp only [h1, if_true]
  omega

example : avroTime ⟨1700000000, 123456789⟩ = 1700000000123 := by decide

/-- From 1677 on the error is less than a millisecond. -/
theorem C51_near {t : Time} (h : t.near) : -1000000 < t.at - avroTime t * 1000000 ∧ t.at - avroTime t * 1000000 < 1000000 := by
  unfold avroTime
  rw [unixNano_near h, tdiv_spec]
  split <;> omega

/-- From 1677 to 2262 the order is preserved. -/
theorem C51_order {t u : Time} (ht : t.near) (hu : u.near) (h : t.at ≤ u.at) : avroTime t ≤ avroTime u := by
  unfold avroTime
  rw [unixNano_near ht, unixNano_near hu, tdiv_spec, tdiv_spec]
  split <;> split <;> omega

/-- From 1677 to 2262 it is exact on whole milliseconds, so they can be told apart. -/
theorem C51_exact {t : Time} (ht : t.near) {ms : Int} (h : t.at = ms * 1000000) : avroTime t = ms := by
  unfold avroTime
  rw [unixNano_near ht, tdiv_spec, h]
  split <;> omega

example : Time.near ⟨-1000000000, 5000000⟩ ∧ Time.at ⟨-1000000000, 5000000⟩ = -999999999995 * 1000000 ∧ avroTime ⟨-1000000000, 5000000⟩ = -999999999995 := by
  refine ⟨⟨by decide, by decide⟩, by decide, by decide⟩

/-- Before 1970 it rounds up: half a millisecond before the epoch is told as the epoch. -/
theorem C51_refuted : ¬ C51_statement := by
  intro h
  have := h ⟨-1, 999500000⟩ (by unfold Time.ok; decide)
  revert this
  decide

/-- The zero `time.Time` (year 1) is told as 1754-08-30, later than 1677. -/
theorem C51_refuted_zero : avroTime ⟨-62135596800, 0⟩ = -6795364578871 ∧ avroTime ⟨-9000000000, 0⟩ = -9000000000000 := by decide

/-- **C52**: the slice is converted entry by entry. -/
theorem C52_slice (ts : List Time) : (avroTimeSlice ts).length = ts.length ∧ ∀ (i : Nat) t, ts[i]? = some t → (avroTimeSlice ts)[i]? = some (avroTime t) := by
  refine ⟨by simp [avroTimeSlice], ?_⟩
  intro i t h
  simp [avroTimeSlice, h]

theorem optional_fold : ∀ (ts : List (Option Time)) (acc : List Int), ts.foldl optStep acc = acc ++ (ts.filterMap id).map avroTime
  | [], acc => by simp
  | none :: ts, acc => by simpa [optStep] using optional_fold ts acc
  | some t :: ts, acc => by
    have := optional_fold ts (acc ++ [avroTime t])
    simpa [optStep] using this

/-- **C52**: the optional slice has one entry for each time that is not nil, in order; it is nil iff there is none. -/
theorem C52_optional (ts : List (Option Time)) :
    (avroOptionalTimeSlice ts = none ↔ ∀ t ∈ ts, t = none) ∧ ∀ r, avroOptionalTimeSlice ts = some r → r = (ts.filterMap id).map avroTime := by
  unfold avroOptionalTimeSlice
  rw [optional_fold]
  simp only [List.nil_append]
  refine ⟨?_, ?_⟩
  · constructor
    · intro h
      split at h
      · rename_i hl
        intro t ht
        cases t with
        | none => rfl
        | some t =>
          have : t ∈ ts.filterMap id := List.mem_filterMap.2 ⟨_, ht, rfl⟩
          have := List.length_pos_of_mem (List.mem_map_of_mem (f := avroTime) this)
          omega
      · simp at h
    · intro h
      have : ts.filterMap id = [] := by
        rw [List.filterMap_eq_nil_iff]
        intro x hx
        exact h x hx
      rw [this]
      simp
  · intro r h
    split at h
    · simp at h
    · injection h with h; exact h.symm

example : avroOptionalTimeSlice [none, some ⟨1, 0⟩, none, some ⟨2, 7000000⟩] = some [1000, 2007] := by decide

/-- C52 as one would like it: absence and the times can be told apart. -/
def C52_statement : Prop := ∀ t : Time, avroOptionalTime none ≠ avroOptionalTime (some t)

/-- A nil time is told as the epoch. -/
theorem C52_refuted : ¬ C52_statement := fun h => h ⟨0, 0⟩ (by decide)

/-- **C52**, partial: absence can be told apart from times that are a millisecond or more away from the epoch. -/
theorem C52_partial {t : Time} (ht : t.near) (h : t.at ≤ -1000000 ∨ 1000000 ≤ t.at) : avroOptionalTime none ≠ avroOptionalTime (some t) := by
  simp only [avroOptionalTime]
  rw [unixNano_near ht, tdiv_spec]
  split <;> omega

end JT
