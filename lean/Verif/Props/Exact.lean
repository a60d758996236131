import Verif.Props.C11
import Verif.Props.C14
import Verif.Props.C45
import Verif.Props.C51
/- C12, C15, C46, C51, C52: exactly when they hold, where they do not hold in general. -/
namespace JT
open Spec Cache

/-! ### C12 -/

/-- **C12**, exactly: a converted time is the only result that cannot be converted again, and it never can. -/
theorem C12_iff {α : Type} {lib : Lib} {vw : View α} {ty : Str} (hty : ScalarType ty) {n m : Nat} {raw x : α} {s : Scal} {e : Bool}
    (h : convert lib vw ty n raw = .ok ⟨.sc s, e⟩) (hx : vw.shape x = .sc s) :
    convert lib vw ty (m + 1) x = .ok ⟨.sc s, false⟩ ↔ ∀ t, s ≠ .time t := by
  constructor
  · rintro hc t rfl
    rw [convert, hx] at hc
    simp only [Res.ok.injEq] at hc
    obtain ⟨s', h1, h2⟩ := C11 hty h
    simp only [Out.sc.injEq] at h1
    subst h1
    rcases h2.resolve_left (by simp) with ⟨rfl, b, h⟩ | ⟨rfl | rfl, ⟨i, h⟩ | ⟨f, h⟩⟩ | ⟨rfl, z, h⟩ | ⟨rfl, _⟩
    · cases h
    · cases h
    · cases h
    · cases h
    · cases h
    · cases h
    · simp [convertTo, hx, convertDateTime] at hc
  · intro ht
    by_cases hd : ty = g!"date-time"
    · obtain ⟨s', h1, h2⟩ := C11 hty h
      simp only [Out.sc.injEq] at h1
      subst h1
      rcases h2 with rfl | ⟨rfl, _⟩ | ⟨rfl | rfl, _⟩ | ⟨rfl, _⟩ | ⟨_, t, h⟩
      · rw [convert, hx]
      · exact absurd hd (by decide)
      · exact absurd hd (by decide)
      · exact absurd hd (by decide)
      · exact absurd hd (by decide)
      · exact absurd h (ht t)
    · exact C12_partial hty hd h hx

/-- The number 12 in a list meets the hypotheses, and converts again to itself. -/
example : ScalarType g!"number" ∧ convert (Toy.lib []) P.view g!"number" 5 (.arr [.arr [.sc (.str g!"12")], .sc .nil]) = .ok ⟨.sc (.int 12), false⟩ ∧
    P.view.shape (.sc (.int 12)) = .sc (.int 12) ∧ ∀ t, Scal.int 12 ≠ .time t :=
  ⟨by unfold ScalarType; simp, rfl, rfl, by simp⟩

/-! ### C15 -/

theorem firstGreatest_unique {ks : List F64} {i j : Nat} (h : FirstGreatest ks i) (h' : FirstGreatest ks j) : i = j := by
  obtain ⟨k, h1, h2, h3, h4⟩ := h
  obtain ⟨k', h1', h2', h3', h4'⟩ := h'
  rcases Nat.lt_trichotomy i j with hlt | rfl | hlt
  · rcases h4' i k hlt h1 with hn | hg
    · rw [h2] at hn; cases hn
    · rw [h3 k' (List.mem_of_getElem? h1')] at hg; cases hg
  · rfl
  · rcases h4 j k' hlt h1' with hn | hg
    · rw [h2'] at hn; cases hn
    · rw [h3' k (List.mem_of_getElem? h1)] at hg; cases hg

theorem map_some_inj : ∀ {a b : List F64}, a.map some = b.map some → a = b
  | [], [], _ => rfl
  | [], _ :: _, h => by simp at h
  | _ :: _, [], h => by simp at h
  | x :: a, y :: b, h => by
    simp only [List.map_cons, List.cons.injEq, Option.some.injEq] at h
    rw [h.1, map_some_inj h.2]

/-- **C15**, exactly: `max` gives a value iff every entry has a number at the `by` path and the chosen entry has the value at the `return` path; chosen is the first
entry with the greatest number if some number is positive, and the first entry of all otherwise. -/
theorem C15_iff {α : Type} {lib : Lib} {vw : View α} {byPath retPath : Str} {raw : α} {items : List α} {o : Out α} (hs : vw.shape raw = .arr items) :
    maxOp lib vw byPath retPath raw = .ok o ↔
    ∃ ks i item, items.map (keyOf lib vw (entryPath byPath)) = ks.map some ∧ items[i]? = some item ∧
      jpGet lib vw (entryPath retPath) item = some o ∧
      ((∃ k ∈ ks, F64.gt k F64.zero = true) → FirstGreatest ks i) ∧ ((∀ k ∈ ks, F64.gt k F64.zero = false) → i = 0) := by
  refine ⟨C15_partial hs, ?_⟩
  rintro ⟨ks, i, item, h1, h2, h3, h4, h5⟩
  unfold maxOp
  rw [hs]
  simp only
  have hl := maxLoop_spec (lib := lib) (vw := vw) (path := entryPath byPath) items [] F64.zero 0 (Or.inl ⟨rfl, rfl, by simp⟩)
  rw [List.length_nil] at hl
  split at hl
  · rename_i i' hi
    obtain ⟨ks', l, e1, e2⟩ := hl
    rw [List.nil_append] at e2
    obtain rfl := map_some_inj (h1.symm.trans e1)
    have : i' = i := by
      rcases e2 with ⟨_, e3, e4⟩ | ⟨e3, e4, e5, e6⟩
      · rw [h5 e4, e3]
      · exact firstGreatest_unique ⟨l, e4, F64.not_nan e3, e5, e6⟩ (h4 ⟨l, List.mem_of_getElem? e4, e3⟩)
    subst this
    rw [hi]
    simp only [h2, h3]
  · obtain ⟨x, hx, hn⟩ := hl
    have : none ∈ items.map (keyOf lib vw (entryPath byPath)) := hn ▸ List.mem_map_of_mem hx
    rw [h1] at this
    simp at this
  · exact hl.elim

example : P.view.shape (.arr C15ex.pos) = .arr C15ex.pos ∧
    (match maxOp (Toy.lib []) P.view g!"@.n" g!"@.s" (.arr C15ex.pos) with | .ok (.val (.sc (.str x))) => x | _ => []) = g!"b" := ⟨rfl, by decide +kernel⟩

/-! ### C46 -/

/-- **C46**, exactly: two requests share a key iff they are the same, or have the same flag and one path is the other with a bar and more, which the other has in
its type name. -/
theorem C46_iff {p o p' o' : Str} {f f' : Bool} : schemaKey p o f = schemaKey p' o' f' ↔ f = f' ∧
    ((p = p' ∧ o = o') ∨ (∃ x, p' = p ++ '|' :: x ∧ o = x ++ '|' :: o') ∨ ∃ x, p = p' ++ '|' :: x ∧ o' = x ++ '|' :: o) := by
  have hf : ∀ f : Bool, '|' ∉ (if f then g!"true" else g!"false") := by decide
  constructor
  · intro h
    have h' : (p ++ '|' :: o) ++ '|' :: (if f then g!"true" else g!"false") = (p' ++ '|' :: o') ++ '|' :: (if f' then g!"true" else g!"false") := by
      simpa only [schemaKey, List.append_assoc, List.cons_append, List.nil_append] using h
    obtain ⟨h1, h2⟩ := bar_split (hf f) (hf f') h'
    refine ⟨by revert h2; cases f <;> cases f' <;> decide, ?_⟩
    rcases List.append_eq_append_iff.1 h1 with ⟨m, e1, e2⟩ | ⟨m, e1, e2⟩
    · cases m with
      | nil => simp at e1 e2; exact Or.inl ⟨e1.symm, e2⟩
      | cons c m =>
        simp only [List.cons_append, List.cons.injEq] at e2
        exact Or.inr (Or.inl ⟨m, by rw [e1, ← e2.1], e2.2⟩)
    · cases m with
      | nil => simp at e1 e2; exact Or.inl ⟨e1, e2.symm⟩
      | cons c m =>
        simp only [List.cons_append, List.cons.injEq] at e2
        exact Or.inr (Or.inr ⟨m, by rw [e1, ← e2.1], e2.2⟩)
  · rintro ⟨rfl, ⟨rfl, rfl⟩ | ⟨x, rfl, rfl⟩ | ⟨x, rfl, rfl⟩⟩
    · rfl
    · simp [schemaKey]
    · simp [schemaKey]

example : g!"/a|b" ≠ g!"/a" ∧ schemaKey g!"/a" g!"b|c" true = schemaKey g!"/a|b" g!"c" true := by decide

/-! ### C51, C52 -/

open Avro

/-- **C51**, exactly: it is the number of milliseconds rounded down iff the time is from 1677 to 2262, and is not before the epoch or is a whole number of
milliseconds. -/
theorem C51_iff (t : Time) : avroTime t = t.at / 1000000 ↔ t.near ∧ (0 ≤ t.at ∨ t.at % 1000000 = 0) := by
  unfold avroTime Time.unixNano Time.near
  change (wrap64 t.at).tdiv 1000000 = _ ↔ _
  generalize t.at = n
  rw [tdiv_spec, wrap64]
  split <;> omega

/-- **C52**, exactly: an absent time is told like a time iff that one is less than a millisecond from the epoch, up to multiples of 2^64 nanoseconds. -/
theorem C52_iff (t : Time) : avroOptionalTime none = avroOptionalTime (some t) ↔ ∃ k : Int, -1000000 < t.at - k * 2 ^ 64 ∧ t.at - k * 2 ^ 64 < 1000000 := by
  simp only [avroOptionalTime, Time.unixNano]
  change 0 = (wrap64 t.at).tdiv 1000000 ↔ _
  generalize t.at = n
  rw [tdiv_spec, wrap64]
  constructor
  · intro h
    refine ⟨(n + 2 ^ 63) / 2 ^ 64, ?_⟩
    split at h <;> omega
  · rintro ⟨k, h1, h2⟩
    split <;> omega

example : Time.near ⟨-1, 999000000⟩ ∧ avroTime ⟨-1, 999000000⟩ = -1 ∧ avroTime ⟨-1, 999500000⟩ = 0 := by
  refine ⟨⟨by decide, by decide⟩, by decide, by decide⟩

example : avroOptionalTime none = avroOptionalTime (some ⟨0, 999999⟩) ∧ avroOptionalTime none ≠ avroOptionalTime (some ⟨0, 1000000⟩) := by decide

end JT
