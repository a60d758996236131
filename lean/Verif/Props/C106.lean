import Verif.Props.C08
import Verif.Props.C16
import Verif.Props.Exact
import Verif.Props.ExactMore
/- C106 to C110: what the code does in all cases, where the claim one would like (C09, C13, C15, C16, C51, C52) does not hold in all of them. -/
namespace JT
open Spec Cache

/-! ### C106: max -/

/-- The value that `max` should give for a list of entries: all have a number at `byPath`, and the value at `retPath` is that of the first entry with the greatest
number if some number is positive, and of the first entry if none is. -/
def MaxGives {α : Type} (lib : Lib) (vw : View α) (byPath retPath : Str) (items : List α) (o : Out α) : Prop :=
  ∃ ks i item, items.map (keyOf lib vw (entryPath byPath)) = ks.map some ∧ items[i]? = some item ∧
    jpGet lib vw (entryPath retPath) item = some o ∧
    ((∃ k ∈ ks, F64.gt k F64.zero = true) → FirstGreatest ks i) ∧ ((∀ k ∈ ks, F64.gt k F64.zero = false) → i = 0)

/-- **C106**: for every value and all paths, `max` gives `o` iff the value is an array for which that is the result, it panics iff the array is empty, and it is an
error in all other cases. -/
theorem C106 {α : Type} (lib : Lib) (vw : View α) (byPath retPath : Str) (raw : α) :
    (∀ o, maxOp lib vw byPath retPath raw = .ok o ↔ ∃ items, vw.shape raw = .arr items ∧ MaxGives lib vw byPath retPath items o) ∧
    (maxOp lib vw byPath retPath raw = .panic ↔ vw.shape raw = .arr []) ∧
    (maxOp lib vw byPath retPath raw = .err ↔ vw.shape raw ≠ .arr [] ∧ ∀ items o, vw.shape raw = .arr items → ¬ MaxGives lib vw byPath retPath items o) := by
  have h1 : ∀ o, maxOp lib vw byPath retPath raw = .ok o ↔ ∃ items, vw.shape raw = .arr items ∧ MaxGives lib vw byPath retPath items o := by
    intro o
    constructor
    · intro h
      cases hs : vw.shape raw with
      | arr items => exact ⟨items, rfl, (C15_iff hs).1 h⟩
      | _ => unfold maxOp at h; rw [hs] at h; simp at h
    · rintro ⟨items, hs, h⟩
      exact (C15_iff hs).2 h
  have h2 : maxOp lib vw byPath retPath raw = .panic ↔ vw.shape raw = .arr [] := by
    have h := runOp_panic_iff (lib := lib) (vw := vw) (now := ⟨0, 0, 0⟩) (op := .max byPath retPath) (raw := raw)
    have e : runOp lib vw ⟨0, 0, 0⟩ (.max byPath retPath) raw = maxOp lib vw byPath retPath raw := rfl
    rw [e] at h
    rw [h]
    exact ⟨fun h => h.2, fun h => ⟨⟨_, _, rfl⟩, h⟩⟩
  refine ⟨h1, h2, ?_⟩
  constructor
  · intro h
    refine ⟨fun hs => ?_, fun items o hs hm => ?_⟩
    · rw [h2.2 hs] at h; cases h
    · rw [(h1 o).2 ⟨items, hs, hm⟩] at h; cases h
  · rintro ⟨ha, hb⟩
    cases h : maxOp lib vw byPath retPath raw with
    | err => rfl
    | panic => exact absurd (h2.1 h) ha
    | ok o => obtain ⟨items, hs, hm⟩ := (h1 o).1 h; exact absurd hm (hb items o hs)

/-! ### C107: duration -/

/-- What `duration` should look at: the value itself, or the only entry of an array. -/
inductive Looks {α : Type} (vw : View α) (raw : α) : Shape α → Prop
  | entry {x : α} : vw.shape raw = .arr [x] → Looks vw raw (vw.shape x)
  | self : (∀ x, vw.shape raw ≠ .arr [x]) → Looks vw raw (vw.shape raw)

/-- The number of seconds that `duration` should give: 0 for null; for a clock string whose parts are below 2^63 the number of 64 bits that differs from the number of
seconds by a multiple of 2^64. -/
inductive Lasts {α : Type} : Shape α → Int → Prop
  | null : Lasts (.sc .nil) 0
  | clock {str h m s : Str} {n k : Int} : Clock str h m s → decimal h < 2 ^ 63 → decimal m < 2 ^ 63 → decimal s < 2 ^ 63 →
      n + k * 2 ^ 64 = 3600 * decimal h + 60 * decimal m + decimal s → -(2 ^ 63) ≤ n → n < 2 ^ 63 → Lasts (.sc (.str str)) n

theorem wrap64_iff {a n : Int} : wrap64 a = n ↔ (∃ k : Int, n + k * 2 ^ 64 = a) ∧ -(2 ^ 63) ≤ n ∧ n < 2 ^ 63 := by
  constructor
  · rintro rfl
    refine ⟨⟨(a + 2 ^ 63) / 2 ^ 64, ?_⟩, ?_, ?_⟩ <;> unfold wrap64 <;> omega
  · rintro ⟨⟨k, rfl⟩, h1, h2⟩
    unfold wrap64
    omega

theorem looks_iff {α : Type} {vw : View α} {raw : α} {sh : Shape α} :
    Looks vw raw sh ↔ sh = match vw.shape raw with | .arr [x] => vw.shape x | sh => sh := by
  constructor
  · intro h
    cases h with
    | entry h => rw [h]
    | self h =>
      split
      · exact absurd (by assumption) (h _)
      · rfl
  · rintro rfl
    split
    · exact .entry (by assumption)
    · rename_i h
      exact .self h

theorem durationStr_iff {str : Str} {n : Int} {α : Type} : durationStr str = .ok n ↔ Lasts (α := α) (.sc (.str str)) n := by
  constructor
  · intro h
    by_cases hc : ∃ a b c, Clock str a b c
    · obtain ⟨a, b, c, hc⟩ := hc
      rw [durationStr_clock hc] at h
      split at h
      · rename_i hl
        obtain ⟨⟨k, h1⟩, h2, h3⟩ := wrap64_iff.1 (Res.ok.inj h)
        exact .clock hc hl.1 hl.2.1 hl.2.2 h1 h2 h3
      · cases h
    · rw [C16_partial.2 str (fun a b c h => hc ⟨a, b, c, h⟩)] at h
      cases h
  · intro h
    cases h with
    | clock hc h1 h2 h3 h4 h5 h6 =>
      rw [durationStr_clock hc, if_pos ⟨h1, h2, h3⟩, wrap64_iff.2 ⟨⟨_, h4⟩, h5, h6⟩]

theorem durationStr_noPanic (str : Str) : durationStr str ≠ .panic := by
  by_cases hc : ∃ a b c, Clock str a b c
  · obtain ⟨a, b, c, hc⟩ := hc
    rw [durationStr_clock hc]
    split <;> simp
  · rw [C16_partial.2 str (fun a b c h => hc ⟨a, b, c, h⟩)]
    simp

/-- **C107**: for every value, `duration` gives `o` iff `o` is the number of seconds that the value, or the only entry of the array, tells; it is an error in all other cases. -/
theorem C107 {α : Type} (vw : View α) (raw : α) :
    (∀ o, durationOp vw raw = .ok o ↔ ∃ sh n, Looks vw raw sh ∧ Lasts sh n ∧ o = .sc (.int n)) ∧
    (durationOp vw raw = .err ↔ ∀ sh n, Looks vw raw sh → ¬ Lasts sh n) := by
  have key : ∀ sh : Shape α, Looks vw raw sh → durationOp vw raw = (match sh with
      | .sc .nil => .ok (.sc (.int 0))
      | .sc (.str s) => (durationStr s).map fun n => .sc (.int n)
      | _ => .err) := by
    intro sh h
    rw [looks_iff.1 h]
    rfl
  have hl : ∃ sh, Looks vw raw sh := ⟨_, looks_iff.2 rfl⟩
  have h1 : ∀ o, durationOp vw raw = .ok o ↔ ∃ sh n, Looks vw raw sh ∧ Lasts sh n ∧ o = .sc (.int n) := by
    intro o
    constructor
    · intro h
      obtain ⟨sh, hsh⟩ := hl
      rw [key sh hsh] at h
      split at h
      · exact ⟨_, 0, hsh, .null, (Res.ok.inj h).symm⟩
      · obtain ⟨n, h2, h3⟩ := Res.map_eq_ok.1 h
        exact ⟨_, n, hsh, durationStr_iff.1 h2, h3.symm⟩
      · cases h
    · rintro ⟨sh, n, hsh, hn, rfl⟩
      rw [key sh hsh]
      cases hn with
      | null => rfl
      | clock a b c d e f g => simp only; rw [durationStr_iff (α := α) |>.2 (.clock a b c d e f g)]; rfl
  refine ⟨h1, ?_⟩
  constructor
  · intro h sh n hsh hn
    rw [(h1 (.sc (.int n))).2 ⟨sh, n, hsh, hn, rfl⟩] at h
    cases h
  · intro h
    cases hd : durationOp vw raw with
    | err => rfl
    | ok o => obtain ⟨sh, n, hsh, hn, -⟩ := (h1 o).1 hd; exact absurd hn (h sh n hsh)
    | panic =>
      obtain ⟨sh, hsh⟩ := hl
      rw [key sh hsh] at hd
      split at hd
      · cases hd
      · rename_i s
        cases hs : durationStr s with
        | panic => exact absurd hs (durationStr_noPanic s)
        | ok n => rw [hs] at hd; cases hd
        | err => rw [hs] at hd; cases hd
      · cases hd

/-! ### C110: conversion of values -/

/-- The conversion of a value that is behind `d` arrays (each time the first entry), or of an empty array if there is none: the value that its text, number or truth
value stands for; null for null and for empty arrays, with an error if that is behind an odd number of arrays (for null: and if the type is not `boolean` or `string`). -/
inductive Converted {α : Type} (lib : Lib) (vw : View α) (ty : Str) (d : Nat) : Option α → Out α → Bool → Prop
  | none : Converted lib vw ty d none (.sc .nil) (decide (d % 2 = 1))
  | null {x : α} : vw.shape x = .sc .nil → Converted lib vw ty d (some x) (.sc .nil) (decide (d % 2 = 1 ∧ ty ≠ g!"boolean" ∧ ty ≠ g!"string"))
  | scalar {x : α} {s t : Scal} : vw.shape x = .sc s → s ≠ .nil → scalarOf lib ty s = some t → Converted lib vw ty d (some x) (.sc t) false
  | wrong {x : α} {s : Scal} : vw.shape x = .sc s → s ≠ .nil → scalarOf lib ty s = none → (∀ t, s ≠ .str t) ∨ ty ≠ g!"boolean" → Converted lib vw ty d (some x) (.sc .nil) true
  | wrongText {x : α} {t : Str} : vw.shape x = .sc (.str t) → scalarOf lib ty (.str t) = none → ty = g!"boolean" → Converted lib vw ty d (some x) (.sc (.bool false)) true
  | obj {x : α} {m : GMap α} : vw.shape x = .obj m → Converted lib vw ty d (some x) (.sc .nil) true

theorem leaf_noArr {α : Type} {vw : View α} {raw x : α} {d : Nat} (h : LeafAt vw raw d (some x)) : ∀ l, vw.shape x ≠ .arr l := by
  generalize hr : some x = r at h
  induction h with
  | leaf h => obtain rfl := Option.some.inj hr; exact h
  | empty _ => cases hr
  | cons _ _ ih => exact ih hr

theorem convert_defined {α : Type} {lib : Lib} {vw : View α} {ty : Str} : ∀ {n : Nat} {raw : α} {d : Nat} {r : Option α},
    LeafAt vw raw d r → d < n → ∃ c, convert lib vw ty n raw = .ok c
  | 0, _, _, _, _, h => by omega
  | n + 1, raw, d, r, h, hd => by
    rw [convert]
    cases h with
    | leaf h =>
      split
      · exact ⟨_, rfl⟩
      · exact ⟨_, rfl⟩
      · exact absurd ‹_› (h _)
      · exact ⟨_, rfl⟩
    | empty h => rw [h]; exact ⟨_, rfl⟩
    | @cons _ y l d r hs h =>
      rw [hs]
      simp only
      split
      · split
        · rename_i z l' hy
          cases h with
          | leaf h => exact absurd hy (h _)
          | empty h => rw [h] at hy; cases hy
          | cons hs' h' =>
            rw [hy] at hs'
            cases hs'
            exact convert_defined h' (by omega)
        · exact ⟨_, rfl⟩
      · exact ⟨_, rfl⟩

theorem leaf_exists : ∀ p : P, ∃ d r, LeafAt P.view p d r
  | .sc s => ⟨0, _, .leaf (fun l h => by cases h)⟩
  | .obj m => ⟨0, _, .leaf (fun l h => by cases h)⟩
  | .arr [] => ⟨0, _, .empty rfl⟩
  | .arr (x :: l) => by
    obtain ⟨d, r, h⟩ := leaf_exists x
    exact ⟨d + 1, r, .cons (l := l) rfl h⟩

/-- **C110**: every value that is not a circle of arrays is converted to a scalar type in exactly one way, the one above; documents of JSON are such values. -/
theorem C110 : (∀ {α : Type} (lib : Lib) (vw : View α) (ty : Str) (n : Nat) (raw : α) (d : Nat) (r : Option α), ScalarType ty → LeafAt vw raw d r → d < n →
      ∀ v e, convert lib vw ty n raw = .ok ⟨v, e⟩ ↔ Converted lib vw ty d r v e) ∧
    ∀ p : P, ∃ d r, LeafAt P.view p d r := by
  refine ⟨?_, leaf_exists⟩
  intro α lib vw ty n raw d r hty hl hd v e
  obtain ⟨c, hc⟩ := convert_defined (lib := lib) (ty := ty) hl hd
  obtain ⟨h1, h2⟩ := C13_exact hty hc hl
  rw [hc]
  simp only [Res.ok.injEq]
  cases r with
  | none =>
    rw [h1 rfl]
    constructor
    · intro h
      cases h
      exact .none
    · intro h
      cases h
      rfl
  | some x =>
    obtain ⟨h3, h4⟩ := h2 x rfl
    have hna := leaf_noArr hl
    cases hs : vw.shape x with
    | arr l => exact absurd hs (hna l)
    | obj m =>
      have hc' : c = ⟨.sc .nil, true⟩ := by
        rw [h4 (by rw [hs]; simp)]
        rcases hty with rfl | rfl | rfl | rfl | rfl <;> simp [convertTo, hs, convertBoolean, convertNumber, convertString, convertDateTime]
      rw [hc']
      constructor
      · intro h; cases h; exact .obj hs
      · intro h
        cases h with
        | obj _ => rfl
        | null h => rw [hs] at h; cases h
        | scalar h => rw [hs] at h; cases h
        | wrong _ => rfl
        | wrongText h => rw [hs] at h; cases h
    | sc s =>
      by_cases hn : s = .nil
      · subst hn
        have hc' : c = ⟨.sc .nil, decide (d % 2 = 1 ∧ ty ≠ g!"boolean" ∧ ty ≠ g!"string")⟩ := by
          by_cases he : d % 2 = 0
          · rw [h3 he hs]
            simp [he]
          · rw [h4 (fun h => he h.1)]
            have he : d % 2 = 1 := by omega
            rcases hty with rfl | rfl | rfl | rfl | rfl <;> simp [convertTo, hs, convertBoolean, convertNumber, convertString, convertDateTime, he]
        rw [hc']
        constructor
        · intro h; cases h; exact .null hs
        · intro h
          cases h with
          | null _ => rfl
          | obj h => rw [hs] at h; cases h
          | scalar h hn => rw [hs] at h; cases h; exact absurd rfl hn
          | wrong h hn => rw [hs] at h; cases h; exact absurd rfl hn
          | wrongText h => rw [hs] at h; cases h
      · have hc' := h4 (fun h => hn (by have := h.2; rw [hs] at this; cases this; rfl))
        have hsc := convertTo_scalarOf (lib := lib) hty hs hn
        cases ho : scalarOf lib ty s with
        | some t =>
          rw [ho] at hsc
          rw [hc', hsc]
          constructor
          · intro h; cases h; exact .scalar hs hn ho
          · intro h
            cases h with
            | null h => rw [hs] at h; cases h; exact absurd rfl hn
            | obj h => rw [hs] at h; cases h
            | scalar h _ ho' => rw [hs] at h; cases h; rw [ho] at ho'; cases ho'; rfl
            | wrong h _ ho' => rw [hs] at h; cases h; rw [ho] at ho'; cases ho'
            | wrongText h ho' => rw [hs] at h; cases h; rw [ho] at ho'; cases ho'
        | none =>
          rw [ho] at hsc
          obtain ⟨herr, hval⟩ := hsc
          rw [← hc'] at herr hval
          have hb : (∃ t, s = .str t) ∧ ty = g!"boolean" → c.val = .sc (.bool false) := by
            rintro ⟨⟨t, rfl⟩, rfl⟩
            have he : (convertBoolean (.sc (.str t)) : Conv α).err = true := by rw [hc', convertTo_boolean, hs] at herr; exact herr
            rw [hc', convertTo_boolean, hs]
            unfold convertBoolean at he ⊢
            simp only at he ⊢
            split at he
            · cases he
            · rw [if_neg (by assumption)]
              split at he
              · cases he
              · rfl
          have hnb : ¬ ((∃ t, s = .str t) ∧ ty = g!"boolean") → c.val = .sc .nil := by
            intro h
            rcases hval with hv | ⟨rfl, hv⟩
            · exact hv
            · exfalso
              rw [hc', convertTo_boolean, hs] at hv herr
              cases s <;> simp [convertBoolean] at hv herr h
          obtain ⟨cv, ce⟩ := c
          simp only at herr hb hnb
          subst herr
          constructor
          · intro h
            cases h
            by_cases hx : (∃ t, s = .str t) ∧ ty = g!"boolean"
            · rw [hb hx]
              obtain ⟨⟨t, rfl⟩, hb'⟩ := hx
              exact .wrongText hs ho hb'
            · rw [hnb hx]
              refine .wrong hs hn ho ?_
              by_cases ht : ty = g!"boolean"
              · exact .inl fun t e => hx ⟨⟨t, e⟩, ht⟩
              · exact .inr ht
          · intro h
            cases h with
            | null h => rw [hs] at h; cases h; exact absurd rfl hn
            | obj h => rw [hs] at h; cases h
            | scalar h _ ho' => rw [hs] at h; cases h; rw [ho] at ho'; cases ho'
            | wrong h _ _ hw =>
              rw [hs] at h
              cases h
              rw [hnb (by rintro ⟨⟨t, rfl⟩, rfl⟩; rcases hw with hw | hw; exact hw t rfl; exact hw rfl)]
            | wrongText h _ hb' => rw [hs] at h; cases h; rw [hb ⟨⟨_, rfl⟩, hb'⟩]

/-! ### C109: method last -/

/-- **C109**: with method `last`, whatever evaluations of the transform were made before, an evaluation gives the last value in document order that is not null if their
number is even, and the first one if it is odd. -/
theorem C109 (tid : Nat) (tis : Instrs) (s0 : St) (h : s0.instrs[tid]? = some tis) (hm : tis.method = .last) (history : List Use) (u : Use) :
    let s := afterUses tid history s0
    ∃ s', s'.heap = s.heap ∧ s'.tick = s.tick ∧
      FirstOf (instrRun u.env u.inp u.ty u.mod) (if history.length % 2 = 0 then tis.from.reverse else tis.from) s' (instrsRun u.env u.inp u.ty u.mod tid s) := by
  split
  · exact C09_partial tid tis s0 h hm history u (by assumption)
  · exact C09_even tid tis s0 h hm history u (by omega)

namespace C106ex
open Toy

/-- Each case of C106. -/
example : ∃ items o, P.view.shape (.arr C15ex.pos) = .arr items ∧ MaxGives (lib []) P.view g!"@.n" g!"@.s" items o :=
  have h : ∃ o, maxOp (lib []) P.view g!"@.n" g!"@.s" (.arr C15ex.pos) = .ok o := ⟨_, rfl⟩
  have ⟨o, h⟩ := h
  have ⟨items, h1, h2⟩ := (C106 _ _ _ _ _).1 o |>.1 h
  ⟨items, o, h1, h2⟩
example : maxOp (lib []) P.view g!"@.n" g!"@.s" (.arr []) = .panic := (C106 _ _ _ _ _).2.1.2 rfl
example : maxOp (lib []) P.view g!"@.n" g!"@.s" (.sc .nil) = .err := (C106 _ _ _ _ _).2.2.2 ⟨nofun, nofun⟩

/-- A transform with method `last`, evaluated a second and a third time. -/
example : C09ex.st.instrs[0]? = some ⟨[⟨g!"$.a", [], []⟩, ⟨g!"$.b", [], []⟩], .last, []⟩ := rfl
example : (instrsRun C09ex.use.env C09ex.use.inp C09ex.use.ty C09ex.use.mod 0 (afterUses 0 [C09ex.use, C09ex.use] C09ex.st)).1 = .ok (.sc (.int 2)) := by decide +kernel

/-- A clock string in an array, whose number of seconds is not below 2^63. -/
example : durationOp P.view (.arr [.sc (.str g!"9999999999999999:0:0")]) = .ok (.sc (.int (-893488147419106832))) :=
  ((C107 _ _).1 _).2 ⟨_, _, .entry rfl, .clock (k := 2)
    (Clock.hms (h := g!"9999999999999999") (m := g!"0") (s := g!"0") (digits_iff.2 (by decide)) (digits_iff.2 (by decide)) (digits_iff.2 (by decide)))
    (by decide +kernel) (by decide +kernel) (by decide +kernel) (by decide +kernel) (by decide) (by decide), rfl⟩
example : ∀ sh n, Looks P.view (.sc (.bool true)) sh → ¬ Lasts sh n := (C107 P.view (.sc (.bool true))).2.1 rfl

/-- A null behind one array is an error for numbers and not for texts. -/
example : LeafAt P.view (.arr [.sc .nil, .sc (.int 3)]) 1 (some (.sc .nil)) := .cons (l := [.sc (.int 3)]) rfl (.leaf nofun)
example : Converted (lib []) P.view g!"number" 1 (some (.sc .nil)) (.sc .nil) true ∧ Converted (lib []) P.view g!"string" 1 (some (.sc .nil)) (.sc .nil) false := by
  refine ⟨?_, ?_⟩
  · have h := Converted.null (lib := lib []) (vw := P.view) (ty := g!"number") (d := 1) (x := .sc .nil) rfl
    rwa [show decide ((1 : Nat) % 2 = 1 ∧ g!"number" ≠ g!"boolean" ∧ g!"number" ≠ g!"string") = true by decide] at h
  · have h := Converted.null (lib := lib []) (vw := P.view) (ty := g!"string") (d := 1) (x := .sc .nil) rfl
    rwa [show decide ((1 : Nat) % 2 = 1 ∧ g!"string" ≠ g!"boolean" ∧ g!"string" ≠ g!"string") = false by decide] at h
end C106ex

end JT

namespace JT.Avro

/-! ### C108: times in Avro -/

/-- The number `n` for a moment `at` nanoseconds after the epoch: with the multiple of 2^64 taken away that makes it a number of 64 bits, its milliseconds rounded
towards the epoch. -/
def Millis (at' n : Int) : Prop :=
  ∃ ns k : Int, at' = ns + k * 2 ^ 64 ∧ -(2 ^ 63) ≤ ns ∧ ns < 2 ^ 63 ∧
    ((0 ≤ ns ∧ n * 1000000 ≤ ns ∧ ns < (n + 1) * 1000000) ∨ (ns < 0 ∧ (n - 1) * 1000000 < ns ∧ ns ≤ n * 1000000))

theorem millis_iff (a n : Int) : (wrap64 a).tdiv 1000000 = n ↔ Millis a n := by
  constructor
  · intro h
    obtain ⟨⟨k, h1⟩, h2, h3⟩ := wrap64_iff.1 (rfl : wrap64 a = wrap64 a)
    refine ⟨wrap64 a, k, h1.symm, h2, h3, ?_⟩
    rw [tdiv_spec] at h
    split at h <;> omega
  · rintro ⟨ns, k, h1, h2, h3, h4⟩
    rw [wrap64_iff.2 ⟨⟨k, h1.symm⟩, h2, h3⟩, tdiv_spec]
    split <;> omega

/-- **C108**: the number written for a time, in a list and for an optional time, is exactly this one for every time there is; 0 for an absent time; absent times are left
out of lists, and a list without times is absent. -/
theorem C108 : (∀ (t : Time) n, avroTime t = n ↔ Millis t.at n) ∧
    (∀ (t : Option Time) n, avroOptionalTime t = n ↔ (t = none ∧ n = 0) ∨ ∃ u, t = some u ∧ Millis u.at n) ∧
    (∀ ts ns, avroTimeSlice ts = ns ↔ ns.length = ts.length ∧ ∀ (i : Nat) t n, ts[i]? = some t → ns[i]? = some n → Millis t.at n) ∧
    (∀ ts : List (Option Time), avroOptionalTimeSlice ts = none ↔ ∀ t ∈ ts, t = none) ∧
    (∀ ts : List (Option Time), (∃ t ∈ ts, t ≠ none) → avroOptionalTimeSlice ts = some (avroTimeSlice (ts.filterMap id))) := by
  have hone : ∀ (t : Time) n, avroTime t = n ↔ Millis t.at n := fun t n => millis_iff t.at n
  have hfold : ∀ (ts : List (Option Time)) (acc : List Int), ts.foldl optStep acc = acc ++ (ts.filterMap id).map avroTime := by
    intro ts
    induction ts with
    | nil => simp
    | cons t ts ih => intro acc; rw [List.foldl_cons, ih]; cases t <;> simp [optStep]
  have hnil : ∀ ts : List (Option Time), ((ts.filterMap id).map avroTime).length < 1 ↔ ∀ t ∈ ts, t = none := by
    intro ts
    rw [List.length_map, Nat.lt_one_iff, List.length_eq_zero_iff, List.filterMap_eq_nil_iff]
    exact Iff.rfl
  refine ⟨hone, ?_, ?_, ?_, ?_⟩
  · intro t n
    cases t with
    | none => simp [avroOptionalTime, eq_comm]
    | some t => simp only [avroOptionalTime, reduceCtorEq, false_and, Option.some.injEq, exists_eq_left', false_or]; exact millis_iff t.at n
  · intro ts ns
    unfold avroTimeSlice
    constructor
    · rintro rfl
      refine ⟨by simp, ?_⟩
      intro i t n h1 h2
      rw [List.getElem?_map, h1] at h2
      exact (hone t n).1 (Option.some.inj h2)
    · rintro ⟨h1, h2⟩
      apply List.ext_getElem?
      intro i
      rw [List.getElem?_map]
      cases ht : ts[i]? with
      | none =>
        rw [List.getElem?_eq_none_iff] at ht
        rw [List.getElem?_eq_none (by omega)]
        rfl
      | some t =>
        have hi : i < ts.length := (List.getElem?_eq_some_iff.1 ht).1
        have hn : ns[i]? = some ns[i] := List.getElem?_eq_getElem (by omega)
        rw [hn, Option.map_some, (hone t _).2 (h2 i t _ ht hn)]
  · intro ts
    unfold avroOptionalTimeSlice
    rw [hfold, List.nil_append]
    split
    · rename_i h; simpa using (hnil ts).1 h
    · rename_i h
      simp only [reduceCtorEq, false_iff]
      exact fun hc => h ((hnil ts).2 hc)
  · rintro ts ⟨t, h1, h2⟩
    unfold avroOptionalTimeSlice
    rw [hfold, List.nil_append, if_neg (fun h => h2 ((hnil ts).1 h t h1))]
    rfl

/-- Half a millisecond before the epoch, and a time in the year 2300. -/
example : Time.at ⟨-1, 999500000⟩ = -500000 ∧ Millis (-500000) 0 :=
  ⟨by decide, -500000, 0, by decide, by decide, by decide, .inr ⟨by decide, by decide, by decide⟩⟩
example : avroTime ⟨10413792000, 0⟩ = -8032952073709 ∧ Millis (Time.at ⟨10413792000, 0⟩) (-8032952073709) :=
  ⟨by decide +kernel, (C108.1 _ _).1 (by decide +kernel)⟩

end JT.Avro
