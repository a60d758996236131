import Verif.Proofs.Strings
import Verif.Spec.Toy
/- C16: the operation `duration`. -/
namespace JT

/-- The part of the expression after the minutes: a colon and digits to the end. -/
def tailM : Str → Option Str
  | [] => none
  | c :: t => if c = ':' ∧ t.all isDigit = true then some t else none

theorem starGreedy_end {β : Type} (f : Str → β) (g : β → Caps) : ∀ t : Str,
    starGreedy isDigit t (fun s' => if s' = [] then some (g (f s')) else none) = if t.all isDigit = true then some (g (f [])) else none
  | [] => rfl
  | c :: cs => by
    rw [starGreedy]
    by_cases hc : isDigit c = true
    · rw [if_pos hc, starGreedy_end f g cs]
      by_cases ha : cs.all isDigit = true
      · simp [hc, ha]
      · simp [hc, ha]
    · simp [hc]

theorem match_tail (s : Str) (caps : Caps) :
    matchRE (.seq (.cls (· = ':')) (.group 3 (.star true isDigit))) s caps (fun s' caps => if s' = [] then some caps else none) =
      (tailM s).map fun t => (3, t) :: caps := by
  simp only [matchRE]
  cases s with
  | nil => rfl
  | cons c cs =>
    simp only [tailM, decide_eq_true_eq]
    by_cases hc : c = ':'
    · rw [if_pos hc]
      rw [starGreedy_end (fun s' => cs.take (cs.length - s'.length)) (fun x => (3, x) :: caps) cs]
      by_cases ha : cs.all isDigit = true
      · simp [hc, ha]
      · simp [hc, ha]
    · simp [hc]

/-- The text does not begin with a digit. -/
def NoDigitHead (s : Str) : Prop := ∀ c t, s = c :: t → isDigit c = false

theorem tailM_digit {c : Char} (hc : isDigit c = true) (t : Str) : tailM (c :: t) = none := by
  have : c ≠ ':' := by intro e; subst e; exact absurd hc (by decide)
  simp [tailM, this]

theorem starGreedy_max {k : Str → Option Caps} (hk : ∀ c t, isDigit c = true → k (c :: t) = none) {rest : Str} (hr : NoDigitHead rest) :
    ∀ d : Str, d.all isDigit = true → starGreedy isDigit (d ++ rest) k = k rest
  | [], _ => by
    cases rest with
    | nil => rfl
    | cons c t => rw [List.nil_append, starGreedy, if_neg (by simp [hr c t rfl])]
  | c :: d, h => by
    simp only [List.all_cons, Bool.and_eq_true] at h
    rw [List.cons_append, starGreedy, if_pos h.1, starGreedy_max hk hr d h.2, hk c _ h.1]
    simp

/-- Minutes and seconds. -/
def matchMS (s : Str) (caps : Caps) : Option Caps :=
  matchRE (.seq (.group 2 (.star true isDigit)) (.seq (.cls (· = ':')) (.group 3 (.star true isDigit)))) s caps
    (fun s' caps => if s' = [] then some caps else none)

theorem matchMS_eq {d rest : Str} (hd : d.all isDigit = true) (hr : NoDigitHead rest) (caps : Caps) :
    matchMS (d ++ rest) caps = (tailM rest).map fun t => (3, t) :: (2, d) :: caps := by
  unfold matchMS
  rw [matchRE, matchRE, matchRE]
  simp only [match_tail]
  rw [starGreedy_max (k := fun s' => Option.map (fun t => (3, t) :: (2, List.take ((d ++ rest).length - s'.length) (d ++ rest)) :: caps) (tailM s')) _ hr d hd]
  · simp
  · intro c t hc
    simp [tailM_digit hc]

/-- Optional colon, then minutes and seconds. -/
def matchO (s : Str) (caps : Caps) : Option Caps :=
  match s with
  | [] => matchMS [] caps
  | c :: cs => if c = ':' then (matchMS cs caps).or (matchMS (c :: cs) caps) else matchMS (c :: cs) caps

theorem fullMatch_eq (s : Str) :
    fullMatch durationRe s = starLazy isDigit s fun s' => matchO s' [(1, s.take (s.length - s'.length))] := by
  unfold fullMatch durationRe
  rw [matchRE, matchRE, matchRE]
  congr 1
  funext s'
  rw [matchRE, matchRE.eq_def]
  unfold matchO
  cases s' with
  | nil => rfl
  | cons c cs => simp only [decide_eq_true_eq]; rfl

theorem starLazy_skip {k : Str → Option Caps} {rest : Str} (hr : NoDigitHead rest) : ∀ d : Str, d.all isDigit = true →
    (∀ e, e ≠ [] → e.all isDigit = true → k (e ++ rest) = none) → starLazy isDigit (d ++ rest) k = k rest
  | [], _, _ => by
    cases rest with
    | nil => rfl
    | cons c t => rw [List.nil_append, starLazy, if_neg (by simp [hr c t rfl])]; simp
  | c :: d, h, hk => by
    have h' := h
    simp only [List.all_cons, Bool.and_eq_true] at h
    rw [List.cons_append, starLazy, if_pos h.1, show c :: (d ++ rest) = c :: d ++ rest from rfl, hk (c :: d) (by simp) h',
      starLazy_skip hr d h.2 hk]
    simp

/-- Every text has a longest prefix of digits. -/
theorem exists_digits (s : Str) : ∃ d rest, s = d ++ rest ∧ d.all isDigit = true ∧ NoDigitHead rest := by
  induction s with
  | nil => exact ⟨[], [], rfl, rfl, fun c t h => by simp at h⟩
  | cons c cs ih =>
    by_cases hc : isDigit c = true
    · obtain ⟨d, rest, h1, h2, h3⟩ := ih
      exact ⟨c :: d, rest, by rw [h1]; rfl, by simp [hc] at *; exact h2, h3⟩
    · refine ⟨[], c :: cs, rfl, rfl, ?_⟩
      intro c' t h
      simp only [List.cons.injEq] at h
      rw [← h.1]
      simpa using hc

theorem noDigitHead_colon (t : Str) : NoDigitHead (':' :: t) := by
  intro c t' h
  simp only [List.cons.injEq] at h
  rw [← h.1]; decide

theorem noDigitHead_nil : NoDigitHead [] := by intro c t h; simp at h

theorem takeUp (d rest : Str) : (d ++ rest).take ((d ++ rest).length - rest.length) = d := by simp

/-- Shape `M:S`. -/
theorem fullMatch_ms {d t : Str} (hd : d.all isDigit = true) (ht : t.all isDigit = true) :
    fullMatch durationRe (d ++ ':' :: t) = some [(3, t), (2, d), (1, [])] := by
  have htail : tailM (':' :: t) = some t := by simp [tailM]; simpa using ht
  rw [fullMatch_eq]
  cases d with
  | nil =>
    rw [List.nil_append, starLazy]
    have h1 : matchMS t [(1, List.take ((':' :: t).length - (':' :: t).length) (':' :: t))] = none := by
      have := matchMS_eq (rest := []) ht noDigitHead_nil [(1, List.take ((':' :: t).length - (':' :: t).length) (':' :: t))]
      rw [List.append_nil] at this
      rw [this]; rfl
    have h2 := matchMS_eq (d := []) (rest := ':' :: t) rfl (noDigitHead_colon t) [(1, List.take ((':' :: t).length - (':' :: t).length) (':' :: t))]
    rw [List.nil_append] at h2
    rw [matchO, if_pos rfl, h1, h2, htail]
    simp
  | cons c d =>
    have hc : isDigit c = true := by simp at hd; exact hd.1
    have hne : c ≠ ':' := by intro e; subst e; exact absurd hc (by decide)
    rw [List.cons_append, starLazy]
    have h2 := matchMS_eq (d := c :: d) (rest := ':' :: t) hd (noDigitHead_colon t)
      [(1, List.take ((c :: (d ++ ':' :: t)).length - (c :: (d ++ ':' :: t)).length) (c :: (d ++ ':' :: t)))]
    rw [List.cons_append] at h2
    rw [matchO, if_neg hne, h2, htail]
    simp

/-- Everything else: at most shape `H:M:S`. -/
theorem fullMatch_hms {d rest : Str} (hd : d.all isDigit = true) (hr : NoDigitHead rest) (hn : tailM rest = none) :
    fullMatch durationRe (d ++ rest) = matchO rest [(1, d)] := by
  rw [fullMatch_eq, starLazy_skip hr d hd, takeUp]
  intro e hne he
  cases e with
  | nil => exact absurd rfl hne
  | cons c t =>
    have hc : isDigit c = true := by simp at he; exact he.1
    have hne : c ≠ ':' := by intro e; subst e; exact absurd hc (by decide)
    have := matchMS_eq (rest := rest) he hr [(1, List.take ((d ++ rest).length - (c :: t ++ rest).length) (d ++ rest))]
    rw [List.cons_append] at this ⊢
    rw [matchO, if_neg hne, this, hn]
    rfl

namespace Spec
/-- Value of a string of decimal digits; the empty string counts as 0. -/
def decimal (s : Str) : Nat := s.foldl (fun n c => 10 * n + (c.toNat - '0'.toNat)) 0

/-- Digits only. -/
def Digits (s : Str) : Prop := ∀ c ∈ s, '0'.toNat ≤ c.toNat ∧ c.toNat ≤ '9'.toNat

/-- `str` is `H:M:S`, or `M:S` (with no hours). -/
inductive Clock : (str h m s : Str) → Prop
  | hms {h m s : Str} : Digits h → Digits m → Digits s → Clock (h ++ g!":" ++ m ++ g!":" ++ s) h m s
  | ms {m s : Str} : Digits m → Digits s → Clock (m ++ g!":" ++ s) [] m s
end Spec
open Spec

theorem digits_iff {s : Str} : Digits s ↔ s.all isDigit = true := by
  rw [List.all_eq_true]
  exact forall_congr' fun c => imp_congr_right fun _ => isDigit_iff.symm

theorem decimal_eq (s : Str) : decimal s = digitsVal s := rfl

theorem fullMatch_clock {str h m s : Str} (hc : Clock str h m s) : fullMatch durationRe str = some [(3, s), (2, m), (1, h)] := by
  cases hc with
  | ms h1 h2 =>
    rw [List.append_assoc]
    exact fullMatch_ms (digits_iff.1 h1) (digits_iff.1 h2)
  | hms h1 h2 h3 =>
    rw [digits_iff] at h1 h2 h3
    have e : h ++ g!":" ++ m ++ g!":" ++ s = h ++ ':' :: (m ++ ':' :: s) := by simp
    have hs : tailM (':' :: s) = some s := by simp [tailM]; simpa using h3
    have hn : tailM (':' :: (m ++ ':' :: s)) = none := by
      have : (m ++ ':' :: s).all isDigit = false := by
        rw [List.all_append, List.all_cons, show isDigit ':' = false from by decide]; simp
      simp only [tailM, this]
      simp
    rw [e, fullMatch_hms h1 (noDigitHead_colon _) hn, matchO, if_pos rfl, matchMS_eq h2 (noDigitHead_colon s), hs]
    simp

theorem fullMatch_reject {str : Str} (h : ∀ h m s, ¬ Clock str h m s) : fullMatch durationRe str = none := by
  obtain ⟨d, rest, rfl, hd, hr⟩ := exists_digits str
  have htail : ∀ rest t, tailM rest = some t → rest = ':' :: t ∧ t.all isDigit = true := by
    intro rest t ht
    cases rest with
    | nil => simp [tailM] at ht
    | cons c cs =>
      by_cases hc : c = ':' ∧ cs.all isDigit = true
      · rw [tailM, if_pos hc] at ht
        simp only [Option.some.injEq] at ht
        subst ht
        exact ⟨by rw [hc.1], hc.2⟩
      · rw [tailM, if_neg hc] at ht; simp at ht
  have hn : tailM rest = none := by
    cases ht : tailM rest with
    | none => rfl
    | some t =>
      obtain ⟨rfl, h2⟩ := htail rest t ht
      have := Clock.ms (digits_iff.2 hd) (digits_iff.2 h2)
      rw [List.append_assoc] at this
      exact absurd this (h _ _ _)
  rw [fullMatch_hms hd hr hn]
  have hms : ∀ caps, matchMS rest caps = none := by
    intro caps
    have := matchMS_eq (d := []) rfl hr caps
    rw [List.nil_append] at this
    rw [this, hn]; rfl
  cases rest with
  | nil => exact hms _
  | cons c cs =>
    by_cases hc : c = ':'
    · subst hc
      rw [matchO, if_pos rfl, hms]
      obtain ⟨m, rest', rfl, hm, hr'⟩ := exists_digits cs
      rw [matchMS_eq hm hr']
      cases ht : tailM rest' with
      | none => rfl
      | some t =>
        obtain ⟨rfl, h2⟩ := htail rest' t ht
        have := Clock.hms (digits_iff.2 hd) (digits_iff.2 hm) (digits_iff.2 h2)
        rw [List.append_assoc, List.append_assoc, List.append_assoc] at this
        exact absurd this (h _ _ _)
    · rw [matchO, if_neg hc, hms]

theorem atoiOr0_digits {s : Str} (h : Digits s) : atoiOr0 s = if decimal s < 2 ^ 63 then .ok (decimal s : Int) else .err := by
  unfold atoiOr0
  by_cases hs : s = []
  · subst hs
    have : atoi [] = none := by decide
    rw [this, if_pos rfl, if_pos (by decide)]
    rfl
  · rw [atoi_of_digits s hs (digits_iff.1 h), decimal_eq]
    by_cases hl : digitsVal s < 2 ^ 63
    · rw [if_pos hl, if_pos hl]
    · rw [if_neg hl, if_neg hl]; simp [hs]

theorem wrap64_nested (h m s : Int) : wrap64 (s + wrap64 (60 * wrap64 (m + wrap64 (60 * h)))) = wrap64 (3600 * h + 60 * m + s) := by
  unfold wrap64
  omega

theorem wrap64_of_lt {n : Int} (h0 : 0 ≤ n) (h1 : n < 2 ^ 63) : wrap64 n = n := by unfold wrap64; omega

/-- What `duration` does on a clock string: the number of seconds in 64-bit arithmetic, or an error if a part is too large for an `int`. -/
theorem durationStr_clock {str h m s : Str} (hc : Clock str h m s) :
    durationStr str = if decimal h < 2 ^ 63 ∧ decimal m < 2 ^ 63 ∧ decimal s < 2 ^ 63
      then .ok (wrap64 (3600 * decimal h + 60 * decimal m + decimal s)) else .err := by
  have hd : Digits h ∧ Digits m ∧ Digits s := by
    cases hc with
    | hms h1 h2 h3 => exact ⟨h1, h2, h3⟩
    | ms h1 h2 => exact ⟨fun c hc => by simp at hc, h1, h2⟩
  unfold durationStr
  rw [fullMatch_clock hc]
  show (do
    let hours ← atoiOr0 h
    let minutes ← atoiOr0 m
    let seconds ← atoiOr0 s
    let minutes := wrap64 (minutes + wrap64 (60 * hours))
    let seconds := wrap64 (seconds + wrap64 (60 * minutes))
    return seconds : Res Int) = _
  rw [atoiOr0_digits hd.1, atoiOr0_digits hd.2.1, atoiOr0_digits hd.2.2]
  by_cases h1 : decimal h < 2 ^ 63
  · by_cases h2 : decimal m < 2 ^ 63
    · by_cases h3 : decimal s < 2 ^ 63
      · rw [if_pos h1, if_pos h2, if_pos h3, if_pos ⟨h1, h2, h3⟩]
        simp only [Res.bind_ok, Res.pure_eq]
        rw [wrap64_nested]
      · rw [if_pos h1, if_pos h2, if_neg h3, if_neg (c := _ ∧ _ ∧ _) (fun h => h3 h.2.2)]; rfl
    · rw [if_pos h1, if_neg h2, if_neg (c := _ ∧ _ ∧ _) (fun h => h2 h.2.1)]; rfl
  · rw [if_neg h1, if_neg (c := _ ∧ _ ∧ _) (fun h => h1 h.1)]; rfl

/-- **C16, full statement**: clock strings give the number of seconds, every other string is rejected. -/
def C16_statement : Prop :=
  (∀ (str h m s : Str), Clock str h m s → durationStr str = .ok (3600 * decimal h + 60 * decimal m + decimal s)) ∧
  ∀ str : Str, (∀ h m s, ¬ Clock str h m s) → durationStr str = .err

/-- C16 with the number of seconds below 2^63; every string that is not a clock string is rejected.  Missing: larger numbers, where the
arithmetic wraps around (`C16_refuted`) or a part is rejected (`durationStr_clock`). -/
theorem C16_partial :
    (∀ (str h m s : Str), Clock str h m s → 3600 * decimal h + 60 * decimal m + decimal s < 2 ^ 63 →
      durationStr str = .ok (3600 * decimal h + 60 * decimal m + decimal s)) ∧
    ∀ str : Str, (∀ h m s, ¬ Clock str h m s) → durationStr str = .err := by
  refine ⟨?_, ?_⟩
  · intro str h m s hc hl
    rw [durationStr_clock hc, if_pos (by omega), wrap64_of_lt (by omega) (by omega)]
  · intro str h
    unfold durationStr
    rw [fullMatch_reject h]

/-- C16 as stated is false: 9999999999999999 hours overflow. -/
theorem C16_refuted : ¬ C16_statement := by
  intro h
  have hc : Clock g!"9999999999999999:0:0" g!"9999999999999999" g!"0" g!"0" :=
    Clock.hms (h := g!"9999999999999999") (m := g!"0") (s := g!"0") (digits_iff.2 (by decide)) (digits_iff.2 (by decide)) (digits_iff.2 (by decide))
  have h1 := h.1 _ _ _ _ hc
  have h2 : durationStr g!"9999999999999999:0:0" = .ok (-893488147419106832) := by decide +kernel
  rw [h2] at h1
  have h3 : (3600 * (decimal g!"9999999999999999" : Int) + 60 * decimal g!"0" + decimal g!"0") = 35999999999999996400 := by decide +kernel
  rw [h3] at h1
  simp at h1

/-- `duration` on values: strings as above, nil gives 0, an array with one entry is unwrapped, anything else is an error. -/
theorem durationOp_values {α : Type} (vw : View α) (raw : α) :
    (∀ x, vw.shape raw = .sc (.str x) → durationOp vw raw = (durationStr x).map fun n => .sc (.int n)) ∧
    (vw.shape raw = .sc .nil → durationOp vw raw = .ok (.sc (.int 0))) ∧
    (∀ y x, vw.shape raw = .arr [y] → vw.shape y = .sc (.str x) → durationOp vw raw = (durationStr x).map fun n => .sc (.int n)) := by
  refine ⟨?_, ?_, ?_⟩
  · intro x h; unfold durationOp; simp only [h]
  · intro h; unfold durationOp; simp only [h]
  · intro y x h h'; unfold durationOp; simp only [h, h']

namespace C16ex
example : Clock g!"1:02:30" g!"1" g!"02" g!"30" :=
  Clock.hms (h := g!"1") (m := g!"02") (s := g!"30") (digits_iff.2 (by decide)) (digits_iff.2 (by decide)) (digits_iff.2 (by decide))
example : Clock g!":30" [] [] g!"30" := Clock.ms (m := []) (s := g!"30") (digits_iff.2 (by decide)) (digits_iff.2 (by decide))
example : durationStr g!"1:02:30" = .ok 3750 := by decide +kernel
example : durationStr g!"1:2:3:4" = .err := by decide +kernel
end C16ex

end JT
