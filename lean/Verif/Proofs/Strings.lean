import Verif.Model.Strings
/- Lemmas about the string functions. -/
namespace JT

theorem Char.eq_of_toNat {a b : Char} (h : a.toNat = b.toNat) : a = b := by
  apply Char.ext
  have := h
  unfold Char.toNat at this
  exact UInt32.toNat_inj.mp this

/-! ### order -/
theorem strLt_irrefl (a : Str) : strLt a a = false := by
  induction a with
  | nil => rfl
  | cons c cs ih => simp [strLt, ih]

theorem strLt_trans : ∀ {a b c : Str}, strLt a b = true → strLt b c = true → strLt a c = true
  | [], [], _, h, _ => by simp [strLt] at h
  | [], _ :: _, [], _, h => by simp [strLt] at h
  | [], _ :: _, _ :: _, _, _ => rfl
  | _ :: _, [], _, h, _ => by simp [strLt] at h
  | _ :: _, _ :: _, [], _, h => by simp [strLt] at h
  | x :: a, y :: b, z :: c, h1, h2 => by
    simp only [strLt] at *
    have ih := @strLt_trans a b c
    grind

theorem strLt_asymm {a b : Str} (h : strLt a b = true) : strLt b a = false := by
  by_cases h2 : strLt b a = true
  · have := strLt_trans h h2
    rw [strLt_irrefl] at this
    contradiction
  · simpa using h2

theorem strLt_total : ∀ (a b : Str), strLt a b = true ∨ a = b ∨ strLt b a = true
  | [], [] => by simp
  | [], _ :: _ => by simp [strLt]
  | _ :: _, [] => by simp [strLt]
  | x :: a, y :: b => by
    have ih := strLt_total a b
    simp only [strLt]
    by_cases h1 : x.toNat < y.toNat
    · simp [h1]
    · by_cases h2 : y.toNat < x.toNat
      · simp [h2]
      · have : x = y := Char.eq_of_toNat (by omega)
        subst this
        simpa using ih

theorem strLt_ne {a b : Str} (h : strLt a b = true) : a ≠ b := by
  intro e; subst e; rw [strLt_irrefl] at h; contradiction

/-! ### cut -/
theorem cut_some : ∀ {sep s a b : Str}, cut sep s = some (a, b) → s = a ++ sep ++ b
  | sep, [], a, b, h => by
    simp only [cut] at h
    split at h
    · cases h; simp [*]
    · contradiction
  | sep, c :: cs, a, b, h => by
    simp only [cut] at h
    split at h
    · rename_i hp
      cases h
      rw [List.isPrefixOf_iff_prefix] at hp
      obtain ⟨t, ht⟩ := hp
      simp [← ht]
    · simp only [Option.map_eq_some_iff] at h
      obtain ⟨⟨a', b'⟩, h1, h2⟩ := h
      cases h2
      have := cut_some h1
      simp [this]

theorem cut_none_iff {sep s : Str} : cut sep s = none ↔ ∀ a b, s ≠ a ++ sep ++ b := by
  constructor
  · intro h a b hs
    induction s generalizing a with
    | nil =>
      simp only [cut] at h
      split at h
      · contradiction
      · rename_i hne
        apply hne
        have := congrArg List.length hs
        simp at this
        exact List.eq_nil_of_length_eq_zero (by omega)
    | cons c cs ih =>
      simp only [cut] at h
      split at h
      · contradiction
      · rename_i hp
        simp only [Option.map_eq_none_iff] at h
        cases a with
        | nil =>
          apply hp
          rw [List.isPrefixOf_iff_prefix]
          exact ⟨b, by simpa using hs.symm⟩
        | cons x xs =>
          simp at hs
          exact ih h xs (by simpa using hs.2)
  · intro h
    cases hc : cut sep s with
    | none => rfl
    | some p => exact absurd (cut_some hc) (h p.1 p.2)

/-- The text before the first occurrence has no occurrence that ends within `a ++ sep` earlier. -/
theorem cut_first : ∀ {sep s a b : Str}, cut sep s = some (a, b) →
    ∀ a' b', s = a' ++ sep ++ b' → a.length ≤ a'.length
  | sep, [], a, b, h, a', b', hs => by
    simp only [cut] at h
    split at h
    · cases h; simp
    · contradiction
  | sep, c :: cs, a, b, h, a', b', hs => by
    simp only [cut] at h
    split at h
    · cases h; simp
    · rename_i hp
      simp only [Option.map_eq_some_iff] at h
      obtain ⟨⟨a1, b1⟩, h1, h2⟩ := h
      cases h2
      cases a' with
      | nil =>
        exfalso; apply hp
        rw [List.isPrefixOf_iff_prefix]
        exact ⟨b', by simpa using hs.symm⟩
      | cons x xs =>
        simp at hs
        have := cut_first h1 xs b' (by simpa using hs.2)
        simpa using this

theorem cut_append_of_prefix (sep s : Str) (_h : sep ≠ []) : cut sep (sep ++ s) = some ([], s) := by
  cases sep with
  | nil => contradiction
  | cons c cs =>
    simp [cut]

/-- One character separators. -/
theorem cut_char (c : Char) : ∀ (a b : Str), c ∉ a → cut [c] (a ++ c :: b) = some (a, b)
  | [], b, _ => by simp [cut]
  | x :: a, b, h => by
    simp at h
    have ih := cut_char c a b h.2
    simp [cut, ih, h.1]

theorem cut_char_none (c : Char) : ∀ (s : Str), c ∉ s → cut [c] s = none
  | [], _ => by simp [cut]
  | x :: s, h => by
    simp at h
    simp [cut, cut_char_none c s h.2, h.1]

/-! ### splitC and join -/
theorem splitC_ne_nil (c : Char) (s : Str) : splitC c s ≠ [] := by
  cases s with
  | nil => simp [splitC]
  | cons x xs =>
    simp only [splitC]
    split
    · simp
    · split <;> simp

theorem splitC_no (c : Char) : ∀ (s : Str), c ∉ s → splitC c s = [s]
  | [], _ => rfl
  | x :: s, h => by
    simp at h
    simp [splitC, splitC_no c s h.2, Ne.symm h.1]

theorem splitC_append (c : Char) : ∀ (a b : Str), c ∉ a → splitC c (a ++ c :: b) = a :: splitC c b
  | [], b, _ => by simp [splitC]
  | x :: a, b, h => by
    simp at h
    simp [splitC, splitC_append c a b h.2, Ne.symm h.1]

theorem splitC_join (c : Char) : ∀ (l : List Str), l ≠ [] → (∀ p ∈ l, c ∉ p) → splitC c (join [c] l) = l
  | [], h, _ => absurd rfl h
  | [p], _, h => by simpa [join] using splitC_no c p (h p (by simp))
  | p :: q :: r, _, h => by
    have ih := splitC_join c (q :: r) (by simp) (fun x hx => h x (by simp [hx]))
    simp only [join, List.append_assoc, List.singleton_append]
    rw [splitC_append c p _ (h p (by simp)), ih]

theorem join_splitC (c : Char) : ∀ (s : Str), join [c] (splitC c s) = s
  | [] => rfl
  | x :: s => by
    have ih := join_splitC c s
    have hne := splitC_ne_nil c s
    simp only [splitC]
    split
    · rename_i h; subst h
      cases hs : splitC x s with
      | nil => exact absurd hs hne
      | cons p ps => simp [join, hs ▸ ih]
    · cases hs : splitC c s with
      | nil => exact absurd hs hne
      | cons p ps =>
        rw [hs] at ih
        cases ps with
        | nil => simpa [join] using ih
        | cons q qs => simpa [join] using ih

theorem not_mem_of_mem_splitC (c : Char) : ∀ (s p : Str), p ∈ splitC c s → c ∉ p
  | [], p, h => by simp [splitC] at h; simp [h]
  | x :: s, p, h => by
    have ih := not_mem_of_mem_splitC c s
    simp only [splitC] at h
    split at h
    · simp at h
      rcases h with h | h
      · simp [h]
      · exact ih p h
    · rename_i hx
      cases hs : splitC c s with
      | nil => exact absurd hs (splitC_ne_nil c s)
      | cons q qs =>
        rw [hs] at h ih
        simp at h
        rcases h with h | h
        · subst h
          simp [Ne.symm hx, ih q (by simp)]
        · exact ih p (by simp [h])

/-! ### replace1 -/
theorem replace1_nil_of_not (s old new : Str) (h : cut old s = none) : replace1 s old new = s := by
  simp [replace1, h]

/-! ### digits -/
theorem isDigit_iff {c : Char} : isDigit c = true ↔ 48 ≤ c.toNat ∧ c.toNat ≤ 57 := by
  simp [isDigit]

theorem digitChar_toNat {n : Nat} (h : n < 10) : (digitChar n).toNat = 48 + n := by
  unfold digitChar
  have : (48 + n).isValidChar := by unfold Nat.isValidChar; omega
  rw [Char.ofNat, dif_pos this]
  simp [Char.toNat, Char.ofNatAux]
  omega

theorem isDigit_digitChar {n : Nat} (h : n < 10) : isDigit (digitChar n) = true := by
  rw [isDigit_iff, digitChar_toNat h]; omega

theorem digitVal_digitChar {n : Nat} (h : n < 10) : digitVal (digitChar n) = n := by
  rw [digitVal, digitChar_toNat h]; omega

def digitsAcc (n : Nat) (s : Str) : Nat := s.foldl (fun n c => 10 * n + digitVal c) n

theorem digitsAcc_eq (s : Str) : ∀ n, digitsAcc n s = n * 10 ^ s.length + digitsVal s := by
  induction s with
  | nil => intro n; simp [digitsAcc, digitsVal]
  | cons c cs ih =>
    intro n
    have h1 : digitsAcc n (c :: cs) = digitsAcc (10 * n + digitVal c) cs := rfl
    have h2 : digitsVal (c :: cs) = digitsAcc (digitVal c) cs := by simp [digitsAcc, digitsVal]
    rw [h1, h2, ih, ih]
    simp [Nat.pow_succ, Nat.add_mul]
    rw [Nat.mul_comm 10 n, Nat.mul_assoc, Nat.mul_comm 10 (10 ^ cs.length)]
    omega

theorem digitsVal_append (a b : Str) : digitsVal (a ++ b) = digitsVal a * 10 ^ b.length + digitsVal b := by
  have : digitsVal (a ++ b) = digitsAcc (digitsVal a) b := by simp [digitsVal, digitsAcc]
  rw [this, digitsAcc_eq]

theorem natDigits_spec : ∀ (f n : Nat) (acc : Str), n < f →
    ∃ d, natDigits f n acc = d ++ acc ∧ d ≠ [] ∧ d.all isDigit = true ∧ digitsVal d = n
  | 0, n, acc, h => by omega
  | f + 1, n, acc, h => by
    simp only [natDigits]
    by_cases hn : n < 10
    · rw [if_pos hn]
      refine ⟨[digitChar n], rfl, by simp, by simp [isDigit_digitChar hn], ?_⟩
      simp [digitsVal, digitVal_digitChar hn]
    · rw [if_neg hn]
      obtain ⟨d, h1, h2, h3, h4⟩ := natDigits_spec f (n / 10) (digitChar (n % 10) :: acc) (by omega)
      have hm : n % 10 < 10 := Nat.mod_lt _ (by omega)
      refine ⟨d ++ [digitChar (n % 10)], by simp [h1], by simp, ?_, ?_⟩
      · simp only [List.all_append, h3, List.all_cons, isDigit_digitChar hm, List.all_nil, Bool.and_self]
      · rw [digitsVal_append, h4]
        have : digitsVal [digitChar (n % 10)] = n % 10 := by simp [digitsVal, digitVal_digitChar hm]
        rw [this]
        simp only [List.length_cons, List.length_nil]
        omega

theorem itoaNat_spec (n : Nat) : itoaNat n ≠ [] ∧ (itoaNat n).all isDigit = true ∧ digitsVal (itoaNat n) = n := by
  obtain ⟨d, h1, h2, h3, h4⟩ := natDigits_spec (n + 1) n [] (by omega)
  simp only [List.append_nil] at h1
  simp only [itoaNat, h1]
  exact ⟨h2, h3, h4⟩

theorem parseDigits_itoaNat (n : Nat) : parseDigits (itoaNat n) = some n := by
  obtain ⟨h1, h2, h3⟩ := itoaNat_spec n
  simp [parseDigits, h1, h3]
  exact fun x hx => by simpa using List.all_eq_true.mp h2 x hx

theorem atoi_of_digits (s : Str) (h1 : s ≠ []) (h2 : s.all isDigit = true) :
    atoi s = if digitsVal s < 2 ^ 63 then some (digitsVal s : Int) else none := by
  have hp : parseDigits s = some (digitsVal s) := by
    simp only [parseDigits, h1, ne_eq, not_false_eq_true, h2, and_self, if_true]
  have hr : ∀ n : Nat, inInt64 (n : Int) = true ↔ n < 2 ^ 63 := by
    intro n
    simp only [inInt64, Bool.and_eq_true, decide_eq_true_eq]
    omega
  have key : parseSigned s = some (digitsVal s : Int) := by
    cases s with
    | nil => contradiction
    | cons c cs =>
      have hc : isDigit c = true := by simp at h2; exact h2.1
      rw [isDigit_iff] at hc
      unfold parseSigned
      split
      · rename_i heq; cases heq; simp at hc
      · rename_i heq; cases heq; simp at hc
      · rw [hp]; rfl
  unfold atoi
  rw [key]
  by_cases h : digitsVal s < 2 ^ 63
  · rw [if_pos h]; exact if_pos ((hr _).2 h)
  · rw [if_neg h]; exact if_neg (fun hh => h ((hr _).1 hh))

theorem atoi_itoaNat (n : Nat) (h : n < 2 ^ 63) : atoi (itoaNat n) = some (n : Int) := by
  obtain ⟨h1, h2, h3⟩ := itoaNat_spec n
  rw [atoi_of_digits _ h1 h2, h3, if_pos h]

theorem itoaNat_no_char (n : Nat) (c : Char) (h : isDigit c = false) : c ∉ itoaNat n := by
  intro hm
  have := List.all_eq_true.mp (itoaNat_spec n).2.1 c hm
  rw [h] at this; contradiction

theorem itoaNat_inj {m n : Nat} (h : itoaNat m = itoaNat n) : m = n := by
  rw [← (itoaNat_spec m).2.2, ← (itoaNat_spec n).2.2, h]

end JT
