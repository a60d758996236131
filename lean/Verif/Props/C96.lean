import Verif.Spec.Operations
import Verif.Spec.Toy
/- C96: the transform operations on single values. -/
namespace JT
open Spec

theorem isSpace_iff (c : Char) : isSpace c = true ↔ White c := by
  simp only [isSpace, White, whitePoints, Bool.or_eq_true, Bool.and_eq_true, decide_eq_true_eq, List.mem_cons, List.not_mem_nil, or_false]
  omega

theorem not_space {c : Char} (h : isSpace c = false) : ¬ White c := fun hw => by rw [(isSpace_iff c).2 hw] at h; cases h

theorem dropWhile_head {p : Char → Bool} : ∀ (s : Str) (c : Char), (s.dropWhile p).head? = some c → p c = false
  | [], _, h => by simp at h
  | d :: s, c, h => by
    rw [List.dropWhile_cons] at h
    split at h
    · exact dropWhile_head s c h
    · obtain rfl : d = c := by simpa using h
      simpa using ‹¬ p d = true›

theorem dropWhile_parts {p : Char → Bool} : ∀ s : Str, ∃ a, s = a ++ s.dropWhile p ∧ ∀ c ∈ a, p c = true
  | [] => ⟨[], rfl, by simp⟩
  | d :: s => by
    obtain ⟨a, h1, h2⟩ := dropWhile_parts (p := p) s
    rw [List.dropWhile_cons]
    split
    · exact ⟨d :: a, by rw [List.cons_append, ← h1], by simpa using ⟨‹_›, h2⟩⟩
    · exact ⟨[], rfl, by simp⟩

theorem trimSpace_spec (s : Str) : Trimmed s (trimSpace s) := by
  obtain ⟨a, ha, ha'⟩ := dropWhile_parts (p := isSpace) s
  obtain ⟨b, hb, hb'⟩ := dropWhile_parts (p := isSpace) (s.dropWhile isSpace).reverse
  have hb2 : s.dropWhile isSpace = trimSpace s ++ b.reverse := by
    have := congrArg List.reverse hb
    rw [List.reverse_reverse, List.reverse_append] at this
    exact this
  refine ⟨a, b.reverse, by rw [List.append_assoc, ← hb2, ← ha], fun c hc => (isSpace_iff c).1 (ha' c hc),
    fun c hc => (isSpace_iff c).1 (hb' c (List.mem_reverse.1 hc)), fun c hc => not_space ?_, fun c hc => not_space ?_⟩
  · refine dropWhile_head s c ?_
    rw [hb2]
    cases h : trimSpace s with
    | nil => rw [h] at hc; cases hc
    | cons d t => rw [h] at hc; exact hc
  · refine dropWhile_head (s.dropWhile isSpace).reverse c ?_
    unfold trimSpace at hc
    rw [List.getLast?_reverse] at hc
    exact hc

theorem trimmed_unique {s t t' : Str} (h : Trimmed s t) (h' : Trimmed s t') : t = t' := by
  have key : ∀ {a a' x x' : Str}, a ++ x = a' ++ x' → (∀ c ∈ a, White c) → (∀ c ∈ a', White c) → (∀ c, x.head? = some c → ¬ White c) →
      (∀ c, x'.head? = some c → ¬ White c) → x = x' := by
    intro a
    induction a with
    | nil =>
      intro a' x x' e _ h2 h3 _
      cases a' with
      | nil => exact e
      | cons d a' => subst e; exact absurd (h2 d (by simp)) (h3 d rfl)
    | cons c a ih =>
      intro a' x x' e h1 h2 h3 h4
      cases a' with
      | nil => 
        simp only [List.nil_append] at e
        subst e
        exact absurd (h1 c (by simp)) (h4 c rfl)
      | cons d a' =>
        simp only [List.cons_append, List.cons.injEq] at e
        exact ih e.2 (fun c hc => h1 c (List.mem_cons_of_mem _ hc)) (fun c hc => h2 c (List.mem_cons_of_mem _ hc)) h3 h4
  obtain ⟨a, b, e, h1, h2, h3, h4⟩ := h
  obtain ⟨a', b', e', h1', h2', h3', h4'⟩ := h'
  have all : ∀ {a t b : Str}, t = [] → (∀ c ∈ a, White c) → (∀ c ∈ b, White c) → ∀ c ∈ a ++ t ++ b, White c := by
    intro a t b ht ha hb c hc
    subst ht
    rw [List.append_nil] at hc
    rcases List.mem_append.1 hc with hc | hc
    · exact ha c hc
    · exact hb c hc
  have first : ∀ {a t b : Str}, (∀ c ∈ a ++ t ++ b, White c) → (∀ c, t.head? = some c → ¬ White c) → t = [] := by
    intro a t b h ht
    cases t with
    | nil => rfl
    | cons c t => exact absurd (h c (by simp)) (ht c rfl)
  by_cases ht : t = []
  · have := all ht h1 h2
    rw [← e, e'] at this
    rw [ht, first this h3']
  · by_cases ht' : t' = []
    · have := all ht' h1' h2'
      rw [← e', e] at this
      exact absurd (first this h3) ht
    · have e2 : t ++ b = t' ++ b' := by
        refine key (a := a) (a' := a') (by rw [← List.append_assoc, ← List.append_assoc, ← e, ← e']) h1 h1' ?_ ?_
        · intro c hc; cases t with
          | nil => exact absurd rfl ht
          | cons d t => exact h3 c hc
        · intro c hc; cases t' with
          | nil => exact absurd rfl ht'
          | cons d t => exact h3' c hc
      have e3 := congrArg List.reverse e2
      rw [List.reverse_append, List.reverse_append] at e3
      have := key e3 (fun c hc => h2 c (List.mem_reverse.1 hc)) (fun c hc => h2' c (List.mem_reverse.1 hc))
        (fun c hc => h4 c (by rwa [List.head?_reverse] at hc)) (fun c hc => h4' c (by rwa [List.head?_reverse] at hc))
      exact List.reverse_inj.1 this

/-- Each two spaces become one. -/
def half : Str → Str
  | ' ' :: ' ' :: t => ' ' :: half t
  | c :: t => c :: half t
  | [] => []

theorem half_cons {c : Char} {t : Str} (h : ∀ t', ¬ (c = ' ' ∧ t = ' ' :: t')) : half (c :: t) = c :: half t := by
  rw [half]
  intro t' hc ht
  exact h t' ⟨hc, ht⟩

theorem loop_half : ∀ (m : Nat) (s : Str) (n : Nat), s.length ≤ m → s.length ≤ n → replaceAllLoop g!"  " g!" " n s = half s
  | _, [], n, _, _ => by cases n <;> rfl
  | 0, _ :: _, _, h, _ => by simp at h
  | m + 1, c :: t, 0, _, h => by simp at h
  | m + 1, c :: t, n + 1, h, h' => by
    simp only [List.length_cons] at h h'
    by_cases hp : ∃ t', c = ' ' ∧ t = ' ' :: t'
    · obtain ⟨t', rfl, rfl⟩ := hp
      simp only [List.length_cons] at h h'
      simp only [replaceAllLoop, cut, List.isPrefixOf, half]
      simp
      exact loop_half m t' n (by omega) (by omega)
    · have hp' : ∀ t', ¬ (c = ' ' ∧ t = ' ' :: t') := fun t' e => hp ⟨t', e⟩
      have hpre : g!"  ".isPrefixOf (c :: t) = false := by
        cases t with
        | nil => simp [List.isPrefixOf]
        | cons d t =>
          have := hp' t
          simp only [List.cons.injEq, and_true] at this
          simp [List.isPrefixOf]
          intro e1 e2
          exact this ⟨e1.symm, e2.symm⟩
      rw [half_cons hp', ← loop_half m t (n + 1) (by omega) (by omega)]
      simp only [replaceAllLoop, cut, hpre]
      simp only [Bool.false_eq_true, if_false]
      cases cut g!"  " t with
      | none => rfl
      | some p => rfl

theorem half_run : ∀ (n : Nat) (s : Str), s.head? ≠ some ' ' → half (List.replicate (n + 1) ' ' ++ s) = List.replicate (n / 2 + 1) ' ' ++ half s
  | 0, s, h => by
    rw [show List.replicate (0 + 1) ' ' ++ s = ' ' :: s from rfl, half_cons]
    · rfl
    · rintro t' ⟨_, rfl⟩; exact h rfl
  | 1, s, h => by rfl
  | n + 2, s, h => by
    rw [show List.replicate (n + 2 + 1) ' ' ++ s = ' ' :: ' ' :: (List.replicate (n + 1) ' ' ++ s) from rfl, half, half_run n s h,
      show (n + 2) / 2 + 1 = (n / 2 + 1) + 1 by omega]
    rfl

theorem halved_eq {s t : Str} (h : Halved s t) : t = half s := by
  induction h with
  | nil => rfl
  | other hc _ ih => rw [half_cons (fun t' e => hc e.1), ih]
  | run hs _ ih => rw [half_run _ _ hs, ih]

theorem spaces : ∀ s : Str, ∃ n t, s = List.replicate n ' ' ++ t ∧ t.head? ≠ some ' '
  | [] => ⟨0, [], rfl, by simp⟩
  | c :: s => by
    by_cases h : c = ' '
    · obtain ⟨n, t, h1, h2⟩ := spaces s
      exact ⟨n + 1, t, by rw [h, h1]; rfl, h2⟩
    · exact ⟨0, c :: s, rfl, by simpa using h⟩

theorem half_spec : ∀ (m : Nat) (s : Str), s.length ≤ m → Halved s (half s)
  | _, [], _ => .nil
  | 0, _ :: _, h => by simp at h
  | m + 1, c :: t, h => by
    simp only [List.length_cons] at h
    by_cases hc : c = ' '
    · obtain ⟨n, r, h1, h2⟩ := spaces t
      rw [hc, h1, show ' ' :: (List.replicate n ' ' ++ r) = List.replicate (n + 1) ' ' ++ r from rfl, half_run n r h2]
      refine .run h2 (half_spec m r ?_)
      rw [h1] at h
      simp at h
      omega
    · rw [half_cons (fun t' e => hc e.1)]
      exact .other hc (half_spec m t (by omega))

theorem stripHTML_spec {lib : Lib} {s : Str} : ∃ t u, Trimmed (lib.sanitize s) t ∧ Halved t u ∧ stripHTML lib s = lib.unescape u :=
  ⟨_, _, trimSpace_spec _, half_spec _ _ (Nat.le_refl _), by unfold stripHTML replaceAll; rw [loop_half _ _ _ (Nat.le_refl _) (Nat.le_refl _)]⟩

theorem parseDigits_iff {s : Str} {n : Nat} : parseDigits s = some n ↔ NatText s n := by
  have hd : ∀ c : Char, isDigit c = true ↔ '0'.toNat ≤ c.toNat ∧ c.toNat ≤ '9'.toNat := fun c => by
    simp [isDigit]
  have hv : digitsVal s = s.foldl (fun n c => 10 * n + (c.toNat - '0'.toNat)) 0 := rfl
  unfold parseDigits NatText
  simp only [List.all_eq_true, hd, hv]
  by_cases h : s ≠ [] ∧ ∀ c ∈ s, '0'.toNat ≤ c.toNat ∧ c.toNat ≤ '9'.toNat
  · rw [if_pos h]
    constructor
    · intro e; exact ⟨h.1, h.2, (Option.some.inj e).symm⟩
    · rintro ⟨_, _, e⟩; rw [e]
  · rw [if_neg h]
    constructor
    · intro e; cases e
    · rintro ⟨h1, h2, _⟩; exact absurd ⟨h1, h2⟩ h

theorem natText_sign {c : Char} {t : Str} {n : Nat} (hc : c.toNat < '0'.toNat) : ¬ NatText (c :: t) n := by
  rintro ⟨_, h, _⟩
  have := (h c (by simp)).1
  omega

theorem lifted {t : Str} {g : Int → Int} {i : Int} : Option.map g (do let a ← parseDigits t; pure (a : Int)) = some i ↔ ∃ n : Nat, NatText t n ∧ g n = i := by
  simp only [← parseDigits_iff]
  cases parseDigits t <;> simp

theorem parseSigned_iff {s : Str} {i : Int} : parseSigned s = some i ↔ ∃ n : Nat, (i = n ∧ (NatText s n ∨ ∃ t, s = '+' :: t ∧ NatText t n)) ∨ (i = -(n : Int) ∧ ∃ t, s = '-' :: t ∧ NatText t n) := by
  unfold parseSigned
  split
  · rename_i t
    rw [lifted]
    constructor
    · rintro ⟨n, h, rfl⟩; exact ⟨n, .inr ⟨rfl, t, rfl, h⟩⟩
    · rintro ⟨n, ⟨rfl, h | ⟨t', e, h⟩⟩ | ⟨rfl, t', e, h⟩⟩
      · exact absurd h (natText_sign (by decide))
      · exact absurd (List.cons.inj e).1 (by decide)
      · obtain rfl := (List.cons.inj e).2; exact ⟨n, h, rfl⟩
  · rename_i t
    rw [lifted]
    constructor
    · rintro ⟨n, h, rfl⟩; exact ⟨n, .inl ⟨rfl, .inr ⟨t, rfl, h⟩⟩⟩
    · rintro ⟨n, ⟨rfl, h | ⟨t', e, h⟩⟩ | ⟨rfl, t', e, h⟩⟩
      · exact absurd h (natText_sign (by decide))
      · obtain rfl := (List.cons.inj e).2; exact ⟨n, h, rfl⟩
      · exact absurd (List.cons.inj e).1 (by decide)
  · rename_i h1 h2
    rw [lifted]
    constructor
    · rintro ⟨n, h, rfl⟩; exact ⟨n, .inl ⟨rfl, .inl h⟩⟩
    · rintro ⟨n, ⟨rfl, h | ⟨t', e, h⟩⟩ | ⟨rfl, t', e, h⟩⟩
      · exact ⟨n, h, rfl⟩
      · exact absurd e (h2 t')
      · exact absurd e (h1 t')

theorem atoi_iff {s : Str} {i : Int} : atoi s = some i ↔ IntText s i := by
  unfold atoi IntText
  rw [← parseSigned_iff]
  cases h : parseSigned s with
  | none => simp
  | some j =>
    show (if inInt64 j = true then some j else none) = some i ↔ _
    by_cases hr : inInt64 j = true
    · rw [if_pos hr]
      simp only [inInt64, Bool.and_eq_true, decide_eq_true_eq] at hr
      constructor
      · intro e; obtain rfl := Option.some.inj e; exact ⟨hr.1, hr.2, rfl⟩
      · rintro ⟨_, _, e⟩; exact e
    · rw [if_neg hr]
      simp only [inInt64, Bool.and_eq_true, decide_eq_true_eq] at hr
      constructor
      · intro e; cases e
      · rintro ⟨h1, h2, e⟩; obtain rfl := Option.some.inj e; exact absurd ⟨h1, h2⟩ hr

theorem parseBool_true {s : Str} : parseBool s = some true ↔ s ∈ trueTexts := by
  unfold parseBool
  simp only [trueTexts, List.mem_cons, List.not_mem_nil, or_false]
  split
  · simp only [true_iff]
    rename_i h
    rcases h with h | h | h | h | h | h <;> simp [h]
  · rename_i h
    have : ¬ (s = g!"1" ∨ s = g!"t" ∨ s = g!"T" ∨ s = g!"true" ∨ s = g!"True" ∨ s = g!"TRUE") := by
      intro h'
      apply h
      rcases h' with h | h | h | h | h | h <;> simp [h]
    split <;> simp [this]

theorem parseBool_false {s : Str} : parseBool s = some false ↔ s ∈ falseTexts := by
  unfold parseBool
  simp only [falseTexts, List.mem_cons, List.not_mem_nil, or_false]
  split
  · rename_i h
    rcases h with rfl | rfl | rfl | rfl | rfl | rfl <;> decide
  · split
    · simp only [true_iff]
      rename_i h
      rcases h with h | h | h | h | h | h <;> simp [h]
    · rename_i h
      simp only [reduceCtorEq, false_iff]
      intro h'
      apply h
      rcases h' with h | h | h | h | h | h <;> simp [h]

theorem ne0_iff (f : F64) : F64.ne0 f = false ↔ f = 0x0000000000000000#64 ∨ f = 0x8000000000000000#64 := by
  have hf := f.isLt
  constructor
  · intro h
    simp only [F64.ne0, Bool.or_eq_false_iff, F64.isNaN, F64.key, F64.mag, decide_eq_false_iff_not] at h
    obtain ⟨_, h⟩ := h
    replace h := of_decide_eq_false h
    have h : f.toNat % 2 ^ 63 = 0 := by
      by_cases h' : f.toNat < 2 ^ 63
      · simp only [if_pos h'] at h; omega
      · simp only [if_neg h'] at h; omega
    have : f.toNat = 0 ∨ f.toNat = 2 ^ 63 := by omega
    rcases this with e | e
    · exact .inl (BitVec.eq_of_toNat_eq e)
    · exact .inr (BitVec.eq_of_toNat_eq e)
  · rintro (rfl | rfl) <;> decide

variable {α : Type} {lib : Lib} {vw : View α}

theorem onStr_ok {raw : α} {f : Str → Res (Out α)} {o : Out α} : onStr vw raw f = .ok o ↔ ∃ s, vw.shape raw = .sc (.str s) ∧ f s = .ok o := by
  unfold onStr
  split
  · rename_i s h
    rw [h]
    constructor
    · intro e; exact ⟨s, rfl, e⟩
    · rintro ⟨s', e, h'⟩; cases e; exact h'
  · rename_i h
    constructor
    · intro e; cases e
    · rintro ⟨s, e, _⟩; exact absurd e (h s)

theorem runOp_ok {now : GTime} {op : Op} (hop : Single op) {raw : α} {o : Out α} :
    runOp lib vw now op raw = .ok o ↔ ∃ r, o = .sc r ∧ Gives lib now op (vw.shape raw) r := by
  cases op with
  | duration | max | split | toCamelCase => exact absurd hop id
  | changeCase upper =>
    simp only [runOp, onStr_ok]
    constructor
    · rintro ⟨s, h, e⟩
      cases e
      refine ⟨_, rfl, ?_⟩
      rw [h]
      cases upper
      · exact .lower
      · exact .upper
    · rintro ⟨r, rfl, h⟩
      generalize hs : vw.shape raw = sh at h
      cases h <;> exact ⟨_, rfl, rfl⟩
  | valueExists =>
    simp only [runOp]
    constructor
    · intro h
      split at h
      · rename_i s hs
        cases h
        refine ⟨_, rfl, ?_⟩
        rw [hs]
        by_cases e : s = []
        · subst e; exact .blank
        · rw [decide_eq_true e]; exact .text e
      · rename_i s hs
        cases h
        refine ⟨_, rfl, ?_⟩
        rw [hs]
        by_cases e : s = []
        · subst e; exact .noNode
        · rw [decide_eq_true e]; exact .node e
      · cases h
    · rintro ⟨r, rfl, h⟩
      generalize hs : vw.shape raw = sh at h
      cases h <;> simp_all
  | inverse =>
    simp only [runOp]
    constructor
    · intro h
      split at h
      · rename_i b hs
        cases h
        exact ⟨_, rfl, by rw [hs]; exact .inverse⟩
      · cases h
    · rintro ⟨r, rfl, h⟩
      generalize hs : vw.shape raw = sh at h
      cases h; rfl
  | replace re new =>
    simp only [runOp, onStr_ok]
    constructor
    · rintro ⟨s, h, e⟩
      cases e
      exact ⟨_, rfl, by rw [h]; exact .replace⟩
    · rintro ⟨r, rfl, h⟩
      generalize hs : vw.shape raw = sh at h
      cases h; exact ⟨_, rfl, rfl⟩
  | timeParse format layout =>
    simp only [runOp, onStr_ok]
    constructor
    · rintro ⟨s, h, e⟩
      split at e
      · cases e
      · rename_i t ht
        cases e
        exact ⟨_, rfl, by rw [h]; exact .timeParse ht⟩
    · rintro ⟨r, rfl, h⟩
      generalize hs : vw.shape raw = sh at h
      cases h
      rename_i s t ht
      exact ⟨_, rfl, by rw [ht]⟩
  | currentTime format =>
    simp only [runOp]
    constructor
    · intro h
      cases h
      refine ⟨_, rfl, ?_⟩
      by_cases e : format = g!"RFC3339"
      · rw [if_pos e, e]; exact .rfc3339
      · rw [if_neg e]; exact .currentTime e
    · rintro ⟨r, rfl, h⟩
      cases h with
      | rfc3339 => rfl
      | currentTime e => rw [if_neg e]
  | removeHTML =>
    simp only [runOp, onStr_ok]
    constructor
    · rintro ⟨s, h, e⟩
      cases e
      obtain ⟨t, u, h1, h2, h3⟩ := stripHTML_spec (lib := lib) (s := s)
      exact ⟨_, rfl, by rw [h, h3]; exact .removeHTML h1 h2⟩
    · rintro ⟨r, rfl, h⟩
      generalize hs : vw.shape raw = sh at h
      cases h with
      | removeHTML h1 h2 =>
        refine ⟨_, rfl, ?_⟩
        obtain ⟨t', u', h1', h2', h3'⟩ := stripHTML_spec (lib := lib) (s := _)
        rw [h3', halved_eq h2', trimmed_unique h1' h1, ← halved_eq h2]
  | convertToFloat64 =>
    simp only [runOp]
    constructor
    · intro h
      split at h
      · rename_i s hs
        split at h
        · rename_i f hf
          cases h
          exact ⟨_, rfl, by rw [hs]; exact .floatText hf⟩
        · cases h
      · rename_i i hs
        cases h
        exact ⟨_, rfl, by rw [hs]; exact .floatInt⟩
      · rename_i i hs
        cases h
        exact ⟨_, rfl, by rw [hs]; exact .float⟩
      · cases h
    · rintro ⟨r, rfl, h⟩
      generalize hs : vw.shape raw = sh at h
      cases h with
      | floatText h => simp [h]
      | floatInt => rfl
      | float => rfl
  | convertToInt64 =>
    simp only [runOp]
    constructor
    · intro h
      split at h
      · rename_i s hs
        split at h
        · rename_i f hf
          cases h
          exact ⟨_, rfl, by rw [hs]; exact .intText (atoi_iff.1 hf)⟩
        · cases h
      · rename_i i hs
        cases h
        exact ⟨_, rfl, by rw [hs]; exact .intFloat⟩
      · rename_i i hs
        cases h
        exact ⟨_, rfl, by rw [hs]; exact .int⟩
      · rename_i i hs
        cases h
        exact ⟨_, rfl, by rw [hs]; exact .int64⟩
      · cases h
    · rintro ⟨r, rfl, h⟩
      generalize hs : vw.shape raw = sh at h
      cases h with
      | intText h => simp [atoi_iff.2 h]
      | intFloat => rfl
      | int => rfl
      | int64 => rfl
  | convertToBool =>
    simp only [runOp]
    constructor
    · intro h
      split at h
      · rename_i b hs
        cases h
        exact ⟨_, rfl, by rw [hs]; exact .bool⟩
      · rename_i s hs
        split at h
        · rename_i b hb
          cases h
          refine ⟨_, rfl, ?_⟩
          rw [hs]
          cases b
          · exact .falseText (parseBool_false.1 hb)
          · exact .trueText (parseBool_true.1 hb)
        · cases h
      · rename_i l hs
        cases h
        refine ⟨_, rfl, ?_⟩
        rw [hs]
        by_cases e : l = []
        · subst e; simpa using Gives.empty
        · rw [decide_eq_true e]; exact .entries e
      · rename_i f hs
        cases h
        refine ⟨_, rfl, ?_⟩
        rw [hs]
        cases e : F64.ne0 f
        · exact .zeroFloat ((ne0_iff f).1 e)
        · refine .otherFloat ?_ ?_ <;> (rintro rfl; revert e; decide)
      · rename_i i hs
        cases h
        refine ⟨_, rfl, ?_⟩
        rw [hs]
        by_cases e : i = 0
        · subst e; exact .zero
        · rw [decide_eq_true e]; exact .otherInt e
      · rename_i i hs
        cases h
        refine ⟨_, rfl, ?_⟩
        rw [hs]
        by_cases e : i = 0
        · subst e; exact .zero64
        · rw [decide_eq_true e]; exact .otherInt64 e
      · cases h
    · rintro ⟨r, rfl, h⟩
      generalize hs : vw.shape raw = sh at h
      cases h with
      | bool => rfl
      | trueText h => simp [parseBool_true.2 h]
      | falseText h => simp [parseBool_false.2 h]
      | empty => simp
      | entries h => simp [h]
      | zeroFloat h => simp [(ne0_iff _).2 h]
      | otherFloat h1 h2 =>
        rename_i f
        cases e : F64.ne0 f
        · rcases (ne0_iff f).1 e with e | e
          · exact absurd e h1
          · exact absurd e h2
        · simp [e]
      | zero => rfl
      | otherInt h => simp [h]
      | zero64 => rfl
      | otherInt64 h => simp [h]

theorem runOp_calm {now : GTime} {op : Op} (hop : Single op) {raw : α} : runOp lib vw now op raw ≠ .panic := by
  intro h
  cases op with
  | duration | max | split | toCamelCase => exact absurd hop id
  | _ => simp only [runOp, onStr] at h <;> (repeat' split at h) <;> cases h

/-- What an operation gives is determined by what it gets. -/
theorem Gives.unique {now : GTime} {op : Op} (hop : Single op) {raw : α} {r r' : Scal} (h : Gives lib now op (vw.shape raw) r) (h' : Gives lib now op (vw.shape raw) r') : r = r' := by
  have e := (runOp_ok (lib := lib) (vw := vw) hop).2 ⟨r, rfl, h⟩
  have e' := (runOp_ok (lib := lib) (vw := vw) hop).2 ⟨r', rfl, h'⟩
  rw [e] at e'
  cases e'
  rfl

/-- **C96**: an operation on a single value gives the value that `Gives` says, and an error if there is none. -/
theorem C96 (lib : Lib) (vw : View α) (now : GTime) {op : Op} (hop : Single op) (raw : α) :
    (∃ r, Gives lib now op (vw.shape raw) r ∧ runOp lib vw now op raw = .ok (.sc r)) ∨ ((∀ r, ¬ Gives lib now op (vw.shape raw) r) ∧ runOp lib vw now op raw = .err) := by
  cases h : runOp lib vw now op raw with
  | ok o =>
    obtain ⟨r, rfl, hr⟩ := (runOp_ok hop).1 h
    exact .inl ⟨r, hr, rfl⟩
  | err =>
    refine .inr ⟨fun r hr => ?_, rfl⟩
    rw [(runOp_ok hop).2 ⟨r, rfl, hr⟩] at h
    cases h
  | panic => exact absurd h (runOp_calm hop)

/-- Flipping twice gives the value back. -/
theorem C96_inverse (now : GTime) {raw x : α} {r : Scal} (h : runOp lib vw now .inverse raw = .ok (.sc r)) (hx : vw.shape x = .sc r) :
    runOp lib vw now .inverse x = .ok (.sc (match vw.shape raw with | .sc s => s | _ => .nil)) := by
  obtain ⟨r', e, hr⟩ := (runOp_ok (show Single .inverse from trivial)).1 h
  cases e
  generalize hs : vw.shape raw = sh at hr
  cases hr
  refine (runOp_ok (show Single .inverse from trivial)).2 ⟨_, rfl, ?_⟩
  rw [hx]
  have := Gives.inverse (α := α) (lib := lib) (now := now) (b := !(‹Bool›))
  simpa using this

/-- Converting what was converted changes nothing. -/
theorem C96_twice (now : GTime) {op : Op} (hop : op = .convertToFloat64 ∨ op = .convertToInt64 ∨ op = .convertToBool) {raw x : α} {r : Scal}
    (h : runOp lib vw now op raw = .ok (.sc r)) (hx : vw.shape x = .sc r) : runOp lib vw now op x = .ok (.sc r) := by
  have hs : Single op := by rcases hop with rfl | rfl | rfl <;> trivial
  obtain ⟨r', e, hr⟩ := (runOp_ok hs).1 h
  cases e
  refine (runOp_ok hs).2 ⟨_, rfl, ?_⟩
  rw [hx]
  generalize vw.shape raw = sh at hr
  rcases hop with rfl | rfl | rfl
  all_goals
    cases hr
    all_goals first | exact .float | exact .int64 | exact .bool

namespace C96ex

/-- Two runs of spaces, of three and of two, and white space at both ends: one space stays twice, and once two. -/
example : Trimmed g!"\n a   b  c \n" g!"a   b  c" ∧ Halved g!"a   b  c" g!"a  b c" := by
  refine ⟨⟨g!"\n ", g!" \n", rfl, by unfold White; decide, by unfold White; decide, ?_, ?_⟩, ?_⟩
  · intro c h; cases h; unfold White; decide
  · intro c h; cases h; unfold White; decide
  · exact .other (by decide) (.run (n := 2) (by decide) (.other (by decide) (.run (n := 1) (by decide) (.other (by decide) .nil))))

example : IntText g!"-120" (-120) := ⟨by decide, by decide, 120, .inr ⟨rfl, _, rfl, by decide, by decide, by decide⟩⟩

/-- The same number as a text, as an integer and as a truth value. -/
example (lib : Lib) (now : GTime) : runOp lib P.view now .convertToInt64 (.sc (.str g!"-120")) = .ok (.sc (.i64 (-120))) ∧
    runOp lib P.view now .convertToBool (.sc (.i64 (-120))) = .ok (.sc (.bool true)) ∧ runOp lib P.view now .inverse (.sc (.bool true)) = .ok (.sc (.bool false)) ∧
    runOp lib P.view now .inverse (.sc (.i64 1)) = .err := ⟨rfl, rfl, rfl, rfl⟩

end C96ex

end JT
