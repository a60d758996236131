import Verif.Props.C14
/- C18 (split) and C19 (toCamelCase). -/
namespace JT
open Spec

variable {α : Type} {lib : Lib} {vw : View α}

namespace Spec
/-- The pieces of a string between the separators found from left to right. -/
inductive Pieces (sep : Str) : Str → List Str → Prop
  | last {s : Str} : (¬ ∃ a b, s = a ++ sep ++ b) → Pieces sep s [s]
  | next {a b : Str} {l : List Str} : (∀ a' b', a ++ sep ++ b = a' ++ sep ++ b' → a.length ≤ a'.length) → Pieces sep b l →
      Pieces sep (a ++ sep ++ b) (a :: l)
end Spec

theorem splitLoop_pieces {sep : Str} (hsep : sep ≠ []) : ∀ (n : Nat) (s : Str), s.length ≤ n → Pieces sep s (splitLoop sep n s)
  | 0, s, h => by
    rw [splitLoop]
    refine .last ?_
    rintro ⟨a, b, rfl⟩
    simp at h
    exact hsep (List.eq_nil_of_length_eq_zero (by simp [h]))
  | n + 1, s, h => by
    rw [splitLoop]
    cases hc : cut sep s with
    | none => exact .last fun ⟨a, b, hs⟩ => cut_none_iff.1 hc a b hs
    | some ab =>
      obtain ⟨a, b⟩ := ab
      have hs := cut_some hc
      have hf := cut_first hc
      subst hs
      have : 0 < sep.length := List.length_pos_of_ne_nil hsep
      exact .next hf (splitLoop_pieces hsep n b (by simp at h; omega))

theorem split_pieces {sep s : Str} (hsep : sep ≠ []) : Pieces sep s (split s sep) := by
  rw [split, if_neg hsep]
  exact splitLoop_pieces hsep _ _ (Nat.le_refl _)

theorem Pieces.ne_nil {sep s : Str} {l : List Str} (h : Pieces sep s l) : l ≠ [] := by cases h <;> simp

theorem Pieces.join {sep s : Str} {l : List Str} (h : Pieces sep s l) : JT.join sep l = s := by
  induction h with
  | last _ => rfl
  | @next a b l _ hl ih =>
    cases l with
    | nil => exact absurd rfl (Pieces.ne_nil hl)
    | cons p ps => simp [JT.join, ih]

theorem Pieces.clean {sep s : Str} {l : List Str} (hsep : sep ≠ []) (h : Pieces sep s l) : ∀ p ∈ l, ¬ sep <:+: p := by
  induction h with
  | last hn =>
    intro p hp
    simp only [List.mem_singleton] at hp
    subst hp
    rintro ⟨a, b, rfl⟩
    exact hn ⟨a, b, rfl⟩
  | @next a b l hf _ ih =>
    intro p hp
    rcases List.mem_cons.1 hp with rfl | hp
    · rintro ⟨x, y, rfl⟩
      have h1 := hf x (y ++ sep ++ b) (by simp)
      have : 0 < sep.length := List.length_pos_of_ne_nil hsep
      simp at h1
      omega
    · exact ih p hp

/-- **C18**: splitting a string that is not empty gives its pieces; joined with the separator they are the input, and none of them
contains the separator.  The empty string has no pieces. -/
theorem C18 {now : GTime} {sep s : Str} {raw : α} (hsep : sep ≠ []) (hs : vw.shape raw = .sc (.str s)) :
    ∃ l, runOp lib vw now (.split sep) raw = .ok (.strs l) ∧ join sep l = s ∧ (∀ p ∈ l, ¬ sep <:+: p) ∧
      (s ≠ [] → Pieces sep s l) ∧ (s = [] → l = []) := by
  by_cases h : s = []
  · refine ⟨[], by simp [runOp, onStr, hs, h], by simp [join, h], by simp, fun hn => absurd h hn, fun _ => rfl⟩
  · have hp := split_pieces (s := s) hsep
    exact ⟨split s sep, by simp [runOp, onStr, hs, h], Pieces.join hp, Pieces.clean hsep hp, fun _ => hp, fun hn => absurd hn h⟩

/-- Other values are an error. -/
theorem C18_other {now : GTime} {sep : Str} {raw : α} (hs : ∀ s, vw.shape raw ≠ .sc (.str s)) :
    runOp lib vw now (.split sep) raw = .err := by
  rw [runOp, onStr]
  split
  · rename_i s h; exact absurd h (hs s)
  · rfl

example : split g!"a--b-c--" g!"--" = [g!"a", g!"b-c", []] := by decide


/- ## C19 -/

theorem join_nil : ∀ (l : List Str), join [] l = l.flatten
  | [] => rfl
  | [p] => by simp [join]
  | p :: q :: r => by simp [join, join_nil (q :: r)]

/-- The pieces for a one-character separator hold all other characters. -/
theorem Pieces.flatten_char {d : Char} {s : Str} {l : List Str} (h : Pieces [d] s l) : l.flatten = s.filter (· ≠ d) := by
  generalize hsep : [d] = sep at h
  induction h with
  | @last s hn =>
    subst hsep
    have : d ∉ s := by
      intro hm
      obtain ⟨a, b, rfl⟩ := List.append_of_mem hm
      exact hn ⟨a, b, by simp⟩
    simp only [List.flatten_cons, List.flatten_nil, List.append_nil]
    symm
    rw [List.filter_eq_self]
    intro c hc
    simp only [decide_eq_true_eq]
    rintro rfl
    exact this hc
  | @next a b l hf hl ih =>
    subst hsep
    have : d ∉ a := by
      intro hm
      obtain ⟨x, y, rfl⟩ := List.append_of_mem hm
      have := hf x (y ++ [d] ++ b) (by simp)
      simp at this
      omega
    have ha : a.filter (· ≠ d) = a := by
      rw [List.filter_eq_self]
      intro c hc
      simp only [decide_eq_true_eq]
      rintro rfl
      exact this hc
    rw [List.flatten_cons, ih, List.filter_append, List.filter_append, ha]
    simp

namespace Spec
/-- `toLower` and `title` change characters one by one, each to a related one. -/
structure CaseMap (lib : Lib) (R : Char → Char → Prop) : Prop where
  lower : ∀ s, List.Forall₂ R s (lib.toLower s)
  title : ∀ s, List.Forall₂ R s (lib.title s)
end Spec

theorem forall₂_append {α β : Type} {R : α → β → Prop} {a c : List α} {b d : List β} (h1 : List.Forall₂ R a b) (h2 : List.Forall₂ R c d) :
    List.Forall₂ R (a ++ c) (b ++ d) := by
  induction h1 with
  | nil => exact h2
  | cons h _ ih => exact .cons h ih

/-- **C19**: `toCamelCase` lower-cases the first piece, title-cases the others and joins them; with a one-character delimiter that is not
the case variant of another character, the result contains no delimiter and consists of case variants of the other characters in order. -/
theorem C19 {now : GTime} {delim s : Str} {raw : α} (hd : delim ≠ []) (hs : vw.shape raw = .sc (.str s)) :
    ∃ out, runOp lib vw now (.toCamelCase delim) raw = .ok (.sc (.str out)) ∧
      (∃ p ps, Pieces delim s (p :: ps) ∧ out = lib.toLower p ++ (ps.map lib.title).flatten) ∧
      ∀ (d : Char) (R : Char → Char → Prop), delim = [d] → CaseMap lib R → (∀ c, R c d → c = d) →
        d ∉ out ∧ List.Forall₂ R (s.filter (· ≠ d)) out := by
  have hp := split_pieces (s := s) hd
  cases hsp : split s delim with
  | nil => exact absurd hsp (Pieces.ne_nil hp)
  | cons p ps =>
    rw [hsp] at hp
    have hout : camelStr lib delim s = lib.toLower p ++ (ps.map lib.title).flatten := by
      rw [camelStr, hsp]
      simp only
      rw [join_nil, List.flatten_cons]
    refine ⟨_, by simp [runOp, onStr, hs, hout], ⟨p, ps, hp, rfl⟩, ?_⟩
    intro d R hdel hcm hR
    subst hdel
    have hfl : ∀ (l : List Str), List.Forall₂ R l.flatten (l.map lib.title).flatten := by
      intro l
      induction l with
      | nil => exact .nil
      | cons q qs ih => exact forall₂_append (hcm.title q) ih
    have hall : List.Forall₂ R (s.filter (· ≠ d)) (lib.toLower p ++ (ps.map lib.title).flatten) := by
      rw [← Pieces.flatten_char hp, List.flatten_cons]
      exact forall₂_append (hcm.lower p) (hfl ps)
    refine ⟨?_, hall⟩
    have hno : d ∉ s.filter (· ≠ d) := by simp
    generalize s.filter (· ≠ d) = a at hall hno
    generalize lib.toLower p ++ (ps.map lib.title).flatten = b at hall
    clear hp hout
    induction hall with
    | nil => simp
    | @cons x y l1 l2 hxy _ ih =>
      simp only [List.mem_cons, not_or] at hno ⊢
      refine ⟨?_, ih hno.2⟩
      rintro rfl
      exact hno.1 (hR x hxy).symm

namespace C19ex
/-- A library whose `title` changes a leading `b` to `B`. -/
def lib' : Lib := { Toy.lib [] with title := fun s => match s with | 'b' :: t => 'B' :: t | s => s }
def R (c d : Char) : Prop := c = d ∨ (c = 'b' ∧ d = 'B')
theorem refl : ∀ (s : Str), List.Forall₂ R s s
  | [] => .nil
  | _ :: s => .cons (Or.inl rfl) (refl s)
example : CaseMap lib' R where
  lower s := refl s
  title s := by
    simp only [lib']
    split
    · exact .cons (Or.inr ⟨rfl, rfl⟩) (refl _)
    · exact refl _
example : ∀ c, R c '-' → c = '-' := by
  rintro c (h | ⟨_, h⟩)
  · exact h
  · exact absurd h (by decide)
example : camelStr lib' g!"-" g!"a-b-c" = g!"aBc" := by decide
end C19ex

end JT
