import Verif.Model.Strings
/-
A backtracking matcher with submatches for the fragment of RE2 syntax used by
transform/operations.go:17 `durationRe`.  Alternatives are tried in priority order ("leftmost-first"), as
documented for Go's regexp package.
-/
namespace JT

/-- Regular expressions: character class, sequence, (lazy or greedy) repetition of a class, greedy option
of a class, numbered group. -/
inductive RE where
  | cls (p : Char → Bool)
  | seq (a b : RE)
  | star (greedy : Bool) (p : Char → Bool)
  | opt (p : Char → Bool)
  | group (i : Nat) (r : RE)

/-- Submatches found so far. -/
abbrev Caps := List (Nat × Str)

/-- Greedy repetition: try the longest first. -/
def starGreedy (p : Char → Bool) : Str → (Str → Option Caps) → Option Caps
  | [], k => k []
  | c :: cs, k => if p c then (starGreedy p cs k).or (k (c :: cs)) else k (c :: cs)

/-- Lazy repetition: try the shortest first. -/
def starLazy (p : Char → Bool) : Str → (Str → Option Caps) → Option Caps
  | [], k => k []
  | c :: cs, k => (k (c :: cs)).or (if p c then starLazy p cs k else none)

/-- Match `r` at the beginning of the text and continue with the rest. -/
def matchRE : RE → Str → Caps → (Str → Caps → Option Caps) → Option Caps
  | .cls p, s, caps, k => match s with
    | [] => none
    | c :: cs => if p c then k cs caps else none
  | .seq a b, s, caps, k => matchRE a s caps fun s' caps' => matchRE b s' caps' k
  | .star true p, s, caps, k => starGreedy p s fun s' => k s' caps
  | .star false p, s, caps, k => starLazy p s fun s' => k s' caps
  | .opt p, s, caps, k => match s with
    | [] => k [] caps
    | c :: cs => if p c then (k cs caps).or (k (c :: cs) caps) else k (c :: cs) caps
  | .group i r, s, caps, k =>
    matchRE r s caps fun s' caps' => k s' ((i, s.take (s.length - s'.length)) :: caps')

/-- Anchored match `^r$` with submatches. -/
def fullMatch (r : RE) (s : Str) : Option Caps :=
  matchRE r s [] fun s' caps => if s' = [] then some caps else none

/-- Submatch number `i`. -/
def capture (caps : Caps) (i : Nat) : Str := ((caps.find? fun c => c.1 = i).map Prod.snd).getD []

/-- transform/operations.go:17 `^([\d]*?):?([\d]*):([\d]*)$`. -/
def durationRe : RE :=
  .seq (.group 1 (.star false isDigit)) (.seq (.opt (· = ':')) (.seq (.group 2 (.star true isDigit))
    (.seq (.cls (· = ':')) (.group 3 (.star true isDigit)))))

end JT
