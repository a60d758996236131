/-
Go strings and the functions of packages `strings` and `strconv` that the repository calls.
A Go string is modelled as a list of characters (the code under study never indexes bytes of a
non-ASCII string).
-/
namespace JT

/-- Go `string`. -/
abbrev Str := List Char

/-- `g!"abc"` is the list of characters `['a','b','c']`. -/
syntax:max "g!" str : term
macro_rules
  | `(g! $s) => do
    let cs := s.getString.toList.map Lean.Syntax.mkCharLit
    `(([$(cs.toArray),*] : List Char))

/-- Outcome of a Go call returning `(T, error)`: a value, a non-nil error (text dropped), or a run-time
panic. -/
inductive Res (α : Type) where
  | ok (a : α)
  | err
  | panic
  deriving Repr, DecidableEq

namespace Res
def bind {α β : Type} : Res α → (α → Res β) → Res β
  | ok a, f => f a
  | err, _ => err
  | panic, _ => panic
def map {α β : Type} (f : α → β) : Res α → Res β
  | ok a => ok (f a)
  | err => err
  | panic => panic
def isOk {α : Type} : Res α → Bool
  | ok _ => true
  | _ => false
instance : Monad Res where
  pure := ok
  bind := bind
@[simp] theorem bind_ok {α β : Type} (a : α) (f : α → Res β) : (Res.ok a >>= f) = f a := rfl
@[simp] theorem bind_err {α β : Type} (f : α → Res β) : ((Res.err : Res α) >>= f) = Res.err := rfl
@[simp] theorem bind_panic {α β : Type} (f : α → Res β) : ((Res.panic : Res α) >>= f) = Res.panic := rfl
@[simp] theorem pure_eq {α : Type} (a : α) : (pure a : Res α) = Res.ok a := rfl
end Res

/-- strings.HasPrefix(s, p). -/
def hasPrefix (s p : Str) : Bool := p.isPrefixOf s
/-- strings.HasSuffix(s, p). -/
def hasSuffix (s p : Str) : Bool := p.isSuffixOf s

/-- strings.Cut-like helper: text before and after the first occurrence of `sep`. -/
def cut (sep : Str) : Str → Option (Str × Str)
  | [] => if sep = [] then some ([], []) else none
  | c :: cs =>
    if sep.isPrefixOf (c :: cs) then some ([], (c :: cs).drop sep.length)
    else (cut sep cs).map fun (a, b) => (c :: a, b)

/-- strings.Contains(s, sep). -/
def contains (s sep : Str) : Bool := (cut sep s).isSome

/-- strings.Split(s, sep) for a one character separator. -/
def splitC (sep : Char) : Str → List Str
  | [] => [[]]
  | c :: cs =>
    if c = sep then [] :: splitC sep cs
    else match splitC sep cs with
      | [] => [[c]]
      | p :: ps => (c :: p) :: ps

/-- strings.SplitN(s, sep, 2) for a one character separator. -/
def splitN2 (sep : Char) (s : Str) : List Str :=
  match cut [sep] s with
  | some (a, b) => [a, b]
  | none => [s]

/-- Loop of strings.Split for a non-empty separator; the fuel is the length of the rest. -/
def splitLoop (sep : Str) : Nat → Str → List Str
  | 0, s => [s]
  | n + 1, s => match cut sep s with
    | some (a, b) => a :: splitLoop sep n b
    | none => [s]

/-- strings.Split(s, sep) for any separator; an empty separator explodes the string into characters. -/
def split (s sep : Str) : List Str :=
  if sep = [] then s.map fun c => [c] else splitLoop sep s.length s

/-- strings.Join(parts, sep). -/
def join (sep : Str) : List Str → Str
  | [] => []
  | [p] => p
  | p :: q :: r => p ++ sep ++ join sep (q :: r)

/-- strings.Replace(s, old, new, 1). -/
def replace1 (s old new : Str) : Str :=
  match cut old s with
  | some (a, b) => a ++ new ++ b
  | none => s

/-- Loop of strings.ReplaceAll for a non-empty `old`. -/
def replaceAllLoop (old new : Str) : Nat → Str → Str
  | 0, s => s
  | n + 1, s => match cut old s with
    | some (a, b) => a ++ new ++ replaceAllLoop old new n b
    | none => s

/-- strings.ReplaceAll(s, old, new) / strings.Replace(s, old, new, -1), `old` not empty. -/
def replaceAll (s old new : Str) : Str := replaceAllLoop old new s.length s

/-- strings.TrimLeft(s, cutset). -/
def trimLeft (cutset : List Char) (s : Str) : Str := s.dropWhile fun c => cutset.contains c
/-- strings.TrimRight(s, cutset). -/
def trimRight (cutset : List Char) (s : Str) : Str := (trimLeft cutset s.reverse).reverse
/-- strings.Trim(s, cutset). -/
def trim (cutset : List Char) (s : Str) : Str := trimRight cutset (trimLeft cutset s)

/-- Is the character an ASCII decimal digit (regexp class `\d`)? -/
def isDigit (c : Char) : Bool := decide (48 ≤ c.toNat) && decide (c.toNat ≤ 57)

/-- Numeric value of a digit. -/
def digitVal (c : Char) : Nat := c.toNat - 48

/-- Value of a digit string, most significant first. -/
def digitsVal (s : Str) : Nat := s.foldl (fun n c => 10 * n + digitVal c) 0

/-- Go `int` is 64 bits wide; overflow wraps. -/
def wrap64 (n : Int) : Int := (n + 2 ^ 63) % 2 ^ 64 - 2 ^ 63

def inInt64 (n : Int) : Bool := decide (-(2 ^ 63) ≤ n) && decide (n < 2 ^ 63)

/-- Unsigned part of strconv.Atoi: one or more digits. -/
def parseDigits (s : Str) : Option Nat :=
  if s ≠ [] ∧ s.all isDigit then some (digitsVal s) else none

/-- Optional sign followed by digits, without range check. -/
def parseSigned : Str → Option Int
  | '-' :: t => (parseDigits t).map fun n => - (n : Int)
  | '+' :: t => (parseDigits t).map fun n => (n : Int)
  | t => (parseDigits t).map fun n => (n : Int)

/-- strconv.Atoi(s) (and strconv.ParseInt(s, 10, 64)): optional sign, digits, range check. -/
def atoi (s : Str) : Option Int :=
  match parseSigned s with
  | some n => if inInt64 n then some n else none
  | none => none

/-- Character of a digit. -/
def digitChar (n : Nat) : Char := Char.ofNat (48 + n)

/-- Decimal digits of a number; `fuel` bounds the number of digits. -/
def natDigits : (fuel : Nat) → Nat → Str → Str
  | 0, _, acc => acc
  | f + 1, n, acc =>
    if n < 10 then digitChar n :: acc else natDigits f (n / 10) (digitChar (n % 10) :: acc)

/-- strconv.Itoa for non-negative numbers; `fmt.Sprintf("%d", n)`. -/
def itoaNat (n : Nat) : Str := natDigits (n + 1) n []

/-- strconv.Itoa. -/
def itoa (n : Int) : Str := if n < 0 then '-' :: itoaNat n.natAbs else itoaNat n.natAbs

/-- strconv.ParseBool. -/
def parseBool (s : Str) : Option Bool :=
  if s = g!"1" ∨ s = g!"t" ∨ s = g!"T" ∨ s = g!"TRUE" ∨ s = g!"true" ∨ s = g!"True" then some true
  else if s = g!"0" ∨ s = g!"f" ∨ s = g!"F" ∨ s = g!"FALSE" ∨ s = g!"false" ∨ s = g!"False" then some false
  else none

/-- strconv.FormatBool. -/
def formatBool (b : Bool) : Str := if b then g!"true" else g!"false"

/-- Comparison of strings as done by `<` on Go strings (by bytes; for UTF-8 this is the order of code
points). -/
def strLt : Str → Str → Bool
  | [], [] => false
  | [], _ :: _ => true
  | _ :: _, [] => false
  | a :: as, b :: bs =>
    if a.toNat < b.toNat then true else if b.toNat < a.toNat then false else strLt as bs

end JT
