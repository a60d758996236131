import Verif.Model.Strings
/- JSON texts (RFC 8259), as a grammar. -/
namespace JT.Json

/-- White space. -/
def Ws (s : Str) : Prop := ∀ c ∈ s, c = ' ' ∨ c = '\t' ∨ c = '\n' ∨ c = '\r'

/-- A digit. -/
def digit (c : Char) : Prop := '0'.toNat ≤ c.toNat ∧ c.toNat ≤ '9'.toNat
/-- A hexadecimal digit. -/
def hexDigit (c : Char) : Prop := digit c ∨ ('a'.toNat ≤ c.toNat ∧ c.toNat ≤ 'f'.toNat) ∨ ('A'.toNat ≤ c.toNat ∧ c.toNat ≤ 'F'.toNat)

/-- One character of a string, as it is written. -/
inductive Piece : Str → Prop where
  | plain {c : Char} : 0x20 ≤ c.toNat → c ≠ '"' → c ≠ '\\' → Piece [c]
  | esc {c : Char} : c ∈ ['"', '\\', '/', 'b', 'f', 'n', 'r', 't'] → Piece ['\\', c]
  | uni {c1 c2 c3 c4 : Char} : hexDigit c1 → hexDigit c2 → hexDigit c3 → hexDigit c4 → Piece ['\\', 'u', c1, c2, c3, c4]

/-- The inside of a string. -/
inductive Chars : Str → Prop where
  | nil : Chars []
  | cons {a b : Str} : Piece a → Chars b → Chars (a ++ b)

/-- Digits, at least one. -/
def Digits (s : Str) : Prop := s ≠ [] ∧ ∀ c ∈ s, digit c

/-- A number. -/
def Num (s : Str) : Prop :=
  ∃ sign int frac exp, s = sign ++ int ++ frac ++ exp ∧ (sign = [] ∨ sign = ['-']) ∧
    (int = ['0'] ∨ (Digits int ∧ int.head? ≠ some '0')) ∧
    (frac = [] ∨ ∃ d, Digits d ∧ frac = '.' :: d) ∧
    (exp = [] ∨ ∃ e sg d, (e = 'e' ∨ e = 'E') ∧ (sg = [] ∨ sg = ['+'] ∨ sg = ['-']) ∧ Digits d ∧ exp = e :: sg ++ d)

mutual
/-- A value. -/
inductive Val : Str → Prop where
  | str {s : Str} : Chars s → Val ('"' :: s ++ ['"'])
  | lit {s : Str} : s = g!"true" ∨ s = g!"false" ∨ s = g!"null" → Val s
  | num {s : Str} : Num s → Val s
  | arr0 {w : Str} : Ws w → Val ('[' :: w ++ [']'])
  | arr {s : Str} : Elems s → Val ('[' :: s ++ [']'])
  | obj0 {w : Str} : Ws w → Val ('{' :: w ++ ['}'])
  | obj {s : Str} : Mems s → Val ('{' :: s ++ ['}'])
/-- The elements of an array. -/
inductive Elems : Str → Prop where
  | one {a v b : Str} : Ws a → Val v → Ws b → Elems (a ++ v ++ b)
  | cons {a v b t : Str} : Ws a → Val v → Ws b → Elems t → Elems (a ++ v ++ b ++ ',' :: t)
/-- The members of an object. -/
inductive Mems : Str → Prop where
  | one {a k b c v d : Str} : Ws a → Chars k → Ws b → Ws c → Val v → Ws d → Mems (a ++ '"' :: k ++ '"' :: b ++ ':' :: c ++ v ++ d)
  | cons {a k b c v d t : Str} : Ws a → Chars k → Ws b → Ws c → Val v → Ws d → Mems t → Mems (a ++ '"' :: k ++ '"' :: b ++ ':' :: c ++ v ++ d ++ ',' :: t)
end

/-- A JSON text: a value with white space around it. -/
def Text (s : Str) : Prop := ∃ a v b, Ws a ∧ Val v ∧ Ws b ∧ s = a ++ v ++ b

end JT.Json
