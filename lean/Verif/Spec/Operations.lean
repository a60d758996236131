import Verif.Model.Operations
/- What the transform operations on single values give, in terms of texts and numbers. -/
namespace JT.Spec

/-- The code points that Unicode counts as white space. -/
def whitePoints : List Nat := [9, 10, 11, 12, 13, 32, 0x85, 0xA0, 0x1680, 0x2000, 0x2001, 0x2002, 0x2003, 0x2004, 0x2005, 0x2006, 0x2007, 0x2008, 0x2009, 0x200a, 0x2028,
  0x2029, 0x202f, 0x205f, 0x3000]
def White (c : Char) : Prop := c.toNat ∈ whitePoints

/-- `t` is `s` without the white space at both ends. -/
def Trimmed (s t : Str) : Prop :=
  ∃ a b, s = a ++ t ++ b ∧ (∀ c ∈ a, White c) ∧ (∀ c ∈ b, White c) ∧
    (∀ c, t.head? = some c → ¬ White c) ∧ (∀ c, t.getLast? = some c → ¬ White c)

/-- `t` is `s` where each run of spaces is half as long, rounded up. -/
inductive Halved : Str → Str → Prop
  | nil : Halved [] []
  | other {c : Char} {s t : Str} : c ≠ ' ' → Halved s t → Halved (c :: s) (c :: t)
  | run {n : Nat} {s t : Str} : s.head? ≠ some ' ' → Halved s t → Halved (List.replicate (n + 1) ' ' ++ s) (List.replicate (n / 2 + 1) ' ' ++ t)

/-- Text of a number in decimal notation, with digits only. -/
def NatText (s : Str) (n : Nat) : Prop :=
  s ≠ [] ∧ (∀ c ∈ s, '0'.toNat ≤ c.toNat ∧ c.toNat ≤ '9'.toNat) ∧ n = s.foldl (fun n c => 10 * n + (c.toNat - '0'.toNat)) 0

/-- Text of a number of 64 bits. -/
def IntText (s : Str) (i : Int) : Prop :=
  -(2 ^ 63) ≤ i ∧ i < 2 ^ 63 ∧ ∃ n : Nat, (i = n ∧ (NatText s n ∨ ∃ t, s = '+' :: t ∧ NatText t n)) ∨ (i = -(n : Int) ∧ ∃ t, s = '-' :: t ∧ NatText t n)

/-- Texts of the truth values. -/
def trueTexts : List Str := [g!"1", g!"t", g!"T", g!"true", g!"True", g!"TRUE"]
def falseTexts : List Str := [g!"0", g!"f", g!"F", g!"false", g!"False", g!"FALSE"]

/-- `op` gives the value `r` for a value of shape `sh`. -/
inductive Gives {α : Type} (lib : Lib) (now : GTime) : Op → Shape α → Scal → Prop
  | lower {s : Str} : Gives lib now (.changeCase false) (.sc (.str s)) (.str (lib.toLower s))
  | upper {s : Str} : Gives lib now (.changeCase true) (.sc (.str s)) (.str (lib.toUpper s))
  | blank : Gives lib now .valueExists (.sc (.str [])) (.bool false)
  | text {s : Str} : s ≠ [] → Gives lib now .valueExists (.sc (.str s)) (.bool true)
  | noNode : Gives lib now .valueExists (.sc (.nodes [])) (.bool false)
  | node {l : List NodeId} : l ≠ [] → Gives lib now .valueExists (.sc (.nodes l)) (.bool true)
  | inverse {b : Bool} : Gives lib now .inverse (.sc (.bool b)) (.bool !b)
  | replace {re new s : Str} : Gives lib now (.replace re new) (.sc (.str s)) (.str (lib.reReplace re s new))
  | timeParse {format layout s : Str} {t : GTime} : lib.parseTime format s = some t → Gives lib now (.timeParse format layout) (.sc (.str s)) (.str (lib.formatTime layout t))
  | rfc3339 {sh : Shape α} : Gives lib now (.currentTime g!"RFC3339") sh (.str (lib.formatTime g!"2006-01-02T15:04:05Z07:00" now))
  | currentTime {format : Str} {sh : Shape α} : format ≠ g!"RFC3339" → Gives lib now (.currentTime format) sh (.str (lib.formatTime format now))
  | removeHTML {s t u : Str} : Trimmed (lib.sanitize s) t → Halved t u → Gives lib now .removeHTML (.sc (.str s)) (.str (lib.unescape u))
  | floatText {s : Str} {f : F64} : lib.parseFloat s = some f → Gives lib now .convertToFloat64 (.sc (.str s)) (.f64 f)
  | floatInt {i : Int} : Gives lib now .convertToFloat64 (.sc (.int i)) (.f64 (lib.ofInt i))
  | float {f : F64} : Gives lib now .convertToFloat64 (.sc (.f64 f)) (.f64 f)
  | intText {s : Str} {i : Int} : IntText s i → Gives lib now .convertToInt64 (.sc (.str s)) (.i64 i)
  | intFloat {f : F64} : Gives lib now .convertToInt64 (.sc (.f64 f)) (.i64 (lib.toInt f))
  | int {i : Int} : Gives lib now .convertToInt64 (.sc (.int i)) (.i64 i)
  | int64 {i : Int} : Gives lib now .convertToInt64 (.sc (.i64 i)) (.i64 i)
  | bool {b : Bool} : Gives lib now .convertToBool (.sc (.bool b)) (.bool b)
  | trueText {s : Str} : s ∈ trueTexts → Gives lib now .convertToBool (.sc (.str s)) (.bool true)
  | falseText {s : Str} : s ∈ falseTexts → Gives lib now .convertToBool (.sc (.str s)) (.bool false)
  | empty : Gives lib now .convertToBool (.arr []) (.bool false)
  | entries {l : List α} : l ≠ [] → Gives lib now .convertToBool (.arr l) (.bool true)
  | zeroFloat {f : F64} : (f = 0x0000000000000000#64 ∨ f = 0x8000000000000000#64) → Gives lib now .convertToBool (.sc (.f64 f)) (.bool false)
  | otherFloat {f : F64} : f ≠ 0x0000000000000000#64 → f ≠ 0x8000000000000000#64 → Gives lib now .convertToBool (.sc (.f64 f)) (.bool true)
  | zero : Gives lib now .convertToBool (.sc (.int 0)) (.bool false)
  | otherInt {i : Int} : i ≠ 0 → Gives lib now .convertToBool (.sc (.int i)) (.bool true)
  | zero64 : Gives lib now .convertToBool (.sc (.i64 0)) (.bool false)
  | otherInt64 {i : Int} : i ≠ 0 → Gives lib now .convertToBool (.sc (.i64 i)) (.bool true)

/-- The operations on single values. -/
def Single : Op → Prop
  | .changeCase _ | .valueExists | .inverse | .replace .. | .timeParse .. | .currentTime _ | .removeHTML | .convertToFloat64 | .convertToInt64 | .convertToBool => True
  | _ => False

end JT.Spec
