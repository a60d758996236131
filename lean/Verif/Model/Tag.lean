import Verif.Model.GoAst
/- generate/avro.go:239-258: reading the text of a struct tag. -/
namespace JT.Go

/-- The rest of a quoted text after the opening quote: what is before the closing quote, as it is written, and what follows it
(the scan of `reflect.StructTag.Lookup`, used at generate/avro.go:245-246). -/
def scanQuoted : Str → Option (Str × Str)
  | [] => none
  | '"' :: t => some ([], t)
  | ['\\'] => none
  | '\\' :: c :: t => (scanQuoted t).map fun r => ('\\' :: c :: r.1, r.2)
  | c :: t => (scanQuoted t).map fun r => (c :: r.1, r.2)

/-- The character for an escape sequence of one letter. -/
def escaped (c : Char) : Option Char :=
  if c = 'a' then some (Char.ofNat 7)
  else if c = 'b' then some (Char.ofNat 8)
  else if c = 'f' then some (Char.ofNat 12)
  else if c = 'n' then some '\n'
  else if c = 'r' then some '\r'
  else if c = 't' then some '\t'
  else if c = 'v' then some (Char.ofNat 11)
  else if c = '\\' ∨ c = '"' then some c
  else none

/-- `strconv.Unquote` of a text in double quotes, given what is between the quotes; `none` is an error.  The escape sequences with digits (`\x`, `\u`, `\U` and octal) are not
modelled, they count as errors. -/
def unquote : Str → Option Str
  | [] => some []
  | '\\' :: c :: t => (escaped c).bind fun d => (unquote t).map (d :: ·)
  | c :: t => if c = '"' ∨ c = '\n' ∨ c = '\\' then none else (unquote t).map (c :: ·)

/-- A character in the key of a tag: no space, control character, colon or quote. -/
def keyChar (c : Char) : Bool := decide (' '.toNat < c.toNat) && decide (c ≠ ':') && decide (c ≠ '"') && decide (c.toNat ≠ 0x7f)

/-- The loop of `reflect.StructTag.Get` (used at generate/avro.go:245-246), for at most so many entries: the value of the first entry with the key, empty if there is
none. -/
def tagLoop (key : Str) : Nat → Str → Str
  | 0, _ => []
  | n + 1, tag =>
    let tag := tag.dropWhile fun c => c = ' '
    let k := tag.takeWhile keyChar
    match k, tag.dropWhile keyChar with
    | _ :: _, ':' :: '"' :: t =>
      match scanQuoted t with
      | none => []
      | some (q, rest) => if k = key then (unquote q).getD [] else tagLoop key n rest
    | _, _ => []

/-- `reflect.StructTag.Get`. -/
def tagGet (tag key : Str) : Str := tagLoop key (tag.length + 1) tag

/-- strings.ToLower, for ASCII letters. -/
def lower (s : Str) : Str := s.map Char.toLower

/-- generate/avro.go:239-258 `parseStructTag`, for a field with a tag; the text is the literal with its backquotes. -/
def parseStructTag (literal : Str) : Tag :=
  let tag := trim ['`'] literal
  let splits := splitC ',' (tagGet tag g!"json")
  { name := splits.headD [], description := tagGet tag g!"description", omitEmpty := splits.tail.any fun s => decide (lower s = g!"omitempty") }

end JT.Go
