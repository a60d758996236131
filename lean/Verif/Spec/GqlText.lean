import Verif.Model.Strings
/- The GraphQL language, as far as definitions of types need it: the lexical grammar (section 2.1 of the specification) and the grammar of type definitions (section 3).
Numbers, unions, inputs, enums and default values are left out. -/
namespace JT.Spec

def nameStart (c : Char) : Bool := c.isAlpha || c == '_'
def nameRest (c : Char) : Bool := c.isAlphanum || c == '_'

/-- A name of the GraphQL language. -/
inductive GqlName : Str → Prop where
  | name {c : Char} {cs : Str} : nameStart c = true → (∀ d ∈ cs, nameRest d = true) → GqlName (c :: cs)

end JT.Spec

namespace JT.GqlText
open Spec

/-! ### Tokens -/

/-- A token: a punctuator, a name, or a string with its value. -/
inductive Tok where
  | punct (c : Char)
  | name (s : Str)
  | str (s : Str)
deriving DecidableEq

/-- Characters that may occur at all. -/
def sourceChar (c : Char) : Bool := decide (0x20 ≤ c.toNat) || c == '\t' || c == '\n' || c == '\r'

/-- Characters between tokens without a meaning. -/
def ignored : List Char := [' ', '\t', '\n', '\r', ',']

def puncts : List Char := ['!', '$', '&', '(', ')', ':', '=', '@', '[', ']', '{', '|', '}']

/-- A line of nothing but white space. -/
def blank (l : Str) : Bool := l.all fun c => c == ' ' || c == '\t'

/-- The number of characters of white space at the beginning. -/
def indent (l : Str) : Nat := (l.takeWhile fun c => c == ' ' || c == '\t').length

/-- The least indentation of the lines with text. -/
def margin : List Str → Option Nat
  | [] => none
  | l :: ls => if blank l then margin ls else some (match margin ls with
    | none => indent l
    | some n => min (indent l) n)

/-- The lines without their common indentation. -/
def dedent (ls : List Str) : List Str := match margin ls with
  | none => ls
  | some n => ls.map (·.drop n)

/-- The lines without blank lines at the beginning and at the end. -/
def trimBlank (ls : List Str) : List Str := ((ls.dropWhile blank).reverse.dropWhile blank).reverse

/-- Lines of a text: a carriage return with a newline after it ends one line. -/
def lines : Str → List Str
  | [] => [[]]
  | '\r' :: '\n' :: cs => [] :: lines cs
  | c :: cs => if c = '\n' ∨ c = '\r' then [] :: lines cs else match lines cs with
    | [] => [[c]]
    | p :: ps => (c :: p) :: ps

/-- Lines put together again. -/
def unlines : List Str → Str
  | [] => []
  | [l] => l
  | l :: ls => l ++ '\n' :: unlines ls

/-- The value of a block string: the indentation of the first line is not counted. -/
def blockValue (raw : Str) : Str := match lines raw with
  | [] => []
  | l :: ls => unlines (trimBlank (l :: dedent ls))

/-- Where the reader is: between tokens; in a name, a comment, a string, an escape sequence of a string or a block string (with the number of quotes just read), or after the
first or the second quote of a string.  What has been read is in reverse. -/
inductive St where
  | start
  | name (r : Str)
  | comment
  | open1
  | open2
  | str (r : Str)
  | esc (r : Str)
  | uni (r : Str) (n k : Nat)
  | block (r : Str) (q : Nat)
deriving DecidableEq

def hexVal (c : Char) : Option Nat :=
  if c.isDigit then some (c.toNat - 48) else if 'a' ≤ c ∧ c ≤ 'f' then some (c.toNat - 87) else if 'A' ≤ c ∧ c ≤ 'F' then some (c.toNat - 55) else none

/-- A character between tokens. -/
def stepStart (c : Char) : Option (List Tok × St) :=
  if c ∈ ignored then some ([], .start)
  else if c = '#' then some ([], .comment)
  else if c = '"' then some ([], .open1)
  else if c ∈ puncts then some ([.punct c], .start)
  else if nameStart c = true then some ([], .name [c])
  else none

/-- A character of a string. -/
def stepStr (r : Str) (c : Char) : Option (List Tok × St) :=
  if c = '"' then some ([.str r.reverse], .start)
  else if c = '\\' then some ([], .esc r)
  else if c = '\n' ∨ c = '\r' then none
  else if sourceChar c = true then some ([], .str (c :: r))
  else none

/-- The character after a backslash. -/
def stepEsc (r : Str) (c : Char) : Option (List Tok × St) :=
  if c = '"' ∨ c = '\\' ∨ c = '/' then some ([], .str (c :: r))
  else if c = 'b' then some ([], .str (Char.ofNat 8 :: r))
  else if c = 'f' then some ([], .str (Char.ofNat 12 :: r))
  else if c = 'n' then some ([], .str ('\n' :: r))
  else if c = 'r' then some ([], .str ('\r' :: r))
  else if c = 't' then some ([], .str ('\t' :: r))
  else if c = 'u' then some ([], .uni r 0 0)
  else none

/-- A character of a block string; three quotes end it, unless a backslash is in front of them. -/
def stepBlock (r : Str) (q : Nat) (c : Char) : Option (List Tok × St) :=
  if c = '"' then
    if q < 2 then some ([], .block r (q + 1))
    else match r with
      | '\\' :: r' => some ([], .block (g!"\"\"\"" ++ r') 0)
      | _ => some ([.str (blockValue r.reverse)], .start)
  else if sourceChar c = true then some ([], .block (c :: (List.replicate q '"' ++ r)) 0)
  else none

/-- Reading a character gives some tokens and leads to another place. -/
def step : St → Char → Option (List Tok × St)
  | .start, c => stepStart c
  | .name r, c => if nameRest c = true then some ([], .name (c :: r)) else (stepStart c).map fun x => (.name r.reverse :: x.1, x.2)
  | .comment, c => if c = '\n' ∨ c = '\r' then some ([], .start) else if sourceChar c = true then some ([], .comment) else none
  | .open1, c => if c = '"' then some ([], .open2) else stepStr [] c
  | .open2, c => if c = '"' then some ([], .block [] 0) else (stepStart c).map fun x => (.str [] :: x.1, x.2)
  | .str r, c => stepStr r c
  | .esc r, c => stepEsc r c
  | .uni r n k, c => match hexVal c with
    | none => none
    | some d => if k = 3 then (if (16 * n + d).isValidChar then some ([], .str (Char.ofNat (16 * n + d) :: r)) else none) else some ([], .uni r (16 * n + d) (k + 1))
  | .block r q, c => stepBlock r q c

/-- Reading a text. -/
def run : St → Str → Option (List Tok × St)
  | st, [] => some ([], st)
  | st, c :: cs => match step st c with
    | none => none
    | some (ts, st') => match run st' cs with
      | none => none
      | some (us, st'') => some (ts ++ us, st'')

/-- The token at the end. -/
def finish : St → Option (List Tok)
  | .start => some []
  | .name r => some [.name r.reverse]
  | .comment => some []
  | .open2 => some [.str []]
  | _ => none

/-- The tokens of a text. -/
def lex (s : Str) : Option (List Tok) := match run .start s with
  | none => none
  | some (ts, st) => (finish st).map (ts ++ ·)

/-! ### Definitions -/

/-- A type: a name or a list, null or not. -/
inductive GType where
  | named (n : Str) (nonNull : Bool)
  | list (t : GType) (nonNull : Bool)
deriving DecidableEq

/-- A value: a string or a name, such as `true`. -/
inductive Val where
  | str (s : Str)
  | name (n : Str)
deriving DecidableEq

structure Directive where
  name : Str
  args : List (Str × Val)
deriving DecidableEq

structure ArgDef where
  description : Option Str
  name : Str
  type : GType
deriving DecidableEq

structure FieldDef where
  description : Option Str
  name : Str
  args : List ArgDef
  type : GType
  directives : List Directive
deriving DecidableEq

/-- A definition of an object type or an interface type. -/
structure TypeDef where
  description : Option Str
  interface : Bool
  name : Str
  implements : Option Str
  directives : List Directive
  fields : List FieldDef
deriving DecidableEq

inductive Def where
  | scalar (name : Str)
  | type (d : TypeDef)
deriving DecidableEq

/-! The grammar: the tokens of each construct. -/

def nonNullTok (b : Bool) : List Tok := if b then [.punct '!'] else []

def GType.toks : GType → List Tok
  | .named n b => .name n :: nonNullTok b
  | .list t b => .punct '[' :: (t.toks ++ .punct ']' :: nonNullTok b)

def Val.tok : Val → Tok
  | .str s => .str s
  | .name n => .name n

def argTok (a : Str × Val) : List Tok := [.name a.1, .punct ':', a.2.tok]

/-- Things in parentheses, if there are any. -/
def parens {α : Type} (f : α → List Tok) (l : List α) : List Tok := match l with
  | [] => []
  | a :: as => .punct '(' :: ((a :: as).flatMap f ++ [.punct ')'])

def Directive.toks (d : Directive) : List Tok := .punct '@' :: .name d.name :: parens argTok d.args

def descTok : Option Str → List Tok
  | none => []
  | some s => [.str s]

def ArgDef.toks (a : ArgDef) : List Tok := descTok a.description ++ .name a.name :: .punct ':' :: a.type.toks

def FieldDef.toks (f : FieldDef) : List Tok :=
  descTok f.description ++ .name f.name :: (parens ArgDef.toks f.args ++ .punct ':' :: (f.type.toks ++ f.directives.flatMap Directive.toks))

def implementsTok : Option Str → List Tok
  | none => []
  | some n => [.name g!"implements", .name n]

def TypeDef.toks (d : TypeDef) : List Tok :=
  descTok d.description ++ .name (if d.interface then g!"interface" else g!"type") :: .name d.name ::
    (implementsTok d.implements ++ (d.directives.flatMap Directive.toks ++ .punct '{' :: (d.fields.flatMap FieldDef.toks ++ [.punct '}'])))

def Def.toks : Def → List Tok
  | .scalar n => [.name g!"scalar", .name n]
  | .type d => d.toks

/-- A text is GraphQL for the definitions: each type has a field, as the grammar demands. -/
def Denotes (text : Str) (defs : List Def) : Prop := lex text = some (defs.flatMap Def.toks) ∧ ∀ d, Def.type d ∈ defs → d.fields ≠ []

end JT.GqlText
