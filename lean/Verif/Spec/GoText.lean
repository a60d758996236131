import Verif.Model.SchemaFile
import Verif.Spec.Fields
import Verif.Spec.Tag
import Verif.Spec.GoJson
/- The Go language, as far as generated structs need it: the lexical elements and the grammar of type declarations of the Go specification.  Numbers, runes, escapes in
strings, operators and block comments are left out: a text with them has no tokens here.  Comments are kept, as the documentation of fields. -/
namespace JT.GoText

/-! ### Tokens -/

inductive Tok where
  | ident (s : Str)
  | keyword (s : Str)
  /-- Punctuation.  A semicolon may have been inserted at the end of a line. -/
  | punct (c : Char)
  /-- A string literal in quotes. -/
  | str (s : Str)
  /-- A string literal in backquotes. -/
  | raw (s : Str)
  /-- A comment after `//`. -/
  | comment (s : Str)
deriving DecidableEq

def keywords : List Str :=
  [g!"break", g!"case", g!"chan", g!"const", g!"continue", g!"default", g!"defer", g!"else", g!"fallthrough", g!"for", g!"func", g!"go", g!"goto", g!"if", g!"import",
   g!"interface", g!"map", g!"package", g!"range", g!"return", g!"select", g!"struct", g!"switch", g!"type", g!"var"]

/-- Letters and digits besides those of ASCII: the categories L and Nd of Unicode. -/
structure Unicode where
  letter : Char → Bool
  digit : Char → Bool

def isLetter (u : Unicode) (c : Char) : Bool := c.isAlpha || c == '_' || (decide (128 ≤ c.toNat) && u.letter c)
def isDigit (u : Unicode) (c : Char) : Bool := c.isDigit || (decide (128 ≤ c.toNat) && u.digit c)

/-- Characters that may not occur in source text: NUL, and the byte order mark besides at the beginning. -/
def sourceChar (c : Char) : Bool := c.toNat != 0 && c.toNat != 0xFEFF

/-- A name: an identifier that is no keyword. -/
def Name (u : Unicode) (s : Str) : Prop := (∃ c t, s = c :: t ∧ isLetter u c = true ∧ ∀ x ∈ t, (isLetter u x || isDigit u x) = true) ∧ s ∉ keywords

/-- Where the reader is: between tokens, after a slash, in a comment — each with whether a semicolon is inserted at the end of the line — in a word or in a string.
What has been read is in reverse. -/
inductive St where
  | start (semi : Bool)
  | slash (semi : Bool)
  | comment (semi : Bool) (r : Str)
  | word (r : Str)
  | str (r : Str)
  | raw (r : Str)
deriving DecidableEq

def puncts : List Char := ['(', ')', '[', ']', '{', '}', ',', ';', '.', '*']

/-- The semicolon at the end of a line. -/
def semiTok (semi : Bool) : List Tok := if semi then [.punct ';'] else []

/-- A character between tokens. -/
def stepStart (u : Unicode) (semi : Bool) (c : Char) : Option (List Tok × St) :=
  if c = '\n' then some (semiTok semi, .start false)
  else if c ∈ [' ', '\t', '\r'] then some ([], .start semi)
  else if c = '/' then some ([], .slash semi)
  else if c = '"' then some ([], .str [])
  else if c = '`' then some ([], .raw [])
  else if c ∈ puncts then some ([.punct c], .start (decide (c ∈ [')', ']', '}'])))
  else if isLetter u c = true then some ([], .word [c])
  else none

/-- The token for a word. -/
def wordTok (s : Str) : Tok := if s ∈ keywords then .keyword s else .ident s

/-- Whether a semicolon is inserted if the line ends after the word. -/
def wordSemi (s : Str) : Bool := decide (s ∉ keywords) || decide (s ∈ [g!"break", g!"continue", g!"fallthrough", g!"return"])

/-- Reading a character gives some tokens and leads to another place. -/
def step (u : Unicode) : St → Char → Option (List Tok × St)
  | .start semi, c => stepStart u semi c
  | .slash semi, c => if c = '/' then some ([], .comment semi []) else none
  | .comment semi r, c =>
    if c = '\n' then some (.comment r.reverse :: semiTok semi, .start false)
    else if c = '\r' then some ([], .comment semi r)
    else if sourceChar c = true then some ([], .comment semi (c :: r))
    else none
  | .word r, c =>
    if (isLetter u c || isDigit u c) = true then some ([], .word (c :: r))
    else (stepStart u (wordSemi r.reverse) c).map fun x => (wordTok r.reverse :: x.1, x.2)
  | .str r, c =>
    if c = '"' then some ([.str r.reverse], .start true)
    else if c = '\\' ∨ c = '\n' then none
    else if sourceChar c = true then some ([], .str (c :: r))
    else none
  | .raw r, c =>
    if c = '`' then some ([.raw r.reverse], .start true)
    else if c = '\r' then some ([], .raw r)
    else if sourceChar c = true then some ([], .raw (c :: r))
    else none

/-- Reading a text. -/
def run (u : Unicode) : St → Str → Option (List Tok × St)
  | st, [] => some ([], st)
  | st, c :: cs => match step u st c with
    | none => none
    | some (ts, st') => match run u st' cs with
      | none => none
      | some (us, st'') => some (ts ++ us, st'')

/-- The tokens at the end. -/
def finish : St → Option (List Tok)
  | .start semi => some (semiTok semi)
  | .comment semi r => some (.comment r.reverse :: semiTok semi)
  | .word r => some (wordTok r.reverse :: semiTok (wordSemi r.reverse))
  | _ => none

/-- The tokens of a text. -/
def lex (u : Unicode) (s : Str) : Option (List Tok) := match run u (.start false) s with
  | none => none
  | some (ts, st) => (finish st).map (ts ++ ·)

/-! ### Declarations -/

mutual
/-- A type: a pointer, a named type, one of another package, a map, a slice or a struct. -/
inductive Ty where
  | star (t : Ty)
  | name (s : Str)
  | sel (pkg s : Str)
  | map (k v : Ty)
  | slice (t : Ty)
  | struct (fs : List Field)
/-- A field with the comments in front of it; it has no name if it is embedded. -/
inductive Field where
  | mk (doc : List Str) (name : Option Str) (type : Ty) (tag : Option Str)
end

/-- A file with its imports and type declarations. -/
structure File where
  pkg : Str
  doc : List Str
  imports : List Str
  types : List (Str × Ty)

/-! The grammar: the tokens of each construct. -/

def nameTok : Option Str → List Tok
  | none => []
  | some n => [.ident n]

def tagTok : Option Str → List Tok
  | none => []
  | some t => [.raw t]

mutual
def Ty.toks : Ty → List Tok
  | .star t => .punct '*' :: t.toks
  | .name s => [.ident s]
  | .sel p s => [.ident p, .punct '.', .ident s]
  | .map k v => .keyword g!"map" :: .punct '[' :: (k.toks ++ .punct ']' :: v.toks)
  | .slice t => .punct '[' :: .punct ']' :: t.toks
  | .struct fs => .keyword g!"struct" :: .punct '{' :: (fieldsToks fs ++ [.punct '}'])
def Field.toks : Field → List Tok
  | .mk doc n t tag => doc.map .comment ++ (nameTok n ++ (t.toks ++ (tagTok tag ++ [.punct ';'])))
def fieldsToks : List Field → List Tok
  | [] => []
  | f :: fs => f.toks ++ fieldsToks fs
end

def importToks (p : Str) : List Tok := [.keyword g!"import", .str p, .punct ';']

def typeToks (d : Str × Ty) : List Tok := .keyword g!"type" :: .ident d.1 :: (d.2.toks ++ [.punct ';'])

def File.toks (f : File) : List Tok :=
  .keyword g!"package" :: .ident f.pkg :: .punct ';' :: (f.doc.map .comment ++ (f.imports.flatMap importToks ++ f.types.flatMap typeToks))

/-- The text is the Go source of the file. -/
def Source (u : Unicode) (text : Str) (f : File) : Prop := lex u text = some f.toks

mutual
/-- Whether a type uses something of a package. -/
def Ty.uses (p : Str) : Ty → Bool
  | .star t => t.uses p
  | .name _ => false
  | .sel q _ => decide (p = q)
  | .map k v => k.uses p || v.uses p
  | .slice t => t.uses p
  | .struct fs => fieldsUse p fs
def fieldsUse (p : Str) : List Field → Bool
  | [] => false
  | .mk _ _ t _ :: fs => t.uses p || fieldsUse p fs
end

/-- Exactly the packages that are used are imported, as Go demands. -/
def File.ImportsUsed (f : File) : Prop := f.imports.Nodup ∧ ∀ p, p ∈ f.imports ↔ ∃ d ∈ f.types, d.2.uses p = true

/-! ### The declarations that a JSON schema asks for -/

open Spec GoJson

/-- The Go types of JSON types. -/
def scalarTable : List (Str × Str) := [(g!"boolean", g!"bool"), (g!"number", g!"float64"), (g!"integer", g!"int64"), (g!"string", g!"string")]

/-- A type or the pointer to it. -/
def ptrIf (b : Prop) [Decidable b] (t : Ty) : Ty := if b then .star t else t

/-- The lines of a text. -/
def linesOf : Str → List Str
  | [] => [[]]
  | c :: cs => if c = '\n' then [] :: linesOf cs else match linesOf cs with
    | [] => [[c]]
    | l :: ls => (c :: l) :: ls

/-- The comments for a description: one per line, unless it is in the tag or empty. -/
def docOf (descTag : Bool) (description : Str) : List Str := if descTag = true ∨ description = [] then [] else (linesOf description).map (' ' :: ·)

/-- The tag: the name in JSON with the option, and the first line of the description. -/
def tagOf (descTag : Bool) (name option description : Str) : Str :=
  g!"json:\"" ++ name ++ option ++ g!"\"" ++ if descTag = true ∧ description ≠ [] then g!" description:\"" ++ firstLine description ++ g!"\"" else []

/-- The option for a property: `omitzero` for structs. -/
def optionOf (required struct : Bool) : Str := if required then [] else if struct then g!",omitzero" else g!",omitempty"

mutual
/-- `TypeFor … raw required t struct`: the Go type for the schema `raw` is `t`; `struct` if it is a struct.  Whether the entries of a list are pointers depends on whether the
list may be null. -/
inductive TypeFor (title : Str → Str) (rename : GMap Str) (descTag pointers : Bool) : P → Bool → Ty → Bool → Prop where
  | scalar {raw : P} {i : Instance} {t b : Str} {required : Bool} : decodeInstance false raw = .ok i → TypeIs i t → (t, b) ∈ scalarTable →
      ¬ (t = g!"string" ∧ i.format = g!"date-time") → TypeFor title rename descTag pointers raw required (ptrIf (g!"null" ∈ i.type) (.name b)) false
  | time {raw : P} {i : Instance} {required : Bool} : decodeInstance false raw = .ok i → TypeIs i g!"string" → i.format = g!"date-time" →
      TypeFor title rename descTag pointers raw required (ptrIf (g!"null" ∈ i.type ∨ (pointers = true ∧ required = false)) (.sel g!"time" g!"Time")) false
  | dict {raw : P} {i : Instance} {m : GMap P} {required : Bool} : decodeInstance false raw = .ok i → TypeIs i g!"object" → i.properties = some m →
      (∀ k q, ¬ Listed m k q) → TypeFor title rename descTag pointers raw required (ptrIf (g!"null" ∈ i.type) (.map (.name g!"string") (.name g!"string"))) false
  | struct {raw : P} {i : Instance} {m : GMap P} {ks : List Str} {fs : List Field} {required : Bool} : decodeInstance false raw = .ok i → TypeIs i g!"object" →
      i.properties = some m → (∃ k q, Listed m k q) → StructFor title rename descTag pointers m i.required ks fs →
      TypeFor title rename descTag pointers raw required (ptrIf (g!"null" ∈ i.type) (.struct fs)) (decide (g!"null" ∉ i.type))
  | scalars {raw items : P} {i j : Instance} {t b : Str} {required : Bool} : decodeInstance false raw = .ok i → TypeIs i g!"array" → i.items = some items →
      decodeInstance false items = .ok j → TypeIs j t → (t, b) ∈ scalarTable → ¬ (t = g!"string" ∧ j.format = g!"date-time") →
      TypeFor title rename descTag pointers raw required (.slice (ptrIf (g!"null" ∈ i.type) (.name b))) false
  | times {raw items : P} {i j : Instance} {required : Bool} : decodeInstance false raw = .ok i → TypeIs i g!"array" → i.items = some items →
      decodeInstance false items = .ok j → TypeIs j g!"string" → j.format = g!"date-time" →
      TypeFor title rename descTag pointers raw required (.slice (ptrIf (g!"null" ∈ i.type ∨ (pointers = true ∧ required = false)) (.sel g!"time" g!"Time"))) false
  | dicts {raw items : P} {i j : Instance} {m : GMap P} {required : Bool} : decodeInstance false raw = .ok i → TypeIs i g!"array" → i.items = some items →
      decodeInstance false items = .ok j → TypeIs j g!"object" → j.properties = some m → (∀ k q, ¬ Listed m k q) →
      TypeFor title rename descTag pointers raw required (.slice (ptrIf (g!"null" ∈ i.type) (.map (.name g!"string") (.name g!"string")))) false
  | structs {raw items : P} {i j : Instance} {m : GMap P} {ks : List Str} {fs : List Field} {required : Bool} : decodeInstance false raw = .ok i →
      TypeIs i g!"array" → i.items = some items → decodeInstance false items = .ok j → TypeIs j g!"object" → j.properties = some m → (∃ k q, Listed m k q) →
      StructFor title rename descTag pointers m j.required ks fs →
      TypeFor title rename descTag pointers raw required (.slice (ptrIf (g!"null" ∈ i.type) (.struct fs))) false
/-- `StructFor … m required ks fs`: the fields `fs` are those for the properties `m`: one for each of the names `ks`, which are those of the properties besides those for
GraphQL, in the order of their names in Go. -/
inductive StructFor (title : Str → Str) (rename : GMap Str) (descTag pointers : Bool) : GMap P → List Str → List Str → List Field → Prop where
  | mk {m : GMap P} {required : List Str} {ks : List Str} {fs : List Field} : (ks.map (goName title rename)).Pairwise (fun a b => strLt a b = true) →
      (∀ k, k ∈ ks ↔ ∃ q, Listed m k q) → FieldsFor title rename descTag pointers m required ks fs → StructFor title rename descTag pointers m required ks fs
/-- The fields for the names. -/
inductive FieldsFor (title : Str → Str) (rename : GMap Str) (descTag pointers : Bool) : GMap P → List Str → List Str → List Field → Prop where
  | nil {m : GMap P} {required : List Str} : FieldsFor title rename descTag pointers m required [] []
  | cons {m : GMap P} {required : List Str} {k : Str} {q : P} {i : Instance} {t : Ty} {struct : Bool} {ks : List Str} {fs : List Field} : Listed m k q →
      decodeInstance false q = .ok i → TypeFor title rename descTag pointers q (decide (k ∈ required)) t struct →
      FieldsFor title rename descTag pointers m required ks fs →
      FieldsFor title rename descTag pointers m required (k :: ks)
        (.mk (docOf descTag i.description) (some (goName title rename k)) t (some (tagOf descTag k (optionOf (decide (k ∈ required)) struct) i.description)) :: fs)
end

/-! ### Conditions -/

/-- Text that can be part of a string in backquotes. -/
def RawText (s : Str) : Prop := ∀ c ∈ s, c ≠ '`' ∧ c ≠ '\r' ∧ sourceChar c = true

/-- Text that can be part of a comment. -/
def CommentText (s : Str) : Prop := ∀ c ∈ s, c ≠ '\r' ∧ sourceChar c = true

/-- A description that can be written. -/
def DocText (descTag : Bool) (i : Instance) : Prop := if descTag = true then RawText (firstLine i.description) else CommentText i.description

/-- Names of properties that can be written, and give different names in Go. -/
structure Names (u : Unicode) (title : Str → Str) (rename : GMap Str) (m : GMap P) : Prop where
  tag : ∀ k q, Listed m k q → RawText k
  name : ∀ k q, Listed m k q → Name u (goName title rename k)
  distinct : ∀ k q k' q', Listed m k q → Listed m k' q' → goName title rename k = goName title rename k' → k = k'

/-- Schemas of the usual types, with such names and descriptions at each level. -/
inductive Clean (u : Unicode) (title : Str → Str) (rename : GMap Str) (descTag : Bool) : P → Prop where
  | leaf {raw : P} {i : Instance} {t : Str} : decodeInstance false raw = .ok i → TypeIs i t → t ∈ scalarTable.map Prod.fst → DocText descTag i →
      Clean u title rename descTag raw
  | array {raw items : P} {i : Instance} : decodeInstance false raw = .ok i → TypeIs i g!"array" → i.items = some items → DocText descTag i →
      Clean u title rename descTag items → Clean u title rename descTag raw
  | object {raw : P} {i : Instance} {m : GMap P} : decodeInstance false raw = .ok i → TypeIs i g!"object" → i.properties = some m → DocText descTag i →
      Names u title rename m → (∀ k q, Listed m k q → Clean u title rename descTag q) → Clean u title rename descTag raw

end JT.GoText
