import Verif.Model.Tag
import Verif.Model.Struct
/- Struct tags as encoding/json reads them, and texts that can be put into one. -/
namespace JT.Spec
open JT.Go

/-- Text that needs no escapes in a tag: no quotes, backslashes, backquotes and line breaks. -/
def Quiet (s : Str) : Prop := ∀ c ∈ s, c ≠ '"' ∧ c ≠ '\\' ∧ c ≠ '`' ∧ c ≠ '\n' ∧ c ≠ '\r'

/-- A name that encoding/json accepts in a tag (its `isValidTag`); `letter` tells which characters are letters or digits. -/
def ValidTag (letter : Char → Bool) (s : Str) : Prop := s ≠ [] ∧ ∀ c ∈ s, letter c = true ∨ c ∈ g!"!#$%&()*+-./:;<=>?@[]^_{|}~ "

instance (letter : Char → Bool) (s : Str) : Decidable (ValidTag letter s) := inferInstanceAs (Decidable (_ ∧ _))

/-- What is before the first comma. -/
def beforeComma (s : Str) : Str := s.takeWhile fun c => c ≠ ','

/-- The options of a json tag: what is after the commas. -/
def options (s : Str) : List Str := (splitC ',' s).tail

/-- encoding/json: the key for an exported field with the given name and tag literal; `none` if the field is ignored. -/
def jsonKey (letter : Char → Bool) (goName literal : Str) : Option Str :=
  let v := tagGet (trim ['`'] literal) g!"json"
  if v = g!"-" then none
  else if ValidTag letter (beforeComma v) then some (beforeComma v)
  else some goName

/-- encoding/json: does the tag have an option? -/
def jsonOption (literal opt : Str) : Prop := opt ∈ options (tagGet (trim ['`'] literal) g!"json")

instance (literal opt : Str) : Decidable (jsonOption literal opt) := inferInstanceAs (Decidable (_ ∈ _))

/-- A Go identifier: letters, digits and underscores. -/
def Identifier (letter : Char → Bool) (s : Str) : Prop := s ≠ [] ∧ ∀ c ∈ s, letter c = true ∨ c = '_'

/-- The first line of a text. -/
def firstLine (s : Str) : Str := s.takeWhile fun c => c ≠ '\n'

end JT.Spec
