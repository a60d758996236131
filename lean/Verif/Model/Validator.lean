import Verif.Model.SchemaFile
import Verif.Model.Cache
import Verif.Model.Value
/- jsonschema/validator.go: validators.  The library gojsonschema is a parameter: what it compiles and what it finds in a document. -/
namespace JT
open Cache

/-- What gojsonschema reports about a document: the texts of the violations in the order in which it found them, and `Valid()`. -/
structure Report where
  errors : List Str
  valid : Bool

/-- jsonschema/validator.go:67: `fmt` of the list of violations with `%v`: their texts with spaces between. -/
def reportText (errors : List Str) : Str := g!"invalid schema: [" ++ join g!" " errors ++ g!"]"

/-- jsonschema/validator.go:56-71 `Validate`, from what the library reports (`none` is an error of the library, whose text is left out): the result, and the text of the
error if there is one.  The violations are sorted by their texts, so that the order of those with the same text makes no difference. -/
def validateReport : Option Report → Bool × Option Str
  | none => (false, some [])
  | some r => if r.errors.length > 0 then (false, some (reportText (sortStrings r.errors))) else (r.valid, none)

/-- jsonschema/schema.go:67-69 `Validate`, for the library's reports on documents; `none` is an error. -/
def validateOf (report : Str → Option Report) (raw : Str) : Option Bool := match validateReport (report raw) with
  | (b, none) => some b
  | (_, some _) => none

/-- jsonschema/validator.go:41-48: the key of a compiled schema, besides on Windows. -/
def validatorKey (path : Str) : Str := g!"file://" ++ path

/-- jsonschema/validator.go:50-52: the function passed to the cache with a key. -/
def compileProg {V : Type} (compile : Str → Option V) (key : Str) : Prog V := .ret (compile key)

/-- jsonschema/validator.go:26-53 `NewValidator`; `abs` is filepath.Abs. -/
def newValidator {V : Type} (abs : Str → Option Str) (path : Str) : Prog V := match abs path with
  | none => .ret none
  | some p => .load (validatorKey p) .ret

end JT
