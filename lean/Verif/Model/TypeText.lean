import Verif.Model.Instance
import Verif.Model.Reference
/- The types of a schema as they are written: in this file a string in a document is the text between the quotes, escape sequences included, as
in `Model/Reference`.  jsonschema/schema.go:208-242 `FieldType` and jsonschema/walk.go:114-141 `walkRaw` work on that text and are the functions
of `Model/Schema` applied to it; `Walk` decodes it. -/
namespace JT

mutual
/-- The document that a text means.  Simplification: keys are written without escape sequences. -/
def meant : P → P
  | .sc (.str t) => .sc (.str (unescStr t))
  | .sc s => .sc s
  | .arr l => .arr (meantList l)
  | .obj m => .obj (meantFields m)
def meantList : List P → List P
  | [] => []
  | p :: l => meant p :: meantList l
def meantFields : List (Str × P) → List (Str × P)
  | [] => []
  | (k, p) :: m => (k, meant p) :: meantFields m
end

/-- jsonschema/schema.go:41-52: the types that `Walk` reads.  A string is quoted once more with `%q` (`quote`, without the quotes) before it is
decoded; an array is decoded as it is. -/
def typeNames (quote : Str → Str) (raw : P) : Res (List Str) :=
  match raw.key g!"type" with
  | some (.sc (.str t)) => asStrings (some (.arr [.sc (.str (unescStr (quote t)))]))
  | o => asStrings (o.map meant)

end JT
