import Verif.Model.SchemaFile
/- The functions of path/filepath used by the generator, on Unix (Go's standard library, path/filepath/path.go).  `pathBase` is in Model/SchemaFile. -/
namespace JT

/-- path/filepath.Clean, one element of the path; `out` has the elements kept so far, the last one first. -/
def cleanStep (rooted : Bool) (out : List Str) (c : Str) : List Str :=
  if c = [] ∨ c = g!"." then out
  else if c = g!".." then
    match out with
    | [] => if rooted then [] else [g!".."]
    | o :: t => if o = g!".." then g!".." :: out else t
  else c :: out

/-- path/filepath.IsAbs on Unix. -/
def isAbs (path : Str) : Bool := path.head? = some '/'

/-- path/filepath.Clean on Unix. -/
def clean (path : Str) : Str :=
  let out := ((splitC '/' path).foldl (cleanStep (isAbs path)) []).reverse
  if isAbs path then '/' :: join g!"/" out else if out = [] then g!"." else join g!"/" out

/-- path/filepath.Dir on Unix: what precedes the last slash. -/
def pathDir (path : Str) : Str :=
  if '/' ∈ path then clean (join g!"/" (splitC '/' path).dropLast ++ g!"/") else g!"."

/-- path/filepath.Join of two elements. -/
def joinPath (a b : Str) : Str :=
  if a ≠ [] then clean (a ++ '/' :: b) else if b ≠ [] then clean b else []

end JT
