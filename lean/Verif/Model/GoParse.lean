import Verif.Model.Avro
import Verif.Model.FilePath
/- generate/avro.go:150-237 and generate/avro_helpers.go:465-480, 605-609: how the Avro generator finds the declaration of a struct in Go source.  The parser is not
modelled; what go/ast's filters do (go/ast/filter.go of Go's standard library) is. -/
namespace JT.Go

/-- `ast.Spec`: a type, constants or variables, or an import. -/
inductive GoSpec where
  | type (name : Str) (t : GoType)
  | value (names : List Str)
  | import

/-- `ast.Decl`. -/
inductive GoDecl where
  | gen (specs : List GoSpec)
  | func (name : Str)

/-- The declarations of a parsed file, in order. -/
abbrev GoSource := List GoDecl

/-- go/ast/filter.go `fieldName`: the name of an embedded field. -/
def embeddedName : GoType → Option Str
  | .ident n => some n
  | .selector s => some s
  | .star t => embeddedName t
  | _ => none

/-- go/ast/filter.go `filterFieldList`: whether a field is kept. -/
def keepField (name : Str) : GoField → Bool
  | .mk (some k) _ _ => decide (k = name)
  | .mk none t _ => decide (embeddedName t = some name)

/-- go/ast/filter.go `filterType`, without exports: what is left of the type, and whether it is kept for it.  Functions, interfaces and channels (`GoType.other`), which
generated structs do not use, are never kept. -/
def filterType (name : Str) : GoType → GoType × Bool
  | .ident n => (.ident n, decide (n = name))
  | .array e => ((.array (filterType name e).1), (filterType name e).2)
  | .struct fs => (.struct (fs.filter (keepField name)), fs.any (keepField name))
  | .map k v => (.map (filterType name k).1 (filterType name v).1, (filterType name k).2 || (filterType name v).2)
  | t => (t, false)

/-- go/ast/filter.go `filterSpec`. -/
def filterSpec (name : Str) : GoSpec → Option GoSpec
  | .type n t => if n = name then some (.type n t) else if (filterType name t).2 then some (.type n (filterType name t).1) else none
  | .value names => if name ∈ names then some (.value (names.filter fun n => n = name)) else none
  | .import => none

/-- go/ast/filter.go `filterDecl`. -/
def filterDecl (name : Str) : GoDecl → Option GoDecl
  | .gen specs => if specs.filterMap (filterSpec name) = [] then none else some (.gen (specs.filterMap (filterSpec name)))
  | .func n => if n = name then some (.func n) else none

/-- go/ast/filter.go `FilterFile`: the file has declarations left if the result is not empty. -/
def filterFile (name : Str) (src : GoSource) : GoSource := src.filterMap (filterDecl name)

/-- What can be parsed: files, and directories with their packages and the files of each (`parser.ParseFile`, `parser.ParseDir`).  Maps are given in the order in which
they are visited. -/
structure Sources where
  file : Str → Res GoSource
  dir : Str → Res (List (Str × List (Str × GoSource)))

/-- generate/avro.go:219-227: whether a declaration left has the name. -/
def specNamed (name : Str) : GoSpec → Bool
  | .type n _ => decide (n = name)
  | _ => false

/-- generate/avro.go:214-227: the number of type declarations of that name. -/
def countNamed (name : Str) : GoSource → Nat
  | [] => 0
  | .gen specs :: t => specs.countP (specNamed name) + countNamed name t
  | .func _ :: t => countNamed name t

/-- generate/avro.go:208-232: the loop over the files for the only type of that name. -/
def scanFiles (name : Str) : List GoSource → Option GoSource → Res (Option GoSource)
  | [], found => .ok found
  | f :: t, found =>
    if countNamed name f = 0 then scanFiles name t found
    else if countNamed name f = 1 ∧ found.isNone then scanFiles name t (some f)
    else .err

/-- generate/avro.go:191-237 `filterPackage`. -/
def filterPackage (s : Sources) (name path : Str) : Res GoSource :=
  (s.dir path).bind fun pkgs =>
    match pkgs with
    | [(_, files)] =>
      if (files.map fun f => filterFile name f.2).all List.isEmpty then .err
      else (scanFiles name (files.map fun f => filterFile name f.2) none).bind fun r =>
        match r with
        | none => .err
        | some f => .ok f
    | _ => .err

/-- generate/avro.go:172-187: the declaration taken, which has to be a single type. -/
def firstType : GoSource → Res (Str × GoType)
  | [] => .panic
  | .gen [.type n t] :: _ => .ok (n, t)
  | _ :: _ => .err

/-- generate/avro.go:155-170: the declarations left, from a file or a directory. -/
def goSource (s : Sources) (name path : Str) : Res GoSource :=
  if hasSuffix path g!".go" then
    (s.file path).bind fun src => if (filterFile name src).isEmpty then .err else .ok (filterFile name src)
  else filterPackage s name path

/-- generate/avro.go:151-188 `parseGoStruct`. -/
def parseGoStruct (s : Sources) (name path : Str) : Res (Str × GoType) := (goSource s name path).bind firstType

/-- generate/avro_helpers.go:465-481 `findStructFields`: the last list of fields in the type that is not within another. -/
def findFields : GoType → Option (List GoField)
  | .struct fs => some fs
  | .array e => findFields e
  | .star x => findFields x
  | .map k v => (findFields v).or (findFields k)
  | _ => none

/-- generate/avro_helpers.go:605-609 `structToFilename`; `lower` is strings.ToLower.  The empty name, for which it panics, is left alone. -/
def structToFilename (lower : Str → Str) : Str → Str
  | [] => g!".go"
  | c :: t => lower [c] ++ t ++ g!".go"

/-- The fields of a struct found. -/
def structFields (s : Sources) (name path : Str) : Option (List GoField) :=
  match parseGoStruct s name path with
  | .ok r => findFields r.2
  | _ => none

/-- generate/avro.go:356-363, 401: what the Avro schema for the struct of a file in `dir` is made of. -/
def avroWorld (isPrint : Char → Bool) (lower : Str → Str) (s : Sources) (dir : Str) : World where
  isPrint := isPrint
  pkg := fun name => structFields s name dir
  files := fun name => structFields s name (joinPath dir (structToFilename lower name))

/-- generate/avro.go:95-148 `buildAvroSchemaFile`: its path and contents, without the pretty printing; `n` bounds the depth of the structs.  Creating and writing the
file are not modelled. -/
def avroSchemaFile (isPrint : Char → Bool) (lower : Str → Str) (s : Sources) (n : Nat) (name path : Str) : Res (Str × Str) :=
  (parseGoStruct s name path).bind fun t =>
    (avroSchema (avroWorld isPrint lower s (pathDir path)) n name ((findFields t.2).getD [])).bind fun text =>
      .ok (joinPath (pathDir path) (lower name ++ g!".avsc"), text)

end JT.Go
