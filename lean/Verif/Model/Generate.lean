import Verif.Model.Struct
import Verif.Model.FilePath
/- generate/generate.go:76-182, 224-253: the struct files of a schema.  Not modelled: the GraphQL, Avro and MessagePack files (the options are taken to be
off; see Model/BuildAll), errors while writing to an open file, and generated files that are themselves schema files. -/
namespace JT.Gen

/-- What is in a file: something the generator did not write, nothing, or Go code (before gofmt, which only changes the layout). -/
inductive Content where
  | other (text : Str)
  | empty
  | go (pkg : Str) (time : Bool) (structs : List StructText)

/-- The files on disk. -/
abbrev Files := Str → Option Content

/-- Put a file in place of what was there. -/
def Files.put (fs : Files) (path : Str) (c : Content) : Files := fun p => if p = path then some c else fs p

/-- What the generator uses: the order of map iterations; strings.Title; os.Getwd; filepath.Abs; a parsed schema file; `SchemaFromFile` and
`SchemaFromFileNoFlatten` (`flatten`, path, oneOf type); whether os.Create succeeds; and whether go/format accepts the code. -/
structure World where
  sched : Sched
  title : Str → Str
  getwd : Res Str
  abs : Str → Res Str
  read : Str → Res P
  schema : Bool → Str → Str → Res Instance
  create : Str → Bool
  format : Str → Bool × List StructText → Bool

/-- generate/generate.go:48-65 `BuildArgs`. -/
structure BuildArgs extends Args where
  schemaPath : Str
  outputDir : Str

/-- generate/generate.go:225-227: references are relative to the schema. -/
def resolve (args : BuildArgs) (child : Str) : Str :=
  if isAbs child then child else joinPath (pathDir args.schemaPath) child

/-- generate/graphql.go:92-94 with generate/generate.go:133: the file that the GraphQL types are made of. -/
def graphqlSource (args : BuildArgs) : Str := resolve args args.schemaPath

/-- generate/generate.go:244: the file for a schema. -/
def outPath (outputDir path : Str) : Str := joinPath outputDir (subName path ++ g!".go")

/-- generate/generate.go:244-252 -/
def writeFile (w : World) (args : BuildArgs) (path pkg : Str) (g : GoFile) (fs : Files) : Res Unit × Files :=
  if w.create (outPath args.outputDir path) = false then (.err, fs)
  else
    let text := g.text w.title args.toArgs
    if w.format pkg text then (.ok (), fs.put (outPath args.outputDir path) (.go pkg text.1 text.2))
    else (.err, fs.put (outPath args.outputDir path) .empty)

/-- generate/generate.go:228-242: the contents of the file. -/
def structFile (w : World) (args : BuildArgs) (path name : Str) (embeds : List Str) : Res GoFile := do
  let schema ← w.schema (!args.embedAllOf) path name
  newGoFile w.sched w.title args.toArgs schema name embeds

/-- generate/generate.go:224-253 `buildStructFile`. -/
def buildStructFile (w : World) (args : BuildArgs) (child name pkg : Str) (embeds : List Str) (fs : Files) : Res Unit × Files :=
  match structFile w args (resolve args child) name embeds with
  | .ok g => writeFile w args (resolve args child) pkg g fs
  | .err => (.err, fs)
  | .panic => (.panic, fs)

/-- generate/generate.go:139-145: the name of the struct of an allOf file. -/
def allOfName (w : World) (args : BuildArgs) (path : Str) : Str := (GMap.get (subName path) args.structNames).getD (w.title (subName path))

/-- generate/generate.go:162-165: the name of the struct of a oneOf file. -/
def oneOfName (args : BuildArgs) (path : Str) : Str := (GMap.get (subName path) args.structNames).getD (subName path)

/-- generate/generate.go:138-159: the loop over the allOf files.  The names of the structs are returned with the result. -/
def buildAllOf (w : World) (args : BuildArgs) (pkg : Str) : List Str → List Str → Files → Res (List Str) × Files
  | [], embeds, fs => (.ok embeds, fs)
  | path :: rest, embeds, fs =>
    match buildStructFile w args path (allOfName w args path) pkg [] fs with
    | (.ok _, fs) => buildAllOf w args pkg rest (embeds ++ [allOfName w args path]) fs
    | (.err, fs) => (.err, fs)
    | (.panic, fs) => (.panic, fs)

/-- generate/generate.go:161-176: the loop over the oneOf files. -/
def buildOneOf (w : World) (args : BuildArgs) (pkg : Str) (embeds : List Str) : List Str → Files → Res Unit × Files
  | [], fs => (.ok (), fs)
  | path :: rest, fs =>
    match buildStructFile w args path (oneOfName args path) pkg embeds fs with
    | (.ok _, fs) => buildOneOf w args pkg embeds rest fs
    | (.err, fs) => (.err, fs)
    | (.panic, fs) => (.panic, fs)

/-- generate/generate.go:122-129: the schema itself is added if it has properties, or nothing else. -/
def withSelf (w : World) (args : BuildArgs) (allOf oneOf properties : List Str) : Res (List Str) :=
  if (allOf.length = 0 ∧ oneOf.length = 0) ∨ properties.length > 0 then (w.abs args.schemaPath).map fun p => allOf ++ [p] else .ok allOf

/-- generate/generate.go:104-110: where the files are put. -/
def outputDir (w : World) (args : BuildArgs) : Res Str := if args.outputDir = [] then w.getwd else .ok args.outputDir

/-- generate/generate.go:104-129: what has to be generated. -/
def buildPlan (w : World) (args : BuildArgs) : Res (Str × List Str × List Str) := do
  let dir ← outputDir w args
  let data ← w.read args.schemaPath
  let types ← schemaTypes w.sched data
  let allOf ← withSelf w args types.1 types.2.1 types.2.2
  return (dir, allOf, types.2.1)

/-- generate/generate.go:138-176: the two loops. -/
def buildFiles (w : World) (args : BuildArgs) (allOf oneOf : List Str) (fs : Files) : Res Unit × Files :=
  match buildAllOf w args (pathBase args.outputDir) allOf [] fs with
  | (.ok embeds, fs) => buildOneOf w args (pathBase args.outputDir) embeds oneOf fs
  | (.err, fs) => (.err, fs)
  | (.panic, fs) => (.panic, fs)

/-- generate/generate.go:103-182 `BuildStructsWithArgs`. -/
def buildStructs (w : World) (args : BuildArgs) (fs : Files) : Res Unit × Files :=
  match buildPlan w args with
  | .ok (dir, allOf, oneOf) => buildFiles w { args with outputDir := dir } allOf oneOf fs
  | .err => (.err, fs)
  | .panic => (.panic, fs)

end JT.Gen
