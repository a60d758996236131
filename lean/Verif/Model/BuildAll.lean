import Verif.Model.Generate
/- generate/generate.go:67-221 with all options: the struct files of Model/Generate and the files for GraphQL, Avro and MessagePack.  What is in the latter is given by
parameters (it is modelled in Model/Graphql, Model/Avro, Model/GoParse and Model/AvroMap, and in part made by libraries); here it is about which files are written, and
when. -/
namespace JT.Gen

/-- What a step does to the files. -/
abbrev Act := Files → Res Unit × Files

/-- One step after the other, if it succeeds. -/
def Act.next (a b : Act) : Act := fun fs =>
  match a fs with
  | (.ok _, fs) => b fs
  | (.err, fs) => (.err, fs)
  | (.panic, fs) => (.panic, fs)

/-- A step that is only taken with an option. -/
def Act.when (c : Bool) (a : Act) : Act := fun fs => if c then a fs else (.ok (), fs)

/-- Files written one after the other, and how it ended. -/
def writeAll (r : List (Str × Content) × Res Unit) : Act := fun fs => (r.2, r.1.foldl (fun fs f => fs.put f.1 f.2) fs)

/-- generate/generate.go:48-65 `BuildArgs`, all of it. -/
structure AllArgs extends BuildArgs where
  outputDirGraphQL : Str
  interfaceFiles : Bool
  generateAvro : Bool
  generateMessagePack : Bool
  generateGraphQL : Bool
  importPath : Str
  graphqlNames : GMap Str
  scalarAny : Bool

/-- What is used in addition to `World`: strings.ToLower; the files that generate/graphql.go writes, by their names without extension (schema path, name, package); the
text of the Avro schema for a struct in a file (generate/avro.go:104-132), and whether it was written; the files that gogen-avro makes of an Avro schema, by their
names; the helper code for a struct in a file, and its tests; and the package, code and tests that msgp makes of a directory. -/
structure Tools extends World where
  lower : Str → Str
  graphql : AllArgs → Str → Str → Files → List (Str × Content) × Res Unit
  avsc : Str → Str → Files → Res Content
  gogen : GMap Str → Str → Option Content → List (Str × Content) × Res Unit
  helper : Str → Str → Str → Files → Res (Content × Res Content)
  msgp : Str → Files → Res (Option (Str × Content × Content))

/-- A file that is created and written. -/
def Tools.putFile (t : Tools) (path : Str) (c : Content) : Act := fun fs => if t.create path then (.ok (), fs.put path c) else (.err, fs)

/-- A step whose contents are made from the files. -/
def Act.from {α : Type} (make : Files → Res α) (use : α → Act) : Act := fun fs =>
  match make fs with
  | .ok x => use x fs
  | .err => (.err, fs)
  | .panic => (.panic, fs)

/-- generate/graphql.go:76-78, 236-241 `buildGraphQLFile`: the files are called after the schemas. -/
def graphqlStep (t : Tools) (args : AllArgs) (pkg : Str) : Act := fun fs =>
  writeAll ((t.graphql args (subName args.schemaPath) pkg fs).1.map (fun f => (joinPath args.outputDirGraphQL (f.1 ++ g!".graphqls"), f.2)),
    (t.graphql args (subName args.schemaPath) pkg fs).2) fs

/-- generate/avro.go:111-112: the path of the Avro schema. -/
def avscPath (t : Tools) (name path : Str) : Str := joinPath (pathDir path) (t.lower name ++ g!".avsc")

/-- generate/avro.go:95-148 `buildAvroSchemaFile`. -/
def avscStep (t : Tools) (name path : Str) : Act := Act.from (t.avsc name path) fun c => t.putFile (avscPath t name path) c

/-- generate/avro.go:74: the directory for the code of an Avro schema. -/
def gogenDir (schemaPath : Str) : Str := joinPath (joinPath (pathDir schemaPath) g!"avro") (subName schemaPath)

/-- generate/avro.go:50-84 `buildAvroSerializationFunctions`. -/
def gogenStep (t : Tools) (args : AllArgs) (schemaPath : Str) : Act := fun fs =>
  writeAll ((t.gogen args.fieldNames (subName schemaPath) (fs schemaPath)).1.map (fun f => (joinPath (gogenDir schemaPath) f.1, f.2)),
    (t.gogen args.fieldNames (subName schemaPath) (fs schemaPath)).2) fs

/-- generate/avro_helpers.go:99-123 `buildAvroHelperFunctions` and 580-601 `writeCodeTemplate`. -/
def helperStep (t : Tools) (name path importPath : Str) : Act := Act.from (t.helper name path importPath) fun c =>
  (t.putFile (joinPath (pathDir path) (t.lower name ++ g!"_avro.go")) c.1).next
    (Act.from (fun _ => c.2) (t.putFile (joinPath (pathDir path) (t.lower name ++ g!"_avro_test.go"))))

/-- generate/generate.go:187-207 `buildAvro`. -/
def avroStep (t : Tools) (args : AllArgs) (name path : Str) : Act :=
  (avscStep t (t.title name) path).next ((gogenStep t args (avscPath t (t.title name) path)).next (helperStep t (t.title name) path args.importPath))

/-- generate/generate.go:210-221 `buildMessagePackFile`; the tests are written to a file of their own. -/
def msgpStep (t : Tools) (args : AllArgs) : Act := Act.from (t.msgp args.outputDir) fun
  | some (pkg, code, tests) => (t.putFile (joinPath args.outputDir (pkg ++ g!"_msgp_test.go")) tests).next (t.putFile (joinPath args.outputDir (pkg ++ g!"_msgp.go")) code)
  | none => fun fs => (.ok (), fs)

/-- generate/generate.go:147-155, 164-172: a struct file and, with the option, its Avro files. -/
def structStep (t : Tools) (args : AllArgs) (child name pkg : Str) (embeds : List Str) : Act :=
  Act.next (buildStructFile t.toWorld args.toBuildArgs child name pkg embeds)
    (Act.when args.generateAvro (avroStep t args name (outPath args.outputDir (resolve args.toBuildArgs child))))

/-- generate/generate.go:138-156: the loop over the allOf files. -/
def allOfSteps (t : Tools) (args : AllArgs) (pkg : Str) : List Str → List Str → Files → Res (List Str) × Files
  | [], embeds, fs => (.ok embeds, fs)
  | path :: rest, embeds, fs =>
    match structStep t args path (allOfName t.toWorld args.toBuildArgs path) pkg [] fs with
    | (.ok _, fs) => allOfSteps t args pkg rest (embeds ++ [allOfName t.toWorld args.toBuildArgs path]) fs
    | (.err, fs) => (.err, fs)
    | (.panic, fs) => (.panic, fs)

/-- generate/generate.go:158-173: the loop over the oneOf files. -/
def oneOfSteps (t : Tools) (args : AllArgs) (pkg : Str) (embeds : List Str) : List Str → Act
  | [], fs => (.ok (), fs)
  | path :: rest, fs => Act.next (structStep t args path (oneOfName args.toBuildArgs path) pkg embeds) (oneOfSteps t args pkg embeds rest) fs

/-- generate/generate.go:137-173: the two loops. -/
def structSteps (t : Tools) (args : AllArgs) (pkg : Str) (allOf oneOf : List Str) : Act := fun fs =>
  match allOfSteps t args pkg allOf [] fs with
  | (.ok embeds, fs) => oneOfSteps t args pkg embeds oneOf fs
  | (.err, fs) => (.err, fs)
  | (.panic, fs) => (.panic, fs)

/-- generate/generate.go:104-113: the directories that are used. -/
def withDirs (args : AllArgs) (dir : Str) : AllArgs :=
  { args with
    outputDir := dir
    outputDirGraphQL := if args.outputDirGraphQL = [] then dir else args.outputDirGraphQL }

/-- generate/generate.go:130-181: all steps. -/
def allSteps (t : Tools) (args : AllArgs) (allOf oneOf : List Str) : Act :=
  Act.next (Act.when args.generateGraphQL (graphqlStep t args (pathBase args.outputDir)))
    (Act.next (structSteps t args (pathBase args.outputDir) allOf oneOf) (Act.when args.generateMessagePack (msgpStep t args)))

/-- generate/generate.go:103-182 `BuildStructsWithArgs`, with all options. -/
def buildAll (t : Tools) (args : AllArgs) : Act := fun fs =>
  match buildPlan t.toWorld args.toBuildArgs with
  | .ok (dir, allOf, oneOf) => allSteps t (withDirs args dir) allOf oneOf fs
  | .err => (.err, fs)
  | .panic => (.panic, fs)

/-- generate/generate.go:78-86 `BuildStructsRename`; generate/generate.go:68-75 `BuildStructs` is the case without names. -/
def buildRename (t : Tools) (schemaPath outputDir : Str) (messagePack : Bool) (names : GMap Str) : Act :=
  buildAll t {
    descTag := true, noNested := false, pointers := false, embedAllOf := false, structNames := names, fieldNames := [], schemaPath := schemaPath, outputDir := outputDir,
    outputDirGraphQL := [], interfaceFiles := false, generateAvro := false, generateMessagePack := messagePack, generateGraphQL := false, importPath := [],
    graphqlNames := [], scalarAny := false }

end JT.Gen
