import Verif.Model.Generate
/- generate/generate.go:103-182, 224-253 and generate/struct.go:246-291: what the files look like at any time while BuildStructs runs, so also if it is killed.  The code of a
file is made in memory and written with one call; os.Create makes the file empty before.  While the call runs, any text is taken to be in the file.  As in Model/Generate the options
for GraphQL, Avro and MessagePack are off, and generated files are not schema files. -/
namespace JT.Gen

/-- generate/generate.go:224-253 `buildStructFile` with generate/struct.go:246-291: the files at some time while it runs. -/
inductive StructStates (w : World) (args : BuildArgs) (child name pkg : Str) (embeds : List Str) (fs : Files) : Files → Prop where
  /-- generate/generate.go:225-243: the schema is loaded and the code is made. -/
  | before : StructStates w args child name pkg embeds fs fs
  /-- generate/generate.go:245 and generate/struct.go:247-286: the file was created; the text is made and formatted. -/
  | created {g : GoFile} : structFile w args (resolve args child) name embeds = .ok g → w.create (outPath args.outputDir (resolve args child)) = true →
      StructStates w args child name pkg embeds fs (fs.put (outPath args.outputDir (resolve args child)) .empty)
  /-- generate/struct.go:287: the text is being written. -/
  | writing {g : GoFile} {part : Str} : structFile w args (resolve args child) name embeds = .ok g → w.create (outPath args.outputDir (resolve args child)) = true →
      w.format pkg (g.text w.title args.toArgs) = true → StructStates w args child name pkg embeds fs (fs.put (outPath args.outputDir (resolve args child)) (.other part))
  /-- generate/generate.go:251-252: it returns. -/
  | after : StructStates w args child name pkg embeds fs (buildStructFile w args child name pkg embeds fs).2

/-- generate/generate.go:138-159: the files at some time in the loop over the allOf files. -/
inductive AllOfStates (w : World) (args : BuildArgs) (pkg : Str) : List Str → Files → Files → Prop where
  | here {path : Str} {rest : List Str} {fs fs' : Files} : StructStates w args path (allOfName w args path) pkg [] fs fs' → AllOfStates w args pkg (path :: rest) fs fs'
  | later {path : Str} {rest : List Str} {fs fs1 fs' : Files} {u : Unit} : buildStructFile w args path (allOfName w args path) pkg [] fs = (.ok u, fs1) →
      AllOfStates w args pkg rest fs1 fs' → AllOfStates w args pkg (path :: rest) fs fs'

/-- generate/generate.go:161-176: the files at some time in the loop over the oneOf files. -/
inductive OneOfStates (w : World) (args : BuildArgs) (pkg : Str) (embeds : List Str) : List Str → Files → Files → Prop where
  | here {path : Str} {rest : List Str} {fs fs' : Files} : StructStates w args path (oneOfName args path) pkg embeds fs fs' → OneOfStates w args pkg embeds (path :: rest) fs fs'
  | later {path : Str} {rest : List Str} {fs fs1 fs' : Files} {u : Unit} : buildStructFile w args path (oneOfName args path) pkg embeds fs = (.ok u, fs1) →
      OneOfStates w args pkg embeds rest fs1 fs' → OneOfStates w args pkg embeds (path :: rest) fs fs'

/-- generate/generate.go:103-182 `BuildStructsWithArgs`: the files at some time while it runs. -/
inductive BuildStates (w : World) (args : BuildArgs) (fs : Files) : Files → Prop where
  | idle : BuildStates w args fs fs
  | allOf {dir : Str} {allOf oneOf : List Str} {fs' : Files} : buildPlan w args = .ok (dir, allOf, oneOf) →
      AllOfStates w { args with outputDir := dir } (pathBase dir) allOf fs fs' → BuildStates w args fs fs'
  | oneOf {dir : Str} {allOf oneOf embeds : List Str} {fs1 fs' : Files} : buildPlan w args = .ok (dir, allOf, oneOf) →
      buildAllOf w { args with outputDir := dir } (pathBase dir) allOf [] fs = (.ok embeds, fs1) →
      OneOfStates w { args with outputDir := dir } (pathBase dir) embeds oneOf fs1 fs' → BuildStates w args fs fs'

end JT.Gen
