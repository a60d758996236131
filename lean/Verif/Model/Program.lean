import Verif.Model.Main
import Verif.Model.BuildAll
/- main.go as a whole: the command line, and what the generator does to the files. -/
namespace JT.Gen

/-- main.go:95-112, generate/generate.go:48-65: the arguments as the generator gets them. -/
def Command.args (c : Command) : AllArgs where
  descTag := c.descTag
  noNested := c.noNested
  pointers := c.pointers
  embedAllOf := c.embedAllOf
  structNames := c.structNames
  fieldNames := c.fieldNames
  schemaPath := c.schemaPath
  outputDir := c.outputDir
  outputDirGraphQL := c.outputDirGraphQL
  interfaceFiles := c.interfaceFiles
  generateAvro := c.avro
  generateMessagePack := c.messagePack
  generateGraphQL := c.graphql
  importPath := c.importPath
  graphqlNames := c.graphqlNames
  scalarAny := c.scalarAny

/-- main.go:40-116: the exit code, and the files after it.  A panic ends a Go program with code 2. -/
def program (abs : Str → Option Str) (t : Tools) (argv : List Str) (fs : Files) : Nat × Files :=
  match runMain abs (fun c => decide ((buildAll t c.args fs).1 = .ok ())) argv with
  | (code, none) => (code, fs)
  | (code, some c) => (if (buildAll t c.args fs).1 = .panic then 2 else code, (buildAll t c.args fs).2)

end JT.Gen
