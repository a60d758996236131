import Verif.Model.Flags
/- main.go:40-116: the command, with the parsing of options by Go's package flag (flag.go: `FlagSet.Parse` and `parseOne`, with `ExitOnError`).  Not modelled: what
is printed. -/
namespace JT.Gen

/-- main.go:41-58: the values of the options, by kind.  An option exists if it has an entry. -/
structure Flags where
  bools : GMap Bool
  texts : GMap Str
  pairs : GMap (GMap Str)

/-- main.go:41-58: the options with their defaults. -/
def Flags.init : Flags where
  bools := [(g!"avro", false), (g!"descriptionAsStructTag", true), (g!"embedAllOf", true), (g!"graphql", false), (g!"interfaceFiles", false), (g!"msgp", false),
    (g!"nestedStructs", true), (g!"pointers", false), (g!"scalarAny", false)]
  texts := [(g!"importPath", []), (g!"outputPathGraphQL", [])]
  pairs := [(g!"rename", []), (g!"renameFields", []), (g!"renameGraphQLType", [])]

/-- `strconv.ParseBool`, which the options of main.go:45-56 use for their values. -/
def parseBool (s : Str) : Option Bool :=
  if s ∈ [g!"1", g!"t", g!"T", g!"true", g!"TRUE", g!"True"] then some true
  else if s ∈ [g!"0", g!"f", g!"F", g!"false", g!"FALSE", g!"False"] then some false
  else none

/-- `Value.Set` (for main.go:60) of the option with the given name; `none` is an error. -/
def setFlag (name value : Str) (s : Flags) : Option Flags :=
  match GMap.get name s.bools with
  | some _ => (parseBool value).map fun b => { s with bools := GMap.set name b s.bools }
  | none => match GMap.get name s.texts with
    | some _ => some { s with texts := GMap.set name value s.texts }
    | none => match GMap.get name s.pairs with
      | some kv => if (flagSet value kv).2 = true then some { s with pairs := GMap.set name (flagSet value kv).1 s.pairs } else none
      | none => none

/-- An argument as `parseOne` takes it, for main.go:60. -/
inductive Word where
  | positional
  | terminator
  | bad
  | named (name : Str) (value : Option Str)

/-- flag.go `parseOne` (main.go:60): an argument without its dashes. -/
def flagBody (name : Str) : Word :=
  if name.head? = some '-' ∨ name.head? = some '=' then .bad
  else match cut ['='] name with
    | some (n, v) => .named n (some v)
    | none => .named name none

/-- flag.go `parseOne` (main.go:60): the syntax of an argument. -/
def flagWord (w : Str) : Word :=
  match w with
  | ['-', '-'] => .terminator
  | '-' :: c :: t => flagBody (if c = '-' then t else c :: t)
  | _ => .positional

/-- How main.go:60 ends. -/
inductive Parsed where
  | ok (s : Flags) (rest : List Str)
  | help
  | bad

/-- flag.go `Parse` (main.go:60).  An error ends the program with code 2, a request for help with code 0. -/
def parseFlags : List Str → Flags → Parsed
  | [], s => .ok s []
  | w :: rest, s =>
    match flagWord w with
    | .positional => .ok s (w :: rest)
    | .terminator => .ok s rest
    | .bad => .bad
    | .named n v =>
      if (GMap.get n s.bools).isSome then
        match setFlag n (v.getD g!"true") s with
        | some s => parseFlags rest s
        | none => .bad
      else if (GMap.get n s.texts).isSome ∨ (GMap.get n s.pairs).isSome then
        match v, rest with
        | some v, rest => match setFlag n v s with
          | some s => parseFlags rest s
          | none => .bad
        | none, v :: rest => match setFlag n v s with
          | some s => parseFlags rest s
          | none => .bad
        | none, [] => .bad
      else if n = g!"help" ∨ n = g!"h" then .help
      else .bad

/-- generate/generate.go:48-65 `BuildArgs`, all of it. -/
structure Command where
  schemaPath : Str
  outputDir : Str
  outputDirGraphQL : Str
  descTag : Bool
  noNested : Bool
  pointers : Bool
  interfaceFiles : Bool
  avro : Bool
  messagePack : Bool
  graphql : Bool
  importPath : Str
  structNames : GMap Str
  fieldNames : GMap Str
  graphqlNames : GMap Str
  embedAllOf : Bool
  scalarAny : Bool

/-- The value of an option; main.go:45-58: the variables of the options. -/
def Flags.bool (s : Flags) (n : Str) : Bool := (GMap.get n s.bools).getD false
/-- The value of an option that is a text; main.go:57-58. -/
def Flags.text (s : Flags) (n : Str) : Str := (GMap.get n s.texts).getD []
/-- The pairs of an option; main.go:41-43. -/
def Flags.map (s : Flags) (n : Str) : GMap Str := (GMap.get n s.pairs).getD []

/-- main.go:95-112: the arguments of the call. -/
def commandOf (s : Flags) (input output : Str) : Command where
  schemaPath := input
  outputDir := output
  outputDirGraphQL := s.text g!"outputPathGraphQL"
  avro := s.bool g!"avro"
  messagePack := s.bool g!"msgp"
  graphql := s.bool g!"graphql"
  importPath := s.text g!"importPath"
  descTag := s.bool g!"descriptionAsStructTag"
  noNested := !s.bool g!"nestedStructs"
  pointers := s.bool g!"pointers"
  interfaceFiles := s.bool g!"interfaceFiles"
  structNames := s.map g!"rename"
  fieldNames := s.map g!"renameFields"
  graphqlNames := s.map g!"renameGraphQLType"
  embedAllOf := s.bool g!"embedAllOf"
  scalarAny := s.bool g!"scalarAny"

/-- main.go:40-116 `main`, given the arguments after the name of the program, filepath.Abs and whether the generator succeeds: the exit code, and what the generator
was called with. -/
def runMain (abs : Str → Option Str) (build : Command → Bool) (argv : List Str) : Nat × Option Command :=
  match parseFlags argv Flags.init with
  | .help => (0, none)
  | .bad => (2, none)
  | .ok _ [] => (1, none)
  | .ok s (input :: rest) =>
    if s.bool g!"avro" = true ∧ s.text g!"importPath" = [] then (1, none)
    else if s.bool g!"graphql" = true ∧ s.text g!"importPath" = [] then (1, none)
    else match abs input with
      | none => (2, none)
      | some input =>
        match (match rest with | [] => some [] | output :: _ => abs output) with
        | none => (3, none)
        | some output => (if build (commandOf s input output) = true then 0 else 4, some (commandOf s input output))

end JT.Gen
