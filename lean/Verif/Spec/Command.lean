import Verif.Model.Main
import Verif.Props.C64
/- What a command line asks for. -/
namespace JT.Spec

/-- The kinds of options. -/
inductive Kind where
  | switch
  | text
  | pairs
deriving DecidableEq

/-- The options of the command. -/
def kinds : List (Str × Kind) :=
  [(g!"interfaceFiles", .switch), (g!"nestedStructs", .switch), (g!"pointers", .switch), (g!"descriptionAsStructTag", .switch), (g!"embedAllOf", .switch),
   (g!"rename", .pairs), (g!"renameFields", .pairs), (g!"renameGraphQLType", .pairs), (g!"avro", .switch), (g!"msgp", .switch), (g!"graphql", .switch),
   (g!"scalarAny", .switch), (g!"outputPathGraphQL", .text), (g!"importPath", .text)]

/-- One or two dashes before the name of an option. -/
def Dashes (d : Str) : Prop := d = g!"-" ∨ d = g!"--"

/-- `Opts argv os r`: the arguments begin with the options `os`, with their values; `r` are the arguments after them. -/
inductive Opts : List Str → List (Str × Str) → List Str → Prop where
  | none {r : List Str} : Opts r [] r
  /-- `-name` -/
  | switch {d n : Str} {r ps : List Str} {os : List (Str × Str)} : Dashes d → (n, .switch) ∈ kinds → Opts r os ps → Opts ((d ++ n) :: r) ((n, g!"true") :: os) ps
  /-- `-name=value` -/
  | equals {d n v : Str} {k : Kind} {r ps : List Str} {os : List (Str × Str)} : Dashes d → (n, k) ∈ kinds → Opts r os ps →
      Opts ((d ++ n ++ '=' :: v) :: r) ((n, v) :: os) ps
  /-- `-name value` -/
  | next {d n v : Str} {k : Kind} {r ps : List Str} {os : List (Str × Str)} : Dashes d → (n, k) ∈ kinds → k ≠ .switch → Opts r os ps →
      Opts ((d ++ n) :: v :: r) ((n, v) :: os) ps

/-- `Options argv os ps`: the arguments are the options `os` and then the other arguments `ps`.  Options end at the first argument that is not a dash with something
after it, or at `--`. -/
def Options (argv : List Str) (os : List (Str × Str)) (ps : List Str) : Prop :=
  ∃ r, Opts argv os r ∧ (r = g!"--" :: ps ∨ r = ps ∧ ∀ w, ps.head? = some w → ∀ t, w = '-' :: t → t = [])

/-- The texts for truth values. -/
def Truth (v : Str) (b : Bool) : Prop :=
  b = true ∧ v ∈ [g!"1", g!"t", g!"T", g!"true", g!"TRUE", g!"True"] ∨ b = false ∧ v ∈ [g!"0", g!"f", g!"F", g!"false", g!"FALSE", g!"False"]

/-- The value suits the option: a truth value for a switch, `key=value` between commas for pairs. -/
def Suits (o : Str × Str) : Prop :=
  ((o.1, .switch) ∈ kinds → ∃ b, Truth o.2 b) ∧ ((o.1, .pairs) ∈ kinds → ∀ s ∈ splitC ',' o.2, '=' ∈ s)

/-- After options with suitable values, one of the arguments that ask for help. -/
def Help (argv : List Str) : Prop :=
  ∃ os r, Opts argv os r ∧ (∀ o ∈ os, Suits o) ∧ ∃ d n w, Dashes d ∧ (n = g!"h" ∨ n = g!"help") ∧ r.head? = some w ∧ (w = d ++ n ∨ ∃ v, w = d ++ n ++ '=' :: v)

/-- The last value given for an option. -/
def LastValue (os : List (Str × Str)) (n v : Str) : Prop := ∃ a b, os = a ++ (n, v) :: b ∧ ∀ o ∈ b, o.1 ≠ n

def SwitchIs (os : List (Str × Str)) (n : Str) (default b : Bool) : Prop :=
  (∃ v, LastValue os n v ∧ Truth v b) ∨ (∀ o ∈ os, o.1 ≠ n) ∧ b = default

def TextIs (os : List (Str × Str)) (n v : Str) : Prop := LastValue os n v ∨ (∀ o ∈ os, o.1 ≠ n) ∧ v = []

/-- The map has the pairs of all values given for the option; later pairs win. -/
def PairsAre (os : List (Str × Str)) (n : Str) (m : GMap Str) : Prop :=
  SetAll ((os.filter fun o => o.1 = n).flatMap fun o => splitC ',' o.2) [] m

/-- What the generator is to be called with. -/
structure Asked (abs : Str → Option Str) (os : List (Str × Str)) (ps : List Str) (c : Gen.Command) : Prop where
  avro : SwitchIs os g!"avro" false c.avro
  msgp : SwitchIs os g!"msgp" false c.messagePack
  graphql : SwitchIs os g!"graphql" false c.graphql
  descTag : SwitchIs os g!"descriptionAsStructTag" true c.descTag
  nested : SwitchIs os g!"nestedStructs" true (!c.noNested)
  pointers : SwitchIs os g!"pointers" false c.pointers
  interfaceFiles : SwitchIs os g!"interfaceFiles" false c.interfaceFiles
  embedAllOf : SwitchIs os g!"embedAllOf" true c.embedAllOf
  scalarAny : SwitchIs os g!"scalarAny" false c.scalarAny
  importPath : TextIs os g!"importPath" c.importPath
  outputDirGraphQL : TextIs os g!"outputPathGraphQL" c.outputDirGraphQL
  structNames : PairsAre os g!"rename" c.structNames
  fieldNames : PairsAre os g!"renameFields" c.fieldNames
  graphqlNames : PairsAre os g!"renameGraphQLType" c.graphqlNames
  /-- Avro and GraphQL need an import path. -/
  import' : c.avro = true ∨ c.graphql = true → c.importPath ≠ []
  /-- The first argument is the schema. -/
  schema : ∃ p, ps.head? = some p ∧ abs p = some c.schemaPath
  /-- The second one is the directory for the files; without it, the directory is left to the generator. -/
  output : (ps.tail = [] ∧ c.outputDir = []) ∨ ∃ p, ps.tail.head? = some p ∧ abs p = some c.outputDir

/-- Calls with the same arguments; maps with the same entries. -/
structure SameCall (c c' : Gen.Command) : Prop where
  same : { c with structNames := [], fieldNames := [], graphqlNames := [] } = { c' with structNames := [], fieldNames := [], graphqlNames := [] }
  structNames : ∀ k, GMap.get k c.structNames = GMap.get k c'.structNames
  fieldNames : ∀ k, GMap.get k c.fieldNames = GMap.get k c'.fieldNames
  graphqlNames : ∀ k, GMap.get k c.graphqlNames = GMap.get k c'.graphqlNames

end JT.Spec
