import Verif.Model.Struct
import Verif.Model.Avro
/- generate/graphql.go: GraphQL types from a schema, with `NoNestedStructs` set (without it objects are written inline, which is not
GraphQL; see `Model/GraphqlInline`).  `title` is strings.Title (generate/generate.go:258-260 `exportedName`).  `fieldOrder` is only used by
that mode, apart from generate/graphql.go:208-223 where it has the keys of `fields`. -/
namespace JT.Gql
open JT.Gen (splitJSONPath oneType sortedByName)
open JT.Go (quote)

/-- The options of generate/generate.go:48-65 `BuildArgs` that matter here. -/
structure Args where
  pointers : Bool
  embedAllOf : Bool
  interfaceFiles : Bool
  scalarAny : Bool
  importPath : Str
  structNames : GMap Str
  fieldNames : GMap Str
  typeNames : GMap Str

/-- generate/graphql.go:52-67 `gqlExtractedField`, for a field. -/
structure GField where
  arguments : List Str
  array : Bool
  arrayNullable : Bool
  description : Str
  jsonName : Str
  jsonType : Str
  name : Str
  nullable : Bool
  target : Str

/-- The values of `buildType`. -/
inductive BuildType where
  | type
  | interface
  | ignored
deriving DecidableEq

def BuildType.text : BuildType → Str
  | .type => g!"type"
  | .interface => g!"interface"
  | .ignored => g!"ignored"

/-- generate/graphql.go:44-48 `generatedGraphQLObject`.  `required` has the names mapped to true. -/
structure GObject where
  buildType : BuildType
  description : Str
  fields : GMap GField
  implements : Str
  jsonName : Str
  name : Str
  required : List Str
  target : Str

/-- generate/graphql.go:36-41 `goGQL`. -/
structure GFile where
  root : GObject
  nested : GMap GObject

/-! ### Adding fields -/

/-- generate/graphql.go:650-655: the description of the field with the length of a list. -/
def totalDescription (fieldName description : Str) : Str :=
  let d := g!"The total length of the " ++ fieldName ++ g!" list at this same level in the data, this number is unaffected by filtering."
  if hasPrefix description g!"DEPRECATED:" then (splitC '\n' description).headD [] ++ g!"\n" ++ d else d

/-- generate/graphql.go:656-665: the field with the length of a list. -/
def totalField (title : Str → Str) (totalName description : Str) : GField :=
  { description := description, name := title totalName, jsonName := totalName, jsonType := g!"integer", target := [], arguments := [],
    array := false, arrayNullable := false, nullable := false }

/-- generate/graphql.go:610-619: a new field. -/
def newField (title : Str → Str) (fieldName k jsonType : Str) (inst : Instance) : GField :=
  { description := inst.description, name := title fieldName, jsonName := k, jsonType := jsonType, target := inst.target,
    arguments := inst.graphQLArguments, nullable := decide (g!"null" ∈ inst.type), array := false, arrayNullable := false }

/-- generate/graphql.go:621-637: a field that there is already. -/
def again (pointers : Bool) (required : List Str) (jsonType : Str) (inst : Instance) (f : GField) : Res GField :=
  if f.array = true then
    let f := if f.jsonType = [] then { f with jsonType := jsonType } else f
    .ok (if f.target = [] ∧ inst.target ≠ [] then
      { f with target := g!"[" ++ inst.target ++ g!"]" ++ (if f.nullable = true ∨ (pointers = true ∧ f.jsonName ∉ required) then [] else g!"!") } else f)
  else .err

/-- generate/graphql.go:638-641 -/
def dateTime (inst : Instance) (f : GField) : GField :=
  if g!"string" ∈ inst.type ∧ inst.format = g!"date-time" then { f with jsonType := g!"date-time", nullable := true } else f

/-- generate/graphql.go:643-682: the type is completed and the field stored; the fields of an object are not modelled here, as there are no inline objects. -/
def store (title : Str → Str) (fieldName k : Str) (inst : Instance) (f : GField) (fields : GMap GField) (required : List Str) : GMap GField × List Str :=
  if f.jsonType = g!"array" then
    let f := { f with jsonType := [], nullable := false, array := true, arrayNullable := false }
    let totalName := g!"total" ++ f.name
    (GMap.set k f (GMap.set totalName (totalField title totalName (totalDescription fieldName f.description)) fields), totalName :: required)
  else if f.jsonType = g!"object" ∧ (inst.properties.getD []).length = 0 then (GMap.set k { f with jsonType := g!"Any" } fields, required)
  else (GMap.set k f fields, required)

/-- generate/graphql.go:569-686 `addField` for a single name. -/
def addLeaf (title : Str → Str) (args : Args) (gqlType : Option (List Str)) (inst : Instance) (k : Str) (fields : GMap GField) (required : List Str) :
    Res (GMap GField × List Str) :=
  let fieldName := (GMap.get k args.fieldNames).getD k
  match oneType (gqlType.getD inst.type) [] with
  | .err => .err
  | .panic => .panic
  | .ok jsonType =>
    match GMap.get k fields with
    | none => .ok (store title fieldName k inst (dateTime inst (newField title fieldName k jsonType inst)) fields required)
    | some e => (again args.pointers required jsonType inst e).map fun f => store title fieldName k inst (dateTime inst f) fields required

/-! ### Walking -/

/-- generate/graphql.go:380-391 `newGeneratedGraphQLObject`. -/
def newObject (name gqlName : Str) (required : List Str) : GObject :=
  { buildType := .type, description := [], fields := [], implements := [], jsonName := gqlName, name := name, required := required, target := [] }

/-- generate/graphql.go:437-448: the GraphQL name of the type of a property. -/
def typeName (title : Str → Str) (args : Args) (root : GObject) (parent : Option GObject) (name : Str) : Str :=
  let n := (match parent with
    | none => title root.jsonName
    | some o => o.jsonName) ++ title name
  (GMap.get n args.typeNames).getD n

/-- generate/graphql.go:451-489: the object of a property. -/
def objectOf (key gqlName : Str) (parent : GObject) (i : Instance) : GObject :=
  { newObject key gqlName i.required with
    description := i.description, target := i.target,
    buildType := if (i.properties.getD []).length = 0 ∨ parent.target ≠ [] ∨ parent.buildType = .ignored then .ignored else .type }

/-- generate/graphql.go:478-489: the type names of a property with an object. -/
def objectTypes (gqlName : Str) (i : Instance) : List Str :=
  if (i.properties.getD []).length = 0 then [g!"Any"] else if g!"null" ∈ i.type then [gqlName, g!"null"] else [gqlName]

/-- generate/graphql.go:416-495 `walkFunc`.  The parent is looked up before the new object is added; if the new object replaces the parent (that takes an
empty name), the field added to the parent is lost. -/
def walkFunc (title : Str → Str) (args : Args) (path : Str) (i : Instance) (g : GFile) : Res GFile :=
  let names := splitJSONPath path
  match names.getLast? with
  | none => .panic
  | some name =>
    let parts := title g.root.name :: names.map title
    let parentKey := parts.dropLast.flatten
    let key := parts.flatten
    let parent := (GMap.get parentKey g.nested).getD g.root
    let gqlName := typeName title args g.root (GMap.get parentKey g.nested) name
    let object := decide (g!"object" ∈ i.type)
    let nested := if object then GMap.set key (objectOf key gqlName parent i) g.nested else g.nested
    let inst := if object then { Instance.zero with description := i.description, type := [key], target := i.target, graphQLArguments := i.graphQLArguments } else i
    (addLeaf title args (if object then some (objectTypes gqlName i) else none) inst name parent.fields parent.required).map fun fr =>
      match GMap.get parentKey g.nested with
      | none => ⟨{ g.root with fields := fr.1, required := fr.2 }, nested⟩
      | some s => if object = true ∧ parentKey = key then ⟨g.root, nested⟩ else ⟨g.root, GMap.set parentKey { s with fields := fr.1, required := fr.2 } nested⟩

/-- generate/graphql.go:350-363: the name of the Go struct and of the GraphQL type; `lower` is strings.ToLower. -/
def rootNames (title lower : Str → Str) (args : Args) (name : Str) (implements : Bool) : Str × Str :=
  let goName := (GMap.get name args.structNames).getD (title name)
  (goName, (GMap.get name args.typeNames).getD (if implements then lower name else title goName))

/-- generate/graphql.go:338-378 `newGeneratedGraphQLFile`. -/
def newFile (sched : Sched) (title lower : Str → Str) (args : Args) (schema : Instance) (name : Str) (implements : Bool) : Res GFile :=
  let names := rootNames title lower args name implements
  let root := { newObject names.1 names.2 schema.required with
    description := schema.description, buildType := if schema.oneOf.length ≠ 0 then .interface else .type }
  (walkSchema sched 0 (walkFunc title args) ⟨schema.properties, schema.items⟩ ⟨root, []⟩).map Prod.snd

/-! ### Writing -/

/-- generate/graphql.go:17-26 `typeJSONGraphQL`. -/
def scalarName (jsonType : Str) : Option Str :=
  if jsonType = g!"boolean" then some g!"Boolean"
  else if jsonType = g!"number" then some g!"Float"
  else if jsonType = g!"integer" then some g!"Int"
  else if jsonType = g!"string" then some g!"String"
  else if jsonType = g!"date-time" then some g!"DateTime"
  else if jsonType = g!"object" then some g!"("
  else none

/-- generate/graphql.go:730-735: the arguments of a list. -/
def listArguments : Str :=
  g!"(\n    \"A List Filter expression such as '{Field: \\\"position\\\", Operation: \\\"<=\\\", Argument: {Value: 10}}'\"\n    filter: ListFilter\n\n    \"Sort the list, ie '{Field: \\\"position\\\", Order: \\\"ASC\\\"}'\"\n    sort: ListSortParams\n  )"

/-- generate/graphql.go:696-710: the arguments of a field that is only looked up. -/
def hydrationArguments (arguments : List Str) : Str :=
  if arguments.length = 0 then []
  else join g!"\n" (g!"(" :: arguments.map (fun a => if a ≠ [] then g!"    " ++ a else a) ++ [g!"  )"])

/-- generate/graphql.go:712-726: the type of a field or of the elements of a list. -/
def baseType (ef : GField) (required pointers : Bool) : Str :=
  let ty := if ef.target ≠ [] then ef.target else (scalarName ef.jsonType).getD ef.jsonType
  let regular := decide (ef.target = []) && (scalarName ef.jsonType).isSome
  if ty ≠ g!"DateTime" ∧ ((regular = true ∧ ef.nullable = false) ∨ required = true ∨ pointers = false) ∧ ef.jsonType ≠ g!"Any" then ty ++ g!"!" else ty

/-- generate/graphql.go:693-745 `graphqlType`. -/
def graphqlType (ef : GField) (required pointers : Bool) : Str × Str :=
  if ef.jsonType = g!"graphql-hydration" then (hydrationArguments ef.arguments, ef.target)
  else if ef.array then
    (listArguments, g!"[" ++ baseType ef required pointers ++ (if ef.arrayNullable = true ∨ (pointers = true ∧ required = false) then g!"]" else g!"]!") ++
      g!" @goField(forceResolver: true)")
  else ([], baseType ef required pointers)

/-- generate/graphql.go:748-761 `graphqlComment`. -/
def comment (pre description : Str) : Str :=
  if '\n' ∉ description then pre ++ g!"\"" ++ description ++ g!"\"\n"
  else pre ++ g!"\"\"\"\n" ++ ((splitC '\n' description).flatMap fun line => (if line ≠ [] then pre ++ line else []) ++ g!"\n") ++ pre ++ g!"\"\"\"\n"

/-- The characters that strings.TrimSpace takes off. -/
def spaces : List Char :=
  [9, 10, 11, 12, 13, 32, 0x85, 0xa0, 0x1680, 0x2000, 0x2001, 0x2002, 0x2003, 0x2004, 0x2005, 0x2006, 0x2007, 0x2008, 0x2009, 0x200a, 0x2028, 0x2029,
    0x202f, 0x205f, 0x3000].map Char.ofNat

/-- generate/graphql.go:273-280: the directive and the description of a field. -/
def deprecation (isPrint : Char → Bool) (description : Str) : Str × Str :=
  if hasPrefix description g!"DEPRECATED:" then
    let lines := splitC '\n' description
    (g!" @deprecated(reason: " ++ quote isPrint (trim spaces ((lines.headD []).drop 11)) ++ g!")", trim spaces (join g!"\n" lines.tail))
  else ([], description)

/-- generate/graphql.go:272-314 `write`, for a field that is not an inline object. -/
def GField.text (isPrint : Char → Bool) (ef : GField) (required pointers : Bool) : Str :=
  let (directive, description) := deprecation isPrint ef.description
  let (gqlArgs, gqlType) := graphqlType ef required pointers
  (if description ≠ [] then comment g!"  " description else []) ++ g!"  " ++ ef.jsonName ++ gqlArgs ++ g!": " ++ gqlType ++ directive ++ g!"\n"

/-- generate/graphql.go:545-555: the fields of a type. -/
def fieldTexts (isPrint : Char → Bool) (pointers : Bool) (o : GObject) : List Str :=
  (sortedByName (o.fields.map fun kf => (kf.2.name, kf.2))).map fun f => f.text isPrint (decide (f.jsonName ∈ o.required)) pointers

/-- generate/graphql.go:519-562 `write`. -/
def GObject.text (isPrint : Char → Bool) (title : Str → Str) (args : Args) (o : GObject) : Str :=
  if o.target ≠ [] ∨ o.buildType = .ignored then []
  else
    let implements := if o.implements ≠ [] then g!" implements " ++ o.implements else []
    let hasModel := if o.fields.any fun kf => kf.2.jsonType ≠ g!"graphql-hydration" then
        g!"@goModel(model: " ++ quote isPrint (join g!"." [args.importPath, title o.name]) ++ g!") " else []
    (if o.description ≠ [] then comment [] o.description else []) ++ o.buildType.text ++ g!" " ++ o.jsonName ++ implements ++ g!" " ++ hasModel ++ g!"{\n" ++
      join g!"\n" (fieldTexts isPrint args.pointers o) ++ g!"}\n"

/-- generate/graphql.go:393-412 `structs`. -/
def GFile.structs (g : GFile) : List GObject := g.root :: sortedByName (g.nested.map fun kv => (kv.2.name, kv.2))

/-- generate/graphql.go:498-516 `write`. -/
def GFile.text (isPrint : Char → Bool) (title : Str → Str) (args : Args) (g : GFile) : Str :=
  g.structs.flatMap fun s => if s.target = [] ∧ s.buildType ≠ .ignored then '\n' :: s.text isPrint title args else []

/-! ### The files -/

/-- A map with all entries of another one. -/
def setAll {α : Type} (m n : GMap α) : GMap α := m.foldl (fun acc kv => GMap.set kv.1 kv.2 acc) n

/-- generate/graphql.go:118-170: the type with all fields of the allOf entries.  `ref` is the reference of the first of them. -/
def interfaceFile (title : Str → Str) (args : Args) (packageName ref : Str) (oneOf : Bool) (common : List GFile) : GFile :=
  let pkg := if oneOf then (GMap.get packageName args.typeNames).getD (title packageName) else title packageName
  let base := subName ref
  let root : GObject :=
    { buildType := if oneOf then .interface else .type, description := [], implements := [], target := [],
      jsonName := pkg, name := if oneOf then pkg else (GMap.get base args.structNames).getD (title base),
      fields := common.foldl (fun acc c => setAll c.root.fields acc) [], required := (common.map fun c => c.root.required).flatten }
  ⟨root, common.foldl (fun acc c => setAll c.nested acc) []⟩

/-- generate/graphql.go:183-192, 204-223: the type of a oneOf entry with the fields of the interface. -/
def mergeCommon (common : List GFile) (implements : Str) (g : GFile) : GFile :=
  { g with root := { g.root with
      implements := implements,
      fields := setAll g.root.fields (common.foldl (fun acc c => setAll c.root.fields acc) []),
      required := (common.map fun c => c.root.required).flatten ++ g.root.required } }

/-- generate/graphql.go:110-117, 194-201: the allOf entries; `name` gives the name of each. -/
def allOfFiles (sched : Sched) (title lower : Str → Str) (args : Args) (name : Instance → Str) (l : List Instance) : Res (List GFile) :=
  mapRes (fun s => newFile sched title lower args s (name s) false) l

/-- generate/graphql.go:193-202: the allOf entries of a oneOf entry. -/
def moreFiles (sched : Sched) (title lower : Str → Str) (args : Args) (s : Instance) : Res (List GFile) :=
  if args.embedAllOf then allOfFiles sched title lower args (fun a => subName a.fromRef) s.allOf else .ok []

/-- generate/graphql.go:177-223: the types of the oneOf entries, with their names.  `common` has the fields repeated in each; the allOf entries of an entry are
added to it, and stay for the entries that follow. -/
def oneOfFiles (sched : Sched) (title lower : Str → Str) (args : Args) (name : Str) (hasAllOf : Bool) : List Instance → List GFile → Res (List (Str × GFile))
  | [], _ => .ok []
  | s :: ss, common => do
    let g ← newFile sched title lower args s (subName s.fromRef) hasAllOf
    let more ← moreFiles sched title lower args s
    let implements := if hasAllOf then (GMap.get name args.typeNames).getD (title name) else []
    let rest ← oneOfFiles sched title lower args name hasAllOf ss (common ++ more)
    return (subName s.fromRef, mergeCommon (common ++ more) implements g) :: rest

/-- generate/graphql.go:225-232: the file of a oneOf entry. -/
def oneOfPath (args : Args) (name oneOfName : Str) : Str :=
  if args.interfaceFiles then (if hasPrefix oneOfName name then oneOfName else name ++ g!"_" ++ oneOfName) ++ g!".graphqls" else name ++ g!".graphqls"

/-- generate/graphql.go:251-261: the type of a schema without allOf and oneOf entries. -/
def ownFile (sched : Sched) (title lower : Str → Str) (args : Args) (schema : Instance) (name : Str) : Res (List (Str × GFile)) :=
  if schema.allOf.length = 0 ∧ schema.oneOf.length = 0 then (newFile sched title lower args schema name false).map fun g => [(name ++ g!".graphqls", g)] else .ok []

/-- generate/graphql.go:76-267 `buildGraphQLFile`, for a schema that is read: what is written after the header, in order, each with the file it is written to (a file is started
by the first, and the file called `name` in any case).  `schemaName` is `name`, both are the stem of the path of the schema. -/
def buildFiles (sched : Sched) (title lower : Str → Str) (args : Args) (schema : Instance) (name packageName : Str) : Res (List (Str × GFile)) := do
  let common ← allOfFiles sched title lower args (fun _ => subName (schema.allOf.headD Instance.zero).fromRef) schema.allOf
  let first := if schema.allOf.length ≠ 0 then
      [(name ++ g!".graphqls", interfaceFile title args packageName (schema.allOf.headD Instance.zero).fromRef (decide (schema.oneOf.length ≠ 0)) common)] else []
  let oneOf ← oneOfFiles sched title lower args name (decide (schema.allOf.length ≠ 0)) schema.oneOf common
  let own ← ownFile sched title lower args schema name
  return first ++ oneOf.map (fun ng => (oneOfPath args name ng.1, ng.2)) ++ own

/-- generate/graphql.go:82-91, 237-239: what a file begins with; `main` tells whether it is the file called after the schema. -/
def header (args : Args) (main : Bool) : Str :=
  g!"# // Code generated by github.com/GannettDigital/jstransform; DO NOT EDIT.\n" ++ (if main = true ∧ args.scalarAny = true then g!"\nscalar Any\n" else [])

/-- generate/graphql.go:76-267: the text of a file that the types are written to one after the other. -/
def fileText (isPrint : Char → Bool) (title : Str → Str) (args : Args) (main : Bool) (gs : List GFile) : Str :=
  header args main ++ gs.flatMap fun g => g.text isPrint title args

/-- generate/graphql.go:76-267 `buildGraphQLFile`: the files in the output directory with their texts, when nothing fails.  With an own file for each oneOf entry, a file that is there
already is written anew. -/
def graphqlFiles (sched : Sched) (isPrint : Char → Bool) (title lower : Str → Str) (args : Args) (schema : Instance) (name packageName : Str) : Res (GMap Str) := do
  let files ← buildFiles sched title lower args schema name packageName
  if args.interfaceFiles then
    let n := files.length - schema.oneOf.length
    return (files.drop n).foldl (fun m pg => GMap.set pg.1 (fileText isPrint title args false [pg.2]) m)
      [(name ++ g!".graphqls", fileText isPrint title args true ((files.take n).map Prod.snd))]
  else return [(name ++ g!".graphqls", fileText isPrint title args true (files.map Prod.snd))]

end JT.Gql
