import Verif.Model.GraphqlInline
/- generate/graphql.go:76-267 `buildGraphQLFile` without `NoNestedStructs`, for all schemas: the types of allOf and oneOf entries with inline objects. -/
namespace JT.Gql
open JT.Gen (sortedByName)

/-- generate/graphql.go:36-48 `goGQL` with its root; there are no nested structs in this mode.  `required` has the names mapped to true.  `fieldOrder` of the root is not used but for
generate/graphql.go:208-223, where it has the keys of `fields`. -/
structure IFile where
  buildType : BuildType
  description : Str
  implements : Str
  jsonName : Str
  name : Str
  fields : List (Str × INode)
  required : List Str

/-- generate/graphql.go:338-378 `newGeneratedGraphQLFile`. -/
def newInlineFile (sched : Sched) (title lower : Str → Str) (args : Args) (schema : Instance) (name : Str) (implements : Bool) : Res IFile :=
  (newInline sched title args schema).map fun n =>
    { buildType := if schema.oneOf.length ≠ 0 then .interface else .type, description := schema.description, implements := [],
      jsonName := (rootNames title lower args name implements).2, name := (rootNames title lower args name implements).1,
      fields := n.fields.getD [], required := n.required.getD [] }

/-- generate/graphql.go:498-562: the two functions `write`. -/
def IFile.text (isPrint : Char → Bool) (title : Str → Str) (args : Args) (f : IFile) : Res Str :=
  (rootBody isPrint args.pointers f.required (sortedByName (f.fields.map fun kf => (kf.2.field.name, kf.2)))).map fun body =>
    '\n' :: rootText isPrint title args f.buildType f.name (f.jsonName ++ if f.implements ≠ [] then g!" implements " ++ f.implements else []) f.description
      (f.fields.any fun kf => kf.2.field.jsonType ≠ g!"graphql-hydration") body

/-- generate/graphql.go:118-170: the type with all fields of the allOf entries.  `ref` is the reference of the first of them. -/
def interfaceFileI (title : Str → Str) (args : Args) (packageName ref : Str) (oneOf : Bool) (common : List IFile) : IFile :=
  let pkg := if oneOf then (GMap.get packageName args.typeNames).getD (title packageName) else title packageName
  { buildType := if oneOf then .interface else .type, description := [], implements := [], jsonName := pkg,
    name := if oneOf then pkg else (GMap.get (subName ref) args.structNames).getD (title (subName ref)),
    fields := common.foldl (fun acc c => setAll c.fields acc) [], required := (common.map fun c => c.required).flatten }

/-- generate/graphql.go:183-192, 204-223: the type of a oneOf entry with the fields of the interface. -/
def mergeCommonI (common : List IFile) (implements : Str) (f : IFile) : IFile :=
  { f with
    implements := implements
    fields := setAll f.fields (common.foldl (fun acc c => setAll c.fields acc) [])
    required := (common.map fun c => c.required).flatten ++ f.required }

/-- generate/graphql.go:110-117, 194-201: the allOf entries; `name` gives the name of each. -/
def allOfFilesI (sched : Sched) (title lower : Str → Str) (args : Args) (name : Instance → Str) (l : List Instance) : Res (List IFile) :=
  mapRes (fun s => newInlineFile sched title lower args s (name s) false) l

/-- generate/graphql.go:193-202: the allOf entries of a oneOf entry. -/
def moreFilesI (sched : Sched) (title lower : Str → Str) (args : Args) (s : Instance) : Res (List IFile) :=
  if args.embedAllOf then allOfFilesI sched title lower args (fun a => subName a.fromRef) s.allOf else .ok []

/-- generate/graphql.go:177-249: the texts of the types of the oneOf entries, with their names.  A text is written before the next type is built. -/
def oneOfTextsI (sched : Sched) (isPrint : Char → Bool) (title lower : Str → Str) (args : Args) (name : Str) (hasAllOf : Bool) : List Instance → List IFile → Res (List (Str × Str))
  | [], _ => .ok []
  | s :: ss, common => do
    let f ← newInlineFile sched title lower args s (subName s.fromRef) hasAllOf
    let more ← moreFilesI sched title lower args s
    let text ← (mergeCommonI (common ++ more) (if hasAllOf then (GMap.get name args.typeNames).getD (title name) else []) f).text isPrint title args
    let rest ← oneOfTextsI sched isPrint title lower args name hasAllOf ss (common ++ more)
    return (subName s.fromRef, text) :: rest

/-- generate/graphql.go:108-174: the text of the type with the fields of the allOf entries, if there are any. -/
def firstTextI (isPrint : Char → Bool) (title : Str → Str) (args : Args) (packageName : Str) (schema : Instance) (common : List IFile) : Res Str :=
  if schema.allOf.length ≠ 0 then
    (interfaceFileI title args packageName (schema.allOf.headD Instance.zero).fromRef (decide (schema.oneOf.length ≠ 0)) common).text isPrint title args
  else .ok []

/-- generate/graphql.go:251-261: the text of the type of a schema without allOf and oneOf entries. -/
def ownTextI (sched : Sched) (isPrint : Char → Bool) (title lower : Str → Str) (args : Args) (schema : Instance) (name : Str) : Res Str :=
  if schema.allOf.length = 0 ∧ schema.oneOf.length = 0 then do
    let f ← newInlineFile sched title lower args schema name false
    f.text isPrint title args
  else .ok []

/-- generate/graphql.go:76-267 `buildGraphQLFile`: the files in the output directory with their texts, when nothing fails.  With an own file for each oneOf entry, a file that is there
already is written anew. -/
def inlineFiles (sched : Sched) (isPrint : Char → Bool) (title lower : Str → Str) (args : Args) (schema : Instance) (name packageName : Str) : Res (GMap Str) := do
  let common ← allOfFilesI sched title lower args (fun _ => subName (schema.allOf.headD Instance.zero).fromRef) schema.allOf
  let first ← firstTextI isPrint title args packageName schema common
  let oneOf ← oneOfTextsI sched isPrint title lower args name (decide (schema.allOf.length ≠ 0)) schema.oneOf common
  let own ← ownTextI sched isPrint title lower args schema name
  if args.interfaceFiles then
    return oneOf.foldl (fun m nt => GMap.set (oneOfPath args name nt.1) (header args false ++ nt.2) m) [(name ++ g!".graphqls", header args true ++ first ++ own)]
  else return [(name ++ g!".graphqls", header args true ++ first ++ oneOf.flatMap Prod.snd ++ own)]

end JT.Gql
