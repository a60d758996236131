import Verif.Model.SchemaFile
/- generate/struct.go and generate/generate.go: Go structs from a schema.  `title` is strings.Title (generate/generate.go:258-260 `exportedName`). -/
namespace JT.Gen

/-- generate/generate.go:264-278 `splitJSONPath`. -/
def splitJSONPath (path : Str) : List Str :=
  ((splitC '.' path).filter fun s => s ≠ g!"$").map fun s => if hasSuffix s g!"[*]" then s.take (s.length - 3) else s

/-- generate/struct.go:19-28 `extractedField`; `none` is a nil map.  `required` has the names mapped to true. -/
structure EField where
  array : Bool
  description : Str
  fields : Option (List (Str × EField))
  jsonName : Str
  jsonType : Str
  name : Str
  nullable : Bool
  required : List Str

/-- The options of generate/generate.go:48-65 `BuildArgs` that matter here. -/
structure Args where
  descTag : Bool
  noNested : Bool
  pointers : Bool
  embedAllOf : Bool
  structNames : GMap Str
  fieldNames : GMap Str

/-- generate/struct.go:293-298, 169-178 `generatedStruct` and `newGeneratedStruct`: its name, fields and embedded structs. -/
structure GStruct where
  name : Str
  fields : GMap EField
  required : List Str
  embeds : List Str

/-! ### Adding fields -/

/-- generate/struct.go:352-361: the type name besides null. -/
def oneType : List Str → Str → Res Str
  | [], ty => .ok ty
  | t :: ts, ty => if t = g!"null" then oneType ts ty else if ty ≠ [] then .err else oneType ts t

/-- generate/struct.go:362-368: a new field. -/
def newField (title : Str → Str) (rename : GMap Str) (inst : Instance) (k jsonType : Str) : EField :=
  { description := inst.description, name := title ((GMap.get k rename).getD k), jsonName := k, jsonType := jsonType,
    nullable := decide (g!"null" ∈ inst.type), array := false, fields := none, required := [] }

/-- generate/struct.go:378-392: the type is completed. -/
def finishField (inst : Instance) (f : EField) : EField :=
  let f := if g!"string" ∈ inst.type ∧ inst.format = g!"date-time" then { f with jsonType := g!"date-time" } else f
  if f.jsonType = g!"array" then { f with jsonType := [], array := true }
  else if f.jsonType = g!"object" then { f with required := inst.required, fields := some [] }
  else f

/-- generate/struct.go:347-395: the field itself. -/
def addLeaf (title : Str → Str) (rename : GMap Str) (inst : Instance) (k : Str) (fields : GMap EField) : Res (GMap EField) :=
  match oneType inst.type [] with
  | .err => .err
  | .panic => .panic
  | .ok jsonType =>
    match GMap.get k fields with
    | none => .ok (GMap.set k (finishField inst (newField title rename inst k jsonType)) fields)
    | some f =>
      if f.array = true ∧ f.jsonType = [] then .ok (GMap.set k (finishField inst { f with jsonType := jsonType }) fields)
      else .err

/-- The same with a nil map: reading is possible, writing panics. -/
def addNil (inst : Instance) : List Str → Res (List (Str × EField))
  | [] => .ok []
  | [_] => match oneType inst.type [] with
    | .err => .err
    | _ => .panic
  | _ :: _ :: _ => .panic

/-- generate/struct.go:329-398 `addField`, for types other than `graphql-hydration`. -/
def addTree (title : Str → Str) (rename : GMap Str) (inst : Instance) : List Str → GMap EField → Res (GMap EField)
  | [], fields => .ok fields
  | [k], fields => addLeaf title rename inst k fields
  | k :: k' :: t, fields =>
    match GMap.get k fields with
    | some f =>
      match f.fields with
      | some fs => (addTree title rename inst (k' :: t) fs).map fun fs' => GMap.set k { f with fields := some fs' } fields
      | none => (addNil inst (k' :: t)).map fun _ => fields
    | none => (addTree title rename inst (k' :: t) []).map fun fs' =>
        GMap.set k { array := false, description := [], fields := some fs', jsonName := k, jsonType := g!"object", name := title k, nullable := false, required := [] } fields

/-- generate/struct.go:329-398 `addField`. -/
def addField (title : Str → Str) (rename : GMap Str) (inst : Instance) (tree : List Str) (fields : GMap EField) : Res (GMap EField) :=
  if g!"graphql-hydration" ∈ inst.type then .ok fields else addTree title rename inst tree fields

/-! ### Walking -/

/-- generate/struct.go:125-130 `goFile`: the root struct and the nested ones. -/
structure GoFile where
  root : GStruct
  nested : GMap GStruct

/-- generate/struct.go:206-208: a field of the struct with inline structs. -/
def walkInline (title : Str → Str) (args : Args) (path : Str) (i : Instance) (fields : GMap EField) : Res (GMap EField) :=
  addField title args.fieldNames i (splitJSONPath path) fields

/-- generate/struct.go:210-242: with structs of their own for objects.  The parent is looked up before the new struct is added; if the new struct replaces
the parent (that takes an empty name), the field added to the parent is lost. -/
def walkFlat (title : Str → Str) (args : Args) (path : Str) (i : Instance) (g : GoFile) : Res GoFile :=
  let names := splitJSONPath path
  match names.getLast? with
  | none => .panic
  | some name =>
    let parts := title g.root.name :: names.map title
    let parentKey := parts.dropLast.flatten
    let key := parts.flatten
    let parent := (GMap.get parentKey g.nested).getD g.root
    let structType := if (args.pointers = true ∧ name ∉ parent.required) ∨ g!"null" ∈ i.type then '*' :: key else key
    let nested := if g!"object" ∈ i.type then GMap.set key ⟨key, [], i.required, []⟩ g.nested else g.nested
    let inst := if g!"object" ∈ i.type then { Instance.zero with description := i.description, type := [structType] } else i
    (addField title args.fieldNames inst [name] parent.fields).map fun fs =>
      match GMap.get parentKey g.nested with
      | none => ⟨{ g.root with fields := fs }, nested⟩
      | some s => if g!"object" ∈ i.type ∧ parentKey = key then ⟨g.root, nested⟩ else ⟨g.root, GMap.set parentKey { s with fields := fs } nested⟩

/-- generate/struct.go:203-243 `walkFunc`. -/
def walkFunc (title : Str → Str) (args : Args) (path : Str) (i : Instance) (g : GoFile) : Res GoFile :=
  if args.noNested = false then (walkInline title args path i g.root.fields).map fun fs => { g with root := { g.root with fields := fs } }
  else walkFlat title args path i g

/-- generate/struct.go:150-160: the embedded structs for allOf entries. -/
def embedNames (title : Str → Str) (args : Args) (allOf : List Instance) : List Str :=
  if args.embedAllOf then allOf.map fun a => (GMap.get (subName a.fromRef) args.structNames).getD (title (subName a.fromRef)) else []

/-- generate/struct.go:135-167 `newGeneratedGoFile`. -/
def newGoFile (sched : Sched) (title : Str → Str) (args : Args) (schema : Instance) (name : Str) (embeds : List Str) : Res GoFile :=
  (walkSchema sched 0 (walkFunc title args) ⟨schema.properties, schema.items⟩
    ⟨⟨name, [], schema.required, embeds ++ embedNames title args schema.allOf⟩, []⟩).map Prod.snd

/-! ### Writing -/

/-- generate/struct.go:405-450 `goType`. -/
def goType (ef : EField) (required pointers : Bool) (nested : GMap GStruct) : Str :=
  let (ty, custom) : Str × Bool :=
    if ef.jsonType = g!"boolean" then (g!"bool", false)
    else if ef.jsonType = g!"number" then (g!"float64", false)
    else if ef.jsonType = g!"integer" then (g!"int64", false)
    else if ef.jsonType = g!"string" then (g!"string", false)
    else if ef.jsonType = g!"date-time" then (if pointers = true ∧ required = false then (g!"*time.Time", true) else (g!"time.Time", false))
    else if ef.jsonType = g!"object" then (if (ef.fields.getD []).length = 0 then (g!"map[string]string", false) else (g!"struct", false))
    else match GMap.get ef.jsonType nested with
      | some ns => if ns.fields.length = 0 then (g!"map[string]string", false) else (ef.jsonType, true)
      | none => (ef.jsonType, true)
  let ty := if custom = false ∧ ef.nullable = true then '*' :: ty else ty
  if ef.array then g!"[]" ++ ty else ty

/-- generate/struct.go:34-41: the options of the json tag. -/
def omitOption (ef : EField) (required : Bool) (nested : GMap GStruct) : Str :=
  if required then []
  else if ef.array = false ∧ ef.nullable = false ∧
      ((ef.fields.getD []).length ≠ 0 ∨ ∃ ns, GMap.get ef.jsonType nested = some ns ∧ ns.fields.length ≠ 0) then g!",omitzero"
  else g!",omitempty"

/-- generate/struct.go:42-47: the struct tag. -/
def structTag (ef : EField) (required descTag : Bool) (nested : GMap GStruct) : Str :=
  let jsonTag := g!"json:\"" ++ ef.jsonName ++ omitOption ef required nested ++ g!"\""
  let description := if descTag = true ∧ ef.description ≠ [] then g!"description:\"" ++ (splitC '\n' ef.description).headD [] ++ g!"\"" else []
  g!"`" ++ trim [' '] (join g!" " [jsonTag, description]) ++ g!"`\n"

/-- generate/struct.go:106-122 and generate/graphql.go:317-333 `Sorted`, applied to what is made of the fields: `l` has the names with it, in the order in which the map is visited.  The last
one with a name replaces the others. -/
def sortedByName {α : Type} (l : List (Str × α)) : List α :=
  (sortStrings (l.map Prod.fst)).filterMap fun n => GMap.get n l.reverse

/-- A line that is written. -/
inductive Line where
  | comment (text : Str)
  /-- A field with its type and tag. -/
  | field (indent name goType tag : Str)
  /-- A field whose type is an inline struct; its fields follow. -/
  | open (indent name goType : Str)
  | close (indent tag : Str)

/-- The text of a line. -/
def Line.text : Line → Str
  | .comment t => g!"// " ++ t ++ g!"\n"
  | .field p n ty tag => p ++ n ++ g!"\t" ++ ty ++ g!"\t" ++ tag
  | .open p n ty => p ++ n ++ g!"\t" ++ ty ++ g!" {\n"
  | .close p tag => p ++ g!"\t}\t" ++ tag

/-- generate/struct.go:49-55: the description as a comment. -/
def commentLines (ef : EField) (descTag : Bool) : List Line :=
  if descTag = false ∧ ef.description ≠ [] then (splitC '\n' ef.description).map .comment else []

mutual
/-- generate/struct.go:33-85 `write`.  Inner maps are visited in the order given by the list. -/
def EField.lines (descTag pointers : Bool) (exclude : List Str) (nested : GMap GStruct) (ind : Str) (required : Bool) : EField → List Line
  | ⟨array, description, none, jsonName, jsonType, name, nullable, req⟩ =>
    let ef : EField := ⟨array, description, none, jsonName, jsonType, name, nullable, req⟩
    let ty := goType ef required pointers nested
    commentLines ef descTag ++
      if ty ∈ exclude ∨ ty = g!"[]" then [] else [.field ind name ty (structTag ef required descTag nested)]
  | ⟨array, description, some fs, jsonName, jsonType, name, nullable, req⟩ =>
    let ef : EField := ⟨array, description, some fs, jsonName, jsonType, name, nullable, req⟩
    let ty := goType ef required pointers nested
    let tag := structTag ef required descTag nested
    commentLines ef descTag ++
      if ty ∈ exclude ∨ ty = g!"[]" then []
      else if jsonType ≠ g!"object" ∨ fs.length = 0 then [.field ind name ty tag]
      else .open ind name ty :: ((sortedByName (linesAll descTag pointers exclude nested (ind ++ g!"\t") req fs)).flatten ++ [.close ind tag])
/-- The fields of a struct, with their names. -/
def linesAll (descTag pointers : Bool) (exclude : List Str) (nested : GMap GStruct) (ind : Str) (req : List Str) : List (Str × EField) → List (Str × List Line)
  | [] => []
  | (_, f) :: t => (f.name, f.lines descTag pointers exclude nested ind (decide (f.jsonName ∈ req))) :: linesAll descTag pointers exclude nested ind req t
end

mutual
/-- generate/struct.go:91-103 `IncludeTime`. -/
def EField.hasTime : EField → Bool
  | ⟨_, _, none, _, jsonType, _, _, _⟩ => decide (jsonType = g!"date-time")
  | ⟨_, _, some fs, _, jsonType, _, _, _⟩ => includeTime fs || decide (jsonType = g!"date-time")
def includeTime : List (Str × EField) → Bool
  | [] => false
  | (_, f) :: t => f.hasTime || includeTime t
end

/-- What is written for a struct: its name, embedded structs and the lines of its fields. -/
structure StructText where
  name : Str
  embeds : List Str
  body : List Line

/-- generate/struct.go:301-322 `write`. -/
def GStruct.text (title : Str → Str) (args : Args) (exclude : List Str) (nested : GMap GStruct) (s : GStruct) : StructText :=
  ⟨title s.name, s.embeds, (sortedByName (linesAll args.descTag args.pointers exclude nested g!"\t" s.required s.fields)).flatten⟩

/-- generate/struct.go:180-199 `structs`: the root struct and the others ordered by name. -/
def GoFile.structs (g : GoFile) : List GStruct := g.root :: sortedByName (g.nested.map fun kv => (kv.2.name, kv.2))

/-- generate/struct.go:246-291: what is written to a file: whether `time` is imported, and the structs. -/
def GoFile.text (title : Str → Str) (args : Args) (g : GoFile) : Bool × List StructText :=
  let exclude := (g.structs.filter fun s => s.fields.length = 0).map GStruct.name
  (g.structs.any fun s => includeTime s.fields, (g.structs.filter fun s => s.fields.length ≠ 0).map (GStruct.text title args exclude g.nested))

end JT.Gen
