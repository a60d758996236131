import Verif.Model.Graphql
/- generate/graphql.go: GraphQL types from a schema, without `NoNestedStructs`: objects are fields with fields of their own, written inline. -/
namespace JT.Gql
open JT.Gen (splitJSONPath oneType sortedByName)
open JT.Go (quote)

/-- generate/graphql.go:52-67 `gqlExtractedField`, with the fields of an object; `none` is a nil map.  `required` has the names mapped to true. -/
structure INode where
  field : GField
  order : List Str
  fields : Option (List (Str × INode))
  required : Option (List Str)

/-- generate/graphql.go:643-682: the type is completed and the field stored.  A nil map can not be written to. -/
def storeI (title : Str → Str) (fieldName k : Str) (inst : Instance) (f gen : INode) : Res INode :=
  match gen.fields with
  | none => .panic
  | some fields =>
    if f.field.jsonType = g!"array" then
      match gen.required with
      | none => .panic
      | some required =>
        let f := { f with field := { f.field with jsonType := [], nullable := false, array := true, arrayNullable := false } }
        let totalName := g!"total" ++ f.field.name
        let total : INode := ⟨totalField title totalName (totalDescription fieldName f.field.description), [], none, none⟩
        .ok { gen with fields := some (GMap.set k f (GMap.set totalName total fields)), order := gen.order ++ [totalName, k], required := some (totalName :: required) }
    else
      let f := if f.field.jsonType = g!"object" then
          { f with field := { f.field with jsonType := if (inst.properties.getD []).length = 0 then g!"Any" else g!"object" }, required := some inst.required, fields := some [] } else f
      .ok { gen with fields := some (GMap.set k f fields), order := gen.order ++ [k] }

/-- generate/graphql.go:590-683: a field for a single name. -/
def addLeafI (title : Str → Str) (args : Args) (inst : Instance) (k : Str) (gen : INode) : Res INode :=
  let fieldName := (GMap.get k args.fieldNames).getD k
  match oneType inst.type [] with
  | .err => .err
  | .panic => .panic
  | .ok jsonType =>
    match GMap.get k (gen.fields.getD []) with
    | none => storeI title fieldName k inst ⟨dateTime inst (newField title fieldName k jsonType inst), [], none, none⟩ gen
    | some e =>
      match again args.pointers (gen.required.getD []) jsonType inst e.field with
      | .ok f => storeI title fieldName k inst { e with field := dateTime inst f } gen
      | .err => .err
      | .panic => .panic

/-- generate/graphql.go:574-582: the object for names that no field is known for. -/
def newInner (title : Str → Str) (inst : Instance) (k : Str) : INode :=
  ⟨{ arguments := inst.graphQLArguments, array := false, arrayNullable := false, description := [], jsonName := k, jsonType := g!"object", name := title k, nullable := false,
     target := inst.target }, [], some [], none⟩

/-- generate/graphql.go:569-686 `addField`. -/
def addI (title : Str → Str) (args : Args) (inst : Instance) : List Str → INode → Res INode
  | [], gen => .ok gen
  | [k], gen => addLeafI title args inst k gen
  | k :: k' :: t, gen =>
    match GMap.get k (gen.fields.getD []) with
    | some f => (addI title args inst (k' :: t) f).map fun f' => { gen with fields := gen.fields.map (GMap.set k f') }
    | none =>
      match gen.fields with
      | none => .panic
      | some fields => (addI title args inst (k' :: t) (newInner title inst k)).map fun f' => { gen with fields := some (GMap.set k f' fields), order := gen.order ++ [k] }

/-- generate/graphql.go:417-421: `walkFunc` with inline objects. -/
def walkInlineG (title : Str → Str) (args : Args) (path : Str) (i : Instance) (root : INode) : Res INode := addI title args i (splitJSONPath path) root

/-- generate/graphql.go:338-378 `newGeneratedGraphQLFile`: the fields of the root. -/
def newInline (sched : Sched) (title : Str → Str) (args : Args) (schema : Instance) : Res INode :=
  (walkSchema sched 0 (walkInlineG title args) ⟨schema.properties, schema.items⟩
    ⟨{ arguments := [], array := false, arrayNullable := false, description := schema.description, jsonName := [], jsonType := [], name := [], nullable := false, target := [] },
      [], some [], some schema.required⟩).map Prod.snd

/-- generate/graphql.go:301-305, 311-313: an object around the texts of its fields. -/
def objectText (isPrint : Char → Bool) (pre : Str) (ef : GField) (required pointers : Bool) (body : Str) : Str :=
  let (directive, description) := deprecation isPrint ef.description
  let (gqlArgs, gqlType) := graphqlType ef required pointers
  (if description ≠ [] then comment pre description else []) ++ pre ++ ef.jsonName ++ gqlArgs ++ g!"\t" ++ gqlType ++ g!" {\n" ++ body ++ pre ++ g!"\t}" ++ directive

/-- generate/graphql.go:272-295: a field that is not an object. -/
def leafText (isPrint : Char → Bool) (pre : Str) (ef : GField) (required pointers : Bool) : Str :=
  let (directive, description) := deprecation isPrint ef.description
  let (gqlArgs, gqlType) := graphqlType ef required pointers
  (if description ≠ [] then comment pre description else []) ++ pre ++ ef.jsonName ++ gqlArgs ++ g!": " ++ gqlType ++ directive ++ g!"\n"

/-- generate/graphql.go:303-309: the texts of the fields in their order; there is none for a name without field. -/
def pick (texts : List (Str × Res Str)) : List Str → Res Str
  | [] => .ok []
  | k :: ks =>
    match GMap.get k texts with
    | none => .panic
    | some .err => .err
    | some .panic => .panic
    | some (.ok t) => (pick texts ks).map (t ++ ·)

mutual
/-- generate/graphql.go:272-315 `write`.  Fields are in the order of the list `fieldOrder` once it is sorted. -/
def INode.text (isPrint : Char → Bool) (pointers : Bool) : INode → Str → Bool → Res Str
  | ⟨ef, order, fields, required⟩, pre, req =>
    if ef.jsonType ≠ g!"object" then .ok (leafText isPrint pre ef req pointers)
    else
      let texts := match fields with
        | none => []
        | some fs => textsI isPrint pointers (pre ++ g!"\t") (required.getD []) fs
      (pick texts (sortStrings order)).map (objectText isPrint pre ef req pointers)
/-- The text of each of the fields. -/
def textsI (isPrint : Char → Bool) (pointers : Bool) (pre : Str) (required : List Str) : List (Str × INode) → List (Str × Res Str)
  | [] => []
  | (k, n) :: ns => (k, n.text isPrint pointers pre (decide (n.field.jsonName ∈ required))) :: textsI isPrint pointers pre required ns
end

/-- generate/graphql.go:545-555: the fields of the root, one after the other. -/
def rootBody (isPrint : Char → Bool) (pointers : Bool) (required : List Str) : List INode → Res Str
  | [] => .ok []
  | [n] => n.text isPrint pointers g!"  " (decide (n.field.jsonName ∈ required))
  | n :: ns =>
    match n.text isPrint pointers g!"  " (decide (n.field.jsonName ∈ required)) with
    | .err => .err
    | .panic => .panic
    | .ok t => (rootBody isPrint pointers required ns).map fun r => t ++ '\n' :: r

/-- generate/graphql.go:519-562 `write`, from the texts of the fields. -/
def rootText (isPrint : Char → Bool) (title : Str → Str) (args : Args) (buildType : BuildType) (goName gqlName description : Str) (stored : Bool) (body : Str) : Str :=
  let hasModel := if stored then g!"@goModel(model: " ++ quote isPrint (join g!"." [args.importPath, title goName]) ++ g!") " else []
  (if description ≠ [] then comment [] description else []) ++ buildType.text ++ g!" " ++ gqlName ++ g!" " ++ hasModel ++ g!"{\n" ++ body ++ g!"}\n"

/-- generate/graphql.go:76-267 `buildGraphQLFile` with inline objects, for a schema without allOf and oneOf entries: the text of the file. -/
def inlineText (sched : Sched) (isPrint : Char → Bool) (title lower : Str → Str) (args : Args) (schema : Instance) (name : Str) : Res Str :=
  match newInline sched title args schema with
  | .err => .err
  | .panic => .panic
  | .ok root =>
    let fields := root.fields.getD []
    let names := rootNames title lower args name false
    (rootBody isPrint args.pointers (root.required.getD []) (sortedByName (fields.map fun kf => (kf.2.field.name, kf.2)))).map fun body =>
      header args true ++ '\n' :: rootText isPrint title args .type names.1 names.2 schema.description
        (fields.any fun kf => kf.2.field.jsonType ≠ g!"graphql-hydration") body

end JT.Gql
