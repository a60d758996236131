# Formal model of GannettDigital/jstransform

The model lives in `lean/Verif`.  It is written in Lean 4 (4.33.0).

## Layout

| directory | contents |
|-----------|----------|
| `Verif/Model/*`  | the model: one definition per Go function, each citing file and lines |
| `Verif/Spec/*`   | small specifications, written without the model's helpers |
| `Verif/Proofs/*` | lemmas about the model |
| `Verif/Props/*`  | the property theorems (names start with the property id) with non-vacuity examples |

## Modelling decisions

* **Strings** are `List Char`.  The functions of Go's `strings` and `strconv` the code uses
  (`Split`, `SplitN`, `Join`, `Replace`, `HasPrefix`, `HasSuffix`, `Trim`, `Atoi`, `Itoa`, `ParseBool`, ...)
  are defined as Lean functions.  Invalid UTF-8 is not modelled.
* **Outcomes.**  A Go call returns `Res α = ok a | err | panic`.  Error texts are dropped.
* **Recursion** that Go does not bound is bounded by a number, and running out of it is a panic; theorems say
  that some bound suffices, or that none does where the code does not terminate.
* **Aliasing.**  Go maps and slices are references.  The transform engine is modelled over a heap
  (`List Cell`, a cell is a map or a slice); values hold addresses.  State is kept after an error.
  Every write to an existing cell is logged so that "what memory is written" can be stated.
* **Maps** are association lists kept sorted by key.  This is a canonical representation of an unordered map.
  The *iteration order* is a separate parameter (a schedule) that picks a permutation at each iteration.
* **Garbage collection.** After a Transform call the cells not reachable from the Transformer are dropped.
* **Libraries** that are not part of the repository are parameters of the model (`Lib`): JSONPath evaluation
  of non-plain paths (filters, wildcards), float parsing and printing, time parsing and printing, the clock,
  regular expression replacement, HTML stripping, Unicode case mapping, XPath queries, schema validation.
  Theorems hold for every choice of them.  Plain JSONPaths (`$.a[0].b`) are evaluated concretely.
  A theorem that needs a law of a library has it as a hypothesis (`Local`: a JSONPath result does not depend
  on places that the path does not read).
* **Concurrency** (schema cache, bulk writer) is a transition system; theorems are about all reachable states.
  `singleflight.Group` is modelled as: at most one call per key is in flight, and those who join get its result.
* **JSON text** is not parsed in the model: the code's `json.Unmarshal` into `Instance` is modelled on JSON
  values (`Model/Instance`), for documents whose keys are distinct and spelled as the fields are
  (`Model/InstanceKeys` walks schemas with keys in any letter case, and C133 says when this is the same).
  The decoding of transforms in `Model/Build` (from, method, operations, ...) reads keys exactly as they are spelled too;
  `Model/TransformKeys` reads them as Go does, without regard to letter case, and C132 says for which documents this is the same.
* **Generated Go code**: the struct and GraphQL writers are modelled down to the text; the Avro schema writer
  too, and its output is proved to be in the JSON grammar (`Spec/Json`).  The Avro field mapper's text is modelled as
  the expression tree it denotes; `Spec/GoCode` gives the meaning of such expressions, and is trusted.

## Plan per property

For each property: what is modelled and how it is to be proved.

| id | model | proof plan |
|----|-------|------------|
| C01 | heap engine + persistent Transformer state | state after a call equals state before (no object defaults, no `last`; array defaults are read but never written if arrays inside array items are bare); negation by witness in general |
| C02 | heap engine with write log | invariant: all written cells are fresh or input cells; with array defaults a zone of cells that may be referred to but is never written (`Proofs/Frozen`) |
| C03 | heap engine with schedule | refinement of a pure evaluator that has no schedule: (1) transforms and defaults on scalars only; (2) also on top level arrays whose place in the input is read by their own items only (frame argument: every other read avoids the places written; assumes the JSONPath library is local, `Local`); negation by witness otherwise |
| C04 | same | pure evaluator = structural projection, by induction on the schema |
| C05-C07 | array/object/scalar transformers | case analysis against a table-like specification |
| C08-C10 | instructions | induction on the instruction list |
| C11-C13 | convert | case analysis/induction on the value |
| C14-C19 | operations | per operation; `duration` through a backtracking regexp matcher |
| C20-C21 | path strings | induction on paths as lists of steps |
| C22-C23 | saveInTree/saveLeaf/saveInSlice on the heap | induction on the path |
| C24 | newTransformer, walker, findParent, addChild | simulation with a direct structural compiler |
| C25-C26 | Transform wrappers | case analysis |
| C27-C29 | XML variants | case analysis with XPath as parameter |
| C30 | heap engine | no panic for a fragment; witness of a panic otherwise |
| C31-C33 | Walk, WalkRaw | induction on the schema tree, all orders |
| C34-C37 | schemaFromFile merging | induction on the allOf/oneOf lists |
| C38-C42 | findRefs, dereference, resolveRef | induction; non-termination as "no fuel suffices" |
| C43-C45 | singleflight + map as a transition system | invariants over reachable states |
| C46-C50 | cache key, FieldType, type normalisation, reference strings, SchemaTypes | direct |
| C51-C52 | AvroTime and friends | integer arithmetic |
| C53-C57 | struct generator | induction on field trees |
| C58-C59, C61 | Avro schema writer | grammar of well-formed output |
| C60 | bulk writer goroutine | transition system |
| C62-C63 | GraphQL generator | case analysis/induction |
| C64-C66 | flags, file plan, JSONPath splitting | direct; C65 through a map of files that `BuildStructsWithArgs` writes to |
| C67 | cache transition system + deterministic builds | every finished load equals the sequential build, by an invariant on the map and the flights |
| C68 | `mapFields` | against the Go selector rule, by induction on the embedding depth; negation by witness |
| C69-C71 | GraphQL walker | simulation with a structural map from the schema to type declarations; order independence |
| C72 | both type functions on the same field | case analysis; negation by witness |
| C73-C74 | `buildStructFile`, `buildGraphQLFile` paths | direct, with a model of `filepath`; negation by witness |
| C75 | Avro field mapper, slice and union templates | the written text as an expression tree; types and values of Go expressions as specification; induction on how struct types and Avro types belong together |
| C76 | struct writer (text of the fields), struct builder | a reader for the written lines and tags, and `encoding/json` for the types they declare, as specification; induction on which field a schema asks for |
| C77 | engine on XML input | evaluation of a schema on a node as a relation on schema documents, refinement by induction on the transformer tree; negation by witness |
| C78 | `WriteAvroCF`, `WriteAvroDeletedCF`, over C75 | case analysis on the failures of the Avro library |
| C79 | the engine as programs of atomic accesses to memory (every function of the model is one), goroutines with a scheduler | invariant over all interleavings: each goroutine goes on as if alone; negation by witness |
| C80 | `structTag`, `parseStructTag`, `reflect.StructTag.Get` with `strconv.Unquote` (without escapes by digits) | reading back the written text by induction; encoding/json's rules for tags in `Spec/Tag`; negations by witness |
| C81 | the generated struct's lines read as Go declarations (`Spec/AvroSchema`), then the Avro schema text for them | induction on the schema, over C56, C80 and the Avro model; uniqueness of the Avro schema; negation by witness |
| C82 | `main` with Go's option parser over lists of arguments; spec: a grammar of command lines, and the value of each option from its last occurrence | induction on the arguments for soundness, on the grammar for completeness and uniqueness; negation by witness for options after the schema |
| C83 | the generated struct, its Avro schema, gogen-avro's structs for that schema (`Spec/AvroGo`, a specification of what it makes of a schema, as in avro_test_data) and the conversion | structural relation between the two structs by induction on the schema (over C81), then C75; negation by witness |
| C84 | parsed Go sources, go/ast's filters by name, the search in files and directories | induction on the declarations and files against a specification of declarations (`TypeDeclared`, `Uses`), with C81 for generated files; negation by witness |
| C85 | all of BuildStructsWithArgs as steps on a map from paths to contents; what libraries put into files is a parameter | each step touches only its files (induction on the jobs), paths by their elements (`Proofs/Paths`), comparison with the run of C65; negation by witness |
| C86 | the fields that encoding/json sees in a struct that embeds others (`Embed.visible`), over C76's model of it | each property of each schema is one visible field or hidden by one of the struct itself; C76's round trip for the sum of the schemas; negation by witness |
| C87 | Avro schema files for generated structs that embed others, found by parsing the files next to it | induction on the embedded structs, over C81 and C84; the separators by induction on the fields; negation by witness |
| C88 | schemaFromFile as a whole: a builder that loads the files it refers to through the cache | the builder of a file exists and is unique (Dershowitz-Manna induction over C41); its answers are those of the equation over files by induction on ranks; concurrency from C45 and C67; negation by witness |
| C89 | the text of the files with GraphQL types | lexical and syntactic grammar of GraphQL as a specification (`Spec/GqlText`), shown to be unambiguous; which definitions a schema stands for (`Spec/GqlMeans`, over C69); the text is lexed piece by piece; negation by witness |
| C90 | the types of schemas with allOf and oneOf entries (`buildFiles`) and the files (`graphqlFiles`) | the types of each entry by C69, put together by lemmas about maps with the entries of several; which properties a type has and where it is written as a specification (`Spec/GqlFiles`); the texts by `C89_text`; negation by witness |
| C91 | NewTransformer (`newTransformer`, `walker`, `newInstance`, parsing of instructions) | which schemas are accepted as a specification (`Spec/Accept`); each parser succeeds iff its part is well formed; the calls of `C31` with the invariant that the tree has a node of the right kind for every instance visited; negation by witness |
| C92 | the generators (`newGoFile`, `graphqlFiles`, `buildStructs`, `buildAll`), the Avro schema and conversion (`avroSchema`, `mapStruct`) and resolving references (`dereference`) | a walk does not panic if its function does not under an invariant that it keeps (for inline structs: the objects on the way to a field exist and have fields); the other functions by cases; the Avro schema and conversion by induction on the (well-founded) parts of the types; negations by witness |
| C93 | the text of the file with a Go struct, before `format.Source` (`fileSource`) | lexical elements (with automatic semicolons) and grammar of Go type declarations as a specification (`Spec/GoText`), shown to be unambiguous; which declarations a schema asks for, by recursion on the schema; the text is lexed piece by piece, by induction on the field extraction of C56; negation by witness |
| C94 | the same text with `NoNestedStructs` (`walkFlat`, `GoFile.structs`, `GoFile.text`) | the file that a schema asks for, by positions of objects in it (`Spec/GoFlat`), shown to be unique and to use only declared types; the structs of C56's flat part are written and lexed one after the other; negation by witness |
| C95 | the text of the file (`GoFile.text`) in both modes, against `encoding/json` as in C76 | what a type expression of a Go file denotes (`Spec/GoMeaning`: names resolved by the file's declarations, tags read as `encoding/json` reads them), shown to be unique; the fields that C93 and C94 find denote fields that meet C76's conditions, by induction on the schema; negation by witness |
| C96 | the operations on single values (`runOp`) | `Gives` in `Spec/Operations`: what each gives for which value, with texts of numbers, trimming and halved runs of spaces as relations of their own; the operation succeeds exactly with what `Gives` says. Case changes, patterns, times, sanitizing and unescaping are library functions |
| C97 | decoding of schema documents (`decodeInst`), merging (`schemaOfDoc`) and encoding (`encodeInst`) | `Reads` in `Spec/Document`: one relation per kind of key; decoding succeeds exactly with what `Reads` says, by induction on the depth of the document. Encoding a decoded schema and decoding it again gives the same schema but for empty properties |
| C98 | the whole engine (`T.run`, `baseTransform`), construction, garbage collection between calls | `HasShape` in `Spec/Shape`: values against schema instances. `Proofs/Frame`: reading, converting and operating never write to the cells of results that are being built. `Proofs/Shape`: by induction on the transformer tree, every result is built of such cells and has the shape of the tree; `newTransformer_mirrors` carries this to the schema. Objects with defaults or (JSON) transforms: refuted |
| C99 | GraphQL generation with inline objects (`inlineText`, and `inlineFiles` with allOf and oneOf entries) next to the flat mode (`graphqlFiles`) | both walks are run side by side and related step by step (`Alike`); without objects the files are equal. With an inline object the text is read with the lexer of the GraphQL specification, which stops at `(! {`; so the equality is refuted in general |
| C100 | the transition system of the cache (`Model/Cache`): any number of goroutines, any interleaving | an inductive description of a load that ends on its own (`AloneIn`); the height of its derivation takes the place of the ranks of C45. Progress and accessibility of the step relation are proved from it, with the answers of C67; conversely a schedule that ends yields the derivations |
| C101 | `Validate` from what the library reports; `NewValidator` as a program that uses the cache (`Model/Validator`) | case analysis; sorting gives the only ascending permutation, so the order of violations makes no difference; C67 and C100 for validators made at the same time |
| C102 | `BuildStructs` (`Model/Generate`) with the text of the files (`Model/GoText`); what the names of a package of Go files mean to encoding/json, with embedded structs (`Spec/GoPackage`) | C65 gives the files, C93 and C94 their declarations, C95's lemmas the meaning of each file; a meaning in a file is one in the package; C86's lemmas for the fields of embedded structs |
| C103 | The transformer (`Model/Engine`, `Model/Build`) and the generator (`Model/GoText`) together; what json.Marshal and the validator do is a specification (`Spec/Carry`) | C98 gives the shape of the result, the validator that it is a document of the schema; induction on the shape shows the conditions of C95 (no nulls in lists, only declared keys), and C95 does the rest |
| C104 | The text of the Go file (`Model/GoText`) and the Avro generator (`Model/GoParse`, `Model/Avro`); go/parser is a specification: the tree of the source that the text is, in a directory with other files (`Spec/AvroText`) | C93 and C94 give the declarations; C84 finds each struct; induction on the schema gives the Avro type of each Go type, through names of structs |
| C105 | The whole command (`Model/Program`): `Model/Main` gives the call, `Model/BuildAll` the files, `Model/GoText` their text | C82 for the call, C85 for which files are left by the options, and the lemma of C102 (with `EmbedAllOf`) for the package and the documents. Refuted in full for embedded structs that are not declared |
| C106 | `maxOp` (`Model/Operations`) | C15's loop invariant gives the chosen entry in both directions; the panic from C14 |
| C107 | `durationOp` with the regular expression (`Model/Regex`) and 64 bit arithmetic | C16's lemmas on matching; `wrap64` is the only number of 64 bits that differs by a multiple of 2^64 |
| C108 | the time helpers (`Model/AvroTime`) | arithmetic; induction on lists |
| C109 | `instrsRun` with the state it leaves (`Model/Engine`) | C09's invariant on the stored instruction list, for both parities |
| C110 | `convert` (`Model/Convert`) on any view of values | induction on the number of arrays around the value; the table of C11 for values that are not arrays |
| C111 | `program` (`Model/Program`) with `avroSchemaFile` (`Model/Avro`) as the tool for Avro; go/parser is a specification | C105 gives the call; C85 the files and the calls for Avro; C93 and C81 what is made of each file |
| C112 | `walkSchema`, `walkRawSchema` (`Model/Schema`, `Model/Instance`) | one generic walk, induction over the depth, with paths that leave empty names out |
| C113 | `fieldType` (`Model/Schema`) | induction over the list of types with the state of the loop |
| C114 | `mergeOf` (`Model/SchemaFile`) | the steps of C34 for the entries that count |
| C115 | `runOps` (`Model/Engine`) | induction over the chain; `runOp_panic_iff` for single operations |
| C116 | `sortedByName` (`Model/Struct`) | insertion sort gives the only list in order; the last entry of a name is unique |
| C117 | `goType` (`Model/Struct`) | C53 for JSON types, cases for names of structs |
| C118 | `schemaKey` (`Model/Cache`) | where the bars of two equal keys are |
| C119 | `splitJSONPath` (`Model/Struct`) | induction over the position in groups of arrays |
| C120 | `graphqlType` (`Model/Graphql`) | cases; induction over the arguments |
| C121 | `structTag` (`Model/Struct`) | cases; the first line of a text is unique |
| C122 | `parseGoStruct` (`Model/GoParse`) | induction over declarations and files |
| C123 | `derefOne` (`Model/Reference`) | C40 and C49 |
| C124 | `buildStructs` (`Model/Generate`) | induction over the structs to be generated (C65) |
| C125 | `mapStruct` (`Model/AvroMap`) | induction over the types with fuel; C61 for the fields |
| C126 | `program`, `buildAll`, `graphqlStep`, `graphqlFiles`, `inlineFiles` | which files each step touches, by their endings; C89, C90 and C99 for what the files say |
| C127 | `FileBuilder`, `newTransformer`, `transform` | C88 for the loads, C91 for which schemas are accepted, C01 for independence of earlier calls, C03 for the output; the outputs are specified by `OutputOf`, made from `SchemaVal` |
| C128 | the files at any time while `buildStructs` runs (`BuildStates` in Model/Crash: before and after os.Create, while writing, after) | what a run writes does not depend on the files, and only what it writes changes; negation by witness for a tool that reads the Go files, as the Avro generator does |
| C129 | the goroutine of the bulk writer together with the generated example that uses it (Model/BulkUser), with and without the `close` it lacks | invariant relating what was sent, received and closed to the user's position; every final state by cases; a measure that every step decreases; for the example, a run that ends waiting, for every list of items |
| C130 | the published schema transformSchema.json as predicates on documents (Model/TransformSchema), and the decoding of transforms (Model/Build) | by the kinds of operations the published schema has; C91 for the step to NewTransformer; negation by witness |
| C131 | the operation `replace` (`runOp`, Model/Operations); what the regexp library finds in a text is a specification in the property's file (`Finds`) | the lengths of the two texts differ as soon as one match is longer than its group; negation by witness |
| C132 | reading a transform as encoding/json does, with letter case, nil pointers and texts (Model/TransformKeys) | a relation between documents that is kept level by level; for exact spelling, equality with Model/Build; negation by witness |
| C133 | `Walk` with keys of instances matched as encoding/json does, without regard to letter case (Model/InstanceKeys) | equality with Model/Instance by induction on the nesting for exact spelling, then C33; negation by witness |
| C134 | `FieldType`, `walkRaw` and the types that `Walk` reads on documents whose strings are the text between the quotes (Model/TypeText) | induction on the nesting and on the JSON grammar of strings; negations by witness |
| C135 | `resolveRef` (Model/Reference) against an independent reading of JSON pointers (tokens with `~0` and `~1`, decimal entries of arrays) | C49 and induction on the tokens; negations by witness for escaped tokens, entries of arrays and empty tokens |
| C136 | `transformNoValidation` for two schemas, one with some of the top level properties of the other, JSON and XML | the relational semantics (C03, C77) gives each property a value on its own; negation by the witness of C05 |
| C137 | `transform` on two JSON inputs, and the paths at which a schema looks (`LooksAt`) | induction on the relational semantics (C03); negation by a path that looks at an array saved into the input |
| C138 | `newTransformer` for two schemas, and a relation between raw schemas that is independent of the walk (`SchemaSameFor`) | induction on the depth of the schema; the order in which the fields of one schema are visited is carried over to the other |
| C139 | `transform` for two schemas whose properties are listed in different orders (`SchemaReordered`) | induction on the relational semantics for JSON (C03) and XML (C77); negation from C03 |
| C140 | `transformNoValidation` and `transform` applied to their own output, with what encoding/json reads of what it wrote (`ReadBack`) | the projection of C04 with defaults, twice: induction on it, each scalar by C11; negations by a schema with a time and a number and one with a wrong default |
| C141 | `transformNoValidation` and `transform` on two documents related by `NullSame` (a null field is as good as none) | the value of C04 with defaults is the same for both: induction on it, each scalar by the exact form of C13; negation by an object without properties |
| C142 | `newTransformer` for the items (or a property) of a schema and for the schema around them, `transformNoValidation` with both | the value of C04 with defaults is made of those of the parts, and each is unique; negation by a transform with a path from the root |

## What is modelled and what is not

Modelled, function by function, each with the lines it models:

| package | modelled in | not modelled |
|---------|-------------|--------------|
| `transform` | `Model/{Value,Convert,Operations,Regex,State,SaveTree,Engine,Build,TransformKeys}`: all instance transformers for JSON and XML, all operations, instructions and their JSON form, `saveInTree` and below, `NewTransformer` (with `findParent`, `walker`), the Transform wrappers | error texts; the libraries listed above |
| `jsonschema` | `Model/{Schema,Instance,SchemaFile,Reference,Cache,Loading,Validator}`: `Walk`, `WalkRaw`, `Instance.UnmarshalJSON`, `schemaFromFile` with allOf and oneOf merging, `FieldType`, `SchemaTypes`, `dereference`, `findRefs`, `resolveRef`, the cache, `NewValidator` and `Validate` around the library | the library gojsonschema (a parameter: what it compiles and reports), reading files (a map from paths to contents) |
| `generate` (structs) | `Model/{Struct,Generate,Crash,BuildAll,FilePath,GoText}`: field extraction, Go types, tags, the file's text, which files are written, with all options | `gofmt` of the text |
| `generate` (GraphQL) | `Model/Graphql`: all of graphql.go in flat mode, including the text of the files; `Model/{GraphqlInline,GraphqlInlineAll}`: the mode with inline objects | reading the schema of looked-up types |
| `generate` (Avro) | `Model/{GoAst,GoParse,Tag,Avro,AvroTime,AvroMap,AvroName,AvroWrite,Bulk,BulkUser}`: struct tags, finding structs in parsed Go, schema text, times, field mapper, embedded fields, writing container files (over the Avro library's writer), the bulk writer goroutine and the example that uses it | the Go parser, calling gogen-avro, templates for tests, msgp |
| (published schema) | `Model/TransformSchema`: the part of transformSchema.json about transforms | the rest of that file, the meta-schema of draft 4 |
| `main` | `Model/Flags`: the rename flags; `Model/Main`: the command, with Go's option parser; `Model/Program`: the command with the files | what is printed |

## Trusted base

* Lean's kernel; axioms `propext`, `Classical.choice`, `Quot.sound` only (per theorem: last section).
* The reading of the Go code recorded in the comments of `Verif/Model`.
* For C79, that `Spec/Conc` describes goroutines: sequentially consistent single accesses, a library call (JSONPath, conversion) reads
  memory in one step, and a goroutine's own cells can only be reached by others through common memory.
* The specifications in `Verif/Spec` and at the head of each file in `Verif/Props`.  In particular, for C75, that
  `Spec/GoCode` says what the Go compiler accepts and what the expressions evaluate to, and for C76 that `Spec/GoJson` says
  which struct the written lines declare and what `json.Unmarshal` and `json.Marshal` do for it; for C80 that
  `Model/Tag` (`reflect.StructTag.Get`) and `Spec/Tag` (`jsonKey`) say how Go's libraries read tags; for C81 that `readGoLines`
  in `Spec/AvroSchema` says which declarations go/parser finds in the written lines, which gofmt does not change; for C82 that
  `parseFlags` in `Model/Main` says what Go's package flag does; for C84 that `filterFile` in `Model/GoParse` says what go/ast's filters do; for C83 that `gogen` in `Spec/AvroGo` says which structs
  gogen-avro declares for an Avro schema; for C93, C94 and C95 that `Spec/GoText` says how Go reads a file, for C95 that `Spec/GoMeaning` says which types its names stand for, and that formatting it (`format.Source`) changes
  white space only.
* Facts about libraries stated above (they are parameters, so no law is assumed about them unless a
  theorem names it as a hypothesis).

## Results per property

Generated from MANIFEST.json.

| id | title | status | theorems | what is proved, what is missing |
|----|-------|--------|----------|------|
| C01 | Transform is independent of earlier calls | partial | `C01_partial`, `C01_refuted_last`, `C01_refuted_default`, `C01_arrays_partial`, `C01_refuted_array` | Holds for every schema without method last and without map or slice defaults; refuted in the model for both of those features. With array defaults (without objects in them) it is proved if property names are plain and, for JSON, arrays inside array items have no default or transform (C01_arrays_partial); without the last condition it is false (C01_refuted_array). |
| C02 | Concurrent Transform calls do not write shared state | partial | `C02_partial`, `C02_refuted_last`, `C02_refuted_default`, `C02_arrays_partial`, `C02_refuted_array` | Same hypotheses as C01; refuted for last and for object defaults. With array defaults (without objects in them) it is proved if property names are plain and, for JSON, arrays inside array items have no default or transform (C02_arrays_partial); without the last condition it is false (C02_refuted_array). |
| C03 | Output does not depend on Go map iteration order | partial | `C03_partial`, `C03_arrays_partial`, `C03_xml_partial`, `C03_refuted_array`, `C03_refuted_object` | Proved, without method last and clock operations: (1) for JSON input and schemas without defaults and transforms on arrays and objects; (2) for JSON input and schemas whose top level arrays have transforms or defaults, if only the items of such an array read its place in the input and the JSONPath library is local; (3) for XML input and schemas whose objects have no default, with any transforms. The full statement is false (refuted) when another instance reads a place an array or object transform writes to. |
| C04 | A schema without transforms or defaults acts as a projection | partial | `C04_partial`, `C04_refuted`, `C04_xml`, `C04_defaults_partial` | C04_partial: JSON input and property names that are identifiers. C04_refuted: false if a property has a dot in its name (its value is lost). C04_xml: on XML input nothing is copied without transforms, the output is null for every document. C04_defaults_partial: the same with defaults of scalars, which are put where there are no values. |
| C05 | Scalar value precedence | partial | `C05_partial`, `C05_arrays_partial`, `C05_refuted` | Proved for covered schemas, including top level arrays with transforms or defaults (their items read the input with the array put at its place); false in general because array transforms and defaults are saved into the input tree where other instances see them. XML input: C77. |
| C06 | Array value precedence | proved | `C06`, `C06_arrays` | C06 is about one array node, for every state and schema node. C06_arrays states the precedence from input document to output document for top level arrays of covered schemas. |
| C07 | Properties without a value are omitted | partial | `C07_partial`, `C07_arrays_partial`, `C07_places_partial`, `C07_refuted`, `C07_xml_partial` | Proved for covered schemas on JSON input, including top level arrays with transforms or defaults. C07_places_partial: every place of the output, for all schemas with plain names whose objects have neither default nor transform, after any calls. C07_refuted: an object default with a null puts a null at the place of a property. C07_xml_partial: every place of the output on XML input, for schemas with plain names without defaults for objects and arrays and with any transforms; entries of arrays may be scalars in place of objects. |
| C08 | Method first returns the first non-nil instruction | proved | `C08`, `C08_parse` |  |
| C09 | Method last returns the last non-nil instruction | partial | `C09_partial`, `C09_even`, `C09_refuted` | Holds for the 1st, 3rd, ... evaluation; the others return the first value. |
| C10 | Method concatenate joins all non-nil values in order | proved | `C10`, `Combined.unique` |  |
| C100 | Loads through the cache end exactly if each load ends on its own | proved | `C100`, `C100_never` | For all builders that are functions of the key and all goroutines: ending alone, ending under one schedule and ending under every schedule are the same. Alone is a big-step semantics without a cache; C67 says that results are the same as well. |
| C101 | Validators report all violations in one order, and only valid documents are returned | proved | `C101`, `C101_order`, `C101_transform`, `C101_load`, `C101_key` | The validation library is a parameter, with the law that Valid() says whether there are violations. The texts of its own errors are left out. Panics of the library are not modelled. |
| C102 | The files that BuildStructs writes are a Go package whose structs carry documents | partial | `GoText.C102_partial`, `GoText.C102_apart`, `GoText.C102_unique`, `GoText.C102_refuted`, `GoText.C102_embedded_partial`, `GoText.C102_embedded_refuted`, `GoText.partOk_embeds` | The full statement is C102_statement, refuted: a property that two embedded structs have is lost. Proved: the files are a legal Go package with the expected structs, and documents go through them, for strict documents (see C76), with options inline or NoNestedStructs. Missing: properties that two of the embedded schemas have. SchemaFromFile, strings.Title and go/format are parameters; gofmt is taken to change only the layout. C102_embedded_partial covers EmbedAllOf (on by default in the command) as long as embedded structs embed no others and there is a struct for each allOf entry; C102_embedded_refuted: with EmbedAllOf the schema of a oneOf entry may have allOf entries that the root schema lacks, and its struct then embeds one that is not declared anywhere, so the package does not compile. |
| C103 | What Transform returns can be read by the struct generated for the schema | partial | `GoText.C103_partial`, `GoText.C103_refuted` | Proved for schemas with plain property names whose objects have no default and, for JSON input, no transform of their own, with at least one property for Go in each object, no properties that differ only in case and no optional times without pointers (for XML also no array defaults), and for results whose whole numbers are written in digits and have 64 bits; optional properties with blank values may be lost. Struct inline or with NoNestedStructs, no embedded structs. C103_refuted: 2^63 as a float64 passes for an integer and is refused by int64. What the validator accepts is taken to be valid; json.Marshal is a specification. |
| C104 | The Avro schema made from the text of the generated Go source is the one for the JSON schema, also with structs of their own for objects | partial | `GoText.C104_partial`, `GoText.C104_same`, `GoText.C104_refuted`, `GoText.C104_refuted_clash`, `GoText.C104_embedded_partial` | Proved from the text of the file, inline and with NoNestedStructs, with nothing embedded, or inline with embedded structs (C104_embedded_partial: these embed nothing themselves and have a last field that the struct does not have), for names and descriptions that need no escapes. The full statement is C104_statement, refuted: required properties that may be null are no unions with null, nor are optional objects that are no pointers. C104_refuted_clash: if a field is called like the struct for an object, the record for the object has the wrong fields. go/parser is a specification (Stored): it gives the tree of the source that the text is, for the file and for the directory, which has one package. gofmt and the pretty printing of Avro schemas are not modelled. |
| C105 | The command leaves a Go package whose structs carry the documents of the schema | partial | `GoText.C105_partial`, `GoText.C105_others`, `GoText.C105_refuted`, `GoText.program_ok` | The full statement is C105_statement, refuted: with EmbedAllOf, which is on by default, the struct of a oneOf entry may embed one that is not declared. C105_partial: if there is a struct for each allOf entry of the schemas and the schemas meet the conditions of C102 (names and descriptions that Go accepts, no property that two embedded structs have, embedded structs that embed no others), the package is legal and documents go through the structs. C105_others: no other files are changed. Files that the options for Avro and MessagePack add to the package are not considered as part of it; libraries, the file system and SchemaFromFile are parameters. |
| C106 | Exactly what the max operation gives | proved | `C106` | The result of max for every value: the value, the panic and the error, each exactly. |
| C107 | Exactly what the duration operation gives | proved | `C107`, `durationStr_iff` | The result of duration for every value. |
| C108 | Exactly which numbers are written for times in Avro | proved | `Avro.C108`, `Avro.millis_iff` | The numbers for all times, optional times and lists. |
| C109 | Exactly which value a transform with method last gives, after any history | proved | `C109` | After any history of evaluations of the same transform. |
| C11 | Conversion yields the schema type or nothing | proved | `C11` |  |
| C110 | Exactly what values become in properties of scalar types | proved | `C110` | Conversion to scalar types of all values that are not circles of arrays; every JSON document is such a value. |
| C111 | The command leaves an Avro schema for each struct | partial | `GoText.C111_partial`, `GoText.C111_refuted`, `GoText.C111_embedded_partial` | Proved from the command line to the text of the Avro schema files, for nested structs that are inline and nothing embedded (C111_partial), or structs embedded that were generated before, embed nothing and are in files named like them (C111_embedded_partial), and names and descriptions that need no escapes. The full statement is C111_statement, refuted: required properties that may be null are no unions with null (nor are optional objects that are no pointers, see C104). go/parser is a specification (AvroTool.sound): a tree that it gives for source is the tree of that source. Missing: structs of their own for objects (C104 has them for one file), structs embedded in embedded ones. |
| C112 | Exactly which calls a walk over a schema makes, also with empty names | proved | `C112_raw`, `C112_inst` | Without the condition on names of C31. That names are distinct is a hypothesis for WalkRaw (a JSON document may have a key twice) and for the properties of the Schema (a Go map); for everything below it is proved for Walk. |
| C113 | Exactly what FieldType returns | proved | `C113` | Without the condition on names of C47. |
| C114 | Exactly what a schema has that is loaded without flattening | proved | `C114` | C36 says what one would like instead. The hypothesis says that properties are Go maps. |
| C115 | Exactly which operation chains panic or fail | proved | `C115`, `runOp_panic_iff` | C14 says what one would like instead. |
| C116 | Exactly which fields are written for a struct or GraphQL type | proved | `C116` | An equivalence, so that the fields written are unique for an order of visiting. C54 says what one would like instead. |
| C117 | Exactly which Go type a field gets | proved | `C117` | An equivalence for all fields. C53 says what one would like instead. |
| C118 | Exactly which requests share a cached schema | proved | `C46_iff` | C46 says what one would like instead. |
| C119 | Exactly which names a path of the walk is split into | proved | `C66_exact`, `C66_iff` | C66 says what one would like instead. Names with dots or stars are excluded since they cannot be told from the notation of paths. |
| C12 | Conversion is idempotent | partial | `C12_partial`, `C12_refuted`, `C12_iff` | Proved for every type except date-time, for which it is refuted: converting a time again is an error. C12_iff: exactly the times cannot be converted again. |
| C120 | Exactly which arguments and type a GraphQL field is given | proved | `C120` | An equivalence: the specification gives each field exactly one list of arguments and one type. |
| C121 | Exactly which tag a struct field is given | proved | `C121` | An equivalence, for all fields. |
| C122 | Exactly what the Avro generator finds for a struct's name | proved | `Go.C122` | An equivalence, for all Go sources. The example shows that a struct with a field called like the struct asked for is found in its place. Parsing Go itself is not modelled. |
| C123 | Exactly when one reference can be resolved and what the document is then | proved | `C123` | Hypothesis: the object with the reference has no key twice. C40 says what one would like instead. |
| C124 | Exactly which files BuildStructs leaves, whether it succeeds or fails | proved | `Gen.C124` | Covers each way in which creating a file, loading a schema or formatting can fail, at any struct. That writing to a created file fails is not modelled. |
| C125 | Exactly for which structs a conversion to Avro can be generated | proved | `Go.C125` | Both directions, for all structs and Avro structs. Conversions that do not end because structs embed or hold themselves count as not generated. That the generated code compiles is not part of it. |
| C126 | The command leaves the GraphQL files of the schema | proved | `Gen.C126`, `Gen.C126_own`, `Gen.C126_says` | Which files are left is proved for all command lines; it is assumed that the GraphQL tool of the steps writes the files of Model/Graphql (GraphqlTool), that gogen-avro makes .go files, and that names of schema files and structs are as in C85. What the files say is that of C89 (C126_own) and C90 (C126_says), under their conditions. |
| C127 | From schema files and an input to one output | partial | `C127_partial`, `C127_same_partial`, `load_happens`, `Spec.OutputOf.unique`, `C127_refuted` | JSON and XML input; files that do not refer to each other in circles; schemas whose defaults are scalars and, for JSON, whose arrays and objects have neither default nor transform (for XML: whose objects have no default), without method last and without currentTime. Missing: circles (C88_refuted), arrays and objects with defaults or transforms (C03_refuted_array, C03_refuted_object, C01_refuted_default), method last (C01_refuted_last) and currentTime. The full statement (C127_statement) is false: C127_refuted. |
| C128 | BuildStructs may be killed at any time and run again | proved | `Gen.C128`, `Gen.C128_killed`, `Gen.C128_ends`, `Gen.C128_options_refuted` | The call that writes the text of a file is not taken to be atomic: while it runs, any text may be in the file. Errors of that call itself are not modelled. C128_options_refuted: with the option for Avro, for a tool that refuses directories with an empty Go file, as go/parser does. |
| C129 | Using the bulk writer as in its generated example | proved | `Bulk.C129`, `Bulk.C129_ends`, `Bulk.C129_example`, `Bulk.C129_waits`, `Bulk.C129_example_refuted` | The goroutine and a user program as a transition system with all interleavings and failures. C129: every final state of the program that closes the channel; C129_ends: no run is infinite; C129_example and C129_waits: the generated example, which lacks the close, never flushes and waits for ever if no call fails (C129_example_refuted). |
| C13 | Unwrapping of arrays by conversion | partial | `C13_partial`, `C13_array_partial`, `C13_refuted`, `C13_refuted_array`, `C13_exact`, `C13_array_iff` | Proved for arrays whose first leaf is reached through at most the nesting the code unwraps; the unrestricted claim is refuted. C13_exact: exactly what happens for scalar types, with the depth of the first leaf; C13_array_iff: for type array, an array stays iff it has two entries. |
| C130 | Transforms that follow the published schema are accepted | proved | `C130`, `C130_transformer`, `C130_missing`, `C130_refuted`, `C130_instance_refuted`, `C130_names` | C130: the exact condition, for one transform; C130_transformer: the same for NewTransformer and schemas with plain property names. C130_missing: types of operations that no such transform has. C130_refuted, C130_instance_refuted: without the condition the claim is false, by an operation without a type and by an identifier that is not described. Keys of transforms are taken to be spelled exactly. C130_names: exactly which operation names the published schema lets one use. |
| C131 | What replace replaces | proved | `C131`, `C131_whole`, `C131_refuted` | C131: the exact condition under which the result is what the documentation says. C131_whole: the result depends on where the matches are, not on their groups. C131_refuted: the negation of what the documentation says. The regexp library is a parameter; the contract used for it is that ReplaceAllString puts the new text in place of each match it finds, for new texts without a dollar sign and expressions whose group takes part in each match. |
| C132 | How the keys of a transform may be spelled | proved | `C132`, `C132_model`, `C132_text`, `C132_refuted` | C132: letter case of keys and unknown keys. C132_model: for keys as documented, the decoding used for the other properties (Model/Build) gives the same, except that with a null instruction it may fail with a panic where the code returns an error. C132_text: texts in place of transforms. C132_refuted: not for names of arguments. Documents with two keys for one field are not covered. |
| C133 | Walking a schema whose keys are spelled in another letter case | partial | `C133_partial`, `C133_model`, `C133_refuted`, `C133_visits`, `C133_reads` | C133_partial: the walks agree on schemas whose keys are spelled as the fields are, with Walk reading keys as encoding/json does. C133_model: on these schemas that is the Walk of the other properties. C133_refuted: the full statement is false: an object with its properties under Properties is walked by Walk and rejected by WalkRaw. Documents with two keys for one field are not covered. C133_visits: for keys in any letter case, Walk calls the function once for each instance as it reads it. C133_reads: what it reads as properties, items and type; a type that is a text is accepted only under the key type itself. |
| C134 | Types written with escape sequences | partial | `C134_partial`, `C134_iff`, `C134_walk_partial`, `C134_agree_partial`, `C134_refuted`, `C134_agree_refuted` | Proved for types written without escape sequences: FieldType (C134_partial, and C134_iff exactly for types that are strings), walking below an instance (C134_walk_partial), and that Walk and WalkRaw see the same type (C134_agree_partial). The full statements are refuted: an object type written with an escape sequence is an object for Walk and not for WalkRaw. Keys with escape sequences and surrogate pairs are left out. |
| C135 | References are JSON pointers | partial | `C135_partial`, `C135_iff`, `C135_refuted`, `C135_entry_refuted`, `C135_empty_refuted` | Proved, exactly (C135_iff), for tokens that are not empty, have no tilde, are not numbers and do not start with a bracket. The full statement is refuted for each of the other kinds: ~1 and ~0 are not decoded (C135_refuted), entries of arrays are not reached by numbers (C135_entry_refuted), and empty tokens at the end are dropped (C135_empty_refuted). Percent-encoding is left out. |
| C136 | Properties of a schema do not affect each other | partial | `C136_partial`, `C136_common_partial`, `C136_refuted`, `C136_accepts_partial`, `C136_whole_partial` | C136_partial: taking properties away takes them out of the output and changes nothing else. C136_common_partial: two schemas that share a property with the same schema give it the same value. Both for covered schemas, JSON and XML. C136_refuted: false for schemas with a transform on an array, which is saved into the input where other properties read it. Properties below the top level are left out. C136_accepts_partial: a schema with plain names that is accepted is still accepted without some of its properties. C136_whole_partial: both together, with no hypothesis about the smaller schema. |
| C137 | Only the places of the input that the schema mentions matter | partial | `C137_partial`, `C137_fields_partial`, `C137_refuted` | C137_partial: documents that agree at the paths at which the schema looks (only those of items that are there) give the same output, for covered schemas and JSON input. C137_fields_partial: fields with which no plain path starts do not matter. C137_refuted: false if an array has a transform, as it is saved into the input. XML input is left out. |
| C138 | Which keywords of a schema matter for a Transformer | proved | `C138`, `C138_sets` | For raw schemas as they are after loading. Validation of the output against the schema by the library is separate (Transform): it does look at other keywords. The keys of an instance are modelled in their exact spelling; encoding/json would also take Default for default, which the statement leaves out. |
| C139 | The order in which a schema lists properties does not matter | partial | `C139_partial`, `C139_refuted`, `C139_accepts_partial`, `C139_whole_partial` | Proved for JSON and XML if arrays and objects (XML: objects) have no default and (JSON) no transform, without method last and the clock. Refuted for all schemas: with transforms of arrays the output depends on the order of iteration. C139_accepts_partial: with plain names NewTransformer accepts a schema exactly if it accepts the reordered one, whatever defaults and transforms there are. C139_whole_partial: a reordered schema is accepted as well and gives the same outputs. |
| C14 | Operation chains fail cleanly | partial | `C14_partial`, `C14_refuted`, `runOp_panic_iff` | Order and stopping at the first error are proved for every chain; absence of panics for chains without max. max on an empty array panics, and that is the only operation that does. |
| C140 | Transforming the output of a projection again changes nothing | partial | `C140_partial`, `C140_refuted`, `C140_numbers_refuted`, `C140_default_refuted` | Proved for outputs without the zero time whose numbers are written like their float64 (encoding/json does so for whole numbers up to 2^53), given that the output is read back as encoding/json does (ReadBack), for schemas in which only scalars have defaults, which are values of their type. C140_refuted: a number may become the zero time, which is written but counts as no value when read again. C140_numbers_refuted: a whole number in a string beyond 2^53 is written exactly and read rounded. C140_default_refuted: defaults are not converted to the type of the property, but the output is when it is read again. Missing: schemas with transforms, defaults of arrays and objects, and other types (null, objects without properties). |
| C141 | A null field is the same as a missing one | partial | `C141_partial`, `C141_refuted` | Proved for schemas without transforms whose instances are arrays, objects with properties, booleans, numbers and strings, and in which only scalars have defaults. C141_refuted: objects without properties are copied with their nulls, so that the outputs differ. Missing: schemas with transforms, and defaults of arrays and objects. |
| C142 | A list of documents gives the list of their outputs | partial | `C142_partial`, `C142_field_partial`, `C142_refuted` | Proved for schemas without transforms in which only scalars have defaults, for items and properties that are objects with properties. C142_refuted: with transforms, paths from the root are looked up in the list and not in its documents. Missing: transforms with paths relative to the instance, and defaults of arrays and objects. |
| C15 | max selects an entry with the greatest key | partial | `C15_partial`, `C15_refuted`, `C15_iff` | Proved when some number is positive; refuted when none is. C15_iff says exactly when max gives which value, for every array. |
| C16 | duration parses clock strings | partial | `C16_partial`, `durationStr_clock`, `C16_refuted`, `C16_iff` | Proved while the number of seconds fits in 64 bits; refuted beyond (wraps around). C16_iff: right iff the seconds are below 2^63. |
| C17 | Operation arguments are checked at load time | proved | `C17`, `initOp_iff` | for all schemas, identifiers and operations |
| C18 | split cuts at every separator | proved | `C18`, `C18_other` | for all strings and separators |
| C19 | toCamelCase | proved | `C19` | upper, lower and title casing are parameters that map characters one by one |
| C20 | '@' paths resolve relative to the instance | partial | `C20_partial`, `C20_refuted` | A schema with '@' paths gives the same Transformer as the schema with those paths written out, for plain property names (no dots and brackets), if both builds walk the properties in the same order. C20_refuted: with a dot in the name of a property '@' stands for the path up to that dot. |
| C21 | Array item paths use the item's own index at every level | partial | `C21_partial`, `C21_ctx`, `itemsLoop_congr`, `C21_refuted` | Property names without '$', '.' and '['; paths made of names, [*] and possibly a final bracket that is not an index. C21_partial is about the nodes of the Transformer and the modifiers the engine gives them, C21_ctx about the contexts of the direct semantics the engine is proved to compute. Missing: other names and paths. C21_refuted: a path that names the array twice, as in a filter, keeps the second [*]. |
| C22 | Saving a value at a path: read-back and frame | partial | `C22_partial`, `C22_nil`, `C22_succeeds`, `C22_statement_savePath`, `C22_refuted_conflict`, `C22_refuted_merge`, `C22_refuted_padding` | Full read-back and frame statement is false (three refutations: type conflict in arrays, merge over objects, null padding); the partial theorem states exactly what is stored and what every other place reads, for all paths of names and indices and all unshared documents. |
| C23 | Saving in a slice extends it as needed | proved | `C23`, `C23_merged`, `C23_nested` |  |
| C24 | NewTransformer mirrors the schema | proved | `C24`, `C24_reads` | NewTransformer gives one node per instance of the schema, with the type, default and transform in the document. C24_reads states this with a reading of the document that is independent of the model (Spec/Decode). Names of properties must be plain (not empty, no dots, no opening brackets). |
| C25 | Transform only returns validated documents | proved | `C25`, `C25_reject`, `C25_fail` |  |
| C26 | Malformed input is an error | proved | `C26`, `C26_conv` |  |
| C27 | XML: objects without source are skipped | proved | `C27` |  |
| C28 | XML: scalar from several nodes | proved | `C28_string`, `C28_scalar`, `C28_default` | The XPath engine is a parameter; the theorems assume that the matches with child elements and the leaf matches together are all matches. |
| C29 | XML: arrays | proved | `C29` |  |
| C30 | Transform never panics | partial | `C30_partial`, `C30_refuted`, `C30_refuted_max` | Proved for every input, history and iteration order over calm schemas (no max, plain names, no array defaults/transforms inside array items), any library behaviour (for XML: XPath library that does not itself panic). The unrestricted statement is false: two refutations with concrete schemas that panic. |
| C31 | Walk visits every instance exactly once | partial | `C31_raw_partial`, `C31_inst_partial`, `C31_refuted` | For schemas with distinct, non-empty property names per object. C31_refuted: for a property with the empty name the function gets the path of the enclosing object. |
| C32 | Walk stops at the first error | proved | `C32_raw`, `C32_inst` | For every schema, any walk function and any schedule of map iterations, no condition on names. |
| C33 | Walk and WalkRaw agree | proved | `C33`, `C33_walks` | instances must decode and have a type |
| C34 | Merging properties never overrides the parent | proved | `C34`, `C34_sorted` | For every pair of maps (nil parent included) and every iteration order. |
| C35 | Flattened schemas contain all allOf properties, earliest wins | proved | `C35`, `C35_doc` | Every document that decodes, any number of allOf/oneOf entries, every iteration order. |
| C36 | NoFlatten merges allOf only if the root has no properties | partial | `C36_partial`, `C36_refuted` | Own properties are kept and exactly the first allOf entry is used when there are none; the claim about all allOf entries is false (refuted). |
| C37 | oneOf selection | proved | `C37`, `baseName_total`, `baseName_unique` | Base names are specified by a relation on reference strings shown total and functional. |
| C38 | Dereferencing leaves no reference | proved | `C38` | Model of dereference with a bound on the number of passes; whenever it succeeds no reference is left. References inside arrays nested directly in arrays are not references for findRefs (see C42). |
| C39 | Dereferencing a reference-free document changes nothing | proved | `C39`, `C39_idempotent` |  |
| C40 | Keys beside a $ref override the referenced ones | partial | `C40_partial`, `C40_code`, `C40_refuted`, `C40_root` | C40_statement is refuted: strings with escape sequences beside the reference are encoded twice (C40_refuted), and a reference at the root is dropped without its target (C40_root). C40_partial proves it otherwise, with the rest of the document unchanged; C40_code says exactly what the code does in all cases below the root. |
| C41 | Dereferencing terminates | partial | `C41_partial`, `C41_refuted`, `C41_circular` | C41_statement is refuted: a definition referring to itself is resolved again and again (C41_refuted). C41_partial proves termination for every document whose references can be ranked (Dershowitz-Manna order on the multiset of ranks), in the model of one document with settled other files; circularity across files is C45. C41_circular: the converse, if references that stand alone form a circle the document is never dereferenced, whatever else it has; a key beside a reference can cut a circle open (C41Circle.lean), so there the conditions differ. |
| C42 | References are found completely and soundly | proved | `C42` |  |
| C43 | Cache builds once and all loads agree | proved | `C43`, `C43_agree` | Transition system for any number of goroutines, any programs and nondeterministic builders; singleflight.Group.Do modelled from its documentation. |
| C44 | Failed builds are not cached | proved | `C44`, `C44_nothing`, `C44_retry` | A failed load is due to a build that failed during the load; nothing is stored; the next load builds again. |
| C45 | Schema loading does not deadlock | partial | `C45_partial`, `C45_refuted`, `C45_circular` | Progress and termination under every schedule if references between keys are not circular; refuted for circular ones (a load waits for itself). C100 states for any references that ending alone, under one schedule and under all schedules are the same. C45_circular: the converse, if the builder of each of some keys needs one of these keys, nothing that needs them ever gets a value, under any schedule. |
| C46 | Schemas are cached under unambiguous keys | partial | `C46_partial`, `C46_refuted`, `C46_iff` | Injective if no type name (or no path) contains a bar; not injective in general. C46_iff says exactly which requests share a key. |
| C47 | FieldType | partial | `C47_partial`, `C47_total`, `C47_refuted` | Type names in lists must not be the empty string: C47_refuted shows that an empty name in a list is ignored. C47_total (no panic) has no condition. |
| C48 | type given as string or one-element array is the same | proved | `C48` | arbitrary other fields |
| C49 | Reference strings are split at the first '#' | proved | `C49`, `C49_total` | Resolution succeeds exactly with the object at the named keys of the named document. absRef, load and http stand for filepath, SchemaFromFile and HTTP. |
| C50 | SchemaTypes | proved | `C50` | Every document and iteration order. |
| C51 | Avro timestamps | partial | `C51_partial`, `C51_near`, `C51_order`, `C51_exact`, `C51_refuted`, `C51_refuted_zero`, `C51_iff` | Avro times: exact within the range of 64-bit nanoseconds; refuted outside of it and for the zero time. C51_iff says exactly for which times it is the number of milliseconds rounded down. |
| C52 | Avro optional times and slices | partial | `C52_slice`, `C52_optional`, `C52_partial`, `C52_refuted`, `C52_iff` | Optional times and slices of times; refuted for slices of optional times with nil elements. C52_iff says exactly which times are told like an absent one. |
| C53 | Go type of a field | partial | `C53_partial`, `C53_only`, `C53_unknown`, `C53_refuted_array` | Go types of all fields with known types; nullability of arrays and items is mixed up. |
| C54 | Generated fields are sorted and complete | partial | `C54_partial`, `C54_order`, `C54_refuted`, `C54_refuted_order`, `C54_iff` | Complete, ordered and independent of map order if Go names in a struct differ; refuted otherwise. C54_iff: complete and in order iff the names differ. |
| C55 | time import iff a date-time field is generated | partial | `C55_partial`, `C55_depth`, `C55_refuted` | The import is there iff a written line needs it, for inline structs and different Go names; refuted for clashing names. |
| C56 | Every schema property gets its struct field | partial | `C56_partial`, `C56_unique`, `C56_flat_partial`, `C56_refuted`, `C56_flat_refuted` | One field per property for any walk order, both with inline structs and (given distinct struct names) with one struct per object; refuted for arrays of arrays and for clashing struct names without nesting. |
| C57 | omitempty/omitzero exactly on optional fields | partial | `C57_partial`, `C57_tag`, `C57_refuted`, `C57_iff` | Tag and options; refuted for times that are not pointers. C57_iff: right iff the field is not an optional time without pointer. |
| C58 | Generated Avro schema is well-formed JSON | partial | `Go.C58_partial`, `Go.C58_refuted`, `Go.C58_refuted_empty`, `Go.C58_refuted_again`, `Go.C58_refuted_type`, `Go.C58_refuted_quote`, `Go.C58_refuted_package` | Proved: the Avro schema text is in the JSON grammar whenever no name or doc needs escaping beyond what Go's quoting shares with JSON, every embedded struct lists at least one new field, and a struct's last field is not excluded. Missing: it is false in general; the refutations give struct declarations whose schema text is not JSON (two commas, a dangling comma, a missing type, a Go escape). |
| C59 | Avro type mapping | partial | `Go.C59_partial`, `Go.C59_pointer`, `Go.C59_scalar`, `Go.C59_time`, `Go.C59_array`, `Go.C59_map`, `Go.C59_struct`, `Go.C59_optional`, `Go.C59_refuted`, `Go.C59_refuted_pointer` | Proved: every supported type gets the Avro type of the table and optional scalars, times and structs become unions with null. Missing: an optional list is not made a union, and a pointer to a list is not supported (refutations). |
| C60 | Bulk writer protocol | proved | `Bulk.C60`, `Bulk.C60_order`, `Bulk.C60_complete`, `Bulk.C60_reported`, `Bulk.C60_last`, `Bulk.C60_stops`, `Bulk.C60_progress`, `Bulk.C60_terminates`, `Bulk.C60_finishes`, `Bulk.C60_blocked` | Transition system of the goroutine and its user with every interleaving and any failing call. C60_blocked: a user who goes on sending after an error waits forever. |
| C61 | Embedded structs: own fields win | proved | `Go.C61`, `Go.C61_own`, `Go.C61_has`, `Go.C61_total`, `Go.C61_circular` | Own fields win over fields of embedded structs, every field reachable by embedding is mapped, mapping ends exactly when the embedding is not circular. |
| C62 | GraphQL type names | partial | `C62_scalar`, `C62_scalar_values`, `C62_time`, `C62_named`, `C62_list`, `C62_syntax`, `C62_refuted`, `C62_refuted_time`, `C62_refuted_syntax` | Exact GraphQL types of scalars, times, named types and lists for all fields, and their syntax. Refuted as first stated: required scalars that may be null are not null in GraphQL, required times may be null, and lists of looked-up items with a required name get text that is not a type. |
| C63 | GraphQL arrays get a total field | partial | `C63_total`, `C63_partial`, `C63_refuted`, `C63_refuted_clash` | Lists always get a non-null integer total; nullability of lists as written. Refuted: required lists that may be null are not null, and a property named like a total is replaced. |
| C64 | Rename flags | proved | `C64`, `C64_total`, `C64_error` | Rename flags. |
| C65 | Files generated for a schema | partial | `Gen.C65_partial`, `Gen.C65_others`, `Gen.C65_refuted`, `Gen.file_inj`, `Gen.resolve_base` | One file per entry, nothing else changed, for schema files with different base names. Refuted for entries with the same base name: they share a file, and the second struct replaces the first. Avro, MessagePack and GraphQL files are not part of the model of BuildStructs. |
| C66 | JSONPath splitting inverts path construction | partial | `C66_partial`, `C66_refuted`, `C66_refuted_root`, `C66_exact`, `C66_iff` | Names on a path; refuted for arrays of arrays and arrays at the root. C66_exact: the names that come out for any path; C66_iff: right iff no array is directly in an array or at the root. |
| C67 | Concurrent cached loads give the sequential results | proved | `C67`, `C67_schedule` | Builders are deterministic functions of the results of their loads (files do not change). |
| C68 | Generated accessors name the field Go selects | partial | `Go.C68_partial`, `Go.C68_refuted` | Proved when embedded structs embed nothing themselves. Missing: with deeper embedding the statement is false; a deeper field of an earlier embedded struct hides a shallower field of a later one (refutation). |
| C69 | GraphQL types have a field per property | partial | `C69_partial`, `C69_refuted` | For schemas whose objects have distinct, free names and whose instances have one type besides null; references across files are not covered; inline objects are C99. Refuted without the condition that objects get different names: of two objects with the same name one has no type. |
| C70 | GraphQL types implement the interface they declare | partial | `C70_partial`, `C70_refuted`, `C70_refuted_name`, `C70_refuted_leak` | Proved for entries that do not redefine fields of the interface. Refuted in general: a redefined field, a directory with another name, and allOf fields that leak to later entries. |
| C71 | GraphQL fields name types that exist | partial | `C71_partial`, `C71_refuted` | Under the conditions of C69_partial. Refuted without the condition that objects get different names: the type of a field may be left out. |
| C72 | Go and GraphQL agree on what may be null | partial | `C72_scalar`, `C72_object`, `C72_time_partial`, `C72_elements_partial`, `C72_element_objects`, `C72_refuted`, `C72_refuted_elements` | An equivalence for scalars, for objects and for the elements of lists of objects, unless the property may be null although it is required or there are no pointers; refuted otherwise. Times may always be null in GraphQL, so that only one direction holds for them. The elements of lists of scalars are never null in GraphQL and pointers in Go exactly if the list may be null, which refutes the claim for such lists. |
| C73 | Embedded structs are declared | partial | `Gen.C73_partial`, `Gen.C73_refuted` | Proved if the names given for structs are exported, EmbedAllOf is off, and every embedded struct has a field. Refuted otherwise: a struct without fields is not written, and a name that is not exported is embedded as it is but declared with an upper case letter. |
| C74 | GraphQL types come from the schema asked for | partial | `Gen.C74_partial`, `Gen.C74_refuted`, `Gen.C74_exact`, `Gen.C74_iff` | Proved for absolute paths and names without directories. Refuted for other relative paths: the directory is put in front twice. C74_exact: exactly which file is read for any relative path without superfluous parts; C74_iff: the right one iff the path has as many directories as '..'. |
| C75 | Generated conversion to Avro compiles and carries the values over | partial | `Go.C75_partial`, `Go.C75_nil`, `Go.C75_missing`, `Go.C75_refuted_nil`, `Go.C75_refuted_twice`, `Go.C75_refuted_null`, `Go.C75_refuted_meta`, `Go.C75_refuted_reserved`, `Go.C75_refuted_guard`, `Go.C75_refuted_list`, `Go.C75_refuted_embedded` | Proved for a Go semantics of the written expressions (types and values): the conversion is generated, type checks and represents every field, to any depth of structs, lists and maps of the same types, if the field types belong together, no name is reserved or starts with Avro, and no two lists of structs have the same struct and record. Missing: it is false in general; each refutation is a struct for which the code panics, does not compile, loses a value or is not generated. |
| C76 | Documents of the schema go through the generated struct | partial | `GoJson.C76_partial`, `GoJson.C76_refuted`, `GoJson.C76_refuted_integer`, `GoJson.C76_refuted_free`, `GoJson.C76_refuted_item`, `GoJson.C76_refuted_case`, `GoJson.C76_refuted_time` | Proved from the text that is written: it declares a struct (read by a specification of the field lines and json tags) such that every document goes through unmarshalling and marshalling, to any depth, except that optional properties with blank values may be lost; for documents whose integers are written as such, without null list entries, without other than strings in free-form objects, without keys that differ from a property only in case, and with the optional times that have no pointer. Inline structs, no embedded structs. Missing: it is false in general; each refutation is a valid document that is rejected or changed. C95 says the same of the Go source text, and with NoNestedStructs. |
| C77 | Output for an XML input | partial | `C77_partial`, `C77_items`, `C77_refuted` | Proved for schemas whose objects have no default and that do not use method last and currentTime: the output is the validated rendering of the unique value that the relational semantics gives to the schema on the root node. Missing: object defaults, for which it is false (C77_refuted: the default map is shared by all items of an array and written to), and method last (the order of the instructions is reversed again on each use). |
| C78 | Writing one message to an Avro container file | partial | `Go.C78_partial`, `Go.C78_refuted` | Proved with the hypotheses of C75 about the structs, for every message, write time and failure of the Avro library. Missing: the structs for which the conversion is wrong (the refutations of C75). C78_refuted: with a nil entry in a list of pointers to structs both methods panic after the header has been written. |
| C79 | Concurrent Transform calls return what they return alone | partial | `C79_partial`, `C79_refuted`, `isCall_exists`, `C79_arrays_partial` | Proved for every number of calls, every interleaving, any iteration orders and library behaviour, JSON and XML: executions are finite, never stuck, the Transformer is unchanged and each result is that of the call alone; for schemas without array and object defaults and without method last. Missing: those features, for which it is false (C79_refuted: two calls, method last). With array defaults under the conditions of C02_arrays_partial: C79_arrays_partial. |
| C80 | Struct tags carry the names of the schema | partial | `Go.C80_partial`, `Go.C80_json_partial`, `Go.C80_options_partial`, `Go.C80_refuted`, `Go.C80_refuted_dash`, `Go.C80_refuted_comma`, `Go.C80_refuted_description` | Proved for names and descriptions that need no escapes: what the Avro generator finds in the tag (names without comma), exactly which names encoding/json uses as keys (C80_json_partial, an equivalence), and which options it finds. C80_statement is false in general: names with an apostrophe or a comma, the required property '-', descriptions with quotes or backslashes. Missing: what happens with names and descriptions that have quotes, backslashes, backquotes or line breaks. |
| C81 | The generated Avro schema has the properties of the JSON schema | partial | `Go.C81_partial`, `Go.C81_unique`, `Go.C81_refuted`, `Go.C81_refuted_null`, `Go.C81_refuted_object` | Proved for inline structs without embedding and the schemas of C76 (names usable in tags, one type each, no lists of lists), for every walk order and depth: the text of the Avro schema file, read from the written Go lines, is that of the record asked for, which is unique (C81_unique). The claim about null is proved for properties that are not required, except objects that may not be null; it is refuted for properties that are required and may be null, and for optional objects. Missing: NoNestedStructs (see C104), embedded structs, names and descriptions that need escapes. |
| C82 | The command runs the generator as its arguments ask | proved | `C82`, `C82_runs`, `C82_unique`, `C82_code`, `C82_refuted` | For every list of arguments: C82 is that calls are only made as asked, C82_runs that they are made whenever asked, C82_unique that a command line asks for one call, C82_code is the exit code. filepath.Abs and the generator are parameters. C82_refuted: an option after the path of the schema is not an option; it is taken as the output directory, without an error. |
| C83 | Messages of a JSON schema arrive in Avro | partial | `Go.C83_partial`, `Go.C83_refuted` | Proved for all schemas as in C81 whose properties can be carried over: null only for times and objects that are not required and for lists of times or objects (in lists of objects for nothing), no lists of maps of strings (the generator fails on these), names that are the same on both sides, and different names for the records. C83_refuted: a required text that may be null; its conversion does not compile. What gogen-avro makes of an Avro schema is a specification (Spec/AvroGo). |
| C84 | The Avro generator works on the struct it is asked for | partial | `Go.C84_file_partial`, `Go.C84_dir_partial`, `Go.C84_generated_partial`, `Go.C84_schema_partial`, `Go.C84_none`, `Go.C84_order`, `Go.C84_sound`, `Go.C84_total`, `Go.C84_refuted`, `Go.C84_file_iff`, `Go.C84_fields` | Proved: a struct is found in a file or a directory with one package if it is declared once, on its own, and nothing before it in its file is called like it or has a field that is; otherwise, with no or several declarations or packages in a directory, an error; the order of the files does not matter; what is found under the name is what is declared; no panics; and for schemas as in C81 the root struct is found and the Avro schema written. C84_refuted: in a generated file where an earlier struct has a field called like the struct, that other struct is taken, reduced to the field. C84_file_iff: in a file that declares the type once the condition is also necessary. |
| C85 | The options for GraphQL, Avro and MessagePack only add files | partial | `Gen.C85_partial`, `Gen.C85_avro`, `Gen.C85_others`, `Gen.C85_off`, `Gen.C85_rename`, `Gen.C85_refuted` | Proved: without the options the result is that of C65; with them, if it succeeds, all files but the extra ones are as without; whatever happens nothing but struct files and extra files is touched; with Avro every struct has its files, made from files in which the struct and those before it are as written. Missing: base names ending in _avro, _avro_test, _msgp or _msgp_test, for which C85_refuted shows that the helper code of one struct replaces another struct; equal base names (C65_refuted); struct names with dots or slashes. What the libraries (gogen-avro, msgp) write is a parameter. |
| C86 | Documents go through structs that embed others | partial | `GoJson.C86_partial`, `GoJson.C86_apart`, `GoJson.C86_refuted` | C86_partial: the struct goes through json for the joined properties of all schemas, as in C76, where a property of the schema itself hides that of an embedded struct and a property counts as required if the schema that provides it requires it. C86_apart: the statement for every schema by itself if the schema shares no property with the others. C86_refuted: the full statement is false, a required property that two embedded structs have is lost. Missing: properties that two of the other schemas have, structs that embed structs which embed others. C102 has the same from the text of the files that BuildStructs writes. |
| C87 | The Avro schema of a struct that embeds others has their fields | partial | `Go.C87_partial`, `Go.C87_hidden`, `Go.C87_refuted`, `Go.C87_missing` | Proved for any number of embedded structs if the last field of each is none of the struct itself, with the embedded structs embedding none and objects inline (no NoNestedStructs). C87_hidden is the exact text if all fields of an embedded struct are hidden: it has two commas one after the other, so it is no JSON; C87_refuted refutes the full statement with it. Parsing of Go files is that of C84. C87_missing: without a file for an embedded struct the schema has an entry without a name. |
| C88 | Schemas spread over several files load to one result | partial | `C88_partial`, `C88_refuted`, `schemaOfDoc_sched`, `C88_circular` | Proved for files whose references to other files can be ranked, whose references inside each file can be ranked (as in C41), with distinct keys and no references in arrays directly inside arrays (findRefs does not search those), network documents without references, and type names without '|' (C46). Refuted for files that refer to each other (C88_refuted: the load waits for itself). Cached values range over schemas without references; that every builder exists for these shows that nothing is left out. Strings are raw text. C88_circular: the converse, if each of some files refers to one of them (by references that stand alone), no load of one of them ever gives a schema. |
| C89 | Generated GraphQL files are GraphQL and say what the schema says | partial | `C89_text`, `C89_partial`, `C89_refuted`, `C89_refuted_name`, `C89_refuted_empty` | JT.C89_text: for any types that can be written, the file reads as exactly these definitions and no others. C89_partial: from a schema without allOf/oneOf entries, under the conditions of C69_partial and that names, descriptions and given types can be written. Refuted in general: descriptions with backslashes, property names with hyphens and schemas without properties give files that are not GraphQL. Schemas with allOf and oneOf entries: C90. |
| C90 | GraphQL files of schemas with allOf and oneOf entries | partial | `C90_partial`, `files_types`, `C90_refuted` | The conditions are that the properties of the entries go together, those of C69_partial for each entry, that the types can be written, that oneOf entries have no embedded allOf entries of their own, and that files are different; C90_refuted shows that a oneOf entry with the name of the schema overwrites the interface. |
| C91 | NewTransformer accepts exactly the schemas it can handle | partial | `C91_accepts_partial`, `C91_partial`, `C91_refuted` | For all schemas whose property names are distinct, not empty and without dots and brackets: NewTransformer succeeds iff the schema is acceptable (C91_accepts_partial), and if moreover no instruction is null it returns an error for all others (C91_partial). C91_refuted: a property below one with a dot in its name makes NewTransformer panic, and so does null in place of an instruction. |
| C92 | Generating files ends with files or an error, not with a panic | partial | `C92_dereference`, `Gen.C92_structs_partial`, `Gql.C92_graphql_partial`, `Gen.C92_build_partial`, `Gen.C92_all_partial`, `C92_refuted`, `C92_refuted_graphql`, `Go.C92_avro_partial`, `Go.C92_schema_partial` | No panic: resolving references (all documents); inline structs if no property name has a dot and no object is also of type graphql-hydration; structs of their own and GraphQL types if no property at the top is called $ or has an empty name; the commands, if these conditions hold for the schemas read and the tools for Avro, MessagePack and files do not panic. The refutations show a name with a dot, items that are hydrated objects, and a property called $ or without a name crash the generators. For the Avro files: the schema is always written, and the conversion is written or an error returned, if the structs and Avro types are not circular (C92Avro.lean shows that circular ones never end). |
| C93 | The generated Go file is Go source that declares the struct for the schema | partial | `GoText.C93_partial`, `GoText.C93_unique`, `GoText.C93_struct`, `GoText.C93_refuted` | For inline structs with embedded ones, with names that are Go names and descriptions and JSON names without characters that Go forbids in tags or comments. C93_unique: the grammar is unambiguous. C93_struct: the schema determines the fields. C93_refuted: a backquote in a description breaks the file; C93.lean also shows that the comment of a list of GraphQL-only items stays and is then about the next property. Structs of their own for nested objects (NoNestedStructs): C94. Missing: format.Source. |
| C94 | With structs of their own for objects, the generated Go file declares each struct once and every type it uses | partial | `GoText.C94_partial`, `GoText.C94_unique`, `GoText.C94_closed`, `GoText.C94_refuted` | For schemas in which the objects get different struct names, with names and texts that Go allows, and without pointers to objects that have no properties. C94_unique: the schema asks for one file only, so the file does not depend on the order of walking. C94_closed: each type is declared once and each used type is declared. C94_refuted: with pointers, an object without properties gets a pointer to a struct that is not declared, so the file does not compile. |
| C95 | Documents of a schema go through the types that the generated Go source declares | partial | `GoText.C95_partial`, `GoText.C95_unique`, `GoText.C95_refuted` | For schemas whose files C93 or C94 cover, without embedded structs. Optional properties with blank values may be lost, and numbers and times are taken in the form that Go writes (the conditions of C76). C95_unique: the text declares one struct of the name. C95_refuted: 1.0 is a valid integer and is refused by a field of type int64. |
| C96 | Operations on single values give the values they are named for | proved | `C96`, `C96_inverse`, `C96_twice`, `Gives.unique` | Regular expressions, time formats, float texts, case changes, sanitizing and unescaping are library functions that the theorem takes as given. The other operations are C15, C16, C18 and C19. |
| C97 | Schema documents are read key by key | proved | `Document.C97`, `Document.C97_load`, `Document.C97_types`, `Document.C97_same`, `Document.C97_refuted_top` | Keys that differ from a known key only in case, and keys that occur twice, are outside of the model. C97_refuted_top: an encoded schema with additionalProperties false, read at the top of a file, is read as true, since false is not written. |
| C98 | The output has the shape of the schema | partial | `C98_partial`, `C98_refuted` | Proved for schemas with plain property names whose objects have no default and, for JSON input, no transform of their own; on XML input an entry of an array may be a scalar, or anything if the array has a default. In general false (C98_refuted): the default of an object is part of the output with its nulls. |
| C99 | GraphQL does not depend on how Go structs are written | partial | `C99_partial`, `C99_inline`, `C99_refuted`, `C99_refuted_crash`, `C99_files_partial`, `C99_files_refuted`, `inlineFiles_own` | Proved for all schemas, with allOf and oneOf entries, in which no property or item is an object: the same files are written, or both modes fail alike (C99_files_partial). Otherwise it is false (C99_files_refuted): whatever the fields of the root are, if one of them is an object with properties that is written inline the file is not GraphQL (C99_inline, for schemas without entries), and a list whose name has a dot makes the generator crash. |

## Axioms per theorem

As printed by `#print axioms`; names without the leading `JT.`.

* none: C101_key, C46_refuted, C51_refuted, C51_refuted_zero, C52_refuted, C54_refuted_order, C62_refuted, C62_refuted_time, C66_refuted_root.
* `Quot.sound`: itemsLoop_congr.
* `propext`: C01_refuted_last, C01_refuted_default, C01_refuted_array, C03_refuted_array, C03_refuted_object, C08, C09_refuted, C12_refuted, Gen.C128_options_refuted, Bulk.C129_waits, Bulk.C129_example_refuted, C13_partial, C13_refuted, C13_refuted_array, C130_missing, C131_whole, C133_refuted, C134_partial, C134_walk_partial, C134_refuted, C135_refuted, C135_entry_refuted, C135_empty_refuted, C14_refuted, C15_refuted, C18_other, C20_refuted, C21_refuted, C22_nil, C23_merged, C25_reject, C25_fail, C27, C30_refuted, C30_refuted_max, baseName_unique, C40_root, C41_refuted, C45_refuted, C47_total, C47_refuted, C52_slice, C53_only, C53_unknown, C53_refuted_array, C56_flat_refuted, C57_refuted, Go.C59_pointer, Go.C59_time, Go.C59_map, Go.C59_refuted, Go.C59_refuted_pointer, Bulk.C60_blocked, Go.C61_circular, C62_scalar, C62_scalar_values, C62_time, C62_named, C62_list, C63_total, C63_refuted, C63_refuted_clash, C64_total, Gen.C65_refuted, C66_refuted, C69_refuted, C70_refuted_leak, C72_scalar, C72_time_partial, C72_refuted, Gen.C73_refuted, Gen.C74_partial, Gen.C74_refuted, Go.C75_nil, Go.C75_refuted_twice, Go.C75_refuted_meta, Go.C75_refuted_embedded, Go.C80_refuted, Go.C80_refuted_dash, Go.C80_refuted_comma, Go.C80_refuted_description, C82_refuted, Go.C84_refuted, Go.C84_fields, Gen.C85_refuted, C89_refuted, C89_refuted_name, C89_refuted_empty, C92_dereference, C92_refuted, C92_refuted_graphql, GoText.C93_unique, Document.C97_refuted_top, C99_refuted, C99_refuted_crash.
* `Quot.sound`, `propext`: C01_partial, C02_refuted_last, C02_refuted_default, C02_refuted_array, C04_refuted, C06, C07_refuted, C08_parse, C09_partial, C09_even, Combined.unique, C100_never, C109, C113, C114, C46_iff, C123, Spec.OutputOf.unique, Bulk.C129_ends, C13_array_partial, C13_exact, C13_array_iff, C130, C130_refuted, C130_instance_refuted, C131, C131_refuted, C132, C132_text, C132_refuted, C133_model, C133_reads, C134_iff, C134_agree_partial, C134_agree_refuted, C136_refuted, C137_refuted, C139_refuted, C140_refuted, C140_numbers_refuted, C140_default_refuted, C141_refuted, C142_refuted, C15_partial, C15_iff, C16_refuted, C18, C19, C20_partial, C25, C26, C26_conv, C28_string, C28_scalar, C28_default, C29, C31_refuted, C32_raw, C32_inst, C34, C36_partial, C36_refuted, baseName_total, C40_partial, C40_code, C40_refuted, C43_agree, C44, C44_nothing, C44_retry, C45_circular, C46_partial, C47_partial, C49, C49_total, C51_order, C51_exact, C52_optional, C52_partial, C55_depth, C55_refuted, C56_refuted, C57_tag, Go.C59_scalar, Go.C59_array, Go.C59_struct, Go.C59_optional, Bulk.C60_terminates, Go.C61_total, C62_syntax, C64, C64_error, Gen.file_inj, Gen.resolve_base, C66_partial, C67, C67_schedule, C70_partial, C70_refuted, C70_refuted_name, C71_refuted, C72_object, C72_elements_partial, C72_element_objects, C72_refuted_elements, Gen.C74_exact, Gen.C74_iff, Go.C75_missing, Go.C75_refuted_nil, Go.C75_refuted_null, Go.C75_refuted_reserved, Go.C75_refuted_guard, Go.C75_refuted_list, C77_refuted, Go.C78_refuted, Go.C80_partial, Go.C80_json_partial, Go.C80_options_partial, Go.C84_none, Go.C84_order, Go.C84_sound, Go.C84_total, Gen.C85_off, Gen.C85_rename, Go.C87_missing, C90_refuted, C91_refuted, Gen.C92_structs_partial, Gql.C92_graphql_partial, Gen.C92_build_partial, Gen.C92_all_partial, Go.C92_schema_partial, GoText.C93_refuted, GoText.C94_refuted, C98_refuted, C99_files_refuted, inlineFiles_own.
* `Classical.choice`, `Quot.sound`, `propext`: C01_arrays_partial, C02_partial, C02_arrays_partial, C03_partial, C03_arrays_partial, C03_xml_partial, C04_partial, C04_xml, C04_defaults_partial, C05_partial, C05_arrays_partial, C05_refuted, C06_arrays, C07_partial, C07_arrays_partial, C07_places_partial, C07_xml_partial, C10, C100, C101, C101_order, C101_transform, C101_load, GoText.C102_partial, GoText.C102_apart, GoText.C102_unique, GoText.C102_refuted, GoText.C102_embedded_partial, GoText.C102_embedded_refuted, GoText.partOk_embeds, GoText.C103_partial, GoText.C103_refuted, GoText.C104_partial, GoText.C104_same, GoText.C104_refuted, GoText.C104_refuted_clash, GoText.C104_embedded_partial, GoText.C105_partial, GoText.C105_others, GoText.C105_refuted, GoText.program_ok, C106, C107, durationStr_iff, Avro.C108, Avro.millis_iff, C11, C110, GoText.C111_partial, GoText.C111_refuted, GoText.C111_embedded_partial, C112_raw, C112_inst, C115, runOp_panic_iff, C116, C117, C66_exact, C66_iff, C12_partial, C12_iff, C120, C121, Go.C122, Gen.C124, Go.C125, Gen.C126, Gen.C126_own, Gen.C126_says, C127_partial, C127_same_partial, load_happens, C127_refuted, Gen.C128, Gen.C128_killed, Gen.C128_ends, Bulk.C129, Bulk.C129_example, C130_transformer, C130_names, C132_model, C133_partial, C133_visits, C135_partial, C135_iff, C136_partial, C136_common_partial, C136_accepts_partial, C136_whole_partial, C137_partial, C137_fields_partial, C138, C138_sets, C139_partial, C139_accepts_partial, C139_whole_partial, C14_partial, C140_partial, C141_partial, C142_partial, C142_field_partial, C16_partial, durationStr_clock, C16_iff, C17, initOp_iff, C21_partial, C21_ctx, C22_partial, C22_succeeds, C22_statement_savePath, C22_refuted_conflict, C22_refuted_merge, C22_refuted_padding, C23, C23_nested, C24, C24_reads, C30_partial, C31_raw_partial, C31_inst_partial, C33, C33_walks, C34_sorted, C35, C35_doc, C37, C38, C39, C39_idempotent, C41_partial, C41_circular, C42, C43, C45_partial, C48, C50, C51_partial, C51_near, C51_iff, C52_iff, C53_partial, C54_partial, C54_order, C54_refuted, C54_iff, C55_partial, C56_partial, C56_unique, C56_flat_partial, C57_partial, C57_iff, Go.C58_partial, Go.C58_refuted, Go.C58_refuted_empty, Go.C58_refuted_again, Go.C58_refuted_type, Go.C58_refuted_quote, Go.C58_refuted_package, Go.C59_partial, Bulk.C60, Bulk.C60_order, Bulk.C60_complete, Bulk.C60_reported, Bulk.C60_last, Bulk.C60_stops, Bulk.C60_progress, Bulk.C60_finishes, Go.C61, Go.C61_own, Go.C61_has, C62_refuted_syntax, C63_partial, Gen.C65_partial, Gen.C65_others, Go.C68_partial, Go.C68_refuted, C69_partial, C71_partial, Gen.C73_partial, Go.C75_partial, GoJson.C76_partial, GoJson.C76_refuted, GoJson.C76_refuted_integer, GoJson.C76_refuted_free, GoJson.C76_refuted_item, GoJson.C76_refuted_case, GoJson.C76_refuted_time, C77_partial, C77_items, Go.C78_partial, C79_partial, C79_refuted, isCall_exists, C79_arrays_partial, Go.C81_partial, Go.C81_unique, Go.C81_refuted, Go.C81_refuted_null, Go.C81_refuted_object, C82, C82_runs, C82_unique, C82_code, Go.C83_partial, Go.C83_refuted, Go.C84_file_partial, Go.C84_dir_partial, Go.C84_generated_partial, Go.C84_schema_partial, Go.C84_file_iff, Gen.C85_partial, Gen.C85_avro, Gen.C85_others, GoJson.C86_partial, GoJson.C86_apart, GoJson.C86_refuted, Go.C87_partial, Go.C87_hidden, Go.C87_refuted, C88_partial, C88_refuted, schemaOfDoc_sched, C88_circular, C89_text, C89_partial, C90_partial, files_types, C91_accepts_partial, C91_partial, Go.C92_avro_partial, GoText.C93_partial, GoText.C93_struct, GoText.C94_partial, GoText.C94_unique, GoText.C94_closed, GoText.C95_partial, GoText.C95_unique, GoText.C95_refuted, C96, C96_inverse, C96_twice, Gives.unique, Document.C97, Document.C97_load, Document.C97_types, Document.C97_same, C98_partial, C99_partial, C99_inline, C99_files_partial.
