{
 "claims": [
  {
   "property": "C01",
   "status": "partial",
   "theorems": [
    "JT.C01_partial",
    "JT.C01_refuted_last",
    "JT.C01_refuted_default",
    "JT.C01_arrays_partial",
    "JT.C01_refuted_array"
   ],
   "note": "Holds for every schema without method last and without map or slice defaults; refuted in the model for both of those features. With array defaults (without objects in them) it is proved if property names are plain and, for JSON, arrays inside array items have no default or transform (C01_arrays_partial); without the last condition it is false (C01_refuted_array)."
  },
  {
   "property": "C02",
   "status": "partial",
   "theorems": [
    "JT.C02_partial",
    "JT.C02_refuted_last",
    "JT.C02_refuted_default",
    "JT.C02_arrays_partial",
    "JT.C02_refuted_array"
   ],
   "note": "Same hypotheses as C01; refuted for last and for object defaults. With array defaults (without objects in them) it is proved if property names are plain and, for JSON, arrays inside array items have no default or transform (C02_arrays_partial); without the last condition it is false (C02_refuted_array)."
  },
  {
   "property": "C03",
   "status": "partial",
   "theorems": [
    "JT.C03_partial",
    "JT.C03_arrays_partial",
    "JT.C03_xml_partial",
    "JT.C03_refuted_array",
    "JT.C03_refuted_object"
   ],
   "note": "Proved, without method last and clock operations: (1) for JSON input and schemas without defaults and transforms on arrays and objects; (2) for JSON input and schemas whose top level arrays have transforms or defaults, if only the items of such an array read its place in the input and the JSONPath library is local; (3) for XML input and schemas whose objects have no default, with any transforms. The full statement is false (refuted) when another instance reads a place an array or object transform writes to."
  },
  {
   "property": "C04",
   "status": "partial",
   "theorems": [
    "JT.C04_partial",
    "JT.C04_refuted",
    "JT.C04_xml",
    "JT.C04_defaults_partial"
   ],
   "note": "C04_partial: JSON input and property names that are identifiers. C04_refuted: false if a property has a dot in its name (its value is lost). C04_xml: on XML input nothing is copied without transforms, the output is null for every document. C04_defaults_partial: the same with defaults of scalars, which are put where there are no values."
  },
  {
   "property": "C05",
   "status": "partial",
   "theorems": [
    "JT.C05_partial",
    "JT.C05_arrays_partial",
    "JT.C05_refuted"
   ],
   "note": "Proved for covered schemas, including top level arrays with transforms or defaults (their items read the input with the array put at its place); false in general because array transforms and defaults are saved into the input tree where other instances see them. XML input: C77."
  },
  {
   "property": "C06",
   "status": "proved",
   "theorems": [
    "JT.C06",
    "JT.C06_arrays"
   ],
   "note": "C06 is about one array node, for every state and schema node. C06_arrays states the precedence from input document to output document for top level arrays of covered schemas."
  },
  {
   "property": "C07",
   "status": "partial",
   "theorems": [
    "JT.C07_partial",
    "JT.C07_arrays_partial",
    "JT.C07_places_partial",
    "JT.C07_refuted",
    "JT.C07_xml_partial"
   ],
   "note": "Proved for covered schemas on JSON input, including top level arrays with transforms or defaults. C07_places_partial: every place of the output, for all schemas with plain names whose objects have neither default nor transform, after any calls. C07_refuted: an object default with a null puts a null at the place of a property. C07_xml_partial: every place of the output on XML input, for schemas with plain names without defaults for objects and arrays and with any transforms; entries of arrays may be scalars in place of objects."
  },
  {
   "property": "C08",
   "status": "proved",
   "theorems": [
    "JT.C08",
    "JT.C08_parse"
   ],
   "note": ""
  },
  {
   "property": "C09",
   "status": "partial",
   "theorems": [
    "JT.C09_partial",
    "JT.C09_even",
    "JT.C09_refuted"
   ],
   "note": "Holds for the 1st, 3rd, ... evaluation; the others return the first value."
  },
  {
   "property": "C10",
   "status": "proved",
   "theorems": [
    "JT.C10",
    "JT.Combined.unique"
   ],
   "note": ""
  },
  {
   "property": "C100",
   "status": "proved",
   "theorems": [
    "JT.C100",
    "JT.C100_never"
   ],
   "note": "For all builders that are functions of the key and all goroutines: ending alone, ending under one schedule and ending under every schedule are the same. Alone is a big-step semantics without a cache; C67 says that results are the same as well."
  },
  {
   "property": "C101",
   "status": "proved",
   "theorems": [
    "JT.C101",
    "JT.C101_order",
    "JT.C101_transform",
    "JT.C101_load",
    "JT.C101_key"
   ],
   "note": "The validation library is a parameter, with the law that Valid() says whether there are violations. The texts of its own errors are left out. Panics of the library are not modelled."
  },
  {
   "property": "C102",
   "status": "partial",
   "theorems": [
    "JT.GoText.C102_partial",
    "JT.GoText.C102_apart",
    "JT.GoText.C102_unique",
    "JT.GoText.C102_refuted",
    "JT.GoText.C102_embedded_partial",
    "JT.GoText.C102_embedded_refuted",
    "JT.GoText.partOk_embeds"
   ],
   "note": "The full statement is C102_statement, refuted: a property that two embedded structs have is lost. Proved: the files are a legal Go package with the expected structs, and documents go through them, for strict documents (see C76), with options inline or NoNestedStructs. Missing: properties that two of the embedded schemas have. SchemaFromFile, strings.Title and go/format are parameters; gofmt is taken to change only the layout. C102_embedded_partial covers EmbedAllOf (on by default in the command) as long as embedded structs embed no others and there is a struct for each allOf entry; C102_embedded_refuted: with EmbedAllOf the schema of a oneOf entry may have allOf entries that the root schema lacks, and its struct then embeds one that is not declared anywhere, so the package does not compile."
  },
  {
   "property": "C103",
   "status": "partial",
   "theorems": [
    "JT.GoText.C103_partial",
    "JT.GoText.C103_refuted"
   ],
   "note": "Proved for schemas with plain property names whose objects have no default and, for JSON input, no transform of their own, with at least one property for Go in each object, no properties that differ only in case and no optional times without pointers (for XML also no array defaults), and for results whose whole numbers are written in digits and have 64 bits; optional properties with blank values may be lost. Struct inline or with NoNestedStructs, no embedded structs. C103_refuted: 2^63 as a float64 passes for an integer and is refused by int64. What the validator accepts is taken to be valid; json.Marshal is a specification."
  },
  {
   "property": "C104",
   "status": "partial",
   "theorems": [
    "JT.GoText.C104_partial",
    "JT.GoText.C104_same",
    "JT.GoText.C104_refuted",
    "JT.GoText.C104_refuted_clash",
    "JT.GoText.C104_embedded_partial"
   ],
   "note": "Proved from the text of the file, inline and with NoNestedStructs, with nothing embedded, or inline with embedded structs (C104_embedded_partial: these embed nothing themselves and have a last field that the struct does not have), for names and descriptions that need no escapes. The full statement is C104_statement, refuted: required properties that may be null are no unions with null, nor are optional objects that are no pointers. C104_refuted_clash: if a field is called like the struct for an object, the record for the object has the wrong fields. go/parser is a specification (Stored): it gives the tree of the source that the text is, for the file and for the directory, which has one package. gofmt and the pretty printing of Avro schemas are not modelled."
  },
  {
   "property": "C105",
   "status": "partial",
   "theorems": [
    "JT.GoText.C105_partial",
    "JT.GoText.C105_others",
    "JT.GoText.C105_refuted",
    "JT.GoText.program_ok"
   ],
   "note": "The full statement is C105_statement, refuted: with EmbedAllOf, which is on by default, the struct of a oneOf entry may embed one that is not declared. C105_partial: if there is a struct for each allOf entry of the schemas and the schemas meet the conditions of C102 (names and descriptions that Go accepts, no property that two embedded structs have, embedded structs that embed no others), the package is legal and documents go through the structs. C105_others: no other files are changed. Files that the options for Avro and MessagePack add to the package are not considered as part of it; libraries, the file system and SchemaFromFile are parameters."
  },
  {
   "property": "C106",
   "status": "proved",
   "theorems": [
    "JT.C106"
   ],
   "note": "The result of max for every value: the value, the panic and the error, each exactly."
  },
  {
   "property": "C107",
   "status": "proved",
   "theorems": [
    "JT.C107",
    "JT.durationStr_iff"
   ],
   "note": "The result of duration for every value."
  },
  {
   "property": "C108",
   "status": "proved",
   "theorems": [
    "JT.Avro.C108",
    "JT.Avro.millis_iff"
   ],
   "note": "The numbers for all times, optional times and lists."
  },
  {
   "property": "C109",
   "status": "proved",
   "theorems": [
    "JT.C109"
   ],
   "note": "After any history of evaluations of the same transform."
  },
  {
   "property": "C11",
   "status": "proved",
   "theorems": [
    "JT.C11"
   ],
   "note": ""
  },
  {
   "property": "C110",
   "status": "proved",
   "theorems": [
    "JT.C110"
   ],
   "note": "Conversion to scalar types of all values that are not circles of arrays; every JSON document is such a value."
  },
  {
   "property": "C111",
   "status": "partial",
   "theorems": [
    "JT.GoText.C111_partial",
    "JT.GoText.C111_refuted",
    "JT.GoText.C111_embedded_partial"
   ],
   "note": "Proved from the command line to the text of the Avro schema files, for nested structs that are inline and nothing embedded (C111_partial), or structs embedded that were generated before, embed nothing and are in files named like them (C111_embedded_partial), and names and descriptions that need no escapes. The full statement is C111_statement, refuted: required properties that may be null are no unions with null (nor are optional objects that are no pointers, see C104). go/parser is a specification (AvroTool.sound): a tree that it gives for source is the tree of that source. Missing: structs of their own for objects (C104 has them for one file), structs embedded in embedded ones."
  },
  {
   "property": "C112",
   "status": "proved",
   "theorems": [
    "JT.C112_raw",
    "JT.C112_inst"
   ],
   "note": "Without the condition on names of C31. That names are distinct is a hypothesis for WalkRaw (a JSON document may have a key twice) and for the properties of the Schema (a Go map); for everything below it is proved for Walk."
  },
  {
   "property": "C113",
   "status": "proved",
   "theorems": [
    "JT.C113"
   ],
   "note": "Without the condition on names of C47."
  },
  {
   "property": "C114",
   "status": "proved",
   "theorems": [
    "JT.C114"
   ],
   "note": "C36 says what one would like instead. The hypothesis says that properties are Go maps."
  },
  {
   "property": "C115",
   "status": "proved",
   "theorems": [
    "JT.C115",
    "JT.runOp_panic_iff"
   ],
   "note": "C14 says what one would like instead."
  },
  {
   "property": "C116",
   "status": "proved",
   "theorems": [
    "JT.C116"
   ],
   "note": "An equivalence, so that the fields written are unique for an order of visiting. C54 says what one would like instead."
  },
  {
   "property": "C117",
   "status": "proved",
   "theorems": [
    "JT.C117"
   ],
   "note": "An equivalence for all fields. C53 says what one would like instead."
  },
  {
   "property": "C118",
   "status": "proved",
   "theorems": [
    "JT.C46_iff"
   ],
   "note": "C46 says what one would like instead."
  },
  {
   "property": "C119",
   "status": "proved",
   "theorems": [
    "JT.C66_exact",
    "JT.C66_iff"
   ],
   "note": "C66 says what one would like instead. Names with dots or stars are excluded since they cannot be told from the notation of paths."
  },
  {
   "property": "C12",
   "status": "partial",
   "theorems": [
    "JT.C12_partial",
    "JT.C12_refuted",
    "JT.C12_iff"
   ],
   "note": "Proved for every type except date-time, for which it is refuted: converting a time again is an error. C12_iff: exactly the times cannot be converted again."
  },
  {
   "property": "C120",
   "status": "proved",
   "theorems": [
    "JT.C120"
   ],
   "note": "An equivalence: the specification gives each field exactly one list of arguments and one type."
  },
  {
   "property": "C121",
   "status": "proved",
   "theorems": [
    "JT.C121"
   ],
   "note": "An equivalence, for all fields."
  },
  {
   "property": "C122",
   "status": "proved",
   "theorems": [
    "JT.Go.C122"
   ],
   "note": "An equivalence, for all Go sources. The example shows that a struct with a field called like the struct asked for is found in its place. Parsing Go itself is not modelled."
  },
  {
   "property": "C123",
   "status": "proved",
   "theorems": [
    "JT.C123"
   ],
   "note": "Hypothesis: the object with the reference has no key twice. C40 says what one would like instead."
  },
  {
   "property": "C124",
   "status": "proved",
   "theorems": [
    "JT.Gen.C124"
   ],
   "note": "Covers each way in which creating a file, loading a schema or formatting can fail, at any struct. That writing to a created file fails is not modelled."
  },
  {
   "property": "C125",
   "status": "proved",
   "theorems": [
    "JT.Go.C125"
   ],
   "note": "Both directions, for all structs and Avro structs. Conversions that do not end because structs embed or hold themselves count as not generated. That the generated code compiles is not part of it."
  },
  {
   "property": "C126",
   "status": "proved",
   "theorems": [
    "JT.Gen.C126",
    "JT.Gen.C126_own",
    "JT.Gen.C126_says"
   ],
   "note": "Which files are left is proved for all command lines; it is assumed that the GraphQL tool of the steps writes the files of Model/Graphql (GraphqlTool), that gogen-avro makes .go files, and that names of schema files and structs are as in C85. What the files say is that of C89 (C126_own) and C90 (C126_says), under their conditions."
  },
  {
   "property": "C127",
   "status": "partial",
   "theorems": [
    "JT.C127_partial",
    "JT.C127_same_partial",
    "JT.load_happens",
    "JT.Spec.OutputOf.unique",
    "JT.C127_refuted"
   ],
   "note": "JSON and XML input; files that do not refer to each other in circles; schemas whose defaults are scalars and, for JSON, whose arrays and objects have neither default nor transform (for XML: whose objects have no default), without method last and without currentTime. Missing: circles (C88_refuted), arrays and objects with defaults or transforms (C03_refuted_array, C03_refuted_object, C01_refuted_default), method last (C01_refuted_last) and currentTime. The full statement (C127_statement) is false: C127_refuted."
  },
  {
   "property": "C128",
   "status": "proved",
   "theorems": [
    "JT.Gen.C128",
    "JT.Gen.C128_killed",
    "JT.Gen.C128_ends",
    "JT.Gen.C128_options_refuted"
   ],
   "note": "The call that writes the text of a file is not taken to be atomic: while it runs, any text may be in the file. Errors of that call itself are not modelled. C128_options_refuted: with the option for Avro, for a tool that refuses directories with an empty Go file, as go/parser does."
  },
  {
   "property": "C129",
   "status": "proved",
   "theorems": [
    "JT.Bulk.C129",
    "JT.Bulk.C129_ends",
    "JT.Bulk.C129_example",
    "JT.Bulk.C129_waits",
    "JT.Bulk.C129_example_refuted"
   ],
   "note": "The goroutine and a user program as a transition system with all interleavings and failures. C129: every final state of the program that closes the channel; C129_ends: no run is infinite; C129_example and C129_waits: the generated example, which lacks the close, never flushes and waits for ever if no call fails (C129_example_refuted)."
  },
  {
   "property": "C13",
   "status": "partial",
   "theorems": [
    "JT.C13_partial",
    "JT.C13_array_partial",
    "JT.C13_refuted",
    "JT.C13_refuted_array",
    "JT.C13_exact",
    "JT.C13_array_iff"
   ],
   "note": "Proved for arrays whose first leaf is reached through at most the nesting the code unwraps; the unrestricted claim is refuted. C13_exact: exactly what happens for scalar types, with the depth of the first leaf; C13_array_iff: for type array, an array stays iff it has two entries."
  },
  {
   "property": "C130",
   "status": "proved",
   "theorems": [
    "JT.C130",
    "JT.C130_transformer",
    "JT.C130_missing",
    "JT.C130_refuted",
    "JT.C130_instance_refuted",
    "JT.C130_names"
   ],
   "note": "C130: the exact condition, for one transform; C130_transformer: the same for NewTransformer and schemas with plain property names. C130_missing: types of operations that no such transform has. C130_refuted, C130_instance_refuted: without the condition the claim is false, by an operation without a type and by an identifier that is not described. Keys of transforms are taken to be spelled exactly. C130_names: exactly which operation names the published schema lets one use."
  },
  {
   "property": "C131",
   "status": "proved",
   "theorems": [
    "JT.C131",
    "JT.C131_whole",
    "JT.C131_refuted"
   ],
   "note": "C131: the exact condition under which the result is what the documentation says. C131_whole: the result depends on where the matches are, not on their groups. C131_refuted: the negation of what the documentation says. The regexp library is a parameter; the contract used for it is that ReplaceAllString puts the new text in place of each match it finds, for new texts without a dollar sign and expressions whose group takes part in each match."
  },
  {
   "property": "C132",
   "status": "proved",
   "theorems": [
    "JT.C132",
    "JT.C132_model",
    "JT.C132_text",
    "JT.C132_refuted"
   ],
   "note": "C132: letter case of keys and unknown keys. C132_model: for keys as documented, the decoding used for the other properties (Model/Build) gives the same, except that with a null instruction it may fail with a panic where the code returns an error. C132_text: texts in place of transforms. C132_refuted: not for names of arguments. Documents with two keys for one field are not covered."
  },
  {
   "property": "C133",
   "status": "partial",
   "theorems": [
    "JT.C133_partial",
    "JT.C133_model",
    "JT.C133_refuted",
    "JT.C133_visits",
    "JT.C133_reads"
   ],
   "note": "C133_partial: the walks agree on schemas whose keys are spelled as the fields are, with Walk reading keys as encoding/json does. C133_model: on these schemas that is the Walk of the other properties. C133_refuted: the full statement is false: an object with its properties under Properties is walked by Walk and rejected by WalkRaw. Documents with two keys for one field are not covered. C133_visits: for keys in any letter case, Walk calls the function once for each instance as it reads it. C133_reads: what it reads as properties, items and type; a type that is a text is accepted only under the key type itself."
  },
  {
   "property": "C134",
   "status": "partial",
   "theorems": [
    "JT.C134_partial",
    "JT.C134_iff",
    "JT.C134_walk_partial",
    "JT.C134_agree_partial",
    "JT.C134_refuted",
    "JT.C134_agree_refuted"
   ],
   "note": "Proved for types written without escape sequences: FieldType (C134_partial, and C134_iff exactly for types that are strings), walking below an instance (C134_walk_partial), and that Walk and WalkRaw see the same type (C134_agree_partial). The full statements are refuted: an object type written with an escape sequence is an object for Walk and not for WalkRaw. Keys with escape sequences and surrogate pairs are left out."
  },
  {
   "property": "C135",
   "status": "partial",
   "theorems": [
    "JT.C135_partial",
    "JT.C135_iff",
    "JT.C135_refuted",
    "JT.C135_entry_refuted",
    "JT.C135_empty_refuted"
   ],
   "note": "Proved, exactly (C135_iff), for tokens that are not empty, have no tilde, are not numbers and do not start with a bracket. The full statement is refuted for each of the other kinds: ~1 and ~0 are not decoded (C135_refuted), entries of arrays are not reached by numbers (C135_entry_refuted), and empty tokens at the end are dropped (C135_empty_refuted). Percent-encoding is left out."
  },
  {
   "property": "C136",
   "status": "partial",
   "theorems": [
    "JT.C136_partial",
    "JT.C136_common_partial",
    "JT.C136_refuted",
    "JT.C136_accepts_partial",
    "JT.C136_whole_partial"
   ],
   "note": "C136_partial: taking properties away takes them out of the output and changes nothing else. C136_common_partial: two schemas that share a property with the same schema give it the same value. Both for covered schemas, JSON and XML. C136_refuted: false for schemas with a transform on an array, which is saved into the input where other properties read it. Properties below the top level are left out. C136_accepts_partial: a schema with plain names that is accepted is still accepted without some of its properties. C136_whole_partial: both together, with no hypothesis about the smaller schema."
  },
  {
   "property": "C137",
   "status": "partial",
   "theorems": [
    "JT.C137_partial",
    "JT.C137_fields_partial",
    "JT.C137_refuted"
   ],
   "note": "C137_partial: documents that agree at the paths at which the schema looks (only those of items that are there) give the same output, for covered schemas and JSON input. C137_fields_partial: fields with which no plain path starts do not matter. C137_refuted: false if an array has a transform, as it is saved into the input. XML input is left out."
  },
  {
   "property": "C138",
   "status": "proved",
   "theorems": [
    "JT.C138",
    "JT.C138_sets"
   ],
   "note": "For raw schemas as they are after loading. Validation of the output against the schema by the library is separate (Transform): it does look at other keywords. The keys of an instance are modelled in their exact spelling; encoding/json would also take Default for default, which the statement leaves out."
  },
  {
   "property": "C139",
   "status": "partial",
   "theorems": [
    "JT.C139_partial",
    "JT.C139_refuted",
    "JT.C139_accepts_partial",
    "JT.C139_whole_partial"
   ],
   "note": "Proved for JSON and XML if arrays and objects (XML: objects) have no default and (JSON) no transform, without method last and the clock. Refuted for all schemas: with transforms of arrays the output depends on the order of iteration. C139_accepts_partial: with plain names NewTransformer accepts a schema exactly if it accepts the reordered one, whatever defaults and transforms there are. C139_whole_partial: a reordered schema is accepted as well and gives the same outputs."
  },
  {
   "property": "C14",
   "status": "partial",
   "theorems": [
    "JT.C14_partial",
    "JT.C14_refuted",
    "JT.runOp_panic_iff"
   ],
   "note": "Order and stopping at the first error are proved for every chain; absence of panics for chains without max. max on an empty array panics, and that is the only operation that does."
  },
  {
   "property": "C140",
   "status": "partial",
   "theorems": [
    "JT.C140_partial",
    "JT.C140_refuted",
    "JT.C140_numbers_refuted",
    "JT.C140_default_refuted"
   ],
   "note": "Proved for outputs without the zero time whose numbers are written like their float64 (encoding/json does so for whole numbers up to 2^53), given that the output is read back as encoding/json does (ReadBack), for schemas in which only scalars have defaults, which are values of their type. C140_refuted: a number may become the zero time, which is written but counts as no value when read again. C140_numbers_refuted: a whole number in a string beyond 2^53 is written exactly and read rounded. C140_default_refuted: defaults are not converted to the type of the property, but the output is when it is read again. Missing: schemas with transforms, defaults of arrays and objects, and other types (null, objects without properties)."
  },
  {
   "property": "C141",
   "status": "partial",
   "theorems": [
    "JT.C141_partial",
    "JT.C141_refuted"
   ],
   "note": "Proved for schemas without transforms whose instances are arrays, objects with properties, booleans, numbers and strings, and in which only scalars have defaults. C141_refuted: objects without properties are copied with their nulls, so that the outputs differ. Missing: schemas with transforms, and defaults of arrays and objects."
  },
  {
   "property": "C142",
   "status": "partial",
   "theorems": [
    "JT.C142_partial",
    "JT.C142_field_partial",
    "JT.C142_refuted"
   ],
   "note": "Proved for schemas without transforms in which only scalars have defaults, for items and properties that are objects with properties. C142_refuted: with transforms, paths from the root are looked up in the list and not in its documents. Missing: transforms with paths relative to the instance, and defaults of arrays and objects."
  },
  {
   "property": "C15",
   "status": "partial",
   "theorems": [
    "JT.C15_partial",
    "JT.C15_refuted",
    "JT.C15_iff"
   ],
   "note": "Proved when some number is positive; refuted when none is. C15_iff says exactly when max gives which value, for every array."
  },
  {
   "property": "C16",
   "status": "partial",
   "theorems": [
    "JT.C16_partial",
    "JT.durationStr_clock",
    "JT.C16_refuted",
    "JT.C16_iff"
   ],
   "note": "Proved while the number of seconds fits in 64 bits; refuted beyond (wraps around). C16_iff: right iff the seconds are below 2^63."
  },
  {
   "property": "C17",
   "status": "proved",
   "theorems": [
    "JT.C17",
    "JT.initOp_iff"
   ],
   "note": "for all schemas, identifiers and operations"
  },
  {
   "property": "C18",
   "status": "proved",
   "theorems": [
    "JT.C18",
    "JT.C18_other"
   ],
   "note": "for all strings and separators"
  },
  {
   "property": "C19",
   "status": "proved",
   "theorems": [
    "JT.C19"
   ],
   "note": "upper, lower and title casing are parameters that map characters one by one"
  },
  {
   "property": "C20",
   "status": "partial",
   "theorems": [
    "JT.C20_partial",
    "JT.C20_refuted"
   ],
   "note": "A schema with '@' paths gives the same Transformer as the schema with those paths written out, for plain property names (no dots and brackets), if both builds walk the properties in the same order. C20_refuted: with a dot in the name of a property '@' stands for the path up to that dot."
  },
  {
   "property": "C21",
   "status": "partial",
   "theorems": [
    "JT.C21_partial",
    "JT.C21_ctx",
    "JT.itemsLoop_congr",
    "JT.C21_refuted"
   ],
   "note": "Property names without '$', '.' and '['; paths made of names, [*] and possibly a final bracket that is not an index. C21_partial is about the nodes of the Transformer and the modifiers the engine gives them, C21_ctx about the contexts of the direct semantics the engine is proved to compute. Missing: other names and paths. C21_refuted: a path that names the array twice, as in a filter, keeps the second [*]."
  },
  {
   "property": "C22",
   "status": "partial",
   "theorems": [
    "JT.C22_partial",
    "JT.C22_nil",
    "JT.C22_succeeds",
    "JT.C22_statement_savePath",
    "JT.C22_refuted_conflict",
    "JT.C22_refuted_merge",
    "JT.C22_refuted_padding"
   ],
   "note": "Full read-back and frame statement is false (three refutations: type conflict in arrays, merge over objects, null padding); the partial theorem states exactly what is stored and what every other place reads, for all paths of names and indices and all unshared documents."
  },
  {
   "property": "C23",
   "status": "proved",
   "theorems": [
    "JT.C23",
    "JT.C23_merged",
    "JT.C23_nested"
   ],
   "note": ""
  },
  {
   "property": "C24",
   "status": "proved",
   "theorems": [
    "JT.C24",
    "JT.C24_reads"
   ],
   "note": "NewTransformer gives one node per instance of the schema, with the type, default and transform in the document. C24_reads states this with a reading of the document that is independent of the model (Spec/Decode). Names of properties must be plain (not empty, no dots, no opening brackets)."
  },
  {
   "property": "C25",
   "status": "proved",
   "theorems": [
    "JT.C25",
    "JT.C25_reject",
    "JT.C25_fail"
   ],
   "note": ""
  },
  {
   "property": "C26",
   "status": "proved",
   "theorems": [
    "JT.C26",
    "JT.C26_conv"
   ],
   "note": ""
  },
  {
   "property": "C27",
   "status": "proved",
   "theorems": [
    "JT.C27"
   ],
   "note": ""
  },
  {
   "property": "C28",
   "status": "proved",
   "theorems": [
    "JT.C28_string",
    "JT.C28_scalar",
    "JT.C28_default"
   ],
   "note": "The XPath engine is a parameter; the theorems assume that the matches with child elements and the leaf matches together are all matches."
  },
  {
   "property": "C29",
   "status": "proved",
   "theorems": [
    "JT.C29"
   ],
   "note": ""
  },
  {
   "property": "C30",
   "status": "partial",
   "theorems": [
    "JT.C30_partial",
    "JT.C30_refuted",
    "JT.C30_refuted_max"
   ],
   "note": "Proved for every input, history and iteration order over calm schemas (no max, plain names, no array defaults/transforms inside array items), any library behaviour (for XML: XPath library that does not itself panic). The unrestricted statement is false: two refutations with concrete schemas that panic."
  },
  {
   "property": "C31",
   "status": "partial",
   "theorems": [
    "JT.C31_raw_partial",
    "JT.C31_inst_partial",
    "JT.C31_refuted"
   ],
   "note": "For schemas with distinct, non-empty property names per object. C31_refuted: for a property with the empty name the function gets the path of the enclosing object."
  },
  {
   "property": "C32",
   "status": "proved",
   "theorems": [
    "JT.C32_raw",
    "JT.C32_inst"
   ],
   "note": "For every schema, any walk function and any schedule of map iterations, no condition on names."
  },
  {
   "property": "C33",
   "status": "proved",
   "theorems": [
    "JT.C33",
    "JT.C33_walks"
   ],
   "note": "instances must decode and have a type"
  },
  {
   "property": "C34",
   "status": "proved",
   "theorems": [
    "JT.C34",
    "JT.C34_sorted"
   ],
   "note": "For every pair of maps (nil parent included) and every iteration order."
  },
  {
   "property": "C35",
   "status": "proved",
   "theorems": [
    "JT.C35",
    "JT.C35_doc"
   ],
   "note": "Every document that decodes, any number of allOf/oneOf entries, every iteration order."
  },
  {
   "property": "C36",
   "status": "partial",
   "theorems": [
    "JT.C36_partial",
    "JT.C36_refuted"
   ],
   "note": "Own properties are kept and exactly the first allOf entry is used when there are none; the claim about all allOf entries is false (refuted)."
  },
  {
   "property": "C37",
   "status": "proved",
   "theorems": [
    "JT.C37",
    "JT.baseName_total",
    "JT.baseName_unique"
   ],
   "note": "Base names are specified by a relation on reference strings shown total and functional."
  },
  {
   "property": "C38",
   "status": "proved",
   "theorems": [
    "JT.C38"
   ],
   "note": "Model of dereference with a bound on the number of passes; whenever it succeeds no reference is left. References inside arrays nested directly in arrays are not references for findRefs (see C42)."
  },
  {
   "property": "C39",
   "status": "proved",
   "theorems": [
    "JT.C39",
    "JT.C39_idempotent"
   ],
   "note": ""
  },
  {
   "property": "C40",
   "status": "partial",
   "theorems": [
    "JT.C40_partial",
    "JT.C40_code",
    "JT.C40_refuted",
    "JT.C40_root"
   ],
   "note": "C40_statement is refuted: strings with escape sequences beside the reference are encoded twice (C40_refuted), and a reference at the root is dropped without its target (C40_root). C40_partial proves it otherwise, with the rest of the document unchanged; C40_code says exactly what the code does in all cases below the root."
  },
  {
   "property": "C41",
   "status": "partial",
   "theorems": [
    "JT.C41_partial",
    "JT.C41_refuted",
    "JT.C41_circular"
   ],
   "note": "C41_statement is refuted: a definition referring to itself is resolved again and again (C41_refuted). C41_partial proves termination for every document whose references can be ranked (Dershowitz-Manna order on the multiset of ranks), in the model of one document with settled other files; circularity across files is C45. C41_circular: the converse, if references that stand alone form a circle the document is never dereferenced, whatever else it has; a key beside a reference can cut a circle open (C41Circle.lean), so there the conditions differ."
  },
  {
   "property": "C42",
   "status": "proved",
   "theorems": [
    "JT.C42"
   ],
   "note": ""
  },
  {
   "property": "C43",
   "status": "proved",
   "theorems": [
    "JT.C43",
    "JT.C43_agree"
   ],
   "note": "Transition system for any number of goroutines, any programs and nondeterministic builders; singleflight.Group.Do modelled from its documentation."
  },
  {
   "property": "C44",
   "status": "proved",
   "theorems": [
    "JT.C44",
    "JT.C44_nothing",
    "JT.C44_retry"
   ],
   "note": "A failed load is due to a build that failed during the load; nothing is stored; the next load builds again."
  },
  {
   "property": "C45",
   "status": "partial",
   "theorems": [
    "JT.C45_partial",
    "JT.C45_refuted",
    "JT.C45_circular"
   ],
   "note": "Progress and termination under every schedule if references between keys are not circular; refuted for circular ones (a load waits for itself). C100 states for any references that ending alone, under one schedule and under all schedules are the same. C45_circular: the converse, if the builder of each of some keys needs one of these keys, nothing that needs them ever gets a value, under any schedule."
  },
  {
   "property": "C46",
   "status": "partial",
   "theorems": [
    "JT.C46_partial",
    "JT.C46_refuted",
    "JT.C46_iff"
   ],
   "note": "Injective if no type name (or no path) contains a bar; not injective in general. C46_iff says exactly which requests share a key."
  },
  {
   "property": "C47",
   "status": "partial",
   "theorems": [
    "JT.C47_partial",
    "JT.C47_total",
    "JT.C47_refuted"
   ],
   "note": "Type names in lists must not be the empty string: C47_refuted shows that an empty name in a list is ignored. C47_total (no panic) has no condition."
  },
  {
   "property": "C48",
   "status": "proved",
   "theorems": [
    "JT.C48"
   ],
   "note": "arbitrary other fields"
  },
  {
   "property": "C49",
   "status": "proved",
   "theorems": [
    "JT.C49",
    "JT.C49_total"
   ],
   "note": "Resolution succeeds exactly with the object at the named keys of the named document. absRef, load and http stand for filepath, SchemaFromFile and HTTP."
  },
  {
   "property": "C50",
   "status": "proved",
   "theorems": [
    "JT.C50"
   ],
   "note": "Every document and iteration order."
  },
  {
   "property": "C51",
   "status": "partial",
   "theorems": [
    "JT.C51_partial",
    "JT.C51_near",
    "JT.C51_order",
    "JT.C51_exact",
    "JT.C51_refuted",
    "JT.C51_refuted_zero",
    "JT.C51_iff"
   ],
   "note": "Avro times: exact within the range of 64-bit nanoseconds; refuted outside of it and for the zero time. C51_iff says exactly for which times it is the number of milliseconds rounded down."
  },
  {
   "property": "C52",
   "status": "partial",
   "theorems": [
    "JT.C52_slice",
    "JT.C52_optional",
    "JT.C52_partial",
    "JT.C52_refuted",
    "JT.C52_iff"
   ],
   "note": "Optional times and slices of times; refuted for slices of optional times with nil elements. C52_iff says exactly which times are told like an absent one."
  },
  {
   "property": "C53",
   "status": "partial",
   "theorems": [
    "JT.C53_partial",
    "JT.C53_only",
    "JT.C53_unknown",
    "JT.C53_refuted_array"
   ],
   "note": "Go types of all fields with known types; nullability of arrays and items is mixed up."
  },
  {
   "property": "C54",
   "status": "partial",
   "theorems": [
    "JT.C54_partial",
    "JT.C54_order",
    "JT.C54_refuted",
    "JT.C54_refuted_order",
    "JT.C54_iff"
   ],
   "note": "Complete, ordered and independent of map order if Go names in a struct differ; refuted otherwise. C54_iff: complete and in order iff the names differ."
  },
  {
   "property": "C55",
   "status": "partial",
   "theorems": [
    "JT.C55_partial",
    "JT.C55_depth",
    "JT.C55_refuted"
   ],
   "note": "The import is there iff a written line needs it, for inline structs and different Go names; refuted for clashing names."
  },
  {
   "property": "C56",
   "status": "partial",
   "theorems": [
    "JT.C56_partial",
    "JT.C56_unique",
    "JT.C56_flat_partial",
    "JT.C56_refuted",
    "JT.C56_flat_refuted"
   ],
   "note": "One field per property for any walk order, both with inline structs and (given distinct struct names) with one struct per object; refuted for arrays of arrays and for clashing struct names without nesting."
  },
  {
   "property": "C57",
   "status": "partial",
   "theorems": [
    "JT.C57_partial",
    "JT.C57_tag",
    "JT.C57_refuted",
    "JT.C57_iff"
   ],
   "note": "Tag and options; refuted for times that are not pointers. C57_iff: right iff the field is not an optional time without pointer."
  },
  {
   "property": "C58",
   "status": "partial",
   "theorems": [
    "JT.Go.C58_partial",
    "JT.Go.C58_refuted",
    "JT.Go.C58_refuted_empty",
    "JT.Go.C58_refuted_again",
    "JT.Go.C58_refuted_type",
    "JT.Go.C58_refuted_quote",
    "JT.Go.C58_refuted_package"
   ],
   "note": "Proved: the Avro schema text is in the JSON grammar whenever no name or doc needs escaping beyond what Go's quoting shares with JSON, every embedded struct lists at least one new field, and a struct's last field is not excluded. Missing: it is false in general; the refutations give struct declarations whose schema text is not JSON (two commas, a dangling comma, a missing type, a Go escape)."
  },
  {
   "property": "C59",
   "status": "partial",
   "theorems": [
    "JT.Go.C59_partial",
    "JT.Go.C59_pointer",
    "JT.Go.C59_scalar",
    "JT.Go.C59_time",
    "JT.Go.C59_array",
    "JT.Go.C59_map",
    "JT.Go.C59_struct",
    "JT.Go.C59_optional",
    "JT.Go.C59_refuted",
    "JT.Go.C59_refuted_pointer"
   ],
   "note": "Proved: every supported type gets the Avro type of the table and optional scalars, times and structs become unions with null. Missing: an optional list is not made a union, and a pointer to a list is not supported (refutations)."
  },
  {
   "property": "C60",
   "status": "proved",
   "theorems": [
    "JT.Bulk.C60",
    "JT.Bulk.C60_order",
    "JT.Bulk.C60_complete",
    "JT.Bulk.C60_reported",
    "JT.Bulk.C60_last",
    "JT.Bulk.C60_stops",
    "JT.Bulk.C60_progress",
    "JT.Bulk.C60_terminates",
    "JT.Bulk.C60_finishes",
    "JT.Bulk.C60_blocked"
   ],
   "note": "Transition system of the goroutine and its user with every interleaving and any failing call. C60_blocked: a user who goes on sending after an error waits forever."
  },
  {
   "property": "C61",
   "status": "proved",
   "theorems": [
    "JT.Go.C61",
    "JT.Go.C61_own",
    "JT.Go.C61_has",
    "JT.Go.C61_total",
    "JT.Go.C61_circular"
   ],
   "note": "Own fields win over fields of embedded structs, every field reachable by embedding is mapped, mapping ends exactly when the embedding is not circular."
  },
  {
   "property": "C62",
   "status": "partial",
   "theorems": [
    "JT.C62_scalar",
    "JT.C62_scalar_values",
    "JT.C62_time",
    "JT.C62_named",
    "JT.C62_list",
    "JT.C62_syntax",
    "JT.C62_refuted",
    "JT.C62_refuted_time",
    "JT.C62_refuted_syntax"
   ],
   "note": "Exact GraphQL types of scalars, times, named types and lists for all fields, and their syntax. Refuted as first stated: required scalars that may be null are not null in GraphQL, required times may be null, and lists of looked-up items with a required name get text that is not a type."
  },
  {
   "property": "C63",
   "status": "partial",
   "theorems": [
    "JT.C63_total",
    "JT.C63_partial",
    "JT.C63_refuted",
    "JT.C63_refuted_clash"
   ],
   "note": "Lists always get a non-null integer total; nullability of lists as written. Refuted: required lists that may be null are not null, and a property named like a total is replaced."
  },
  {
   "property": "C64",
   "status": "proved",
   "theorems": [
    "JT.C64",
    "JT.C64_total",
    "JT.C64_error"
   ],
   "note": "Rename flags."
  },
  {
   "property": "C65",
   "status": "partial",
   "theorems": [
    "JT.Gen.C65_partial",
    "JT.Gen.C65_others",
    "JT.Gen.C65_refuted",
    "JT.Gen.file_inj",
    "JT.Gen.resolve_base"
   ],
   "note": "One file per entry, nothing else changed, for schema files with different base names. Refuted for entries with the same base name: they share a file, and the second struct replaces the first. Avro, MessagePack and GraphQL files are not part of the model of BuildStructs."
  },
  {
   "property": "C66",
   "status": "partial",
   "theorems": [
    "JT.C66_partial",
    "JT.C66_refuted",
    "JT.C66_refuted_root",
    "JT.C66_exact",
    "JT.C66_iff"
   ],
   "note": "Names on a path; refuted for arrays of arrays and arrays at the root. C66_exact: the names that come out for any path; C66_iff: right iff no array is directly in an array or at the root."
  },
  {
   "property": "C67",
   "status": "proved",
   "theorems": [
    "JT.C67",
    "JT.C67_schedule"
   ],
   "note": "Builders are deterministic functions of the results of their loads (files do not change)."
  },
  {
   "property": "C68",
   "status": "partial",
   "theorems": [
    "JT.Go.C68_partial",
    "JT.Go.C68_refuted"
   ],
   "note": "Proved when embedded structs embed nothing themselves. Missing: with deeper embedding the statement is false; a deeper field of an earlier embedded struct hides a shallower field of a later one (refutation)."
  },
  {
   "property": "C69",
   "status": "partial",
   "theorems": [
    "JT.C69_partial",
    "JT.C69_refuted"
   ],
   "note": "For schemas whose objects have distinct, free names and whose instances have one type besides null; references across files are not covered; inline objects are C99. Refuted without the condition that objects get different names: of two objects with the same name one has no type."
  },
  {
   "property": "C70",
   "status": "partial",
   "theorems": [
    "JT.C70_partial",
    "JT.C70_refuted",
    "JT.C70_refuted_name",
    "JT.C70_refuted_leak"
   ],
   "note": "Proved for entries that do not redefine fields of the interface. Refuted in general: a redefined field, a directory with another name, and allOf fields that leak to later entries."
  },
  {
   "property": "C71",
   "status": "partial",
   "theorems": [
    "JT.C71_partial",
    "JT.C71_refuted"
   ],
   "note": "Under the conditions of C69_partial. Refuted without the condition that objects get different names: the type of a field may be left out."
  },
  {
   "property": "C72",
   "status": "partial",
   "theorems": [
    "JT.C72_scalar",
    "JT.C72_object",
    "JT.C72_time_partial",
    "JT.C72_elements_partial",
    "JT.C72_element_objects",
    "JT.C72_refuted",
    "JT.C72_refuted_elements"
   ],
   "note": "An equivalence for scalars, for objects and for the elements of lists of objects, unless the property may be null although it is required or there are no pointers; refuted otherwise. Times may always be null in GraphQL, so that only one direction holds for them. The elements of lists of scalars are never null in GraphQL and pointers in Go exactly if the list may be null, which refutes the claim for such lists."
  },
  {
   "property": "C73",
   "status": "partial",
   "theorems": [
    "JT.Gen.C73_partial",
    "JT.Gen.C73_refuted"
   ],
   "note": "Proved if the names given for structs are exported, EmbedAllOf is off, and every embedded struct has a field. Refuted otherwise: a struct without fields is not written, and a name that is not exported is embedded as it is but declared with an upper case letter."
  },
  {
   "property": "C74",
   "status": "partial",
   "theorems": [
    "JT.Gen.C74_partial",
    "JT.Gen.C74_refuted",
    "JT.Gen.C74_exact",
    "JT.Gen.C74_iff"
   ],
   "note": "Proved for absolute paths and names without directories. Refuted for other relative paths: the directory is put in front twice. C74_exact: exactly which file is read for any relative path without superfluous parts; C74_iff: the right one iff the path has as many directories as '..'."
  },
  {
   "property": "C75",
   "status": "partial",
   "theorems": [
    "JT.Go.C75_partial",
    "JT.Go.C75_nil",
    "JT.Go.C75_missing",
    "JT.Go.C75_refuted_nil",
    "JT.Go.C75_refuted_twice",
    "JT.Go.C75_refuted_null",
    "JT.Go.C75_refuted_meta",
    "JT.Go.C75_refuted_reserved",
    "JT.Go.C75_refuted_guard",
    "JT.Go.C75_refuted_list",
    "JT.Go.C75_refuted_embedded"
   ],
   "note": "Proved for a Go semantics of the written expressions (types and values): the conversion is generated, type checks and represents every field, to any depth of structs, lists and maps of the same types, if the field types belong together, no name is reserved or starts with Avro, and no two lists of structs have the same struct and record. Missing: it is false in general; each refutation is a struct for which the code panics, does not compile, loses a value or is not generated."
  },
  {
   "property": "C76",
   "status": "partial",
   "theorems": [
    "JT.GoJson.C76_partial",
    "JT.GoJson.C76_refuted",
    "JT.GoJson.C76_refuted_integer",
    "JT.GoJson.C76_refuted_free",
    "JT.GoJson.C76_refuted_item",
    "JT.GoJson.C76_refuted_case",
    "JT.GoJson.C76_refuted_time"
   ],
   "note": "Proved from the text that is written: it declares a struct (read by a specification of the field lines and json tags) such that every document goes through unmarshalling and marshalling, to any depth, except that optional properties with blank values may be lost; for documents whose integers are written as such, without null list entries, without other than strings in free-form objects, without keys that differ from a property only in case, and with the optional times that have no pointer. Inline structs, no embedded structs. Missing: it is false in general; each refutation is a valid document that is rejected or changed. C95 says the same of the Go source text, and with NoNestedStructs."
  },
  {
   "property": "C77",
   "status": "partial",
   "theorems": [
    "JT.C77_partial",
    "JT.C77_items",
    "JT.C77_refuted"
   ],
   "note": "Proved for schemas whose objects have no default and that do not use method last and currentTime: the output is the validated rendering of the unique value that the relational semantics gives to the schema on the root node. Missing: object defaults, for which it is false (C77_refuted: the default map is shared by all items of an array and written to), and method last (the order of the instructions is reversed again on each use)."
  },
  {
   "property": "C78",
   "status": "partial",
   "theorems": [
    "JT.Go.C78_partial",
    "JT.Go.C78_refuted"
   ],
   "note": "Proved with the hypotheses of C75 about the structs, for every message, write time and failure of the Avro library. Missing: the structs for which the conversion is wrong (the refutations of C75). C78_refuted: with a nil entry in a list of pointers to structs both methods panic after the header has been written."
  },
  {
   "property": "C79",
   "status": "partial",
   "theorems": [
    "JT.C79_partial",
    "JT.C79_refuted",
    "JT.isCall_exists",
    "JT.C79_arrays_partial"
   ],
   "note": "Proved for every number of calls, every interleaving, any iteration orders and library behaviour, JSON and XML: executions are finite, never stuck, the Transformer is unchanged and each result is that of the call alone; for schemas without array and object defaults and without method last. Missing: those features, for which it is false (C79_refuted: two calls, method last). With array defaults under the conditions of C02_arrays_partial: C79_arrays_partial."
  },
  {
   "property": "C80",
   "status": "partial",
   "theorems": [
    "JT.Go.C80_partial",
    "JT.Go.C80_json_partial",
    "JT.Go.C80_options_partial",
    "JT.Go.C80_refuted",
    "JT.Go.C80_refuted_dash",
    "JT.Go.C80_refuted_comma",
    "JT.Go.C80_refuted_description"
   ],
   "note": "Proved for names and descriptions that need no escapes: what the Avro generator finds in the tag (names without comma), exactly which names encoding/json uses as keys (C80_json_partial, an equivalence), and which options it finds. C80_statement is false in general: names with an apostrophe or a comma, the required property '-', descriptions with quotes or backslashes. Missing: what happens with names and descriptions that have quotes, backslashes, backquotes or line breaks."
  },
  {
   "property": "C81",
   "status": "partial",
   "theorems": [
    "JT.Go.C81_partial",
    "JT.Go.C81_unique",
    "JT.Go.C81_refuted",
    "JT.Go.C81_refuted_null",
    "JT.Go.C81_refuted_object"
   ],
   "note": "Proved for inline structs without embedding and the schemas of C76 (names usable in tags, one type each, no lists of lists), for every walk order and depth: the text of the Avro schema file, read from the written Go lines, is that of the record asked for, which is unique (C81_unique). The claim about null is proved for properties that are not required, except objects that may not be null; it is refuted for properties that are required and may be null, and for optional objects. Missing: NoNestedStructs (see C104), embedded structs, names and descriptions that need escapes."
  },
  {
   "property": "C82",
   "status": "proved",
   "theorems": [
    "JT.C82",
    "JT.C82_runs",
    "JT.C82_unique",
    "JT.C82_code",
    "JT.C82_refuted"
   ],
   "note": "For every list of arguments: C82 is that calls are only made as asked, C82_runs that they are made whenever asked, C82_unique that a command line asks for one call, C82_code is the exit code. filepath.Abs and the generator are parameters. C82_refuted: an option after the path of the schema is not an option; it is taken as the output directory, without an error."
  },
  {
   "property": "C83",
   "status": "partial",
   "theorems": [
    "JT.Go.C83_partial",
    "JT.Go.C83_refuted"
   ],
   "note": "Proved for all schemas as in C81 whose properties can be carried over: null only for times and objects that are not required and for lists of times or objects (in lists of objects for nothing), no lists of maps of strings (the generator fails on these), names that are the same on both sides, and different names for the records. C83_refuted: a required text that may be null; its conversion does not compile. What gogen-avro makes of an Avro schema is a specification (Spec/AvroGo)."
  },
  {
   "property": "C84",
   "status": "partial",
   "theorems": [
    "JT.Go.C84_file_partial",
    "JT.Go.C84_dir_partial",
    "JT.Go.C84_generated_partial",
    "JT.Go.C84_schema_partial",
    "JT.Go.C84_none",
    "JT.Go.C84_order",
    "JT.Go.C84_sound",
    "JT.Go.C84_total",
    "JT.Go.C84_refuted",
    "JT.Go.C84_file_iff",
    "JT.Go.C84_fields"
   ],
   "note": "Proved: a struct is found in a file or a directory with one package if it is declared once, on its own, and nothing before it in its file is called like it or has a field that is; otherwise, with no or several declarations or packages in a directory, an error; the order of the files does not matter; what is found under the name is what is declared; no panics; and for schemas as in C81 the root struct is found and the Avro schema written. C84_refuted: in a generated file where an earlier struct has a field called like the struct, that other struct is taken, reduced to the field. C84_file_iff: in a file that declares the type once the condition is also necessary."
  },
  {
   "property": "C85",
   "status": "partial",
   "theorems": [
    "JT.Gen.C85_partial",
    "JT.Gen.C85_avro",
    "JT.Gen.C85_others",
    "JT.Gen.C85_off",
    "JT.Gen.C85_rename",
    "JT.Gen.C85_refuted"
   ],
   "note": "Proved: without the options the result is that of C65; with them, if it succeeds, all files but the extra ones are as without; whatever happens nothing but struct files and extra files is touched; with Avro every struct has its files, made from files in which the struct and those before it are as written. Missing: base names ending in _avro, _avro_test, _msgp or _msgp_test, for which C85_refuted shows that the helper code of one struct replaces another struct; equal base names (C65_refuted); struct names with dots or slashes. What the libraries (gogen-avro, msgp) write is a parameter."
  },
  {
   "property": "C86",
   "status": "partial",
   "theorems": [
    "JT.GoJson.C86_partial",
    "JT.GoJson.C86_apart",
    "JT.GoJson.C86_refuted"
   ],
   "note": "C86_partial: the struct goes through json for the joined properties of all schemas, as in C76, where a property of the schema itself hides that of an embedded struct and a property counts as required if the schema that provides it requires it. C86_apart: the statement for every schema by itself if the schema shares no property with the others. C86_refuted: the full statement is false, a required property that two embedded structs have is lost. Missing: properties that two of the other schemas have, structs that embed structs which embed others. C102 has the same from the text of the files that BuildStructs writes."
  },
  {
   "property": "C87",
   "status": "partial",
   "theorems": [
    "JT.Go.C87_partial",
    "JT.Go.C87_hidden",
    "JT.Go.C87_refuted",
    "JT.Go.C87_missing"
   ],
   "note": "Proved for any number of embedded structs if the last field of each is none of the struct itself, with the embedded structs embedding none and objects inline (no NoNestedStructs). C87_hidden is the exact text if all fields of an embedded struct are hidden: it has two commas one after the other, so it is no JSON; C87_refuted refutes the full statement with it. Parsing of Go files is that of C84. C87_missing: without a file for an embedded struct the schema has an entry without a name."
  },
  {
   "property": "C88",
   "status": "partial",
   "theorems": [
    "JT.C88_partial",
    "JT.C88_refuted",
    "JT.schemaOfDoc_sched",
    "JT.C88_circular"
   ],
   "note": "Proved for files whose references to other files can be ranked, whose references inside each file can be ranked (as in C41), with distinct keys and no references in arrays directly inside arrays (findRefs does not search those), network documents without references, and type names without '|' (C46). Refuted for files that refer to each other (C88_refuted: the load waits for itself). Cached values range over schemas without references; that every builder exists for these shows that nothing is left out. Strings are raw text. C88_circular: the converse, if each of some files refers to one of them (by references that stand alone), no load of one of them ever gives a schema."
  },
  {
   "property": "C89",
   "status": "partial",
   "theorems": [
    "JT.C89_text",
    "JT.C89_partial",
    "JT.C89_refuted",
    "JT.C89_refuted_name",
    "JT.C89_refuted_empty"
   ],
   "note": "JT.C89_text: for any types that can be written, the file reads as exactly these definitions and no others. C89_partial: from a schema without allOf/oneOf entries, under the conditions of C69_partial and that names, descriptions and given types can be written. Refuted in general: descriptions with backslashes, property names with hyphens and schemas without properties give files that are not GraphQL. Schemas with allOf and oneOf entries: C90."
  },
  {
   "property": "C90",
   "status": "partial",
   "theorems": [
    "JT.C90_partial",
    "JT.files_types",
    "JT.C90_refuted"
   ],
   "note": "The conditions are that the properties of the entries go together, those of C69_partial for each entry, that the types can be written, that oneOf entries have no embedded allOf entries of their own, and that files are different; C90_refuted shows that a oneOf entry with the name of the schema overwrites the interface."
  },
  {
   "property": "C91",
   "status": "partial",
   "theorems": [
    "JT.C91_accepts_partial",
    "JT.C91_partial",
    "JT.C91_refuted"
   ],
   "note": "For all schemas whose property names are distinct, not empty and without dots and brackets: NewTransformer succeeds iff the schema is acceptable (C91_accepts_partial), and if moreover no instruction is null it returns an error for all others (C91_partial). C91_refuted: a property below one with a dot in its name makes NewTransformer panic, and so does null in place of an instruction."
  },
  {
   "property": "C92",
   "status": "partial",
   "theorems": [
    "JT.C92_dereference",
    "JT.Gen.C92_structs_partial",
    "JT.Gql.C92_graphql_partial",
    "JT.Gen.C92_build_partial",
    "JT.Gen.C92_all_partial",
    "JT.C92_refuted",
    "JT.C92_refuted_graphql",
    "JT.Go.C92_avro_partial",
    "JT.Go.C92_schema_partial"
   ],
   "note": "No panic: resolving references (all documents); inline structs if no property name has a dot and no object is also of type graphql-hydration; structs of their own and GraphQL types if no property at the top is called $ or has an empty name; the commands, if these conditions hold for the schemas read and the tools for Avro, MessagePack and files do not panic. The refutations show a name with a dot, items that are hydrated objects, and a property called $ or without a name crash the generators. For the Avro files: the schema is always written, and the conversion is written or an error returned, if the structs and Avro types are not circular (C92Avro.lean shows that circular ones never end)."
  },
  {
   "property": "C93",
   "status": "partial",
   "theorems": [
    "JT.GoText.C93_partial",
    "JT.GoText.C93_unique",
    "JT.GoText.C93_struct",
    "JT.GoText.C93_refuted"
   ],
   "note": "For inline structs with embedded ones, with names that are Go names and descriptions and JSON names without characters that Go forbids in tags or comments. C93_unique: the grammar is unambiguous. C93_struct: the schema determines the fields. C93_refuted: a backquote in a description breaks the file; C93.lean also shows that the comment of a list of GraphQL-only items stays and is then about the next property. Structs of their own for nested objects (NoNestedStructs): C94. Missing: format.Source."
  },
  {
   "property": "C94",
   "status": "partial",
   "theorems": [
    "JT.GoText.C94_partial",
    "JT.GoText.C94_unique",
    "JT.GoText.C94_closed",
    "JT.GoText.C94_refuted"
   ],
   "note": "For schemas in which the objects get different struct names, with names and texts that Go allows, and without pointers to objects that have no properties. C94_unique: the schema asks for one file only, so the file does not depend on the order of walking. C94_closed: each type is declared once and each used type is declared. C94_refuted: with pointers, an object without properties gets a pointer to a struct that is not declared, so the file does not compile."
  },
  {
   "property": "C95",
   "status": "partial",
   "theorems": [
    "JT.GoText.C95_partial",
    "JT.GoText.C95_unique",
    "JT.GoText.C95_refuted"
   ],
   "note": "For schemas whose files C93 or C94 cover, without embedded structs. Optional properties with blank values may be lost, and numbers and times are taken in the form that Go writes (the conditions of C76). C95_unique: the text declares one struct of the name. C95_refuted: 1.0 is a valid integer and is refused by a field of type int64."
  },
  {
   "property": "C96",
   "status": "proved",
   "theorems": [
    "JT.C96",
    "JT.C96_inverse",
    "JT.C96_twice",
    "JT.Gives.unique"
   ],
   "note": "Regular expressions, time formats, float texts, case changes, sanitizing and unescaping are library functions that the theorem takes as given. The other operations are C15, C16, C18 and C19."
  },
  {
   "property": "C97",
   "status": "proved",
   "theorems": [
    "JT.Document.C97",
    "JT.Document.C97_load",
    "JT.Document.C97_types",
    "JT.Document.C97_same",
    "JT.Document.C97_refuted_top"
   ],
   "note": "Keys that differ from a known key only in case, and keys that occur twice, are outside of the model. C97_refuted_top: an encoded schema with additionalProperties false, read at the top of a file, is read as true, since false is not written."
  },
  {
   "property": "C98",
   "status": "partial",
   "theorems": [
    "JT.C98_partial",
    "JT.C98_refuted"
   ],
   "note": "Proved for schemas with plain property names whose objects have no default and, for JSON input, no transform of their own; on XML input an entry of an array may be a scalar, or anything if the array has a default. In general false (C98_refuted): the default of an object is part of the output with its nulls."
  },
  {
   "property": "C99",
   "status": "partial",
   "theorems": [
    "JT.C99_partial",
    "JT.C99_inline",
    "JT.C99_refuted",
    "JT.C99_refuted_crash",
    "JT.C99_files_partial",
    "JT.C99_files_refuted",
    "JT.inlineFiles_own"
   ],
   "note": "Proved for all schemas, with allOf and oneOf entries, in which no property or item is an object: the same files are written, or both modes fail alike (C99_files_partial). Otherwise it is false (C99_files_refuted): whatever the fields of the root are, if one of them is an object with properties that is written inline the file is not GraphQL (C99_inline, for schemas without entries), and a list whose name has a dot makes the generator crash."
  }
 ]
}