{"id": "C01", "title": "Transform is independent of earlier calls", "statement": "Calling Transform on one Transformer gives, for a given input document, the same result (output bytes or error) no matter how many and which documents were transformed before with the same Transformer.", "quantifier": "every schema, every finite history of earlier Transform calls, every input document", "why_tests_cant": "The state that leaks (instruction order of method 'last', shared default maps) only shows up after particular histories; tests run one call per Transformer.", "anchors": ["transform/transformer.go:Transformer.Transform", "transform/transform.go:transformInstructions.transform", "transform/instance.go:objectTransformer.transform"]}
{"id": "C02", "title": "Concurrent Transform calls do not write shared state", "statement": "A Transform call only writes memory created for that call (the decoded input and values allocated while it runs); it never writes to memory reachable from the Transformer, so calls on the same Transformer from several goroutines cannot interfere.", "quantifier": "every schema, every input document, every reachable Transformer state, every map iteration order", "why_tests_cant": "Data races depend on goroutine interleavings; a race detector only sees executed schedules.", "anchors": ["transform/transformer.go:saveInTree", "transform/transformer.go:saveInSlice", "transform/transform.go:transformInstructions.transform"]}
{"id": "C03", "title": "Output does not depend on Go map iteration order", "statement": "For a given schema and input, Transform produces the same output document whatever order Go chooses for iterating over the children of each object.", "quantifier": "every schema, every input, every sequence of map iteration orders", "why_tests_cant": "Go randomises map order; each test run samples a single order and an order-dependent output may pass for a long time.", "anchors": ["transform/instance.go:objectTransformer.transform", "transform/transformer.go:saveInTree"]}
{"id": "C04", "title": "A schema without transforms or defaults acts as a projection", "statement": "If no instance in the schema has a transform or default, then the output contains exactly the schema-described parts of the input: scalars converted to their schema type, arrays item by item, objects property by property, and nothing else.", "quantifier": "every transform-free schema of any depth, every input document", "why_tests_cant": "The claim is about every nesting of arrays and objects; tests have a fixed set of fixtures.", "anchors": ["transform/transformer.go:Transformer.Transform", "transform/instance.go"]}
{"id": "C05", "title": "Scalar value precedence", "statement": "The value of a scalar instance is the first available of: its transform result, the input value at the same path converted to the schema type, its default; a transform result is used only if non-nil, and if none is available the property is absent.", "quantifier": "every scalar instance, every input, every combination of present or absent sources", "why_tests_cant": "Interaction of three optional sources, any of which may fail, for all values.", "anchors": ["transform/instance.go:scalarTransformer.transform"]}
{"id": "C06", "title": "Array value precedence", "statement": "The base value of an array instance is the first available of: transform result, input value at the same path, the array default, else nil; a non-array base value is wrapped into a one-element array; the result has one entry per base entry whose item transforms to a non-nil value, in order.", "quantifier": "every array instance, every input, any array length", "why_tests_cant": "Holds for all lengths and all item transformers.", "anchors": ["transform/instance.go:arrayTransformer.baseValue", "transform/instance.go:arrayTransformer.transform"]}
{"id": "C07", "title": "Properties without a value are omitted", "statement": "An object instance whose children are all absent or empty is omitted from its parent (nil result); no output object produced from child instances contains a nil child value, and an empty array result is not stored as a value of its parent when nothing produced it.", "quantifier": "every object schema and input", "why_tests_cant": "Depends on emptiness at all nesting depths.", "anchors": ["transform/instance.go:objectTransformer.transform", "transform/transformer.go:saveInTree"]}
{"id": "C08", "title": "Method first returns the first non-nil instruction", "statement": "With no method or method 'first', the transform result is the value of the first instruction (in document order) that yields a non-nil value; later instructions are not evaluated; if all yield nil the result is nil; an error of an earlier instruction aborts.", "quantifier": "every list of instructions, every input", "why_tests_cant": "Unbounded list of instructions and values.", "anchors": ["transform/transform.go:transformInstructions.transform"]}
{"id": "C09", "title": "Method last returns the last non-nil instruction", "statement": "With method 'last', every call returns the value of the last instruction (document order) yielding a non-nil value.", "quantifier": "every list of instructions, every input, every number of previous evaluations", "why_tests_cant": "The list is reversed in place at each evaluation, so the answer depends on the parity of earlier evaluations; single-call tests see only the first.", "anchors": ["transform/transform.go:transformInstructions.transform"]}
{"id": "C10", "title": "Method concatenate joins all non-nil values in order", "statement": "With method 'concatenate', the result combines the non-nil values of all instructions in document order: strings are joined with the delimiter placed only between non-empty parts, a single non-nil value of any type is returned as it is, and two or more non-nil values that are not all strings are an error.", "quantifier": "every list of instructions and values", "why_tests_cant": "Fold over unbounded list, all type combinations.", "anchors": ["transform/utils.go:concat", "transform/transform.go:transformInstructions.transform"]}
{"id": "C11", "title": "Conversion yields the schema type or nothing", "statement": "Whenever converting a raw value to a scalar schema type succeeds with a non-nil value, the value has the Go representation of that type: boolean -> bool, string -> string, number/integer -> a numeric value, date-time -> time.", "quantifier": "every raw value and schema type", "why_tests_cant": "Universally quantified over all JSON values.", "anchors": ["transform/utils.go:convert", "transform/utils.go:convertNumber", "transform/utils.go:convertBoolean", "transform/utils.go:convertDateTime", "transform/utils.go:convertString"]}
{"id": "C12", "title": "Conversion is idempotent", "statement": "Converting an already converted value to the same type again gives the same value.", "quantifier": "every raw value and schema type", "why_tests_cant": "Needs all values, including those produced by the first conversion that no JSON document can contain.", "anchors": ["transform/utils.go:convert"]}
{"id": "C13", "title": "Unwrapping of arrays by conversion", "statement": "Converting a non-empty array to a non-array type converts its first element, unwrapping nested arrays at any depth; an empty array gives no value. Converting an array to type array keeps all its elements.", "quantifier": "every array value of any length and nesting", "why_tests_cant": "All lengths and nestings.", "anchors": ["transform/utils.go:convert"]}
{"id": "C14", "title": "Operation chains fail cleanly", "statement": "Running the operations of one instruction on any value either yields a value or an error; operations run left to right, each on its predecessor's result, and the first error aborts the chain. No value makes an operation panic.", "quantifier": "every operation list with valid arguments and every input value", "why_tests_cant": "All value shapes for every operation and composition.", "anchors": ["transform/transform.go:transformInstruction.jsonTransform", "transform/operations.go"]}
{"id": "C15", "title": "max selects an entry with the greatest key", "statement": "max by a path returns an entry of the input array for which the numeric value at the path is the greatest among entries that have one; with ties the first.", "quantifier": "every array and key path", "why_tests_cant": "All arrays, including all-negative ones.", "anchors": ["transform/operations.go:max.transform"]}
{"id": "C16", "title": "duration parses clock strings", "statement": "duration maps 'H:M:S', 'M:S' or ':S' strings of decimal digits to the number of seconds 3600H+60M+S, and rejects every other string.", "quantifier": "every string", "why_tests_cant": "All strings; the accepted set is defined by a regular expression with lazy and greedy groups.", "anchors": ["transform/operations.go:duration.transform"]}
{"id": "C17", "title": "Operation arguments are checked at load time", "statement": "If a Transformer can be created, then every operation in the schema's transforms is a known one and, if it takes arguments, has exactly the arguments it needs with valid values (to is lower or upper, regex compiles); so none is missing at transform time. An operation meeting this is never the reason for a failure. Operations that take no arguments ignore any given.", "quantifier": "every argument map and operation", "why_tests_cant": "All argument maps.", "anchors": ["transform/operations.go:requiredArgs", "transform/transform.go:transformInstruction.UnmarshalJSON"]}
{"id": "C18", "title": "split cuts at every separator", "statement": "split on a string returns the pieces between separator occurrences; joining them with the separator gives the input back and no piece contains the separator.", "quantifier": "every input string and non-empty separator", "why_tests_cant": "All strings.", "anchors": ["transform/operations.go:split.transform"]}
{"id": "C19", "title": "toCamelCase", "statement": "toCamelCase lower-cases the first piece, title-cases the others and joins them without the delimiter; with a one-character delimiter that is not a letter the result contains no delimiter and has the input's remaining characters up to case, in order.", "quantifier": "every input string and delimiter", "why_tests_cant": "All strings.", "anchors": ["transform/operations.go:toCamelCase.transform"]}
{"id": "C20", "title": "'@' paths resolve relative to the instance", "statement": "A transform path starting with '@' behaves exactly as if the path of the enclosing object had been written in its place; other paths are unchanged.", "quantifier": "every schema path and instruction path", "why_tests_cant": "All nestings of object and array paths.", "anchors": ["transform/transform.go:transformInstructions.replaceJSONPathPrefix"]}
{"id": "C21", "title": "Array item paths use the item's own index at every level", "statement": "While the item with indices i1,...,in of nested arrays is transformed, every '[*]' of an enclosing array in the paths of its instances and instructions denotes that item's index at that level.", "quantifier": "every nesting depth and all indices", "why_tests_cant": "Unbounded nesting and index values.", "anchors": ["transform/instance.go:pathReplace", "transform/instance.go:arrayTransformer.transform"]}
{"id": "C22", "title": "Saving a value at a path: read-back and frame", "statement": "After saving a non-nil value at a path succeeds, reading the path gives that value, and reading any path that neither extends nor is a prefix of it gives what it gave before; saving nil changes nothing.", "quantifier": "every document, path and value", "why_tests_cant": "All trees and paths.", "anchors": ["transform/transformer.go:saveInTree", "transform/transformer.go:saveLeaf"]}
{"id": "C23", "title": "Saving in a slice extends it as needed", "statement": "Saving at index i of an array leaves other entries as they were, makes the length at least i+1, padding the entries in between with null; saving an object over an object keeps the keys the new one lacks.", "quantifier": "every slice, index and value", "why_tests_cant": "All lengths and indices.", "anchors": ["transform/transformer.go:saveInSlice"]}
{"id": "C24", "title": "NewTransformer mirrors the schema", "statement": "For every schema whose property names contain no path metacharacters, the Transformer has exactly one node per schema instance, at the same position, with the instance's type, default and transform for the chosen transform identifier.", "quantifier": "every schema of any depth, every property order", "why_tests_cant": "Nodes are found by splitting path strings; holds only if this inverts path construction for all names and depths.", "anchors": ["transform/transformer.go:newTransformer", "transform/transformer.go:walker", "transform/transformer.go:findParent", "transform/instance.go:objectTransformer.addChild"]}
{"id": "C25", "title": "Transform only returns validated documents", "statement": "If Transform returns a document without error, the schema validator accepted exactly that document; TransformNoValidation returns the same document whenever Transform succeeds.", "quantifier": "every schema, input and validator", "why_tests_cant": "All inputs.", "anchors": ["transform/transformer.go:Transformer.Transform", "transform/transformer.go:Transformer.TransformNoValidation"]}
{"id": "C26", "title": "Malformed input is an error", "statement": "If the input bytes do not parse in the transformer's input format, Transform returns an error and no document and the Transformer is unchanged.", "quantifier": "every malformed input", "why_tests_cant": "All inputs.", "anchors": ["transform/transformer.go:Transformer.jsonTransform", "transform/transformer.go:Transformer.xmlTransform"]}
{"id": "C27", "title": "XML: objects without source are skipped", "statement": "In XML mode an object instance with a transform that matches no node yields its default or no value, without evaluating its children; if the transform matches, the children are evaluated against the first matched node; without a transform its children are evaluated against the whole input.", "quantifier": "every schema and XML document", "why_tests_cant": "All documents.", "anchors": ["transform/instance.go:objectTransformer.xmlTransform"]}
{"id": "C28", "title": "XML: scalar from several nodes", "statement": "In XML mode an instruction of a string instance gives the texts of all nodes its path matches, in document order and separated by blanks; for another scalar type it gives the text of the first match converted to that type; the value then goes through the operations in order; no match gives no value. A scalar instance has the value of its transform, and its default if there is none.", "quantifier": "every document and path", "why_tests_cant": "All documents.", "anchors": ["transform/transform.go:transformInstruction.xmlTransform"]}
{"id": "C29", "title": "XML: arrays", "statement": "In XML mode an array instance yields one item per matched node, in document order, each item evaluated against that node.", "quantifier": "every document and array schema", "why_tests_cant": "All documents.", "anchors": ["transform/instance.go:arrayTransformer.xmlTransform"]}
{"id": "C30", "title": "Transform never panics", "statement": "Transform returns a document or an error for every input document; it never panics.", "quantifier": "every schema accepted by NewTransformer, every JSON input", "why_tests_cant": "All inputs; panics come from unchecked type assertions on unexpected input shapes.", "anchors": ["transform/transformer.go:saveInTree", "transform/transformer.go:saveLeaf", "transform/transformer.go:saveInSlice", "transform/operations.go:max.transform"]}
{"id": "C31", "title": "Walk visits every instance exactly once", "statement": "Walk and WalkRaw call the function exactly once for every instance of the schema below the root, with its JSONPath, each object or array before its descendants.", "quantifier": "every schema of any depth and every map iteration order", "why_tests_cant": "All schemas and orders.", "anchors": ["jsonschema/walk.go:Walk", "jsonschema/walk.go:WalkRaw"]}
{"id": "C32", "title": "Walk stops at the first error", "statement": "If the walk function returns an error, Walk returns an error and never calls the function again; if it returns nil error every call succeeded.", "quantifier": "every schema, function and position of failure", "why_tests_cant": "All failure positions.", "anchors": ["jsonschema/walk.go:walkInstance", "jsonschema/walk.go:walkRaw"]}
{"id": "C33", "title": "Walk and WalkRaw agree", "statement": "On schemas whose instances can be decoded and have a type with at most one name other than null, and whose property names are distinct and not empty, Walk and WalkRaw visit the same set of paths and fail on the same schemas.", "quantifier": "every such schema", "why_tests_cant": "All schemas.", "anchors": ["jsonschema/walk.go:walkInstance", "jsonschema/walk.go:walkRaw", "jsonschema/schema.go:FieldType"]}
{"id": "C34", "title": "Merging properties never overrides the parent", "statement": "Merging allOf/oneOf properties keeps every parent property unchanged and adds exactly the child's properties with new names.", "quantifier": "every pair of property maps", "why_tests_cant": "All maps.", "anchors": ["jsonschema/schema.go:mergeProperties"]}
{"id": "C35", "title": "Flattened schemas contain all allOf properties, earliest wins", "statement": "SchemaFromFile yields every property of the root and of each allOf entry; a name defined more than once takes the definition of the earliest of root, allOf entries in order, selected oneOf; required is the concatenation in that order; items is the first one present.", "quantifier": "every list of allOf/oneOf entries", "why_tests_cant": "All lists.", "anchors": ["jsonschema/schema.go:schemaFromFile"]}
{"id": "C36", "title": "NoFlatten merges allOf only if the root has no properties", "statement": "SchemaFromFileNoFlatten leaves the properties of a schema with own properties as they are (up to the selected oneOf), and merges the allOf entries if it has none of its own.", "quantifier": "every schema", "why_tests_cant": "All allOf lists.", "anchors": ["jsonschema/schema.go:SchemaFromFileNoFlatten"]}
{"id": "C37", "title": "oneOf selection", "statement": "A oneOf entry contributes to the schema iff the base name of its reference up to the first dot equals the requested oneOfType.", "quantifier": "every list of oneOf references and type name", "why_tests_cant": "All reference strings.", "anchors": ["jsonschema/schema.go:schemaFromFile"]}
{"id": "C38", "title": "Dereferencing leaves no reference", "statement": "If dereferencing succeeds, the resulting document contains no '$ref' string entry the reference finder can see, at any depth.", "quantifier": "every document and resolver", "why_tests_cant": "All documents.", "anchors": ["jsonschema/reference.go:dereference"]}
{"id": "C39", "title": "Dereferencing a reference-free document changes nothing", "statement": "A document without references is returned unchanged; dereferencing twice is the same as once.", "quantifier": "every document", "why_tests_cant": "All documents.", "anchors": ["jsonschema/reference.go:dereference"]}
{"id": "C40", "title": "Keys beside a $ref override the referenced ones", "statement": "After resolving a reference in an object, a key that was present beside '$ref' keeps its value and every other key comes from the referenced object, plus 'fromRef'.", "quantifier": "every referencing and referenced object", "why_tests_cant": "All objects; string values are re-encoded.", "anchors": ["jsonschema/reference.go:dereference", "jsonschema/reference.go:resolveRef"]}
{"id": "C41", "title": "Dereferencing terminates", "statement": "Loading a schema terminates, with an error for circular references.", "quantifier": "every document", "why_tests_cant": "Non-termination can not be observed by a finite test; circularity can be of any length.", "anchors": ["jsonschema/reference.go:dereference", "jsonschema/reference.go:resolveRef"]}
{"id": "C42", "title": "References are found completely and soundly", "statement": "The reference finder returns exactly the locations of string-valued '$ref' keys in objects reachable through objects and arrays of objects.", "quantifier": "every document", "why_tests_cant": "All documents.", "anchors": ["jsonschema/reference.go:findRefs"]}
{"id": "C43", "title": "Cache builds once and all loads agree", "statement": "In any concurrent use of the schema cache, at most one build per key is running at any time, no build of a key starts after a successful one, and all successful loads of the same key return the same value, the one stored.", "quantifier": "any number of goroutines, every interleaving, every build outcome", "why_tests_cant": "All interleavings.", "anchors": ["jsonschema/cache.go:Cache.Load"]}
{"id": "C44", "title": "Failed builds are not cached", "statement": "A failed build stores nothing: it makes only the loads waiting on it fail, and a later load of the key runs the builder again.", "quantifier": "every interleaving and build outcome", "why_tests_cant": "All interleavings.", "anchors": ["jsonschema/cache.go:Cache.Load"]}
{"id": "C45", "title": "Schema loading does not deadlock", "statement": "If file references are acyclic, concurrent loads always make progress and terminate; loading a file that (indirectly) refers to itself through another file does not hang.", "quantifier": "every reference graph, any number of goroutines, every interleaving", "why_tests_cant": "Deadlock freedom is about all interleavings and graphs.", "anchors": ["jsonschema/cache.go:Cache.Load", "jsonschema/schema.go:schemaFromFile", "jsonschema/reference.go:resolveRef"]}
{"id": "C46", "title": "Schemas are cached under unambiguous keys", "statement": "Two loads with different absolute path, oneOfType or flatten flag never share a cache entry.", "quantifier": "all path and type strings", "why_tests_cant": "All strings.", "anchors": ["jsonschema/schema.go:schemaFromFile"]}
{"id": "C47", "title": "FieldType", "statement": "FieldType returns the unique non-null type name of an instance (none if only null is listed) and whether 'null' is listed; it fails exactly if several non-null types are listed or the type is missing or neither string nor array.", "quantifier": "every type value", "why_tests_cant": "All type lists.", "anchors": ["jsonschema/schema.go:FieldType"]}
{"id": "C48", "title": "type given as string or one-element array is the same", "statement": "An instance whose type is the string t is read exactly as one whose type is [t].", "quantifier": "every instance and type string", "why_tests_cant": "All instances.", "anchors": ["jsonschema/schema.go:Instance.UnmarshalJSON"]}
{"id": "C49", "title": "Reference strings are split at the first '#'", "statement": "A reference 'file#/a/b' names keys a, b in file; no '#' means the entire file; an empty file part means the current document.", "quantifier": "every reference string", "why_tests_cant": "All strings.", "anchors": ["jsonschema/reference.go:resolveRef"]}
{"id": "C50", "title": "SchemaTypes", "statement": "SchemaTypes lists the allOf and oneOf references in document order and exactly the property names in sorted order.", "quantifier": "every schema and map order", "why_tests_cant": "All schemas and orders.", "anchors": ["jsonschema/schema.go:SchemaTypes"]}
{"id": "C51", "title": "Avro timestamps", "statement": "AvroTime gives the milliseconds since the epoch of a time rounded down, preserves order, and is exact on whole milliseconds.", "quantifier": "every time", "why_tests_cant": "All times, including before 1970 and far future.", "anchors": ["generate/avro.go:AvroTime"]}
{"id": "C52", "title": "Avro optional times and slices", "statement": "AvroTimeSlice maps entry by entry; AvroOptionalTime distinguishes absence from every time; AvroOptionalTimeSlice keeps one entry per non-nil time, in order.", "quantifier": "every slice", "why_tests_cant": "All slices.", "anchors": ["generate/avro.go"]}
{"id": "C53", "title": "Go type of a field", "statement": "The Go type chosen for a JSON type depends only on type, array-ness, requiredness and the pointer option, and unknown types make generation fail/yield the documented fallback.", "quantifier": "every combination of type string and flags", "why_tests_cant": "All strings.", "anchors": ["generate/struct.go:goType"]}
{"id": "C54", "title": "Generated fields are sorted and complete", "statement": "The generator emits each extracted field exactly once, in order of its exported Go name.", "quantifier": "every set of field names and every map order", "why_tests_cant": "All maps and orders.", "anchors": ["generate/struct.go:extractedFields.Sorted"]}
{"id": "C55", "title": "time import iff a date-time field is generated", "statement": "A generated file imports time iff some field at any depth has type date-time.", "quantifier": "every field tree", "why_tests_cant": "All depths.", "anchors": ["generate/struct.go:extractedFields.IncludeTime"]}
{"id": "C56", "title": "Every schema property gets its struct field", "statement": "After walking a schema the extracted field tree has exactly one field per property at the same nesting, arrays marked as arrays, whatever the walk order.", "quantifier": "every schema and walk order", "why_tests_cant": "All schemas and orders.", "anchors": ["generate/struct.go:addField"]}
{"id": "C57", "title": "omitempty/omitzero exactly on optional fields", "statement": "A field's JSON tag carries omitempty or omitzero iff the field is not required, omitzero exactly for structs and non-pointer times.", "quantifier": "every field and option combination", "why_tests_cant": "All combinations over all field trees.", "anchors": ["generate/struct.go:extractedField.write"]}
{"id": "C58", "title": "Generated Avro schema is well-formed JSON", "statement": "The Avro schema text generated for a struct is a valid JSON document.", "quantifier": "every struct tree", "why_tests_cant": "All struct trees.", "anchors": ["generate/avro.go"]}
{"id": "C59", "title": "Avro type mapping", "statement": "Each Go field type is mapped to the documented Avro type, optional fields to a union with null first.", "quantifier": "every field type", "why_tests_cant": "All types.", "anchors": ["generate/avro.go"]}
{"id": "C60", "title": "Bulk writer protocol", "statement": "A generated bulk Avro writer reports at most one error, closes the error channel exactly when done, and writes the records received before the first failure in order.", "quantifier": "every sequence of records and failure positions, every interleaving", "why_tests_cant": "All interleavings.", "anchors": ["generate/avro_template.go"]}
{"id": "C61", "title": "Embedded structs: own fields win", "statement": "A field declared in a struct takes precedence over one of the same name from an embedded struct; among embedded structs the first wins.", "quantifier": "every struct with embedded structs", "why_tests_cant": "All field lists.", "anchors": ["generate/avro_helpers.go"]}
{"id": "C62", "title": "GraphQL type names", "statement": "graphqlType maps each scalar JSON type to its GraphQL scalar and adds '!' exactly for required or non-nullable fields.", "quantifier": "every field and flag combination", "why_tests_cant": "All combinations.", "anchors": ["generate/graphql.go"]}
{"id": "C63", "title": "GraphQL arrays get a total field", "statement": "For each array property of objects the generated GraphQL type has a companion integer field total<Name>, and array nullability follows the schema.", "quantifier": "every field tree", "why_tests_cant": "All schemas.", "anchors": ["generate/graphql.go"]}
{"id": "C64", "title": "Rename flags", "statement": "Setting a rename flag with k1=v1,...,kn=vn makes each ki map to vi, later pairs winning, values may contain '='; a malformed pair is an error.", "quantifier": "every flag string", "why_tests_cant": "All strings.", "anchors": ["main.go:mapFlags.Set"]}
{"id": "C65", "title": "Files generated for a schema", "statement": "If BuildStructs succeeds, it has written exactly one Go file for each allOf and oneOf entry of the schema, and one for the schema itself if it has properties or neither allOf nor oneOf entries; each is named after its schema file, and the structs of oneOf entries embed the structs of all the others. No other file is changed, whether it succeeds or fails.", "quantifier": "every schema, option set, file system content and order of map iteration", "why_tests_cant": "All schemas.", "anchors": ["generate/generate.go:BuildStructsWithArgs", "generate/generate.go:buildStructFile", "jsonschema/schema.go:SchemaTypes"]}
{"id": "C66", "title": "JSONPath splitting inverts path construction", "statement": "Splitting the JSONPath that the walker built for an instance gives back the property names leading to it.", "quantifier": "every list of names without path metacharacters", "why_tests_cant": "All names and depths.", "anchors": ["generate/struct.go:splitJSONPath", "jsonschema/walk.go:prependJSONPath"]}
{"id": "C67", "title": "Concurrent cached loads give the sequential results", "statement": "If building a schema depends only on the files and on the schemas it loads, then every load through the cache, under every interleaving of goroutines, returns exactly what building without a cache in a single goroutine returns, errors included; so the results do not depend on the schedule.", "quantifier": "all sets of goroutines and programs, all nestings of loads, all schedules", "why_tests_cant": "It ranges over all interleavings and nestings; the race detector and unit tests see a handful.", "anchors": ["jsonschema/cache.go: Cache.Load", "jsonschema/schema.go: schemaFromFile"]}
{"id": "C68", "title": "Generated accessors name the field Go selects", "statement": "The field of a message that the Avro writer generator uses for a name is the field that the Go selector z.<name> denotes in the generated struct, embedded structs included.", "quantifier": "every set of generated struct declarations, every nesting of embedded structs", "why_tests_cant": "All shapes of embedding.", "anchors": ["generate/avro_helpers.go:mapFields", "generate/avro.go"]}
{"id": "C69", "title": "GraphQL types have a field per property", "statement": "The GraphQL file generated for a schema has one type per object with properties that is not looked up elsewhere, and each type has exactly one field per property of the object, plus one non-null integer total per list, whatever order the properties are visited in.", "quantifier": "every schema, every iteration order of Go maps, every set of options", "why_tests_cant": "All nestings of objects and lists, all map iteration orders.", "anchors": ["generate/graphql.go:newGraphQLFile", "generate/graphql.go:addField", "generate/graphql.go:walkFunc"]}
{"id": "C70", "title": "GraphQL types implement the interface they declare", "statement": "When a schema with oneOf becomes a GraphQL interface, each type generated for a oneOf entry names that interface and repeats each of its fields with a type that GraphQL accepts for it.", "quantifier": "every schema with oneOf, every set of oneOf entries, every iteration order of Go maps", "why_tests_cant": "All schemas and combinations of fields.", "anchors": ["generate/graphql.go:BuildGraphQLFile", "generate/graphql.go:graphqlType"]}
{"id": "C71", "title": "GraphQL fields name types that exist", "statement": "Each field of a generated GraphQL type has the type of a leaf of the schema, Any, the type that the schema says it is looked up in, or a type that the same file defines.", "quantifier": "every schema, every nesting, every iteration order of Go maps", "why_tests_cant": "All nestings of objects and lists and all renamings.", "anchors": ["generate/graphql.go:newGraphQLFile", "generate/graphql.go:walkFunc"]}
{"id": "C72", "title": "Go and GraphQL agree on what may be null", "statement": "With the same options, a property has a non-null GraphQL type iff its generated Go type is not a pointer, so that a resolver never returns nil for a non-null field.", "quantifier": "every property of every schema, every set of options", "why_tests_cant": "All combinations of type, nullability, required names and options.", "anchors": ["generate/graphql.go:graphqlType", "generate/struct.go:goType"]}
{"id": "C73", "title": "Embedded structs are declared", "statement": "Every struct that a generated struct embeds is declared, under that name, in one of the files generated with it.", "quantifier": "every schema and option set", "why_tests_cant": "Whether a package compiles depends on names, renaming and the fields of every file of the schema.", "anchors": ["generate/generate.go:BuildStructsWithArgs", "generate/struct.go:newGeneratedGoFile", "generate/struct.go:write"]}
{"id": "C74", "title": "GraphQL types come from the schema asked for", "statement": "With GenerateGraphQL, the file that is read for the GraphQL types is the schema given as SchemaPath.", "quantifier": "every schema path", "why_tests_cant": "Paths are absolute, relative, with or without directories; tests use a few.", "anchors": ["generate/graphql.go:buildGraphQLFile", "generate/generate.go:BuildStructsWithArgs"]}
{"id": "C75", "title": "Generated conversion to Avro compiles and carries the values over", "statement": "The convertToAvro method that the generator writes for a struct compiles, and for every message it returns a record that has, besides the write time, one value for each field of the Avro struct, which represents the value of the message's field of that name: scalars unchanged, times in milliseconds, nested structs as records, lists entry by entry, and null exactly for nil pointers.", "quantifier": "every set of generated struct declarations and Avro structs whose field types belong together, to any depth, and every message", "why_tests_cant": "All struct trees and all values.", "anchors": ["generate/avro_helpers.go:generateFields", "generate/avro_helpers.go:generateFieldValue", "generate/avro_helpers.go:generateStructValue", "generate/avro_helpers.go:generateChildStruct", "generate/avro_template.go"]}
{"id": "C76", "title": "Documents of the schema go through the generated struct", "statement": "A JSON object that is valid for the schema can be unmarshalled into the struct that is generated for the schema, and marshalling the result gives an object with the same values for the properties that the schema lists and no others.", "quantifier": "every schema whose property names can be used as Go names and in tags, to any depth of objects and lists, every setting for pointers and description tags, every order of walking the schema, and every document that is valid for it", "why_tests_cant": "All schemas and all documents.", "anchors": ["generate/struct.go:write", "generate/struct.go:goType", "generate/struct.go:addField", "generate/generate.go:BuildStructs"]}
{"id": "C77", "title": "Output for an XML input", "statement": "On an XML document, Transform gives the schema evaluated on the document: a scalar is its transform or else its default, an array has one item per node found (evaluated relative to that node), an object with a transform is evaluated on the first node found and absent if none is, absent values are left out; a document that is not XML is an error.", "quantifier": "every schema with plain property names, every XML document, every behaviour of the XPath library, every map iteration order", "why_tests_cant": "All schemas, documents and iteration orders.", "anchors": ["transform/transformer.go:Transform", "transform/transformer.go:baseXMLTransform", "transform/instance.go:arrayTransformXML", "transform/instance.go:objectTransformXML", "transform/instance.go:transformScalarXML", "transform/transform.go:xmlTransform"]}
{"id": "C78", "title": "Writing one message to an Avro container file", "statement": "The generated WriteAvroCF and WriteAvroDeletedCF write exactly one record and complete the file, or return an error; the record has every field of the message, the given write time (the current time if it is zero), and is marked as deleted by WriteAvroDeletedCF only; on a nil message they return an error and write nothing.", "quantifier": "every generated struct with its Avro struct, every message, every write time, every failure of the Avro library", "why_tests_cant": "All messages, structs and points of failure.", "anchors": ["generate/avro_template.go:WriteAvroCF", "generate/avro_template.go:WriteAvroDeletedCF", "generate/avro_helpers.go:AvroCFWriter", "generate/avro_helpers.go:AvroCFDeleter"]}
{"id": "C79", "title": "Concurrent Transform calls return what they return alone", "statement": "When several goroutines call Transform on one Transformer at the same time, then under every interleaving of their accesses to memory all calls return, each returns what it returns when it runs alone, and the Transformer is unchanged.", "quantifier": "every schema, every number of calls, every input document, every interleaving of single reads, writes and allocations, every map iteration order in each call", "why_tests_cant": "All schedules of all numbers of goroutines.", "anchors": ["transform/transformer.go:Transform", "transform/transform.go:transformInstructions.transform", "transform/instance.go:arrayTransformer", "transform/instance.go:objectTransformer"]}
{"id": "C80", "title": "Struct tags carry the names of the schema", "statement": "The tag written for a field of a generated struct makes encoding/json use the property's name as key, and the Avro generator finds in it the property's name, the first line of its description (if descriptions are put in tags), and whether the field has omitempty.", "quantifier": "every property name, every description, required or not, with and without descriptions in tags, every kind of field", "why_tests_cant": "All strings as names and descriptions.", "anchors": ["generate/struct.go:extractedField.write", "generate/avro.go:parseStructTag"]}
{"id": "C81", "title": "The generated Avro schema has the properties of the JSON schema", "statement": "The Avro schema generated from the struct that is generated from a JSON schema is a record with exactly one field for each property (besides those for GraphQL only), in the order of the Go names, with the property's name, the first line of its description if descriptions are put in tags, and the Avro type for its JSON type, at every depth; the type allows null (booleans: has a default; lists and maps: may be empty) if the property is optional or may be null.", "quantifier": "every JSON schema with usable property names, every walk order, with and without pointers and descriptions in tags, any depth of objects and lists of objects", "why_tests_cant": "All schemas, and two generators with Go source text between them.", "anchors": ["generate/avro.go:buildAvroSchemaFile", "generate/avro.go:writeAvroFields", "generate/avro.go:convertToAvroType", "generate/avro.go:parseStructTag", "generate/struct.go:extractedField.write", "generate/struct.go:newGeneratedGoFile"]}
{"id": "C82", "title": "The command runs the generator as its arguments ask", "statement": "The command calls the generator exactly if the arguments are known options with usable values, followed by the path of a schema and perhaps an output directory, and there is an import path if Avro or GraphQL is asked for; each setting is then the value of the last option for it, or its default, and each rename map has all pairs given, later ones winning. It calls it at most once. The exit code is 0 exactly if the call succeeded, or help was asked for.", "quantifier": "every list of arguments, every outcome of resolving paths and of the generator", "why_tests_cant": "Unboundedly many command lines: options in any number, order and spelling, with any values.", "anchors": ["main.go:main", "main.go:mapFlags.Set", "generate/generate.go:BuildArgs"]}
{"id": "C83", "title": "Messages of a JSON schema arrive in Avro", "statement": "For a JSON schema, the Go struct generated from it, the Avro schema generated from the struct, the Avro structs that gogen-avro makes of that schema and the generated conversion go together: the conversion is generated and compiles, and it makes of every message a record with the write time and exactly one field for each property, which represents the value that the message has for the property, at every depth.", "quantifier": "every JSON schema whose names come out the same on both sides, every walk order and order of map iteration, with and without pointers and descriptions in tags, every message and write time", "why_tests_cant": "All schemas and all messages, through three generators with Go source text and an Avro schema between them.", "anchors": ["generate/avro.go:buildAvroSerializationFunctions", "generate/avro.go:buildAvroSchemaFile", "generate/avro.go:buildAvro", "generate/avro_helpers.go:generateFields", "generate/struct.go:newGeneratedGoFile"]}
{"id": "C84", "title": "The Avro generator works on the struct it is asked for", "statement": "Given a Go file or a directory with one package, the Avro generator finds the declaration of the named struct if it is declared there exactly once, reports an error if it is declared nowhere or more than once, and never takes another one; the order in which files are visited makes no difference. For a schema, the struct is found in the file generated for it, and the Avro schema that C81 describes is written to the file in the same directory that is called like the struct, in lower case.", "quantifier": "every Go file and package, every struct name, every order of the files; for the last part every schema as in C81", "why_tests_cant": "Which declarations a filter by name leaves depends on all other declarations of the package, of which there can be any number.", "anchors": ["generate/avro.go:parseGoStruct", "generate/avro.go:filterPackage", "generate/avro.go:buildAvroSchemaFile", "generate/avro_helpers.go:findStructFields", "generate/avro_helpers.go:structToFilename"]}
{"id": "C85", "title": "The options for GraphQL, Avro and MessagePack only add files", "statement": "BuildStructsWithArgs with any options writes the struct files it writes without them, with the same contents, and succeeds only if it does so without them; besides those it writes or changes only the GraphQL files in the GraphQL directory (the output directory, if none is given), the Avro schema, serialization and helper files named after each struct in lower case, and the two MessagePack files of the package. With Avro, when it succeeds, every struct has its Avro schema made from the struct as it was written, serialization code made from that schema, and helper code with tests. BuildStructs and BuildStructsRename are the same with fixed options.", "quantifier": "every combination of options, schema with any number of allOf and oneOf entries, directory, prior content of the disk, and behaviour of the code generation libraries", "why_tests_cant": "Whether two of the files collide depends on all names in the schema and on paths of any shape, and whether a step keeps what an earlier one wrote depends on all earlier steps.", "anchors": ["generate/generate.go:BuildStructsWithArgs", "generate/generate.go:BuildStructs", "generate/generate.go:BuildStructsRename", "generate/generate.go:buildAvro", "generate/generate.go:buildMessagePackFile", "generate/avro.go:buildAvroSerializationFunctions"]}
{"id": "C86", "title": "Documents go through structs that embed others", "statement": "If the struct generated for a schema embeds the structs generated for other schemas (those of its allOf entries, or the common ones of a oneOf entry), then every JSON document that all of these schemas describe can be unmarshalled into the struct, and marshalling it again gives a document that says the same about every property of every one of the schemas.", "quantifier": "every schema and every number of schemas whose structs it embeds, every walk order, every package that contains the generated files, every document", "why_tests_cant": "Which fields encoding/json sees depends on all names of all embedded structs, and a document can have any of the properties of any of the schemas with any values.", "anchors": ["generate/struct.go:newGeneratedGoFile", "generate/struct.go:generatedStruct.write", "generate/generate.go:BuildStructsWithArgs", "generate/generate.go:buildStructFile"]}
{"id": "C87", "title": "The Avro schema of a struct that embeds others has their fields", "statement": "For a struct generated from a schema that embeds structs generated from other schemas, each in the file called after it, the Avro schema file is a record with, for each embedded struct, the fields that its schema describes and the struct does not have itself, with the name of the embedded struct as their namespace, and then the fields that the schema itself describes.", "quantifier": "every schema and every number of schemas whose structs it embeds, every walk order, every property set, every directory", "why_tests_cant": "The text depends on all fields of all structs and on which of them hide others; any of them can break the separators of the rest.", "anchors": ["generate/avro.go:writeAvroFields", "generate/avro.go:writeEmbeddedStructFields", "generate/avro.go:buildAvroSchemaFile", "generate/avro_helpers.go:structToFilename"]}
{"id": "C88", "title": "Schemas spread over several files load to one result", "statement": "If schema files do not refer to each other in circles, every file has exactly one schema (or error) that is made from its contents with each reference replaced by what the referenced file loads as; no reference is left in it at any depth; and any number of concurrent loads, of any files with any options, through the shared cache, all end and return exactly that schema, whatever the scheduling and the order in which maps are iterated over.", "quantifier": "every set of files and references between and inside them, every set of programs that load schemas concurrently, every schedule, every map iteration order", "why_tests_cant": "The loads nest: building one schema loads others through the same cache while other goroutines do the same; the number of files, references, passes and interleavings is unbounded.", "anchors": ["jsonschema/schema.go:SchemaFromFile", "jsonschema/schema.go:SchemaFromFileNoFlatten", "jsonschema/schema.go:schemaFromFile", "jsonschema/reference.go:dereference", "jsonschema/reference.go:resolveRef", "jsonschema/cache.go:Load"]}
{"id": "C89", "title": "Generated GraphQL files are GraphQL and say what the schema says", "statement": "The text of a generated GraphQL schema file can be read by the grammar of the GraphQL language in exactly one way: it defines one type for each object of the JSON schema that is not looked up elsewhere, with its description, its name, the Go model, and one field for each property with the property's name, type, arguments, description and deprecation, plus one field for the length of each list, in an order that does not depend on map iteration.", "quantifier": "every schema (any number of properties, any depth, any texts), every set of options and name replacements, every map iteration order", "why_tests_cant": "Whether a text is GraphQL and what it means is a statement about all names, descriptions and nestings that may occur; tests compare a few files with expected texts.", "anchors": ["generate/graphql.go:buildGraphQLFile", "generate/graphql.go:newGeneratedGraphQLFile", "generate/graphql.go:write", "generate/graphql.go:graphqlType", "generate/graphql.go:addField"]}
{"id": "C90", "title": "GraphQL files of schemas with allOf and oneOf entries", "statement": "For a schema with allOf or oneOf entries, every generated GraphQL file can be read in exactly one way: one type has a field for each property of the allOf entries (an interface, if there are oneOf entries); for each oneOf entry there is a type that implements it and has fields for these properties and its own, with the types and required marks that the schemas give; there is one more type for each object below; and the definitions are in the file for the schema, or those of each oneOf entry in its own file, which is called after the schema and the entry.", "quantifier": "every number of allOf and oneOf entries with any properties, every set of options and name replacements, every map iteration order", "why_tests_cant": "The definitions of one file depend on all entries together, on which of them repeat properties and on how files and types are named; tests compare a few expected files.", "anchors": ["generate/graphql.go:buildGraphQLFile", "generate/graphql.go:newGeneratedGraphQLFile", "generate/graphql.go:write"]}
{"id": "C91", "title": "NewTransformer accepts exactly the schemas it can handle", "statement": "NewTransformer (and NewXMLTransformer) returns a Transformer if the schema has properties or items at the top but not both, every instance has a readable type (objects with properties, arrays with items), and for the identifier every transform is well formed: its instructions are objects with string paths and known operations that have their arguments, its method is known, its delimiter is a string, and defaults of arrays and objects are lists and objects. For every other schema it returns an error; it never panics.", "quantifier": "every schema document of any depth, every transform identifier, every map iteration order", "why_tests_cant": "Whether an instance is accepted depends on the whole document and on where in the tree it goes; tests try a few good and bad schemas.", "anchors": ["transform/transformer.go:newTransformer", "transform/transformer.go:walker", "transform/transformer.go:findParent", "transform/instance.go:newArrayTransformer", "transform/instance.go:newObjectTransformer", "transform/instance.go:newScalarTransformer", "transform/transform.go:UnmarshalJSON"]}
{"id": "C92", "title": "Generating files ends with files or an error, not with a panic", "statement": "Resolving references, loading a schema and building the Go structs and GraphQL types of it (BuildStructs, BuildStructsRename, BuildStructsWithArgs) never panics, whatever the schema files contain: anything that cannot be generated is reported as an error.", "quantifier": "every schema document of any depth, every set of options, every map iteration order, every outcome of reading and writing files", "why_tests_cant": "A panic needs an unusual combination of names and types somewhere in a document; tests use well-behaved schemas.", "anchors": ["generate/generate.go:BuildStructsWithArgs", "generate/struct.go:addField", "generate/struct.go:walkFunc", "generate/graphql.go:walkFunc", "generate/graphql.go:buildGraphQLFile", "jsonschema/reference.go:dereference"]}
{"id": "C93", "title": "The generated Go file is Go source that declares the struct for the schema", "statement": "The text that BuildStructs writes for a schema (before it is formatted) follows the Go syntax: it is a package clause with the given name, the comment that marks generated code, an import of time if and only if a field uses it, and one declaration of a struct that has the embedded structs and, in the order of their Go names, one field for each property that is not only for GraphQL, with its description as comment or in the tag, its Go name, the Go type for its JSON type at every depth, and a tag with its JSON name and options. The text cannot be read as any other declarations.", "quantifier": "every schema of any depth, every set of options, every package, struct and embedded name, every map iteration order", "why_tests_cant": "Whether a text is well formed depends on every name and description in the schema and on the nesting; tests compare a few files with expected ones.", "anchors": ["generate/struct.go:write", "generate/struct.go:goType", "generate/struct.go:structTag", "generate/struct.go:newGeneratedGoFile", "generate/struct.go:IncludeTime"]}
{"id": "C94", "title": "With structs of their own for objects, the generated Go file declares each struct once and every type it uses", "statement": "With the option NoNestedStructs, the text that BuildStructs writes for a schema (before it is formatted) is Go source that declares the struct for the schema and one struct for each object in it that has properties, named by the names on the way to the object, in the order of these names and each once. Each has one field per property that is not only for GraphQL, with the Go type for its JSON type, where the type for an object or a list of objects is that object's struct. Every type that a field uses is a type of the language, is declared in the file or is one of the embedded structs; time is imported if and only if it is used. The file is the same for every order in which the schema is walked.", "quantifier": "every schema of any depth whose objects get different Go names, every set of options besides NoNestedStructs, every package, struct and embedded name, every map iteration order", "why_tests_cant": "A type that is used and not declared shows only for the schemas that lead to it, and the order of walking is random; tests compare a few files with expected ones.", "anchors": ["generate/struct.go:newGeneratedGoFile", "generate/struct.go:walkFunc", "generate/struct.go:write", "generate/struct.go:goType", "generate/struct.go:structs"]}
{"id": "C95", "title": "Documents of a schema go through the types that the generated Go source declares", "statement": "The text that BuildStructs writes for a schema, with structs inside the schema's struct or with structs of their own for objects, is Go source in which the name of the schema's struct stands for one struct type. A JSON document that is valid for the schema can be decoded by encoding/json into that type, and encoding the result gives the document again, without the properties that the schema does not list.", "quantifier": "every schema of any depth whose names and texts Go allows, every set of options, with and without NoNestedStructs, every map iteration order, every valid document of any size", "why_tests_cant": "The declared types follow from the text by resolving names and reading tags, and a document is lost or refused only for some mix of types, required properties and values; tests unmarshal a few documents into committed generated structs.", "anchors": ["generate/struct.go:newGeneratedGoFile", "generate/struct.go:walkFunc", "generate/struct.go:write", "generate/struct.go:goType", "generate/struct.go:structs"]}
{"id": "C96", "title": "Operations on single values give the values they are named for", "statement": "changeCase, valueExists, inverse, replace, timeParse, currentTime, removeHTML, convertToFloat64, convertToInt64 and convertToBool give, for each value, exactly one result or an error, and the result is the one their names promise: convertToInt64 reads a text as a decimal number with an optional sign and refuses texts of numbers beyond 64 bits; convertToBool gives false for the zeros, the empty array and Go's texts for false; inverse flips; valueExists tells texts and node lists that are not empty; currentTime ignores its input; removeHTML gives the sanitized text without white space at both ends, each run of spaces half as long, rounded up, then unescaped. Values of other types are an error, never a crash. Converting twice is converting once, and flipping twice gives the value back.", "quantifier": "every operation on single values with every arguments, every value of every type, every text", "why_tests_cant": "The results are determined for all texts, numbers and types; tests try a few values per operation.", "anchors": ["transform/operations.go:changeCase", "transform/operations.go:valueExists", "transform/operations.go:inverse", "transform/operations.go:replace", "transform/operations.go:timeParse", "transform/operations.go:currentTime", "transform/operations.go:removeHTML", "transform/operations.go:convertToFloat64", "transform/operations.go:convertToInt64", "transform/operations.go:convertToBool"]}
{"id": "C97", "title": "Schema documents are read key by key", "statement": "A schema document is accepted exactly if each key that schemas know holds what it should: a text, a truth value, a list of texts, a list of schemas, an object, or for type one text or a list of texts; null is as good as missing. What is loaded says for each key what the document says; a missing additionalProperties counts as true at the top of a file and as false elsewhere. Loading adds only to the properties, the required names and the items. A schema that is put in the place of a reference is read there as the same schema.", "quantifier": "every JSON document, every oneOf type, flattened or not, every order of iteration over maps", "why_tests_cant": "All documents, including all those in which some key, at any depth of allOf, anyOf and oneOf, has a value of another type.", "anchors": ["jsonschema/schema.go:Instance", "jsonschema/schema.go:UnmarshalJSON", "jsonschema/schema.go:SchemaFromFile", "jsonschema/schema.go:SchemaTypes", "jsonschema/reference.go:resolveRef"]}
{"id": "C98", "title": "The output has the shape of the schema", "statement": "The output of every successful call is null or has the shape of the schema: where the schema has an object with properties, the output has an object with at least one property, only properties that the schema declares there, and no null; where the schema has an array, the output has a non-empty array without nulls; the same holds again for each property and each entry. This holds after any calls of the Transformer, with any transforms, methods, operations and defaults on scalars and arrays. Objects of the output never come from a default or from the input as they are.", "quantifier": "every schema, input document or text, format, order of iteration, and history of calls", "why_tests_cant": "All schemas and all inputs of any depth, including inputs with something else in the place of an object or array, and any number of calls before that may change shared memory.", "anchors": ["transform/instance.go:objectTransformer.transform", "transform/instance.go:arrayTransformer.transform", "transform/transformer.go:saveInTree", "transform/transformer.go:Transformer.Transform"]}
{"id": "C99", "title": "GraphQL does not depend on how Go structs are written", "statement": "The option that writes the structs of nested objects inline into the Go struct has no influence on the GraphQL file: for every schema the same GraphQL types are written with and without it, and they are GraphQL.", "quantifier": "all schemas, options, names and orders in which properties are visited", "why_tests_cant": "The two modes build the types in different ways, by a tree of fields and by a table of types; tests compare their outputs for a few schemas only, and the inline mode is not tested at all.", "anchors": ["generate/graphql.go: walkFunc", "generate/graphql.go: gqlExtractedField.addField", "generate/graphql.go: gqlExtractedField.write", "generate/graphql.go: generatedGraphQLObject.write", "main.go: nestedStructs"]}
{"id": "C100", "title": "Loads through the cache end exactly if each load ends on its own", "statement": "For goroutines that load schemas through one cache, where building a schema depends only on the files and on the schemas it loads, the following are equivalent: each goroutine ends when it runs alone and nothing is cached; under some interleaving all goroutines end; under every interleaving all goroutines end, that is no execution is infinite and none gets stuck. A goroutine that does not end alone does not end in company.", "quantifier": "all builders and sets of goroutines, all nestings of loads, also those that depend on the results of earlier ones, all schedules", "why_tests_cant": "Both directions range over all interleavings, and non-termination cannot be observed by a test.", "anchors": ["jsonschema/cache.go: Cache.Load", "jsonschema/schema.go: schemaFromFile", "jsonschema/reference.go: resolveRef"]}
{"id": "C101", "title": "Validators report all violations in one order, and only valid documents are returned", "statement": "Validate says true without an error exactly if the document has no violations of the schema; otherwise it gives an error with the texts of all violations in ascending order, the same in whichever order they were found, and it never says false without an error. Transform returns exactly the documents that TransformNoValidation returns and that have no violations. Validators can be made by any number of goroutines at once: all end, each with the compiled schema of its own absolute path, and two share it exactly if the paths are the same.", "quantifier": "all reports of the validation library, all orders of violations, all Transformers, states and inputs, all numbers of goroutines, paths and schedules", "why_tests_cant": "The library may find violations in any order and goroutines may interleave in any way; tests see a few orders.", "anchors": ["jsonschema/validator.go:NewValidator", "jsonschema/validator.go:Validate", "jsonschema/schema.go:Validate", "transform/transformer.go:Transform"]}
{"id": "C102", "title": "The files that BuildStructs writes are a Go package whose structs carry documents", "statement": "If BuildStructs succeeds, the files it leaves for a schema and the files in its allOf and oneOf are the source of a Go package that Go accepts: no name is declared twice or hides an import, exactly the used packages are imported, and every type that is named is declared. The struct of each file, with the structs it embeds, takes every document that is valid for the schema of the file and for those of the embedded structs, and encoding the struct gives the document back, up to properties that none of the schemas lists.", "quantifier": "all schemas and file systems, all names and options, structs inline or of their own, all valid documents, all orders in which maps are walked", "why_tests_cant": "It relates the text of several generated files to all documents of several schemas; tests compile and run a few generated packages.", "anchors": ["generate/generate.go:BuildStructsWithArgs", "generate/generate.go:buildStructFile", "generate/struct.go:newGeneratedGoFile", "generate/struct.go:write"]}
{"id": "C103", "title": "What Transform returns can be read by the struct generated for the schema", "statement": "The Go source that BuildStructs writes for a schema declares a struct such that every document that Transform returns for that schema, whatever the input and the calls before it, can be decoded by encoding/json into the struct, and encoding the struct gives the same document.", "quantifier": "all schemas, all inputs (JSON and XML), all earlier calls, all iteration orders and library behaviours with a correct validator", "why_tests_cant": "It relates the results of the transformer for all inputs and histories to the code generator; tests of either side use a few documents.", "anchors": ["transform/transformer.go:Transform", "transform/transformer.go:jsonTransform", "transform/instance.go:transform", "generate/generate.go:BuildStructs", "generate/struct.go:write"]}
{"id": "C104", "title": "The Avro schema made from the text of the generated Go source is the one for the JSON schema, also with structs of their own for objects", "statement": "If the Go file that BuildStructs writes for a schema, with nested structs inline or declared on their own, is given to BuildAvroSchemaFile, the Avro schema file written next to it is a record with exactly one field for each property of the JSON schema, with its name, its description and the type for it, which can be null if the property is optional or may be null. It is the same for all options besides those for names and descriptions.", "quantifier": "all schemas, names, descriptions and options, all orders in which maps are walked, all other files in the directory", "why_tests_cant": "The text of one generator is the input of the other, for every schema; the lookup of nested structs by name in the parsed directory depends on all other names in the files.", "anchors": ["generate/struct.go:write", "generate/avro.go:buildAvroSchemaFile", "generate/avro.go:parseGoStruct", "generate/avro.go:filterPackage", "generate/avro.go:convertToAvroType"]}
{"id": "C105", "title": "The command leaves a Go package whose structs carry the documents of the schema", "statement": "If the command exits with 0 and was not asked for help, its arguments are options with suitable values followed by a schema and perhaps a directory, and the files for structs in that directory are source of a Go package that declares, under exactly the options given, a struct for the schema and each of its allOf and oneOf entries; documents of the schemas can be decoded into the structs and encoded again without loss. No files are changed other than those of the structs and those for the options given.", "quantifier": "all command lines, schemas, directory contents, iteration orders and behaviours of the libraries", "why_tests_cant": "It joins the command line, the choice of the files, the text of each file, the rules of Go for packages and those of encoding/json for embedded structs, for all schemas and options at once; tests run a few command lines on a few schemas and compare text.", "anchors": ["main.go:main", "generate/generate.go:BuildStructsWithArgs", "generate/generate.go:buildStructFile", "generate/struct.go:newGeneratedGoFile", "generate/struct.go:write"]}
{"id": "C106", "title": "Exactly what the max operation gives", "statement": "For every value and all paths, max gives a value exactly if the value is an array whose entries all have a number at the by path; the value is then what the chosen entry has at the return path, where chosen is the first entry with the greatest number if some number is positive, and the first entry of all if none is. It panics exactly on the empty array and is an error in all other cases.", "quantifier": "all values, by and return paths, and behaviours of the JSON path library", "why_tests_cant": "It decides the outcome for every array of any length and every order of numbers, including negative ones and NaN.", "anchors": ["transform/operations.go:max.transform", "transform/operations.go:max.init"]}
{"id": "C107", "title": "Exactly what the duration operation gives", "statement": "For every value, duration looks at the value or, if it is an array with one entry, at that entry. Null gives 0. A text of the form hours:minutes:seconds or minutes:seconds, with any number of digits in each part, gives the number of seconds, up to a multiple of 2^64 so that it fits into 64 bits, provided that each part is below 2^63. Everything else is an error, and nothing panics.", "quantifier": "all values and texts of any length", "why_tests_cant": "It ranges over all texts, through a regular expression and 64 bit arithmetic that wraps around.", "anchors": ["transform/operations.go:duration.transform", "transform/operations.go:durationRe"]}
{"id": "C108", "title": "Exactly which numbers are written for times in Avro", "statement": "For every time, the number written is its distance from the epoch in nanoseconds, reduced by a multiple of 2^64 into 64 bits, in milliseconds rounded towards zero; for an absent optional time it is 0. A list has one number for each time, in order; absent times are left out of a list, and a list with only absent times is absent.", "quantifier": "all times, optional times and lists of them of any length", "why_tests_cant": "It ranges over all moments, before the epoch and outside the years 1677 to 2262, and over lists of any length.", "anchors": ["generate/avro_helpers.go:AvroTime", "generate/avro_helpers.go:AvroTimeSlice", "generate/avro_helpers.go:AvroOptionalTime", "generate/avro_helpers.go:AvroOptionalTimeSlice"]}
{"id": "C109", "title": "Exactly which value a transform with method last gives, after any history", "statement": "After an even number of earlier evaluations of the same transform, whatever their inputs and outcomes, an evaluation tries the instructions from the last to the first and gives the first value that is not null; after an odd number it tries them from the first to the last.", "quantifier": "all transforms with method last, all histories of evaluations and all inputs", "why_tests_cant": "The result depends on how often the transform was evaluated before, in this document and earlier ones, which tests of single calls do not show.", "anchors": ["transform/transform.go:transformInstructions.transform"]}
{"id": "C110", "title": "Exactly what values become in properties of scalar types", "statement": "Every value that is not a circle of arrays is converted to a scalar type in exactly one way: first entries are taken while there are arrays; the value found there becomes the truth value, number, text or time it stands for, and it is an error if there is none. Null and an empty array become null; this is an error behind an odd number of arrays, except for null if the type is boolean or string. A text that is not a truth value gives false together with the error, all other errors come with null.", "quantifier": "all values nested to any depth, all scalar types, all behaviours of the number and time libraries", "why_tests_cant": "It ranges over arrays nested to any depth, where the outcome alternates with the depth.", "anchors": ["transform/utils.go:convert", "transform/utils.go:convertBoolean", "transform/utils.go:convertNumber", "transform/utils.go:convertString", "transform/utils.go:convertDateTime"]}
{"id": "C111", "title": "The command leaves an Avro schema for each struct", "statement": "If the command exits with 0, was not asked for help and was given the option for Avro, then beside the Go file of the schema and of each of its allOf and oneOf entries there is an Avro schema file for a record with exactly one field for each property of that schema, with its name, description and the type for it, which can be null if the property is optional or may be null.", "quantifier": "all command lines, schemas, directory contents, iteration orders and behaviours of the libraries", "why_tests_cant": "It joins the command line, the choice of the files, the text of the Go files and the Avro generator that reads them back, for all schemas and options at once.", "anchors": ["main.go:main", "generate/generate.go:BuildStructsWithArgs", "generate/avro.go:buildAvroSchemaFile", "generate/avro.go:parseGoStruct", "generate/avro.go:convertToAvroType"]}
{"id": "C112", "title": "Exactly which calls a walk over a schema makes, also with empty names", "statement": "Walk and WalkRaw call the function exactly once for each instance of a schema, an object or array before what it contains, in whatever order maps are visited; the path they pass is that of the instance, in which properties with an empty name leave nothing. They return without error iff all calls do and every instance can be read.", "quantifier": "all schemas of any depth and with any property names (for WalkRaw: names that are distinct within an object, which for Walk holds by itself), all functions, all iteration orders", "why_tests_cant": "It ranges over all schemas and all orders in which Go visits maps.", "anchors": ["jsonschema/walk.go:Walk", "jsonschema/walk.go:WalkRaw", "jsonschema/walk.go:prependJSONPath"]}
{"id": "C113", "title": "Exactly what FieldType returns", "statement": "FieldType returns the name given as type; of a list of types it returns the last name other than null if all names before it are empty strings, the empty string if there is no such name, and whether null is listed; entries that are not strings are skipped. In all other cases it returns an error.", "quantifier": "all JSON documents", "why_tests_cant": "It ranges over lists of types of any length with any entries.", "anchors": ["jsonschema/schema.go:FieldType"]}
{"id": "C114", "title": "Exactly what a schema has that is loaded without flattening", "statement": "Loaded without flattening, a schema has the properties, required names and items of the document itself, then, only if the document has no properties at all, of its first allOf entry, then of the oneOf entries of the type wanted; where several define the same, the earliest wins. Everything else is as in the document.", "quantifier": "all documents with any number of allOf and oneOf entries, all types wanted, all iteration orders", "why_tests_cant": "It ranges over all documents and the orders in which maps are visited while merging.", "anchors": ["jsonschema/schema.go:schemaFromFile"]}
{"id": "C115", "title": "Exactly which operation chains panic or fail", "statement": "A chain of operations panics iff one of its operations is max and the operations before it give an empty array. It fails with an error iff one of its operations fails on what the operations before it give.", "quantifier": "all chains of operations of any length, all values and states of the Transformer, all library behaviours", "why_tests_cant": "It ranges over all chains; the panic depends on what earlier operations in the chain make of the value.", "anchors": ["transform/transform.go:transformInstruction.jsonTransform", "transform/operations.go:max.transform"]}
{"id": "C116", "title": "Exactly which fields are written for a struct or GraphQL type", "statement": "As many fields are written as there are, in the order of their names. Where several have the same name, the last of them in the order in which the map is visited is written in place of each of them.", "quantifier": "all fields with any names, all iteration orders", "why_tests_cant": "With clashing names the result depends on the order in which Go visits the map, which differs from run to run.", "anchors": ["generate/struct.go:extractedFields.Sorted", "generate/graphql.go:gqlExtractedFields.Sorted"]}
{"id": "C117", "title": "Exactly which Go type a field gets", "statement": "A field with a JSON type gets the Go type for it, a pointer if it may be null or is an optional time with pointers asked for, and a slice of it for arrays; a field whose type is the name of a struct gets that name, without pointer even if it may be null, unless the struct has no fields: then it gets a map of strings, as a pointer if it may be null.", "quantifier": "all fields, all options, all structs of the file", "why_tests_cant": "It ranges over all combinations of types, options and structs.", "anchors": ["generate/struct.go:goType"]}
{"id": "C118", "title": "Exactly which requests share a cached schema", "statement": "Two requests to load a schema share one entry of the cache iff they both ask for flattening or both do not, and their paths and type names are the same or become the same when a part of one path after a bar is moved to the front of the type name, with a bar after it.", "quantifier": "all pairs of requests with any paths, type names and options", "why_tests_cant": "It ranges over all pairs of paths and type names.", "anchors": ["jsonschema/schema.go:schemaFromFile", "jsonschema/cache.go:Cache.Load"]}
{"id": "C119", "title": "Exactly which names a path of the walk is split into", "statement": "The path of an instance is split into the names of the properties on it, each followed by [*] for all but one of the arrays directly in each other there; in front stands $ followed by [*] for all but one of the arrays at the root, if there are any.", "quantifier": "all positions of any depth whose property names have no dots and stars and are not $", "why_tests_cant": "It ranges over positions of any depth with arrays nested in any way.", "anchors": ["generate/generate.go:splitJSONPath"]}
{"id": "C120", "title": "Exactly which arguments and type a GraphQL field is given", "statement": "A field is given exactly one list of arguments and one type. A field that is looked up has its own arguments, one per line, and the type named in the schema; a list has the arguments for filtering and sorting; others have none. The type is the name given in the schema, else that of the scalar for the JSON type, else the JSON type itself, in square brackets for a list. An exclamation mark follows the type unless it is a time or a free-form object, if the field is required, if no pointers are asked for, or if a JSON type may not be null; it follows a list if the list may not be null and the field is required or no pointers are asked for.", "quantifier": "all fields with any JSON type, target, arguments and flags, required or not, with or without pointers", "why_tests_cant": "It ranges over all combinations of fields and flags.", "anchors": ["generate/graphql.go:graphqlType"]}
{"id": "C121", "title": "Exactly which tag a struct field is given", "statement": "The tag of a struct field has its JSON name; if the field is not required, the option omitzero if its type is a struct with fields that is neither in a list nor a pointer, and otherwise the option omitempty; and the first line of the description exactly if descriptions are asked for and there is one. There is nothing else in the tag.", "quantifier": "all fields with any names, types and descriptions, and all settings", "why_tests_cant": "It ranges over all texts and settings.", "anchors": ["generate/struct.go:extractedField.write"]}
{"id": "C122", "title": "Exactly what the Avro generator finds for a struct's name", "statement": "In a Go file the generator takes the first declaration with a part that uses the name, if it has only one such part and that is a type; a type called otherwise is taken with only the fields of that name. In a directory it takes that of the only file that declares the type, which must declare it once, in the only package. In all other cases nothing is found.", "quantifier": "all Go files and directories with any declarations, and all names and paths", "why_tests_cant": "It ranges over all Go sources.", "anchors": ["generate/avro.go:parseGoStruct", "generate/avro.go:filterPackage"]}
{"id": "C123", "title": "Exactly when one reference can be resolved and what the document is then", "statement": "Resolving a reference in a document succeeds iff the text under $ref points to an object, in the document or in the file named in it. In the result, everything outside the object with the reference is as before. The object has what was beside the reference, where strings are encoded once more; otherwise the fields of the target, and a note of the reference. At the root, the reference is only taken away.", "quantifier": "all documents, places, references and files", "why_tests_cant": "It ranges over all documents and references.", "anchors": ["jsonschema/reference.go:dereference"]}
{"id": "C124", "title": "Exactly which files BuildStructs leaves, whether it succeeds or fails", "statement": "Either BuildStructs fails before it generates anything, and no file is touched; or it generates the structs one after the other until one fails, and it succeeds exactly if none does. A struct fails if its schema cannot be loaded, if there is no code for it, if its file cannot be created, or if the code is not Go; in the last case its file is left empty. In the end every file has what was written there last, or what it had before.", "quantifier": "all schemas and settings, all failures of files, schemas and formatting, and all previous contents of files", "why_tests_cant": "It ranges over every point at which a run can fail and over all earlier files.", "anchors": ["generate/generate.go:BuildStructsWithArgs", "generate/generate.go:buildStructFile"]}
{"id": "C125", "title": "Exactly for which structs a conversion to Avro can be generated", "statement": "The code that converts a struct to its Avro form is generated if and only if every embedded struct is found in a file, to any depth and without circles, and every field of the Avro struct, but for those of the template, has a field of the same name that can be converted: a scalar from whatever there is, a map from a map, a slice from a slice, and a record, or a union of null with one, from a struct, a pointer to one or a slice of them, which embeds nothing and has in turn a field that can be converted for each field of the record. In every other case generation fails or does not end.", "quantifier": "all structs with their embedded structs, all Avro structs, all files and all orders in which the fields are visited", "why_tests_cant": "It ranges over types nested to any depth and gives both directions: no test can show that generation fails for every other struct.", "anchors": ["generate/avro_helpers.go:generateFields", "generate/avro_helpers.go:generateFieldValue", "generate/avro_helpers.go:generateStructValue", "generate/avro_helpers.go:mapFields"]}
{"id": "C126", "title": "The command leaves the GraphQL files of the schema", "statement": "If the command succeeds with the option for GraphQL, the directory for GraphQL (the one named, or else the output directory) has the files that are made for the schema its argument names, with the options its arguments ask for, and no later step has changed them: neither the struct files nor those for Avro and MessagePack. No other file ending in .graphqls has changed, and none has without the option. With types of their own for objects, or when there are none, the files are GraphQL that can be read in one way and says what the schema says, under the conditions of C89 and C90.", "quantifier": "all command lines, schemas, options, sets of files and tools that are used", "why_tests_cant": "It ranges over all command lines and schemas, and over everything that later steps may write.", "anchors": ["main.go:main", "generate/generate.go:BuildStructsWithArgs", "generate/graphql.go:buildGraphQLFile"]}
{"id": "C127", "title": "From schema files and an input to one output", "statement": "Schema files that do not refer to each other in circles have exactly one meaning. However many goroutines load them through the cache, and under every schedule, each load ends and gives the schema of its file. A Transformer can be made from it exactly if its instances are accepted; and whatever the iteration orders over maps and whatever calls were made before, Transform gives what the schema makes of the input. So two programs that load the same files give the same output for the same input.", "quantifier": "all sets of files, paths, goroutines, schedules, iteration orders, histories of calls and inputs", "why_tests_cant": "It ranges over all schedules of concurrent loads, all iteration orders and all histories, for every set of files and every input.", "anchors": ["jsonschema/cache.go:Load", "jsonschema/schema.go:SchemaFromFile", "transform/transformer.go:NewTransformer", "transform/transformer.go:Transform"]}
{"id": "C128", "title": "BuildStructs may be killed at any time and run again", "statement": "Whenever BuildStructs, without the options for GraphQL, Avro and MessagePack, is stopped, also in the middle of writing a file, every file but one has what it had before the run or the complete code of a struct, and that one is the file of a struct and may also be empty or have only a part of its text. Running it again, after any number of runs that were killed, ends as if none had been started, with the same files; in particular running it twice is the same as running it once. With the option for Avro this is not so: an empty Go file that is left can make all later runs fail.", "quantifier": "all schemas, arguments, files on disk, points at which a run is stopped and numbers of stopped runs", "why_tests_cant": "It ranges over every crash point of every run, and over any number of crashes one after the other.", "anchors": ["generate/generate.go:BuildStructsWithArgs", "generate/generate.go:buildStructFile", "generate/struct.go:write", "generate/avro.go:filterPackage"]}
{"id": "C129", "title": "Using the bulk writer as in its generated example", "statement": "A program that sends its items to a generated bulk Avro writer while watching the error channel, closes the request channel after the last item and then reads the error channel to its end always returns, and the writer's goroutine exits. It returns with an error exactly if a call of the container writer failed; otherwise all items were written in order and the file was finalized. The example that is generated next to the writer does not close the request channel: it never finalizes the file, and waits for ever unless a call fails.", "quantifier": "all lists of items, all failures of the container writer, all interleavings of the program and the goroutine", "why_tests_cant": "A test sees one schedule and one pattern of failures; a generated example without expected output is not even run.", "anchors": ["generate/avro_template.go:BulkAvroWriter", "generate/avro_template.go:ExampleBulkAvroWriter"]}
{"id": "C130", "title": "Transforms that follow the published schema are accepted", "statement": "Of the transforms that the published transformSchema.json allows, NewTransformer accepts exactly those whose operations all name their type, have a string (or null) for a format, and a regular expression that compiles. The published schema does not ensure these three things: an operation for the current time needs no type there. No transform that follows the published schema can use the operations duration, toCamelCase or valueExists, which the code has, and the documentation has the first two. For identifiers other than cumulo and presentationv4 it allows anything.", "quantifier": "all transform documents allowed by the published schema, all schemas made of them, all regular expression compilers", "why_tests_cant": "It relates two definitions of the same language, a JSON schema and a decoder, over all documents.", "anchors": ["transformSchema.json", "transform.adoc", "transform/transform.go:UnmarshalJSON", "transform/operations.go:requiredArgs"]}
{"id": "C131", "title": "What replace replaces", "statement": "The documentation and the published schema say that the new text of a replace operation replaces capture group 1 of the regular expression. The operation gives that text exactly if the capture group covers every match as a whole (or nothing matches). Otherwise it gives the new text in place of the whole match: what the expression matches outside of its group is lost. Two expressions with the same matches give the same result, whatever their groups are.", "quantifier": "all regexp libraries, regular expressions and texts, with all lists of matches the library may find, and all new texts without a dollar sign", "why_tests_cant": "The documented and the actual text differ only for matches that are longer than their group, so it is a statement about all expressions and texts.", "anchors": ["transform/operations.go:replace.transform", "transform.adoc", "transformSchema.json"]}
{"id": "C132", "title": "How the keys of a transform may be spelled", "statement": "Transforms that differ only in the letter case of the keys that transforms, instructions, operations and method options have, or in keys that these do not have, give the same instructions. This does not extend to the names of arguments, whose letter case matters. A text in place of a transform never gives instructions: it is none, one without instructions, or an error. For transforms whose keys are spelled as documented, matching keys exactly gives the same instructions.", "quantifier": "all schema documents, identifiers, paths and operation libraries, and all notions of letter case under which the names of the fields differ", "why_tests_cant": "There are unboundedly many documents with the same meaning, at each level of nesting.", "anchors": ["transform/transform.go:transformInstructionsJSON", "transform/transform.go:transformInstructionJSON", "transform/transform.go:transformOperationJSON", "transform/utils.go:extractTransformInstructions"]}
{"id": "C133", "title": "Walking a schema whose keys are spelled in another letter case", "statement": "Walk and WalkRaw visit the same instances at the same paths and one gets to its end if and only if the other does, for every schema in which each instance can be read and has one type besides null, however the keys of its instances are spelled that Walk reads. For schemas whose keys are spelled as documented this holds, and matching keys exactly gives the same walk.", "quantifier": "all schemas, all walk functions and their effects, all orders of map iteration, and all notions of letter case", "why_tests_cant": "The schemas are unbounded in depth and size, a key may be spelled differently at any level, and the order of map iteration differs from run to run.", "anchors": ["jsonschema/walk.go:Walk", "jsonschema/walk.go:WalkRaw", "jsonschema/schema.go:Instance.UnmarshalJSON", "jsonschema/schema.go:FieldType"]}
{"id": "C134", "title": "Types written with escape sequences", "statement": "Schema texts that mean the same JSON document have the same type for FieldType and are walked alike, and if an instance has one type then Walk and WalkRaw see the same one, however the strings in the text are written. This holds for types written without escape sequences; for a type that is a string, FieldType gives the type that is meant exactly if it is written without them.", "quantifier": "all schema texts with any spelling of their strings, all walk functions, and all ways of quoting that can be decoded", "why_tests_cant": "Every string has unboundedly many spellings as JSON text, at each level of nesting.", "anchors": ["jsonschema/schema.go:FieldType", "jsonschema/schema.go:Instance.UnmarshalJSON", "jsonschema/walk.go:WalkRaw"]}
{"id": "C135", "title": "References are JSON pointers", "statement": "A reference made of a file part, # and a JSON pointer (RFC 6901) to an object is understood as this object, marked with the reference, and is an error if the pointer points to nothing or to something that is not an object. This holds when the tokens of the pointer are not empty, have no tilde, are not numbers and do not start with a bracket.", "quantifier": "all documents, file parts and pointers with any number of tokens, written without percent-encoding", "why_tests_cant": "Documents nest without bound and pointers have any number of tokens of any text.", "anchors": ["jsonschema/reference.go: resolveRef"]}
{"id": "C136", "title": "Properties of a schema do not affect each other", "statement": "If properties are taken away from the top level of a schema then what TransformNoValidation returns has exactly the properties that are left, with the same values as before; and two schemas that share a property give it the same value. This holds for JSON input if arrays and objects have neither default nor transform and for XML input if objects have no default, without method last and currentTime.", "quantifier": "all schemas and any choice of their properties, all input documents in JSON or XML, all iteration orders and all behaviours of the libraries", "why_tests_cant": "It compares the outputs of any schema and any part of it for any input; saving values into the input makes properties depend on each other only for special combinations.", "anchors": ["transform/transformer.go: TransformNoValidation", "transform/instance.go: arrayTransformer.transform", "transform/instance.go: objectTransformer.transform"]}
{"id": "C137", "title": "Only the places of the input that the schema mentions matter", "statement": "Two JSON input documents that have the same values at the paths of the schema's transforms and at the own places of its instances give the same output or both fail; in particular fields with which none of these paths starts may be added, changed and taken away. This holds for schemas whose arrays and objects have neither default nor transform, without method last and currentTime.", "quantifier": "all such schemas, all pairs of JSON input documents, all iteration orders and all behaviours of the libraries", "why_tests_cant": "It compares the outputs for all pairs of documents that agree at some places and differ anywhere else.", "anchors": ["transform/transformer.go: Transform", "transform/transform.go: jsonTransform", "transform/instance.go: scalarTransformer.transform"]}
{"id": "C138", "title": "Which keywords of a schema matter for a Transformer", "statement": "Two schemas that differ, at any depth, only in keywords other than type, format, default (in any letter case), items and properties and in transforms for other identifiers have the same JSON and XML Transformers for an identifier: whatever Transformer or failure NewTransformer or NewXMLTransformer can give for one of them it can give for the other. So descriptions, titles, required, the transforms of other providers and the order of keywords have no effect on TransformNoValidation. Nor does the name of the identifier: schemas whose transforms for two different identifiers are the same have the same Transformers for these.", "quantifier": "all pairs of schemas that agree in these keywords, all pairs of transform identifiers, both input formats, all iteration orders and all behaviours of the libraries", "why_tests_cant": "It compares all schemas with all their variants: any other keyword with any value may be added, changed or removed at any depth.", "anchors": ["transform/transformer.go: NewTransformer", "transform/transformer.go: NewXMLTransformer", "transform/transformer.go: walker", "transform/utils.go: extractTransformInstructions", "transform/utils.go: schemaDefault", "jsonschema/walk.go: WalkRaw"]}
{"id": "C139", "title": "The order in which a schema lists properties does not matter", "statement": "Two schemas that differ only in the order of keywords and of properties, at any depth, give the same output for every input document, or both fail. This holds for JSON input if arrays and objects have neither default nor transform and for XML input if objects have no default, without method last and currentTime.", "quantifier": "all pairs of schemas that are reorderings of each other, all input documents in JSON or XML, all iteration orders and all behaviours of the libraries", "why_tests_cant": "It compares the outputs of any schema and any of its reorderings for any input.", "anchors": ["jsonschema/walk.go: WalkRaw", "transform/transformer.go: NewTransformer", "transform/transformer.go: Transform", "transform/instance.go: objectTransformer.transform"]}
{"id": "C140", "title": "Transforming the output of a projection again changes nothing", "statement": "With a schema without transforms, whose instances are arrays, objects with properties, booleans, numbers and strings, where only scalars have defaults and these are values of their type, giving the output of Transform or TransformNoValidation on a JSON document to the same Transformer again returns the same output, whatever calls were made before. Excepted are outputs with the zero time or with whole numbers that float64 cannot represent.", "quantifier": "all such schemas of any depth, all input documents, all earlier calls, all iteration orders and all behaviours of the libraries that read back the output as encoding/json does", "why_tests_cant": "It is about the composition of two calls for any schema and any document.", "anchors": ["transform/transformer.go: Transform", "transform/transformer.go: TransformNoValidation", "transform/utils.go: convert", "transform/utils.go: convertDateTime", "transform/utils.go: convertNumber", "transform/instance.go: scalarTransformer.transform"]}
{"id": "C141", "title": "A null field is the same as a missing one", "statement": "With a schema without transforms, whose instances are arrays, objects with properties, booleans, numbers and strings, where only scalars have defaults, two JSON documents that differ only in fields of objects, at any depth, which are null in one and missing in the other, give the same output of Transform and of TransformNoValidation, or both fail, whatever calls were made before. In particular defaults are filled in for nulls.", "quantifier": "all such schemas of any depth, all pairs of documents that differ in this way, all earlier calls, all iteration orders and all behaviours of the libraries", "why_tests_cant": "It relates the results for any two such documents under any schema.", "anchors": ["transform/transformer.go: Transform", "transform/transformer.go: TransformNoValidation", "transform/utils.go: convert", "transform/instance.go: scalarTransformer.transform", "transform/instance.go: objectTransformer.transform", "transform/instance.go: arrayTransformer.transform"]}
{"id": "C142", "title": "A list of documents gives the list of their outputs", "statement": "With a schema without transforms in which only scalars have defaults, TransformNoValidation gives for a JSON list of documents the list of the values that the schema of the items, as a schema of its own, gives for each document alone; it fails if one document does, and documents without a value are left out. In the same way the field of an object in a schema has the value that this object's schema gives for the field of the input alone. Earlier calls do not matter.", "quantifier": "all such schemas of any depth, lists of any length, all documents, all earlier calls, all iteration orders and all behaviours of the libraries", "why_tests_cant": "It relates the outputs of two Transformers for any schema and any number of documents.", "anchors": ["transform/transformer.go: NewTransformer", "transform/transformer.go: TransformNoValidation", "transform/instance.go: arrayTransformer.transform", "transform/instance.go: objectTransformer.transform"]}
