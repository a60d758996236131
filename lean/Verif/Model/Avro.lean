import Verif.Model.GoAst
/- generate/avro.go:239-461: the text of the Avro schema for a Go struct. -/
namespace JT.Go

/-- A lower case hexadecimal digit. -/
def hexChar (n : Nat) : Char := if n < 10 then Char.ofNat (48 + n) else Char.ofNat (87 + n)

/-- `n` as `k` hexadecimal digits. -/
def hexDigits : (k : Nat) → Nat → Str
  | 0, _ => []
  | k + 1, n => hexDigits k (n / 16) ++ [hexChar (n % 16)]

/-- One character as written by `strconv.Quote`, which is `%q` of `fmt`.  `isPrint` tells which characters beyond ASCII are printable (`strconv.IsPrint`). -/
def quoteChar (isPrint : Char → Bool) (c : Char) : Str :=
  if c = '"' ∨ c = '\\' then ['\\', c]
  else if (0x20 ≤ c.toNat ∧ c.toNat ≤ 0x7e) ∨ (0x80 ≤ c.toNat ∧ isPrint c = true) then [c]
  else if c.toNat = 7 then ['\\', 'a']
  else if c.toNat = 8 then ['\\', 'b']
  else if c.toNat = 12 then ['\\', 'f']
  else if c.toNat = 10 then ['\\', 'n']
  else if c.toNat = 13 then ['\\', 'r']
  else if c.toNat = 9 then ['\\', 't']
  else if c.toNat = 11 then ['\\', 'v']
  else if c.toNat < 0x20 ∨ c.toNat = 0x7f then '\\' :: 'x' :: hexDigits 2 c.toNat
  else if c.toNat < 0x10000 then '\\' :: 'u' :: hexDigits 4 c.toNat
  else '\\' :: 'U' :: hexDigits 8 c.toNat

/-- `fmt.Sprintf("%q", s)`. -/
def quote (isPrint : Char → Bool) (s : Str) : Str := '"' :: s.flatMap (quoteChar isPrint) ++ ['"']

/-- generate/avro.go:25 -/
def metadataFields : Str :=
  g!"{\"name\":\"AvroWriteTime\",\"doc\":\"The timestamp when this avro data is written. Useful for identifying the newest row of data sharing keys.\",\"type\":\"long\",\"logicalType\":\"timestamp-millis\"},{\"name\":\"AvroDeleted\",\"doc\":\"This is set to true when the Avro data is recording a delete in the source data.\",\"default\":false,\"type\":\"boolean\"},"

/-- What the generator finds around the struct: `pkg` gives the fields of the struct of a name in the directory (generate/avro.go:401), `files` those of the struct of a
name in the file that is called like it (generate/avro.go:358).  Named types that are not structs are not modelled. -/
structure World where
  isPrint : Char → Bool
  pkg : Str → Option (List GoField)
  files : Str → Option (List GoField)

/-- generate/avro.go:385-399 -/
def primitive (name : Str) : Option Str :=
  if name = g!"bool" then some g!"boolean"
  else if name ∈ [g!"int", g!"uint", g!"int64", g!"uint64"] then some g!"long"
  else if name ∈ [g!"int8", g!"int16", g!"int32", g!"uint8", g!"uint16", g!"uint32"] then some g!"int"
  else if name = g!"float32" then some g!"float"
  else if name = g!"float64" then some g!"double"
  else if name = g!"byte" then some g!"bytes"
  else if name = g!"string" then some g!"string"
  else none

/-- generate/avro.go:408-415 -/
def primitiveText (w : World) (typeName : Str) (nullable : Bool) : Str :=
  if nullable then
    if typeName = g!"boolean" then quote w.isPrint typeName ++ g!",\"default\":false"
    else g!"[\"null\"," ++ quote w.isPrint typeName ++ g!"]"
  else quote w.isPrint typeName

/-- generate/avro.go:432-439 -/
def selectorText (w : World) (sel : Str) (nullable : Bool) : Str :=
  if sel = g!"Time" then
    if nullable then g!"[\"null\",{\"type\":\"long\",\"logicalType\":\"timestamp-millis\"}]"
    else g!"{\"type\":\"long\",\"logicalType\":\"timestamp-millis\"}"
  else g!"unsupported type " ++ quote w.isPrint sel

/-- generate/avro.go:425-429 -/
def arrayText (item : Str) : Str :=
  if hasPrefix item g!"{" then g!"{\"type\":\"array\",\"items\":" ++ item ++ g!"}"
  else g!"{\"type\":\"array\",\"items\":{\"type\": " ++ item ++ g!"}}"

/-- generate/avro.go:265-269: the text before the fields of a record. -/
def recordHead (w : World) (name : Str) (ns : List Str) (defaults : Str) : Str :=
  g!"\"name\":" ++ quote w.isPrint name ++ g!"," ++
    (if ns = [] then [] else g!"\"namespace\":" ++ quote w.isPrint (join g!"." ns) ++ g!",") ++
    g!"\"type\":\"record\",\"fields\":[" ++ defaults

/-- generate/avro.go:457-460 -/
def nestedText (body : Str) (nullable : Bool) : Str :=
  if nullable then g!"[\"null\",{" ++ body ++ g!"]}]" else g!"{" ++ body ++ g!"]}"

/-- generate/avro.go:316-320: the name of the Avro field. -/
def avroName (k : Str) (tag : Tag) : Str := if tag.name = [] then k else tag.name

/-- generate/avro.go:322-332: the text of a field. -/
def fieldText (w : World) (ns : List Str) (name doc type : Str) : Str :=
  g!"{\"name\":" ++ quote w.isPrint name ++
    (if ns = [] then [] else g!",\"namespace\":" ++ quote w.isPrint (join g!"." ns)) ++
    (if doc = [] then [] else g!",\"doc\":" ++ quote w.isPrint doc) ++
    g!",\"type\":" ++ type ++ g!"}"

/-- The text of a type, given the namespace, the structs already embedded, the type, the name and whether it may be missing; with the structs embedded afterwards. -/
abbrev TypeFn := List Str → List Str → GoType → Str → Bool → Res (Str × List Str)
/-- The text of the fields of a struct, given the excluded fields, the namespace, the fields and the structs already embedded. -/
abbrev FieldsFn := List Str → List Str → List GoField → List Str → Res (Str × List Str)

/-- generate/avro.go:356-375: `writeEmbeddedStructFields`. -/
def embedText (w : World) (fields : FieldsFn) (exf ns : List Str) (e : Str) (seen : List Str) : Res (Str × List Str) :=
  match w.files e with
  | none => .ok (g!"{\"type\":\"embedded struct not found\"}", seen)
  | some fs => (fields exf ns fs seen).bind fun r => .ok (r.1, e :: r.2)

/-- generate/avro.go:295-334: `writeAvroField`, with whether the field was written.  `seen` is the shared map `excludeNamespace`. -/
def oneField (w : World) (ty : TypeFn) (fields : FieldsFn) (exf ns fm : List Str) : GoField → List Str → Res (Str × Bool × List Str)
  | .mk none (.ident e) _, seen =>
    if e ∈ seen then .ok ([], false, seen)
    else (embedText w fields fm (ns ++ [e]) e seen).bind fun r => .ok (r.1, true, r.2)
  | .mk none _ _, seen => .ok ([], false, seen)
  | .mk (some k) t tag, seen =>
    if k ∈ exf then .ok ([], false, seen)
    else (ty ns seen t (avroName k tag) tag.omitEmpty).bind fun r => .ok (fieldText w ns (avroName k tag) tag.description r.1, true, r.2)

/-- generate/avro.go:350-352 -/
def comma (processed last : Bool) : Str := if processed && !last then g!"," else []

/-- generate/avro.go:348-353: the loop of `writeAvroFields`. -/
def fieldLoop (w : World) (ty : TypeFn) (fields : FieldsFn) (exf ns fm : List Str) : List GoField → List Str → Res (Str × List Str)
  | [], seen => .ok ([], seen)
  | f :: t, seen =>
    (oneField w ty fields exf ns fm f seen).bind fun r =>
      (fieldLoop w ty fields exf ns fm t r.2.2).bind fun r' => .ok (r.1 ++ comma r.2.1 t.isEmpty ++ r'.1, r'.2)

/-- generate/avro.go:341-347: the names of the fields of a struct. -/
def fieldNames (l : List GoField) : List Str := l.filterMap GoField.name

mutual
/-- generate/avro.go:378-444 and 449-461: `convertToAvroType` and `writeNestedStruct`.  The number bounds the depth of the recursion; named structs that contain
each other in a circle end in a stack overflow, here a panic. -/
def avroType (w : World) : Nat → TypeFn
  | 0 => fun _ _ _ _ _ => .panic
  | n + 1 => fun ns seen t name nullable =>
    match t with
    | .star x => avroType w n ns seen x name nullable
    | .ident i =>
      match primitive i with
      | some p => .ok (primitiveText w p nullable, seen)
      | none =>
        match w.pkg i with
        | none => .ok (g!"unknown", seen)
        | some fs => (avroFields w n [] (ns ++ [name]) fs seen).bind fun r =>
            .ok (nestedText (recordHead w (name ++ g!"_record") (ns ++ [name]) [] ++ r.1) nullable, r.2)
    | .map k v => (avroType w n ns seen k name false).bind fun r =>
        (avroType w n ns r.2 v name false).bind fun r => .ok (g!"{\"type\": \"map\", \"values\": " ++ r.1 ++ g!"}", r.2)
    | .array e => (avroType w n ns seen e name false).bind fun r => .ok (arrayText r.1, r.2)
    | .struct fs => (avroFields w n [] (ns ++ [name]) fs seen).bind fun r =>
        .ok (nestedText (recordHead w (name ++ g!"_record") (ns ++ [name]) [] ++ r.1) nullable, r.2)
    | .selector s => .ok (selectorText w s nullable, seen)
    | .other d => .ok (g!"unsupported type " ++ quote w.isPrint d, seen)
/-- generate/avro.go:338-354: `writeAvroFields`. -/
def avroFields (w : World) : Nat → FieldsFn
  | 0 => fun _ _ _ _ => .panic
  | n + 1 => fun exf ns l seen => fieldLoop w (avroType w n) (avroFields w n) exf ns (fieldNames l) l seen
end

/-- generate/avro.go:130-132: the text of the schema file, without the pretty printing. -/
def avroSchema (w : World) (n : Nat) (name : Str) (l : List GoField) : Res Str :=
  (avroFields w n [] [] l []).bind fun r => .ok (g!"{" ++ recordHead w name [] metadataFields ++ r.1 ++ g!"]}")

end JT.Go
