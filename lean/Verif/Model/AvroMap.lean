import Verif.Model.GoAst
import Verif.Model.AvroTime
/- generate/avro_helpers.go:123-460 and generate/avro_template.go: the Go code that converts a generated struct to its Avro struct. -/
namespace JT.Go

/-- A Go expression written by the field mapper.  The code writes text; here it is the expression which the text denotes, without the package name in front of Avro
types.  A path `[A, B]` is the selector `z.A.B`. -/
inductive Code where
  /-- `z.A.B` -/
  | field (path : List Str)
  /-- `generate.AvroTime(z.A.B)`, with `Slice` in the name for slices of times and `Optional` for pointers -/
  | time (slice optional : Bool) (path : List Str)
  /-- `&c` -/
  | addr (c : Code)
  /-- `pkg.T{k: c, ...}` -/
  | lit (type : Str) (fields : List (Str × Code))
  /-- `pkg.T{M: c, UnionType: pkg.TTypeEnumM}` -/
  | union (type member : Str) (c : Code)
  /-- `func() *pkg.T { var s *pkg.T; if z.A.B != nil { s = c }; return s }()` -/
  | guard (type : Str) (path : List Str) (c : Code)
  /-- `f(z.A.B)` -/
  | call (fn : Str) (path : List Str)

/-- generate/avro_template.go:219-229: a local function `name := func(in []elem) []*pkg.type`, which for each entry `z` of `in` makes a new struct with the given
fields.  The type of the entries is `none` if the text written for it is not a type. -/
structure SliceFn where
  name : Str
  elem : Option GoType
  type : Str
  fields : List (Str × Code)

/-- generate/avro_helpers.go:126-130: `mappedFields`, for a single field: its value, the local functions to declare before, in order, and a type name. -/
structure Mapped where
  mapping : Code
  pre : List SliceFn := []
  name : Str := []

/-- The structs around the generated one: `gen` those of the same directory (generate/avro_helpers.go:219), `avro` those of the Avro package
(generate/avro_helpers.go:407).  Named types that are not structs are not modelled. -/
structure Decls where
  gen : Str → Option (List GoField)
  avro : Str → Option (List GoField)

/-- The value of a single avro field: name, prefix, type in the Avro struct, generated field. -/
abbrev ValueFn := Str → List Str → GoType → GoField → Res Mapped

/-- generate/avro_helpers.go:242-269: the loop of `generateFields`, with the local functions in order. -/
def genFields (fv : ValueFn) (pre : List Str) (m : GMap GoField) : List GoField → Res (List (Str × Code) × List SliceFn)
  | [] => .ok ([], [])
  | .mk none _ _ :: _ => .err
  | .mk (some k) ty _ :: t =>
    if hasPrefix k g!"Avro" then genFields fv pre m t
    else
      match GMap.get k m with
      | none => .err
      | some gf => (fv k pre ty gf).bind fun v => (genFields fv pre m t).bind fun r => .ok ((k, v.mapping) :: r.1, v.pre ++ r.2)

/-- generate/avro_helpers.go:206-208 -/
def unstar : GoType → GoType
  | .star x => x
  | t => t

/-- generate/avro_helpers.go:210-229: the fields of the struct, and its name if it has one. -/
def childFields (d : Decls) : GoType → Res (List GoField × Option Str)
  | .struct fs => .ok (fs, none)
  | .ident n =>
    match d.gen n with
    | some fs => .ok (fs, some n)
    | none => .err
  | _ => .err

/-- generate/avro_helpers.go:201-240: `generateChildStruct`.  The embedded structs are looked for below the path of a file (line 230), where there are none.
The last component is the name of the struct; without one it is an anonymous struct with these fields. -/
def childStruct (d : Decls) (fv : ValueFn) (expr : GoType) (pre : List Str) (afs : List GoField) :
    Res (List (Str × Code) × List SliceFn × List GoField × Option Str) :=
  (childFields d (unstar expr)).bind fun s =>
    (mapFields (fun _ => none) id 1 s.1).bind fun m =>
      (genFields fv pre m afs).bind fun r => .ok (r.1, r.2, s.1, s.2)

mutual
/-- generate/avro_helpers.go:541-576: `printFields`, the fields of an anonymous struct as they are printed; `none` if the text is not a list of fields.  Embedded
fields and types that are not listed are left out.  All fields have a tag. -/
def printFields : List GoField → Option (List GoField)
  | [] => some []
  | .mk none _ _ :: t => printFields t
  | .mk (some k) ty tag :: t => (printType ty).bind fun o => (printFields t).map fun r =>
      match o with
      | some ty' => .mk (some k) ty' tag :: r
      | none => r
/-- generate/avro_helpers.go:550-573: the type of a field as it is printed; `some none` if the field is left out. -/
def printType : GoType → Option (Option GoType)
  | .ident n => some (some (.ident n))
  | .array (.struct fs) => (printFields fs).map fun r => some (.array (.struct r))
  | .array (.ident n) => some (some (.array (.ident n)))
  | .array _ => none
  | .selector s => if s = g!"Time" then some (some (.selector s)) else none
  | .struct fs => (printFields fs).map fun r => some (.struct r)
  | _ => some none
end

/-- generate/avro_helpers.go:422-430: the type of the entries of the slice, as it is written. -/
def structDef (expr : GoType) (fs : List GoField) (name : Option Str) : Option GoType :=
  match name, expr with
  | none, .star _ => (printFields fs).map fun r => .star (.struct r)
  | none, _ => (printFields fs).map .struct
  | some n, .star _ => some (.star (.ident n))
  | some n, _ => some (.ident n)

/-- generate/avro_helpers.go:432-436 -/
def sliceName (name : Option Str) (typeName : Str) : Str :=
  match name with
  | none => typeName ++ g!"Slice"
  | some n => n ++ g!"_" ++ typeName ++ g!"Slice"

/-- The name of a generated field; the fields found by `mapFields` have one. -/
def ownName (g : GoField) : Str := g.name.getD []

/-- generate/avro_helpers.go:405-460: `generateStructValue`. -/
def structValue (d : Decls) (fv : ValueFn) (name : Str) (pre : List Str) (typeName : Str) (g : GoField) : Res Mapped :=
  match d.avro typeName with
  | none => .err
  | some afs =>
    match g.type with
    | .array elt =>
      (childStruct d fv elt [] afs).bind fun r =>
        .ok { mapping := .call (sliceName r.2.2.2 typeName) (pre ++ [ownName g]),
              pre := r.2.1 ++ [⟨sliceName r.2.2.2 typeName, structDef elt r.2.2.1 r.2.2.2, typeName, r.1⟩] }
    | ty => (childStruct d fv ty (pre ++ [name]) afs).bind fun r => .ok { mapping := .lit typeName r.1, pre := r.2.1 }

/-- A selector whose name is `Time`. -/
def isTime : GoType → Bool
  | .selector s => s = g!"Time"
  | _ => false

/-- A pointer type. -/
def isStar : GoType → Bool
  | .star _ => true
  | _ => false

/-- generate/avro_helpers.go:317-343: the value of a field of type `int64`. -/
def longValue (path : List Str) (g : GoType) : Code :=
  if isTime (unstar g) then .time false (isStar g) path
  else
    match unstar g with
    | .array e => if isTime (unstar e) then .time true (isStar g || isStar e) path else .field path
    | _ => .field path

/-- generate/avro_helpers.go:145 and generate/avro_template.go:231-233: the member of a union with null of a scalar. -/
def unionMember (typeName : Str) : Option Str :=
  if typeName = g!"UnionNullDouble" then some g!"Double"
  else if typeName = g!"UnionNullLong" then some g!"Long"
  else if typeName = g!"UnionNullString" then some g!"String"
  else none

/-- generate/avro_helpers.go:349-358: the value put into the union. -/
def unionValue (path : List Str) (g : GoType) : Code :=
  if isTime (unstar g) then .time false (isStar g) path else .field path

/-- generate/avro_helpers.go:309-387: the case of a named type. -/
def namedValue (d : Decls) (fv : ValueFn) (name : Str) (pre : List Str) (t : Str) (g : GoField) : Res Mapped :=
  if t = g!"string" ∨ t = g!"bool" ∨ t = g!"float64" then
    .ok { mapping := .field (pre ++ [ownName g]), name := join g!"." (pre ++ [name]) }
  else if t = g!"int64" then .ok { mapping := longValue (pre ++ [ownName g]) g.type, name := join g!"." (pre ++ [name]) }
  else
    match unionMember t with
    | some m => .ok { mapping := .union t m (unionValue (pre ++ [name]) g.type), name := t }
    | none =>
      match cutPrefix g!"UnionNull" t with
      | some r => (structValue d fv name pre r g).bind fun v => .ok { mapping := .union t r (.addr v.mapping), pre := v.pre, name := t }
      | none => structValue d fv name pre t g
where
  /-- `strings.HasPrefix` with `strings.TrimPrefix`. -/
  cutPrefix (p s : Str) : Option Str := if hasPrefix s p then some (s.drop p.length) else none

/-- generate/avro_helpers.go:276-290: the value of a pointer type. -/
def starValue (name : Str) (pre : List Str) (g : GoField) (v : Mapped) : Mapped :=
  if isStar g.type then { mapping := .guard v.name (pre ++ [name]) (.addr v.mapping), pre := v.pre }
  else { mapping := .addr v.mapping, pre := v.pre, name := join g!"." (pre ++ [name]) }

/-- A map type. -/
def isMap : GoType → Bool
  | .map _ _ => true
  | _ => false

/-- A slice type. -/
def isArray : GoType → Bool
  | .array _ => true
  | _ => false

/-- generate/avro_helpers.go:273-389: `generateFieldValue`.  The number bounds the depth of the recursion. -/
def fieldValue (d : Decls) : Nat → ValueFn
  | 0 => fun _ _ _ _ => .panic
  | n + 1 => fun name pre ty g =>
    match ty with
    | .star x => (fieldValue d n name pre x g).bind fun v => .ok (starValue name pre g v)
    | .map _ v => if isMap g.type then fieldValue d n name pre v g else .err
    | .array e => if isArray g.type then fieldValue d n name pre (unstar e) g else .err
    | .ident t => namedValue d (fieldValue d n) name pre t g
    | _ => .err

/-- generate/avro_helpers.go:181-197: `generate`, given the fields of the Avro struct; `files` and `ord` are those of `mapFields`. -/
def mapStruct (d : Decls) (files : Str → Option (List GoField)) (ord : GMap GoField → GMap GoField) (n : Nat) (l afs : List GoField) :
    Res (List (Str × Code) × List SliceFn) :=
  (mapFields files ord n l).bind fun m => genFields (fieldValue d n) [] m afs

end JT.Go
