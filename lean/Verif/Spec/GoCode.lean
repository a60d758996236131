import Verif.Model.AvroMap
import Verif.Spec.GoName
/-
The meaning of the Go code written by the field mapper: values, evaluation and types of its expressions; and what it should compute.
-/
namespace JT.Go

/-- A value of a generated Go struct or of one of its fields.  The fields of a struct are given under the names a selector finds them by, those of embedded structs
included. -/
inductive GV where
  | str (s : Str)
  | int (i : Int)
  | flt (bits : BitVec 64)
  | bool (b : Bool)
  | time (t : Avro.Time)
  /-- a nil pointer -/
  | nil
  | ptr (v : GV)
  | slice (l : List GV)
  /-- a map with texts as keys -/
  | map (l : List (Str × GV))
  | struct (fs : List (Str × GV))

/-- A value of an Avro struct or of one of its fields. -/
inductive AV where
  | str (s : Str)
  | int (i : Int)
  | flt (bits : BitVec 64)
  | bool (b : Bool)
  /-- a nil pointer; for a union this is null -/
  | nil
  | ptr (v : AV)
  | slice (l : List AV)
  | map (l : List (Str × AV))
  /-- a struct; fields that are not listed have their zero value -/
  | record (type : Str) (fs : List (Str × AV))
  /-- a union with null whose member is set -/
  | union (member : Str) (v : AV)

namespace Spec

/-- Results for all entries of a list, if there are. -/
def mapAll {α β : Type} (f : α → Option β) : List α → Option (List β)
  | [] => some []
  | x :: t => (f x).bind fun y => (mapAll f t).map fun r => y :: r

/-- The selector `v.k`.  It dereferences pointers; a nil pointer panics, which is `none`. -/
def sel (k : Str) : GV → Option GV
  | .struct fs => GMap.get k fs
  | .ptr (.struct fs) => GMap.get k fs
  | _ => none

/-- The selector `v.A.B`. -/
def selV (v : GV) (p : List Str) : Option GV := p.foldl (fun o k => o.bind (sel k)) (some v)

/-- A scalar, used as it is. -/
def plain : GV → Option AV
  | .str s => some (.str s)
  | .int i => some (.int i)
  | .flt b => some (.flt b)
  | .bool b => some (.bool b)
  | _ => none

/-- A scalar or a slice or map of basics, used as it is.  Other values do not have the type of an Avro field. -/
def direct : GV → Option AV
  | .slice l => (mapAll plain l).map .slice
  | .map l => (mapAll (fun e => (plain e.2).map fun a => (e.1, a)) l).map .map
  | v => plain v

/-- A time. -/
def theTime : GV → Option Avro.Time
  | .time t => some t
  | _ => none

/-- A pointer to a time. -/
def theOptional : GV → Option (Option Avro.Time)
  | .nil => some none
  | .ptr (.time t) => some (some t)
  | _ => none

/-- `generate.AvroTime` and the functions like it. -/
def callTime : (slice optional : Bool) → GV → Option AV
  | false, false, v => (theTime v).map fun t => .int (Avro.avroTime t)
  | false, true, v => (theOptional v).map fun t => .int (Avro.avroOptionalTime t)
  | true, false, .slice l => (mapAll theTime l).map fun ts => .slice ((Avro.avroTimeSlice ts).map .int)
  | true, true, .slice l => (mapAll theOptional l).map fun ts => .slice (((Avro.avroOptionalTimeSlice ts).getD []).map .int)
  | _, _, _ => none

/-- The local functions: what they return. -/
abbrev Funs := Str → GV → Option AV

mutual
/-- The value of an expression, where `z` is the variable of that name. -/
def eval (env : Funs) (z : GV) : Code → Option AV
  | .field p => (selV z p).bind direct
  | .time s o p => (selV z p).bind (callTime s o)
  | .addr c => (eval env z c).map .ptr
  | .lit t fs => (evalFields env z fs).map (.record t)
  | .union _ m c => (eval env z c).map (.union m)
  | .guard _ p c =>
    match selV z p with
    | some .nil => some .nil
    | some _ => eval env z c
    | none => none
  | .call f p => (selV z p).bind (env f)
def evalFields (env : Funs) (z : GV) : List (Str × Code) → Option (List (Str × AV))
  | [] => some []
  | (k, c) :: t => (eval env z c).bind fun a => (evalFields env z t).map fun r => (k, a) :: r
end

/-- What a local function returns, given those declared before it. -/
def runSlice (env : Funs) (g : SliceFn) : GV → Option AV
  | .slice l => (mapAll (fun z => (evalFields env z g.fields).map fun fs => AV.ptr (.record g.type fs)) l).map .slice
  | _ => none

/-- The local functions, the last one first. -/
def funs : List SliceFn → Funs
  | [] => fun _ _ => none
  | g :: t => fun f v => if f = g.name then runSlice (funs t) g v else funs t f v

/-- generate/avro_template.go:63-76: `convertToAvro`, where `aTime` is the time of writing.  A field that is not listed has its zero value. -/
def convertToAvro (aTime : Int) (name : Str) (pre : List SliceFn) (fields : List (Str × Code)) : GV → Option AV
  | .nil => some (.ptr (.record name [(g!"AvroWriteTime", .int aTime), (g!"AvroDeleted", .bool true)]))
  | z => (evalFields (funs pre.reverse) z fields).map fun fs => .ptr (.record name ((g!"AvroWriteTime", .int aTime) :: fs))

/-! ### Types -/

/-- The types of basics, which are not names of structs, and the unions of null with them. -/
def basics : List Str := [g!"string", g!"bool", g!"float64", g!"int64"]
def unions : List (Str × Str × Str) :=
  [(g!"UnionNullString", g!"String", g!"string"), (g!"UnionNullLong", g!"Long", g!"int64"), (g!"UnionNullDouble", g!"Double", g!"float64")]

/-- The fields of a struct type, anonymous or named. -/
def StructOf (d : Decls) (t : GoType) (fs : List GoField) : Prop := t = .struct fs ∨ ∃ n, t = .ident n ∧ n ∉ basics ∧ d.gen n = some fs

/-- A type has a field; pointers are dereferenced. -/
def FieldOf (d : Decls) (t : GoType) (k : Str) (u : GoType) : Prop := ∃ fs tag, StructOf d (unstar t) fs ∧ .mk (some k) u tag ∈ fs

/-- The type of the selector `z.A.B`, where `root` gives the types of the fields of `z`. -/
inductive SelT (d : Decls) (root : Str → GoType → Prop) : List Str → GoType → Prop
  | one {k : Str} {t : GoType} : root k t → SelT d root [k] t
  | more {p : List Str} {k : Str} {t u : GoType} : SelT d root p t → FieldOf d t k u → SelT d root (p ++ [k]) u

def time : GoType := .selector g!"Time"
def long : GoType := .ident g!"int64"

/-- The types of the arguments and results of `generate.AvroTime` and the functions like it. -/
def timeArg : (slice optional : Bool) → GoType
  | false, false => time
  | false, true => .star time
  | true, false => .array time
  | true, true => .array (.star time)
def timeRes : (slice : Bool) → GoType
  | false => long
  | true => .array long

/-- The type of the member of a union. -/
inductive Member : Str → Str → GoType → Prop
  | scalar {u m b : Str} : (u, m, b) ∈ unions → Member u m (.ident b)
  | record {r : Str} : Member (g!"UnionNull" ++ r) r (.star (.ident r))

/-- Expressions whose address can be taken. -/
def Literal : Code → Prop
  | .lit _ _ => True
  | .union _ _ _ => True
  | _ => False

/-- An expression has a type.  `sig f e t`: the local function `f` takes slices of `e` and gives slices of `*t`. -/
inductive HasType (d : Decls) (sig : Str → GoType → Str → Prop) (root : Str → GoType → Prop) : Code → GoType → Prop
  | field {p : List Str} {t : GoType} : SelT d root p t → HasType d sig root (.field p) t
  | time {s o : Bool} {p : List Str} : SelT d root p (timeArg s o) → HasType d sig root (.time s o p) (timeRes s)
  | addr {c : Code} {t : GoType} : Literal c → HasType d sig root c t → HasType d sig root (.addr c) (.star t)
  | lit {r : Str} {fs : List (Str × Code)} {afs : List GoField} (ty : Str → GoType) : d.avro r = some afs → (fs.map Prod.fst).Nodup →
      (∀ k c, (k, c) ∈ fs → ∃ tag, GoField.mk (some k) (ty k) tag ∈ afs) → (∀ k c, (k, c) ∈ fs → HasType d sig root c (ty k)) →
      HasType d sig root (.lit r fs) (.ident r)
  | union {u m : Str} {c : Code} {t : GoType} : Member u m t → HasType d sig root c t → HasType d sig root (.union u m c) (.ident u)
  | guard {r : Str} {p : List Str} {c : Code} {t : GoType} : SelT d root p (.star t) → HasType d sig root c (.star (.ident r)) →
      HasType d sig root (.guard r p c) (.star (.ident r))
  | call {f : Str} {p : List Str} {e : GoType} {r : Str} : sig f e r → SelT d root p (.array e) → HasType d sig root (.call f p) (.array (.star (.ident r)))

/-- The types of the functions of a list. -/
def sigs (l : List SliceFn) (f : Str) (e : GoType) (r : Str) : Prop := ∃ g ∈ l, g.name = f ∧ g.elem = some e ∧ g.type = r

/-- A function may be declared after those of a list: its name is new, its body has a type. -/
def Declares (d : Decls) (l : List SliceFn) (g : SliceFn) : Prop :=
  (∀ h ∈ l, h.name ≠ g.name) ∧ ∃ e, g.elem = some e ∧ HasType d (sigs l) (FieldOf d e) (.lit g.type g.fields) (.ident g.type)

/-- The local functions compile, in this order. -/
def FunsCompile (d : Decls) (pre : List SliceFn) : Prop := ∀ a g b, pre = a ++ g :: b → Declares d a g

/-- The body of `convertToAvro` compiles, where `root` gives the types of the fields of the generated struct.  That local functions are used and imports needed is
not part of this. -/
def Compiles (d : Decls) (root : Str → GoType → Prop) (name : Str) (pre : List SliceFn) (fields : List (Str × Code)) : Prop :=
  FunsCompile d pre ∧ HasType d (sigs pre) root (.lit name fields) (.ident name)

/-! ### What is to be computed -/

/-- The fields that do not stem from the generated struct. -/
def Meta (k : Str) : Prop := g!"Avro" <+: k

/-- The names of the fields of an Avro struct that stem from the generated one. -/
def FieldNames (afs : List GoField) (l : List Str) : Prop :=
  l.Nodup ∧ ∀ k, k ∈ l ↔ ¬ Meta k ∧ ∃ t tag, GoField.mk (some k) t tag ∈ afs

/-- The entries of a slice of pointers to times which are not nil. -/
def presentTimes : List GV → List AV
  | [] => []
  | .ptr (.time t) :: l => .int (Avro.avroTime t) :: presentTimes l
  | _ :: l => presentTimes l

/-- `Conv d v a`: the Avro value `a` represents the value `v`.  Scalars are the same, times are in milliseconds; a value that may be missing is in a union with null,
and null is for nil pointers only; a struct is a record with a field for each field of the Avro struct; slices and
maps are converted entry by entry, but missing times are left out. -/
inductive Conv (d : Decls) : GV → AV → Prop
  | str {s : Str} : Conv d (.str s) (.str s)
  | int {i : Int} : Conv d (.int i) (.int i)
  | flt {b : BitVec 64} : Conv d (.flt b) (.flt b)
  | bool {b : Bool} : Conv d (.bool b) (.bool b)
  | time {t : Avro.Time} : Conv d (.time t) (.int (Avro.avroTime t))
  | nil : Conv d .nil .nil
  | deref {v : GV} {a : AV} : Conv d v a → Conv d (.ptr v) a
  | union {v : GV} {m : Str} {a : AV} : v ≠ .nil → Conv d v a → Conv d v (.ptr (.union m a))
  | struct {fs : List (Str × GV)} {r : Str} {gs : List (Str × AV)} {afs : List GoField} (v : Str → GV) : d.avro r = some afs →
      FieldNames afs (gs.map Prod.fst) → (∀ k a, (k, a) ∈ gs → GMap.get k fs = some (v k)) → (∀ k a, (k, a) ∈ gs → Conv d (v k) a) →
      Conv d (.struct fs) (.ptr (.record r gs))
  | slice {l : List GV} {r : List AV} : r.length = l.length → (∀ (i : Nat) v a, l[i]? = some v → r[i]? = some a → Conv d v a) → Conv d (.slice l) (.slice r)
  | map {l : List (Str × GV)} {r : List (Str × AV)} : r.map Prod.fst = l.map Prod.fst →
      (∀ (i : Nat) k v a, l[i]? = some (k, v) → r[i]? = some (k, a) → Conv d v a) → Conv d (.map l) (.map r)
  | times {l : List GV} : (∀ v ∈ l, v = .nil ∨ ∃ t, v = .ptr (.time t)) → Conv d (.slice l) (.slice (presentTimes l))

/-- A value of a type.  Slices of pointers to structs have no nil entries. -/
inductive Val (d : Decls) : GoType → GV → Prop
  | str {s : Str} : Val d (.ident g!"string") (.str s)
  | int {i : Int} : Val d (.ident g!"int64") (.int i)
  | flt {b : BitVec 64} : Val d (.ident g!"float64") (.flt b)
  | bool {b : Bool} : Val d (.ident g!"bool") (.bool b)
  | time {t : Avro.Time} : Val d time (.time t)
  | nil {t : GoType} : Val d (.star t) .nil
  | ptr {t : GoType} {v : GV} : Val d t v → Val d (.star t) (.ptr v)
  | slice {t : GoType} {l : List GV} : (∀ v ∈ l, Val d t v) → (t = .star Spec.time ∨ .nil ∉ l) → Val d (.array t) (.slice l)
  | map {t : GoType} {l : List (Str × GV)} : (∀ e ∈ l, Val d t e.2) → Val d (.map (.ident g!"string") t) (.map l)
  | struct {t : GoType} {fs : List GoField} {m : List (Str × GV)} (v : Str → GV) : StructOf d t fs →
      (∀ k u tag, GoField.mk (some k) u tag ∈ fs → GMap.get k m = some (v k)) → (∀ k u tag, GoField.mk (some k) u tag ∈ fs → Val d u (v k)) →
      Val d t (.struct m)

/-! ### The Avro struct of a generated struct -/

/-- The type of a named Avro record, not a scalar or a union. -/
def RecName (r : Str) : Prop := r ∉ basics ∧ ¬ g!"UnionNull" <+: r ∧ r ≠ g!"Double" ∧ r ≠ g!"Long" ∧ r ≠ g!"String"

mutual
/-- Anonymous structs whose definition can be repeated. -/
def Printable : List GoField → Prop
  | [] => True
  | .mk n t _ :: l => n ≠ none ∧ PrintableType t ∧ Printable l
def PrintableType : GoType → Prop
  | .ident _ => True
  | .array (.ident _) => True
  | .array (.struct fs) => Printable fs
  | .selector s => s = g!"Time"
  | .struct fs => Printable fs
  | _ => False
end

/-- The fields of a struct: named, with different names, none of which is a name reserved for methods. -/
def Named (fs : List GoField) : Prop :=
  (∀ f ∈ fs, ∃ k, f.name = some k ∧ k ∉ Spec.methods) ∧ (fs.map GoField.name).Nodup

/-- A list of structs: the name of the struct, if it has one, and its Avro record. -/
abbrev ListOf := Option Str × Str

/-- The name of a type. -/
def typeName : GoType → Option Str
  | .ident n => some n
  | _ => none

/-- The name of the local function that converts a list of structs. -/
def fnName : ListOf → Str
  | (none, r) => r ++ g!"Slice"
  | (some n, r) => n ++ g!"_" ++ r ++ g!"Slice"

/-- `Fits d false t a L`: `a` is the type in the Avro struct for a field of type `t`.  `Fits d true t (.ident r) L`: `r` is the Avro record for the struct `t`.  `L`
are the lists of structs in it, at any depth, in any order. -/
inductive Fits (d : Decls) : Bool → GoType → GoType → List ListOf → Prop
  | same {b : Str} : b ∈ basics → Fits d false (.ident b) (.ident b) []
  | time : Fits d false time long []
  | optional {u m b : Str} : (u, m, b) ∈ unions → Fits d false (.ident b) (.star (.ident u)) []
  | optTime : Fits d false Spec.time (.star (.ident g!"UnionNullLong")) []
  | ptrTime : Fits d false (.star Spec.time) (.star (.ident g!"UnionNullLong")) []
  | slice {b : Str} : b ∈ basics → Fits d false (.array (.ident b)) (.array (.ident b)) []
  | map {b : Str} : b ∈ basics → Fits d false (.map (.ident g!"string") (.ident b)) (.map (.ident g!"string") (.ident b)) []
  | times : Fits d false (.array Spec.time) (.array long) []
  | ptrTimes : Fits d false (.array (.star Spec.time)) (.array long) []
  | record {t : GoType} {fs : List GoField} {r : Str} {afs : List GoField} {ks : List Str} {L : List ListOf} (ty : Str → GoType) (Ls : Str → List ListOf) :
      StructOf d t fs → Named fs → RecName r → d.avro r = some afs →
      (∀ f ∈ afs, f.name ≠ none) → (afs.map GoField.name).Nodup →
      (∀ k a tag, GoField.mk (some k) a tag ∈ afs → ¬ Meta k → ∃ tg, GoField.mk (some k) (ty k) tg ∈ fs) →
      (∀ k a tag, GoField.mk (some k) a tag ∈ afs → ¬ Meta k → Fits d false (ty k) a (Ls k)) →
      FieldNames afs ks → L.Perm (ks.flatMap Ls) → Fits d true t (.ident r) L
  | struct {t : GoType} {r : Str} {L : List ListOf} : Fits d true t (.ident r) L → Fits d false t (.star (.ident r)) L
  | optStruct {t : GoType} {r : Str} {L : List ListOf} : Fits d true t (.ident r) L → Fits d false t (.star (.ident (g!"UnionNull" ++ r))) L
  | ptrStruct {t : GoType} {r : Str} {L : List ListOf} : Fits d true t (.ident r) L → Fits d false (.star t) (.star (.ident (g!"UnionNull" ++ r))) L
  | structs {t : GoType} {r : Str} {L : List ListOf} : Fits d true t (.ident r) L → (∀ fs, t = .struct fs → Printable fs) →
      Fits d false (.array t) (.array (.star (.ident r))) (L ++ [(typeName t, r)])
  | ptrStructs {t : GoType} {r : Str} {L : List ListOf} : Fits d true t (.ident r) L → (∀ fs, t = .struct fs → Printable fs) →
      Fits d false (.array (.star t)) (.array (.star (.ident r))) (L ++ [(typeName t, r)])

end Spec
end JT.Go
