import Verif.Spec.GoJson
import Verif.Spec.Shape
/- What ties the two halves of the package together: the JSON document that a value of the transformer is written as, and schemas whose documents the generated struct can read. -/
namespace JT.GoJson
open JT.Spec

/-- How encoding/json writes a `float64` and a `time.Time`. -/
structure Writer where
  float : F64 → Str
  time : GTime → Str

/-- The document that a value is written as by json.Marshal.  Nodes of XML documents have none: they point to their parents and json.Marshal refuses cycles. -/
inductive MarshalsTo (w : Writer) : P → J → Prop
  | null : MarshalsTo w (.sc .nil) .null
  | bool {b : Bool} : MarshalsTo w (.sc (.bool b)) (.bool b)
  | int {i : Int} : MarshalsTo w (.sc (.int i)) (.num (itoa i))
  | i64 {i : Int} : MarshalsTo w (.sc (.i64 i)) (.num (itoa i))
  | float {f : F64} : MarshalsTo w (.sc (.f64 f)) (.num (w.float f))
  | str {s : Str} : MarshalsTo w (.sc (.str s)) (.str s)
  | time {t : GTime} : MarshalsTo w (.sc (.time t)) (.str (w.time t))
  | arr {l : List P} {js : List J} : l.length = js.length → (∀ n (h : n < l.length) (h' : n < js.length), MarshalsTo w l[n] js[n]) → MarshalsTo w (.arr l) (.arr js)
  | obj {o : List (Str × P)} {js : List (Str × J)} : o.map Prod.fst = js.map Prod.fst →
      (∀ n (h : n < o.length) (h' : n < js.length), MarshalsTo w o[n].2 js[n].2) → MarshalsTo w (.obj o) (.obj js)

/-- The numbers in a document, as they are written. -/
inductive NumIn (s : Str) : J → Prop
  | num : NumIn s (.num s)
  | arr {l : List J} {x : J} : x ∈ l → NumIn s x → NumIn s (.arr l)
  | obj {l : List (Str × J)} {kv : Str × J} : kv ∈ l → NumIn s kv.2 → NumIn s (.obj l)

/-- The whole numbers of a document are written in digits and have 64 bits.  `whole` tells the numerals of whole numbers, as a validator does. -/
def PlainNumbers (whole : Str → Prop) (j : J) : Prop := ∀ s, NumIn s j → whole s → ∃ n, s = itoa n ∧ inInt64 n = true

/-- What is taken from the libraries: json.Marshal writes documents that can be read again, and what the validator accepts is a document of the schema.  If whole numbers
are written in another way than in digits (`1e+21`), nothing is said. -/
structure Faithful (w : Writer) (whole : Str → Prop) (c : Codec) (lib : Lib) (reads : Str → Option J) (m : GMap P) (required : List Str) : Prop where
  digits : ∀ n, whole (itoa n) ∧ whole (itoa n ++ g!".0")
  written : ∀ p out, lib.marshal p = some out → ∃ j, reads out = some j ∧ MarshalsTo w p j
  checked : ∀ out j, lib.validate out = some true → reads out = some j → PlainNumbers whole j → ∃ l, j = .obj l ∧ Members c false false m required l

/-- An object with a property for Go, no two properties that differ only in case, and no optional time without pointer. -/
structure Level (c : Codec) (pointers : Bool) (m : GMap P) (required : List Str) : Prop where
  any : ∃ k q, Listed m k q
  fold : ∀ k q k' q', GMap.get k m = some q → Listed m k' q' → c.fold k' = c.fold k → k' = k
  times : ∀ k q, Listed m k q → k ∉ required → ¬ BareTime pointers q

/-- All objects of the schema are such; on XML input, arrays have no default. -/
structure Levels (c : Codec) (pointers : Bool) (fmt : Format) (sc : Schema) : Prop where
  object : ∀ q i m, SchemaInst sc q → decodeInstance false q = .ok i → TypeIs i g!"object" → i.properties = some m → Level c pointers m i.required
  array : fmt = .xml → ∀ q, SchemaInst sc q → ArrayDef q → NoDefault q

end JT.GoJson
