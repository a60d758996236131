import Verif.Spec.AtPath
/- What a schema document says: the types of instances and the transforms, as relations on the document. -/
namespace JT.Spec

/-- An entry of an object that is a string; one that is missing or null counts as the empty string. -/
inductive TextAt (p : P) (k : Str) : Str → Prop where
  | missing : p.key k = none → TextAt p k []
  | null : p.key k = some (.sc .nil) → TextAt p k []
  | text {s : Str} : p.key k = some (.sc (.str s)) → TextAt p k s

/-- An entry of an object that is a list; one that is missing or null counts as the empty list. -/
inductive ListAt (p : P) (k : Str) : List P → Prop where
  | missing : p.key k = none → ListAt p k []
  | null : p.key k = some (.sc .nil) → ListAt p k []
  | list {l : List P} : p.key k = some (.arr l) → ListAt p k l

/-- The method with a name. -/
inductive MethodNamed : Str → Method → Prop where
  | none : MethodNamed [] .first
  | first : MethodNamed g!"first" .first
  | last : MethodNamed g!"last" .last
  | concatenate : MethodNamed g!"concatenate" .concatenate

/-- The delimiter in the options of a method. -/
inductive Delimiter (p : P) : Str → Prop where
  | missing : p.key g!"methodOptions" = none → Delimiter p []
  | null : p.key g!"methodOptions" = some (.sc .nil) → Delimiter p []
  | text {m : List (Str × P)} {d : Str} : p.key g!"methodOptions" = some (.obj m) → TextAt (.obj m) g!"concatenateDelimiter" d → Delimiter p d

/-- An argument of an operation: a string; null counts as the empty string. -/
def ArgAt (p : P) (k v : Str) : Prop :=
  ∃ m, p.key g!"args" = some (.obj m) ∧ ((k, .sc (.str v)) ∈ m ∨ ((k, .sc .nil) ∈ m ∧ v = []))

/-- `OpIs p op`: the document `p` is the operation `op`. -/
inductive OpIs (p : P) : Op → Prop where
  | duration : TextAt p g!"type" g!"duration" → OpIs p .duration
  | lower : TextAt p g!"type" g!"changeCase" → ArgAt p g!"to" g!"lower" → OpIs p (.changeCase false)
  | upper : TextAt p g!"type" g!"changeCase" → ArgAt p g!"to" g!"upper" → OpIs p (.changeCase true)
  | valueExists : TextAt p g!"type" g!"valueExists" → OpIs p .valueExists
  | inverse : TextAt p g!"type" g!"inverse" → OpIs p .inverse
  | max {b r : Str} : TextAt p g!"type" g!"max" → ArgAt p g!"by" b → ArgAt p g!"return" r → OpIs p (.max b r)
  | replace {r n : Str} : TextAt p g!"type" g!"replace" → ArgAt p g!"regex" r → ArgAt p g!"new" n → OpIs p (.replace r n)
  | split {s : Str} : TextAt p g!"type" g!"split" → ArgAt p g!"on" s → OpIs p (.split s)
  | timeParse {f l : Str} : TextAt p g!"type" g!"timeParse" → ArgAt p g!"format" f → ArgAt p g!"layout" l → OpIs p (.timeParse f l)
  | currentTime {f : Str} : TextAt p g!"type" g!"currentTime" → ArgAt p g!"format" f → OpIs p (.currentTime f)
  | toCamelCase {d : Str} : TextAt p g!"type" g!"toCamelCase" → ArgAt p g!"delimiter" d → OpIs p (.toCamelCase d)
  | removeHTML : TextAt p g!"type" g!"removeHTML" → OpIs p .removeHTML
  | convertToFloat64 : TextAt p g!"type" g!"convertToFloat64" → OpIs p .convertToFloat64
  | convertToInt64 : TextAt p g!"type" g!"convertToInt64" → OpIs p .convertToInt64
  | convertToBool : TextAt p g!"type" g!"convertToBool" → OpIs p .convertToBool

/-- Two lists that are related entry by entry. -/
inductive Each {α β : Type} (R : α → β → Prop) : List α → List β → Prop where
  | nil : Each R [] []
  | cons {a : α} {b : β} {as : List α} {bs : List β} : R a b → Each R as bs → Each R (a :: as) (b :: bs)

/-- One instruction, with `up` in the place of `@`. -/
structure InstrIs (up : Str) (p : P) (ti : Instr) : Prop where
  json : ∃ s, TextAt p g!"jsonPath" s ∧ ti.jsonPath = atPath up s
  xml : ∃ s, TextAt p g!"xmlPath" s ∧ ti.xmlPath = atPath up s
  ops : ∃ l, ListAt p g!"operations" l ∧ Each OpIs l ti.ops

/-- A transform: the instructions in the order of the document, the method and the delimiter. -/
structure InstrsIs (up : Str) (p : P) (tis : Instrs) : Prop where
  «from» : ∃ l, ListAt p g!"from" l ∧ Each (InstrIs up) l tis.from
  method : ∃ s, TextAt p g!"method" s ∧ MethodNamed s tis.method
  delim : Delimiter p tis.delim

/-- The transform of an instance for an identifier; an empty string is no transform. -/
inductive TransformIs (ident up : Str) (raw : P) : Option Instrs → Prop where
  | none : raw.key g!"transform" = none → TransformIs ident up raw none
  | other {tr : P} : raw.key g!"transform" = some tr → tr.key ident = none → TransformIs ident up raw none
  | empty {tr : P} : raw.key g!"transform" = some tr → tr.key ident = some (.sc (.str [])) → TransformIs ident up raw none
  | some {tr p : P} {tis : Instrs} : raw.key g!"transform" = some tr → tr.key ident = some p → InstrsIs up p tis → TransformIs ident up raw (some tis)

/-- A node has the transform of an instance. -/
def HasTransform (ident up : Str) (s : St) (tid : Option Nat) (raw : P) : Prop :=
  ∃ o, TransformIs ident up raw o ∧
    match o, tid with
    | none, none => True
    | some tis, some i => s.instrs[i]? = some tis
    | _, _ => False

/-- The names in a list of types, other than `null`; entries that are not strings are skipped. -/
def typeNames (l : List P) : List Str := l.filterMap fun p => match p with
  | .sc (.str t) => if t = g!"null" then none else some t
  | _ => none

/-- The type of an instance: a name, or a list with at most one name other than `null`. -/
inductive TypeOf (raw : P) : Str → Prop where
  | name {t : Str} : raw.key g!"type" = some (.sc (.str t)) → TypeOf raw t
  | list {l : List P} {t : Str} : raw.key g!"type" = some (.arr l) → typeNames l = [t] → TypeOf raw t
  | null {l : List P} : raw.key g!"type" = some (.arr l) → typeNames l = [] → TypeOf raw []
  /-- Lists with empty names are not described. -/
  | unnamed {l : List P} {t : Str} : raw.key g!"type" = some (.arr l) → [] ∈ typeNames l → TypeOf raw t

/-- The type of a scalar: strings with the format `date-time` have their own. -/
inductive ScalarTypeOf (raw : P) : Str → Prop where
  | time : TypeOf raw g!"string" → raw.key g!"format" = some (.sc (.str g!"date-time")) → ScalarTypeOf raw g!"date-time"
  | string : TypeOf raw g!"string" → raw.key g!"format" ≠ some (.sc (.str g!"date-time")) → ScalarTypeOf raw g!"string"
  | other {t : Str} : TypeOf raw t → t ≠ g!"string" → t ≠ g!"array" → (t = g!"object" → raw.key g!"properties" = some (.obj [])) → ScalarTypeOf raw t

mutual
/-- The transformer `t` is the one for the instance `raw` at a position of a schema: same kind, path, default and transform, one child for the items of an array, one
child per property of an object. -/
def Describes (ident : Str) (s : St) : T → List Seg → P → Prop
  | .scalar p ty d tid, l, raw => p = pathOf l ∧ ScalarTypeOf raw ty ∧ DefaultIs s d raw ∧ HasTransform ident (enclosing l true) s tid raw
  | .array _ _ _ none, _, _ => False
  | .array p d tid (some c), l, raw => p = pathOf l ∧ TypeOf raw g!"array" ∧ DefaultIs s (arrD d) raw ∧ HasTransform ident (enclosing l false) s tid raw ∧
    ∃ items, raw.key g!"items" = some items ∧ Describes ident s c (l ++ [.star]) items
  | .object p d tid cs, l, raw => p = pathOf l ∧ TypeOf raw g!"object" ∧ DefaultIs s (objD d) raw ∧ HasTransform ident (enclosing l false) s tid raw ∧
    ∃ m, raw.key g!"properties" = some (.obj m) ∧ m ≠ [] ∧ GMap.Sorted cs ∧ (∀ k, (∃ q, (k, q) ∈ m) → ∃ t, (k, t) ∈ cs) ∧ DescribesKids ident s cs l m
/-- Each child is the one for the property of the same name. -/
def DescribesKids (ident : Str) (s : St) : List (Str × T) → List Seg → List (Str × P) → Prop
  | [], _, _ => True
  | (k, t) :: r, l, m => (∃ q, (k, q) ∈ m ∧ Describes ident s t (l ++ [.key k]) q) ∧ DescribesKids ident s r l m
end

/-- A transformer is the one for a schema. -/
def DescribesSchema (ident : Str) (s : St) (t : T) (sc : Schema) : Prop :=
  (∃ m cs, sc.properties = some m ∧ sc.items = none ∧ t = .object g!"$" none none cs ∧ GMap.Sorted cs ∧
    (∀ k, (∃ q, (k, q) ∈ m) → ∃ t, (k, t) ∈ cs) ∧ DescribesKids ident s cs [] m) ∨
  (∃ q c, sc.properties = none ∧ sc.items = some q ∧ t = .array g!"$" none none (some c) ∧ Describes ident s c [.star] q)

end JT.Spec
