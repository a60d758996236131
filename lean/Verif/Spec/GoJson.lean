import Verif.Spec.Fields
/-
Generated structs as Go and encoding/json see them: the struct type that the lines of a struct declare, `json.Unmarshal` into it and `json.Marshal` of it; and the
documents that a schema describes.
-/
namespace JT.GoJson
open Gen

/-! ### Struct types -/

/-- The options of a json tag. -/
inductive Omit where
  | never | empty | zero
  deriving DecidableEq, Repr

mutual
/-- The Go types of generated fields. -/
inductive GT where
  | bool | int64 | float64 | string | time
  /-- `map[string]string` -/
  | dict
  | ptr (t : GT)
  | slice (t : GT)
  | struct (fs : List SF)
/-- A field of a struct: its name, its name in JSON, the option of its tag, and its type. -/
inductive SF where
  | mk (name json : Str) (opt : Omit) (type : GT)
end

def SF.name : SF → Str
  | .mk n _ _ _ => n
def SF.json : SF → Str
  | .mk _ j _ _ => j
def SF.opt : SF → Omit
  | .mk _ _ o _ => o
def SF.type : SF → GT
  | .mk _ _ _ t => t

/-- The types that are written as a word. -/
def wordType (s : Str) : Option GT :=
  if s = g!"bool" then some .bool
  else if s = g!"int64" then some .int64
  else if s = g!"float64" then some .float64
  else if s = g!"string" then some .string
  else if s = g!"time.Time" then some .time
  else if s = g!"map[string]string" then some .dict
  else none

/-- Read a type, given how to read words. -/
def readType (word : Str → Option GT) : Str → Option GT
  | '*' :: s => (readType word s).map .ptr
  | '[' :: ']' :: s => (readType word s).map .slice
  | s => word s

/-- A character that may be in the name of a json tag (encoding/json `isValidTag`; letters and digits besides those of ASCII are left out). -/
def tagChar (c : Char) : Bool := c.isAlphanum || "!#$%&()*+-./:;<=>?@[]^_{|}~ ".toList.contains c

/-- The name of a json tag; `-` has a meaning of its own. -/
def TagName (k : Str) : Prop := k ≠ [] ∧ k ≠ g!"-" ∧ ∀ c ∈ k, tagChar c = true

instance (k : Str) : Decidable (TagName k) := inferInstanceAs (Decidable (_ ∧ _ ∧ _))

/-- The option at the end of a json tag. -/
def readOmit (s : Str) : Option Omit :=
  if s = [] then some .never
  else if s = g!",omitempty" then some .empty
  else if s = g!",omitzero" then some .zero
  else none

/-- Read a struct tag in backquotes at the end of a line, as `reflect.StructTag.Get("json")` and encoding/json do. -/
def readTag (s : Str) : Option (Str × Omit) :=
  if hasPrefix s g!"`json:\"" = false then none
  else
    let r := s.drop (g!"`json:\"").length
    let q := r.takeWhile fun c => c ≠ '"'
    if (r.dropWhile fun c => c ≠ '`') ≠ g!"`\n" ∨ (r.dropWhile fun c => c ≠ '"') = [] ∨ ('`' ∈ q) then none
    else
      let name := q.takeWhile fun c => c ≠ ','
      if TagName name then (readOmit (q.dropWhile fun c => c ≠ ',')).map fun o => (name, o) else none

/-- The name of an exported field (in ASCII). -/
def Exported (n : Str) : Prop := (∃ c t, n = c :: t ∧ c.isUpper = true) ∧ ∀ c ∈ n, (c.isAlphanum || c == '_') = true

instance (n : Str) : Decidable (Exported n) :=
  match n with
  | [] => .isFalse (by rintro ⟨⟨c, t, h, _⟩, _⟩; cases h)
  | c :: t => if h : c.isUpper = true ∧ ∀ x ∈ c :: t, (x.isAlphanum || x == '_') = true then .isTrue ⟨⟨c, t, rfl, h.1⟩, h.2⟩
    else .isFalse (by rintro ⟨⟨c', t', h1, h2⟩, h3⟩; cases h1; exact h ⟨h2, h3⟩)

/-- Go accepts no two fields of the same name. -/
def checked (fs : List SF) : Option (List SF) := if (fs.map SF.name).Nodup ∧ ∀ f ∈ fs, Exported f.name then some fs else none

/-- The word `struct` for the type of the fields between the braces. -/
def structWord (fs : List SF) (s : Str) : Option GT := if s = g!"struct" then some (.struct fs) else none

/-- Read the lines of a struct: `stack` has the structs around, with the name and type of the field and the fields before it; `acc` the fields so far. -/
def readLines : List Line → List (Str × Str × List SF) → List SF → Option (List SF)
  | [], [], acc => checked acc
  | [], _ :: _, _ => none
  | .comment _ :: t, st, acc => readLines t st acc
  | .field _ n ty tag :: t, st, acc => (readType wordType ty).bind fun g => (readTag tag).bind fun x => readLines t st (acc ++ [.mk n x.1 x.2 g])
  | .open _ n ty :: t, st, acc => readLines t ((n, ty, acc) :: st) []
  | .close _ tag :: t, (n, ty, before) :: st, acc =>
    (checked acc).bind fun fs => (readType (structWord fs) ty).bind fun g => (readTag tag).bind fun x => readLines t st (before ++ [.mk n x.1 x.2 g])
  | .close _ _ :: _, [], _ => none

/-- The struct type that the lines of a struct declare. -/
def readStruct (body : List Line) : Option GT := (readLines body [] []).map .struct

/-! ### Values and encoding/json -/

/-- A JSON document.  Numbers are given as they are written. -/
inductive J where
  | null
  | bool (b : Bool)
  | num (lit : Str)
  | str (s : Str)
  | arr (l : List J)
  | obj (l : List (Str × J))

/-- Numbers and times as Go handles them: strconv.ParseFloat and its inverse, `time.Time` with RFC 3339, and how keys are compared if the case is ignored. -/
structure Codec where
  F : Type
  T : Type
  parseFloat : Str → Option F
  formatFloat : F → Str
  zeroFloat : F
  isZeroFloat : F → Bool
  parseTime : Str → Option T
  formatTime : T → Str
  zeroTime : T
  isZeroTime : T → Bool
  fold : Str → Str

/-- What is written can be read again. -/
structure Codec.Lawful (c : Codec) : Prop where
  float : ∀ s x, c.parseFloat s = some x → c.parseFloat (c.formatFloat x) = some x
  time : ∀ s x, c.parseTime s = some x → c.parseTime (c.formatTime x) = some x
  zeroFloat : c.isZeroFloat c.zeroFloat = true
  zeroTime : c.isZeroTime c.zeroTime = true

/-- Go values. -/
inductive GV (c : Codec) where
  | bool (b : Bool)
  | int (n : Int)
  | float (x : c.F)
  | str (s : Str)
  | time (t : c.T)
  | nil
  | ptr (v : GV c)
  | slice (l : List (GV c))
  | dict (l : List (Str × Str))
  | struct (l : List (GV c))

mutual
/-- The zero value of a type. -/
def zero (c : Codec) : GT → GV c
  | .bool => .bool false
  | .int64 => .int 0
  | .float64 => .float c.zeroFloat
  | .string => .str []
  | .time => .time c.zeroTime
  | .dict => .nil
  | .ptr _ => .nil
  | .slice _ => .nil
  | .struct fs => .struct (zeros c fs)
def zeros (c : Codec) : List SF → List (GV c)
  | [] => []
  | .mk _ _ _ t :: r => zero c t :: zeros c r
end

/-- All results, if there are. -/
def mapOpt {α β : Type} (f : α → Option β) : List α → Option (List β)
  | [] => some []
  | a :: l => (f a).bind fun b => (mapOpt f l).map fun r => b :: r

/-- A step for each entry. -/
def foldOpt {α σ : Type} (f : σ → α → Option σ) : σ → List α → Option σ
  | s, [] => some s
  | s, a :: l => (f s a).bind fun s' => foldOpt f s' l

/-- The field for a key: the one with that name, or else one with that name if the case is ignored. -/
def fieldFor (c : Codec) (fs : List SF) (k : Str) : Option Nat :=
  match fs.findIdx? (fun f => f.json = k) with
  | some i => some i
  | none => fs.findIdx? (fun f => c.fold f.json = c.fold k)

/-- An entry of a `map[string]string`. -/
def dictEntry (kv : Str × J) : Option (Str × Str) :=
  match kv.2 with
  | .str s => some (kv.1, s)
  | .null => some (kv.1, [])
  | _ => none

mutual
/-- `json.Unmarshal` into a variable of a type that has the value `old`; `none` is an error. -/
def decode (c : Codec) : GT → GV c → J → Option (GV c)
  | .bool, old, j => match j with
    | .null => some old
    | .bool b => some (.bool b)
    | _ => none
  | .int64, old, j => match j with
    | .null => some old
    | .num s => (atoi s).map .int
    | _ => none
  | .float64, old, j => match j with
    | .null => some old
    | .num s => (c.parseFloat s).map .float
    | _ => none
  | .string, old, j => match j with
    | .null => some old
    | .str s => some (.str s)
    | _ => none
  | .time, old, j => match j with
    | .null => some old
    | .str s => (c.parseTime s).map .time
    | _ => none
  | .dict, _, j => match j with
    | .null => some .nil
    | .obj l => (mapOpt dictEntry l).map .dict
    | _ => none
  | .ptr t, old, j => match j with
    | .null => some .nil
    | j => match old with
      | .ptr v => (decode c t v j).map .ptr
      | _ => (decode c t (zero c t) j).map .ptr
  | .slice t, _, j => match j with
    | .null => some .nil
    | .arr l => (mapOpt (decode c t (zero c t)) l).map .slice
    | _ => none
  | .struct fs, old, j => match old, j with
    | old, .null => some old
    | .struct vs, .obj l =>
      (foldOpt (fun vs kv => match fieldFor c fs kv.1 with
        | none => some vs
        | some i => (vs[i]?).bind fun v => (decodeAt c fs i v kv.2).map fun v' => vs.set i v') vs l).map .struct
    | _, _ => none
/-- The same for the field with a number. -/
def decodeAt (c : Codec) : List SF → Nat → GV c → J → Option (GV c)
  | [], _, _, _ => none
  | .mk _ _ _ t :: _, 0, v, j => decode c t v j
  | _ :: r, n + 1, v, j => decodeAt c r n v j
end

/-- Values that `omitempty` leaves out. -/
def isEmpty {c : Codec} : GV c → Bool
  | .bool b => !b
  | .int n => n == 0
  | .float x => c.isZeroFloat x
  | .str s => s.isEmpty
  | .nil => true
  | .slice l => l.isEmpty
  | .dict l => l.isEmpty
  | .time _ => false
  | .ptr _ => false
  | .struct _ => false

mutual
/-- Values that `omitzero` leaves out. -/
def isZero {c : Codec} : GV c → Bool
  | .bool b => !b
  | .int n => n == 0
  | .float x => c.isZeroFloat x
  | .str s => s.isEmpty
  | .nil => true
  | .slice _ => false
  | .dict _ => false
  | .time t => c.isZeroTime t
  | .ptr _ => false
  | .struct l => allZero l
def allZero {c : Codec} : List (GV c) → Bool
  | [] => true
  | v :: r => isZero v && allZero r
end

/-- Is a field left out? -/
def skipped {c : Codec} : Omit → GV c → Bool
  | .never, _ => false
  | .empty, v => isEmpty v
  | .zero, v => isZero v

mutual
/-- `json.Marshal`; `none` for a value that is not of the type.  The order of the keys of a map is not modelled. -/
def encode (c : Codec) : GT → GV c → Option J
  | .bool, .bool b => some (.bool b)
  | .int64, .int n => some (.num (itoa n))
  | .float64, .float x => some (.num (c.formatFloat x))
  | .string, .str s => some (.str s)
  | .time, .time t => some (.str (c.formatTime t))
  | .dict, .nil => some .null
  | .dict, .dict l => some (.obj (l.map fun kv => (kv.1, .str kv.2)))
  | .ptr _, .nil => some .null
  | .ptr t, .ptr v => encode c t v
  | .slice _, .nil => some .null
  | .slice t, .slice l => (mapOpt (encode c t) l).map .arr
  | .struct fs, .struct vs => (encodeFields c fs vs).map .obj
  | _, _ => none
def encodeFields (c : Codec) : List SF → List (GV c) → Option (List (Str × J))
  | [], [] => some []
  | .mk _ k o t :: fs, v :: vs =>
    (encodeFields c fs vs).bind fun r => if skipped o v then some r else (encode c t v).map fun j => (k, j) :: r
  | _, _ => none
end

/-! ### Documents of a schema -/

/-- An instance for null besides others. -/
def Nullable (raw : P) : Prop := ∃ i, decodeInstance false raw = .ok i ∧ g!"null" ∈ i.type

/-- A time that is optional, whose field has type `time.Time`. -/
def BareTime (pointers : Bool) (raw : P) : Prop :=
  pointers = false ∧ ¬ Nullable raw ∧ ∃ i, decodeInstance false raw = .ok i ∧ Spec.TypeIs i g!"string" ∧ i.format = g!"date-time"

/-- The properties that have a field. -/
def Listed (m : GMap P) (k : Str) (q : P) : Prop := GMap.get k m = some q ∧ ¬ Spec.Hydrated q

/-- The documents that a schema describes, as far as its types, formats, properties and required properties tell.  With `strict`, moreover: integers are written
as such and have 64 bits; lists have no null entries; free-form objects have only strings; no key differs from a property only in case; and optional times are given
if the Go type is `time.Time`. -/
inductive Valid (c : Codec) (strict pointers : Bool) : P → J → Prop where
  | null {raw : P} : Nullable raw → Valid c strict pointers raw .null
  | bool {raw : P} {i : Instance} {b : Bool} : decodeInstance false raw = .ok i → Spec.TypeIs i g!"boolean" → Valid c strict pointers raw (.bool b)
  | number {raw : P} {i : Instance} {s : Str} : decodeInstance false raw = .ok i → Spec.TypeIs i g!"number" → (c.parseFloat s).isSome →
      Valid c strict pointers raw (.num s)
  | integer {raw : P} {i : Instance} {n : Int} {s : Str} : decodeInstance false raw = .ok i → Spec.TypeIs i g!"integer" →
      (s = itoa n ∨ s = itoa n ++ g!".0") → (strict = true → s = itoa n ∧ inInt64 n = true) → Valid c strict pointers raw (.num s)
  | string {raw : P} {i : Instance} {s : Str} : decodeInstance false raw = .ok i → Spec.TypeIs i g!"string" → i.format ≠ g!"date-time" →
      Valid c strict pointers raw (.str s)
  | time {raw : P} {i : Instance} {s : Str} : decodeInstance false raw = .ok i → Spec.TypeIs i g!"string" → i.format = g!"date-time" →
      (c.parseTime s).isSome → Valid c strict pointers raw (.str s)
  | array {raw items : P} {i : Instance} {l : List J} : decodeInstance false raw = .ok i → Spec.TypeIs i g!"array" → i.items = some items →
      (∀ x ∈ l, Valid c strict pointers items x) → (strict = true → ∀ x ∈ l, x ≠ .null) → Valid c strict pointers raw (.arr l)
  | object {raw : P} {i : Instance} {m : GMap P} {l : List (Str × J)} : decodeInstance false raw = .ok i → Spec.TypeIs i g!"object" →
      i.properties = some m → (l.map Prod.fst).Nodup → (∀ k ∈ i.required, ∃ v, (k, v) ∈ l) →
      (∀ k v q, (k, v) ∈ l → GMap.get k m = some q → Valid c strict pointers q v) →
      (strict = true → (∀ k q, ¬ Listed m k q) → ∀ k v, (k, v) ∈ l → ∃ s, v = .str s) →
      (strict = true → ∀ k v, (k, v) ∈ l → ∀ k' q, Listed m k' q → c.fold k' = c.fold k → k' = k) →
      (strict = true → ∀ k q, Listed m k q → k ∉ i.required → BareTime pointers q → ∃ v, (k, v) ∈ l) →
      Valid c strict pointers raw (.obj l)

/-- Values of optional properties that cannot be told from missing ones: null, empty lists and, if the property is not nullable, false, zero, empty strings, free-form
objects without entries and objects whose properties are all such values. -/
inductive Blank (c : Codec) : P → J → Prop where
  | null {raw : P} : Blank c raw .null
  | list {raw : P} : Blank c raw (.arr [])
  | bool {raw : P} : ¬ Nullable raw → Blank c raw (.bool false)
  | string {raw : P} : ¬ Nullable raw → Blank c raw (.str [])
  | int {raw : P} {s : Str} : ¬ Nullable raw → atoi s = some 0 → Blank c raw (.num s)
  | float {raw : P} {s : Str} {x : c.F} : ¬ Nullable raw → c.parseFloat s = some x → c.isZeroFloat x = true → Blank c raw (.num s)
  | time {raw : P} {s : Str} {x : c.T} : ¬ Nullable raw → c.parseTime s = some x → c.isZeroTime x = true → Blank c raw (.str s)
  | dict {raw : P} : ¬ Nullable raw → Blank c raw (.obj [])
  | object {raw : P} {i : Instance} {m : GMap P} {l : List (Str × J)} : ¬ Nullable raw → decodeInstance false raw = .ok i → i.properties = some m →
      (∀ k v q, (k, v) ∈ l → Listed m k q → Blank c q v) → Blank c raw (.obj l)

/-- Two documents say the same about the properties of a schema: `j'` has the properties of `j` that the schema lists, and nothing else; if `lossy`, optional properties
with blank values may be missing. -/
inductive Same (c : Codec) (lossy : Bool) : P → J → J → Prop where
  | null {raw : P} : Same c lossy raw .null .null
  | bool {raw : P} {b : Bool} : Same c lossy raw (.bool b) (.bool b)
  | str {raw : P} {s : Str} : Same c lossy raw (.str s) (.str s)
  | time {raw : P} {i : Instance} {s s' : Str} {x : c.T} : decodeInstance false raw = .ok i → i.format = g!"date-time" →
      c.parseTime s = some x → c.parseTime s' = some x → Same c lossy raw (.str s) (.str s')
  | int {raw : P} {s s' : Str} {n : Int} : atoi s = some n → atoi s' = some n → Same c lossy raw (.num s) (.num s')
  | float {raw : P} {s s' : Str} {x : c.F} : c.parseFloat s = some x → c.parseFloat s' = some x → Same c lossy raw (.num s) (.num s')
  | nil {raw : P} : Same c lossy raw (.arr []) (.arr [])
  | cons {raw items : P} {i : Instance} {x y : J} {l l' : List J} : decodeInstance false raw = .ok i → i.items = some items → Same c lossy items x y →
      Same c lossy raw (.arr l) (.arr l') → Same c lossy raw (.arr (x :: l)) (.arr (y :: l'))
  | dict {raw : P} {i : Instance} {m : GMap P} {l : List (Str × Str)} : decodeInstance false raw = .ok i → i.properties = some m → (∀ k q, ¬ Listed m k q) →
      Same c lossy raw (.obj (l.map fun kv => (kv.1, .str kv.2))) (.obj (l.map fun kv => (kv.1, .str kv.2)))
  | object {raw : P} {i : Instance} {m : GMap P} {l l' : List (Str × J)} : decodeInstance false raw = .ok i → i.properties = some m →
      (l'.map Prod.fst).Nodup →
      (∀ k v', (k, v') ∈ l' → ∃ v q, (k, v) ∈ l ∧ Listed m k q) →
      (∀ k v v' q, (k, v) ∈ l → (k, v') ∈ l' → Listed m k q → Same c lossy q v v') →
      (∀ k v q, (k, v) ∈ l → Listed m k q → (∃ v', (k, v') ∈ l') ∨ (lossy = true ∧ k ∉ i.required ∧ Blank c q v)) →
      Same c lossy raw (.obj l) (.obj l')

/-- The conditions on the members of an object, for the properties `m`; see `Valid.object`. -/
structure Members (c : Codec) (strict pointers : Bool) (m : GMap P) (required : List Str) (l : List (Str × J)) : Prop where
  nodup : (l.map Prod.fst).Nodup
  given : ∀ k ∈ required, ∃ v, (k, v) ∈ l
  each : ∀ k v q, (k, v) ∈ l → GMap.get k m = some q → Valid c strict pointers q v
  dict : strict = true → (∀ k q, ¬ Listed m k q) → ∀ k v, (k, v) ∈ l → ∃ s, v = .str s
  fold : strict = true → ∀ k v, (k, v) ∈ l → ∀ k' q, Listed m k' q → c.fold k' = c.fold k → k' = k
  times : strict = true → ∀ k q, Listed m k q → k ∉ required → BareTime pointers q → ∃ v, (k, v) ∈ l

/-- Two objects that say the same about the properties `m`; see `Same.object`. -/
structure SameMembers (c : Codec) (lossy : Bool) (m : GMap P) (required : List Str) (l l' : List (Str × J)) : Prop where
  nodup : (l'.map Prod.fst).Nodup
  sound : ∀ k v', (k, v') ∈ l' → ∃ v q, (k, v) ∈ l ∧ Listed m k q
  each : ∀ k v v' q, (k, v) ∈ l → (k, v') ∈ l' → Listed m k q → Same c lossy q v v'
  complete : ∀ k v q, (k, v) ∈ l → Listed m k q → (∃ v', (k, v') ∈ l') ∨ (lossy = true ∧ k ∉ required ∧ Blank c q v)

/-! ### Schemas -/

/-- A description that can be put in a struct tag, if it is. -/
def DescOk (descTag : Bool) (i : Instance) : Prop := descTag = true → '`' ∉ i.description

/-- The properties of an object have names that can be used in tags and exported names that are all different. -/
structure CleanNames (title : Str → Str) (rename : GMap Str) (m : GMap P) : Prop where
  tag : ∀ k q, Listed m k q → TagName k
  exported : ∀ k q, Listed m k q → Exported (Spec.goName title rename k)
  distinct : ∀ k q k' q', Listed m k q → Listed m k' q' → Spec.goName title rename k = Spec.goName title rename k' → k = k'

/-- Schemas of the usual types with such names at each level. -/
inductive Clean (title : Str → Str) (rename : GMap Str) (descTag : Bool) : P → Prop where
  | leaf {raw : P} {i : Instance} {t : Str} : decodeInstance false raw = .ok i → Spec.TypeIs i t → t ∈ [g!"boolean", g!"number", g!"integer", g!"string"] →
      DescOk descTag i → Clean title rename descTag raw
  | array {raw items : P} {i : Instance} : decodeInstance false raw = .ok i → Spec.TypeIs i g!"array" → i.items = some items → DescOk descTag i →
      Clean title rename descTag items → Clean title rename descTag raw
  | object {raw : P} {i : Instance} {m : GMap P} : decodeInstance false raw = .ok i → Spec.TypeIs i g!"object" → i.properties = some m → DescOk descTag i →
      CleanNames title rename m → (∀ k q, Listed m k q → Clean title rename descTag q) → Clean title rename descTag raw

end JT.GoJson
