import Verif.Model.Map
/-
Dynamic Go values (`interface{}`) handled by package transform, the heap, and the state monad.
-/
namespace JT

/-- Go `float64`, as its IEEE-754 bit pattern. -/
abbrev F64 := BitVec 64

namespace F64
/-- Magnitude bits. -/
def mag (f : F64) : Nat := f.toNat % 2 ^ 63
/-- Is it a NaN? -/
def isNaN (f : F64) : Bool := decide (0x7FF0000000000000 < mag f)
/-- Order-preserving integer key of a non-NaN float (both zeros have key 0). -/
def key (f : F64) : Int := if f.toNat < 2 ^ 63 then (mag f : Int) else - (mag f : Int)
/-- Go `a > b`. -/
def gt (a b : F64) : Bool := !isNaN a && !isNaN b && decide (key b < key a)
/-- `float64(0)`. -/
def zero : F64 := 0#64
/-- Go `a != 0`. -/
def ne0 (a : F64) : Bool := isNaN a || decide (key a ≠ 0)
end F64

/-- Go `time.Time`: seconds since the Unix epoch, nanoseconds, zone offset in seconds. -/
structure GTime where
  sec : Int
  nsec : Nat
  off : Int
  deriving Repr, DecidableEq

/-- time.Time.IsZero: January 1, year 1, 00:00:00 UTC. -/
def GTime.isZero (t : GTime) : Bool := decide (t.sec = -62135596800) && decide (t.nsec = 0)

/-- An XML node (`*xmlquery.Node`), identified by a number. -/
abbrev NodeId := Nat

/-- Values without references into maps or slices.  `int` is Go `int`, `i64` is `int64`.  The other numeric
Go types mentioned by the code (`float32`, `uint64`, `int8`...) are never produced by it and are left out. -/
inductive Scal where
  | nil
  | bool (b : Bool)
  | int (i : Int)
  | i64 (i : Int)
  | f64 (f : F64)
  | str (s : Str)
  | time (t : GTime)
  | node (n : NodeId)          -- *xmlquery.Node
  | nodes (l : List NodeId)    -- []*xmlquery.Node
  deriving Repr, DecidableEq

/-- Address of a heap cell. -/
abbrev Addr := Nat

/-- A Go `interface{}` value: maps and slices are references.  A slice is modelled as a reference to a cell
holding its elements (length and backing array in one; see `saveInSlice` for where this matters). -/
inductive V where
  | sc (s : Scal)
  | arr (a : Addr)   -- []interface{}
  | obj (a : Addr)   -- map[string]interface{}
  deriving Repr, DecidableEq

/-- `nil` interface. -/
abbrev V.nil : V := .sc .nil

/-- A pure tree value (no sharing): what `json.Unmarshal` reads and `json.Marshal` sees. -/
inductive P where
  | sc (s : Scal)
  | arr (l : List P)
  | obj (l : List (Str × P))
  deriving Repr

/-- One level of a value, as seen by a Go type switch. -/
inductive Shape (α : Type) where
  | sc (s : Scal)
  | arr (l : List α)
  | obj (m : GMap α)

/-- How a value type is inspected: its top level and the tree below it (`none` for cyclic values). -/
structure View (α : Type) where
  shape : α → Shape α
  toP : α → Option P

/-- Pure values. -/
def P.shape : P → Shape P
  | .sc s => .sc s
  | .arr l => .arr l
  | .obj m => .obj m

def P.view : View P := ⟨P.shape, some⟩

/-- Heap cell. -/
inductive Cell where
  | map (m : GMap V)
  | slice (l : List V)
  deriving Repr, DecidableEq

abbrev Heap := List Cell

/-- Top level of a heap value.  Dangling references do not occur; they are given an empty shape. -/
def Heap.shape (h : Heap) : V → Shape V
  | .sc s => .sc s
  | .arr a => match h[a]? with
    | some (.slice l) => .arr l
    | _ => .arr []
  | .obj a => match h[a]? with
    | some (.map m) => .obj m
    | _ => .obj []

/-- `mapM` for `Option` over a list (kept as an explicit definition for easy unfolding). -/
def optAll {α β : Type} (f : α → Option β) : List α → Option (List β)
  | [] => some []
  | x :: xs => match f x, optAll f xs with
    | some y, some ys => some (y :: ys)
    | _, _ => none

/-- The tree below a heap value; `none` if it is deeper than the fuel (a cyclic structure). -/
def reify (h : Heap) : Nat → V → Option P
  | 0, _ => none
  | _ + 1, .sc s => some (.sc s)
  | n + 1, .arr a => match h[a]? with
    | some (.slice l) => (optAll (reify h n) l).map .arr
    | _ => none
  | n + 1, .obj a => match h[a]? with
    | some (.map m) => (optAll (fun kv => (reify h n kv.2).map fun p => (kv.1, p)) m).map .obj
    | _ => none

/-- The tree below a heap value.  An acyclic value has depth at most the number of cells. -/
def Heap.toP (h : Heap) (v : V) : Option P := reify h (h.length + 1) v

def Heap.view (h : Heap) : View V := ⟨h.shape, h.toP⟩

/-- Where a library call found its result inside its argument: steps of a plain JSONPath. -/
inductive Step where
  | key (k : Str)
  | idx (i : Nat)
  deriving Repr, DecidableEq

/-- Result of evaluating a JSONPath that is not plain: a place in the input, a new slice of places, or a
computed scalar. -/
inductive Sel where
  | loc (l : List Step)
  | many (l : List (List Step))
  | const (s : Scal)
  deriving Repr, DecidableEq

/-- Behaviour of code outside the repository.  Nothing is assumed about these functions unless a theorem
says so. -/
structure Lib where
  /-- jsonpath.Get for paths which are not plain (`none` is an error) -/
  jsonpath : Str → P → Option Sel
  /-- strconv.ParseFloat(s, 64) (`none` is an error) -/
  parseFloat : Str → Option F64
  /-- strconv.FormatFloat(f, 'f', -1, 64) -/
  formatFloat : F64 → Str
  /-- float64(i) -/
  ofInt : Int → F64
  /-- int64(f) -/
  toInt : F64 → Int
  /-- time.Parse(layout, value) -/
  parseTime : Str → Str → Option GTime
  /-- t.Format(layout) -/
  formatTime : Str → GTime → Str
  /-- time.Now(), at the given moment of the execution -/
  now : Nat → GTime
  /-- regexp.Compile succeeds -/
  reValid : Str → Bool
  /-- regexp.MustCompile(re).ReplaceAllString(s, new) -/
  reReplace : Str → Str → Str → Str
  /-- bluemonday.NewPolicy().AddSpaceWhenStrippingTag(true).Sanitize -/
  sanitize : Str → Str
  /-- html.UnescapeString -/
  unescape : Str → Str
  /-- strings.ToLower / ToUpper / Title -/
  toLower : Str → Str
  toUpper : Str → Str
  title : Str → Str
  /-- xmlquery.Find (`none`: it panics because the expression is invalid) -/
  xfind : NodeId → Str → Option (List NodeId)
  /-- (*xmlquery.Node).InnerText -/
  innerText : NodeId → Str
  /-- xmlquery.Parse -/
  parseXML : Str → Option NodeId
  /-- json.Unmarshal into interface{} -/
  parseJSON : Str → Option P
  /-- json.Marshal of a tree -/
  marshal : P → Option Str
  /-- Schema.Validate: `none` is an error -/
  validate : Str → Option Bool

/-- Result of a library call or operation which may alias its argument. -/
inductive Out (α : Type) where
  | val (a : α)              -- an existing value
  | sc (s : Scal)            -- a computed scalar
  | arr (l : List α)         -- a new slice of existing values
  | strs (l : List Str)      -- a new slice of strings
  deriving Repr

/-! ### JSONPath -/

/-- ASCII letter or underscore. -/
def isAlpha (c : Char) : Bool :=
  (decide (97 ≤ c.toNat) && decide (c.toNat ≤ 122)) || (decide (65 ≤ c.toNat) && decide (c.toNat ≤ 90))
    || decide (c = '_')

/-- Characters of a plain name. -/
def isNameChar (c : Char) : Bool := isAlpha c || isDigit c

/-- Plain names: identifiers. -/
def isName : Str → Bool
  | [] => false
  | c :: cs => isAlpha c && cs.all isNameChar

/-- The steps of a plain path after `$`; `none` if the path is not plain. -/
def parseSteps : Nat → Str → Option (List Step)
  | _, [] => some []
  | n + 1, '.' :: r =>
    let name := r.takeWhile isNameChar
    if isName name then (parseSteps n (r.dropWhile isNameChar)).map (Step.key name :: ·) else none
  | n + 1, '[' :: r =>
    let ds := r.takeWhile isDigit
    match r.dropWhile isDigit with
    | ']' :: r' =>
      if ds = itoaNat (digitsVal ds) then (parseSteps n r').map (Step.idx (digitsVal ds) :: ·) else none
    | _ => none
  | _, _ => none

/-- Parse a plain JSONPath `$`, `$.a`, `$.a[0].b`... -/
def parsePath : Str → Option (List Step)
  | '$' :: r => parseSteps (r.length + 1) r
  | _ => none

/-- One selection step of github.com/GannettDigital/PaesslerAG_jsonpath: map entries by key, array entries
by index; anything else is an error. -/
def getStep {α : Type} (vw : View α) (s : Step) (v : α) : Option α :=
  match vw.shape v, s with
  | .obj m, .key k => GMap.get k m
  | .obj m, .idx i => GMap.get (itoaNat i) m
  | .arr l, .idx i => l[i]?
  | _, _ => none

/-- A sequence of selection steps. -/
def getSteps {α : Type} (vw : View α) : List Step → α → Option α
  | [], v => some v
  | s :: ss, v => (getStep vw s v).bind (getSteps vw ss)

/-- jsonpath.Get(path, in): `none` is an error. -/
def jpGet {α : Type} (lib : Lib) (vw : View α) (path : Str) (v : α) : Option (Out α) :=
  match parsePath path with
  | some ss => (getSteps vw ss v).map .val
  | none =>
    match (vw.toP v).bind (lib.jsonpath path) with
    | none => none
    | some (.loc ss) => (getSteps vw ss v).map .val
    | some (.many ls) => (optAll (fun ss => getSteps vw ss v) ls).map .arr
    | some (.const s) => some (.sc s)

end JT
