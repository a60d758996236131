import Verif.Model.Value
/- transform/utils.go: concat and convert. -/
namespace JT

/-- Go's `reflect.TypeOf(x).String()`, as far as it distinguishes the values of the model. -/
inductive GType where
  | nil | bool | int | int64 | float64 | string | time | node | nodes | slice | map
  deriving Repr, DecidableEq

def Scal.gtype : Scal → GType
  | .nil => .nil | .bool _ => .bool | .int _ => .int | .i64 _ => .int64 | .f64 _ => .float64
  | .str _ => .string | .time _ => .time | .node _ => .node | .nodes _ => .nodes

def Shape.gtype {α : Type} : Shape α → GType
  | .sc s => s.gtype | .arr _ => .slice | .obj _ => .map

/-- One level of a result that may be new. -/
def Out.shape {α : Type} (vw : View α) (inj : Scal → α) : Out α → Shape α
  | .val a => vw.shape a
  | .sc s => .sc s
  | .arr l => .arr l
  | .strs l => .arr (l.map fun s => inj (.str s))

/-- transform/utils.go:18-43 `concat`. -/
def concat {α : Type} (vw : View α) (a b : α) (delim : Str) : Res (Out α) :=
  match vw.shape a, vw.shape b with
  | .sc .nil, .sc .nil => .ok (.sc .nil)
  | .sc .nil, _ => .ok (.val b)
  | _, .sc .nil => .ok (.val a)
  | sa, sb =>
    if sa.gtype ≠ sb.gtype then .err
    else match sa, sb with
      | .sc (.str x), .sc (.str y) =>
        if delim ≠ [] ∧ x ≠ [] ∧ y ≠ [] then .ok (.sc (.str (x ++ delim ++ y)))
        else .ok (.sc (.str (x ++ y)))
      | _, _ => .err

/-- A Go pair `(interface{}, error)`: both components matter to some callers. -/
structure Conv (α : Type) where
  val : Out α
  err : Bool

/-- transform/utils.go:77-97 `convertBoolean`.  A string that does not parse gives `false` *and* an error. -/
def convertBoolean {α : Type} (sh : Shape α) : Conv α :=
  match sh with
  | .sc (.bool b) => ⟨.sc (.bool b), false⟩
  | .sc (.str s) =>
    if s = [] then ⟨.sc (.bool false), false⟩
    else match parseBool s with
      | some b => ⟨.sc (.bool b), false⟩
      | none => ⟨.sc (.bool false), true⟩
  | .sc (.int i) => ⟨.sc (.bool (decide (0 < i))), false⟩
  | .sc (.f64 f) => ⟨.sc (.bool (F64.gt f F64.zero)), false⟩
  | .sc .nil => ⟨.sc .nil, false⟩
  | _ => ⟨.sc .nil, true⟩

/-- transform/utils.go:99-122 `convertNumber`. -/
def convertNumber {α : Type} (lib : Lib) (sh : Shape α) : Conv α :=
  match sh with
  | .sc (.bool b) => ⟨.sc (.int (if b then 1 else 0)), false⟩
  | .sc (.str s) =>
    if s = [] then ⟨.sc .nil, false⟩
    else match atoi s with
      | some i => ⟨.sc (.int i), false⟩
      | none => match lib.parseFloat s with
        | some f => ⟨.sc (.f64 f), false⟩
        | none => ⟨.sc .nil, true⟩
  | .sc (.int i) => ⟨.sc (.int i), false⟩
  | .sc (.f64 f) => ⟨.sc (.f64 f), false⟩
  | _ => ⟨.sc .nil, true⟩

/-- `time.RFC3339`. -/
def rfc3339 : Str := g!"2006-01-02T15:04:05Z07:00"

/-- transform/utils.go:124-148 `convertDateTime`. -/
def convertDateTime {α : Type} (lib : Lib) (sh : Shape α) : Conv α :=
  match sh with
  | .sc (.str s) =>
    if s = [] then ⟨.sc .nil, false⟩
    else match lib.parseTime rfc3339 s with
      | none => ⟨.sc .nil, true⟩
      | some t => if t.isZero then ⟨.sc .nil, false⟩ else ⟨.sc (.time t), false⟩
  | .sc (.int i) => ⟨.sc (.time ⟨i, 0, 0⟩), false⟩
  | .sc (.f64 f) => ⟨.sc (.time ⟨lib.toInt f, 0, 0⟩), false⟩
  | _ => ⟨.sc .nil, true⟩

/-- transform/utils.go:150-170 `convertString`. -/
def convertString {α : Type} (lib : Lib) (sh : Shape α) : Conv α :=
  match sh with
  | .sc (.bool b) => ⟨.sc (.str (formatBool b)), false⟩
  | .sc (.str s) => ⟨.sc (.str s), false⟩
  | .sc (.int i) => ⟨.sc (.str (itoa i)), false⟩
  | .sc (.f64 f) => ⟨.sc (.str (lib.formatFloat f)), false⟩
  | .sc .nil => ⟨.sc .nil, false⟩
  | _ => ⟨.sc .nil, true⟩

/-- transform/utils.go:64-74: the final switch of `convert`. -/
def convertTo {α : Type} (lib : Lib) (vw : View α) (jsonType : Str) (raw : α) : Conv α :=
  if jsonType = g!"boolean" then convertBoolean (vw.shape raw)
  else if jsonType = g!"number" ∨ jsonType = g!"integer" then convertNumber lib (vw.shape raw)
  else if jsonType = g!"string" then convertString lib (vw.shape raw)
  else if jsonType = g!"date-time" then convertDateTime lib (vw.shape raw)
  else ⟨.val raw, false⟩

/-- transform/utils.go:48-75 `convert`.  The recursion descends into nested arrays; running out of fuel
stands for the stack overflow on a cyclic array. -/
def convert {α : Type} (lib : Lib) (vw : View α) (jsonType : Str) : Nat → α → Res (Conv α)
  | 0, _ => .panic
  | n + 1, raw =>
    match vw.shape raw with
    | .sc .nil => .ok ⟨.sc .nil, false⟩
    | .arr [] => .ok ⟨.sc .nil, false⟩
    | .arr (x :: rest) =>
      if rest = [] ∨ jsonType ≠ g!"array" then
        match vw.shape x with
        | .arr (y :: _) => convert lib vw jsonType n y
        | _ => .ok (convertTo lib vw jsonType x)
      else .ok (convertTo lib vw jsonType raw)
    | _ => .ok (convertTo lib vw jsonType raw)

end JT
