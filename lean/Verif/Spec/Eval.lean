import Verif.Model.Build
/-
A direct semantics of transformers on trees: no memory, no iteration order, no state.  It covers JSON input
and transformers whose arrays and objects have neither a transform nor a default, without method `last`.
-/
namespace JT.Spec

/-- The nil interface. -/
abbrev nilP : P := .sc .nil

def isNilP : P → Bool
  | .sc .nil => true
  | _ => false

/-- The tree of a library or operation result. -/
def outP : Out P → P
  | .val p => p
  | .sc s => .sc s
  | .arr l => .arr l
  | .strs l => .arr (l.map fun s => .sc (.str s))

/-- A chain of operations (without clock). -/
def opsP (lib : Lib) : List Op → P → Res P
  | [], p => .ok p
  | op :: ops, p => (runOp lib P.view ⟨0, 0, 0⟩ op p).bind fun o => opsP lib ops (outP o)

/-- One `from` entry on an input tree. -/
def instrP (lib : Lib) (ty : Str) (path : Str) (ops : List Op) (inp : P) : Res P :=
  match jpGet lib P.view path inp with
  | none => .ok nilP
  | some o =>
    if isNilP (outP o) then .ok nilP
    else (convert lib P.view ty ((outP o).depth + 1) (outP o)).bind fun c =>
      let value := if c.err then outP o else outP c.val
      if isNilP value then .ok nilP else opsP lib ops value

/-- The first non-nil result; an error before it is an error of the whole. -/
def firstP : List (Res P) → Res P
  | [] => .ok nilP
  | r :: rs => r.bind fun p => if isNilP p then firstP rs else .ok p

/-- Results concatenated from left to right, starting from `acc`. -/
def concatP (delim : Str) : List (Res P) → P → Res P
  | [], acc => .ok acc
  | r :: rs, acc => r.bind fun p => (concat P.view acc p delim).bind fun o => concatP delim rs (outP o)

/-- A transform on an input tree. -/
def instrsP (lib : Lib) (ty : Str) (mod : Mod) (tis : Instrs) (inp : P) : Res P :=
  let rs := tis.from.map fun ti => instrP lib ty (mod ti.jsonPath) ti.ops inp
  match tis.method with
  | .first => firstP rs
  | .last => firstP rs.reverse
  | .concatenate => concatP tis.delim rs nilP

/-- The input value at the same place as a scalar instance, converted. -/
def sameP (lib : Lib) (ty path : Str) (inp : P) : Res P :=
  match jpGet lib P.view path inp with
  | none => .ok nilP
  | some o => (convert lib P.view ty ((outP o).depth + 1) (outP o)).bind fun c =>
    if isNilP (outP c.val) then .ok nilP else if c.err then .err else .ok (outP c.val)

/-- Precedence for scalars: transform, then the input value at the same path, then the default. -/
def precedence (transformed same : Res P) (dflt : P) : Res P :=
  transformed.bind fun p => if isNilP p then same.bind fun q => if isNilP q then .ok dflt else .ok q else .ok p

def okP : Res P → Option P
  | .ok p => some p
  | _ => none

mutual
/-- A document as a tree of maps: fields sorted by key, the last of equal keys wins. -/
def canon : P → P
  | .sc s => .sc s
  | .arr l => .arr (canonList l)
  | .obj m => .obj (GMap.ofList (canonFields m))
def canonList : List P → List P
  | [] => []
  | p :: ps => canon p :: canonList ps
def canonFields : List (Str × P) → List (Str × P)
  | [] => []
  | (k, p) :: ps => (k, canon p) :: canonFields ps
end

mutual
/-- The value of an instance; `none` is a failure.  `ins` are the instruction sets, `dv` the trees of the
default values. -/
def eval (lib : Lib) (ins : List Instrs) (dv : V → P) : T → P → Mod → Option P
  | .scalar path ty d tid, inp, mod =>
    let tr := match tid with
      | none => Res.ok nilP
      | some i => match ins[i]? with
        | none => .panic
        | some tis => instrsP lib ty mod tis inp
    okP (precedence tr (sameP lib ty (mod path) inp) (dv d))
  | .array _ _ _ none, _, _ => none
  | .array path _ _ (some c), inp, mod =>
    let n := match jpGet lib P.view (mod path) inp with
      | none => 0
      | some o => match outP o with
        | .sc .nil => 0
        | .arr l => l.length
        | _ => 1
    let item := fun i => eval lib ins dv c inp
      (pathReplace (mod path ++ g!"[*]") (mod path ++ g!"[" ++ itoaNat i ++ g!"]") mod)
    (optAll item (List.range n)).map fun ps =>
      let ps := ps.filter fun p => !isNilP p
      if ps.isEmpty then nilP else .arr ps
  | .object _ _ _ cs, inp, mod =>
    (evalKids lib ins dv cs inp mod).map fun m => if m.isEmpty then nilP else .obj m
/-- The non-nil values of the children of an object, by key. -/
def evalKids (lib : Lib) (ins : List Instrs) (dv : V → P) : List (Str × T) → P → Mod → Option (List (Str × P))
  | [], _, _ => some []
  | (k, t) :: r, inp, mod =>
    match eval lib ins dv t inp mod, evalKids lib ins dv r inp mod with
    | some p, some m => some (if isNilP p then m else (k, p) :: m)
    | _, _ => none
end

end JT.Spec
