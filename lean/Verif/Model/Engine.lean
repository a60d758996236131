import Verif.Model.SaveTree
/- transform/transform.go and transform/instance.go: instructions and instance transformers. -/
namespace JT

/-- transform/transformer.go:20-25 `inputFormat`. -/
inductive Format where
  | json | xml
  deriving Repr, DecidableEq

/-- What is fixed during an execution: library behaviour, map iteration orders, input format. -/
structure Env where
  lib : Lib
  sched : Sched
  fmt : Format

/-- transform/instance.go:16 `pathModifier`; the nil modifier is the identity. -/
abbrev Mod := Str → Str

/-- transform/instance.go:18-26 `pathReplace`. -/
def pathReplace (old new : Str) (mod : Mod) : Mod := fun p => replace1 (mod p) old new

/-- transform/transform.go:188-193 (and 157-162): run the operations from left to right. -/
def runOps (env : Env) : List Op → V → M V
  | [], v => return v
  | op :: ops, v => do
    let n ← nextTick
    let h ← getHeap
    let o ← M.lift (runOp env.lib h.view (env.lib.now n) op v)
    let v' ← materialize o
    runOps env ops v'

/-- transform/utils.go:48-75 `convert` on heap values. -/
def convertV (env : Env) (ty : Str) (raw : V) : M (Conv V) := do
  let h ← getHeap
  M.lift (convert env.lib h.view ty (h.length + 1) raw)

/-- jsonpath.Get on heap values; `none` is an error. -/
def jpGetV (env : Env) (path : Str) (v : V) : M (Option V) := do
  let h ← getHeap
  match jpGet env.lib h.view path v with
  | none => return none
  | some o => do
    let r ← materialize o
    return some r

/-- transform/transform.go:177-182: the converted value, or the raw one if it cannot be converted. -/
def convOrRaw (c : Conv V) (raw : V) : M V := if c.err then return raw else materialize c.val

/-- transform/transform.go:166-195 `transformInstruction.jsonTransform`. -/
def instrJSON (env : Env) (inp : V) (ty : Str) (mod : Mod) (ti : Instr) : M V := do
  let r ← jpGetV env (mod ti.jsonPath) inp
  match r with
  | none => return V.nil
  | some raw =>
    if raw = V.nil then return V.nil
    else do
      let c ← convertV env ty raw
      let value ← convOrRaw c raw
      if value = V.nil then return V.nil
      else runOps env ti.ops value

/-- `xmlquery.Find`. -/
def xfind (env : Env) (n : NodeId) (path : Str) : M (List NodeId) :=
  match env.lib.xfind n path with
  | some l => return l
  | none => M.panic

/-- transform/transform.go:126-151: the value of the matched nodes before the operations. -/
def xmlValue (env : Env) (ty : Str) (first : NodeId) (all : List NodeId) (withChild withoutChild : Nat) : M V := do
  if withChild = 0 ∧ withoutChild = 1 then
    let c ← convertV env ty (.sc (.str (env.lib.innerText first)))
    materialize c.val
  else if ty = g!"array" ∨ ty = g!"object" then
    return .sc (.nodes all)
  else if ty = g!"string" then
    return .sc (.str (join g!" " (all.map env.lib.innerText)))
  else
    let c ← convertV env ty (.sc (.str (env.lib.innerText first)))
    if c.err then return .sc (.nodes all) else materialize c.val

/-- transform/transform.go:105-164 `transformInstruction.xmlTransform`. -/
def instrXML (env : Env) (inp : V) (ty : Str) (mod : Mod) (ti : Instr) : M V :=
  match inp with
  | .sc (.node n) => do
    let path := mod ti.xmlPath
    let found ← xfind env n path
    match found with
    | [] => return V.nil
    | first :: others => do
      let wc ← xfind env n (path ++ g!"[*]")
      let woc ← xfind env n (path ++ g!"[not(*)]")
      let value ← xmlValue env ty first (first :: others) wc.length woc.length
      if value = V.nil then return V.nil
      else runOps env ti.ops value
  | _ => M.fail

/-- transform/transform.go:201-209 `transformInstruction.transform`. -/
def instrRun (env : Env) (inp : V) (ty : Str) (mod : Mod) (ti : Instr) : M V :=
  match env.fmt with
  | .xml => instrXML env inp ty mod ti
  | .json => instrJSON env inp ty mod ti

/-- transform/transform.go:273-292 without concatenation: the first non-nil value. -/
def firstLoop (run : Instr → M V) : List Instr → M V
  | [] => return V.nil
  | ti :: rest => do
    let v ← run ti
    if v = V.nil then firstLoop run rest else return v

/-- transform/transform.go:273-292 with concatenation. -/
def concatLoop (run : Instr → M V) (delim : Str) : List Instr → V → M V
  | [], result => return result
  | ti :: rest, result => do
    let v ← run ti
    let h ← getHeap
    let o ← M.lift (concat h.view result v delim)
    let r ← materialize o
    concatLoop run delim rest r

/-- transform/transform.go:258-293 `transformInstructions.transform`.  Method `last` reverses the stored
instruction list on every call (lines 261-266). -/
def instrsRun (env : Env) (inp : V) (ty : Str) (mod : Mod) (tid : Nat) : M V := do
  let tis ← readInstrs tid
  match tis.method with
  | .first => firstLoop (instrRun env inp ty mod) tis.from
  | .last => do
    writeInstrs tid { tis with «from» := tis.from.reverse }
    firstLoop (instrRun env inp ty mod) tis.from.reverse
  | .concatenate => concatLoop (instrRun env inp ty mod) tis.delim tis.from V.nil

/-- `if st.transforms != nil { v, err := st.transforms.transform(...) }`: nil when there is no transform. -/
def optInstrs (env : Env) (inp : V) (ty : Str) (mod : Mod) : Option Nat → M V
  | none => return V.nil
  | some tid => instrsRun env inp ty mod tid

/-- A transformer's `transform` method: input, path modifier, result. -/
abbrev TF := V → Mod → M V

/-- transform/instance.go:519-527: the value at the instance's own path, if usable. -/
def samePath (env : Env) (ty : Str) (path : Str) (inp : V) : M V := do
  let r ← jpGetV env path inp
  match r with
  | none => return V.nil
  | some raw => do
    let c ← convertV env ty raw
    let v ← materialize c.val
    if v = V.nil then return V.nil
    else if c.err then M.fail
    else return v

/-- transform/instance.go:503-568 `scalarTransformer.transform`, JSON and XML. -/
def runScalar (env : Env) (path ty : Str) (dflt : V) (tid : Option Nat) : TF := fun inp mod => do
  let v ← optInstrs env inp ty mod tid
  if v ≠ V.nil then return v
  else match env.fmt with
    | .json => do
      let v ← samePath env ty (mod path) inp
      if v ≠ V.nil then return v else return dflt
    | .xml => return dflt

/-- A non-array value becomes a one-element slice (transform/instance.go:90-93, 101-104, 134-137). -/
def asSlice (v : V) : M Addr :=
  match v with
  | .arr a => return a
  | v => alloc (.slice [v])

/-- transform/instance.go:82-113 `baseValueJSON`. -/
def baseJSON (env : Env) (dflt : Option Addr) (tid : Option Nat) (inp : V) (path : Str) (mod : Mod) :
    M (Option Addr × Bool) := do
  let v ← optInstrs env inp g!"array" mod tid
  if v ≠ V.nil then
    let a ← asSlice v
    return (some a, true)
  else
    let r ← jpGetV env path inp
    match r with
    | some raw =>
      if raw ≠ V.nil then
        let a ← asSlice raw
        return (some a, false)
      else return (dflt, dflt.isSome)
    | none => return (dflt, dflt.isSome)

/-- transform/instance.go:115-147 `baseValueXML`. -/
def baseXML (env : Env) (dflt : Option Addr) (tid : Option Nat) (inp : V) (mod : Mod) : M (Option Addr) := do
  let v ← optInstrs env inp g!"array" mod tid
  match v with
  | .sc (.nodes ns) => do
    let a ← alloc (.slice (ns.map fun n => .sc (.node n)))
    return some a
  | _ =>
    if v ≠ V.nil then
      let a ← asSlice v
      return some a
    else return dflt

/-- transform/instance.go:198-208: transform the items; nil results are left out. -/
def itemsLoop (child : TF) (inp : V) (path : Str) (mod : Mod) : (todo i : Nat) → List V → M (List V)
  | 0, _, acc => return acc
  | n + 1, i, acc => do
    let cur := path ++ g!"[" ++ itoaNat i ++ g!"]"
    let v ← child inp (pathReplace (path ++ g!"[*]") cur mod)
    itemsLoop child inp path mod n (i + 1) (if v = V.nil then acc else acc ++ [v])

/-- transform/instance.go:237-243: one XML item; only nodes are transformed. -/
def itemXML (child : TF) (mod : Mod) (x : V) : M V :=
  match x with
  | .sc (.node _) => child x mod
  | _ => return x

/-- transform/instance.go:235-247: XML items. -/
def itemsLoopXML (child : TF) (path : Str) (mod : Mod) : List V → Nat → List V → M (List V)
  | [], _, acc => return acc
  | x :: xs, i, acc => do
    let cur := path ++ g!"[" ++ itoaNat i ++ g!"]"
    let v ← itemXML child (pathReplace (path ++ g!"[*]") cur mod) x
    itemsLoopXML child path mod xs (i + 1) (if v = V.nil then acc else acc ++ [v])

/-- transform/instance.go:191-193, 228-230: no child transformer, the base is the result.  (A nil base is
returned as an empty slice; NewTransformer never builds an array without child.) -/
def baseResult : Option Addr → M V
  | some a => return .arr a
  | none => do let a ← alloc (.slice []); return .arr a

/-- transform/instance.go:210-213: an empty result counts as absent. -/
def arrayResult (l : List V) : M V :=
  if l = [] then return V.nil
  else do let a ← alloc (.slice l); return .arr a

/-- transform/instance.go:176-189: save the array base to the input, as children read it from there. -/
def saveBase (inp : V) (path : Str) (base : Option Addr) (changed : Bool) : M V :=
  match base with
  | some a =>
    if changed then
      if path = g!"$" then return .arr a
      else match inp with
        | .obj m => do
          saveInTree m path (.arr a)
          return inp
        | _ => M.fail
    else return inp
  | none => return inp

/-- transform/instance.go:150-158, 166-214, 218-253 `baseValue`, `arrayTransformJSON` and `arrayTransformXML`. -/
def runArray (env : Env) (path : Str) (dflt : Option Addr) (tid : Option Nat) (child : Option TF) : TF :=
  fun inp mod =>
    match env.fmt with
    | .json => do
      let (base, changed) ← baseJSON env dflt tid inp (mod path) mod
      let inp' ← saveBase inp (mod path) base changed
      match child with
      | none => baseResult base
      | some c => do
        let l ← readBase base
        let out ← itemsLoop c inp' (mod path) mod l.length 0 []
        arrayResult out
    | .xml => do
      let base ← baseXML env dflt tid inp mod
      match child with
      | none => baseResult base
      | some c => do
        let l ← readBase base
        let out ← itemsLoopXML c (mod path) mod l 0 []
        arrayResult out

/-- transform/instance.go:351-361, 421-431: evaluate the children and save their values. -/
def childrenLoop (objPath : Str) (inp : V) (mod : Mod) (newValue : Addr) : List (Str × TF) → M Unit
  | [] => return ()
  | (cpath, child) :: rest => do
    let v ← child inp mod
    saveInTree newValue (replace1 cpath objPath g!"$") v
    childrenLoop objPath inp mod newValue rest

/-- transform/instance.go:342-348, 413-418: the default map itself (not a copy), or a new map. -/
def objStart (dflt : Option Addr) : M Addr :=
  match dflt with
  | some a => return a
  | none => alloc (.map [])

/-- transform/instance.go:325-348: the map returned by the object's own transform, else `objStart`. -/
def objTarget (dflt : Option Addr) (v : V) : M Addr :=
  match v with
  | .sc .nil => objStart dflt
  | .obj a => return a
  | _ => M.fail

/-- transform/instance.go:350-367: run the children in some order, then an empty map counts as absent. -/
def objFinish (env : Env) (path : Str) (kids : List (Str × TF)) (inp : V) (mod : Mod) (newValue : Addr) : M V := do
  let n ← nextTick
  childrenLoop path inp mod newValue (env.sched.perm n _ kids)
  let m ← readMap newValue
  if m = [] then return V.nil else return .obj newValue

/-- transform/instance.go:321-368, 373-438 `objectTransformJSON` and `objectTransformXML`. -/
def runObject (env : Env) (path : Str) (dflt : Option Addr) (tid : Option Nat) (kids : List (Str × TF)) : TF :=
  fun inp mod =>
    match env.fmt with
    | .json => do
      let v ← optInstrs env inp g!"object" mod tid
      let newValue ← objTarget dflt v
      objFinish env path kids inp mod newValue
    | .xml =>
      match tid with
      | none => do
        let newValue ← objStart dflt
        objFinish env path kids inp mod newValue
      | some t => do
        let v ← instrsRun env inp g!"object" mod t
        match v with
        | .sc .nil => match dflt with
          | none => return V.nil
          | some a => return .obj a
        | .sc (.str []) => return V.nil
        | .sc (.node n) => do
          let newValue ← objStart dflt
          objFinish env path kids (.sc (.node n)) mod newValue
        | .sc (.nodes []) => do
          let newValue ← objStart dflt
          objFinish env path kids inp mod newValue
        | .sc (.nodes (n :: _)) => do
          let newValue ← objStart dflt
          objFinish env path kids (.sc (.node n)) mod newValue
        | _ => M.fail

/-- transform/instance.go:42-48, 267-273, 452-458: the instance transformers.  Defaults that are maps or
slices are addresses of shared cells; `tid` is the index of the instruction set in the state. -/
inductive T where
  | scalar (path jsonType : Str) (dflt : V) (tid : Option Nat)
  | array (path : Str) (dflt : Option Addr) (tid : Option Nat) (child : Option T)
  | object (path : Str) (dflt : Option Addr) (tid : Option Nat) (children : List (Str × T))

/-- `instanceTransformer.path()` (transform/instance.go:161, 316, 493). -/
def T.path : T → Str
  | .scalar p _ _ _ => p
  | .array p _ _ _ => p
  | .object p _ _ _ => p

mutual
/-- `instanceTransformer.transform` (transform/instance.go:256-264, 441-449, 560-568). -/
def T.run (env : Env) : T → TF
  | .scalar p ty d tid => runScalar env p ty d tid
  | .array p d tid none => runArray env p d tid none
  | .array p d tid (some c) => runArray env p d tid (some (T.run env c))
  | .object p d tid cs => runObject env p d tid (T.runKids env cs)
/-- The children of an object with their paths. -/
def T.runKids (env : Env) : List (Str × T) → List (Str × TF)
  | [] => []
  | (_, t) :: r => (t.path, T.run env t) :: T.runKids env r
end

end JT
