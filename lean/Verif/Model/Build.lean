import Verif.Model.Engine
import Verif.Model.Schema
/- Construction of a Transformer: transform/transformer.go:57-77, 184-245, transform/utils.go:172-215, the
constructors in transform/instance.go and the UnmarshalJSON methods in transform/transform.go. -/
namespace JT

/-- Decoding a JSON value into a Go `string` field: missing or null leaves it empty. -/
def asString : Option P → Res Str
  | none => .ok []
  | some (.sc .nil) => .ok []
  | some (.sc (.str s)) => .ok s
  | _ => .err

/-- A Go loop building a list that stops at the first error. -/
def mapRes {α β : Type} (f : α → Res β) : List α → Res (List β)
  | [] => .ok []
  | x :: xs => do
    let y ← f x
    let ys ← mapRes f xs
    return y :: ys

/-- Decoding into `map[string]string`. -/
def parseArgs : Option P → Res (GMap Str)
  | none => .ok []
  | some (.sc .nil) => .ok []
  | some (.obj m) => do
    let l ← mapRes (fun kv => do let s ← asString (some kv.2); return (kv.1, s)) m
    return GMap.ofList l
  | _ => .err

/-- Decoding a JSON array; missing or null is the nil slice. -/
def asList : Option P → Res (List P)
  | none => .ok []
  | some (.sc .nil) => .ok []
  | some (.arr l) => .ok l
  | _ => .err

/-- Decoding an object field by field (`null` decodes to the zero struct). -/
def asStruct : P → Res P
  | .obj m => .ok (.obj m)
  | .sc .nil => .ok (.obj [])
  | _ => .err

/-- transform/transform.go:62-101: one operation. -/
def parseOp (lib : Lib) (p : P) : Res Op := do
  let p ← asStruct p
  let name ← asString (p.key g!"type")
  let args ← parseArgs (p.key g!"args")
  match initOp lib name args with
  | some op => return op
  | none => .err

/-- transform/transform.go:51-103 `transformInstruction.UnmarshalJSON`.  A `null` entry becomes a nil
pointer, which is dereferenced at transform/transform.go:299.  (If something else in the instructions is not accepted, Go returns that error
before it gets there; here the panic comes first.) -/
def parseInstr (lib : Lib) : P → Res Instr
  | .sc .nil => .panic
  | p => do
    let p ← asStruct p
    let jp ← asString (p.key g!"jsonPath")
    let xp ← asString (p.key g!"xmlPath")
    let opsJ ← asList (p.key g!"operations")
    let ops ← mapRes (parseOp lib) opsJ
    return ⟨jp, xp, ops⟩

/-- transform/transform.go:240-251. -/
def parseMethod (s : Str) : Res Method :=
  if s = [] then .ok .first
  else if s = g!"first" then .ok .first
  else if s = g!"last" then .ok .last
  else if s = g!"concatenate" then .ok .concatenate
  else .err

/-- transform/transform.go:230-254 `transformInstructions.UnmarshalJSON`. -/
def parseInstrs (lib : Lib) (p : P) : Res Instrs := do
  let p ← asStruct p
  let fromJ ← asList (p.key g!"from")
  let fr ← mapRes (parseInstr lib) fromJ
  let ms ← asString (p.key g!"method")
  let opts ← asStruct ((p.key g!"methodOptions").getD (.sc .nil))
  let delim ← asString (opts.key g!"concatenateDelimiter")
  let m ← parseMethod ms
  return ⟨fr, m, delim⟩

/-- transform/transform.go:297-306 `replaceJSONPathPrefix` on one path. -/
def replacePrefix (old new path : Str) : Str :=
  if hasPrefix path old then replace1 path old new else path

/-- transform/transform.go:297-306 `replaceJSONPathPrefix`. -/
def replaceJSONPathPrefix (old new : Str) (tis : Instrs) : Instrs :=
  { tis with «from» := tis.from.map fun ti =>
      { ti with jsonPath := replacePrefix old new ti.jsonPath, xmlPath := replacePrefix old new ti.xmlPath } }

/-- The kind of instance passed as `instanceType` to extractTransformInstructions. -/
inductive Kind where
  | scalar | array | object
  deriving Repr, DecidableEq

/-- `strings.Join(splits[:len(splits)-1], ".")` for `splits = strings.Split(path, ".")`. -/
def dropLast (path : Str) : Str := join g!"." (splitC '.' path).dropLast

/-- transform/utils.go:179-185: what `@` stands for. -/
def parentPathOf (kind : Kind) (path : Str) : Str :=
  if kind = .scalar ∧ hasSuffix path g!"[*]" ∧ ¬ hasSuffix path g!".[*]" then path else dropLast path

/-- transform/utils.go:172-197 `extractTransformInstructions`.  (A string in place of the instructions is an error here; in Go the text in it is parsed as JSON.) -/
def extractInstrs (lib : Lib) (raw : P) (ident path : Str) (kind : Kind) : Res (Option Instrs) :=
  match (raw.key g!"transform").bind (P.key ident) with
  | none => .ok none
  | some (.sc (.str [])) => .ok none
  | some p => do
    let tis ← parseInstrs lib p
    let pp := parentPathOf kind path
    return some (replaceJSONPathPrefix g!"@[" (pp ++ g!"[") (replaceJSONPathPrefix g!"@." (pp ++ g!".") tis))

/-- transform/utils.go:201-215 `schemaDefault`: the default as a tree. -/
def schemaDefault (raw : P) : Res P := do
  let p ← asStruct raw
  return (p.key g!"default").getD (.sc .nil)

/-- Register an instruction set with the Transformer. -/
def addInstrs (t : Option Instrs) : M (Option Nat) := fun s =>
  match t with
  | none => (.ok none, s)
  | some tis => (.ok (some s.instrs.length), { s with instrs := s.instrs ++ [tis] })

/-- transform/instance.go:50-75 `newArrayTransformer`. -/
def newArray (lib : Lib) (path ident : Str) (raw : P) : M T := do
  let tis ← M.lift (extractInstrs lib raw ident path .array)
  let d ← M.lift (schemaDefault raw)
  let dv ← load d
  let tid ← addInstrs tis
  match dv with
  | .sc .nil => return .array path none tid none
  | .arr a => return .array path (some a) tid none
  | _ => M.fail

/-- transform/instance.go:275-301 `newObjectTransformer`. -/
def newObject (lib : Lib) (path ident : Str) (raw : P) : M T := do
  let tis ← M.lift (extractInstrs lib raw ident path .object)
  let d ← M.lift (schemaDefault raw)
  let dv ← load d
  let tid ← addInstrs tis
  match dv with
  | .sc .nil => return .object path none tid []
  | .obj a => return .object path (some a) tid []
  | _ => M.fail

/-- transform/instance.go:467-475: strings with format date-time get their own type. -/
def scalarType (raw : P) (instanceType : Str) : Res Str :=
  if instanceType = g!"string" then
    match raw.key g!"format" with
    | none => .ok instanceType
    | some (.sc (.str f)) => if f = g!"date-time" then .ok g!"date-time" else .ok instanceType
    | some _ => .err
  else .ok instanceType

/-- transform/instance.go:460-489 `newScalarTransformer`. -/
def newScalar (lib : Lib) (path ident : Str) (raw : P) (instanceType : Str) : M T := do
  let ty ← M.lift (scalarType raw instanceType)
  let tis ← M.lift (extractInstrs lib raw ident path .scalar)
  let d ← M.lift (schemaDefault raw)
  let dv ← load d
  let tid ← addInstrs tis
  return .scalar path ty dv tid

/-- transform/transformer.go:215-231: the transformer for one instance.  (Empty `properties` are recognised
in Go by the text `{}`; an empty object written with blanks is taken as a non-empty one there.) -/
def newInstance (lib : Lib) (ident path : Str) (value : P) : M T := do
  let (ty, _) ← M.lift (fieldType value)
  if ty = g!"object" then
    match value.key g!"properties" with
    | none => M.fail
    | some (.obj []) => newScalar lib path ident value ty
    | some _ => newObject lib path ident value
  else if ty = g!"array" then newArray lib path ident value
  else newScalar lib path ident value ty

/-- transform/instance.go:77-80, 303-313, 491 `addChild` of arrays, objects and scalars (which ignore it). -/
def T.addChild (child : T) : T → Res T
  | .array p d t _ => .ok (.array p d t (some child))
  | .object p d t cs =>
    let splits := splitC '.' child.path
    if join g!"." splits.dropLast = p then .ok (.object p d t (GMap.set (splits.getLastD []) child cs)) else .err
  | .scalar p ty d t => .ok (.scalar p ty d t)

/-- transform/transformer.go:194-204, with `child` and `selectChild` of the nodes (transform/instance.go:160, 162, 315, 317, 492, 494): follow the path parts from the root (calling a method on a nil
child panics) and update the node found there. -/
def T.updateAt (f : T → Res T) : List Str → T → Res T
  | [], t => f t
  | sp :: rest, t =>
    if sp = g!"[*]" then
      match t with
      | .array p d i (some c) => (T.updateAt f rest c).map fun c' => .array p d i (some c')
      | _ => .panic
    else
      match t with
      | .object p d i cs => match GMap.get sp cs with
        | some c => (T.updateAt f rest c).map fun c' => .object p d i (GMap.set sp c' cs)
        | none => .panic
      | _ => .panic

/-- transform/transformer.go:185-192 `findParent`: the path parts leading to the parent. -/
def parentParts (path : Str) : Res (List Str) :=
  match splitC '.' (replaceAll path g!"[" g!".[") with
  | s0 :: rest => if s0 = g!"$" then .ok rest.dropLast else .err
  | [] => .err

/-- transform/transformer.go:209-245 `walker`, on the state of the construction: the root transformer and
the memory. -/
def walker (lib : Lib) (ident : Str) (path : Str) (value : P) (st : T × St) : Res (T × St) :=
  match newInstance lib ident path value st.2 with
  | (.err, _) => .err
  | (.panic, _) => .panic
  | (.ok node, s) =>
    match parentParts path with
    | .err => .err
    | .panic => .panic
    | .ok parts => (T.updateAt (T.addChild node) parts st.1).map fun root => (root, s)

/-- Memory before anything happened. -/
def St.empty : St := ⟨[], [], 0, [], [], 0⟩

/-- transform/transformer.go:46-48, 53-55, 57-77 `NewTransformer`, `NewXMLTransformer` and `newTransformer`; the cells allocated so far become the shared ones. -/
def newTransformer (env : Env) (schema : Schema) (ident : Str) : Res (T × St) :=
  let root : Option T :=
    if schema.properties.isSome then some (.object g!"$" none none [])
    else if schema.items.isSome then some (.array g!"$" none none none)
    else none
  match root with
  | none => .err
  | some r =>
    (walkRawSchema env.sched 0 (walker env.lib ident) schema (r, St.empty)).map fun (t, s) =>
      (t, { s with shared := s.heap.length })

/-! ### Running a Transformer -/

/-- Does a value refer to a cell at or beyond `n`? -/
def V.below (n : Nat) : V → Bool
  | .sc _ => true
  | .arr a => decide (a < n)
  | .obj a => decide (a < n)

def Cell.below (n : Nat) : Cell → Bool
  | .map m => m.all fun kv => kv.2.below n
  | .slice l => l.all (V.below n)

/-- End of a call.  Garbage collection: if no shared cell refers outside of the shared cells, the others are
unreachable and are dropped.  The bookkeeping of the call (choice counter and write logs) is cleared. -/
def St.gc (s : St) : St :=
  let heap := if (s.heap.take s.shared).all (Cell.below s.shared) then s.heap.take s.shared else s.heap
  { s with heap := heap, tick := 0, wlog := [], ilog := [] }

/-- Parse the input (transform/transformer.go:130-133, 166-169). -/
def readInput (env : Env) (raw : Str) : M V :=
  match env.fmt with
  | .json => match env.lib.parseJSON raw with
    | none => M.fail
    | some p => load p
  | .xml => match env.lib.parseXML raw with
    | none => M.fail
    | some n => return (V.sc (.node n))

/-- transform/transformer.go:129-146, 165-182 `baseJSONTransform` and `baseXMLTransform`. -/
def baseTransform (env : Env) (root : T) (raw : Str) : M Str := do
  let inp ← readInput env raw
  let v ← root.run env inp (fun p => p)
  let h ← getHeap
  match h.toP v with
  | none => M.fail
  | some p => match env.lib.marshal p with
    | none => M.fail
    | some s => return s

/-- transform/transformer.go:102-110 `TransformNoValidation`, followed by a garbage collection. -/
def transformNoValidation (env : Env) (root : T) (raw : Str) : M Str := fun s =>
  let (r, s') := baseTransform env root raw s
  (r, s'.gc)

/-- transform/transformer.go:112-127, 148-163 `jsonTransform` and `xmlTransform`: validation of the result. -/
def validated (env : Env) (x : M Str) : M Str := do
  let out ← x
  match env.lib.validate out with
  | some true => return out
  | some false => M.fail
  | none => M.fail

/-- transform/transformer.go:89-97 `Transform`, followed by a garbage collection. -/
def transform (env : Env) (root : T) (raw : Str) : M Str :=
  validated env (transformNoValidation env root raw)

end JT
