import Verif.Spec.Semantics
/-
The meaning of a schema on an XML input, as a relation on schema documents: no transformer tree, no memory,
no iteration order.  The input of an instance is a node of the document.
-/
namespace JT.Spec

/-- The value of the nodes matched by a path: `wc` of them have child elements, `woc` have none. -/
def nodesP (lib : Lib) (ty : Str) (first : NodeId) (all : List NodeId) (wc woc : Nat) : Res P :=
  let text : P := .sc (.str (lib.innerText first))
  if wc = 0 ∧ woc = 1 then (convert lib P.view ty (text.depth + 1) text).bind fun c => .ok (outP c.val)
  else if ty = g!"array" ∨ ty = g!"object" then .ok (.sc (.nodes all))
  else if ty = g!"string" then .ok (.sc (.str (join g!" " (all.map lib.innerText))))
  else (convert lib P.view ty (text.depth + 1) text).bind fun c => .ok (if c.err then .sc (.nodes all) else outP c.val)

/-- One `from` entry on an input node; an invalid path is a panic of the library. -/
def instrX (lib : Lib) (ty path : Str) (ops : List Op) (n : NodeId) : Res P :=
  match lib.xfind n path with
  | none => .panic
  | some [] => .ok nilP
  | some (first :: others) =>
    match lib.xfind n (path ++ g!"[*]"), lib.xfind n (path ++ g!"[not(*)]") with
    | some wc, some woc => (nodesP lib ty first (first :: others) wc.length woc.length).bind fun v =>
      if isNilP v then .ok nilP else opsP lib ops v
    | _, _ => .panic

/-- A transform on an input node. -/
def instrsX (lib : Lib) (ty : Str) (mod : Mod) (tis : Instrs) (n : NodeId) : Res P :=
  let rs := tis.from.map fun ti => instrX lib ty (mod ti.xmlPath) ti.ops n
  match tis.method with
  | .first => firstP rs
  | .last => firstP rs.reverse
  | .concatenate => concatP tis.delim rs nilP

/-- The result of the transform of an instance for an identifier: nil if there is none. -/
inductive XTransformed (lib : Lib) (ident : Str) (n : NodeId) (raw : P) (up : Str) (sub : Mod) (ty : Str) : Res P → Prop
  | none : NoTransform ident raw → XTransformed lib ident n raw up sub ty (.ok nilP)
  | some {tr : P} {tis : Instrs} : (raw.key g!"transform").bind (P.key ident) = some tr → tr ≠ .sc (.str []) →
      parseInstrs lib tr = .ok tis →
      XTransformed lib ident n raw up sub ty (instrsX lib ty (fun p => sub (atPath up p)) tis n)

/-- The entries of an array instance: the nodes found, or the values of a result that is an array, or the one value;
without result, those of the default. -/
def entriesX (v dflt : P) : List P :=
  match v with
  | .sc (.nodes ns) => ns.map fun n => .sc (.node n)
  | .sc .nil => match dflt with
    | .arr l => l
    | _ => []
  | .arr l => l
  | v => [v]

/-- Entries that are nodes are evaluated, others are values already. -/
def entryX (f : Nat → NodeId → Option P) (x : P × Nat) : Option P :=
  match x.1 with
  | .sc (.node n) => f x.2 n
  | p => some p

/-- Where the properties of an object instance are evaluated, given the result of its transform. -/
inductive Where where
  | node (n : NodeId)
  | absent
  | fails

/-- The node for the properties of an object with a transform: the first one found.  No result, and an empty text, make the object
absent; other values are an error. -/
def whereX (n : NodeId) : P → Where
  | .sc .nil => .absent
  | .sc (.str []) => .absent
  | .sc (.node m) => .node m
  | .sc (.nodes []) => .node n
  | .sc (.nodes (m :: _)) => .node m
  | _ => .fails

/-- An object of the values that are there and, for other properties, the fields of the default; absent if there are none. -/
def objectOver (dflt : P) (kvs : List (Str × P)) : P :=
  match dflt with
  | .obj m =>
    let l := m ++ kvs.filter fun kv => !isNilP kv.2
    if l.isEmpty then nilP else .obj (GMap.ofList l)
  | _ => objectOf kvs

/-- The default of an instance, as a tree; nil if there is none. -/
def defaultOf (raw : P) : P := canon ((raw.key g!"default").getD nilP)

/-- `XVal lib ident n raw upS upC sp cp sub r`: on the input node `n`, the instance `raw` of a schema has the value `r`
(`none`: the transformation fails).  `sp` is its path in the schema, `cp` the same with item indices filled in, `sub` fills item
indices into paths; `upS` is what `@` stands for if the instance is a scalar, `upC` if it is an array or object. -/
inductive XVal (lib : Lib) (ident : Str) : NodeId → P → Str → Str → Str → Str → Mod → Option P → Prop
  /-- A scalar: its transform, else its default. -/
  | scalar {n : NodeId} {raw : P} {upS upC sp cp : Str} {sub : Mod} {ty0 ty : Str} {nu : Bool} {tr : Res P} :
      fieldType raw = .ok (ty0, nu) → ty0 ≠ g!"array" →
      (ty0 = g!"object" → raw.key g!"properties" = some (.obj [])) → scalarType raw ty0 = .ok ty →
      XTransformed lib ident n raw upS sub ty tr →
      XVal lib ident n raw upS upC sp cp sub
        ((okP tr).map fun p => if isNilP p then defaultOf raw else p)
  /-- An array: each node found by its transform is the input of one item. -/
  | array {n : NodeId} {raw : P} {upS upC sp cp : Str} {sub : Mod} {nu : Bool} {items : P} {tr : Res P} {f : Nat → NodeId → Option P} :
      fieldType raw = .ok (g!"array", nu) → raw.key g!"items" = some items →
      XTransformed lib ident n raw upC sub g!"array" tr →
      (∀ i m, XVal lib ident m items (sp ++ g!"[*]") upC (sp ++ g!"[*]") (cp ++ g!"[" ++ itoaNat i ++ g!"]")
        (fun p => replace1 (sub p) (cp ++ g!"[*]") (cp ++ g!"[" ++ itoaNat i ++ g!"]")) (f i m)) →
      XVal lib ident n raw upS upC sp cp sub ((okP tr).bind fun v =>
        (optAll (entryX f) (entriesX v (defaultOf raw)).zipIdx).map arrayOf)
  /-- An object without transform: its properties on the same node. -/
  | object {n : NodeId} {raw : P} {upS upC sp cp : Str} {sub : Mod} {nu : Bool} {m : List (Str × P)} {f : Str → Option P} :
      fieldType raw = .ok (g!"object", nu) → raw.key g!"properties" = some (.obj m) → m ≠ [] → NoTransform ident raw →
      (∀ k q, (k, q) ∈ m → XVal lib ident n q sp sp (sp ++ '.' :: k) (cp ++ '.' :: k) sub (f k)) →
      XVal lib ident n raw upS upC sp cp sub
        ((optAll (fun k => (f k).map fun p => (k, p)) (m.map Prod.fst)).map (objectOver (defaultOf raw)))
  /-- An object with a transform: its properties on the node it finds. -/
  | objectAt {n n' : NodeId} {raw : P} {upS upC sp cp : Str} {sub : Mod} {nu : Bool} {m : List (Str × P)} {f : Str → Option P} {v : P} :
      fieldType raw = .ok (g!"object", nu) → raw.key g!"properties" = some (.obj m) → m ≠ [] → ¬ NoTransform ident raw →
      XTransformed lib ident n raw upC sub g!"object" (.ok v) → whereX n v = .node n' →
      (∀ k q, (k, q) ∈ m → XVal lib ident n' q sp sp (sp ++ '.' :: k) (cp ++ '.' :: k) sub (f k)) →
      XVal lib ident n raw upS upC sp cp sub
        ((optAll (fun k => (f k).map fun p => (k, p)) (m.map Prod.fst)).map (objectOver (defaultOf raw)))
  /-- An object whose transform finds nothing has its default, or is absent; with an empty text it is absent. -/
  | objectAbsent {n : NodeId} {raw : P} {upS upC sp cp : Str} {sub : Mod} {nu : Bool} {m : List (Str × P)} {v : P} :
      fieldType raw = .ok (g!"object", nu) → raw.key g!"properties" = some (.obj m) → m ≠ [] → ¬ NoTransform ident raw →
      XTransformed lib ident n raw upC sub g!"object" (.ok v) → whereX n v = .absent →
      XVal lib ident n raw upS upC sp cp sub (some (if isNilP v then defaultOf raw else nilP))
  /-- An object whose transform fails, or gives a value that is not a node. -/
  | objectFails {n : NodeId} {raw : P} {upS upC sp cp : Str} {sub : Mod} {nu : Bool} {m : List (Str × P)} {tr : Res P} :
      fieldType raw = .ok (g!"object", nu) → raw.key g!"properties" = some (.obj m) → m ≠ [] → ¬ NoTransform ident raw →
      XTransformed lib ident n raw upC sub g!"object" tr → (∀ v, tr = .ok v → whereX n v = .fails) →
      XVal lib ident n raw upS upC sp cp sub none

/-- The value of a whole schema on the root node of a document.  A schema with top level items has no transform there: nothing is
found, the value is absent. -/
inductive XSchemaVal (lib : Lib) (ident : Str) (n : NodeId) (sc : Schema) : Option P → Prop
  | object {m : GMap P} {f : Str → Option P} : sc.properties = some m →
      (∀ k q, (k, q) ∈ m → XVal lib ident n q g!"$" g!"$" (g!"$." ++ k) (g!"$." ++ k) id (f k)) →
      XSchemaVal lib ident n sc ((optAll (fun k => (f k).map fun p => (k, p)) (m.map Prod.fst)).map objectOf)
  | array {items : P} : sc.properties = none → sc.items = some items → XSchemaVal lib ident n sc (some nilP)

/-- An object with properties. -/
def ObjectInst (q : P) : Prop := (∃ nu, fieldType q = .ok (g!"object", nu)) ∧ q.key g!"properties" ≠ some (.obj [])

/-- The schemas covered by the semantics: plain property names; objects have no default; no method `last`; no clock. -/
structure XmlSchema (ident : Str) (sc : Schema) : Prop where
  plain : PlainSchema sc
  noDefault : ∀ q, SchemaInst sc q → ObjectInst q → NoDefault q
  notLast : ∀ q, SchemaInst sc q → NotLast ident q
  noClock : ∀ q, SchemaInst sc q → NoClock ident q

end JT.Spec
