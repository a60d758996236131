import Verif.Model.Schema
/- jsonschema/reference.go: finding and resolving references in a schema document.
Documents are `P` trees with the object fields in document order.  In this file the strings in a document are the *raw text* between the
quotes, escape sequences included, because the code copies raw text.
Modelled as in jsonparser: `Get`, `Set` and `Delete` take a path of keys, where a key `[i]` selects an element of an array and the first of
duplicate keys counts.  Left out: keys with escape sequences; malformed documents. -/
namespace JT

/-- A key that selects an element of an array: `[i]`. -/
def arrIndex (k : Str) : Option Nat :=
  match k with
  | '[' :: t =>
    if t.getLast? = some ']' then
      match atoi t.dropLast with
      | some i => if 0 ≤ i then some i.toNat else none
      | none => none
    else none
  | _ => none

/-- One step of a jsonparser path. -/
def P.step (k : Str) : P → Option P
  | .obj m => GMap.get k m
  | .arr l => (arrIndex k).bind fun i => l[i]?
  | .sc _ => none

/-- `jsonparser.Get(data, path...)`. -/
def P.at : List Str → P → Option P
  | [], p => some p
  | k :: ks, p => (p.step k).bind (P.at ks)

/-- Replace the value of the first field `k`, or append a field. -/
def setField (k : Str) (v : P) : List (Str × P) → List (Str × P)
  | [] => [(k, v)]
  | (k', v') :: t => if k = k' then (k', v) :: t else (k', v') :: setField k v t

/-- Remove the first field `k`. -/
def delField (k : Str) : List (Str × P) → List (Str × P)
  | [] => []
  | (k', v') :: t => if k = k' then t else (k', v') :: delField k t

/-- Replace what one step leads to (used where the step leads somewhere). -/
def P.put (k : Str) (p v : P) : P :=
  match p with
  | .obj m => .obj (setField k v m)
  | .arr l => match arrIndex k with
    | some i => .arr (l.set i v)
    | none => .arr l
  | .sc s => .sc s

/-- `jsonparser.Set(data, v, path...)`; `none` is an error.  If the last key is missing in an object it is appended.
Simplification: `Set` can also create several levels, or turn a value that is not an object into one, below the top level; `dereference` never
asks for that, as the objects it sets keys of exist (the model returns an error). -/
def P.set (v : P) : List Str → P → Option P
  | [], _ => some v
  | [k], p => match p.step k, p with
    | some _, _ => some (p.put k v)
    | none, .obj m => some (.obj (setField k v m))
    | none, _ => none
  | k :: ks, p => match p.step k with
    | some q => (P.set v ks q).map fun q' => p.put k q'
    | none => none

/-- `jsonparser.Delete(data, path..., key)`; nothing happens if the path leads nowhere. -/
def P.del (key : Str) : List Str → P → P
  | [], .obj m => .obj (delField key m)
  | [], p => p
  | k :: ks, p => match p.step k with
    | some q => p.put k (P.del key ks q)
    | none => p

def refKey : Str := g!"$ref"
def fromRefKey : Str := g!"fromRef"

mutual
/-- jsonschema/reference.go:104-142: the references below the fields of an object, in document order. -/
def refsFields : List (Str × P) → List (List Str)
  | [] => []
  | (k, v) :: t => refsField k v ++ refsFields t
/-- jsonschema/reference.go:105-140: one field. -/
def refsField (k : Str) : P → List (List Str)
  | .sc (.str _) => if k = refKey then [[k]] else []
  | .sc _ => []
  | .obj m => (refsFields m).map fun r => k :: r
  | .arr l => (refsElems 0 l).map fun r => k :: r
/-- jsonschema/reference.go:120-139: the elements of an array; only objects are searched. -/
def refsElems (i : Nat) : List P → List (List Str)
  | [] => []
  | .obj m :: t => ((refsFields m).map fun r => (g!"[" ++ itoaNat i ++ g!"]") :: r) ++ refsElems (i + 1) t
  | _ :: t => refsElems (i + 1) t
end

/-- jsonschema/reference.go:101-148 `findRefs`; `none` is an error. -/
def findRefs : P → Option (List (List Str))
  | .obj m => some (refsFields m)
  | _ => none

/-- Hexadecimal digits. -/
def hexDigit (n : Nat) : Char := if n < 10 then Char.ofNat (48 + n) else Char.ofNat (87 + n)
def hexVal (c : Char) : Nat :=
  if 48 ≤ c.toNat ∧ c.toNat ≤ 57 then c.toNat - 48
  else if 97 ≤ c.toNat ∧ c.toNat ≤ 102 then c.toNat - 87
  else if 65 ≤ c.toNat ∧ c.toNat ≤ 70 then c.toNat - 55
  else 0

/-- How `encoding/json` writes one character of a string. -/
def escChar (c : Char) : Str :=
  if c = '"' then ['\\', '"']
  else if c = '\\' then ['\\', '\\']
  else if c = '\n' then ['\\', 'n']
  else if c = '\r' then ['\\', 'r']
  else if c = '\t' then ['\\', 't']
  else if c.toNat < 32 ∨ c = '<' ∨ c = '>' ∨ c = '&' ∨ c.toNat = 0x2028 ∨ c.toNat = 0x2029 then
    ['\\', 'u', hexDigit (c.toNat / 4096), hexDigit (c.toNat / 256 % 16), hexDigit (c.toNat / 16 % 16), hexDigit (c.toNat % 16)]
  else [c]

/-- The text of a string as written by `json.Marshal`, without the quotes. -/
def escStr (s : Str) : Str := s.flatMap escChar

/-- The character meant by a one letter escape sequence. -/
def simpleEsc (c : Char) : Char :=
  if c = 'n' then '\n' else if c = 'r' then '\r' else if c = 't' then '\t' else if c = 'b' then Char.ofNat 8 else if c = 'f' then Char.ofNat 12 else c

/-- The string meant by the text between the quotes (jsonparser.ParseString, encoding/json).  Left out: surrogate pairs; invalid sequences,
which are errors. -/
def unescStr : Str → Str
  | '\\' :: 'u' :: a :: b :: c :: d :: t => Char.ofNat (4096 * hexVal a + 256 * hexVal b + 16 * hexVal c + hexVal d) :: unescStr t
  | '\\' :: c :: t => simpleEsc c :: unescStr t
  | c :: t => c :: unescStr t
  | [] => []

/-- The surroundings of a document: the file system through `SchemaFromFile`, HTTP, the absolute path of a relative reference
(`filepath.Abs(filepath.Join(filepath.Dir(schemaPath), sourcePath))`), and the text `fmt.Sprintf("%q", ref)` without quotes. -/
structure World where
  /-- The schema of another file, encoded again (reference.go:195-207). -/
  load : Str → Res P
  http : Str → Res P
  absRef : Str → Str → Res Str
  quote : Str → Str

/-- jsonschema/reference.go:155-167: the file and the target of a reference. -/
def splitRef (ref : Str) : Str × Str :=
  match splitN2 '#' ref with
  | [a, b] => (a, trim ['/'] b)
  | _ => if contains ref g!"#" then ([], trim ['#', '/'] ref) else (ref, [])

/-- jsonschema/reference.go:169-208: the document a reference points into. -/
def refSource (w : World) (schemaPath sourcePath : Str) (data : P) : Res P :=
  if sourcePath = [] then .ok data
  else if hasPrefix sourcePath g!"http" then w.http sourcePath
  else
    match w.absRef schemaPath sourcePath with
    | .ok refPath => if schemaPath = refPath then .ok data else w.load refPath
    | .err => .err
    | .panic => .panic

/-- jsonschema/reference.go:210-220: the part of the source that is meant. -/
def refTarget (target : Str) (source : P) : Res P :=
  if target = [] then .ok source
  else match source.at (splitC '/' target) with
    | some p => .ok p
    | none => .err

/-- jsonschema/reference.go:221-224: mark the resolved object with the reference (an error for anything but an object). -/
def markRef (w : World) (ref : Str) (p : P) : Res P :=
  match p with
  | .obj m => .ok (.obj (setField fromRefKey (.sc (.str (w.quote ref))) m))
  | _ => .err

/-- jsonschema/reference.go:154-227 `resolveRef`. -/
def resolveRef (w : World) (schemaPath ref : Str) (data : P) : Res P := do
  let source ← refSource w schemaPath (splitRef ref).1 data
  let p ← refTarget (splitRef ref).2 source
  markRef w ref p

/-- jsonschema/reference.go:67-72: the text of a string beside the reference is encoded once more; other values are copied. -/
def siblingValue : P → P
  | .sc (.str raw) => .sc (.str (escStr raw))
  | p => p

/-- jsonschema/reference.go:63-82: put the keys that were beside the reference back. -/
def applySiblings (dest : List Str) : List (Str × P) → P → Res P
  | [], data => .ok data
  | (k, v) :: t, data =>
    match P.set (siblingValue v) (dest ++ [k]) data with
    | some data' => applySiblings dest t data'
    | none => .err

/-- jsonschema/reference.go:44-83: put the resolved object in place. -/
def placeRef (dest : List Str) (resolved data : P) : Res P :=
  match data.at dest with
  | some (.obj prior) =>
    match P.set resolved dest data with
    | some data' => applySiblings dest prior data'
    | none => .err
  | some _ => .err
  | none => match P.set resolved dest data with
    | some data' => .ok data'
    | none => .err

/-- jsonschema/reference.go:29-33: the string at the place of a reference. -/
def refString (refPath : List Str) (data : P) : Res Str :=
  match data.at refPath with
  | some (.sc (.str raw)) => .ok (unescStr raw)
  | _ => .err

/-- jsonschema/reference.go:29-84: the body of the loop over the references. -/
def derefOne (w : World) (schemaPath : Str) (refPath : List Str) (data : P) : Res P := do
  let ref ← refString refPath data
  let resolved ← resolveRef w schemaPath ref data
  let dest := refPath.dropLast
  let data' := P.del refKey dest data
  if dest = [] then .ok data' else placeRef dest resolved data'

/-- jsonschema/reference.go:23-98 `dereference`.  The fuel bounds the number of passes; `none` means that they did not suffice. -/
def dereference (w : World) (schemaPath : Str) : Nat → P → Option (Res P)
  | 0, _ => none
  | n + 1, data =>
    match findRefs data with
    | none => some .err
    | some refs =>
      match foldRes (derefOne w schemaPath) refs data with
      | .err => some .err
      | .panic => some .panic
      | .ok data' =>
        match findRefs data' with
        | none => some .err
        | some [] => some (.ok data')
        | some (_ :: _) => dereference w schemaPath n data'

end JT
