import Verif.Model.Build
/- Reading a transform as encoding/json does: keys of objects are matched without regard to letter case (`fold`), a null entry
is a nil pointer that is only followed after everything has been read, and a string in place of the transform is read as JSON.
`Model/Build` leaves these out; `Props/C132` says for which documents that makes no difference.
Simplification: no two keys of an object are read into the same field (the first counts here, in Go the last, and lists and
maps are merged). -/
namespace JT

/-- encoding/json, the field for a key: the one that is called like it, or else the first one that is if letter case is ignored. -/
def fieldKey (fold : Str → Str) (names : List Str) (k : Str) : Option Str :=
  if k ∈ names then some k else names.find? fun n => decide (fold n = fold k)

/-- encoding/json: the entries of an object that are read into fields; the others are ignored. -/
def fieldsOf (fold : Str → Str) (names : List Str) (m : List (Str × P)) : List (Str × P) :=
  m.filterMap fun kv => (fieldKey fold names kv.1).map fun n => (n, kv.2)

/-- encoding/json: an object is read field by field, null leaves the zero struct. -/
def asFields (fold : Str → Str) (names : List Str) : P → Res P
  | .obj m => .ok (.obj (fieldsOf fold names m))
  | .sc .nil => .ok (.obj [])
  | _ => .err

/-- transform/transform.go:28-31, 62-101: one operation. -/
def unmarshalOp (fold : Str → Str) (lib : Lib) (p : P) : Res Op := do
  let p ← asFields fold [g!"type", g!"args"] p
  let name ← asString (p.key g!"type")
  let args ← parseArgs (p.key g!"args")
  match initOp lib name args with
  | some op => return op
  | none => .err

/-- transform/transform.go:43-47, 51-103 `transformInstruction.UnmarshalJSON`; null is a nil pointer. -/
def unmarshalInstr (fold : Str → Str) (lib : Lib) : P → Res (Option Instr)
  | .sc .nil => .ok none
  | p => do
    let p ← asFields fold [g!"jsonPath", g!"xmlPath", g!"operations"] p
    let jp ← asString (p.key g!"jsonPath")
    let xp ← asString (p.key g!"xmlPath")
    let opsJ ← asList (p.key g!"operations")
    let ops ← mapRes (unmarshalOp fold lib) opsJ
    return some ⟨jp, xp, ops⟩

/-- transform/transform.go:219-254 `transformInstructions.UnmarshalJSON`. -/
def unmarshalInstrs (fold : Str → Str) (lib : Lib) (p : P) : Res (List (Option Instr) × Method × Str) := do
  let p ← asFields fold [g!"from", g!"method", g!"methodOptions"] p
  let fromJ ← asList (p.key g!"from")
  let fr ← mapRes (unmarshalInstr fold lib) fromJ
  let ms ← asString (p.key g!"method")
  let opts ← asFields fold [g!"concatenateDelimiter"] ((p.key g!"methodOptions").getD (.sc .nil))
  let delim ← asString (opts.key g!"concatenateDelimiter")
  let m ← parseMethod ms
  return (fr, m, delim)

/-- transform/transform.go:297-306: the pointers are followed; a nil pointer is a panic. -/
def followed : List (Option Instr) → Res (List Instr)
  | [] => .ok []
  | none :: _ => .panic
  | some i :: l => (followed l).map (i :: ·)

/-- transform/utils.go:173-191: jsonparser.Get gives the text of a string as it is written, without its quotes, and that is read
as JSON.  Without quotes and backslashes only null, objects without keys, numbers, truth values and lists of these can be written, and of
these only the first two are read as a transform, one without instructions.  (Strings are taken to be written without escapes.) -/
def unmarshalText (s : Str) : Res (List (Option Instr) × Method × Str) :=
  let t := s.filter (· ≠ ' ')
  if t = g!"{}" ∨ (t = g!"null" ∧ g!"null" <:+: s) then .ok ([], .first, []) else .err

/-- transform/utils.go:172-197 `extractTransformInstructions`. -/
def extractGo (fold : Str → Str) (lib : Lib) (raw : P) (ident path : Str) (kind : Kind) : Res (Option Instrs) :=
  match (raw.key g!"transform").bind (P.key ident) with
  | none => .ok none
  | some (.sc (.str [])) => .ok none
  | some p => do
    let (ptrs, m, delim) ← match p with
      | .sc (.str s) => unmarshalText s
      | p => unmarshalInstrs fold lib p
    let fr ← followed ptrs
    let pp := parentPathOf kind path
    return some (replaceJSONPathPrefix g!"@[" (pp ++ g!"[") (replaceJSONPathPrefix g!"@." (pp ++ g!".") ⟨fr, m, delim⟩))

end JT
