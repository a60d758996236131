import Verif.Model.State
/- transform/transformer.go:247-357: saving values in a tree of maps and slices. -/
namespace JT

/-- transform/transformer.go:334-343: when a map is saved over a map, the entries of the old map whose keys
are missing in the new one are added to the *new map, in place*. -/
def mergeOld (value old : V) : M Unit :=
  match value, old with
  | .obj nv, .obj ov => do
    let nm ← readMap nv
    let om ← readMap ov
    writeCell nv (.map (GMap.fill nm om))
  | _, _ => return ()

/-- Run `x`; if it returns an error use `dflt` instead (the caller ignores the error). -/
def orElseM {α : Type} (x : M α) (dflt : M α) : M α := fun s =>
  match x s with
  | (.err, s') => dflt s'
  | r => r

/-- Elements of a possibly nil slice. -/
def readBase : Option Addr → M (List V)
  | none => return []
  | some a => readSlice a

/-- transform/transformer.go:324-330: the slice itself if it has an element `n`, otherwise the grown slice
`l'`. -/
def growSlice (cur : Option Addr) (l l' : List V) (n : Nat) : M Addr :=
  match cur with
  | some a => if n < l.length then return a else alloc (.slice l')
  | none => alloc (.slice l')

/-- The slice stored in an element, if it is one (transform/transformer.go:350-353). -/
def nestedSlice : V → Option Addr
  | .arr b => some b
  | _ => none

/-- transform/transformer.go:317-357 `saveInSlice`.  `cur = none` is a nil slice; the result is the address
of the slice to store back.
Simplifications: growing a slice always moves it to a new cell (in Go the elements may stay shared if there
is spare capacity); the memory limit on huge indices is ignored; where Go stores the nil slice returned
along with an ignored error (line 354-355) an empty slice is stored. -/
def saveInSlice : List Str → Option Addr → V → M Addr
  | [], _, _ => M.panic
  | sp :: rest, cur, value =>
    match atoi (trim [']'] sp) with
    | none => M.fail
    | some i =>
      if i < 0 then M.panic
      else do
        let l ← readBase cur
        let n := i.toNat
        let l' := l ++ List.replicate (n + 1 - l.length) V.nil
        let a ← growSlice cur l l' n
        match rest with
        | [] => do
          mergeOld value (l'.getD n V.nil)
          writeCell a (.slice (l'.set n value))
          return a
        | _ :: _ => do
          let b ← orElseM (saveInSlice rest (nestedSlice (l'.getD n V.nil)) value) (alloc (.slice []))
          writeCell a (.slice (l'.set n (.arr b)))
          return a

/-- transform/transformer.go:265-268, 304-307: the slice currently stored under a key; a value that is
present but not a slice makes the type assertion panic. -/
def sliceAt (m : GMap V) (k : Str) : M (Option Addr) :=
  match GMap.get k m with
  | none => return none
  | some (.arr a) => return (some a)
  | some _ => M.panic

/-- `tree[k] = v`. -/
def setKey (tree : Addr) (k : Str) (v : V) : M Unit := do
  let m ← readMap tree
  writeCell tree (.map (GMap.set k v m))

/-- transform/transformer.go:297-315 `saveLeaf`. -/
def saveLeaf (tree : Addr) (path : Str) (value : V) : M Unit :=
  match splitC '[' path with
  | a0 :: sp :: sps => do
    let m ← readMap tree
    let cur ← sliceAt m a0
    let a ← saveInSlice (sp :: sps) cur value
    setKey tree a0 (.arr a)
  | _ => setKey tree path value

/-- transform/transformer.go:253-291: the body of `saveInTree` on the path split at dots (joining the rest
and splitting it again, as the recursive call does, gives the rest back).  `strip` is true on entry of a
call, when a leading `$` is dropped; a lone `$` makes `path[2:]` panic. -/
def saveSplits : Bool → List Str → Addr → V → M Unit
  | _, [], _, _ => M.panic
  | strip, s :: rest, tree, value =>
    if strip = true ∧ s = g!"$" then
      match rest with
      | [] => M.panic
      | _ :: _ => saveSplits false rest tree value
    else
      match rest with
      | [] => saveLeaf tree s value
      | _ :: _ =>
        match splitC '[' s with
        | a0 :: sp :: sps => do
          let m ← readMap tree
          let cur ← sliceAt m a0
          let nt ← alloc (.map [])
          let a ← saveInSlice (sp :: sps) cur (.obj nt)
          setKey tree a0 (.arr a)
          saveSplits true rest nt value
        | _ => do
          let m ← readMap tree
          match GMap.get s m with
          | some (.obj nt) => do
            setKey tree s (.obj nt)
            saveSplits true rest nt value
          | none | some (.sc .nil) => do
            let nt ← alloc (.map [])
            setKey tree s (.obj nt)
            saveSplits true rest nt value
          | some _ => M.fail

/-- transform/transformer.go:247-292 `saveInTree`. -/
def saveInTree (tree : Addr) (path : Str) (value : V) : M Unit :=
  if value = V.nil then return ()
  else saveSplits true (splitC '.' path) tree value

end JT
