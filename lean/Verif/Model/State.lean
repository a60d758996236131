import Verif.Model.Operations
/- Mutable state of the transform engine. -/
namespace JT

/-- transform/transform.go:35-41 `transformInstruction`. -/
structure Instr where
  jsonPath : Str
  xmlPath : Str
  ops : List Op
  deriving Repr, DecidableEq

/-- transform/transform.go:13-19 `transformMethod`. -/
inductive Method where
  | first | last | concatenate
  deriving Repr, DecidableEq

/-- transform/transform.go:213-217 `transformInstructions`. -/
structure Instrs where
  «from» : List Instr
  method : Method
  delim : Str
  deriving Repr, DecidableEq

/-- The memory: heap cells (maps and slices), the instruction sets owned by the Transformer (they are
updated by method `last`), a counter of nondeterministic choices, and logs of the addresses of cells and
instruction sets written so far.  The first `shared` cells belong to the Transformer (schema defaults). -/
structure St where
  heap : Heap
  instrs : List Instrs
  tick : Nat
  wlog : List Addr
  ilog : List Nat
  shared : Nat
  deriving Repr

/-- Computations: the state survives errors and panics. -/
def M (α : Type) := St → Res α × St

namespace M
variable {α β : Type}
def pure (a : α) : M α := fun s => (.ok a, s)
def bind (x : M α) (f : α → M β) : M β := fun s =>
  match x s with
  | (.ok a, s') => f a s'
  | (.err, s') => (.err, s')
  | (.panic, s') => (.panic, s')
instance : Monad M where
  pure := M.pure
  bind := M.bind
/-- `return nil, err` -/
def fail : M α := fun s => (.err, s)
/-- run-time panic -/
def panic : M α := fun s => (.panic, s)
/-- Embed a pure outcome. -/
def lift (r : Res α) : M α := fun s => (r, s)

theorem pure_apply (a : α) (s : St) : (Pure.pure a : M α) s = (.ok a, s) := rfl
theorem bind_apply (x : M α) (f : α → M β) (s : St) :
    (x >>= f) s = match x s with
      | (.ok a, s') => f a s'
      | (.err, s') => (.err, s')
      | (.panic, s') => (.panic, s') := rfl
theorem bind_ok {x : M α} {f : α → M β} {s s' : St} {a : α} (h : x s = (.ok a, s')) :
    (x >>= f) s = f a s' := by rw [bind_apply, h]
theorem bind_err {x : M α} {f : α → M β} {s s' : St} (h : x s = (.err, s')) :
    (x >>= f) s = (.err, s') := by rw [bind_apply, h]
theorem bind_panic {x : M α} {f : α → M β} {s s' : St} (h : x s = (.panic, s')) :
    (x >>= f) s = (.panic, s') := by rw [bind_apply, h]
end M

/-- The current heap. -/
def getHeap : M Heap := fun s => (.ok s.heap, s)

/-- Allocate a cell (`make`, composite literals, growing `append`). -/
def alloc (c : Cell) : M Addr := fun s => (.ok s.heap.length, { s with heap := s.heap ++ [c] })

/-- Write a cell. -/
def writeCell (a : Addr) (c : Cell) : M Unit := fun s =>
  (.ok (), { s with heap := s.heap.set a c, wlog := a :: s.wlog })

/-- Entries of a map (`panic` on a dangling reference, which does not occur). -/
def readMap (a : Addr) : M (GMap V) := fun s =>
  match s.heap[a]? with
  | some (.map m) => (.ok m, s)
  | _ => (.panic, s)

/-- Elements of a slice. -/
def readSlice (a : Addr) : M (List V) := fun s =>
  match s.heap[a]? with
  | some (.slice l) => (.ok l, s)
  | _ => (.panic, s)

/-- An instruction set of the Transformer. -/
def readInstrs (i : Nat) : M Instrs := fun s =>
  match s.instrs[i]? with
  | some t => (.ok t, s)
  | none => (.panic, s)

/-- Update an instruction set in place. -/
def writeInstrs (i : Nat) (t : Instrs) : M Unit := fun s =>
  (.ok (), { s with instrs := s.instrs.set i t, ilog := i :: s.ilog })

/-- A nondeterministic choice point (map iteration order, clock). -/
def nextTick : M Nat := fun s => (.ok s.tick, { s with tick := s.tick + 1 })

/-- Turn a library or operation result into a value, allocating new slices. -/
def materialize : Out V → M V
  | .val v => Pure.pure v
  | .sc s => Pure.pure (.sc s)
  | .arr l => do let a ← alloc (.slice l); return .arr a
  | .strs l => do let a ← alloc (.slice (l.map fun s => .sc (.str s))); return .arr a

mutual
/-- `json.Unmarshal` into `interface{}`: build the value in the heap. -/
def loadP : P → Heap → V × Heap
  | .sc s, h => (.sc s, h)
  | .arr l, h => let (vs, h') := loadList l h; (.arr h'.length, h' ++ [.slice vs])
  | .obj m, h => let (kvs, h') := loadFields m h; (.obj h'.length, h' ++ [.map (GMap.ofList kvs)])
def loadList : List P → Heap → List V × Heap
  | [], h => ([], h)
  | p :: ps, h =>
    let (v, h1) := loadP p h
    let (vs, h2) := loadList ps h1
    (v :: vs, h2)
def loadFields : List (Str × P) → Heap → List (Str × V) × Heap
  | [], h => ([], h)
  | (k, p) :: ps, h =>
    let (v, h1) := loadP p h
    let (vs, h2) := loadFields ps h1
    ((k, v) :: vs, h2)
end

/-- Load a tree into the heap. -/
def load (p : P) : M V := fun s =>
  let (v, h) := loadP p s.heap
  (.ok v, { s with heap := h })

end JT
