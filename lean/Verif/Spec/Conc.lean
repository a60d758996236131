import Verif.Model.Build
/- Goroutines that call a Transformer at the same time: each call is a program of atomic accesses to memory, and the scheduler may switch between any two of them. -/
namespace JT.Spec

/-- A program: what it does next, and how it goes on. -/
inductive Prog (α : Type) where
  /-- it has returned, with a value or an error, or panicked -/
  | done (r : Res α)
  | read (a : Addr) (k : Option Cell → Prog α)
  /-- a library call that may read any part of the memory -/
  | scan (k : Heap → Prog α)
  | alloc (c : Cell) (k : Addr → Prog α)
  | write (a : Addr) (c : Cell) (k : Prog α)
  /-- read or replace an instruction set of the Transformer -/
  | readSet (i : Nat) (k : Option Instrs → Prog α)
  | writeSet (i : Nat) (t : Instrs) (k : Prog α)
  /-- a choice that is not determined by the program: iteration order, clock -/
  | choose (k : Nat → Prog α)

/-- The program run without interruption. -/
def Prog.run {α : Type} : Prog α → M α
  | .done r, s => (r, s)
  | .read a k, s => (k s.heap[a]?).run s
  | .scan k, s => (k s.heap).run s
  | .alloc c k, s => (k s.heap.length).run { s with heap := s.heap ++ [c] }
  | .write a c k, s => k.run { s with heap := s.heap.set a c, wlog := a :: s.wlog }
  | .readSet i k, s => (k s.instrs[i]?).run s
  | .writeSet i t k, s => k.run { s with instrs := s.instrs.set i t, ilog := i :: s.ilog }
  | .choose k, s => (k s.tick).run { s with tick := s.tick + 1 }

/-- A goroutine: its program, the cells it has allocated and its number of choices.  Addresses of its own cells follow those of the common ones: a goroutine has no pointer
to cells of another one, as long as none is stored in common memory. -/
structure Goroutine (α : Type) where
  prog : Prog α
  own : Heap
  tick : Nat

/-- The common memory, which is that of the Transformer, and the goroutines. -/
structure World (α : Type) where
  heap : Heap
  sets : List Instrs
  gs : List (Goroutine α)

/-- One step of a goroutine: the common memory and the goroutine afterwards. -/
def Goroutine.step {α : Type} (heap : Heap) (sets : List Instrs) (g : Goroutine α) : Option (Heap × List Instrs × Goroutine α) :=
  match g.prog with
  | .done _ => none
  | .read a k => some (heap, sets, { g with prog := k (heap ++ g.own)[a]? })
  | .scan k => some (heap, sets, { g with prog := k (heap ++ g.own) })
  | .alloc c k => some (heap, sets, { g with prog := k (heap.length + g.own.length), own := g.own ++ [c] })
  | .write a c k =>
    if a < heap.length then some (heap.set a c, sets, { g with prog := k })
    else some (heap, sets, { g with prog := k, own := g.own.set (a - heap.length) c })
  | .readSet i k => some (heap, sets, { g with prog := k sets[i]? })
  | .writeSet i t k => some (heap, sets.set i t, { g with prog := k })
  | .choose k => some (heap, sets, { g with prog := k g.tick, tick := g.tick + 1 })

/-- The scheduler lets one goroutine make a step. -/
inductive Turn {α : Type} : World α → World α → Prop
  | mk {w : World α} {i : Nat} {g g' : Goroutine α} {heap : Heap} {sets : List Instrs} :
      w.gs[i]? = some g → g.step w.heap w.sets = some (heap, sets, g') → Turn w ⟨heap, sets, w.gs.set i g'⟩

/-- Executions with their number of steps. -/
inductive Turns {α : Type} : Nat → World α → World α → Prop
  | zero {w : World α} : Turns 0 w w
  | more {n : Nat} {w w' w'' : World α} : Turns n w w' → Turn w' w'' → Turns (n + 1) w w''

/-- A Transformer whose memory is `s`, and goroutines that are about to run the programs. -/
def World.init {α : Type} (s : St) (ps : List (Prog α)) : World α := ⟨s.heap, s.instrs, ps.map fun p => ⟨p, [], s.tick⟩⟩

/-- The call of `Transform`, as accesses to memory. -/
def IsCall (env : Env) (t : T) (raw : Str) (p : Prog Str) : Prop := p.run = validated env (baseTransform env t raw)

end JT.Spec
