import Verif.Model.Strings
/- jsonschema/cache.go: the schema cache under concurrent use, as a transition system.
`golang.org/x/sync/singleflight` is not in the repository; `Group.Do` is modelled as documented and implemented there: under its lock a caller
either joins the unfinished call of the key or registers a new one, whose function it runs; when that returns, the call is completed and
unregistered in one locked section; joined callers get its results.  `sync.Map` loads and stores are atomic.
Left out: panics in builders (they would crash the program), and the type assertion of cache.go:41 (everything stored has the type). -/
namespace JT.Cache

variable {V : Type}

/-- A program that uses the cache: a builder or a client.  It loads keys one after the other, looking at the results, and ends with a value or an error
(`none`).  What else it computes is left out; it may depend on the results in any way. -/
inductive Prog (V : Type) where
  | ret (r : Option V)
  | load (key : Str) (k : Option V → Prog V)

/-- One execution of `Load`: the key, the singleflight call it takes part in, and the time at which it entered. -/
structure Job where
  key : Str
  call : Nat
  since : Nat
deriving DecidableEq

/-- What a goroutine is to return to. -/
inductive Frame (V : Type) where
  /-- The code after a load. -/
  | cont (k : Option V → Prog V)
  /-- jsonschema/cache.go:28: the builder was called by this load. -/
  | build (j : Job)

/-- Where a goroutine is. -/
inductive Ctl (V : Type) where
  | run (p : Prog V)
  /-- jsonschema/cache.go:22: about to call `flight.Do`. -/
  | enter (key : Str)
  /-- jsonschema/cache.go:23: its function is being run by this goroutine; about to look the key up. -/
  | check (j : Job)
  /-- jsonschema/cache.go:34: about to store. -/
  | store (j : Job) (v : V)
  /-- The function of the call returned; about to complete it. -/
  | finish (j : Job) (r : Option V)
  /-- Joined a call; waiting for it to complete. -/
  | wait (j : Job)
  /-- jsonschema/cache.go:37-45: `Load` returns. -/
  | back (j : Job) (r : Option V)

structure Thread (V : Type) where
  ctl : Ctl V
  frames : List (Frame V)

/-- A singleflight call: its key and, when completed, result and time. -/
structure Call (V : Type) where
  key : Str
  result : Option (Option V × Nat)

/-- The cache (jsonschema/cache.go:16-19) and the singleflight group. -/
structure Shared (V : Type) where
  data : Str → Option V
  flight : Str → Option Nat
  calls : List (Call V)
  now : Nat

def upd {α : Type} (f : Str → α) (k : Str) (a : α) : Str → α := fun k' => if k' = k then a else f k'

/-- One step of a goroutine.  `B key p` says that the builder passed for `key` may behave like `p`. -/
inductive TStep (B : Str → Prog V → Prop) : Shared V → Thread V → Shared V → Thread V → Prop where
  | load {s key k F} : TStep B s ⟨.run (.load key k), F⟩ s ⟨.enter key, .cont k :: F⟩
  | join {s key F c} : s.flight key = some c → TStep B s ⟨.enter key, F⟩ s ⟨.wait ⟨key, c, s.now⟩, F⟩
  | lead {s key F} : s.flight key = none →
      TStep B s ⟨.enter key, F⟩ { s with flight := upd s.flight key (some s.calls.length), calls := s.calls ++ [⟨key, none⟩] } ⟨.check ⟨key, s.calls.length, s.now⟩, F⟩
  /-- jsonschema/cache.go:23-26 -/
  | hit {s j v F} : s.data j.key = some v → TStep B s ⟨.check j, F⟩ s ⟨.finish j (some v), F⟩
  /-- jsonschema/cache.go:27-28 -/
  | miss {s j p F} : s.data j.key = none → B j.key p → TStep B s ⟨.check j, F⟩ s ⟨.run p, .build j :: F⟩
  /-- jsonschema/cache.go:28-32 -/
  | failed {s j F} : TStep B s ⟨.run (.ret none), .build j :: F⟩ s ⟨.finish j none, F⟩
  | built {s j v F} : TStep B s ⟨.run (.ret (some v)), .build j :: F⟩ s ⟨.store j v, F⟩
  /-- jsonschema/cache.go:34-35 -/
  | store {s j v F} : TStep B s ⟨.store j v, F⟩ { s with data := upd s.data j.key (some v) } ⟨.finish j (some v), F⟩
  | finish {s j r F} : TStep B s ⟨.finish j r, F⟩
      { s with flight := upd s.flight j.key none, calls := s.calls.set j.call ⟨j.key, some (r, s.now)⟩ } ⟨.back j r, F⟩
  | wake {s j r t key F} : s.calls[j.call]? = some ⟨key, some (r, t)⟩ → TStep B s ⟨.wait j, F⟩ s ⟨.back j r, F⟩
  /-- jsonschema/cache.go:37-45 -/
  | back {s j r k F} : TStep B s ⟨.back j r, .cont k :: F⟩ s ⟨.run (k r), F⟩

/-- The program: the cache and the goroutines. -/
structure State (V : Type) where
  shared : Shared V
  threads : List (Thread V)

/-- Some goroutine makes a step, and time passes. -/
inductive Step (B : Str → Prog V → Prop) : State V → State V → Prop where
  | mk {s s' a b th th'} : TStep B s th s' th' → Step B ⟨s, a ++ th :: b⟩ ⟨{ s' with now := s.now + 1 }, a ++ th' :: b⟩

/-- The start: an empty cache, and goroutines with any programs. -/
def init (ps : List (Prog V)) : State V := ⟨⟨fun _ => none, fun _ => none, [], 0⟩, ps.map fun p => ⟨.run p, []⟩⟩

inductive Steps (B : Str → Prog V → Prop) : State V → State V → Prop where
  | refl {s} : Steps B s s
  | tail {s s' s''} : Steps B s s' → Step B s' s'' → Steps B s s''

/-- A goroutine is done. -/
def Thread.done (th : Thread V) : Prop := ∃ r, th = ⟨.run (.ret r), []⟩

/-- jsonschema/schema.go:102: the key of a schema. -/
def schemaKey (path oneOfType : Str) (flatten : Bool) : Str := path ++ g!"|" ++ oneOfType ++ g!"|" ++ (if flatten then g!"true" else g!"false")

end JT.Cache
