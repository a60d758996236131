import Verif.Model.Strings
/- generate/avro_template.go:84-112: the generated `BulkAvroWriter`, a goroutine that writes the items of a channel.
The Avro container writer is a parameter: any of its calls may succeed or fail.  The request channel is taken to be unbuffered; the channel of errors has a
buffer for one error. -/
namespace JT.Bulk

/-- Where the goroutine is. -/
inductive Pc (α : Type) where
  /-- avro_template.go:93: before `NewWriter`. -/
  | start
  /-- avro_template.go:99: waiting for an item. -/
  | recv
  /-- avro_template.go:100: about to write the item. -/
  | write (x : α)
  /-- avro_template.go:106: about to flush. -/
  | flush
  /-- avro_template.go:95, 101, 107: about to send the error. -/
  | send
  /-- avro_template.go:91: the deferred `close`. -/
  | closing
  | exited

/-- The state: the goroutine, whether the request channel is closed, and the channel of errors. -/
structure St (α : Type) where
  pc : Pc α
  reqClosed : Bool
  /-- An error is in the buffer. -/
  buf : Bool
  errClosed : Bool

/-- What can be seen. -/
inductive Ev (α : Type) where
  /-- The user has sent an item. -/
  | sent (x : α)
  /-- The user has closed the request channel. -/
  | closedReq
  /-- A record was written. -/
  | wrote (x : α)
  /-- A call of the container writer failed. -/
  | failed
  /-- `Flush` succeeded. -/
  | flushed
  /-- The error was put in the channel. -/
  | reported
  /-- The user has received the error. -/
  | gotErr
  /-- The channel of errors was closed. -/
  | closedErr

/-- Before the goroutine has done anything. -/
def St.init {α : Type} : St α := ⟨.start, false, false, false⟩

/-- One step of the goroutine (generate/avro_template.go:90-110) or its user. -/
inductive Step {α : Type} : St α → List (Ev α) → St α → Prop where
  | newOk {r b e} : Step ⟨.start, r, b, e⟩ [] ⟨.recv, r, b, e⟩
  | newFail {r b e} : Step ⟨.start, r, b, e⟩ [.failed] ⟨.send, r, b, e⟩
  /-- Both sides of the channel meet. -/
  | item {b e} (x : α) : Step ⟨.recv, false, b, e⟩ [.sent x] ⟨.write x, false, b, e⟩
  /-- The range loop ends. -/
  | done {b e} : Step ⟨.recv, true, b, e⟩ [] ⟨.flush, true, b, e⟩
  | writeOk {x r b e} : Step ⟨.write x, r, b, e⟩ [.wrote x] ⟨.recv, r, b, e⟩
  | writeFail {x r b e} : Step ⟨.write x, r, b, e⟩ [.failed] ⟨.send, r, b, e⟩
  | flushOk {r b e} : Step ⟨.flush, r, b, e⟩ [.flushed] ⟨.closing, r, b, e⟩
  | flushFail {r b e} : Step ⟨.flush, r, b, e⟩ [.failed] ⟨.send, r, b, e⟩
  /-- Sending needs space in the buffer. -/
  | report {r e} : Step ⟨.send, r, false, e⟩ [.reported] ⟨.closing, r, true, e⟩
  | close {r b} : Step ⟨.closing, r, b, false⟩ [.closedErr] ⟨.exited, r, b, true⟩
  /-- The user closes the request channel. -/
  | closeReq {p b e} : Step ⟨p, false, b, e⟩ [.closedReq] ⟨p, true, b, e⟩
  /-- The user receives the error. -/
  | get {p r e} : Step ⟨p, r, true, e⟩ [.gotErr] ⟨p, r, false, e⟩

/-- Executions with what was seen. -/
inductive Exec {α : Type} : St α → List (Ev α) → St α → Prop where
  | refl {s} : Exec s [] s
  | step {s s1 s2 a b} : Exec s a s1 → Step s1 b s2 → Exec s (a ++ b) s2

end JT.Bulk
