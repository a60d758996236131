import Verif.Model.Bulk
/- generate/avro_template.go:196-221: the generated example of how a `BulkAvroWriter` is used, together with the goroutine of Model/Bulk.lean.
The items and the container writer are parameters; printing is left out.  The generated example never closes the request channel
(there is no `close` in lines 196-221); `closes = true` is the same program with `close(inputChan)` between lines 212 and 215, as the comment
of the writer (lines 76-83) asks for. -/
namespace JT.Bulk

/-- Where the user is. -/
inductive User (α : Type) where
  /-- avro_template.go:205-212: the loop over the items, with those still to be sent. -/
  | sending (xs : List α)
  /-- avro_template.go:215-220: waiting for final errors. -/
  | draining
  /-- The function has returned: with an error (lines 208-209, 217-218), or without one. -/
  | returned (failed : Bool)

/-- The goroutine and its user. -/
structure Sys (α : Type) where
  writer : St α
  user : User α

/-- generate/avro_template.go:196-203: the start. -/
def Sys.init {α : Type} (xs : List α) : Sys α := ⟨.init, .sending xs⟩

/-- What the goroutine does alone (generate/avro_template.go:90-110): the user takes no part in it. -/
def Ev.alone {α : Type} : Ev α → Bool
  | .sent _ => false
  | .closedReq => false
  | .gotErr => false
  | _ => true

/-- One step of the goroutine or of the example (generate/avro_template.go:203-220).  A `select` of which both cases are ready takes any of them. -/
inductive SysStep {α : Type} (closes : Bool) : Sys α → List (Ev α) → Sys α → Prop where
  /-- generate/avro_template.go:90-110: a step of the goroutine alone. -/
  | writer {w w' ev u} (h : Step w ev w') (ho : ev.all Ev.alone = true) : SysStep closes ⟨w, u⟩ ev ⟨w', u⟩
  /-- avro_template.go:210: the item is sent. -/
  | item {w w' x xs} (h : Step w [.sent x] w') : SysStep closes ⟨w, .sending (x :: xs)⟩ [.sent x] ⟨w', .sending xs⟩
  /-- avro_template.go:207-209: an error is received in the loop. -/
  | loopErr {w w' x xs} (h : Step w [.gotErr] w') : SysStep closes ⟨w, .sending (x :: xs)⟩ [.gotErr] ⟨w', .returned true⟩
  /-- avro_template.go:207-209: the channel of errors is closed and empty: a nil error is received. -/
  | loopNil {p r x xs} : SysStep closes ⟨⟨p, r, false, true⟩, .sending (x :: xs)⟩ [] ⟨⟨p, r, false, true⟩, .returned false⟩
  /-- avro_template.go:212: the loop ends. -/
  | keepOpen {w} (h : closes = false) : SysStep closes ⟨w, .sending []⟩ [] ⟨w, .draining⟩
  /-- The `close` that is missing after avro_template.go:212. -/
  | closeReq {w w'} (hc : closes = true) (h : Step w [.closedReq] w') : SysStep closes ⟨w, .sending []⟩ [.closedReq] ⟨w', .draining⟩
  /-- avro_template.go:215-219: an error is received at the end. -/
  | drainErr {w w'} (h : Step w [.gotErr] w') : SysStep closes ⟨w, .draining⟩ [.gotErr] ⟨w', .returned true⟩
  /-- avro_template.go:215: the channel of errors is closed and empty. -/
  | drainEnd {p r} : SysStep closes ⟨⟨p, r, false, true⟩, .draining⟩ [] ⟨⟨p, r, false, true⟩, .returned false⟩

/-- Executions of both (generate/avro_template.go:90-110, 203-220) with what was seen. -/
inductive SysExec {α : Type} (closes : Bool) : Sys α → List (Ev α) → Sys α → Prop where
  | refl {s} : SysExec closes s [] s
  | step {s s1 s2 a b} : SysExec closes s a s1 → SysStep closes s1 b s2 → SysExec closes s (a ++ b) s2

end JT.Bulk
