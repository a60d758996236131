import Verif.Spec.GoCode
/- generate/avro_template.go:17-76: the generated methods that write one message to an Avro container file.  The Avro container writer is a parameter: any of its calls
may succeed or fail. -/
namespace JT.Go

/-- `container.Writer`: whether `NewWriter`, `WriteRecord` and `Flush` succeed. -/
structure Container where
  new : Bool
  write : AV → Bool
  flush : Bool

/-- What happens to the container file. -/
inductive CFEv where
  /-- the header, written by `NewWriter` -/
  | header
  | record (r : AV)
  | flushed

/-- How the method ends; a panic is that of the conversion. -/
inductive CFEnd where
  | ok | err | panic
  deriving DecidableEq

/-- `time.Time.IsZero`: January 1 of the year 1, 00:00:00 UTC. -/
def zeroTime (t : Avro.Time) : Bool := t.sec = -62135596800 && t.nsec = 0

/-- generate/avro_template.go:25-27, 48-50: the time of writing, where `now` is the result of time.Now. -/
def writeTimeOf (now t : Avro.Time) : Avro.Time := if zeroTime t then now else t

/-- Assignment to a field of a pointer to a struct. -/
def setField (k : Str) (v : AV) : AV → AV
  | .ptr (.record n fs) => .ptr (.record n (fs.filter (fun kv => kv.1 ≠ k) ++ [(k, v)]))
  | a => a

/-- generate/avro_template.go:33-37, 56-60: write the record and flush. -/
def writeOne (c : Container) (r : AV) : CFEnd × List CFEv :=
  if c.write r = false then (.err, [.header])
  else if c.flush = false then (.err, [.header, .record r])
  else (.ok, [.header, .record r, .flushed])

/-- generate/avro_template.go:21-38 `WriteAvroCF`; `conv` is `convertToAvro` with the time in milliseconds (line 64), `none` if it panics. -/
def writeAvroCF (c : Container) (now : Avro.Time) (conv : Int → GV → Option AV) (t : Avro.Time) : GV → CFEnd × List CFEv
  | .nil => (.err, [])
  | z =>
    if c.new = false then (.err, [])
    else
      match conv (Avro.avroTime (writeTimeOf now t)) z with
      | none => (.panic, [.header])
      | some r => writeOne c r

/-- generate/avro_template.go:41-61 `WriteAvroDeletedCF`. -/
def writeAvroDeletedCF (c : Container) (now : Avro.Time) (conv : Int → GV → Option AV) (t : Avro.Time) : GV → CFEnd × List CFEv
  | .nil => (.err, [])
  | z =>
    if c.new = false then (.err, [])
    else
      match conv (Avro.avroTime (writeTimeOf now t)) z with
      | none => (.panic, [.header])
      | some r => writeOne c (setField g!"AvroDeleted" (.bool true) r)

end JT.Go
