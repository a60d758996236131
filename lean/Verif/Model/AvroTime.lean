import Verif.Model.Strings
/- generate/avro_helpers.go:58-102: times as Avro timestamps. -/
namespace JT.Avro

/-- A Go `time.Time` as a moment: seconds since the epoch and nanoseconds within the second.  The location and the monotonic clock reading do not
matter here. -/
structure Time where
  sec : Int
  nsec : Nat

/-- `time.Time.UnixNano`: nanoseconds since the epoch, as a 64 bit integer that wraps around. -/
def Time.unixNano (t : Time) : Int := wrap64 (t.sec * 1000000000 + t.nsec)

/-- generate/avro_helpers.go:58-60 `AvroTime`; Go division rounds towards zero. -/
def avroTime (t : Time) : Int := t.unixNano.tdiv 1000000

/-- generate/avro_helpers.go:63-69 `AvroTimeSlice`. -/
def avroTimeSlice (ts : List Time) : List Int := ts.map avroTime

/-- generate/avro_helpers.go:74-79 `AvroOptionalTime`. -/
def avroOptionalTime : Option Time → Int
  | none => 0
  | some t => t.unixNano.tdiv 1000000

/-- generate/avro_helpers.go:85-90: one entry of the slice. -/
def optStep (acc : List Int) : Option Time → List Int
  | none => acc
  | some t => acc ++ [avroTime t]

/-- generate/avro_helpers.go:83-95 `AvroOptionalTimeSlice`; `none` is a nil slice. -/
def avroOptionalTimeSlice (ts : List (Option Time)) : Option (List Int) :=
  if (ts.foldl optStep []).length < 1 then none else some (ts.foldl optStep [])

end JT.Avro
