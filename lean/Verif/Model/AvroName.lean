import Verif.Model.GoAst
/- The names that gogen-avro is told to use for Go. -/
namespace JT.Go

/-- generate/avro.go:40-45 `ToPublicName`: the name in Go for a name in the Avro schema, where `rename` is the option FieldNameMap and `pub` is gogen-avro's
`generator.ToPublicSimpleName`, which is not modelled. -/
def toPublicName (pub : Str → Str) (rename : GMap Str) (name : Str) : Str := pub ((GMap.get name rename).getD name)

end JT.Go
