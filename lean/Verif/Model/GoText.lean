import Verif.Model.Struct
/- The text of a generated Go file, before `format.Source`, which is not modelled (generate/struct.go:282). -/
namespace JT.Gen

/-- generate/generate.go:17 -/
def disclaimer : Str := g!"// Code generated by github.com/GannettDigital/jstransform; DO NOT EDIT."

/-- generate/struct.go:303-306: the embedded structs. -/
def embedsText (embeds : List Str) : Str := if join g!"\n" embeds ≠ [] then join g!"\n" embeds ++ g!"\n\n" else []

/-- generate/struct.go:302-322: the text of a struct. -/
def StructText.source (s : StructText) : Str := g!"type " ++ s.name ++ g!" struct {\n" ++ embedsText s.embeds ++ s.body.flatMap Line.text ++ g!"}"

/-- generate/struct.go:247-280: the text of a file. -/
def fileSource (pkg : Str) (f : Bool × List StructText) : Str :=
  g!"package " ++ pkg ++ g!"\n\n" ++ disclaimer ++ g!"\n\n" ++ (if f.1 then g!"import \"time\"\n" else []) ++ f.2.flatMap fun s => g!"\n\n" ++ s.source

end JT.Gen
