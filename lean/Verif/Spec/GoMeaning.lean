import Verif.Spec.GoFlat
/- The types, as encoding/json sees them, that the declarations in Go source mean. -/
namespace JT.GoText
open GoJson

/-- The types of the language. -/
def basicTypes : List (Str × GT) := [(g!"bool", .bool), (g!"int64", .int64), (g!"float64", .float64), (g!"string", .string)]

mutual
/-- `Denotes f t g`: in the file `f`, the type `t` is `g`.  A declared name means what it is declared as, even if the language has a type of that name. -/
inductive Denotes (f : File) : Ty → GT → Prop where
  | basic {n : Str} {g : GT} : n ∉ f.types.map Prod.fst → (n, g) ∈ basicTypes → Denotes f (.name n) g
  | named {n : Str} {t : Ty} {g : GT} : (n, t) ∈ f.types → Denotes f t g → Denotes f (.name n) g
  | time : g!"time" ∈ f.imports → Denotes f (.sel g!"time" g!"Time") .time
  | dict {k v : Ty} : Denotes f k .string → Denotes f v .string → Denotes f (.map k v) .dict
  | ptr {t : Ty} {g : GT} : Denotes f t g → Denotes f (.star t) (.ptr g)
  | slice {t : Ty} {g : GT} : Denotes f t g → Denotes f (.slice t) (.slice g)
  | struct {fs : List Field} {sfs : List SF} : FieldsDenote f fs sfs → checked sfs = some sfs → Denotes f (.struct fs) (.struct sfs)
/-- The same for fields that are not embedded; their tags are in backquotes. -/
inductive FieldsDenote (f : File) : List Field → List SF → Prop where
  | nil : FieldsDenote f [] []
  | cons {doc : List Str} {n tag j : Str} {o : Omit} {t : Ty} {g : GT} {fs : List Field} {sfs : List SF} : readTag ('`' :: tag ++ g!"`\n") = some (j, o) → Denotes f t g →
      FieldsDenote f fs sfs → FieldsDenote f (.mk doc (some n) t (some tag) :: fs) (.mk n j o g :: sfs)
end

end JT.GoText
