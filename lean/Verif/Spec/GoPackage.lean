import Verif.Spec.GoMeaning
import Verif.Spec.Decode
/- The structs, as encoding/json sees them, that the files of a Go package declare.  Structs may embed others. -/
namespace JT.GoJson

namespace Embed
/-- The fields that encoding/json sees in a struct that embeds others: of fields with the same JSON name, those of the struct itself hide those of the embedded structs, and
fields of the same level hide each other (all fields have a json tag).  The fields of embedded structs come first, as in the text. -/
def visible (embedded : List (List SF)) (own : List SF) : List SF :=
  (embedded.flatten.filter fun f => decide (f.json ∉ own.map SF.json ∧ (embedded.flatten.map SF.json).count f.json = 1)) ++
    own.filter fun f => decide ((own.map SF.json).count f.json = 1)
end Embed

end JT.GoJson

namespace JT.GoText
open GoJson JT.Spec

/-- The names that the files of a package declare. -/
def packageNames (pkg : List File) : List Str := pkg.flatMap fun f => f.types.map Prod.fst

mutual
/-- `Stands pkg f t g`: in the file `f` of the package, the type `t` is `g`.  Names may be declared in any file of the package, imports are those of the file. -/
inductive Stands (pkg : List File) : File → Ty → GT → Prop where
  | basic {f : File} {n : Str} {g : GT} : n ∉ packageNames pkg → (n, g) ∈ basicTypes → Stands pkg f (.name n) g
  | named {f f' : File} {n : Str} {t : Ty} {g : GT} : f' ∈ pkg → (n, t) ∈ f'.types → Stands pkg f' t g → Stands pkg f (.name n) g
  | time {f : File} : g!"time" ∈ f.imports → Stands pkg f (.sel g!"time" g!"Time") .time
  | dict {f : File} {k v : Ty} : Stands pkg f k .string → Stands pkg f v .string → Stands pkg f (.map k v) .dict
  | ptr {f : File} {t : Ty} {g : GT} : Stands pkg f t g → Stands pkg f (.star t) (.ptr g)
  | slice {f : File} {t : Ty} {g : GT} : Stands pkg f t g → Stands pkg f (.slice t) (.slice g)
  | struct {f : File} {fs : List Field} {sfs : List SF} : FieldsStand pkg f fs sfs → checked sfs = some sfs → Stands pkg f (.struct fs) (.struct sfs)
/-- The same for fields that are not embedded; their tags are in backquotes. -/
inductive FieldsStand (pkg : List File) : File → List Field → List SF → Prop where
  | nil {f : File} : FieldsStand pkg f [] []
  | cons {f : File} {doc : List Str} {n tag j : Str} {o : Omit} {t : Ty} {g : GT} {fs : List Field} {sfs : List SF} : readTag ('`' :: tag ++ g!"`\n") = some (j, o) →
      Stands pkg f t g → FieldsStand pkg f fs sfs → FieldsStand pkg f (.mk doc (some n) t (some tag) :: fs) (.mk n j o g :: sfs)
end

/-- `StructIn pkg n sfs`: the package declares a struct `n`, and encoding/json sees the fields `sfs` in it.  The structs that it embeds embed no others.  An embedded struct is a
field with the name of its type, and Go accepts no two fields of the same name. -/
inductive StructIn (pkg : List File) (n : Str) : List SF → Prop where
  | mk {f : File} {es : List Str} {fs : List Field} {sfs : List SF} {ess : List (List SF)} : f ∈ pkg → structDecl n es fs ∈ f.types → Stands pkg f (.struct fs) (.struct sfs) →
      Each (fun e es => Stands pkg f (.name e) (.struct es)) es ess → (es ++ sfs.map SF.name).Nodup → StructIn pkg n (Embed.visible ess sfs)

/-- What Go demands of the files of a package: they are of the same package, no name is declared twice or that of an imported package, exactly the packages that are used
are imported, and each name is that of a type of the language or declared in the package. -/
structure GoPackage (name : Str) (pkg : List File) : Prop where
  package : ∀ f ∈ pkg, f.pkg = name
  once : (packageNames pkg).Nodup
  imports : ∀ f ∈ pkg, f.ImportsUsed
  distinct : ∀ f ∈ pkg, ∀ p ∈ f.imports, p ∉ packageNames pkg
  closed : ∀ f ∈ pkg, ∀ d ∈ f.types, ∀ n ∈ d.2.names, n ∈ scalarTable.map Prod.snd ∨ n ∈ packageNames pkg

end JT.GoText
