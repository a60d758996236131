import Verif.Spec.GoFlat
import Verif.Spec.AvroSchema
import Verif.Model.GoParse
/- From the text of Go source to the Avro schema: what go/parser makes of the source, and which fields may have no value in Avro. -/
namespace JT.GoText
open Gen Spec JT.Spec GoJson Flat

/-! ### Syntax trees -/

/-- The tag of a field, as the Avro generator takes it from the tree. -/
def tagAst : Option Str → Go.Tag
  | none => {}
  | some s => Go.parseStructTag ('`' :: s ++ ['`'])

mutual
/-- The tree that go/parser makes of a type; of the name of a package only what is after the dot matters. -/
def Ty.ast : Ty → Go.GoType
  | .star t => .star t.ast
  | .name s => .ident s
  | .sel _ s => .selector s
  | .map k v => .map k.ast v.ast
  | .slice t => .array t.ast
  | .struct fs => .struct (fieldsAst fs)
/-- That of a field; comments are left out. -/
def fieldsAst : List Field → List Go.GoField
  | [] => []
  | .mk _ n t tag :: fs => .mk n t.ast (tagAst tag) :: fieldsAst fs
end

/-- That of a file: the imports and the types, each by a declaration of its own. -/
def File.ast (f : File) : Go.GoSource := f.imports.map (fun _ => .gen [.import]) ++ f.types.map fun d => .gen [.type d.1 d.2.ast]

/-- The file with the text is in the directory, which has only one package, and no other file there declares one of its types. -/
structure Stored (u : Unicode) (s : Go.Sources) (dir path text : Str) : Prop where
  file : ∀ f, Source u text f → s.file path = .ok f.ast
  dir : ∀ f, Source u text f → ∃ pkg file a b, s.dir dir = .ok [(pkg, a ++ (file, f.ast) :: b)] ∧
    ∀ d ∈ f.types, ∀ x ∈ a ++ b, ∀ specs t, Go.GoDecl.gen specs ∈ x.2 → Go.GoSpec.type d.1 t ∉ specs

/-! ### Fields without values -/

/-- Which fields may have no value in Avro: those of properties that are not required, except objects that may not be null and are no pointers. -/
def Misses (args : Args) (raw : P) (required : Bool) : Prop := required = false ∧ ¬ (BareObject raw ∧ ¬ (args.noNested = true ∧ args.pointers = true))

/-! ### Conditions -/

/-- The schema's struct, and those before that for an object, have no field that is called like it. -/
def Apart (title : Str → Str) (args : Args) (schema : Instance) (name : Str) : Prop :=
  ∀ l m rq k q l' m' rq', ObjectAt schema l m rq → Listed m k q → l' ≠ [] → ObjectAt schema l' m' rq' → (∃ k q, Listed m' k q) →
    (l = [] ∨ strLt (keyOf title name l) (keyOf title name l') = true) → goName title args.fieldNames k ≠ keyOf title name l'

end JT.GoText
