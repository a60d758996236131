import Verif.Spec.GqlText
import Verif.Spec.Decode
import Verif.Model.Graphql
/- Which GraphQL definitions the types that are built stand for, and when they can be written at all. -/
namespace JT.Spec

/-- The GraphQL scalar for a JSON type. -/
inductive GqlScalar : Str → Str → Prop where
  | boolean : GqlScalar g!"boolean" g!"Boolean"
  | number : GqlScalar g!"number" g!"Float"
  | integer : GqlScalar g!"integer" g!"Int"
  | string : GqlScalar g!"string" g!"String"

end JT.Spec

namespace JT.GqlText
open Spec

/-! ### Types -/

/-- A type as it is written. -/
def GType.text : GType → Str
  | .named n b => n ++ (if b then ['!'] else [])
  | .list t b => '[' :: (t.text ++ ']' :: (if b then ['!'] else []))

/-- All names are names. -/
def GType.Named : GType → Prop
  | .named n _ => GqlName n
  | .list t _ => t.Named

/-- The type itself, or the one that may not be null. -/
def GType.bang : GType → Bool → GType
  | .named n _, b => .named n b
  | .list t _, b => .list t b

def GType.nullable : GType → Bool
  | .named _ b => !b
  | .list _ b => !b

/-- The type of a field, or of the elements of a list: the scalar for the JSON type, the name of the object's type, or the type that is given in the schema.  It is not null if
the field is required or values are not pointers; scalars are also not null unless null is one of their types, and times and untyped objects may always be null. -/
inductive ElemType (ef : Gql.GField) (required pointers : Bool) : GType → Prop where
  | scalar {s : Str} : ef.target = [] → GqlScalar ef.jsonType s → ElemType ef required pointers (.named s (required || !pointers || !ef.nullable))
  | time : ef.target = [] → ef.jsonType = g!"date-time" → ElemType ef required pointers (.named g!"DateTime" false)
  | object : ef.target = [] → GqlName ef.jsonType → ef.jsonType ∉ [g!"boolean", g!"number", g!"integer", g!"string", g!"object", g!"DateTime"] →
      ElemType ef required pointers (.named ef.jsonType ((required || !pointers) && decide (ef.jsonType ≠ g!"Any")))
  | given {t : GType} : ef.target = t.text → t.Named → t.nullable = true → t ≠ .named g!"DateTime" false →
      ElemType ef required pointers (t.bang ((required || !pointers) && decide (ef.jsonType ≠ g!"Any")))
  | givenTime : ef.target = g!"DateTime" → ElemType ef required pointers (.named g!"DateTime" false)

/-- The arguments of a list. -/
def listArgs : List ArgDef :=
  [⟨some g!"A List Filter expression such as '{Field: \"position\", Operation: \"<=\", Argument: {Value: 10}}'", g!"filter", .named g!"ListFilter" false⟩,
    ⟨some g!"Sort the list, ie '{Field: \"position\", Order: \"ASC\"}'", g!"sort", .named g!"ListSortParams" false⟩]

/-- Lines that define arguments. -/
def Arguments (texts : List Str) (args : List ArgDef) : Prop := ∃ tss, Each (fun t ts => lex t = some ts) texts tss ∧ tss.flatten = args.flatMap ArgDef.toks ∧ args ≠ []

/-- Arguments, type and directives of a field: a field that is looked up elsewhere has what the schema says; a list has arguments to filter and sort it and is always
resolved. -/
inductive FieldType (ef : Gql.GField) (required pointers : Bool) : List ArgDef → GType → List Directive → Prop where
  | hydrated {t : GType} : ef.jsonType = g!"graphql-hydration" → ef.arguments = [] → ef.target = t.text → t.Named → FieldType ef required pointers [] t []
  | hydratedArgs {t : GType} {as : List ArgDef} : ef.jsonType = g!"graphql-hydration" → Arguments ef.arguments as → ef.target = t.text → t.Named →
      FieldType ef required pointers as t []
  | one {t : GType} : ef.jsonType ≠ g!"graphql-hydration" → ef.array = false → ElemType ef required pointers t → FieldType ef required pointers [] t []
  | list {t : GType} : ef.jsonType ≠ g!"graphql-hydration" → ef.array = true → ef.arrayNullable = false → ElemType ef required pointers t →
      FieldType ef required pointers listArgs (.list t (required || !pointers)) [⟨g!"goField", [(g!"forceResolver", .name g!"true")]⟩]

/-! ### Texts -/

/-- A character that means the same in quoted strings of Go and GraphQL. -/
def Shown (isPrint : Char → Bool) (c : Char) : Prop := (0x20 ≤ c.toNat ∧ c.toNat ≤ 0x7e) ∨ (0x80 ≤ c.toNat ∧ isPrint c = true)

/-- What a description says: one line as it is; several lines without their common indentation and without blank lines around them. -/
def described (d : Str) : Str := if '\n' ∈ d then unlines (trimBlank (dedent (splitC '\n' d))) else d

/-- A description that can be written: no control characters, and no quotes or backslashes in a single line and no three quotes in several. -/
structure Describable (d : Str) : Prop where
  chars : ∀ c ∈ d, 0x20 ≤ c.toNat ∨ c = '\t' ∨ c = '\n'
  single : '\n' ∉ d → '"' ∉ d ∧ '\\' ∉ d
  block : ¬ g!"\"\"\"" <:+: d

/-- The description of a definition: there is none if it is empty. -/
inductive DescribedAs : Str → Option Str → Prop where
  | none : DescribedAs [] none
  | some {d : Str} : d ≠ [] → Describable d → DescribedAs d (some (described d))

/-- White space of Unicode. -/
def White (c : Char) : Prop :=
  (9 ≤ c.toNat ∧ c.toNat ≤ 13) ∨ c.toNat ∈ [0x20, 0x85, 0xa0, 0x1680, 0x2028, 0x2029, 0x202f, 0x205f, 0x3000] ∨ (0x2000 ≤ c.toNat ∧ c.toNat ≤ 0x200a)

/-- A text without the white space around it. -/
def Trimmed (s t : Str) : Prop := ∃ a b, s = a ++ t ++ b ∧ (∀ c ∈ a, White c) ∧ (∀ c ∈ b, White c) ∧ (∀ c, t.head? = some c → ¬ White c) ∧
  (∀ c, t.getLast? = some c → ¬ White c)

/-- The description of a field, and the directive that it is deprecated if the first line says so. -/
inductive FieldText (isPrint : Char → Bool) : Str → Option Str → List Directive → Prop where
  | plain {d : Str} {o : Option Str} : ¬ g!"DEPRECATED:" <+: d → DescribedAs d o → FieldText isPrint d o []
  | deprecated {line more reason rest : Str} {o : Option Str} : '\n' ∉ line → Trimmed line reason → Trimmed more rest → (∀ c ∈ reason, Shown isPrint c) → DescribedAs rest o →
      FieldText isPrint (g!"DEPRECATED:" ++ line ++ '\n' :: more) o [⟨g!"deprecated", [(g!"reason", .str reason)]⟩]
  | deprecatedOnly {line reason : Str} : '\n' ∉ line → Trimmed line reason → (∀ c ∈ reason, Shown isPrint c) →
      FieldText isPrint (g!"DEPRECATED:" ++ line) none [⟨g!"deprecated", [(g!"reason", .str reason)]⟩]

/-! ### Definitions -/

/-- The definition of a field. -/
inductive FieldMeans (isPrint : Char → Bool) (pointers : Bool) (ef : Gql.GField) (required : Bool) : FieldDef → Prop where
  | field {d : Option Str} {as : List ArgDef} {t : GType} {ds ds' : List Directive} : GqlName ef.jsonName → FieldType ef required pointers as t ds →
      FieldText isPrint ef.description d ds' → FieldMeans isPrint pointers ef required ⟨d, ef.jsonName, as, t, ds ++ ds'⟩

/-- The type that is implemented. -/
inductive ImplementsAs : Str → Option Str → Prop where
  | none : ImplementsAs [] none
  | some {n : Str} : GqlName n → ImplementsAs n (some n)

/-- The directive that names the Go type: it is there if some field is stored. -/
inductive ModelAs (isPrint : Char → Bool) (title : Str → Str) (args : Gql.Args) (o : Gql.GObject) : List Directive → Prop where
  | virtual : (∀ k f, (k, f) ∈ o.fields → f.jsonType = g!"graphql-hydration") → ModelAs isPrint title args o []
  | stored {k : Str} {f : Gql.GField} : (k, f) ∈ o.fields → f.jsonType ≠ g!"graphql-hydration" → (∀ c ∈ args.importPath ++ '.' :: title o.name, Shown isPrint c) →
      ModelAs isPrint title args o [⟨g!"goModel", [(g!"model", .str (args.importPath ++ '.' :: title o.name))]⟩]

/-- Ordered by name, no name twice. -/
def InOrder {α : Type} (l : List (Str × α)) : Prop := l.Pairwise fun a b => strLt a.1 b.1 = true

/-- The definition of a type: a field for each field, in the order of their Go names. -/
structure TypeMeans (isPrint : Char → Bool) (title : Str → Str) (args : Gql.Args) (o : Gql.GObject) (d : TypeDef) : Prop where
  description : DescribedAs o.description d.description
  interface : (o.buildType = .interface ∧ d.interface = true) ∨ (o.buildType = .type ∧ d.interface = false)
  name : GqlName o.jsonName ∧ d.name = o.jsonName
  implements : ImplementsAs o.implements d.implements
  model : ModelAs isPrint title args o d.directives
  fields : ∃ l : List (Str × Gql.GField), l.Perm (o.fields.map fun kf => (kf.2.name, kf.2)) ∧ InOrder l ∧
    Each (fun x fd => FieldMeans isPrint args.pointers x.2 (decide (x.2.jsonName ∈ o.required)) fd) l d.fields
  some : o.fields ≠ []

/-- The definitions of what is built from a schema: the root and then the types below it, in the order of their Go names, without those that are looked up elsewhere and
those that are left out. -/
def FileMeans (isPrint : Char → Bool) (title : Str → Str) (args : Gql.Args) (g : Gql.GFile) (ds : List TypeDef) : Prop :=
  ∃ l : List (Str × Gql.GObject), l.Perm (g.nested.map fun ko => (ko.2.name, ko.2)) ∧ InOrder l ∧
    Each (fun o d => TypeMeans isPrint title args o d) ((g.root :: l.map Prod.snd).filter fun o => decide (o.target = [] ∧ o.buildType ≠ .ignored)) ds

/-- The scalar for untyped values is defined in the file called after the schema if it is asked for. -/
def anyScalar (args : Gql.Args) (main : Bool) : List Def := if main = true ∧ args.scalarAny = true then [.scalar g!"Any"] else []

end JT.GqlText
