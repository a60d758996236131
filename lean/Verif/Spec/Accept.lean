import Verif.Spec.Decode
import Verif.Props.C17
/- Which schema documents a Transformer can be made of: conditions on the instances of a schema, as relations on the document. -/
namespace JT.Spec

/-- A JSON object, or null in its place. -/
inductive ObjectOrNull : P → Prop where
  | null : ObjectOrNull (.sc .nil)
  | object {m : List (Str × P)} : ObjectOrNull (.obj m)

/-- A string, or null in its place. -/
inductive TextValue : P → Str → Prop where
  | null : TextValue (.sc .nil) []
  | text {s : Str} : TextValue (.sc (.str s)) s

/-- The arguments of an operation: strings by their names. -/
inductive ArgsAre (p : P) : GMap Str → Prop where
  | missing : p.key g!"args" = none → ArgsAre p []
  | null : p.key g!"args" = some (.sc .nil) → ArgsAre p []
  | object {m : List (Str × P)} {l : List (Str × Str)} : p.key g!"args" = some (.obj m) →
      Each (fun kv kt => kv.1 = kt.1 ∧ TextValue kv.2 kt.2) m l → ArgsAre p (GMap.ofList l)

/-- An operation that exists, with the arguments it needs. -/
structure OpAccepted (lib : Lib) (p : P) : Prop where
  object : ObjectOrNull p
  fits : ∃ name args, TextAt p g!"type" name ∧ ArgsAre p args ∧ ArgsOK lib name args

/-- An instruction: an object with paths and operations. -/
structure InstrAccepted (lib : Lib) (p : P) : Prop where
  object : ∃ m, p = .obj m
  json : ∃ s, TextAt p g!"jsonPath" s
  xml : ∃ s, TextAt p g!"xmlPath" s
  ops : ∃ l, ListAt p g!"operations" l ∧ ∀ o ∈ l, OpAccepted lib o

/-- A transform: instructions, a method that exists and a delimiter. -/
structure TransformAccepted (lib : Lib) (p : P) : Prop where
  object : ObjectOrNull p
  «from» : ∃ l, ListAt p g!"from" l ∧ ∀ i ∈ l, InstrAccepted lib i
  method : ∃ s m, TextAt p g!"method" s ∧ MethodNamed s m
  delim : ∃ d, Delimiter p d

/-- What an instance has for a Transformer with this identifier. -/
def transformFor (ident : Str) (q : P) : Option P := (q.key g!"transform").bind (P.key ident)

/-- An instance that a Transformer can have a node for: its transform (an empty string is none) is one; its default, if any, is a list for an array and an object for an
object with properties; and the format of a string is a string. -/
structure InstanceAccepted (lib : Lib) (ident : Str) (q : P) : Prop where
  transform : ∀ p, transformFor ident q = some p → p ≠ .sc (.str []) → TransformAccepted lib p
  array : ∀ nu, fieldType q = .ok (g!"array", nu) → ∀ d, q.key g!"default" = some d → d = .sc .nil ∨ ∃ l, d = .arr l
  object : ∀ nu, fieldType q = .ok (g!"object", nu) → q.key g!"properties" ≠ some (.obj []) → ∀ d, q.key g!"default" = some d → d = .sc .nil ∨ ∃ m, d = .obj m
  format : ∀ nu, fieldType q = .ok (g!"string", nu) → ∀ f, q.key g!"format" = some f → ∃ s, f = .sc (.str s)

/-- A schema that a Transformer can be made of: it has properties or items at the top, not both, every instance can be read, and is accepted. -/
structure SchemaAccepted (lib : Lib) (ident : Str) (sc : Schema) : Prop where
  top : sc.properties.isSome = true ↔ sc.items = none
  read : WellFormed rawNode sc
  each : ∀ l q, SchemaAt rawNode sc l q → InstanceAccepted lib ident q

/-- No transform for the identifier has null among its instructions. -/
def NoNullInstr (ident : Str) (sc : Schema) : Prop :=
  ∀ l q, SchemaAt rawNode sc l q → ∀ p fr, transformFor ident q = some p → p.key g!"from" = some (.arr fr) → P.sc .nil ∉ fr

end JT.Spec
