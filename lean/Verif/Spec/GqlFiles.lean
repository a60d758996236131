import Verif.Props.C69
import Verif.Spec.Embeds
/- The GraphQL types of schemas with allOf and oneOf entries. -/
namespace JT.Spec
open Gql (GField GObject GFile BuildType)

/-- What is said about the first of several types. -/
structure TypeHead where
  goName : Str
  name : Str
  description : Str
  interface : Bool
  implements : Str

/-- The type has this head. -/
structure TypeHead.Of (h : TypeHead) (o : GObject) : Prop where
  goName : o.name = h.goName
  name : o.jsonName = h.name
  description : o.description = h.description
  kind : o.buildType = if h.interface = true then .interface else .type
  implements : o.implements = h.implements
  target : o.target = []

/-- `TypesOf title args rn gn inner hd m rq nm g`: the first type has the head `hd` and fields for the properties `m`, of which `rq` are required; `nm` names the types of
those that are objects.  The other types are those for the objects below the root of `inner`, with names made from the Go name `rn` and the GraphQL name `gn`. -/
structure TypesOf (title : Str → Str) (args : Gql.Args) (rn gn : Str) (inner : Instance) (hd : TypeHead) (m : GMap P) (rq : List Str) (nm : Str → Str) (g : GFile) : Prop where
  head : hd.Of g.root
  root : GqlFields title args.fieldNames args.pointers rq nm m g.root
  each : ∀ l m' rq', l ≠ [] → ObjectAt inner l m' rq' → ∃ o, GMap.get (Flat.keyOf title rn l) g.nested = some o ∧ o.jsonName = gqlName title args.typeNames gn (names l) ∧
    ((o.target = [] ∧ o.buildType ≠ .ignored) ↔ Written ⟨inner.properties, inner.items⟩ l) ∧
    GqlFields title args.fieldNames args.pointers rq' (fun k => gqlName title args.typeNames gn (names (l ++ [.key k]))) m' o ∧ GqlHead title rn inner l o
  only : ∀ κ o, GMap.get κ g.nested = some o → ∃ l m' rq', l ≠ [] ∧ ObjectAt inner l m' rq' ∧ κ = Flat.keyOf title rn l
  sorted : GMap.Sorted g.nested

/-- The entries all have properties; `M` are those of all of them, and `RQ` what any of them requires.  Two of them may have a property only if it is the same and both
require it or none. -/
structure Together (as : List Instance) (M : GMap P) (RQ : List Str) : Prop where
  each : ∀ a ∈ as, ∃ m, a.properties = some m ∧ a.items = none ∧ (m.map Prod.fst).Nodup
  props : ∀ k q, (k, q) ∈ M ↔ ∃ a ∈ as, ∃ m, a.properties = some m ∧ (k, q) ∈ m
  required : ∀ k, k ∈ RQ ↔ ∃ a ∈ as, k ∈ a.required
  own : ∀ a ∈ as, ∀ m, a.properties = some m → ∀ k q, (k, q) ∈ m → k ∈ RQ → k ∈ a.required

/-- The entries as one schema. -/
def allTogether (M : GMap P) (RQ : List Str) : Instance := { Instance.zero with properties := some M, required := RQ }

/-- `Over title rename m rq M RQ M' RQ'`: the properties `m` of an entry and those of `M` that it does not have itself are `M'`, and the required ones `RQ'`.  An entry requires what
it has itself and is required, and a list is not replaced by something else. -/
structure Over (title : Str → Str) (rename : GMap Str) (m : GMap P) (rq : List Str) (M : GMap P) (RQ : List Str) (M' : GMap P) (RQ' : List Str) : Prop where
  props : ∀ k q, GMap.get k M' = some q ↔ GMap.get k m = some q ∨ (GMap.get k m = none ∧ GMap.get k M = some q)
  required : ∀ k, k ∈ RQ' ↔ k ∈ RQ ∨ k ∈ rq
  own : ∀ k q, GMap.get k m = some q → k ∈ RQ → k ∈ rq
  common : ∀ k q, GMap.get k m = none → GMap.get k M = some q → k ∈ rq → k ∈ RQ
  lists : ∀ k q q', GMap.get k m = some q → GMap.get k M = some q' → IsArray q' → IsArray q
  totals : ∀ k q, GMap.get k M' = some q → IsArray q → GMap.get (totalOf title rename k) M' = none ∧
    ∀ k' q', GMap.get k' M' = some q' → IsArray q' → totalOf title rename k' = totalOf title rename k → k' = k

/-- The name that is given instead of a name, or what is made of it. -/
def Renamed (names : GMap Str) (f : Str → Str) (name n : Str) : Prop := GMap.get name names = some n ∨ (GMap.get name names = none ∧ n = f name)

/-- The names of the Go type and of the GraphQL type for a file: the GraphQL name is the Go name, or the name of the file in lower case for implementations of an interface. -/
structure FileNames (title lower : Str → Str) (args : Gql.Args) (implements : Bool) (ref rn gn : Str) : Prop where
  go : NameOf args.structNames title ref rn
  type : NameOf args.typeNames (fun stem => if implements = true then lower stem else title rn) ref gn

/-- The head of the type with the properties of the allOf entries: an interface if there are oneOf entries, with the name of the package. -/
inductive CommonHead (title : Str → Str) (args : Gql.Args) (packageName rn : Str) (oneOf : List Instance) : TypeHead → Prop where
  | interface {n : Str} : oneOf ≠ [] → Renamed args.typeNames title packageName n → CommonHead title args packageName rn oneOf ⟨n, n, [], true, []⟩
  | type : oneOf = [] → CommonHead title args packageName rn oneOf ⟨rn, title packageName, [], false, []⟩

/-- What the type of a oneOf entry implements: the interface, if there are allOf entries. -/
inductive Implements (title : Str → Str) (args : Gql.Args) (name : Str) (allOf : List Instance) : Str → Prop where
  | interface {n : Str} : allOf ≠ [] → Renamed args.typeNames title name n → Implements title args name allOf n
  | none : allOf = [] → Implements title args name allOf []

/-- The file for the types of a oneOf entry: the one for the schema, unless there is to be one for each. -/
inductive EntryFile (args : Gql.Args) (name ref : Str) : Str → Prop where
  | schema : args.interfaceFiles = false → EntryFile args name ref (name ++ g!".graphqls")
  | own {stem : Str} : args.interfaceFiles = true → BaseName ref stem → name <+: stem → EntryFile args name ref (stem ++ g!".graphqls")
  | joined {stem : Str} : args.interfaceFiles = true → BaseName ref stem → ¬ name <+: stem → EntryFile args name ref (name ++ g!"_" ++ stem ++ g!".graphqls")

/-- A oneOf entry, with the Go name and the GraphQL name of its type, what the type implements, its own properties, all properties of the type and those that are required. -/
structure Entry where
  schema : Instance
  goName : Str
  name : Str
  implements : Str
  own : GMap P
  props : GMap P
  required : List Str

/-- What is said about the type of an entry. -/
def Entry.head (e : Entry) : TypeHead := ⟨e.goName, e.name, e.schema.description, decide (e.schema.oneOf ≠ []), e.implements⟩

/-- The names of the types of objects among the properties: those that are common to the entries have the types named after the first allOf entry. -/
def Entry.typeName (title : Str → Str) (args : Gql.Args) (gn0 : Str) (e : Entry) (k : Str) : Str :=
  if (GMap.get k e.own).isSome = true then gqlName title args.typeNames e.name [k] else gqlName title args.typeNames gn0 [k]

end JT.Spec
