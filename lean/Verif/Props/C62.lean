import Verif.Props.C69
import Verif.Spec.GqlMeans
/- C62, C63: the types of GraphQL fields. -/
namespace JT.Spec

mutual
/-- A type of the GraphQL language that may be null: a name or a list. -/
inductive NullableType : Str → Prop where
  | named {n : Str} : GqlName n → NullableType n
  | list {t : Str} : TypeRef t → NullableType (g!"[" ++ t ++ g!"]")
/-- A type of the GraphQL language. -/
inductive TypeRef : Str → Prop where
  | nullable {t : Str} : NullableType t → TypeRef t
  | nonNull {t : Str} : NullableType t → TypeRef (t ++ g!"!")
end

/-- Whether two exclamation marks follow each other. -/
def twoBangs : Str → Bool
  | a :: b :: t => (a == '!' && b == '!') || twoBangs (b :: t)
  | _ => false

theorem twoBangs_snoc (c : Char) : ∀ t : Str, twoBangs (t ++ [c]) = (twoBangs t || (t.getLast? == some '!' && c == '!'))
  | [] => by simp [twoBangs]
  | [a] => by simp [twoBangs]
  | a :: b :: t => by
    have := twoBangs_snoc c (b :: t)
    simp only [List.cons_append, twoBangs] at this ⊢
    rw [this, show (a :: b :: t).getLast? = (b :: t).getLast? by rw [List.getLast?_cons_cons], Bool.or_assoc]

theorem twoBangs_cons {c : Char} (hc : c ≠ '!') (t : Str) : twoBangs (c :: t) = twoBangs t := by
  cases t with
  | nil => rfl
  | cons a t => simp [twoBangs, hc]

theorem name_bangs {n : Str} (h : GqlName n) : twoBangs n = false ∧ n.getLast? ≠ some '!' := by
  obtain ⟨h1, h2⟩ := h
  rename_i c cs
  have hall : ∀ d ∈ c :: cs, d ≠ '!' := by
    intro d hd
    rcases List.mem_cons.1 hd with rfl | hd
    · rintro rfl; exact absurd h1 (by decide)
    · rintro rfl; exact absurd (h2 _ hd) (by decide)
  clear h1 h2
  refine ⟨?_, fun h => hall _ (List.mem_of_getLast? h) rfl⟩
  induction cs generalizing c with
  | nil => rfl
  | cons d cs ih =>
    rw [twoBangs_cons (hall c (by simp))]
    exact ih (fun x hx => hall x (by simp [List.mem_cons.1 hx]))

/-- No type has two exclamation marks that follow each other. -/
theorem typeRef_bangs {t : Str} (h : TypeRef t) : twoBangs t = false := by
  refine TypeRef.rec (motive_1 := fun t _ => twoBangs t = false ∧ t.getLast? ≠ some '!') (motive_2 := fun t _ => twoBangs t = false) ?_ ?_ ?_ ?_ h
  · intro n hn; exact name_bangs hn
  · intro t _ ih
    rw [show g!"[" ++ t ++ g!"]" = '[' :: (t ++ [']']) by simp]
    refine ⟨?_, by rw [← List.cons_append, List.getLast?_concat]; decide⟩
    rw [twoBangs_cons (by decide), twoBangs_snoc, ih]
    simp
  · intro t _ ih; exact ih.1
  · intro t _ ih
    rw [show t ++ g!"!" = t ++ ['!'] from rfl, twoBangs_snoc, ih.1]
    simpa using ih.2

/-- What is added to a type that is not null. -/
def bang (b : Bool) : Str := if b then g!"!" else []

theorem bang_ref {t : Str} (h : NullableType t) (b : Bool) : TypeRef (t ++ bang b) := by
  cases b
  · rw [show bang false = [] from rfl, List.append_nil]; exact .nullable h
  · exact .nonNull h

end JT.Spec

namespace JT.Gql
open Spec

theorem scalarName_of {t s : Str} (h : GqlScalar t s) : scalarName t = some s ∧ s ≠ g!"DateTime" ∧ t ≠ g!"Any" ∧ t ≠ g!"graphql-hydration" := by
  cases h <;> decide

theorem scalarName_time : scalarName g!"date-time" = some g!"DateTime" := by decide

theorem scalarName_none {t : Str} (h : t ∉ [g!"boolean", g!"number", g!"integer", g!"string", g!"date-time", g!"object"]) : scalarName t = none := by
  simp only [List.mem_cons, List.not_mem_nil, or_false, not_or] at h
  obtain ⟨h1, h2, h3, h4, h5, h6⟩ := h
  unfold scalarName
  rw [if_neg h1, if_neg h2, if_neg h3, if_neg h4, if_neg h5, if_neg h6]

theorem baseType_bang {f : GField} {required pointers : Bool} : ∃ b, baseType f required pointers =
    (if f.target ≠ [] then f.target else (scalarName f.jsonType).getD f.jsonType) ++ bang b := by
  unfold baseType
  simp only
  generalize (if f.target ≠ [] then f.target else (scalarName f.jsonType).getD f.jsonType) = ty
  split
  · exact ⟨true, rfl⟩
  · exact ⟨false, by simp [bang]⟩

end JT.Gql

namespace JT
open Spec Gql

/-- **C62**, for scalars, with pointers: the type of a field that is not a list is the scalar of its JSON type, and not null exactly if it is required or may not be null. -/
theorem C62_scalar {f : GField} {s : Str} (hs : GqlScalar f.jsonType s) (ht : f.target = []) (ha : f.array = false) (required : Bool) :
    graphqlType f required true = ([], s ++ bang (required || !f.nullable)) := by
  obtain ⟨h1, h2, h3, h4⟩ := scalarName_of hs
  unfold graphqlType
  rw [if_neg h4, ha]
  simp only [Bool.false_eq_true, if_false]
  unfold baseType
  rw [ht]
  simp only [h1, ne_eq, not_true, if_false, decide_true, Option.getD_some, Option.isSome_some, Bool.and_self, true_and, Bool.true_eq_false, or_false]
  congr 1
  cases required <;> cases f.nullable <;> simp [h2, h3, bang]

/-- Without pointers no scalar is null. -/
theorem C62_scalar_values {f : GField} {s : Str} (hs : GqlScalar f.jsonType s) (ht : f.target = []) (ha : f.array = false) (required : Bool) :
    graphqlType f required false = ([], s ++ g!"!") := by
  obtain ⟨h1, h2, h3, h4⟩ := scalarName_of hs
  unfold graphqlType
  rw [if_neg h4, ha]
  simp only [Bool.false_eq_true, if_false]
  unfold baseType
  rw [ht]
  simp [h1, h2, h3]

/-- Times may always be null. -/
theorem C62_time {f : GField} (hj : f.jsonType = g!"date-time") (ht : f.target = []) (ha : f.array = false) (required pointers : Bool) :
    graphqlType f required pointers = ([], g!"DateTime") := by
  unfold graphqlType
  rw [if_neg (by rw [hj]; decide), ha]
  simp only [Bool.false_eq_true, if_false]
  unfold baseType
  rw [ht, hj, scalarName_time]
  simp

/-- Types that are named by the schema or by the objects in it are not null exactly if the field is required or there are no pointers, except that `Any` may always be null. -/
theorem C62_named {f : GField} (hn : f.target ≠ [] ∨ f.jsonType ∉ [g!"boolean", g!"number", g!"integer", g!"string", g!"date-time", g!"object"])
    (hd : f.target ≠ g!"DateTime" ∧ f.jsonType ≠ g!"DateTime") (hh : f.jsonType ≠ g!"graphql-hydration")
    (ha : f.array = false) (required pointers : Bool) :
    graphqlType f required pointers =
      ([], (if f.target ≠ [] then f.target else f.jsonType) ++ bang ((required || !pointers) && decide (f.jsonType ≠ g!"Any"))) := by
  unfold graphqlType
  rw [if_neg hh, ha]
  simp only [Bool.false_eq_true, if_false]
  unfold baseType
  by_cases ht : f.target = []
  · have h1 := scalarName_none (hn.resolve_left (fun h => h ht))
    simp only [ht, h1, ne_eq, not_true, if_false, Option.getD_none, Option.isSome_none, Bool.and_false, Bool.false_eq_true, false_and, false_or]
    by_cases hany : f.jsonType = g!"Any" <;> cases required <;> cases pointers <;> simp [hd.2, hany, bang]
  · simp only [ht, ne_eq, not_false_eq_true, if_true, decide_false, Bool.false_and, Bool.false_eq_true, false_and, false_or]
    by_cases hany : f.jsonType = g!"Any" <;> cases required <;> cases pointers <;> simp [hd.1, hany, bang]

/-- The type of a list: the list is not null exactly if it is required or there are no pointers; the elements are as for a field. -/
theorem C62_list {f : GField} (hh : f.jsonType ≠ g!"graphql-hydration") (ha : f.array = true) (hn : f.arrayNullable = false) (required pointers : Bool) :
    graphqlType f required pointers = (listArguments,
      g!"[" ++ (graphqlType { f with array := false } required pointers).2 ++ g!"]" ++ bang (required || !pointers) ++ g!" @goField(forceResolver: true)") := by
  unfold graphqlType
  simp only [if_neg hh, ha, if_true, Bool.false_eq_true, if_false, hn, false_or]
  congr 1
  cases required <;> cases pointers <;> simp [bang, baseType]

/-- **C62**, the syntax: the type of a field is one of the GraphQL language, if the type it names is a name. -/
theorem C62_syntax {f : GField} (hn : GqlName (if f.target ≠ [] then f.target else (scalarName f.jsonType).getD f.jsonType)) (hh : f.jsonType ≠ g!"graphql-hydration")
    (required pointers : Bool) : ∃ t, TypeRef t ∧ (graphqlType f required pointers).2 = t ++ (if f.array then g!" @goField(forceResolver: true)" else []) := by
  obtain ⟨b, hb⟩ := baseType_bang (f := f) (required := required) (pointers := pointers)
  have ht : TypeRef (baseType f required pointers) := by rw [hb]; exact bang_ref (.named hn) b
  unfold graphqlType
  rw [if_neg hh]
  by_cases ha : f.array = true
  · simp only [ha, if_true]
    split
    · exact ⟨_, .nullable (.list ht), by simp⟩
    · exact ⟨_, .nonNull (.list ht), by simp⟩
  · simp only [Bool.not_eq_true] at ha
    simp only [ha, Bool.false_eq_true, if_false, List.append_nil]
    exact ⟨_, ht, rfl⟩

/-- **C63**, for lengths: the type of the field for the length of a list is `Int!`. -/
theorem C63_total {title : Str → Str} {field d name : Str} {f : GField} (h : IsTotal title field d name f) (required pointers : Bool) : graphqlType f required pointers = ([], g!"Int!") := by
  obtain ⟨_, h1, h2, h3, h4, _⟩ := h
  have hs : GqlScalar f.jsonType g!"Int" := by rw [h1]; exact .integer
  cases pointers
  · exact C62_scalar_values hs h4 h2 required
  · rw [C62_scalar hs h4 h2, h3]
    simp [bang]

/-- **C63**, partial: in each type there is a field for the length of each list, with the type `Int!`, under the conditions of `C69_partial`.  What is missing is that
lists may be null as in the schema, which is wrong: see `C63_refuted`. -/
theorem C63_partial {title lower : Str → Str} {args : Gql.Args} {schema : Instance} {name : Str} {implements : Bool}
    (hc : Gql.Conditions title args (rootNames title lower args name implements).1 (rootNames title lower args name implements).2 ⟨schema.properties, schema.items⟩)
    (sched : Sched) : ∃ g, newFile sched title lower args schema name implements = .ok g ∧
      ∀ l m rq, ObjectAt schema l m rq → ∃ o, typeAt title (rootNames title lower args name implements).1 g l = some o ∧
        ∀ k q, GMap.get k m = some q → IsArray q → ∃ f, GMap.get (g!"total" ++ goName title args.fieldNames k) o.fields = some f ∧
          f.jsonName = g!"total" ++ goName title args.fieldNames k ∧ ∀ required pointers, graphqlType f required pointers = ([], g!"Int!") := by
  obtain ⟨g, h1, h2, _⟩ := C69_partial hc sched
  refine ⟨g, h1, fun l m rq ho => ?_⟩
  obtain ⟨o, h3, _, _, h4, _⟩ := h2 l m rq ho
  refine ⟨o, h3, fun k q hk ha => ?_⟩
  obtain ⟨_, f, _, h5, h6⟩ := h4.total k q hk ha
  exact ⟨f, h5, h6.1, C63_total h6⟩

namespace C62ex
open Toy

/-- A string that is not required and may be null. -/
def text : GField := ⟨[], false, false, [], g!"a", g!"string", g!"A", true, []⟩

example : GqlScalar text.jsonType g!"String" ∧ text.target = [] ∧ text.array = false := ⟨.string, rfl, rfl⟩
example : graphqlType text false true = ([], g!"String") ∧ graphqlType text true true = ([], g!"String!") := by decide

/-- A type that is named, a list of it, and a time. -/
example : graphqlType { text with target := g!"Foo" } true true = ([], g!"Foo!") := by decide
example : (graphqlType { text with jsonType := g!"Foo", array := true } true true).2 = g!"[Foo!]! @goField(forceResolver: true)" := by decide
example : ({ text with jsonType := g!"Foo" } : GField).jsonType ∉ [g!"boolean", g!"number", g!"integer", g!"string", g!"date-time", g!"object"] := by decide
example : GqlName (if ({ text with jsonType := g!"Foo" } : GField).target ≠ [] then [] else (scalarName g!"Foo").getD g!"Foo") := .name (by decide) (by decide)
example : IsTotal id g!"A" [] g!"totalA" (totalField id g!"totalA" (totalSentence g!"A")) := ⟨rfl, rfl, rfl, rfl, rfl, rfl, rfl, .plain (by decide)⟩

end C62ex

/-- The full statement of **C62** for types. -/
def C62_statement : Prop := ∀ (f : GField) (s : Str) (required pointers : Bool), GqlScalar f.jsonType s ∨ (f.jsonType = g!"date-time" ∧ s = g!"DateTime") → f.target = [] →
  f.array = false → graphqlType f required pointers = ([], s ++ bang (required || !f.nullable))

/-- Without pointers an optional string that may be null is not null in GraphQL. -/
theorem C62_refuted : ¬ C62_statement := fun h => absurd (h C62ex.text g!"String" false false (.inl .string) rfl rfl) (by decide)

/-- A required time may be null in GraphQL. -/
theorem C62_refuted_time : ∃ f : GField, f.jsonType = g!"date-time" ∧ f.target = [] ∧ f.array = false ∧ f.nullable = false ∧
    ∀ pointers, graphqlType f true pointers = ([], g!"DateTime") :=
  ⟨{ C62ex.text with jsonType := g!"date-time", nullable := false }, rfl, rfl, rfl, rfl, fun p => by cases p <;> decide⟩

namespace C62ex
open Toy

/-- A list of objects that are looked up elsewhere. -/
def targets : GMap P := [(g!"a", o [(g!"type", s g!"array"), (g!"items", o [(g!"type", s g!"string"), (g!"target", s g!"Foo")])])]

def args : Gql.Args := C69ex.args

def schemaOf (m : GMap P) (rq : List Str) : Instance := { Instance.zero with properties := some m, required := rq }

/-- The type of a field of the root. -/
def typeOf (sched : Sched) (m : GMap P) (rq : List Str) (k : Str) : Option Str := match newFile sched id id args (schemaOf m rq) g!"T" false with
  | .ok g => (GMap.get k g.root.fields).map fun f => (graphqlType f (decide (f.jsonName ∈ g.root.required)) args.pointers).2
  | _ => none


theorem typeOf_targets : typeOf Sched.id targets [g!"a"] g!"a" = some g!"[[Foo]!!]! @goField(forceResolver: true)" := by decide +kernel

/-- A list that may be null. -/
def nullable : GMap P := [(g!"a", o [(g!"type", a [s g!"array", s g!"null"]), (g!"items", o [(g!"type", s g!"string")])])]

/-- A list, and a property with the name of its length. -/
def clash : GMap P := [(g!"A", o [(g!"type", s g!"array"), (g!"items", o [(g!"type", s g!"string")])]), (g!"totalA", o [(g!"type", s g!"string")])]

end C62ex

/-- If the items of a list are looked up elsewhere, what is written is not a type. -/
theorem C62_refuted_syntax : ∃ (m : GMap P) (t : Str), C62ex.typeOf Sched.id m [g!"a"] g!"a" = some (t ++ g!" @goField(forceResolver: true)") ∧ ¬ TypeRef t :=
  ⟨C62ex.targets, g!"[[Foo]!!]!", C62ex.typeOf_targets, fun h => absurd (typeRef_bangs h) (by decide)⟩

/-- The statement of **C63** for nullability: a list that may be null in the schema may be null in GraphQL. -/
def C63_statement : Prop := ∀ (sched : Sched) (m : GMap P) (rq : List Str) (k t : Str) (q : P) (i : Instance), GMap.get k m = some q → decodeInstance false q = .ok i →
  g!"array" ∈ i.type → g!"null" ∈ i.type → C62ex.typeOf sched m rq k ≠ some (t ++ g!"! @goField(forceResolver: true)")

/-- A required list that may be null is not null in GraphQL. -/
theorem C63_refuted : ¬ C63_statement := by
  intro h
  have hd : ∃ q, GMap.get g!"a" C62ex.nullable = some q ∧ (match decodeInstance false q with
    | .ok i => decide (g!"array" ∈ i.type ∧ g!"null" ∈ i.type) | _ => false) = true := ⟨_, rfl, by decide +kernel⟩
  obtain ⟨q, hq, hb⟩ := hd
  split at hb
  · rename_i i hi
    have := of_decide_eq_true hb
    exact h Sched.id C62ex.nullable [g!"a"] g!"a" g!"[String!]" q i hq hi this.1 this.2 (by decide +kernel)
  · cases hb

/-- If a property has the name of the length of a list, it depends on the order in which the schema is walked whether generation fails or the property is lost. -/
theorem C63_refuted_clash : C62ex.typeOf Sched.id C62ex.clash [] g!"A" = none ∧ C62ex.typeOf Sched.rev C62ex.clash [] g!"totalA" = some g!"Int!" := by
  constructor <;> decide +kernel

end JT
