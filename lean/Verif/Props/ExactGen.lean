import Verif.Props.C62
import Verif.Props.ExactRest
/- C120, C121: exactly which GraphQL type and which tag a field is given. -/
namespace JT.Gql
open JT.Spec

/-! ### C120 -/

namespace Spec
/-- What the type of a field, or of the elements of a list, is called: as given in the schema, like the scalar for the JSON type, or like the JSON type itself; an inline
object has an opening bracket.  The second part says whether the JSON type is one of JSON Schema and decides. -/
inductive Called (f : GField) : Str → Prop → Prop where
  | given : f.target ≠ [] → Called f f.target False
  | scalar {s : Str} : f.target = [] → GqlScalar f.jsonType s → Called f s True
  | time : f.target = [] → f.jsonType = g!"date-time" → Called f g!"DateTime" True
  | inline : f.target = [] → f.jsonType = g!"object" → Called f g!"(" True
  | named : f.target = [] → f.jsonType ∉ [g!"boolean", g!"number", g!"integer", g!"string", g!"date-time", g!"object"] → Called f f.jsonType False

/-- It may not be null: never a time and a free-form object; others if they are required, if there are no pointers, or if the schema does not allow null for a type of
JSON Schema. -/
def NotNull (f : GField) (required pointers : Bool) (name : Str) (json : Prop) : Prop :=
  name ≠ g!"DateTime" ∧ f.jsonType ≠ g!"Any" ∧ (required = true ∨ pointers = false ∨ (json ∧ f.nullable = false))

/-- The text of the type of a field that is not a list. -/
inductive SingleText (f : GField) (required pointers : Bool) : Str → Prop where
  | nullable {n : Str} {json : Prop} : Called f n json → ¬ NotNull f required pointers n json → SingleText f required pointers n
  | notNull {n : Str} {json : Prop} : Called f n json → NotNull f required pointers n json → SingleText f required pointers (n ++ g!"!")

/-- One line for each argument, with four spaces in front unless it is empty. -/
inductive ArgLines : List Str → Str → Prop where
  | nil : ArgLines [] []
  | empty {l : List Str} {t : Str} : ArgLines l t → ArgLines ([] :: l) (g!"\n" ++ t)
  | line {a : Str} {l : List Str} {t : Str} : a ≠ [] → ArgLines l t → ArgLines (a :: l) (g!"    " ++ a ++ g!"\n" ++ t)

/-- The arguments of a field that is looked up, in brackets if there are any. -/
inductive LookupArgs : List Str → Str → Prop where
  | none : LookupArgs [] []
  | some {l : List Str} {t : Str} : l ≠ [] → ArgLines l t → LookupArgs l (g!"(\n" ++ t ++ g!"  )")

/-- The arguments of every list. -/
def listArgsText : Str :=
  g!"(\n    \"A List Filter expression such as '{Field: \\\"position\\\", Operation: \\\"<=\\\", Argument: {Value: 10}}'\"\n" ++
  g!"    filter: ListFilter\n\n    \"Sort the list, ie '{Field: \\\"position\\\", Order: \\\"ASC\\\"}'\"\n    sort: ListSortParams\n  )"

/-- Arguments and type of a field. -/
inductive FieldText (f : GField) (required pointers : Bool) : Str → Str → Prop where
  | lookup {a : Str} : f.jsonType = g!"graphql-hydration" → LookupArgs f.arguments a → FieldText f required pointers a f.target
  | single {t : Str} : f.jsonType ≠ g!"graphql-hydration" → f.array = false → SingleText f required pointers t → FieldText f required pointers [] t
  | list {t : Str} : f.jsonType ≠ g!"graphql-hydration" → f.array = true → SingleText f required pointers t →
      (f.arrayNullable = true ∨ (pointers = true ∧ required = false)) → FieldText f required pointers listArgsText (g!"[" ++ t ++ g!"] @goField(forceResolver: true)")
  | listNotNull {t : Str} : f.jsonType ≠ g!"graphql-hydration" → f.array = true → SingleText f required pointers t →
      f.arrayNullable = false → (required = true ∨ pointers = false) → FieldText f required pointers listArgsText (g!"[" ++ t ++ g!"]! @goField(forceResolver: true)")
end Spec
open Spec

theorem called_iff {f : GField} {n : Str} {json : Prop} (h : Called f n json) : n = (if f.target ≠ [] then f.target else (scalarName f.jsonType).getD f.jsonType) ∧
    (json ↔ (decide (f.target = []) && (scalarName f.jsonType).isSome) = true) := by
  cases h with
  | given h => simp [h]
  | scalar h hs => simp [h, (scalarName_of hs).1]
  | time h hj => rw [hj, scalarName_time]; simp [h]
  | inline h hj => rw [hj]; simp [h]; decide
  | named h hj => simp [h, scalarName_none hj]

theorem called_some (f : GField) : ∃ n json, Called f n json := by
  by_cases h : f.target = []
  · by_cases hj : f.jsonType ∈ [g!"boolean", g!"number", g!"integer", g!"string", g!"date-time", g!"object"]
    · simp only [List.mem_cons, List.not_mem_nil, or_false] at hj
      rcases hj with hj | hj | hj | hj | hj | hj
      · exact ⟨_, _, .scalar h (by rw [hj]; exact .boolean)⟩
      · exact ⟨_, _, .scalar h (by rw [hj]; exact .number)⟩
      · exact ⟨_, _, .scalar h (by rw [hj]; exact .integer)⟩
      · exact ⟨_, _, .scalar h (by rw [hj]; exact .string)⟩
      · exact ⟨_, _, .time h hj⟩
      · exact ⟨_, _, .inline h hj⟩
    · exact ⟨_, _, .named h hj⟩
  · exact ⟨_, _, .given h⟩

theorem single_only {f : GField} {required pointers : Bool} {t : Str} (h : SingleText f required pointers t) : baseType f required pointers = t := by
  have cond : ∀ {n : Str} {json : Prop}, Called f n json → (NotNull f required pointers n json ↔ (n ≠ g!"DateTime" ∧
      (((decide (f.target = []) && (scalarName f.jsonType).isSome) = true ∧ f.nullable = false) ∨ required = true ∨ pointers = false) ∧ f.jsonType ≠ g!"Any")) := by
    intro n json hc
    have := (called_iff hc).2
    unfold NotNull
    rw [this]
    generalize (decide (f.target = []) && (scalarName f.jsonType).isSome) = b
    constructor
    · rintro ⟨a, b, c | c | c⟩
      · exact ⟨a, .inr (.inl c), b⟩
      · exact ⟨a, .inr (.inr c), b⟩
      · exact ⟨a, .inl c, b⟩
    · rintro ⟨a, c | c | c, b⟩
      · exact ⟨a, b, .inr (.inr c)⟩
      · exact ⟨a, b, .inl c⟩
      · exact ⟨a, b, .inr (.inl c)⟩
  unfold baseType
  simp only
  cases h with
  | nullable hc hn =>
    rw [← (called_iff hc).1, if_neg (fun h => hn ((cond hc).2 h))]
  | notNull hc hn =>
    rw [← (called_iff hc).1, if_pos ((cond hc).1 hn)]

theorem single_some (f : GField) (required pointers : Bool) : SingleText f required pointers (baseType f required pointers) := by
  obtain ⟨n, json, hc⟩ := called_some f
  by_cases h : NotNull f required pointers n json
  · have := SingleText.notNull hc h
    rw [single_only this]; exact this
  · have := SingleText.nullable hc h
    rw [single_only this]; exact this

theorem argLines_only : ∀ {l : List Str} {t : Str}, ArgLines l t → ∀ last : Str,
    join g!"\n" (l.map (fun a => if a ≠ [] then g!"    " ++ a else a) ++ [last]) = t ++ last := by
  intro l t h last
  have hj : ∀ (x : Str) (l : List Str), join g!"\n" (x :: (l ++ [last])) = x ++ g!"\n" ++ join g!"\n" (l ++ [last]) := by
    intro x l
    cases l <;> rfl
  induction h with
  | nil => rfl
  | @empty l t _ ih =>
    rw [List.map_cons, List.cons_append, hj, ih]
    simp
  | @line a l t ha _ ih =>
    rw [List.map_cons, List.cons_append, hj, ih, if_pos ha]
    simp

theorem argLines_some : ∀ l : List Str, ∃ t, ArgLines l t
  | [] => ⟨_, .nil⟩
  | a :: l => by
    obtain ⟨t, ht⟩ := argLines_some l
    by_cases h : a = []
    · subst h; exact ⟨_, .empty ht⟩
    · exact ⟨_, .line h ht⟩

theorem lookup_only {l : List Str} {a : Str} (h : LookupArgs l a) : hydrationArguments l = a := by
  unfold hydrationArguments
  cases h with
  | none => rfl
  | @some l t hl ht =>
    have hlen : l.length ≠ 0 := fun h => hl (List.length_eq_zero_iff.1 h)
    rw [if_neg hlen]
    have := argLines_only ht g!"  )"
    cases l with
    | nil => exact absurd rfl hl
    | cons x l =>
      rw [List.map_cons, List.cons_append] at this ⊢
      rw [List.cons_append]
      have hj : ∀ (y z : Str) (l : List Str), join g!"\n" (y :: z :: l) = y ++ g!"\n" ++ join g!"\n" (z :: l) := fun _ _ _ => rfl
      rw [hj, this]
      simp

theorem lookup_some (l : List Str) : LookupArgs l (hydrationArguments l) := by
  have : ∃ a, LookupArgs l a := by
    by_cases h : l = []
    · subst h; exact ⟨_, .none⟩
    · obtain ⟨t, ht⟩ := argLines_some l
      exact ⟨_, .some h ht⟩
  obtain ⟨a, ha⟩ := this
  rw [lookup_only ha]; exact ha

end JT.Gql

namespace JT
open Spec Gql Gql.Spec

/-- **C120**: every field is given exactly one list of arguments and one type, those above. -/
theorem C120 (f : GField) (required pointers : Bool) (a t : Str) : graphqlType f required pointers = (a, t) ↔ Gql.Spec.FieldText f required pointers a t := by
  have hargs : listArguments = listArgsText := by rfl
  constructor
  · intro h
    have h1 : (graphqlType f required pointers).1 = a := by rw [h]
    have h2 : (graphqlType f required pointers).2 = t := by rw [h]
    subst h1 h2
    unfold graphqlType
    by_cases hh : f.jsonType = g!"graphql-hydration"
    · simp only [if_pos hh]
      exact .lookup hh (lookup_some _)
    · simp only [if_neg hh]
      cases ha : f.array with
      | false => simp only [Bool.false_eq_true, if_false]; exact .single hh ha (single_some ..)
      | true =>
        simp only [if_true, hargs]
        by_cases hn : f.arrayNullable = true ∨ (pointers = true ∧ required = false)
        · rw [if_pos hn]
          have := FieldText.list hh ha (single_some f required pointers) hn
          simpa using this
        · rw [if_neg hn]
          rw [not_or] at hn
          have := FieldText.listNotNull hh ha (single_some f required pointers) (by simpa using hn.1)
            (by cases required <;> cases pointers <;> simp_all)
          simpa using this
  · intro h
    unfold graphqlType
    cases h with
    | lookup hh ha => rw [if_pos hh, lookup_only ha]
    | single hh ha ht => rw [if_neg hh, ha, single_only ht]; simp
    | list hh ha ht hn => rw [if_neg hh, ha, single_only ht, if_pos hn, hargs]; simp
    | listNotNull hh ha ht hn hr =>
      have : ¬ (f.arrayNullable = true ∨ (pointers = true ∧ required = false)) := by
        rintro (h | ⟨h1, h2⟩)
        · rw [hn] at h; cases h
        · rcases hr with hr | hr
          · rw [h2] at hr; cases hr
          · rw [h1] at hr; cases hr
      rw [if_neg hh, ha, single_only ht, if_neg this, hargs]; simp

/-- A required list of texts that may be null. -/
example : Gql.Spec.FieldText ⟨[], true, false, [], g!"a", g!"string", g!"A", true, []⟩ true true listArgsText g!"[String!]! @goField(forceResolver: true)" := by
  refine .listNotNull (t := g!"String!") ?_ rfl (.notNull (n := g!"String") (.scalar rfl .string) ⟨?_, ?_, .inl rfl⟩) rfl (.inl rfl) <;> decide

/-- A field that is looked up, with an empty line among its arguments. -/
example : Gql.Spec.FieldText ⟨[g!"id: ID!", [], g!"n: Int"], true, false, [], g!"a", g!"graphql-hydration", g!"A", true, g!"[Thing!]"⟩ true true
    g!"(\n    id: ID!\n\n    n: Int\n  )" g!"[Thing!]" :=
  .lookup rfl (.some (by decide) (.line (by decide) (.empty (.line (by decide) .nil))))

/-! ### C121 -/

namespace Spec
/-- The type of the field is a struct that has fields, neither in a list nor a pointer. -/
def StructValue (ef : Gen.EField) (nested : GMap Gen.GStruct) : Prop :=
  ef.array = false ∧ ef.nullable = false ∧ ((∃ fs, ef.fields = some fs ∧ fs ≠ []) ∨ ∃ ns, GMap.get ef.jsonType nested = some ns ∧ ns.fields ≠ [])

/-- The option in the tag. -/
inductive TagOption (ef : Gen.EField) (required : Bool) (nested : GMap Gen.GStruct) : Str → Prop where
  | required : required = true → TagOption ef required nested []
  | omitzero : required = false → StructValue ef nested → TagOption ef required nested g!",omitzero"
  | omitempty : required = false → ¬ StructValue ef nested → TagOption ef required nested g!",omitempty"

/-- The first line of a text. -/
inductive FirstLine : Str → Str → Prop where
  | only {s : Str} : '\n' ∉ s → FirstLine s s
  | more {s t : Str} : '\n' ∉ s → FirstLine (s ++ '\n' :: t) s

/-- What the tag says besides the JSON name. -/
inductive TagDescription (ef : Gen.EField) (descTag : Bool) : Str → Prop where
  | none : descTag = false ∨ ef.description = [] → TagDescription ef descTag []
  | line {s : Str} : descTag = true → ef.description ≠ [] → FirstLine ef.description s → TagDescription ef descTag (g!" description:\"" ++ s ++ g!"\"")

/-- The tag. -/
inductive TagText (ef : Gen.EField) (required descTag : Bool) (nested : GMap Gen.GStruct) : Str → Prop where
  | mk {o d : Str} : TagOption ef required nested o → TagDescription ef descTag d →
      TagText ef required descTag nested (g!"`json:\"" ++ ef.jsonName ++ o ++ g!"\"" ++ d ++ g!"`\n")
end Spec
open Gen

theorem tagOption_only {ef : EField} {required : Bool} {nested : GMap GStruct} {o : Str} (h : TagOption ef required nested o) : omitOption ef required nested = o := by
  have key : Spec.StructValue ef nested ↔ (ef.array = false ∧ ef.nullable = false ∧
      ((ef.fields.getD []).length ≠ 0 ∨ ∃ ns, GMap.get ef.jsonType nested = some ns ∧ ns.fields.length ≠ 0)) := by
    unfold Spec.StructValue
    have h1 : (∃ fs, ef.fields = some fs ∧ fs ≠ []) ↔ (ef.fields.getD []).length ≠ 0 := by
      cases ef.fields with
      | none => simp
      | some fs => simp
    have h2 : (∃ ns, GMap.get ef.jsonType nested = some ns ∧ ns.fields ≠ []) ↔ ∃ ns, GMap.get ef.jsonType nested = some ns ∧ ns.fields.length ≠ 0 := by
      simp only [ne_eq, List.length_eq_zero_iff]
    rw [h1, h2]
  unfold omitOption
  cases h with
  | required h => rw [if_pos h]
  | omitzero h hs => rw [if_neg (by simp [h]), if_pos (key.1 hs)]
  | omitempty h hs => rw [if_neg (by simp [h]), if_neg (fun h => hs (key.2 h))]

theorem firstLine_only {s t : Str} (h : FirstLine s t) : (splitC '\n' s).headD [] = t := by
  cases h with
  | only h => rw [splitC_no _ _ h]; rfl
  | more h => rw [splitC_general, splitC_no _ _ h]; rfl

theorem firstLine_some : ∀ s : Str, ∃ t, FirstLine s t := by
  intro s
  by_cases h : '\n' ∈ s
  · obtain ⟨a, b, rfl, ha⟩ := first_occ _ s h
    exact ⟨a, .more ha⟩
  · exact ⟨s, .only h⟩

/-- **C121**: every field is given exactly one tag, the one above. -/
theorem C121 (ef : EField) (required descTag : Bool) (nested : GMap GStruct) (s : Str) :
    structTag ef required descTag nested = s ↔ TagText ef required descTag nested s := by
  have back : ∀ s, TagText ef required descTag nested s → structTag ef required descTag nested = s := by
    intro s h
    cases h with
    | mk ho hd =>
      rw [C57_tag, tagOption_only ho]
      cases hd with
      | none h => rw [if_neg (by rcases h with h | h <;> simp [h])]
      | line h1 h2 h3 => rw [if_pos ⟨h1, h2⟩, firstLine_only h3]
  refine ⟨?_, back s⟩
  rintro rfl
  have : ∃ s, TagText ef required descTag nested s := by
    have h1 : ∃ o, TagOption ef required nested o := by
      cases hr : required with
      | true => exact ⟨_, .required rfl⟩
      | false =>
        by_cases h : Spec.StructValue ef nested
        · exact ⟨_, .omitzero rfl h⟩
        · exact ⟨_, .omitempty rfl h⟩
    have h2 : ∃ d, TagDescription ef descTag d := by
      by_cases h : descTag = false ∨ ef.description = []
      · exact ⟨_, .none h⟩
      · rw [not_or] at h
        obtain ⟨t, ht⟩ := firstLine_some ef.description
        exact ⟨_, .line (by simpa using h.1) h.2 ht⟩
    obtain ⟨o, h1⟩ := h1
    obtain ⟨d, h2⟩ := h2
    exact ⟨_, .mk h1 h2⟩
  obtain ⟨s, hs⟩ := this
  rw [back s hs]; exact hs

/-- An optional object with a property and a description of two lines. -/
example : TagText ⟨false, g!"one\ntwo", some [(g!"b", ⟨false, [], none, g!"b", g!"string", g!"B", false, []⟩)], g!"a", g!"object", g!"A", false, []⟩ false true []
    g!"`json:\"a,omitzero\" description:\"one\"`\n" := by
  refine .mk (o := g!",omitzero") (d := g!" description:\"one\"") (.omitzero rfl ⟨rfl, rfl, .inl ⟨_, rfl, ?_⟩⟩) (.line (s := g!"one") rfl ?_ (.more (s := g!"one") (t := g!"two") ?_))
  · simp
  · decide
  · decide

end JT
