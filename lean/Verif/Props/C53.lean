import Verif.Props.C54
import Verif.Props.C56
/- C53, C55, C57: Go types of fields, the import of `time`, and the tags. -/
namespace JT.Spec
open Gen

/-- Types of JSON values with a Go type of their own. -/
inductive JsonType where
  | boolean | number | integer | string | time

/-- The name in a schema (times are strings with a format). -/
def JsonType.name : JsonType → Str
  | .boolean => g!"boolean"
  | .number => g!"number"
  | .integer => g!"integer"
  | .string => g!"string"
  | .time => g!"date-time"

/-- The Go type. -/
def JsonType.go : JsonType → Str
  | .boolean => g!"bool"
  | .number => g!"float64"
  | .integer => g!"int64"
  | .string => g!"string"
  | .time => g!"time.Time"

/-- Types of fields. -/
inductive GoT where
  | plain (t : JsonType)
  /-- An object whose properties are not known. -/
  | map
  /-- An object with fields. -/
  | struct
  | ptr (t : GoT)
  | slice (t : GoT)

/-- How it is written. -/
def GoT.text : GoT → Str
  | .plain t => t.go
  | .map => g!"map[string]string"
  | .struct => g!"struct"
  | .ptr t => '*' :: t.text
  | .slice t => g!"[]" ++ t.text

/-- The value without array: a pointer if null is allowed, and for times also if they are optional and pointers are wanted. -/
inductive ElemType (ef : EField) (required pointers : Bool) : GoT → Prop where
  | plain {t : JsonType} : ef.jsonType = t.name → ef.nullable = false → ¬ (t = .time ∧ pointers = true ∧ required = false) → ElemType ef required pointers (.plain t)
  | null {t : JsonType} : ef.jsonType = t.name → ef.nullable = true → ElemType ef required pointers (.ptr (.plain t))
  | optional : ef.jsonType = JsonType.time.name → pointers = true → required = false → ElemType ef required pointers (.ptr (.plain .time))
  | map : ef.jsonType = g!"object" → ef.fields.getD [] = [] → ef.nullable = false → ElemType ef required pointers .map
  | nullMap : ef.jsonType = g!"object" → ef.fields.getD [] = [] → ef.nullable = true → ElemType ef required pointers (.ptr .map)
  | struct : ef.jsonType = g!"object" → ef.fields.getD [] ≠ [] → ef.nullable = false → ElemType ef required pointers .struct
  | nullStruct : ef.jsonType = g!"object" → ef.fields.getD [] ≠ [] → ef.nullable = true → ElemType ef required pointers (.ptr .struct)

/-- The type of a field. -/
inductive FieldType (ef : EField) (required pointers : Bool) : GoT → Prop where
  | single {t : GoT} : ef.array = false → ElemType ef required pointers t → FieldType ef required pointers t
  | array {t : GoT} : ef.array = true → ElemType ef required pointers t → FieldType ef required pointers (.slice t)

/-- The type is known. -/
def KnownType (ef : EField) : Prop := ef.jsonType = g!"object" ∨ ∃ t : JsonType, ef.jsonType = t.name

end JT.Spec

namespace JT.Gen
open Spec

theorem name_ne_object (t : JsonType) : t.name ≠ g!"object" := by cases t <;> decide

theorem goType_elem {ef : EField} {required pointers : Bool} (nested : GMap GStruct) {t : GoT} (h : ElemType ef required pointers t) :
    goType ef required pointers nested = if ef.array then g!"[]" ++ t.text else t.text := by
  cases h with
  | @plain t h1 h2 h3 =>
    cases t with
    | time =>
      have : ¬ (pointers = true ∧ required = false) := fun h => h3 ⟨rfl, h⟩
      simp [goType, h1, h2, JsonType.name, this, GoT.text, JsonType.go]
    | _ => simp [goType, h1, h2, JsonType.name, GoT.text, JsonType.go]
  | @null t h1 h2 =>
    cases t with
    | time =>
      by_cases hp : pointers = true ∧ required = false
      · simp [goType, h1, h2, JsonType.name, hp, GoT.text, JsonType.go]
      · simp [goType, h1, h2, JsonType.name, hp, GoT.text, JsonType.go]
    | _ => simp [goType, h1, h2, JsonType.name, GoT.text, JsonType.go]
  | optional h1 h2 h3 => simp [goType, h1, h2, h3, JsonType.name, GoT.text, JsonType.go]
  | map h1 h2 h3 => simp [goType, h1, h2, h3, GoT.text]
  | nullMap h1 h2 h3 => simp [goType, h1, h2, h3, GoT.text]
  | struct h1 h2 h3 => simp [goType, h1, h2, h3, GoT.text]
  | nullStruct h1 h2 h3 => simp [goType, h1, h2, h3, GoT.text]

end JT.Gen

namespace JT
open Spec Gen

/-- **C53**: a field with a known type has a Go type, given by type, nullability, and whether it is an array, is required and pointers are wanted. -/
theorem C53_partial {ef : EField} (required pointers : Bool) (nested : GMap GStruct) (h : KnownType ef) :
    ∃ t, FieldType ef required pointers t ∧ goType ef required pointers nested = t.text := by
  have : ∃ t, ElemType ef required pointers t := by
    rcases h with h | ⟨t, h⟩
    · by_cases hf : ef.fields.getD [] = [] <;> cases hn : ef.nullable
      · exact ⟨_, .map h hf hn⟩
      · exact ⟨_, .nullMap h hf hn⟩
      · exact ⟨_, .struct h hf hn⟩
      · exact ⟨_, .nullStruct h hf hn⟩
    · cases hn : ef.nullable
      · by_cases hp : t = .time ∧ pointers = true ∧ required = false
        · exact ⟨_, .optional (hp.1 ▸ h) hp.2.1 hp.2.2⟩
        · exact ⟨_, .plain h hn hp⟩
      · exact ⟨_, .null h hn⟩
  obtain ⟨t, ht⟩ := this
  cases ha : ef.array
  · exact ⟨t, .single ha ht, by rw [goType_elem nested ht, ha]; rfl⟩
  · exact ⟨.slice t, .array ha ht, by rw [goType_elem nested ht, ha]; rfl⟩

/-- **C53**: the Go type is that of `FieldType`. -/
theorem C53_only {ef : EField} {required pointers : Bool} (nested : GMap GStruct) {t : GoT} (h : FieldType ef required pointers t) :
    goType ef required pointers nested = t.text := by
  cases h with
  | single ha ht => rw [goType_elem nested ht, ha]; rfl
  | array ha ht => rw [goType_elem nested ht, ha]; rfl

/-- A type name that is not known, and not that of a struct, is taken over as it is. -/
theorem C53_unknown {ef : EField} (required pointers : Bool) {nested : GMap GStruct} (h : ¬ KnownType ef) (hn : GMap.get ef.jsonType nested = none) :
    goType ef required pointers nested = if ef.array then g!"[]" ++ ef.jsonType else ef.jsonType := by
  unfold KnownType at h
  rw [not_or] at h
  have h1 : ∀ t : JsonType, ef.jsonType ≠ t.name := fun t he => h.2 ⟨t, he⟩
  have a1 : ef.jsonType ≠ g!"boolean" := h1 .boolean
  have a2 : ef.jsonType ≠ g!"number" := h1 .number
  have a3 : ef.jsonType ≠ g!"integer" := h1 .integer
  have a4 : ef.jsonType ≠ g!"string" := h1 .string
  have a5 : ef.jsonType ≠ g!"date-time" := h1 .time
  simp [goType, a1, a2, a3, a4, a5, h.1, hn]

example : KnownType ⟨true, [], none, g!"a", g!"date-time", g!"A", true, []⟩ ∧
    goType ⟨true, [], none, g!"a", g!"date-time", g!"A", true, []⟩ true false [] = g!"[]*time.Time" := ⟨Or.inr ⟨.time, rfl⟩, by decide⟩
example : ¬ KnownType ⟨false, [], none, g!"a", g!"null", g!"A", true, []⟩ := by
  rintro (h | ⟨t, h⟩)
  · exact absurd h (by decide)
  · cases t <;> exact absurd h (by decide)

namespace C53ex
open Toy C56ex
/-- The Go type of the only field for a schema. -/
def typeOf (m : GMap P) : Str := match newGoFile Sched.id id C56ex.args (schema m) g!"T" [] with
  | .ok g => match g.root.fields with
    | [(_, f)] => goType f false false []
    | _ => []
  | _ => []
end C53ex

/-- What C53 should also say, for arrays: the elements of a slice are pointers iff the items can be null.  It fails both ways: a nullable array has pointers
as elements, an array of nullable items does not. -/
theorem C53_refuted_array :
    C53ex.typeOf [(g!"a", Toy.o [(g!"type", Toy.a [Toy.s g!"array", Toy.s g!"null"]), (g!"items", Toy.o [(g!"type", Toy.s g!"string")])])] = g!"[]*string" ∧
    C53ex.typeOf [(g!"a", Toy.o [(g!"type", Toy.s g!"array"), (g!"items", Toy.o [(g!"type", Toy.a [Toy.s g!"string", Toy.s g!"null"])])])] = g!"[]string" :=
  ⟨by decide +kernel, by decide +kernel⟩

/-! ### Tags -/

/-- C57 as one would like it: optional fields have an option in the JSON tag that makes encoding/json omit the zero value; for structs and times this takes
`omitzero`. -/
def C57_statement : Prop := ∀ (ef : EField) (required pointers : Bool) (t : GoT), FieldType ef required pointers t →
  (omitOption ef required [] = [] ↔ required = true) ∧ (omitOption ef required [] = g!",omitzero" ↔ required = false ∧ (t = .struct ∨ t = .plain .time))

/-- **C57**, partial: an option is there iff the field is not required; it is `omitzero` iff the Go type is a struct with fields. -/
theorem C57_partial {ef : EField} {required pointers : Bool} {t : GoT} (h : FieldType ef required pointers t) (hf : ef.fields.getD [] ≠ [] → ef.jsonType = g!"object") :
    (omitOption ef required [] = [] ↔ required = true) ∧ (omitOption ef required [] = g!",omitzero" ↔ required = false ∧ t = .struct) ∧
    (omitOption ef required [] = g!",omitempty" ↔ required = false ∧ t ≠ .struct) := by
  have hcond : (ef.array = false ∧ ef.nullable = false ∧ ((ef.fields.getD []).length ≠ 0 ∨ ∃ ns, GMap.get ef.jsonType ([] : GMap GStruct) = some ns ∧ ns.fields.length ≠ 0)) ↔ t = .struct := by
    have h0 : ∀ l : List (Str × EField), l.length ≠ 0 ↔ l ≠ [] := by intro l; cases l <;> simp
    rw [h0]
    simp only [GMap.get, reduceCtorEq, false_and, exists_false, or_false]
    constructor
    · rintro ⟨h1, h2, h3⟩
      have hj := hf h3
      cases h with
      | array ha _ => rw [h1] at ha; contradiction
      | single ha ht =>
        cases ht with
        | @plain t' h4 => exact absurd (hj.symm.trans h4).symm (name_ne_object t')
        | @null t' h4 h5 => rw [h2] at h5; contradiction
        | optional h4 => exact absurd (hj.symm.trans h4).symm (name_ne_object .time)
        | map _ h4 => exact absurd h4 h3
        | nullMap _ h4 => exact absurd h4 h3
        | struct => rfl
        | nullStruct _ _ h5 => rw [h2] at h5; contradiction
    · rintro rfl
      cases h with
      | single ha ht =>
        cases ht with
        | struct h1 h2 h3 => exact ⟨ha, h3, h2⟩
  unfold omitOption
  cases required with
  | true => simp
  | false =>
    by_cases hs : t = .struct
    · rw [if_neg (by decide), if_pos (hcond.2 hs)]
      simp [hs]
    · rw [if_neg (by decide), if_neg (fun h => hs (hcond.1 h))]
      simp [hs]

/-- An optional time that is not a pointer has `omitempty`, which has no effect for it. -/
theorem C57_refuted : ¬ C57_statement := by
  intro h
  have := (h ⟨false, [], none, g!"a", g!"date-time", g!"A", false, []⟩ false false (.plain .time) (.single rfl (.plain rfl rfl (by simp)))).2.2 ⟨rfl, Or.inr rfl⟩
  revert this
  decide

theorem trim_left {c : Char} (hc : c ≠ ' ') (s : Str) : trimLeft [' '] (c :: s) = c :: s := by simp [trimLeft, hc]

theorem trim_right {c : Char} (hc : c ≠ ' ') (s : Str) : trimRight [' '] (s ++ [c]) = s ++ [c] ∧ trimRight [' '] (s ++ [c] ++ [' ']) = s ++ [c] := by
  constructor <;> simp [trimRight, trimLeft, hc]

/-- **C57**: the tag has the name of the property with the option, then the first line of the description if wanted. -/
theorem C57_tag (ef : EField) (required descTag : Bool) (nested : GMap GStruct) :
    structTag ef required descTag nested = g!"`json:\"" ++ ef.jsonName ++ omitOption ef required nested ++ g!"\"" ++
      (if descTag = true ∧ ef.description ≠ [] then g!" description:\"" ++ (splitC '\n' ef.description).headD [] ++ g!"\"" else []) ++ g!"`\n" := by
  unfold structTag
  simp only [join]
  split
  · have h := (trim_right (c := '"') (by decide) (g!"json:\"" ++ ef.jsonName ++ omitOption ef required nested ++ g!"\"" ++ g!" " ++ (g!"description:\"" ++ (splitC '\n' ef.description).headD []))).1
    unfold trim
    rw [show g!"json:\"" ++ ef.jsonName ++ omitOption ef required nested ++ g!"\"" ++ g!" " ++ (g!"description:\"" ++ (splitC '\n' ef.description).headD [] ++ g!"\"") =
      'j' :: (g!"son:\"" ++ ef.jsonName ++ omitOption ef required nested ++ g!"\"" ++ g!" " ++ (g!"description:\"" ++ (splitC '\n' ef.description).headD []) ++ ['"']) by simp,
      trim_left (by decide)]
    simp only [List.cons_append, List.append_assoc, List.nil_append] at h ⊢
    rw [h]
    simp
  · have h := (trim_right (c := '"') (by decide) (g!"json:\"" ++ ef.jsonName ++ omitOption ef required nested)).2
    unfold trim
    rw [show g!"json:\"" ++ ef.jsonName ++ omitOption ef required nested ++ g!"\"" ++ g!" " ++ [] =
      'j' :: (g!"son:\"" ++ ef.jsonName ++ omitOption ef required nested ++ ['"'] ++ [' ']) by simp, trim_left (by decide)]
    simp only [List.cons_append, List.append_assoc, List.nil_append] at h ⊢
    rw [h]
    simp

end JT
