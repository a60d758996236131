import Verif.Spec.Tag
import Verif.Props.C53
/- C80: the tags of generated fields give them the names of the schema. -/
namespace JT.Go
open Spec Gen

theorem scan_quiet {s : Str} (h : Quiet s) (t : Str) : scanQuoted (s ++ '"' :: t) = some (s, t) := by
  induction s with
  | nil => rfl
  | cons c s ih =>
    have hc := h c List.mem_cons_self
    have ih := ih fun x hx => h x (List.mem_cons_of_mem _ hx)
    rw [List.cons_append, scanQuoted]
    · rw [ih]; rfl
    · rintro rfl; exact hc.1 rfl
    · rintro rfl; exact absurd rfl hc.2.1
    · rintro - - rfl; exact absurd rfl hc.2.1

theorem unquote_quiet {s : Str} (h : Quiet s) : unquote s = some s := by
  induction s with
  | nil => rfl
  | cons c s ih =>
    have hc := h c List.mem_cons_self
    have ih := ih fun x hx => h x (List.mem_cons_of_mem _ hx)
    rw [unquote]
    · rw [if_neg (by simp [hc]), ih]; rfl
    · rintro _ _ rfl; exact absurd rfl hc.2.1

theorem loop_json {v rest : Str} (h : Quiet v) (n : Nat) : tagLoop g!"json" (n + 1) (g!"json:\"" ++ v ++ '"' :: rest) = v := by
  have : scanQuoted (v ++ '"' :: rest) = some (v, rest) := scan_quiet h rest
  simp [tagLoop, keyChar, this, unquote_quiet h]

theorem loop_other {v rest : Str} (h : Quiet v) (n : Nat) :
    tagLoop g!"description" (n + 1) (g!"json:\"" ++ v ++ '"' :: rest) = tagLoop g!"description" n rest := by
  have : scanQuoted (v ++ '"' :: rest) = some (v, rest) := scan_quiet h rest
  simp [tagLoop, keyChar, this]

theorem loop_description {v rest : Str} (h : Quiet v) (n : Nat) : tagLoop g!"description" (n + 1) (g!" description:\"" ++ v ++ '"' :: rest) = v := by
  have : scanQuoted (v ++ '"' :: rest) = some (v, rest) := scan_quiet h rest
  simp [tagLoop, keyChar, this, unquote_quiet h]

theorem loop_nil (key : Str) (n : Nat) : tagLoop key n [] = [] := by
  cases n <;> simp [tagLoop]

theorem trim_quoted (s : Str) : trim ['`'] (g!"`" ++ ('j' :: s ++ ['"']) ++ g!"`") = 'j' :: s ++ ['"'] := by
  simp [trim, trimLeft, trimRight]

theorem splitC_head (c : Char) (s : Str) : (splitC c s).headD [] = s.takeWhile fun x => x ≠ c := by
  induction s with
  | nil => rfl
  | cons x s ih =>
    unfold splitC
    by_cases h : x = c
    · simp [h]
    · simp only [h, if_false]
      cases hs : splitC c s with
      | nil => rw [hs] at ih; simp [h] at ih ⊢; exact ih
      | cons p ps => rw [hs] at ih; simp [h] at ih ⊢; exact ih

theorem splitC_ne (c : Char) (s : Str) : splitC c s ≠ [] := by
  cases s with
  | nil => simp [splitC]
  | cons x s =>
    unfold splitC
    split
    · simp
    · split <;> simp

/-- Cutting two texts with the separator between them. -/
theorem splitC_append (c : Char) (a b : Str) : splitC c (a ++ c :: b) = splitC c a ++ splitC c b := by
  induction a with
  | nil => simp [splitC]
  | cons x a ih =>
    rw [List.cons_append, splitC, splitC]
    by_cases h : x = c
    · simp [h, ih]
    · simp only [h, if_false, ih]
      cases hs : splitC c a with
      | nil => exact absurd hs (splitC_ne c a)
      | cons p ps => simp

/-- What follows the value for json in the tag of a field. -/
def descriptionPart (ef : EField) (descTag : Bool) : Str :=
  if descTag = true ∧ ef.description ≠ [] then g!" description:\"" ++ firstLine ef.description ++ ['"'] else []

/-- The literal of the tag that is written for a field. -/
def literal (ef : EField) (required descTag : Bool) (nested : GMap GStruct) : Str :=
  g!"`" ++ (g!"json:\"" ++ (ef.jsonName ++ omitOption ef required nested) ++ '"' :: descriptionPart ef descTag) ++ g!"`"

theorem literal_spec (ef : EField) (required descTag : Bool) (nested : GMap GStruct) :
    structTag ef required descTag nested = literal ef required descTag nested ++ g!"\n" ∧
    trim ['`'] (literal ef required descTag nested) = g!"json:\"" ++ (ef.jsonName ++ omitOption ef required nested) ++ '"' :: descriptionPart ef descTag := by
  have h := C57_tag ef required descTag nested
  rw [splitC_head] at h
  constructor
  · rw [h]
    unfold literal descriptionPart firstLine
    simp only [List.cons_append, List.append_assoc, List.nil_append]
  · unfold literal descriptionPart
    split
    · have := trim_quoted (g!"son:\"" ++ (ef.jsonName ++ omitOption ef required nested) ++ g!"\" description:\"" ++ firstLine ef.description)
      simp only [List.cons_append, List.append_assoc, List.nil_append] at this ⊢
      exact this
    · have := trim_quoted (g!"son:\"" ++ (ef.jsonName ++ omitOption ef required nested))
      simp only [List.cons_append, List.append_assoc, List.nil_append] at this ⊢
      exact this

theorem omit_quiet (ef : EField) (required : Bool) (nested : GMap GStruct) :
    omitOption ef required nested = [] ∧ required = true ∨ omitOption ef required nested = g!",omitzero" ∧ required = false ∨
      omitOption ef required nested = g!",omitempty" ∧ required = false := by
  unfold omitOption
  cases required
  · simp only [Bool.false_eq_true, if_false, and_true, and_false, false_or]
    split <;> simp
  · simp

theorem value_quiet {ef : EField} (required : Bool) (nested : GMap GStruct) (h : Quiet ef.jsonName) : Quiet (ef.jsonName ++ omitOption ef required nested) := by
  intro c hc
  rcases List.mem_append.1 hc with hc | hc
  · exact h c hc
  · rcases omit_quiet ef required nested with ⟨e, -⟩ | ⟨e, -⟩ | ⟨e, -⟩ 
    · rw [e] at hc; cases hc
    · rw [e] at hc
      exact (by decide : ∀ c ∈ g!",omitzero", c ≠ '"' ∧ c ≠ '\\' ∧ c ≠ '`' ∧ c ≠ '\n' ∧ c ≠ '\r') c hc
    · rw [e] at hc
      exact (by decide : ∀ c ∈ g!",omitempty", c ≠ '"' ∧ c ≠ '\\' ∧ c ≠ '`' ∧ c ≠ '\n' ∧ c ≠ '\r') c hc

theorem literal_json {ef : EField} (required descTag : Bool) (nested : GMap GStruct) (h : Quiet ef.jsonName) :
    tagGet (trim ['`'] (literal ef required descTag nested)) g!"json" = ef.jsonName ++ omitOption ef required nested := by
  rw [(literal_spec ef required descTag nested).2]
  exact loop_json (value_quiet required nested h) _

theorem literal_description {ef : EField} (required descTag : Bool) (nested : GMap GStruct) (h : Quiet ef.jsonName)
    (hd : descTag = true → Quiet (firstLine ef.description)) :
    tagGet (trim ['`'] (literal ef required descTag nested)) g!"description" = if descTag = true then firstLine ef.description else [] := by
  rw [(literal_spec ef required descTag nested).2]
  unfold tagGet
  rw [loop_other (value_quiet required nested h)]
  cases descTag
  · simp [descriptionPart, loop_nil]
  · unfold descriptionPart
    by_cases he : ef.description = []
    · simp [he, loop_nil, firstLine]
    · rw [if_pos ⟨rfl, he⟩, if_pos rfl, show ∀ d : Str, (g!"json:\"" ++ (ef.jsonName ++ omitOption ef required nested) ++ '"' :: (g!" description:\"" ++ d ++ ['"'])).length =
        ((g!"json:\"" ++ (ef.jsonName ++ omitOption ef required nested) ++ g!" description:\"" ++ d).length + 1) + 1 by
        intro d; simp; omega]
      exact loop_description (hd rfl) _

theorem beforeComma_append {a b : Str} (h : ',' ∉ a) (hb : b = [] ∨ b.headD ' ' = ',') : beforeComma (a ++ b) = a := by
  unfold beforeComma
  induction a with
  | nil =>
    rcases hb with rfl | hb
    · rfl
    · cases b with
      | nil => rfl
      | cons c b => simp at hb; simp [hb]
  | cons c a ih =>
    have hc : c ≠ ',' := fun e => h (e ▸ List.mem_cons_self)
    rw [List.cons_append, List.takeWhile_cons, if_pos (by simpa using hc), ih fun hm => h (List.mem_cons_of_mem _ hm)]

theorem mem_beforeComma (s : Str) : ',' ∉ beforeComma s := by
  unfold beforeComma
  induction s with
  | nil => simp
  | cons c s ih =>
    rw [List.takeWhile_cons]
    split
    · rename_i hc
      simp only [decide_eq_true_eq] at hc
      intro h
      rcases List.mem_cons.1 h with h | h
      · exact hc h.symm
      · exact ih h
    · simp

theorem beforeComma_self {s : Str} (h : ',' ∉ s) : beforeComma s = s := by
  have := beforeComma_append (b := []) h (Or.inl rfl)
  rwa [List.append_nil] at this

theorem beforeComma_of {a b : Str} (h : ',' ∈ a) : beforeComma (a ++ b) = beforeComma a := by
  unfold beforeComma
  induction a with
  | nil => simp at h
  | cons c a ih =>
    by_cases hc : c = ','
    · simp [hc]
    · have : ',' ∈ a := by
        rcases List.mem_cons.1 h with h | h
        · exact absurd h.symm hc
        · exact h
      simp [hc] at ih ⊢
      exact ih this

theorem omit_comma (ef : EField) (required : Bool) (nested : GMap GStruct) :
    omitOption ef required nested = [] ∨ (omitOption ef required nested).headD ' ' = ',' := by
  rcases omit_quiet ef required nested with ⟨e, -⟩ | ⟨e, -⟩ | ⟨e, -⟩ <;> rw [e] <;> simp

theorem valid_comma {letter : Char → Bool} (hl : letter ',' = false) {s : Str} (h : ValidTag letter s) : ',' ∉ s := by
  intro hm
  rcases h.2 _ hm with h | h
  · rw [hl] at h; cases h
  · revert h; decide

/-- **C80**, in full: encoding/json uses the name of the property as key of the generated field, and the Avro generator finds that name, the first line of the
description, and `omitempty` if the field has that option. -/
def C80_statement : Prop := ∀ (letter : Char → Bool) (ef : EField) (required descTag : Bool) (nested : GMap GStruct), letter ',' = false → Identifier letter ef.name →
  ∃ lit, structTag ef required descTag nested = lit ++ g!"\n" ∧ jsonKey letter ef.name lit = some ef.jsonName ∧
    parseStructTag lit = { name := ef.jsonName, description := if descTag = true then firstLine ef.description else [],
                           omitEmpty := decide (omitOption ef required nested = g!",omitempty") }

/-- **C80**, partial, for names that need no escapes: encoding/json uses the name of the property exactly if it has only letters, digits and the punctuation allowed
in tags, and is not the name `-` of a required property.  Otherwise (`C80_refuted`) it is false. -/
theorem C80_json_partial {letter : Char → Bool} {ef : EField} (required descTag : Bool) (nested : GMap GStruct) (hl : letter ',' = false)
    (hi : Identifier letter ef.name) (hq : Quiet ef.jsonName) :
    ∃ lit, structTag ef required descTag nested = lit ++ g!"\n" ∧
      (jsonKey letter ef.name lit = some ef.jsonName ↔ ValidTag letter ef.jsonName ∧ (ef.jsonName = g!"-" → required = false)) ∧
      (jsonKey letter ef.name lit = none ↔ ef.jsonName = g!"-" ∧ required = true) := by
  refine ⟨literal ef required descTag nested, (literal_spec ..).1, ?_⟩
  unfold jsonKey
  rw [literal_json required descTag nested hq]
  have hdash : ef.jsonName ++ omitOption ef required nested = g!"-" ↔ ef.jsonName = g!"-" ∧ required = true := by
    rcases omit_quiet ef required nested with ⟨e, hr⟩ | ⟨e, hr⟩ | ⟨e, hr⟩ <;> rw [e]
    · simp [hr]
    all_goals
      simp only [hr, Bool.false_eq_true, and_false, iff_false]
      intro h
      have := congrArg List.length h
      simp at this
  simp only [hdash]
  by_cases h1 : ef.jsonName = g!"-" ∧ required = true
  · simp only [h1, and_self, if_true, reduceCtorEq, false_iff, not_and, true_iff]
    refine ⟨fun _ h => ?_, trivial⟩
    simp at h
  · rw [if_neg h1]
    refine ⟨?_, ?_⟩
    · have h2 : (ef.jsonName = g!"-" → required = false) := fun h => by
        cases hr : required
        · rfl
        · exact absurd ⟨h, hr⟩ h1
      by_cases hc : ',' ∈ ef.jsonName
      · have hnv : ¬ ValidTag letter ef.jsonName := fun h => valid_comma hl h hc
        simp only [hnv, false_and, iff_false]
        rw [beforeComma_of hc]
        split
        · intro h
          simp only [Option.some.injEq] at h
          rw [← h] at hc
          exact mem_beforeComma _ hc
        · intro h
          simp only [Option.some.injEq] at h
          rw [← h] at hc
          rcases hi.2 _ hc with h | h
          · rw [hl] at h; cases h
          · revert h; decide
      · rw [beforeComma_append hc (omit_comma ..)]
        split
        · rename_i hv
          simp only [true_iff]
          exact ⟨hv, h2⟩
        · rename_i hv
          simp only [hv, false_and, iff_false]
          intro h
          simp only [Option.some.injEq] at h
          apply hv
          rw [← h]
          refine ⟨hi.1, fun c hc => ?_⟩
          rcases hi.2 c hc with h | h
          · exact Or.inl h
          · subst h; exact Or.inr (by decide)
    · simp only [h1, iff_false]
      split <;> simp

theorem splitC_none {c : Char} {s : Str} (h : c ∉ s) : splitC c s = [s] := by
  induction s with
  | nil => rfl
  | cons x s ih =>
    have hx : x ≠ c := fun e => h (e ▸ List.mem_cons_self)
    unfold splitC
    rw [if_neg hx, ih fun hm => h (List.mem_cons_of_mem _ hm)]

/-- **C80**, partial: the options that encoding/json finds are those of C57. -/
theorem C80_options_partial {ef : EField} (required descTag : Bool) (nested : GMap GStruct) (hq : Quiet ef.jsonName) (hc : ',' ∉ ef.jsonName) :
    ∃ lit, structTag ef required descTag nested = lit ++ g!"\n" ∧
      (jsonOption lit g!"omitempty" ↔ omitOption ef required nested = g!",omitempty") ∧
      (jsonOption lit g!"omitzero" ↔ omitOption ef required nested = g!",omitzero") := by
  refine ⟨literal ef required descTag nested, (literal_spec ..).1, ?_⟩
  unfold jsonOption options
  rw [literal_json required descTag nested hq]
  rcases omit_quiet ef required nested with ⟨e, -⟩ | ⟨e, -⟩ | ⟨e, -⟩ <;> rw [e]
  · rw [List.append_nil, splitC_none hc]
    simp
  all_goals
    rw [splitC_append, splitC_none hc]
    simp [splitC]

/-- **C80**, partial: for names and descriptions that need no escapes, and names without comma, the Avro generator finds in the tag what C80 says. -/
theorem C80_partial {ef : EField} (required descTag : Bool) (nested : GMap GStruct) (hq : Quiet ef.jsonName) (hc : ',' ∉ ef.jsonName)
    (hd : descTag = true → Quiet (firstLine ef.description)) :
    ∃ lit, structTag ef required descTag nested = lit ++ g!"\n" ∧
      parseStructTag lit = { name := ef.jsonName, description := if descTag = true then firstLine ef.description else [],
                             omitEmpty := decide (omitOption ef required nested = g!",omitempty") } := by
  refine ⟨literal ef required descTag nested, (literal_spec ..).1, ?_⟩
  unfold parseStructTag
  simp only []
  rw [literal_json required descTag nested hq, literal_description required descTag nested hq hd]
  rcases omit_quiet ef required nested with ⟨e, -⟩ | ⟨e, -⟩ | ⟨e, -⟩ <;> rw [e]
  · rw [List.append_nil, splitC_none hc]
    simp
  · rw [splitC_append, splitC_none hc]
    simp [splitC]
    decide
  · rw [splitC_append, splitC_none hc]
    simp [splitC]
    decide

namespace C80ex

/-- ASCII letters and digits. -/
def letter (c : Char) : Bool := c.isAlphanum

/-- An optional field with a description of two lines. -/
def ef (name json description : Str) : EField := ⟨false, description, none, json, g!"string", name, false, []⟩

/-- The conditions are met by a name that is not a Go identifier. -/
example : letter ',' = false ∧ Identifier letter g!"AtId" ∧ Quiet g!"@id" ∧ ',' ∉ g!"@id" ∧ Quiet (firstLine g!"An id.\nIt's \"unique\".") ∧
    parseStructTag g!"`json:\"@id,omitempty\" description:\"An id.\"`" = ⟨g!"@id", g!"An id.", true⟩ ∧
    jsonKey letter g!"AtId" g!"`json:\"@id,omitempty\" description:\"An id.\"`" = some g!"@id" := by
  refine ⟨by decide, ?_, ?_, by decide, ?_, by decide +kernel, by decide +kernel⟩ 
  · unfold Identifier; decide
  all_goals unfold Quiet; decide

end C80ex

open C80ex in
/-- C80 is false in general: a name with an apostrophe is not accepted by encoding/json, which uses the name of the Go field. -/
theorem C80_refuted : ¬ C80_statement := by
  intro h
  obtain ⟨lit, h1, h2, -⟩ := h letter (ef g!"OClock" g!"o'clock" []) true false [] (by decide) (by unfold Identifier; decide)
  rw [show lit = (structTag (ef g!"OClock" g!"o'clock" []) true false []).dropLast by rw [h1]; simp] at h2
  revert h2
  decide +kernel

open C80ex in
/-- The field of a required property called `-` is ignored by encoding/json; that of an optional one is not. -/
theorem C80_refuted_dash : (jsonKey letter g!"Dash" (structTag (ef g!"Dash" g!"-" []) true false []).dropLast = none) ∧
    jsonKey letter g!"Dash" (structTag (ef g!"Dash" g!"-" []) false false []).dropLast = some g!"-" := by decide +kernel

open C80ex in
/-- A name with a comma is cut, here and in the Avro schema. -/
theorem C80_refuted_comma : jsonKey letter g!"AB" (structTag (ef g!"AB" g!"a,b" []) true false []).dropLast = some g!"a" ∧
    (parseStructTag (structTag (ef g!"AB" g!"a,b" []) true false []).dropLast).name = g!"a" := by decide +kernel

open C80ex in
/-- A description is cut at a quote, and lost if it has a backslash. -/
theorem C80_refuted_description : (parseStructTag (structTag (ef g!"A" g!"a" g!"say \"hi\"") true true []).dropLast).description = g!"say " ∧
    (parseStructTag (structTag (ef g!"A" g!"a" g!"matches \\d+") true true []).dropLast).description = [] := by decide +kernel

end JT.Go
