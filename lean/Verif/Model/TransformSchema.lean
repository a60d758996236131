import Verif.Model.Schema
/- transformSchema.json: the published JSON schema (draft 4) for the `transform` extension, as predicates on documents.  Only the parts about transforms are modelled; the others are
the meta-schema of draft 4.  Two items of an array count as the same if they are the same tree. -/
namespace JT.Published

/-- The keyword `type` with the value `string`. -/
def IsText (v : P) : Prop := ∃ s, v = .sc (.str s)

/-- The keyword `enum` with strings. -/
def IsOneOf (names : List Str) (v : P) : Prop := ∃ s ∈ names, v = .sc (.str s)

/-- No keyword at all. -/
def Anything (_ : P) : Prop := True

/-- The keywords `type` (with the value `object`), `required`, `additionalProperties` (`closed`: with the value false) and `properties`.  The keys of an object are different. -/
structure ObjectOf (required : List Str) (closed : Bool) (props : List (Str × (P → Prop))) (v : P) : Prop where
  object : ∃ m, v = .obj m ∧ (m.map Prod.fst).Nodup
  needs : ∀ k ∈ required, (v.key k).isSome = true
  only : closed = true → ∀ k, (v.key k).isSome = true → k ∈ props.map Prod.fst
  values : ∀ kp ∈ props, ∀ x, v.key kp.1 = some x → kp.2 x

/-- The keywords `type` (with the value `array`), `minItems` (1), `uniqueItems` and `items`. -/
def ArrayOf (item : P → Prop) (v : P) : Prop := ∃ l, v = .arr l ∧ l ≠ [] ∧ l.Nodup ∧ ∀ x ∈ l, item x

/-- The keyword `oneOf`: exactly one of the schemas allows the value. -/
def ExactlyOne : List (P → Prop) → P → Prop
  | [], _ => False
  | s :: t, v => (s v ∧ ∀ s' ∈ t, ¬ s' v) ∨ (¬ s v ∧ ExactlyOne t v)

/-- transformSchema.json:104: `\S` in a pattern. -/
def NotSpace (c : Char) : Prop := c ∉ ['\t', '\n', '\x0c', '\r', ' ']

/-- transformSchema.json:104: one or more parts of a path. -/
inductive Parts : Str → Prop where
  | dot {s : Str} : s ≠ [] → (∀ c ∈ s, NotSpace c) → Parts ('.' :: s)
  | bracket {s : Str} : s ≠ [] → (∀ c ∈ s, NotSpace c) → Parts (g!"['" ++ s ++ g!"']")
  | more {s t : Str} : Parts s → Parts t → Parts (s ++ t)

/-- transformSchema.json:102-105. -/
def jsonPath (v : P) : Prop := ∃ c s, (c = '@' ∨ c = '$') ∧ Parts s ∧ v = .sc (.str (c :: s))

/-- transformSchema.json:106-108. -/
def xmlPath : P → Prop := IsText

/-- transformSchema.json:110-143. -/
def caseChange : P → Prop :=
  ObjectOf [g!"type", g!"args"] true [(g!"type", IsOneOf [g!"changeCase"]),
    (g!"args", ObjectOf [g!"to"] true [(g!"to", IsOneOf [g!"lower", g!"upper"])])]

/-- transformSchema.json:144-171: `type` is not required, and the format may be anything. -/
def currentTime : P → Prop :=
  ObjectOf [g!"args"] true [(g!"type", IsOneOf [g!"currentTime"]), (g!"args", ObjectOf [g!"format"] true [(g!"format", Anything)])]

/-- transformSchema.json:172-187. -/
def inverse : P → Prop := ObjectOf [g!"type"] true [(g!"type", IsOneOf [g!"inverse"])]

/-- transformSchema.json:188-217. -/
def split : P → Prop :=
  ObjectOf [g!"type", g!"args"] true [(g!"type", IsOneOf [g!"split"]), (g!"args", ObjectOf [g!"on"] true [(g!"on", IsText)])]

/-- transformSchema.json:218-252. -/
def replace : P → Prop :=
  ObjectOf [g!"type", g!"args"] true [(g!"type", IsOneOf [g!"replace"]),
    (g!"args", ObjectOf [g!"regex", g!"new"] true [(g!"regex", IsText), (g!"new", IsText)])]

/-- transformSchema.json:253-287. -/
def max : P → Prop :=
  ObjectOf [g!"type", g!"args"] true [(g!"type", IsOneOf [g!"max"]),
    (g!"args", ObjectOf [g!"by", g!"return"] true [(g!"by", jsonPath), (g!"return", jsonPath)])]

/-- transformSchema.json:288-322. -/
def timeParse : P → Prop :=
  ObjectOf [g!"type", g!"args"] true [(g!"type", IsOneOf [g!"timeParse"]),
    (g!"args", ObjectOf [g!"format", g!"layout"] true [(g!"format", IsText), (g!"layout", IsText)])]

/-- transformSchema.json:323-352: `delimiter` is required, but the only argument that is allowed is `format`. -/
def toCamelCase : P → Prop :=
  ObjectOf [g!"type", g!"args"] true [(g!"type", IsOneOf [g!"toCamelCase"]),
    (g!"args", ObjectOf [g!"delimiter"] true [(g!"format", IsText)])]

/-- transformSchema.json:353-368. -/
def removeHTML : P → Prop := ObjectOf [g!"type"] true [(g!"type", IsOneOf [g!"removeHTML"])]

/-- transformSchema.json:369-384. -/
def convertToFloat64 : P → Prop := ObjectOf [g!"type"] true [(g!"type", IsOneOf [g!"convertToFloat64"])]

/-- transformSchema.json:385-400. -/
def convertToInt64 : P → Prop := ObjectOf [g!"type"] true [(g!"type", IsOneOf [g!"convertToInt64"])]

/-- transformSchema.json:401-416. -/
def convertToBool : P → Prop := ObjectOf [g!"type"] true [(g!"type", IsOneOf [g!"convertToBool"])]

/-- transformSchema.json:59-97. -/
def operation : P → Prop :=
  ExactlyOne [caseChange, currentTime, inverse, split, replace, max, timeParse, toCamelCase, removeHTML, convertToFloat64, convertToInt64, convertToBool]

/-- transformSchema.json:45-101. -/
def transformFrom : P → Prop :=
  ObjectOf [] false [(g!"jsonPath", jsonPath), (g!"xmlPath", xmlPath), (g!"operations", ArrayOf operation)]

/-- transformSchema.json:6-44. -/
def transform : P → Prop :=
  ObjectOf [g!"from"] true [(g!"method", IsOneOf [g!"first", g!"last", g!"concatenate"]),
    (g!"methodOptions", ObjectOf [] false [(g!"concatenateDelimiter", IsText)]), (g!"from", ArrayOf transformFrom)]

/-- transformSchema.json:461-471: an instance of a schema; transforms for other identifiers are not described. -/
def instanceTransform (q : P) : Prop :=
  ∀ t, q.key g!"transform" = some t → ObjectOf [] false [(g!"cumulo", transform), (g!"presentationv4", transform)] t

end JT.Published
