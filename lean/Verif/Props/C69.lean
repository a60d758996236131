import Verif.Model.Graphql
import Verif.Props.C56Flat
/- C63, C69: the fields of each GraphQL type. -/
namespace JT.Spec
open Gql (GField GObject BuildType)

/-- The GraphQL name of the type of an object below the root, from the names of the properties that lead to it: the type names are put together on the way down and
may be replaced at each step. -/
def gqlName (title : Str → Str) (rename : GMap Str) (root : Str) (ks : List Str) : Str :=
  ks.foldl (fun n k => (GMap.get (n ++ title k) rename).getD (n ++ title k)) (title root)

/-- The type of a field for an object. -/
def gqlObjectType (name : Str) (i : Instance) : Str := if i.properties.getD [] = [] then g!"Any" else name

/-- A string with the format for times. -/
def IsTime (i : Instance) (t : Str) : Prop := t = g!"string" ∧ i.format = g!"date-time"

instance (i : Instance) (t : Str) : Decidable (IsTime i t) := inferInstanceAs (Decidable (_ ∧ _))

/-- A type that is neither of objects nor of arrays. -/
def NoParts (t : Str) : Prop := t ≠ g!"object" ∧ t ≠ g!"array"

/-- The element type named by the items of an array, if any, is the type of the field, unless the array itself names one. -/
def itemTarget (pointers required : Bool) (i j : Instance) : Str :=
  if i.target = [] ∧ j.target ≠ [] then g!"[" ++ j.target ++ g!"]" ++ (if pointers = true ∧ required = false then [] else g!"!") else i.target

/-- `GqlField title rename pointers required name k raw f`: the field for the property `k` with schema `raw` is `f`.  `required` says whether the object requires it, and
`name` is the name of the type for it. -/
inductive GqlField (title : Str → Str) (rename : GMap Str) (pointers required : Bool) (name k : Str) : P → GField → Prop where
  | leaf {raw : P} {i : Instance} {t : Str} : decodeInstance false raw = .ok i → TypeIs i t → NoParts t →
      GqlField title rename pointers required name k raw
        { arguments := i.graphQLArguments, array := false, arrayNullable := false, description := i.description, jsonName := k, jsonType := leafType i t,
          name := goName title rename k, nullable := decide (g!"null" ∈ i.type ∨ IsTime i t), target := i.target }
  | object {raw : P} {i : Instance} : decodeInstance false raw = .ok i → TypeIs i g!"object" →
      GqlField title rename pointers required name k raw
        { arguments := i.graphQLArguments, array := false, arrayNullable := false, description := i.description, jsonName := k, jsonType := gqlObjectType name i,
          name := goName title rename k, nullable := false, target := i.target }
  | leaves {raw items : P} {i j : Instance} {t : Str} : decodeInstance false raw = .ok i → TypeIs i g!"array" → i.items = some items →
      decodeInstance false items = .ok j → TypeIs j t → NoParts t →
      GqlField title rename pointers required name k raw
        { arguments := i.graphQLArguments, array := true, arrayNullable := false, description := i.description, jsonName := k, jsonType := leafType j t,
          name := goName title rename k, nullable := decide (IsTime j t), target := itemTarget pointers required i j }
  | objects {raw items : P} {i j : Instance} : decodeInstance false raw = .ok i → TypeIs i g!"array" → i.items = some items →
      decodeInstance false items = .ok j → TypeIs j g!"object" →
      GqlField title rename pointers required name k raw
        { arguments := i.graphQLArguments, array := true, arrayNullable := false, description := i.description, jsonName := k, jsonType := gqlObjectType name j,
          name := goName title rename k, nullable := false, target := itemTarget pointers required i j }

/-- The name of the field with the length of a list. -/
def totalOf (title : Str → Str) (rename : GMap Str) (k : Str) : Str := g!"total" ++ goName title rename k

/-- A property with a list. -/
def IsArray (raw : P) : Prop := ∃ r, instNode raw = some (.array r)

/-- What is said about the length of a list, from the name of its Go field. -/
def totalSentence (field : Str) : Str :=
  g!"The total length of the " ++ field ++ g!" list at this same level in the data, this number is unaffected by filtering."

/-- The description of the field with the length of a list, from the description of the list: it is deprecated like the list. -/
inductive TotalText (field : Str) : Str → Str → Prop where
  | plain {d : Str} : ¬ g!"DEPRECATED:" <+: d → TotalText field d (totalSentence field)
  | deprecated {line : Str} : '\n' ∉ line → TotalText field (g!"DEPRECATED:" ++ line) (g!"DEPRECATED:" ++ line ++ '\n' :: totalSentence field)
  | deprecatedMore {line more : Str} : '\n' ∉ line → TotalText field (g!"DEPRECATED:" ++ line ++ '\n' :: more) (g!"DEPRECATED:" ++ line ++ '\n' :: totalSentence field)

/-- The field with the length of a list with a description: an integer that is not null. -/
def IsTotal (title : Str → Str) (field description name : Str) (f : GField) : Prop :=
  f.jsonName = name ∧ f.jsonType = g!"integer" ∧ f.array = false ∧ f.nullable = false ∧ f.target = [] ∧ f.arguments = [] ∧ f.name = title name ∧
    TotalText field description f.description

/-- `GqlFields title rename pointers rq name m o`: the object has a field for each property, one for the length of each list, and no others; the required names are
those of the schema and the lengths. -/
structure GqlFields (title : Str → Str) (rename : GMap Str) (pointers : Bool) (rq : List Str) (name : Str → Str) (m : GMap P) (o : GObject) : Prop where
  sorted : GMap.Sorted o.fields
  each : ∀ k q, GMap.get k m = some q → ∃ f, GMap.get k o.fields = some f ∧ GqlField title rename pointers (decide (k ∈ rq)) (name k) k q f
  total : ∀ k q, GMap.get k m = some q → IsArray q → ∃ i f, decodeInstance false q = .ok i ∧ GMap.get (totalOf title rename k) o.fields = some f ∧
    IsTotal title ((GMap.get k rename).getD k) i.description (totalOf title rename k) f
  only : ∀ κ f, GMap.get κ o.fields = some f → (∃ q, GMap.get κ m = some q) ∨ ∃ k q, GMap.get k m = some q ∧ IsArray q ∧ κ = totalOf title rename k
  required : ∀ κ, κ ∈ o.required ↔ κ ∈ rq ∨ ∃ k q, GMap.get k m = some q ∧ IsArray q ∧ κ = totalOf title rename k

/-- What is said about a type as a whole: its Go name, its description and that it is an interface if it is the one of a schema with alternatives. -/
inductive GqlHead (title : Str → Str) (name : Str) (schema : Instance) : List Seg → GObject → Prop where
  | root {o : GObject} : o.name = name → o.description = schema.description → (o.buildType = if schema.oneOf = [] then .type else .interface) → o.implements = [] →
      GqlHead title name schema [] o
  | inner {l : List Seg} {q : P} {i : Instance} {o : GObject} : SchemaAt instNode ⟨schema.properties, schema.items⟩ l q → decodeInstance false q = .ok i →
      o.name = Flat.keyOf title name l → o.description = i.description → o.buildType ≠ .interface → o.implements = [] → GqlHead title name schema l o

/-- The objects that get a type: those with properties that are not looked up elsewhere, and are not part of one that is. -/
inductive Written (sc : Schema) : List Seg → Prop where
  | root : Written sc []
  | inner {l s : List Seg} {k : Str} {q : P} {i : Instance} : Written sc l → s = [] ∨ s = [.star] → SchemaAt instNode sc (l ++ .key k :: s) q →
      decodeInstance false q = .ok i → g!"object" ∈ i.type → i.properties.getD [] ≠ [] → i.target = [] → Written sc (l ++ .key k :: s)

end JT.Spec

namespace JT.Gql
open Spec Flat
open Gen (splitJSONPath oneType walk_iso trace_nil trace_one trace_two node_array node_not_array node_object mem_get mem_type oneType_is)

/-- The GraphQL name for a property of an object. -/
def childName (title : Str → Str) (args : Args) (top : Bool) (o : GObject) (k : Str) : Str :=
  let n := (if top then title o.jsonName else o.jsonName) ++ title k
  (GMap.get n args.typeNames).getD n

/-- The instance that is added for a property. -/
def flatInst (key : Str) (i : Instance) : Instance :=
  if g!"object" ∈ i.type then { Instance.zero with description := i.description, type := [key], target := i.target, graphQLArguments := i.graphQLArguments } else i

def flatTypes (gqlName : Str) (i : Instance) : Option (List Str) := if g!"object" ∈ i.type then some (objectTypes gqlName i) else none

/-- Types, as they are built by walking. -/
def kind (title : Str → Str) (args : Args) : Flat.Kind GObject :=
  ⟨GObject.name, fun top o k key i => objectOf key (childName title args top o k) o i,
    fun top o k key i => (addLeaf title args (flatTypes (childName title args top o k) i) (flatInst key i) k o.fields o.required).map fun fr =>
      { o with fields := fr.1, required := fr.2 }⟩

theorem walkFunc_eq (title : Str → Str) (args : Args) (path : Str) (i : Instance) (g : GObject × GMap GObject) :
    walkFunc title args path i ⟨g.1, g.2⟩ = (walk title (kind title args) path i g).map fun r => ⟨r.1, r.2⟩ := by
  unfold walkFunc walk kind
  simp only
  cases (splitJSONPath path).getLast? with
  | none => rfl
  | some name =>
    simp only
    cases GMap.get (title g.1.name :: (splitJSONPath path).map title).dropLast.flatten g.2 with
    | none =>
      simp only [Option.getD_none, Option.isNone_none, if_true, typeName]
      unfold flatInst flatTypes childName
      simp only [if_true, decide_eq_true_eq]
      cases addLeaf title args _ _ name g.1.fields g.1.required <;> rfl
    | some s =>
      simp only [Option.getD_some, Option.isNone_some, Bool.false_eq_true, if_false, typeName]
      unfold flatInst flatTypes childName
      simp only [Bool.false_eq_true, if_false, decide_eq_true_eq]
      cases addLeaf title args _ _ name s.fields s.required with
      | ok fs => simp only [Res.map]; split <;> rfl
      | err => rfl
      | panic => rfl

theorem kind_stable (title : Str → Str) (args : Args) : Stable (kind title args) where
  name := by
    intro t o n k i o' h
    obtain ⟨fs, _, rfl⟩ := Res.map_eq_ok.1 h
    rfl
  new := by
    intro t o n k i o' h
    obtain ⟨fs, _, rfl⟩ := Res.map_eq_ok.1 h
    intros
    rfl

variable {title : Str → Str} {args : Args}

/-! ### One property -/

/-- The field as it is stored. -/
def finish (inst : Instance) (f : GField) : GField :=
  if f.jsonType = g!"array" then { f with jsonType := [], nullable := false, array := true, arrayNullable := false }
  else if f.jsonType = g!"object" ∧ (inst.properties.getD []).length = 0 then { f with jsonType := g!"Any" }
  else f

theorem store_get {fn k : Str} {inst : Instance} {f : GField} {fs : GMap GField} {rq : List Str} :
    GMap.get k (store title fn k inst f fs rq).1 = some (finish inst f) ∧ (fs.Sorted → (store title fn k inst f fs rq).1.Sorted) ∧
    (f.jsonType ≠ g!"array" → (∀ κ, κ ≠ k → GMap.get κ (store title fn k inst f fs rq).1 = GMap.get κ fs) ∧ (store title fn k inst f fs rq).2 = rq) ∧
    (f.jsonType = g!"array" → (∀ κ, κ ≠ k → κ ≠ g!"total" ++ f.name → GMap.get κ (store title fn k inst f fs rq).1 = GMap.get κ fs) ∧
      (g!"total" ++ f.name ≠ k → GMap.get (g!"total" ++ f.name) (store title fn k inst f fs rq).1 =
        some (totalField title (g!"total" ++ f.name) (totalDescription fn f.description))) ∧
      (store title fn k inst f fs rq).2 = (g!"total" ++ f.name) :: rq) := by
  unfold store finish
  by_cases h1 : f.jsonType = g!"array"
  · simp only [if_pos h1]
    refine ⟨GMap.get_set_self _ _ _, fun h => GMap.sorted_set (GMap.sorted_set h), fun h => absurd h1 h, fun _ => ⟨fun κ h2 h3 => ?_, fun h2 => ?_, trivial⟩⟩
    · rw [GMap.get_set_ne h2, GMap.get_set_ne h3]
    · rw [GMap.get_set_ne h2, GMap.get_set_self]
  · simp only [if_neg h1]
    split
    · exact ⟨GMap.get_set_self _ _ _, fun h => GMap.sorted_set h, fun _ => ⟨fun κ h2 => GMap.get_set_ne h2 _ _, rfl⟩, fun h => absurd h h1⟩
    · exact ⟨GMap.get_set_self _ _ _, fun h => GMap.sorted_set h, fun _ => ⟨fun κ h2 => GMap.get_set_ne h2 _ _, rfl⟩, fun h => absurd h h1⟩

/-- What the field is before it is stored. -/
def before (title : Str → Str) (args : Args) (gqlType : Option (List Str)) (inst : Instance) (k : Str) (x : Option GField) (required : List Str) : Res GField :=
  match oneType (gqlType.getD inst.type) [] with
  | .err => .err
  | .panic => .panic
  | .ok jsonType => match x with
    | none => .ok (dateTime inst (newField title ((GMap.get k args.fieldNames).getD k) k jsonType inst))
    | some e => (again args.pointers required jsonType inst e).map (dateTime inst)

theorem addLeaf_eq (gqlType : Option (List Str)) (inst : Instance) (k : Str) (fs : GMap GField) (rq : List Str) :
    addLeaf title args gqlType inst k fs rq = (before title args gqlType inst k (GMap.get k fs) rq).map fun f =>
      store title ((GMap.get k args.fieldNames).getD k) k inst f fs rq := by
  unfold addLeaf before
  cases oneType (gqlType.getD inst.type) [] with
  | err => rfl
  | panic => rfl
  | ok t =>
    simp only
    cases GMap.get k fs with
    | none => rfl
    | some e => simp only; cases again args.pointers rq t inst e <;> rfl

theorem dateTime_leaf {i : Instance} {t : Str} (ht : TypeIs i t) {f : GField} (hf : f.jsonType = t) :
    dateTime i f = { f with jsonType := leafType i t, nullable := f.nullable || decide (IsTime i t) } := by
  have hm := mem_type ht (by decide : g!"string" ≠ g!"null")
  unfold dateTime leafType
  by_cases h : t = g!"string" ∧ i.format = g!"date-time"
  · rw [if_pos ⟨hm.2 h.1.symm, h.2⟩, if_pos h, decide_eq_true (show IsTime i t from h), Bool.or_true]
  · rw [if_neg (fun h' => h ⟨(hm.1 h'.1).symm, h'.2⟩)]
    rw [if_neg h, decide_eq_false (show ¬ IsTime i t from h), Bool.or_false, ← hf]

theorem leafType_parts {i : Instance} {t : Str} (h : NoParts t) : leafType i t ≠ g!"array" ∧ leafType i t ≠ g!"object" := by
  unfold leafType
  split
  · exact ⟨by decide, by decide⟩
  · exact ⟨h.2, h.1⟩

theorem dateTime_object {key : Str} {i : Instance} (ho : g!"object" ∈ i.type) (f : GField) : dateTime (flatInst key i) f = f := by
  unfold dateTime flatInst
  rw [if_pos ho, if_neg]
  rintro ⟨_, h⟩
  cases h

/-- A name that is not taken for a type. -/
def FreeName (name : Str) : Prop := name ∉ [g!"null", g!"array", g!"object"]

theorem oneType_object {i : Instance} {name : Str} (hf : FreeName name) (ho : g!"object" ∈ i.type) (inst : Instance) :
    oneType ((flatTypes name i).getD inst.type) [] = .ok (gqlObjectType name i) := by
  unfold flatTypes objectTypes gqlObjectType
  rw [if_pos ho]
  have hl : (i.properties.getD []).length = 0 ↔ i.properties.getD [] = [] := List.length_eq_zero_iff
  apply oneType_is
  by_cases h1 : i.properties.getD [] = []
  · rw [if_pos h1]
    simp only [Option.getD_some]
    rw [if_pos (hl.2 h1)]
    decide
  · rw [if_neg h1]
    simp only [Option.getD_some]
    rw [if_neg (fun h => h1 (hl.1 h))]
    unfold FreeName at hf
    simp only [List.mem_cons, List.not_mem_nil, or_false, not_or] at hf
    split
    · rw [List.filter_cons_of_pos (by simpa using hf.1), List.filter_cons_of_neg (by simp)]
      rfl
    · rw [List.filter_cons_of_pos (by simpa using hf.1)]
      rfl

theorem gqlObjectType_free {i : Instance} {name : Str} (hf : FreeName name) : gqlObjectType name i ≠ g!"array" ∧ gqlObjectType name i ≠ g!"object" := by
  unfold FreeName at hf
  simp only [List.mem_cons, List.not_mem_nil, or_false, not_or] at hf
  unfold gqlObjectType
  split
  · exact ⟨by decide, by decide⟩
  · exact hf.2

/-- The field for an array comes before its items. -/
def pending (title : Str → Str) (args : Args) (k : Str) (i : Instance) : GField :=
  { arguments := i.graphQLArguments, array := true, arrayNullable := false, description := i.description, jsonName := k, jsonType := [],
    name := goName title args.fieldNames k, nullable := false, target := i.target }

/-- Which field the first call for a property gives. -/
theorem first_call {rq : List Str} {k key name : Str} {i : Instance} {t : Str} (ht : TypeIs i t) (hf : t = g!"object" → FreeName name ∧ key ≠ g!"null") :
    ∃ f, before title args (flatTypes name i) (flatInst key i) k none rq = .ok f ∧ f.name = goName title args.fieldNames k ∧ (f.jsonType = g!"array" ↔ t = g!"array") ∧
      finish (flatInst key i) f =
        if t = g!"array" then pending title args k i
        else if t = g!"object" then
          { arguments := i.graphQLArguments, array := false, arrayNullable := false, description := i.description, jsonName := k, jsonType := gqlObjectType name i,
            name := goName title args.fieldNames k, nullable := false, target := i.target }
        else
          { arguments := i.graphQLArguments, array := false, arrayNullable := false, description := i.description, jsonName := k, jsonType := leafType i t,
            name := goName title args.fieldNames k, nullable := decide (g!"null" ∈ i.type ∨ IsTime i t), target := i.target } := by
  unfold before
  by_cases h1 : t = g!"object"
  · subst h1
    have ho : g!"object" ∈ i.type := (mem_type ht (by decide)).2 rfl
    obtain ⟨hn, hk⟩ := hf rfl
    obtain ⟨g1, g2⟩ := gqlObjectType_free (i := i) hn
    rw [oneType_object hn ho]
    simp only [dateTime_object ho]
    refine ⟨_, rfl, rfl, ⟨fun h => absurd h g1, fun h => absurd h (by decide)⟩, ?_⟩
    unfold finish
    simp only [newField, if_neg g1, g2, false_and, if_false, if_true]
    rw [if_neg (by decide)]
    unfold flatInst
    simp only [if_pos ho, List.mem_cons, List.not_mem_nil, or_false, Ne.symm hk, decide_false]
    rfl
  · have ho : g!"object" ∉ i.type := fun h => h1 ((mem_type ht (by decide)).1 h).symm
    have hfi : flatInst key i = i := by unfold flatInst; rw [if_neg ho]
    have hft : flatTypes name i = none := by unfold flatTypes; rw [if_neg ho]
    rw [hfi, hft, Option.getD_none, oneType_is ht]
    simp only
    by_cases h2 : t = g!"array"
    · subst h2
      have := dateTime_leaf ht (f := newField title ((GMap.get k args.fieldNames).getD k) k g!"array" i) rfl
      rw [show (decide (IsTime i g!"array")) = false from decide_eq_false (fun h => absurd h.1 (by decide))] at this
      rw [show leafType i g!"array" = g!"array" from if_neg (fun h => absurd h.1 (by decide))] at this
      refine ⟨_, rfl, by rw [this]; rfl, by rw [this], ?_⟩
      rw [this, if_pos rfl]
      rfl
    · have hp : NoParts t := ⟨h1, h2⟩
      obtain ⟨g1, g2⟩ := leafType_parts (i := i) hp
      have := dateTime_leaf ht (f := newField title ((GMap.get k args.fieldNames).getD k) k t i) rfl
      refine ⟨_, rfl, by rw [this]; rfl, by rw [this]; exact ⟨fun h => absurd h g1, fun h => absurd h h2⟩, ?_⟩
      rw [this, if_neg h2, if_neg h1]
      unfold finish
      simp only [g1, g2, if_false, false_and]
      simp only [newField, Bool.decide_or]
      rfl

/-- Which field the second call for a property gives. -/
theorem second_call {rq : List Str} {k key name : Str} {i j : Instance} {t : Str} (ht : TypeIs j t) (hf : t = g!"object" → FreeName name ∧ key ≠ g!"null")
    (ha : t ≠ g!"array") :
    ∃ f, before title args (flatTypes name j) (flatInst key j) k (some (pending title args k i)) rq = .ok f ∧ f.jsonType ≠ g!"array" ∧
      finish (flatInst key j) f =
        { pending title args k i with
          jsonType := if t = g!"object" then gqlObjectType name j else leafType j t,
          nullable := if t = g!"object" then false else decide (IsTime j t),
          target := itemTarget args.pointers (decide (k ∈ rq)) i j } := by
  unfold before
  have htg : ∀ (jt : Str) (inst : Instance), inst.target = j.target → again args.pointers rq jt inst (pending title args k i) =
      .ok { pending title args k i with jsonType := jt, target := itemTarget args.pointers (decide (k ∈ rq)) i j } := by
    intro jt inst hi
    unfold again itemTarget
    simp only [pending, if_true, hi, Bool.false_eq_true, false_or, decide_eq_false_iff_not]
    split <;> rfl
  by_cases h1 : t = g!"object"
  · subst h1
    have ho : g!"object" ∈ j.type := (mem_type ht (by decide)).2 rfl
    obtain ⟨hn, hk⟩ := hf rfl
    obtain ⟨g1, g2⟩ := gqlObjectType_free (i := j) hn
    rw [oneType_object hn ho]
    simp only
    rw [htg _ _ (by unfold flatInst; rw [if_pos ho])]
    simp only [Res.map, dateTime_object ho, if_true]
    refine ⟨_, rfl, g1, ?_⟩
    unfold finish
    simp only [g1, g2, if_false, false_and]
    rfl
  · have ho : g!"object" ∉ j.type := fun h => h1 ((mem_type ht (by decide)).1 h).symm
    have hfi : flatInst key j = j := by unfold flatInst; rw [if_neg ho]
    have hft : flatTypes name j = none := by unfold flatTypes; rw [if_neg ho]
    rw [hfi, hft, Option.getD_none, oneType_is ht]
    simp only
    rw [htg _ _ rfl]
    simp only [Res.map, if_neg h1]
    obtain ⟨g1, g2⟩ := leafType_parts (i := j) ⟨h1, ha⟩
    have := dateTime_leaf ht (f := { pending title args k i with jsonType := t, target := itemTarget args.pointers (decide (k ∈ rq)) i j }) rfl
    refine ⟨_, rfl, by rw [this]; exact g1, ?_⟩
    rw [this]
    unfold finish
    simp only [g1, g2, if_false, false_and]
    simp only [pending, Bool.false_or]

/-! ### One object -/

/-- The conditions on a schema. -/
structure Conditions (title : Str → Str) (args : Args) (name gname : Str) (sc : Schema) : Prop where
  plain : Plain title name sc
  one : OneTypeEach sc
  items : PlainItems sc
  free : ∀ l q, SchemaAt instNode sc l q → IsObject q → FreeName (gqlName title args.typeNames gname (names l)) ∧ keyOf title name l ≠ g!"null"
  totals : ∀ l m, PropsAt sc l m → ∀ k q, (k, q) ∈ m → IsArray q → (∀ q', (totalOf title args.fieldNames k, q') ∉ m) ∧
    ∀ k' q', (k', q') ∈ m → IsArray q' → totalOf title args.fieldNames k' = totalOf title args.fieldNames k → k' = k

variable {name gname : Str} {sc : Schema}

/-- The name of the object at a position. -/
def nameAt (title : Str → Str) (args : Args) (gname : Str) (l : List Seg) : Str := if l = [] then gname else gqlName title args.typeNames gname (names l)

theorem gqlName_snoc (rename : GMap Str) (root : Str) (ks : List Str) (k : Str) :
    gqlName title rename root (ks ++ [k]) = (GMap.get (gqlName title rename root ks ++ title k) rename).getD (gqlName title rename root ks ++ title k) := by
  unfold gqlName
  rw [List.foldl_append]
  rfl

theorem childName_at {l : List Seg} {o : GObject} (h : o.jsonName = nameAt title args gname l) (k : Str) :
    childName title args (l == []) o k = gqlName title args.typeNames gname (names (l ++ [.key k])) := by
  rw [names_append, show names [Seg.key k] = [k] from rfl, gqlName_snoc]
  unfold childName
  rw [h]
  unfold nameAt
  cases l with
  | nil => rfl
  | cons a b => simp

/-- What stays the same while fields are added. -/
structure Holds (title : Str → Str) (args : Args) (m : GMap P) (o0 o : GObject) : Prop where
  same : o = { o0 with fields := o.fields, required := o.required }
  sorted : o.fields.Sorted
  required : ∀ k q, (k, q) ∈ m → (k ∈ o.required ↔ k ∈ o0.required)
  fields : ∀ k q f, (k, q) ∈ m → GMap.get k o.fields = some f → f.name = goName title args.fieldNames k ∧ f.jsonType ≠ g!"array"

theorem child_prop {vs : List (List Seg × P)} (hv : Visits instNode sc vs true) {l : List Seg} {m : GMap P} (hm : PropsAt sc l m)
    {c : (Str × Bool) × P} (hc : c ∈ children l vs) : SchemaAt instNode sc (l ++ .key c.1.1 :: (if c.1.2 then [.star] else [])) c.2 ∧ ∃ q, (c.1.1, q) ∈ m := by
  have ha := hv.sound _ (mem_children.1 hc)
  refine ⟨ha, ?_⟩
  cases hb : c.1.2 with
  | false => rw [hb] at ha; exact ⟨_, (prop_at hv hm).1 ha⟩
  | true =>
    rw [hb] at ha
    simp only [if_true] at ha
    rw [show l ++ [Seg.key c.1.1, .star] = (l ++ [.key c.1.1]) ++ [.star] by simp] at ha
    obtain ⟨q, h3, _⟩ := ha.above (by simp)
    exact ⟨q, (prop_at hv hm).1 h3⟩

theorem dateTime_name (i : Instance) (f : GField) : (dateTime i f).name = f.name := by unfold dateTime; split <;> rfl

theorem dateTime_array {i : Instance} {f : GField} (h : (dateTime i f).jsonType = g!"array") : f.jsonType = g!"array" := by
  unfold dateTime at h
  split at h
  · exact absurd h (by simp)
  · exact h

theorem again_ok {p : Bool} {rq : List Str} {jt : Str} {inst : Instance} {e f : GField} (h : again p rq jt inst e = .ok f) :
    f.name = e.name ∧ f.jsonType = if e.jsonType = [] then jt else e.jsonType := by
  unfold again at h
  split at h
  · cases h
    split <;> split <;> exact ⟨rfl, rfl⟩
  · cases h

theorem finish_name (i : Instance) (f : GField) : (finish i f).name = f.name := by unfold finish; split <;> (try split) <;> rfl

theorem finish_description (i : Instance) (f : GField) : (finish i f).description = f.description := by unfold finish; split <;> (try split) <;> rfl

theorem totalDescription_text (field d : Str) : TotalText field d (totalDescription field d) := by
  unfold totalDescription
  simp only
  split
  · rename_i h
    obtain ⟨rest, rfl⟩ : ∃ rest, d = g!"DEPRECATED:" ++ rest := by
      obtain ⟨r, hr⟩ := List.isPrefixOf_iff_prefix.1 h
      exact ⟨r, hr.symm⟩
    by_cases hn : '\n' ∈ rest
    · obtain ⟨line, more, rfl, hl⟩ := List.eq_append_cons_of_mem hn
      have hnl : '\n' ∉ g!"DEPRECATED:" ++ line := fun h' => (List.mem_append.1 h').elim (fun h'' => absurd h'' (by decide)) hl
      rw [← List.append_assoc, splitC_append _ _ _ hnl]
      exact (by simpa [totalSentence] using TotalText.deprecatedMore (field := field) (more := more) hl)
    · have hnl : '\n' ∉ g!"DEPRECATED:" ++ rest := fun h' => (List.mem_append.1 h').elim (fun h'' => absurd h'' (by decide)) hn
      rw [splitC_no _ _ hnl]
      exact (by simpa [totalSentence] using TotalText.deprecated (field := field) hn)
  · rename_i h
    exact .plain fun h' => h (List.isPrefixOf_iff_prefix.2 h')

theorem finish_array (i : Instance) (f : GField) : (finish i f).jsonType ≠ g!"array" := by
  unfold finish
  split
  · simp
  · split
    · simp
    · assumption

theorem before_ok {ty : Option (List Str)} {inst : Instance} {k : Str} {x : Option GField} {rq : List Str} {f : GField}
    (h : before title args ty inst k x rq = .ok f) : ∃ jt, oneType (ty.getD inst.type) [] = .ok jt ∧
      (∀ e, x = some e → f.name = e.name) ∧ (x = none → f.name = goName title args.fieldNames k) ∧
      (f.jsonType = g!"array" → (∀ e, x = some e → e.jsonType ≠ g!"array") → jt = g!"array") := by
  unfold before at h
  split at h
  · cases h
  · cases h
  · rename_i jt hjt
    refine ⟨jt, hjt, ?_⟩
    split at h
    · cases h
      exact ⟨fun _ h => (by cases h), fun _ => dateTime_name _ _, fun h _ => dateTime_array h⟩
    · rename_i e
      obtain ⟨f', h1, rfl⟩ := Res.map_eq_ok.1 h
      obtain ⟨h2, h3⟩ := again_ok h1
      refine ⟨fun e' he => (by cases he; rw [dateTime_name, h2]), fun h => (by cases h), fun h4 h5 => ?_⟩
      have := dateTime_array h4
      rw [h3] at this
      split at this
      · exact this
      · exact absurd this (h5 e rfl)

theorem call (hc : Conditions title args name gname sc) {vs : List (List Seg × P)} (hv : Visits instNode sc vs true) {l : List Seg} {m : GMap P} (hm : PropsAt sc l m)
    {o0 s t : GObject} (hj : o0.jsonName = nameAt title args gname l) (hh : Holds title args m o0 s) {c : (Str × Bool) × P} (hcm : c ∈ children l vs)
    (h : childStep title (kind title args) name l c s = .ok t) :
    Holds title args m o0 t ∧ ∃ i f, decodeInstance false c.2 = .ok i ∧
      before title args (flatTypes (gqlName title args.typeNames gname (names (l ++ [.key c.1.1]))) i) (flatInst (keyOf title name (l ++ [.key c.1.1])) i) c.1.1
        (GMap.get c.1.1 s.fields) s.required = .ok f ∧
      GMap.get c.1.1 t.fields = some (finish (flatInst (keyOf title name (l ++ [.key c.1.1])) i) f) ∧
      (f.jsonType ≠ g!"array" → (∀ κ, κ ≠ c.1.1 → GMap.get κ t.fields = GMap.get κ s.fields) ∧ t.required = s.required) ∧
      (f.jsonType = g!"array" → (∃ q, (c.1.1, q) ∈ m ∧ IsArray q) ∧
        (∀ κ, κ ≠ c.1.1 → κ ≠ totalOf title args.fieldNames c.1.1 → GMap.get κ t.fields = GMap.get κ s.fields) ∧
        (∃ tf, GMap.get (totalOf title args.fieldNames c.1.1) t.fields = some tf ∧
          IsTotal title ((GMap.get c.1.1 args.fieldNames).getD c.1.1) f.description (totalOf title args.fieldNames c.1.1) tf) ∧
        t.required = totalOf title args.fieldNames c.1.1 :: s.required) := by
  obtain ⟨ha, q0, hq0⟩ := child_prop hv hm hcm
  obtain ⟨i, ty, hd, ht, hp1, hp2⟩ := hc.one _ _ ha
  unfold childStep at h
  rw [hd] at h
  simp only [kind] at h
  obtain ⟨fr, h1, rfl⟩ := Res.map_eq_ok.1 h
  have hsj : s.jsonName = nameAt title args gname l := by rw [hh.same]; exact hj
  rw [childName_at hsj, addLeaf_eq] at h1
  obtain ⟨f, h2, rfl⟩ := Res.map_eq_ok.1 h1
  obtain ⟨jt, hjt, b1, b2, b3⟩ := before_ok h2
  obtain ⟨g1, g2, g3, g4⟩ := store_get (title := title) (fn := (GMap.get c.1.1 args.fieldNames).getD c.1.1) (k := c.1.1)
    (inst := flatInst (keyOf title name (l ++ [.key c.1.1])) i) (f := f) (fs := s.fields) (rq := s.required)
  have hname : f.name = goName title args.fieldNames c.1.1 := by
    cases hx : GMap.get c.1.1 s.fields with
    | none => exact b2 hx
    | some e => rw [b1 e hx]; exact (hh.fields _ _ _ hq0 hx).1
  have harr : f.jsonType = g!"array" → ∃ q, (c.1.1, q) ∈ m ∧ IsArray q := by
    intro hf
    have hjta := b3 hf (fun e he => (hh.fields _ _ _ hq0 he).2)
    have hno : g!"object" ∉ i.type := by
      intro ho
      have hto : ty = g!"object" := ((mem_type ht (by decide)).1 ho).symm
      have hfr := (hc.free _ _ ha (node_object hd (hto ▸ ht) (hp1 hto))).1
      have hnm : names (l ++ .key c.1.1 :: (if c.1.2 then [.star] else [])) = names (l ++ [.key c.1.1]) := by
        cases c.1.2 <;> simp [names_append, names]
      rw [hnm] at hfr
      rw [oneType_object hfr ho] at hjt
      cases hjt
      exact (gqlObjectType_free hfr).1 hjta
    rw [show flatTypes _ i = none by unfold flatTypes; rw [if_neg hno], Option.getD_none, show flatInst _ i = i by unfold flatInst; rw [if_neg hno], oneType_is ht] at hjt
    cases hjt
    subst hjta
    cases hb : c.1.2 with
    | true =>
      rw [hb] at ha
      simp only [if_true] at ha
      rw [show l ++ [Seg.key c.1.1, .star] = (l ++ [.key c.1.1]) ++ [.star] by simp] at ha
      exact absurd ((mem_type ht (by decide)).2 rfl) (hc.items _ _ ha i hd).1
    | false =>
      rw [hb] at ha
      refine ⟨c.2, (prop_at hv hm).1 ha, ?_⟩
      obtain ⟨items, hi⟩ := Option.ne_none_iff_exists'.1 (hp2 rfl)
      refine ⟨items, ?_⟩
      unfold instNode
      rw [hd]
      have h2 : g!"array" ∈ i.type := (mem_type ht (by decide)).2 rfl
      simp only [hno, h2, if_true, if_false, hi, Option.map_some]
  have htot : g!"total" ++ f.name = totalOf title args.fieldNames c.1.1 := by rw [hname]; rfl
  have hne : f.jsonType = g!"array" → totalOf title args.fieldNames c.1.1 ≠ c.1.1 := by
    intro hf he
    obtain ⟨q, hq, hqa⟩ := harr hf
    exact (hc.totals l m hm _ _ hq hqa).1 q (by rw [he]; exact hq)
  have hkeep : ∀ k q, (k, q) ∈ m → k ≠ c.1.1 → GMap.get k (store title ((GMap.get c.1.1 args.fieldNames).getD c.1.1) c.1.1
      (flatInst (keyOf title name (l ++ [.key c.1.1])) i) f s.fields s.required).1 = GMap.get k s.fields := by
    intro k q hk hkc
    by_cases hf : f.jsonType = g!"array"
    · refine (g4 hf).1 k hkc ?_
      rw [htot]
      intro he
      obtain ⟨q', hq', hqa'⟩ := harr hf
      exact (hc.totals l m hm _ _ hq' hqa').1 q (by rw [← he]; exact hk)
    · exact (g3 hf).1 k hkc
  refine ⟨⟨?_, g2 hh.sorted, ?_, ?_⟩, i, f, hd, h2, g1, g3, fun hf => ⟨harr hf, ?_, ?_, ?_⟩⟩
  · rw [hh.same]
  · intro k q hk
    rw [← hh.required k q hk]
    by_cases hf : f.jsonType = g!"array"
    · simp only [(g4 hf).2.2, List.mem_cons]
      constructor
      · rintro (he | he)
        · obtain ⟨q', hq', hqa'⟩ := harr hf
          exact absurd hk (by rw [he, htot]; exact (hc.totals l m hm _ _ hq' hqa').1 q)
        · exact he
      · exact .inr
    · simp only [(g3 hf).2]
  · intro k q f' hk hf'
    by_cases hkc : k = c.1.1
    · subst hkc
      simp only at hf'
      rw [g1] at hf'
      cases hf'
      exact ⟨by rw [finish_name]; exact hname, finish_array _ _⟩
    · simp only at hf'
      rw [hkeep k q hk hkc] at hf'
      exact hh.fields k q f' hk hf'
  · intro κ h3 h4
    exact (g4 hf).1 κ h3 (by rw [htot]; exact h4)
  · have := (g4 hf).2.1 (by rw [htot]; exact hne hf)
    rw [htot] at this
    exact ⟨_, this, rfl, rfl, rfl, rfl, rfl, rfl, rfl, totalDescription_text _ _⟩
  · rw [← htot]; exact (g4 hf).2.2

/-- One call for a property. -/
def OneCall (title : Str → Str) (args : Args) (rq0 : List Str) (k key tn : Str) (c : (Str × Bool) × P) (x y : Option GField) : Prop :=
  ∃ i f rq, (k ∈ rq ↔ k ∈ rq0) ∧ decodeInstance false c.2 = .ok i ∧ before title args (flatTypes tn i) (flatInst key i) k x rq = .ok f ∧ y = some (finish (flatInst key i) f)

theorem prop_trace (hc : Conditions title args name gname sc) {vs : List (List Seg × P)} (hv : Visits instNode sc vs true) {l : List Seg} {m : GMap P} (hm : PropsAt sc l m)
    {o0 o : GObject} (hj : o0.jsonName = nameAt title args gname l) (h0 : Holds title args m o0 o0) {cs : List ((Str × Bool) × P)} (hcs : ∀ c ∈ cs, c ∈ children l vs)
    (hcalls : Calls (childStep title (kind title args) name l) cs o0 o) {k : Str} {q : P} (hk : (k, q) ∈ m) :
    Holds title args m o0 o ∧ Trace (OneCall title args o0.required k (keyOf title name (l ++ [.key k])) (gqlName title args.typeNames gname (names (l ++ [.key k]))))
      (kidsOf k cs) (GMap.get k o0.fields) (GMap.get k o.fields) := by
  refine trace (fun o => GMap.get k o.fields) (Holds title args m o0) _ (fun c => decide (c.1.1 = k)) hcalls ?_ h0
  intro c hcm s t hh h
  obtain ⟨h1, i, f, h2, h3, h4, h5, h6⟩ := call hc hv hm hj hh (hcs c hcm) h
  refine ⟨h1, ?_⟩
  by_cases hkc : c.1.1 = k
  · subst hkc
    simp only [decide_true, if_true]
    exact ⟨i, f, s.required, hh.required _ _ hk, h2, h3, h4⟩
  · simp only [hkc, decide_false, Bool.false_eq_true, if_false]
    by_cases hf : f.jsonType = g!"array"
    · obtain ⟨⟨q', hq', hqa'⟩, h7, _⟩ := h6 hf
      refine h7 k (fun h => hkc h.symm) ?_
      rintro rfl
      exact (hc.totals l m hm _ _ hq' hqa').1 q hk
    · exact (h5 hf).1 k (fun h => hkc h.symm)

/-- One call for a property with a list, and the field with its length. -/
def TotalCall (title : Str → Str) (args : Args) (rq0 : List Str) (k key tn : Str) (c : (Str × Bool) × P) (x y : Option GField × Option GField × Bool) : Prop :=
  ∃ i f rq, (k ∈ rq ↔ k ∈ rq0) ∧ decodeInstance false c.2 = .ok i ∧ before title args (flatTypes tn i) (flatInst key i) k x.1 rq = .ok f ∧
    y.1 = some (finish (flatInst key i) f) ∧ (f.jsonType ≠ g!"array" → y.2 = x.2) ∧
    (f.jsonType = g!"array" → (∃ tf, y.2.1 = some tf ∧ IsTotal title ((GMap.get k args.fieldNames).getD k) f.description (totalOf title args.fieldNames k) tf) ∧
      y.2.2 = true)

theorem total_trace (hc : Conditions title args name gname sc) {vs : List (List Seg × P)} (hv : Visits instNode sc vs true) {l : List Seg} {m : GMap P} (hm : PropsAt sc l m)
    {o0 o : GObject} (hj : o0.jsonName = nameAt title args gname l) (h0 : Holds title args m o0 o0)
    (hcalls : Calls (childStep title (kind title args) name l) (children l vs) o0 o) {k : Str} {q : P} (hk : (k, q) ∈ m) (hqa : IsArray q) :
    Trace (TotalCall title args o0.required k (keyOf title name (l ++ [.key k])) (gqlName title args.typeNames gname (names (l ++ [.key k])))) (kidsOf k (children l vs))
      (GMap.get k o0.fields, GMap.get (totalOf title args.fieldNames k) o0.fields, decide (totalOf title args.fieldNames k ∈ o0.required))
      (GMap.get k o.fields, GMap.get (totalOf title args.fieldNames k) o.fields, decide (totalOf title args.fieldNames k ∈ o.required)) := by
  obtain ⟨ht1, ht2⟩ := hc.totals l m hm k q hk hqa
  refine (trace (fun o => (GMap.get k o.fields, GMap.get (totalOf title args.fieldNames k) o.fields, decide (totalOf title args.fieldNames k ∈ o.required)))
    (Holds title args m o0) _ (fun c => decide (c.1.1 = k)) hcalls ?_ h0).2
  intro c hcm s t hh h
  obtain ⟨h1, i, f, h2, h3, h4, h5, h6⟩ := call hc hv hm hj hh hcm h
  refine ⟨h1, ?_⟩
  obtain ⟨q1, hq1⟩ := (child_prop hv hm hcm).2
  by_cases hkc : c.1.1 = k
  · subst hkc
    simp only [decide_true, if_true]
    refine ⟨i, f, s.required, hh.required _ _ hk, h2, h3, h4, fun hf => ?_, fun hf => ?_⟩
    · obtain ⟨h7, h8⟩ := h5 hf
      have hne : totalOf title args.fieldNames c.1.1 ≠ c.1.1 := fun h => ht1 q (by rw [h]; exact hk)
      simp only [h7 _ hne, h8]
    · obtain ⟨_, _, h8, h9⟩ := h6 hf
      exact ⟨h8, by rw [h9]; simp⟩
  · simp only [hkc, decide_false, Bool.false_eq_true, if_false]
    have hne : totalOf title args.fieldNames k ≠ c.1.1 := fun h => ht1 q1 (by rw [h]; exact hq1)
    by_cases hf : f.jsonType = g!"array"
    · obtain ⟨⟨q', hq', hqa'⟩, h7, _, h9⟩ := h6 hf
      have hne2 : totalOf title args.fieldNames k ≠ totalOf title args.fieldNames c.1.1 := fun h => hkc (ht2 _ _ hq' hqa' h.symm)
      rw [h7 k (fun h => hkc h.symm) (fun h => (hc.totals l m hm _ _ hq' hqa').1 q (by rw [← h]; exact hk)), h7 _ hne hne2, h9]
      simp [hne2]
    · obtain ⟨h7, h8⟩ := h5 hf
      rw [h7 k (fun h => hkc h.symm), h7 _ hne, h8]

theorem other_trace (hc : Conditions title args name gname sc) {vs : List (List Seg × P)} (hv : Visits instNode sc vs true) {l : List Seg} {m : GMap P} (hm : PropsAt sc l m)
    {o0 o : GObject} (hj : o0.jsonName = nameAt title args gname l) (h0 : Holds title args m o0 o0)
    (hcalls : Calls (childStep title (kind title args) name l) (children l vs) o0 o) {κ : Str} (h1 : ∀ q, (κ, q) ∉ m)
    (h2 : ∀ k q, (k, q) ∈ m → IsArray q → κ ≠ totalOf title args.fieldNames k) :
    Holds title args m o0 o ∧ GMap.get κ o.fields = GMap.get κ o0.fields ∧ (κ ∈ o.required ↔ κ ∈ o0.required) := by
  have := trace (fun o => (GMap.get κ o.fields, decide (κ ∈ o.required)))
    (Holds title args m o0) (fun _ _ _ => True) (fun c => false) hcalls (fun c hcm s t hh h => by
      obtain ⟨h3, i, f, _, _, _, h5, h6⟩ := call hc hv hm hj hh hcm h
      refine ⟨h3, ?_⟩
      simp only [Bool.false_eq_true, if_false]
      obtain ⟨q1, hq1⟩ := (child_prop hv hm hcm).2
      have hne : κ ≠ c.1.1 := fun h => h1 q1 (by rw [h]; exact hq1)
      by_cases hf : f.jsonType = g!"array"
      · obtain ⟨⟨q', hq', hqa'⟩, h7, _, h9⟩ := h6 hf
        rw [h7 κ hne (h2 _ _ hq' hqa'), h9]
        simp [h2 _ _ hq' hqa']
      · obtain ⟨h7, h8⟩ := h5 hf
        rw [h7 κ hne, h8]) h0
  obtain ⟨h3, h4⟩ := this
  rw [List.filter_eq_nil_iff.2 (by simp)] at h4
  have := trace_nil h4
  simp only [Prod.mk.injEq, decide_eq_decide] at this
  exact ⟨h3, this⟩

theorem free_key (hc : Conditions title args name gname sc) {l : List Seg} {k : Str} {s : List Seg} (hs : s = [] ∨ s = [.star]) {q : P} {i : Instance} {t : Str}
    (ha : SchemaAt instNode sc (l ++ .key k :: s) q) (hd : decodeInstance false q = .ok i) (ht : TypeIs i t) (hp : t = g!"object" → i.properties ≠ none) :
    t = g!"object" → FreeName (gqlName title args.typeNames gname (names (l ++ [.key k]))) ∧ keyOf title name (l ++ [.key k]) ≠ g!"null" := by
  rintro rfl
  have := hc.free _ _ ha (node_object hd ht (hp rfl))
  rw [keyOf_tail title name l k hs] at this
  rcases hs with rfl | rfl
  · exact this
  · rw [show names (l ++ [Seg.key k, .star]) = names (l ++ [.key k]) by simp [names_append, names]] at this
    exact this

theorem object_fields (hc : Conditions title args name gname sc) {vs : List (List Seg × P)} (hv : Visits instNode sc vs true) {l : List Seg} {m : GMap P} (hm : PropsAt sc l m)
    (hn : (m.map Prod.fst).Nodup) {o0 o : GObject} (hj : o0.jsonName = nameAt title args gname l) (h0 : o0.fields = [])
    (hcalls : Calls (childStep title (kind title args) name l) (children l vs) o0 o) :
    GqlFields title args.fieldNames args.pointers o0.required (fun k => gqlName title args.typeNames gname (names (l ++ [.key k]))) m o := by
  have hh0 : Holds title args m o0 o0 := ⟨rfl, by rw [h0]; exact trivial, fun _ _ _ => Iff.rfl, fun k q f _ h => by rw [h0] at h; cases h⟩
  have hnil : ∀ k, GMap.get k o0.fields = none := fun k => by rw [h0]; rfl
  have htotal : ∀ k q, (k, q) ∈ m → IsArray q → (∃ i f, decodeInstance false q = .ok i ∧ GMap.get (totalOf title args.fieldNames k) o.fields = some f ∧
      IsTotal title ((GMap.get k args.fieldNames).getD k) i.description (totalOf title args.fieldNames k) f) ∧
      totalOf title args.fieldNames k ∈ o.required := by
    intro k q hk hqa
    have htr := total_trace hc hv hm hj hh0 hcalls hk hqa
    rcases kids_at hv hm (k := k) with ⟨h1, _⟩ | ⟨q', h1, h2, h3, _⟩ | ⟨q', r, h1, h2, h3, h4, h5⟩
    · exact absurd hk (h1 q)
    · obtain ⟨r, hr⟩ := hqa
      have : q' = q := by have := (mem_get hn).2 hk; rw [(mem_get hn).2 h1] at this; cases this; rfl
      subst this
      exact absurd hr (h3 r)
    · rw [h5, hnil] at htr
      obtain ⟨y, ⟨i, f, rq, _, hd, hb, hyf, _, hyes⟩, ⟨j, f', rq', _, hdj, hb', _, hno, _⟩⟩ := trace_two htr
      obtain ⟨i', t, hd', ht, hp1, hp2⟩ := hc.one _ _ h2
      simp only at hd hdj
      rw [hd] at hd'
      cases hd'
      obtain ⟨rfl, hit⟩ := node_array h3 hd ht
      obtain ⟨fa, ha1, ha2, ha3, ha4⟩ := first_call (title := title) (args := args) (rq := rq) (k := k) ht (free_key hc (.inl rfl) h2 hd ht hp1)
      simp only at hb
      rw [ha1] at hb
      cases hb
      obtain ⟨⟨tf, hy1, hy2⟩, hy3⟩ := hyes (ha3.2 rfl)
      obtain ⟨j', t', hd2, ht', hp1', hp2'⟩ := hc.one _ _ h4
      rw [hdj] at hd2
      cases hd2
      obtain ⟨n1, n2⟩ := hc.items _ _ h4 j hdj
      have m1 : t' ≠ g!"array" := fun h => n1 ((mem_type ht' (by decide)).2 h.symm)
      have hy : y.1 = some (pending title args k i) := by
        rw [hyf, ha4, if_pos rfl]
      obtain ⟨fb, hb1, hb2, hb3⟩ := second_call (title := title) (args := args) (rq := rq') (k := k) (i := i) ht'
        (free_key hc (.inr rfl) (by simpa using h4) hdj ht' hp1') m1
      rw [hy, hb1] at hb'
      cases hb'
      have h6 := hno hb2
      have h7 := congrArg Prod.fst h6
      have h8 := congrArg Prod.snd h6
      simp only at h7 h8
      rw [hy3] at h8
      have hq : q' = q := by have := (mem_get hn).2 hk; rw [(mem_get hn).2 h1] at this; cases this; rfl
      have hdesc : f.description = i.description := by rw [← finish_description, ha4, if_pos rfl]; rfl
      rw [hdesc] at hy2
      exact ⟨⟨i, tf, hq ▸ hd, by rw [h7, hy1], hy2⟩, of_decide_eq_true h8⟩
  have hholds : Holds title args m o0 o := by
    refine (trace (fun _ => ()) (Holds title args m o0) (fun _ _ _ => True) (fun c => false) hcalls (fun c hcm s t hh h => ?_) hh0).1
    exact ⟨(call hc hv hm hj hh hcm h).1, rfl⟩
  refine ⟨hholds.sorted, ?_, ?_, ?_, ?_⟩
  · intro k q hg
    have hk := (mem_get hn).1 hg
    have htr := (prop_trace hc hv hm hj hh0 (fun _ h => h) hcalls hk).2
    rcases kids_at hv hm (k := k) with ⟨h1, _⟩ | ⟨q', h1, h2, h3, h4⟩ | ⟨q', r, h1, h2, h3, h4, h5⟩
    · exact absurd hk (h1 q)
    · have : q' = q := by rw [(mem_get hn).2 h1] at hg; cases hg; rfl
      subst this
      rw [h4, hnil] at htr
      obtain ⟨i, f, rq, hrq, hd, hb, hy⟩ := trace_one htr
      obtain ⟨i', t, hd', ht, hp1, hp2⟩ := hc.one _ _ h2
      simp only at hd
      rw [hd] at hd'
      cases hd'
      obtain ⟨fa, ha1, ha2, ha3, ha4⟩ := first_call (title := title) (args := args) (rq := rq) (k := k) ht (free_key hc (.inl rfl) h2 hd ht hp1)
      rw [ha1] at hb
      cases hb
      have hna := node_not_array h3 hd ht hp2
      refine ⟨_, hy, ?_⟩
      rw [ha4, if_neg hna]
      split
      · rename_i ho
        subst ho
        exact .object hd ht
      · rename_i ho
        exact .leaf hd ht ⟨ho, hna⟩
    · have : q' = q := by rw [(mem_get hn).2 h1] at hg; cases hg; rfl
      subst this
      rw [h5, hnil] at htr
      obtain ⟨y, ⟨i, f, rq, _, hd, hb, hy1⟩, ⟨j, f', rq', hrq', hdj, hb', hy⟩⟩ := trace_two htr
      obtain ⟨i', t, hd', ht, hp1, hp2⟩ := hc.one _ _ h2
      simp only at hd hdj
      rw [hd] at hd'
      cases hd'
      obtain ⟨rfl, hit⟩ := node_array h3 hd ht
      obtain ⟨fa, ha1, ha2, ha3, ha4⟩ := first_call (title := title) (args := args) (rq := rq) (k := k) ht (free_key hc (.inl rfl) h2 hd ht hp1)
      rw [ha1] at hb
      cases hb
      rw [ha4, if_pos rfl] at hy1
      subst hy1
      obtain ⟨j', t', hd2, ht', hp1', hp2'⟩ := hc.one _ _ h4
      rw [hdj] at hd2
      cases hd2
      obtain ⟨n1, n2⟩ := hc.items _ _ h4 j hdj
      have m1 : t' ≠ g!"array" := fun h => n1 ((mem_type ht' (by decide)).2 h.symm)
      obtain ⟨fb, hb1, hb2, hb3⟩ := second_call (title := title) (args := args) (rq := rq') (k := k) (i := i) ht'
        (free_key hc (.inr rfl) (by simpa using h4) hdj ht' hp1') m1
      rw [hb1] at hb'
      cases hb'
      refine ⟨_, hy, ?_⟩
      rw [hb3, show decide (k ∈ rq') = decide (k ∈ o0.required) from decide_eq_decide.2 hrq']
      by_cases ho : t' = g!"object"
      · subst ho
        simp only [if_true]
        exact .objects hd ht hit hdj ht'
      · simp only [if_neg ho]
        exact .leaves hd ht hit hdj ht' ⟨ho, m1⟩
  · intro k q hg hqa
    exact (htotal k q ((mem_get hn).1 hg) hqa).1
  · intro κ f hf
    by_cases h1 : ∃ q, GMap.get κ m = some q
    · exact .inl h1
    · by_cases h2 : ∃ k q, GMap.get k m = some q ∧ IsArray q ∧ κ = totalOf title args.fieldNames k
      · exact .inr h2
      · have := other_trace hc hv hm hj hh0 hcalls (κ := κ) (fun q hq => h1 ⟨q, (mem_get hn).2 hq⟩) (fun k q hk hqa he => h2 ⟨k, q, (mem_get hn).2 hk, hqa, he⟩)
        rw [this.2.1, hnil] at hf
        cases hf
  · intro κ
    by_cases h2 : ∃ k q, GMap.get k m = some q ∧ IsArray q ∧ κ = totalOf title args.fieldNames k
    · obtain ⟨k, q, hk, hqa, rfl⟩ := h2
      exact ⟨fun _ => .inr ⟨k, q, hk, hqa, rfl⟩, fun _ => (htotal k q ((mem_get hn).1 hk) hqa).2⟩
    · rw [or_iff_left h2]
      by_cases h1 : ∃ q, GMap.get κ m = some q
      · obtain ⟨q, hq⟩ := h1
        exact hholds.required κ q ((mem_get hn).1 hq)
      · exact (other_trace hc hv hm hj hh0 hcalls (κ := κ) (fun q hq => h1 ⟨q, (mem_get hn).2 hq⟩)
          (fun k q hk hqa he => h2 ⟨k, q, (mem_get hn).2 hk, hqa, he⟩)).2.2

/-- Each property can be added. -/
theorem object_ok (hc : Conditions title args name gname sc) {vs : List (List Seg × P)} (hv : Visits instNode sc vs true) {l : List Seg} {m : GMap P} (hm : PropsAt sc l m)
    {o0 o : GObject} (hj : o0.jsonName = nameAt title args gname l) (h0 : o0.fields = []) {cs ds : List ((Str × Bool) × P)} {c : (Str × Bool) × P}
    (hcs : children l vs = cs ++ c :: ds) (hcalls : Calls (childStep title (kind title args) name l) cs o0 o) :
    ∃ o', childStep title (kind title args) name l c o = .ok o' := by
  have hh0 : Holds title args m o0 o0 := ⟨rfl, by rw [h0]; exact trivial, fun _ _ _ => Iff.rfl, fun k q f _ h => by rw [h0] at h; cases h⟩
  have hcm : c ∈ children l vs := by rw [hcs]; simp
  obtain ⟨q0, hq0⟩ := (child_prop hv hm hcm).2
  obtain ⟨hh, htr⟩ := prop_trace hc hv hm hj hh0 (fun x hx => by rw [hcs]; simp [hx]) hcalls hq0
  rw [show GMap.get c.1.1 o0.fields = none by rw [h0]; rfl] at htr
  have hsp : kidsOf c.1.1 (children l vs) = kidsOf c.1.1 cs ++ c :: kidsOf c.1.1 ds := by
    rw [hcs]
    unfold kidsOf
    rw [List.filter_append, List.filter_cons_of_pos (by simp)]
  suffices hx : ∃ i f, decodeInstance false c.2 = .ok i ∧
      before title args (flatTypes (gqlName title args.typeNames gname (names (l ++ [.key c.1.1]))) i) (flatInst (keyOf title name (l ++ [.key c.1.1])) i) c.1.1
        (GMap.get c.1.1 o.fields) o.required = .ok f by
    obtain ⟨i, f, hd, hb⟩ := hx
    have hsj : o.jsonName = nameAt title args gname l := by rw [hh.same]; exact hj
    unfold childStep
    rw [hd]
    simp only [kind, childName_at hsj, addLeaf_eq, hb]
    exact ⟨_, rfl⟩
  rcases kids_at hv hm (k := c.1.1) with ⟨h1, h2⟩ | ⟨q, h1, h2, h3, h4⟩ | ⟨q, r, h1, h2, h3, h4, h5⟩
  · exact absurd hq0 (h1 q0)
  · rw [hsp] at h4
    obtain ⟨hnil, hcq⟩ : kidsOf c.1.1 cs = [] ∧ c = ((c.1.1, false), q) := by
      cases hk : kidsOf c.1.1 cs with
      | nil => rw [hk] at h4; simp only [List.nil_append, List.cons.injEq] at h4; exact ⟨rfl, h4.1⟩
      | cons a b => rw [hk] at h4; simp at h4
    rw [hnil] at htr
    rw [trace_nil htr]
    obtain ⟨i, t, hd, ht, hp1, hp2⟩ := hc.one _ _ h2
    obtain ⟨f, hf, _⟩ := first_call (title := title) (args := args) (rq := o.required) (k := c.1.1) ht (free_key hc (.inl rfl) h2 hd ht hp1)
    rw [hcq]
    exact ⟨i, f, hd, hf⟩
  · rw [hsp] at h5
    obtain ⟨i, t, hd, ht, hp1, hp2⟩ := hc.one _ _ h2
    cases hk : kidsOf c.1.1 cs with
    | nil =>
      rw [hk] at h5 htr
      simp only [List.nil_append, List.cons.injEq] at h5
      obtain ⟨f, hf, _⟩ := first_call (title := title) (args := args) (rq := o.required) (k := c.1.1) ht (free_key hc (.inl rfl) h2 hd ht hp1)
      rw [trace_nil htr, h5.1]
      exact ⟨i, f, hd, hf⟩
    | cons a b =>
      rw [hk] at h5 htr
      cases b with
      | cons a' b' => have := congrArg List.length h5; simp at this
      | nil =>
        simp only [List.cons_append, List.nil_append, List.cons.injEq] at h5
        obtain ⟨rfl, hcr, _⟩ := h5
        obtain ⟨i', f, rq, _, hd', hb, hy⟩ := trace_one htr
        simp only at hd'
        rw [hd] at hd'
        cases hd'
        obtain ⟨rfl, hit⟩ := node_array h3 hd ht
        obtain ⟨fa, ha1, ha2, ha3, ha4⟩ := first_call (title := title) (args := args) (rq := rq) (k := c.1.1) ht (free_key hc (.inl rfl) h2 hd ht hp1)
        rw [ha1] at hb
        cases hb
        rw [ha4, if_pos rfl] at hy
        rw [hy, hcr]
        obtain ⟨j, t', hdj, ht', hp1', hp2'⟩ := hc.one _ _ h4
        obtain ⟨n1, n2⟩ := hc.items _ _ h4 j hdj
        have m1 : t' ≠ g!"array" := fun h => n1 ((mem_type ht' (by decide)).2 h.symm)
        obtain ⟨fb, hb1, _⟩ := second_call (title := title) (args := args) (rq := o.required) (k := c.1.1) (i := i) ht'
          (free_key hc (.inr rfl) (by simpa using h4) hdj ht' hp1') m1
        exact ⟨j, fb, hdj, hb1⟩

theorem tail_inj {l l' s s' : List Seg} {k k' : Str} (hs : s = [] ∨ s = [.star]) (hs' : s' = [] ∨ s' = [.star]) (h : l ++ .key k :: s = l' ++ .key k' :: s') :
    l = l' ∧ k = k' ∧ s = s' := by
  have h1 := congrArg List.reverse h
  rcases hs with rfl | rfl <;> rcases hs' with rfl | rfl <;> simp at h1 ⊢ <;> simp_all

/-- What the objects are when they are made. -/
theorem start_object (hsc : ∀ l q q', SchemaAt instNode sc l q → SchemaAt instNode sc l q' → q = q') {root : GObject} {l : List Seg} {o : GObject}
    (hr : root.fields = []) (hg : root.jsonName = gname) (hw : root.target = [] ∧ root.buildType ≠ .ignored) (h : Start title (kind title args) sc root l o) :
    o.fields = [] ∧ o.jsonName = nameAt title args gname l ∧ ((o.target = [] ∧ o.buildType ≠ .ignored) ↔ Written sc l) ∧
    ((l = [] ∧ o = root) ∨ ∃ q i, SchemaAt instNode sc l q ∧ decodeInstance false q = .ok i ∧ g!"object" ∈ i.type ∧
      o.name = keyOf title root.name l ∧ o.required = i.required ∧ o.description = i.description ∧ o.target = i.target ∧ o.implements = [] ∧ o.buildType ≠ .interface) := by
  induction h with
  | root => exact ⟨hr, hg, ⟨fun _ => .root, fun _ => hw⟩, .inl ⟨rfl, rfl⟩⟩
  | @child l s k q i o h1 h2 h3 h4 h5 ih =>
    have hnm : names (l ++ .key k :: s) = names (l ++ [.key k]) := by rcases h2 with rfl | rfl <;> simp [names_append, names]
    refine ⟨rfl, ?_, ?_, .inr ⟨q, i, h3, h4, h5, by rw [keyOf_tail title root.name l k h2]; rfl, rfl, rfl, rfl, rfl, ?_⟩⟩
    · unfold nameAt
      rw [if_neg (by simp), hnm]
      exact childName_at ih.2.1 k
    rotate_left
    · change (if (i.properties.getD []).length = 0 ∨ o.target ≠ [] ∨ o.buildType = .ignored then BuildType.ignored else .type) ≠ .interface
      split <;> simp
    · have e1 : (((kind title args).new (l == []) o k (keyOf title ((kind title args).name root) (l ++ [.key k])) i).target = [] ∧
          ((kind title args).new (l == []) o k (keyOf title ((kind title args).name root) (l ++ [.key k])) i).buildType ≠ .ignored) ↔
          i.target = [] ∧ i.properties.getD [] ≠ [] ∧ o.target = [] ∧ o.buildType ≠ .ignored := by
        refine and_congr Iff.rfl ?_
        change (if (i.properties.getD []).length = 0 ∨ o.target ≠ [] ∨ o.buildType = .ignored then BuildType.ignored else .type) ≠ .ignored ↔ _
        split
        · rename_i h
          rw [List.length_eq_zero_iff] at h
          constructor
          · intro h'; exact absurd rfl h'
          · rintro ⟨a1, a2, a3⟩
            rcases h with h | h | h
            · exact absurd h a1
            · exact absurd a2 h
            · exact absurd h a3
        · rename_i h
          rw [not_or, not_or, List.length_eq_zero_iff] at h
          exact ⟨fun _ => ⟨h.1, Classical.not_not.1 h.2.1, h.2.2⟩, fun _ => by simp⟩
      rw [e1, ih.2.2.1]
      constructor
      · rintro ⟨a1, a2, a3⟩
        exact .inner a3 h2 h3 h4 h5 a2 a1
      · intro hw
        generalize hp : l ++ .key k :: s = p at hw
        cases hw with
        | root => simp at hp
        | @inner l' s' k' q' i' b1 b2 b3 b4 b5 b6 b7 =>
          obtain ⟨rfl, rfl, rfl⟩ := tail_inj h2 b2 hp
          have := hsc _ _ _ h3 b3
          subst this
          rw [h4] at b4
          cases b4
          exact ⟨b7, b6, b1⟩

theorem start_props (hc : Conditions title args name gname sc) {root : GObject} {l : List Seg} {o : GObject} (h : Start title (kind title args) sc root l o)
    {k : Str} {q : P} (hk : SchemaAt instNode sc (l ++ [.key k]) q) : ∃ m, PropsAt sc l m := by
  cases h with
  | root =>
    cases hk with
    | prop hm _ _ => exact ⟨_, .root hm⟩
  | @child l s k q' i o h1 h2 h3 h4 h5 =>
    obtain ⟨i', t, hd, ht, hp, _⟩ := hc.one _ _ h3
    rw [h4] at hd
    cases hd
    have : t = g!"object" := ((mem_type ht (by decide)).1 h5).symm
    obtain ⟨m, hm⟩ := node_object h4 (this ▸ ht) (hp this)
    exact ⟨m, .inner h3 hm⟩

end JT.Gql

namespace JT
open Spec Gql Flat
open Gen (mem_type oneType_is node_object)

/-- The type for the object at a position. -/
def Gql.typeAt (title : Str → Str) (name : Str) (g : GFile) (l : List Seg) : Option GObject :=
  if l = [] then some g.root else GMap.get (keyOf title name l) g.nested

/-- **C69**, partial: generation succeeds and there is one type for each object of the schema and no other, in whatever order the schema is walked.  Each has a field
for each property of its object, one for the length of each list, and no others; it is written iff it has properties and neither it nor an object it is part of is looked
up elsewhere.  Its description is that of the object, and it is an interface exactly if it is the type of a schema with alternatives.  The conditions are that names do not interfere with the notation of paths, that each instance has one type besides null, that the items of arrays are not
arrays again and not only for GraphQL, that no two objects get the same name, that no object gets the name of a JSON type, and that the names of the fields for lengths are
neither those of properties nor equal. -/
theorem C69_partial {title lower : Str → Str} {args : Gql.Args} {schema : Instance} {name : Str} {implements : Bool}
    (hc : Gql.Conditions title args (rootNames title lower args name implements).1 (rootNames title lower args name implements).2 ⟨schema.properties, schema.items⟩)
    (sched : Sched) :
    ∃ g, newFile sched title lower args schema name implements = .ok g ∧
      (∀ l m rq, ObjectAt schema l m rq → ∃ o, typeAt title (rootNames title lower args name implements).1 g l = some o ∧
        o.jsonName = nameAt title args (rootNames title lower args name implements).2 l ∧
        ((o.target = [] ∧ o.buildType ≠ .ignored) ↔ Written ⟨schema.properties, schema.items⟩ l) ∧
        GqlFields title args.fieldNames args.pointers rq
          (fun k => gqlName title args.typeNames (rootNames title lower args name implements).2 (names (l ++ [.key k]))) m o ∧
        GqlHead title (rootNames title lower args name implements).1 schema l o) ∧
      ∀ κ o, GMap.get κ g.nested = some o → ∃ l m rq, l ≠ [] ∧ ObjectAt schema l m rq ∧ typeAt title (rootNames title lower args name implements).1 g l = some o ∧
        κ = keyOf title (rootNames title lower args name implements).1 l := by
  have hst := kind_stable title args
  have hwf : WellFormed instNode ⟨schema.properties, schema.items⟩ := by
    intro l q ha hn
    obtain ⟨i, t, hd, ht, h1, h2⟩ := hc.one _ _ ha
    unfold instNode at hn
    rw [hd] at hn
    simp only at hn
    split at hn
    · rename_i ho
      have := h1 ((mem_type ht (by decide)).1 ho).symm
      cases hp : i.properties with
      | none => exact this hp
      | some m => rw [hp] at hn; cases hn
    · split at hn
      · rename_i ho
        have := h2 ((mem_type ht (by decide)).1 ho).symm
        cases hp : i.items with
        | none => exact this hp
        | some m => rw [hp] at hn; cases hn
      · cases hn
  let rn := rootNames title lower args name implements
  let root : GObject := { Gql.newObject rn.1 rn.2 schema.required with
    description := schema.description, buildType := if schema.oneOf.length ≠ 0 then .interface else .type }
  have hroot : root.target = [] ∧ root.buildType ≠ .ignored := ⟨rfl, by
    change (if schema.oneOf.length ≠ 0 then BuildType.interface else .type) ≠ .ignored
    split <;> simp⟩
  have hok := flat_ok title (kind title args) hst (root := root) hc.plain hwf sched 0 (by
    intro vs hv l o0 hs cs c ds hcs o hcalls
    have hk : ∃ q, SchemaAt instNode ⟨schema.properties, schema.items⟩ (l ++ [.key c.1.1]) q := by
      have hm : c ∈ children l vs := by rw [hcs]; simp
      have := hv.sound _ (mem_children.1 hm)
      cases hb : c.1.2 with
      | false => rw [hb] at this; exact ⟨_, this⟩
      | true =>
        rw [hb] at this
        simp only [if_true] at this
        rw [show l ++ [Seg.key c.1.1, .star] = (l ++ [.key c.1.1]) ++ [.star] by simp] at this
        obtain ⟨q, h3, _⟩ := this.above (by simp)
        exact ⟨q, h3⟩
    obtain ⟨q, hk⟩ := hk
    obtain ⟨m, hm⟩ := start_props hc hs hk
    obtain ⟨e0, e1, _⟩ := start_object (fun l q q' => at_unique hv) (root := root) rfl rfl hroot hs
    exact object_ok hc hv hm e1 e0 hcs hcalls)
  obtain ⟨⟨tk, g⟩, hg⟩ := hok
  obtain ⟨vs, hv, hobjs, honly⟩ := flat title (kind title args) hst (root := root) hc.plain hg
  have hat : ∀ l, typeAt title rn.1 ⟨g.1, g.2⟩ l = objAt title rn.1 g l := fun l => rfl
  have heach : ∀ l m rq, ObjectAt schema l m rq → ∃ o, typeAt title rn.1 ⟨g.1, g.2⟩ l = some o ∧ o.jsonName = nameAt title args rn.2 l ∧
      ((o.target = [] ∧ o.buildType ≠ .ignored) ↔ Written ⟨schema.properties, schema.items⟩ l) ∧
      GqlFields title args.fieldNames args.pointers rq (fun k => gqlName title args.typeNames rn.2 (names (l ++ [.key k]))) m o ∧ GqlHead title rn.1 schema l o := by
    intro l m rq ho
    have hl : l = [] ∨ ∃ q, SchemaAt instNode ⟨schema.properties, schema.items⟩ l q ∧ IsObject q := by
      cases ho with
      | root => exact .inl rfl
      | inner h1 h2 h3 h4 => exact .inr ⟨_, h1, node_object h2 h3 (by rw [h4]; simp)⟩
    obtain ⟨o0, o, h1, h2, h3⟩ := hobjs l hl
    obtain ⟨e0, ej, ew, e1⟩ := start_object (fun l q q' => at_unique hv) (root := root) rfl rfl hroot h1
    have hP : PropsAt ⟨schema.properties, schema.items⟩ l m ∧ o0.required = rq := by
      cases ho with
      | root hm =>
        rcases e1 with ⟨_, rfl⟩ | ⟨q, i, h4, _⟩
        · exact ⟨.root hm, rfl⟩
        · cases h4
      | @inner _ q i m h4 h5 h6 h7 =>
        rcases e1 with ⟨rfl, _⟩ | ⟨q', i', h8, h9, h10, _, h11, _⟩
        · cases h4
        · have := at_unique hv h8 h4
          subst this
          rw [h5] at h9
          cases h9
          refine ⟨.inner h4 ?_, h11⟩
          unfold instNode
          rw [h5]
          simp only [h10, if_true, h7, Option.map_some]
    have hn : (m.map Prod.fst).Nodup := by
      cases hP.1 with
      | root hm => exact (hc.plain.names.1 m hm).1
      | inner h4 h5 => exact (hc.plain.names.2 _ _ _ h4 h5).1
    have hh : Holds title args m o0 o := by
      have hh0 : Holds title args m o0 o0 := ⟨rfl, by rw [e0]; exact trivial, fun _ _ _ => Iff.rfl, fun k q f _ h => by rw [e0] at h; cases h⟩
      refine (trace (fun _ => ()) (Holds title args m o0) (fun _ _ _ => True) (fun c => false) h3 (fun c hcm s t hh h => ?_) hh0).1
      exact ⟨(call hc hv hP.1 ej hh hcm h).1, rfl⟩
    refine ⟨o, h2, by rw [hh.same]; exact ej, by rw [hh.same]; exact ew, ?_, ?_⟩
    · rw [← hP.2]
      exact object_fields hc hv hP.1 hn ej e0 h3
    · rw [hh.same]
      rcases e1 with ⟨rfl, rfl⟩ | ⟨q', i', h8, h9, _, h10, _, h11, _, h12, h13⟩
      · refine .root rfl rfl ?_ rfl
        change (if schema.oneOf.length ≠ 0 then BuildType.interface else .type) = _
        cases schema.oneOf <;> rfl
      · exact .inner h8 h9 h10 h11 h13 h12
  refine ⟨⟨g.1, g.2⟩, ?_, heach, ?_⟩
  · unfold newFile
    have := Gen.walk_iso hc.plain.names sched 0 (fun g : GObject × GMap GObject => (⟨g.1, g.2⟩ : GFile)) (walk title (kind title args)) (walkFunc title args)
      (fun p i s => walkFunc_eq title args p i s) (root, [])
    rw [hg] at this
    change (walkSchema sched 0 (walkFunc title args) _ ⟨root, []⟩).map Prod.snd = _
    rw [this]
    rfl
  · intro κ o hk
    obtain ⟨l, q, h1, h2, rfl⟩ := honly κ o hk
    have hl0 : l ≠ [] := by rintro rfl; cases h1
    obtain ⟨i, t, hd, ht, hp, _⟩ := hc.one _ _ h1
    have ho := (instNode_object_iff hd).1 h2
    have ht0 : t = g!"object" := ((mem_type ht (by decide)).1 ho.1).symm
    obtain ⟨m, hm⟩ := Option.ne_none_iff_exists'.1 ho.2
    have hobj : ObjectAt schema l m i.required := .inner h1 hd (ht0 ▸ ht) hm
    refine ⟨l, m, _, hl0, hobj, ?_, rfl⟩
    unfold typeAt
    rw [if_neg hl0]
    exact hk

end JT

namespace JT.C69ex
open Spec Gql Flat Toy

/-- Checks for concrete schemas. -/
def isArrayB (q : P) : Bool := match instNode q with | some (.array _) => true | _ => false

theorem isArrayB_of {q : P} (h : IsArray q) : isArrayB q = true := by
  obtain ⟨m, hm⟩ := h
  unfold isArrayB
  rw [hm]

def totalsB (title : Str → Str) (rename : GMap Str) (m : GMap P) : Bool :=
  m.all fun kq => !isArrayB kq.2 || (decide (totalOf title rename kq.1 ∉ m.map Prod.fst) &&
    m.all fun kq' => !isArrayB kq'.2 || decide (totalOf title rename kq'.1 = totalOf title rename kq.1 → kq'.1 = kq.1))

theorem totalsB_of {title : Str → Str} {rename : GMap Str} {m : GMap P} (h : totalsB title rename m = true) {k : Str} {q : P} (hk : (k, q) ∈ m) (ha : IsArray q) :
    (∀ q', (totalOf title rename k, q') ∉ m) ∧ ∀ k' q', (k', q') ∈ m → IsArray q' → totalOf title rename k' = totalOf title rename k → k' = k := by
  have h1 := List.all_eq_true.1 h _ hk
  simp only [isArrayB_of ha, Bool.not_true, Bool.false_or, Bool.and_eq_true, decide_eq_true_eq] at h1
  refine ⟨fun q' hq' => h1.1 (List.mem_map.2 ⟨_, hq', rfl⟩), fun k' q' hk' ha' => ?_⟩
  have h2 := List.all_eq_true.1 h1.2 _ hk'
  simp only [isArrayB_of ha', Bool.not_true, Bool.false_or, decide_eq_true_eq] at h2
  exact h2

def checkB (title : Str → Str) (args : Args) (name gname : Str) (l : List Seg) (q : P) : Bool :=
  match instNode q with
  | some (.object m) => totalsB title args.fieldNames m && (decide (gqlName title args.typeNames gname (names l) ∉ [g!"null", g!"array", g!"object"]) &&
      decide (keyOf title name l ≠ g!"null"))
  | _ => true

theorem conditions {title : Str → Str} {args : Args} {name gname : Str} {sc : Schema} (h : Gen.Conditions title name sc)
    (hr : (match sc.properties with | some m => totalsB title args.fieldNames m | none => true) = true)
    (hb : ((schemaPositions instNode sc).all fun x => checkB title args name gname x.1 x.2) = true) : Gql.Conditions title args name gname sc := by
  have hobj : ∀ l q m, SchemaAt instNode sc l q → instNode q = some (.object m) → totalsB title args.fieldNames m = true ∧
      FreeName (gqlName title args.typeNames gname (names l)) ∧ keyOf title name l ≠ g!"null" := by
    intro l q m hat hm
    have hb := check_positions instNode_shrinks hb hat
    unfold checkB at hb
    simp only [hm, Bool.and_eq_true] at hb
    exact ⟨hb.1, (decide_eq_true_iff.1 hb.2.1 : gqlName title args.typeNames gname (names l) ∉ [g!"null", g!"array", g!"object"]), decide_eq_true_iff.1 hb.2.2⟩
  refine ⟨h.plain, h.one, h.items, fun l q hat ⟨m, hm⟩ => (hobj l q m hat hm).2, ?_⟩
  intro l m hm k q hk ha
  cases hm with
  | root hp =>
    rw [hp] at hr
    exact totalsB_of hr hk ha
  | inner h1 h2 => exact totalsB_of (hobj _ _ _ h1 h2).1 hk ha

def args : Args := ⟨true, false, false, true, [], [], [], [(g!"_T_f", g!"Other")]⟩

/-- The conditions of `C69_partial` hold for the schema of C56, with a title function that changes names and a name that is replaced. -/
example : Gql.Conditions (fun s => '_' :: s) args g!"_T" g!"T" ⟨some C56flatex.good, none⟩ :=
  conditions (C56flatex.conditions (by decide +kernel) (by decide +kernel) (by decide +kernel)) (by decide +kernel) (by decide +kernel)

def shown (sched : Sched) : List Str := match newFile sched (fun s => '_' :: s) id { args with structNames := [(g!"T", g!"T")] } (C56ex.schema C56flatex.good) g!"T" true with
  | .ok g => g.structs.flatMap fun o => o.jsonName :: (o.fields.map fun f => f.1 ++ g!": " ++ (graphqlType f.2 (decide (f.1 ∈ o.required)) true).2)
  | _ => []

example : shown Sched.rev = [g!"T", g!"a: [_T_a] @goField(forceResolver: true)", g!"c: String!", g!"f: Other", g!"h: ", g!"t: DateTime", g!"total_a: Int!",
    g!"_T_a", g!"b: Int!", g!"d: _T_a_d", g!"_T_a_d", g!"e: [Float!] @goField(forceResolver: true)", g!"total_e: Int!", g!"Other", g!"g: Boolean!"] := by
  decide +kernel

end JT.C69ex

namespace JT.C69ex
open Spec Gql Toy

def upper (s : Str) : Str := match s with | [] => [] | c :: cs => c.toUpper :: cs
def leaf : P := o [(g!"type", s g!"string")]
def object (m : List (Str × P)) : P := o [(g!"type", s g!"object"), (g!"properties", o m)]
/-- The objects at `a.b` and at `aB` get the same name. -/
def clash : GMap P := [(g!"a", object [(g!"b", object [(g!"y", leaf)])]), (g!"aB", object [(g!"x", leaf)])]
def plainArgs : Args := ⟨false, false, false, false, [], [], [], []⟩
/-- The types that are written, with their fields and the types of these. -/
def typesOf (m : GMap P) : List (Str × List (Str × Str)) := match newFile Sched.id upper id plainArgs (C56ex.schema m) g!"t" false with
  | .ok g => (g.structs.filter fun o => o.target = [] ∧ o.buildType ≠ .ignored).map fun o => (o.jsonName, o.fields.map fun kf => (kf.1, kf.2.jsonType))
  | _ => []

end JT.C69ex

namespace JT
open Spec Gql

/-- The full statement of **C69**: for each object with properties there is a type with a field for each of them. -/
def C69_statement : Prop := ∀ (m : GMap P) l m' rq, ObjectAt (C56ex.schema m) l m' rq → C69ex.typesOf m ≠ [] →
  ∃ t ∈ C69ex.typesOf m, ∀ k q, GMap.get k m' = some q → k ∈ t.2.map Prod.fst

/-- If two objects get the same name, one of them has no type. -/
theorem C69_refuted : ¬ C69_statement := fun h => by
  have hb : ∃ i, decodeInstance false (C69ex.object [(g!"y", C69ex.leaf)]) = .ok i ∧ TypeIs i g!"object" ∧ i.properties = some [(g!"y", C69ex.leaf)] :=
    ⟨_, rfl, rfl, rfl⟩
  have ha : instNode (C69ex.object [(g!"b", C69ex.object [(g!"y", C69ex.leaf)])]) = some (.object [(g!"b", C69ex.object [(g!"y", C69ex.leaf)])]) := rfl
  obtain ⟨i, h1, h2, h3⟩ := hb
  have hat : ObjectAt (C56ex.schema C69ex.clash) [.key g!"a", .key g!"b"] [(g!"y", C69ex.leaf)] i.required :=
    .inner (.prop rfl (by simp [C69ex.clash]) (.prop ha (by simp) .here)) h1 h2 h3
  obtain ⟨t, ht, hk⟩ := h C69ex.clash _ _ _ hat (by decide +kernel)
  have hy := hk g!"y" _ rfl
  have : ∀ t ∈ C69ex.typesOf C69ex.clash, g!"y" ∉ t.2.map Prod.fst := by decide +kernel
  exact this t ht hy

end JT
