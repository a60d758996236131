import Verif.Props.C71
/- C72 for times and for the elements of lists. -/
namespace JT
open Spec Gql

/-- The Go type of a list is a slice of the type of a field that is not a list. -/
theorem goType_list {ef : Gen.EField} (ha : ef.array = true) (required pointers : Bool) (nested : GMap Gen.GStruct) :
    Gen.goType ef required pointers nested = g!"[]" ++ Gen.goType { ef with array := false } required pointers nested := by
  unfold Gen.goType
  simp only [ha, if_true, Bool.false_eq_true, if_false]

/-- The Go type of a time. -/
theorem goType_time {ef : Gen.EField} (hj : ef.jsonType = g!"date-time") (ha : ef.array = false) (required pointers : Bool) (nested : GMap Gen.GStruct) :
    Pointer (Gen.goType ef required pointers nested) ↔ (pointers = true ∧ required = false) ∨ ef.nullable = true := by
  unfold Pointer Gen.goType
  rw [hj, ha]
  cases pointers <;> cases required <;> cases ef.nullable <;> simp (decide := true)

/-- **C72**, for times: the GraphQL type may always be null, so that no resolver returns nil for a field that is not null; the types agree iff the Go type is a pointer,
which is so iff the time may be null, or there are pointers and it is not required. -/
theorem C72_time_partial {title title' : Str → Str} {args : Gen.Args} {rename : GMap Str} {rq : List Str} {key name k : Str} {q : P} {i : Instance}
    (hd : decodeInstance false q = .ok i) (ht : TypeIs i g!"string") (hnt : i.format = g!"date-time") (htg : i.target = [])
    {ef : Gen.EField} {f : GField} (hgo : FlatField title args rq key k q ef) (hgq : GqlField title' rename args.pointers (decide (k ∈ rq)) name k q f)
    (nested : GMap Gen.GStruct) :
    ¬ NonNull (graphqlType f (decide (k ∈ rq)) args.pointers).2 ∧
      (Pointer (Gen.goType ef (decide (k ∈ rq)) args.pointers nested) ↔ (args.pointers = true ∧ k ∉ rq) ∨ g!"null" ∈ i.type) := by
  have hlt : leafType i g!"string" = g!"date-time" := if_pos ⟨rfl, hnt⟩
  have hgo' : ef.jsonType = g!"date-time" ∧ ef.array = false ∧ ef.nullable = decide (g!"null" ∈ i.type) := by
    cases hgo with
    | leaf hd' ht' =>
      rw [hd] at hd'; cases hd'
      obtain rfl := TypeIs.unique ht ht'
      exact ⟨hlt, rfl, rfl⟩
    | object hd' ht' | leaves hd' ht' | objects hd' ht' =>
      rw [hd] at hd'; cases hd'
      exact absurd (TypeIs.unique ht ht') (by decide)
  have hgq' : f.jsonType = g!"date-time" ∧ f.array = false ∧ f.target = [] := by
    cases hgq with
    | leaf hd' ht' =>
      rw [hd] at hd'; cases hd'
      obtain rfl := TypeIs.unique ht ht'
      exact ⟨hlt, rfl, htg⟩
    | object hd' ht' | leaves hd' ht' | objects hd' ht' =>
      rw [hd] at hd'; cases hd'
      exact absurd (TypeIs.unique ht ht') (by decide)
  refine ⟨?_, ?_⟩
  · rw [C62_time hgq'.1 hgq'.2.2 hgq'.2.1]
    unfold NonNull; decide
  · rw [goType_time hgo'.1 hgo'.2.1, hgo'.2.2]
    simp

/-- `Elements t u g e`: the Go type `t` is a slice of `g`, and the GraphQL type `u` is a list of `e`. -/
def Spec.Elements (t u g e : Str) : Prop := t = g!"[]" ++ g ∧ ∃ b, u = g!"[" ++ e ++ g!"]" ++ bang b ++ g!" @goField(forceResolver: true)"

/-- **C72**, for the elements of lists of scalars: they are never null in GraphQL, and pointers in Go iff the list may be null. -/
theorem C72_elements_partial {title title' : Str → Str} {args : Gen.Args} {rename : GMap Str} {rq : List Str} {key name k : Str} {q items : P} {i j : Instance} {t : Str}
    (hd : decodeInstance false q = .ok i) (ht : TypeIs i g!"array") (hi : i.items = some items) (hdj : decodeInstance false items = .ok j) (htj : TypeIs j t)
    (hs : t ∈ [g!"boolean", g!"number", g!"integer", g!"string"]) (hnt : ¬ IsTime j t) (htg : i.target = [] ∧ j.target = [])
    {ef : Gen.EField} {f : GField} (hgo : FlatField title args rq key k q ef) (hgq : GqlField title' rename args.pointers (decide (k ∈ rq)) name k q f)
    (nested : GMap Gen.GStruct) :
    ∃ g e, Elements (Gen.goType ef (decide (k ∈ rq)) args.pointers nested) (graphqlType f (decide (k ∈ rq)) args.pointers).2 g e ∧
      NonNull e ∧ (Pointer g ↔ g!"null" ∈ i.type) := by
  obtain ⟨s, hsc, hlast⟩ := scalar_of hs
  have hlt : leafType j t = t := if_neg hnt
  have hgo' : ef.jsonType = t ∧ ef.array = true ∧ ef.nullable = decide (g!"null" ∈ i.type) := by
    cases hgo with
    | leaves hd' ht' hi' hdj' htj' =>
      rw [hd] at hd'; cases hd'
      rw [hi] at hi'; cases hi'
      rw [hdj] at hdj'; cases hdj'
      obtain rfl := TypeIs.unique htj htj'
      exact ⟨hlt, rfl, rfl⟩
    | objects hd' ht' hi' hdj' htj' =>
      rw [hd] at hd'; cases hd'
      rw [hi] at hi'; cases hi'
      rw [hdj] at hdj'; cases hdj'
      obtain rfl := TypeIs.unique htj htj'
      exact absurd hs (by decide)
    | leaf hd' ht' hl =>
      rw [hd] at hd'; cases hd'
      exact absurd (TypeIs.unique ht ht') hl.2.1
    | object hd' ht' =>
      rw [hd] at hd'; cases hd'
      exact absurd (TypeIs.unique ht ht') (by decide)
  have hgq' : f.jsonType = t ∧ f.array = true ∧ f.arrayNullable = false ∧ f.nullable = false ∧ f.target = [] := by
    cases hgq with
    | leaves hd' ht' hi' hdj' htj' =>
      rw [hd] at hd'; cases hd'
      rw [hi] at hi'; cases hi'
      rw [hdj] at hdj'; cases hdj'
      obtain rfl := TypeIs.unique htj htj'
      exact ⟨hlt, rfl, rfl, decide_eq_false hnt, by simp [itemTarget, htg]⟩
    | objects hd' ht' hi' hdj' htj' =>
      rw [hd] at hd'; cases hd'
      rw [hi] at hi'; cases hi'
      rw [hdj] at hdj'; cases hdj'
      obtain rfl := TypeIs.unique htj htj'
      exact absurd hs (by decide)
    | leaf hd' ht' hl =>
      rw [hd] at hd'; cases hd'
      exact absurd (TypeIs.unique ht ht') hl.2
    | object hd' ht' =>
      rw [hd] at hd'; cases hd'
      exact absurd (TypeIs.unique ht ht') (by decide)
  obtain ⟨a1, a2, a3⟩ := hgo'
  obtain ⟨b1, b2, b3, b4, b5⟩ := hgq'
  have hsc' : GqlScalar f.jsonType s := by rw [b1]; exact hsc
  obtain ⟨_, _, _, hhyd⟩ := scalarName_of hsc'
  rw [goType_list a2, C62_list hhyd b2 b3]
  refine ⟨_, _, ⟨rfl, _, rfl⟩, ?_, ?_⟩
  · cases args.pointers with
    | false =>
      rw [C62_scalar_values (f := { f with array := false }) hsc' b5 rfl, show s ++ g!"!" = s ++ bang true from rfl, nonNull_bang s hlast]
    | true =>
      rw [C62_scalar (f := { f with array := false }) hsc' b5 rfl, nonNull_bang s hlast]
      simp [b4]
  · rw [goType_scalar (ef := { ef with array := false }) (by simp only [a1]; exact hs) rfl]
    simp only [a3, decide_eq_true_eq]

/-- **C72**, for the elements of lists of objects: they are not null in GraphQL iff they are not pointers in Go, unless the list or an object in it may be null although
it is required or there are no pointers. -/
theorem C72_element_objects {title title' : Str → Str} {args : Gen.Args} {rename : GMap Str} {rq : List Str} {key name k : Str} {q items : P} {i j : Instance}
    (hd : decodeInstance false q = .ok i) (ht : TypeIs i g!"array") (hi : i.items = some items) (hdj : decodeInstance false items = .ok j) (htj : TypeIs j g!"object")
    (hp : j.properties.getD [] ≠ []) (htg : i.target = [] ∧ j.target = []) (hnull : g!"null" ∉ i.type)
    (hkey : key.head? ≠ some '*' ∧ key ∉ [g!"boolean", g!"number", g!"integer", g!"string", g!"date-time", g!"object"])
    (hname : name.getLast? ≠ some '!' ∧ name ∉ [g!"boolean", g!"number", g!"integer", g!"string", g!"date-time", g!"object", g!"graphql-hydration", g!"DateTime", g!"Any"])
    {ef : Gen.EField} {f : GField} (hgo : FlatField title args rq key k q ef) (hgq : GqlField title' rename args.pointers (decide (k ∈ rq)) name k q f)
    {nested : GMap Gen.GStruct} (hst : ∀ κ, GMap.get ('*' :: κ) nested = none) (hn : g!"null" ∉ j.type ∨ (args.pointers = true ∧ k ∉ rq)) :
    ∃ g e, Elements (Gen.goType ef (decide (k ∈ rq)) args.pointers nested) (graphqlType f (decide (k ∈ rq)) args.pointers).2 g e ∧
      (NonNull e ↔ ¬ Pointer g) := by
  have hgo' : ef.jsonType = structType args rq k key j ∧ ef.array = true ∧ ef.nullable = false := by
    cases hgo with
    | objects hd' ht' hi' hdj' htj' =>
      rw [hd] at hd'; cases hd'
      rw [hi] at hi'; cases hi'
      rw [hdj] at hdj'; cases hdj'
      exact ⟨rfl, rfl, decide_eq_false hnull⟩
    | leaves hd' ht' hi' hdj' htj' hl =>
      rw [hd] at hd'; cases hd'
      rw [hi] at hi'; cases hi'
      rw [hdj] at hdj'; cases hdj'
      exact absurd (TypeIs.unique htj htj') hl.1
    | leaf hd' ht' hl =>
      rw [hd] at hd'; cases hd'
      exact absurd (TypeIs.unique ht ht') hl.2.1
    | object hd' ht' =>
      rw [hd] at hd'; cases hd'
      exact absurd (TypeIs.unique ht ht') (by decide)
  have hgq' : f.jsonType = name ∧ f.array = true ∧ f.arrayNullable = false ∧ f.target = [] := by
    cases hgq with
    | objects hd' ht' hi' hdj' htj' =>
      rw [hd] at hd'; cases hd'
      rw [hi] at hi'; cases hi'
      rw [hdj] at hdj'; cases hdj'
      exact ⟨if_neg hp, rfl, rfl, by simp [itemTarget, htg]⟩
    | leaves hd' ht' hi' hdj' htj' hl =>
      rw [hd] at hd'; cases hd'
      rw [hi] at hi'; cases hi'
      rw [hdj] at hdj'; cases hdj'
      exact absurd (TypeIs.unique htj htj') hl.1
    | leaf hd' ht' hl =>
      rw [hd] at hd'; cases hd'
      exact absurd (TypeIs.unique ht ht') hl.2
    | object hd' ht' =>
      rw [hd] at hd'; cases hd'
      exact absurd (TypeIs.unique ht ht') (by decide)
  obtain ⟨a1, a2, a3⟩ := hgo'
  obtain ⟨b1, b2, b3, b5⟩ := hgq'
  have hh : f.jsonType ≠ g!"graphql-hydration" := by
    rw [b1]; intro h; exact hname.2 (by rw [h]; decide)
  rw [goType_list a2, C62_list hh b2 b3]
  exact ⟨_, _, ⟨rfl, _, rfl⟩, types_object (ef := { ef with array := false }) (f := { f with array := false }) hkey hname a1 rfl a3 b1 rfl b5 hst hn⟩

namespace C72ex
open Toy

/-- A time. -/
def time : P := o [(g!"type", s g!"string"), (g!"format", s g!"date-time")]
/-- A list of strings that may be null. -/
def texts : P := o [(g!"type", .arr [s g!"array", s g!"null"]), (g!"items", plain)]
/-- A list of strings. -/
def plains : P := o [(g!"type", s g!"array"), (g!"items", plain)]
/-- A list of objects. -/
def objects : P := o [(g!"type", s g!"array"), (g!"items", object)]

theorem time_ok : ∃ i, decodeInstance false time = .ok i ∧ i.target = [] ∧ i.format = g!"date-time" ∧ TypeIs i g!"string" ∧ g!"null" ∉ i.type :=
  ⟨_, rfl, rfl, rfl, rfl, by decide⟩
theorem texts_ok : ∃ i, decodeInstance false texts = .ok i ∧ i.target = [] ∧ i.items = some plain ∧ TypeIs i g!"array" ∧ g!"null" ∈ i.type :=
  ⟨_, rfl, rfl, rfl, rfl, by decide⟩
theorem plains_ok : ∃ i, decodeInstance false plains = .ok i ∧ i.target = [] ∧ i.items = some plain ∧ TypeIs i g!"array" ∧ g!"null" ∉ i.type :=
  ⟨_, rfl, rfl, rfl, rfl, by decide⟩
theorem objects_ok : ∃ i, decodeInstance false objects = .ok i ∧ i.target = [] ∧ i.items = some object ∧ TypeIs i g!"array" ∧ g!"null" ∉ i.type :=
  ⟨_, rfl, rfl, rfl, rfl, by decide⟩

end C72ex

/-- The hypotheses of `C72_time_partial` are met. -/
example (rq : List Str) (nested : GMap Gen.GStruct) : ∃ ef f, FlatField id C56flatex.args rq [] g!"a" C72ex.time ef ∧
    GqlField id [] C56flatex.args.pointers (decide (g!"a" ∈ rq)) [] g!"a" C72ex.time f ∧
    ¬ NonNull (graphqlType f (decide (g!"a" ∈ rq)) C56flatex.args.pointers).2 := by
  obtain ⟨i, h1, h2, h3, h4, h5⟩ := C72ex.time_ok
  have hgo : FlatField id C56flatex.args rq [] g!"a" C72ex.time _ := .leaf h1 h4 ⟨by decide, by decide, by decide⟩
  have hgq : GqlField id [] C56flatex.args.pointers (decide (g!"a" ∈ rq)) [] g!"a" C72ex.time _ := .leaf h1 h4 ⟨by decide, by decide⟩
  exact ⟨_, _, hgo, hgq, (C72_time_partial h1 h4 h3 h2 hgo hgq nested).1⟩

/-- The hypotheses of `C72_elements_partial` are met, and by a list that may be null: its elements are pointers in Go and not null in GraphQL. -/
theorem C72_refuted_elements (rq : List Str) (nested : GMap Gen.GStruct) : ∃ ef f g e, FlatField id C56flatex.args rq [] g!"a" C72ex.texts ef ∧
    GqlField id [] C56flatex.args.pointers (decide (g!"a" ∈ rq)) [] g!"a" C72ex.texts f ∧
    Elements (Gen.goType ef (decide (g!"a" ∈ rq)) C56flatex.args.pointers nested) (graphqlType f (decide (g!"a" ∈ rq)) C56flatex.args.pointers).2 g e ∧
    NonNull e ∧ Pointer g := by
  obtain ⟨i, h1, h2, h3, h4, h5⟩ := C72ex.texts_ok
  obtain ⟨j, k1, k2, k3, k4, k5⟩ := C72ex.plain_ok
  have hgo : FlatField id C56flatex.args rq [] g!"a" C72ex.texts _ := .leaves h1 h4 h3 k1 k4 ⟨by decide, by decide, by decide⟩
  have hgq : GqlField id [] C56flatex.args.pointers (decide (g!"a" ∈ rq)) [] g!"a" C72ex.texts _ := .leaves h1 h4 h3 k1 k4 ⟨by decide, by decide⟩
  obtain ⟨g, e, h6, h7, h8⟩ := C72_elements_partial h1 h4 h3 k1 k4 (by decide) (fun h => by have := h.2; rw [k3] at this; cases this) ⟨h2, k2⟩ hgo hgq nested
  exact ⟨_, _, g, e, hgo, hgq, h6, h7, h8.2 h5⟩

/-- They are met by a list that may not be null. -/
example (rq : List Str) (nested : GMap Gen.GStruct) : ∃ ef f g e, FlatField id C56flatex.args rq [] g!"a" C72ex.plains ef ∧
    GqlField id [] C56flatex.args.pointers (decide (g!"a" ∈ rq)) [] g!"a" C72ex.plains f ∧
    Elements (Gen.goType ef (decide (g!"a" ∈ rq)) C56flatex.args.pointers nested) (graphqlType f (decide (g!"a" ∈ rq)) C56flatex.args.pointers).2 g e ∧
    NonNull e ∧ ¬ Pointer g := by
  obtain ⟨i, h1, h2, h3, h4, h5⟩ := C72ex.plains_ok
  obtain ⟨j, k1, k2, k3, k4, k5⟩ := C72ex.plain_ok
  have hgo : FlatField id C56flatex.args rq [] g!"a" C72ex.plains _ := .leaves h1 h4 h3 k1 k4 ⟨by decide, by decide, by decide⟩
  have hgq : GqlField id [] C56flatex.args.pointers (decide (g!"a" ∈ rq)) [] g!"a" C72ex.plains _ := .leaves h1 h4 h3 k1 k4 ⟨by decide, by decide⟩
  obtain ⟨g, e, h6, h7, h8⟩ := C72_elements_partial h1 h4 h3 k1 k4 (by decide) (fun h => by have := h.2; rw [k3] at this; cases this) ⟨h2, k2⟩ hgo hgq nested
  exact ⟨_, _, g, e, hgo, hgq, h6, h7, fun h => h5 (h8.1 h)⟩

/-- The hypotheses of `C72_element_objects` are met. -/
example (rq : List Str) : ∃ ef f g e, FlatField id C56flatex.args rq g!"RootA" g!"a" C72ex.objects ef ∧
    GqlField id [] C56flatex.args.pointers (decide (g!"a" ∈ rq)) g!"RootA" g!"a" C72ex.objects f ∧
    Elements (Gen.goType ef (decide (g!"a" ∈ rq)) C56flatex.args.pointers []) (graphqlType f (decide (g!"a" ∈ rq)) C56flatex.args.pointers).2 g e ∧
    (NonNull e ↔ ¬ Pointer g) := by
  obtain ⟨i, h1, h2, h3, h4, h5⟩ := C72ex.objects_ok
  obtain ⟨j, k1, k2, k3, k4, k5⟩ := C72ex.object_ok
  have hgo : FlatField id C56flatex.args rq g!"RootA" g!"a" C72ex.objects _ := .objects h1 h4 h3 k1 k4
  have hgq : GqlField id [] C56flatex.args.pointers (decide (g!"a" ∈ rq)) g!"RootA" g!"a" C72ex.objects _ := .objects h1 h4 h3 k1 k4
  obtain ⟨g, e, h6, h7⟩ := C72_element_objects (nested := []) h1 h4 h3 k1 k4 k3 ⟨h2, k2⟩ h5 ⟨by decide, by decide⟩ ⟨by decide, by decide⟩ hgo hgq (fun _ => rfl) (.inl k5)
  exact ⟨_, _, g, e, hgo, hgq, h6, h7⟩

end JT
