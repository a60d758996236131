import Verif.Props.C70
/- C71: the types of GraphQL fields are defined.  C72: GraphQL fields that are not null have Go fields that are not pointers. -/
namespace JT.Spec
open Gql (GFile GObject GField)

theorem object_prop {schema : Instance} {l : List Seg} {m : GMap P} {rq : List Str} (h : ObjectAt schema l m rq) {k : Str} {q : P} (hk : GMap.get k m = some q) :
    SchemaAt instNode ⟨schema.properties, schema.items⟩ (l ++ [.key k]) q := by
  cases h with
  | root hm => exact .prop hm (GMap.get_some_mem hk) .here
  | @inner _ q' i _ h1 h2 h3 h4 =>
    refine Flat.SchemaAt.snoc h1 (.prop ?_ (GMap.get_some_mem hk) .here)
    unfold instNode
    rw [h2]
    simp only [(Gen.mem_type h3 (by decide)).2 (rfl : g!"object" = g!"object"), if_true, h4, Option.map_some]

theorem item_prop {sc : Schema} {l : List Seg} {k : Str} {q r : P} (h : SchemaAt instNode sc (l ++ [.key k]) q) {i : Instance} (hd : decodeInstance false q = .ok i)
    (ht : TypeIs i g!"array") (hi : i.items = some r) : SchemaAt instNode sc (l ++ .key k :: [.star]) r := by
  rw [show l ++ .key k :: [Seg.star] = (l ++ [.key k]) ++ [.star] by simp]
  refine Flat.SchemaAt.snoc h (.item ?_ .here)
  unfold instNode
  rw [hd]
  have h1 : g!"object" ∉ i.type := fun h => absurd ((Gen.mem_type ht (by decide)).1 h) (by decide)
  have h2 : g!"array" ∈ i.type := (Gen.mem_type ht (by decide)).2 rfl
  simp only [h1, h2, if_true, if_false, hi, Option.map_some]

end JT.Spec

namespace JT
open Spec Gql Flat

/-- **C71**, partial: each field of a type that is written names a type of the schema's leaves, `Any`, or a type that is written too, unless the schema says that the field is
looked up elsewhere.  The conditions are those of `C69_partial`. -/
theorem C71_partial {title lower : Str → Str} {args : Gql.Args} {schema : Instance} {name : Str} {implements : Bool}
    (hc : Gql.Conditions title args (rootNames title lower args name implements).1 (rootNames title lower args name implements).2 ⟨schema.properties, schema.items⟩)
    (sched : Sched) : ∃ g, newFile sched title lower args schema name implements = .ok g ∧
      ∀ l m rq o, ObjectAt schema l m rq → typeAt title (rootNames title lower args name implements).1 g l = some o → o.target = [] ∧ o.buildType ≠ .ignored →
        ∀ k q f, GMap.get k m = some q → GMap.get k o.fields = some f → f.target = [] →
          (∃ i t, TypeIs i t ∧ NoParts t ∧ f.jsonType = leafType i t) ∨ f.jsonType = g!"Any" ∨
          ∃ l' m' rq' o', ObjectAt schema l' m' rq' ∧ typeAt title (rootNames title lower args name implements).1 g l' = some o' ∧
            o'.jsonName = f.jsonType ∧ o'.target = [] ∧ o'.buildType ≠ .ignored := by
  obtain ⟨g, h1, h2, _⟩ := C69_partial hc sched
  refine ⟨g, h1, fun l m rq o ho hat hw k q f hk hf htg => ?_⟩
  obtain ⟨o1, h3, _, h4, h5, _⟩ := h2 l m rq ho
  rw [hat] at h3
  cases h3
  have hwl := h4.1 hw
  obtain ⟨f1, h6, h7⟩ := h5.each k q hk
  rw [hf] at h6
  cases h6
  have hpos := object_prop ho hk
  have hchild : ∀ (s : List Seg) (r : P) (j : Instance), s = [] ∨ s = [.star] → SchemaAt instNode ⟨schema.properties, schema.items⟩ (l ++ .key k :: s) r →
      decodeInstance false r = .ok j → TypeIs j g!"object" → j.target = [] → ∀ jt, jt = gqlObjectType (gqlName title args.typeNames (rootNames title lower args name implements).2
        (names (l ++ [.key k]))) j → jt = g!"Any" ∨ ∃ l' m' rq' o', ObjectAt schema l' m' rq' ∧ typeAt title (rootNames title lower args name implements).1 g l' = some o' ∧
            o'.jsonName = jt ∧ o'.target = [] ∧ o'.buildType ≠ .ignored := by
    intro s r j hs hr hd ht htj jt hjt
    have hobj := (Gen.mem_type ht (by decide)).2 (rfl : g!"object" = g!"object")
    unfold gqlObjectType at hjt
    split at hjt
    · exact .inl hjt
    · rename_i hne
      right
      obtain ⟨j', t', hd', ht', hp, _⟩ := hc.one _ _ hr
      rw [hd] at hd'
      cases hd'
      have : t' = g!"object" := ((Gen.mem_type ht' (by decide)).1 hobj).symm
      obtain ⟨m', hm'⟩ := Option.ne_none_iff_exists'.1 (hp this)
      have ho' : ObjectAt schema (l ++ .key k :: s) m' j.required := .inner hr hd ht hm'
      obtain ⟨o', e1, e2, e3, _⟩ := h2 _ _ _ ho'
      refine ⟨_, m', _, o', ho', e1, ?_, e3.2 (.inner hwl hs hr hd hobj hne htj)⟩
      rw [e2, hjt]
      unfold nameAt
      rw [if_neg (by simp)]
      congr 1
      rcases hs with rfl | rfl <;> simp [names_append, names]
  cases h7 with
  | leaf hd ht hn => exact .inl ⟨_, _, ht, hn, rfl⟩
  | object hd ht => exact .inr (hchild [] q _ (.inl rfl) hpos hd ht htg _ rfl)
  | leaves _ _ _ hd ht hn => exact .inl ⟨_, _, ht, hn, rfl⟩
  | @objects items i j hd ht hi hdj htj =>
    have hj : j.target = [] := by
      simp only [itemTarget] at htg
      split at htg
      · simp at htg
      · rename_i hne
        rw [Classical.not_and_iff_not_or_not, Classical.not_not] at hne
        exact hne.resolve_left (fun h => h htg)
    exact .inr (hchild [.star] items j (.inr rfl) (item_prop hpos hd ht hi) hdj htj hj _ rfl)

/-! ### C72 -/

/-- A GraphQL type that is not null. -/
def Spec.NonNull (t : Str) : Prop := t.getLast? = some '!'

/-- A Go type that is a pointer. -/
def Spec.Pointer (t : Str) : Prop := t.head? = some '*'

theorem TypeIs.unique {i : Instance} {t u : Str} (h1 : TypeIs i t) (h2 : TypeIs i u) : u = t := by
  unfold TypeIs at h1 h2
  rw [h1] at h2
  simpa using h2.symm

theorem nonNull_bang (s : Str) (hs : s.getLast? ≠ some '!') (b : Bool) : NonNull (s ++ bang b) ↔ b = true := by
  unfold NonNull
  cases b <;> simp [bang, hs]

/-- The Go types of scalars. -/
theorem goType_scalar {ef : Gen.EField} (hs : ef.jsonType ∈ [g!"boolean", g!"number", g!"integer", g!"string"]) (ha : ef.array = false) (required pointers : Bool)
    (nested : GMap Gen.GStruct) : Pointer (Gen.goType ef required pointers nested) ↔ ef.nullable = true := by
  simp only [List.mem_cons, List.not_mem_nil, or_false] at hs
  unfold Pointer Gen.goType
  rcases hs with h | h | h | h <;> rw [h, ha] <;> cases ef.nullable <;> simp (decide := true)

theorem scalar_of {t : Str} (hs : t ∈ [g!"boolean", g!"number", g!"integer", g!"string"]) : ∃ s, GqlScalar t s ∧ s.getLast? ≠ some '!' := by
  simp only [List.mem_cons, List.not_mem_nil, or_false] at hs
  rcases hs with rfl | rfl | rfl | rfl
  · exact ⟨_, .boolean, by decide⟩
  · exact ⟨_, .number, by decide⟩
  · exact ⟨_, .integer, by decide⟩
  · exact ⟨_, .string, by decide⟩

/-- **C72**, for scalars: the GraphQL type of a property is not null iff its Go type is not a pointer, unless the property may be null although it is required or there
are no pointers. -/
theorem C72_scalar {title title' : Str → Str} {args : Gen.Args} {rename : GMap Str} {rq : List Str} {key name k : Str} {q : P} {i : Instance} {t : Str}
    (hd : decodeInstance false q = .ok i) (ht : TypeIs i t) (hs : t ∈ [g!"boolean", g!"number", g!"integer", g!"string"]) (hnt : ¬ IsTime i t) (htg : i.target = [])
    {ef : Gen.EField} {f : GField} (hgo : FlatField title args rq key k q ef) (hgq : GqlField title' rename args.pointers (decide (k ∈ rq)) name k q f)
    (nested : GMap Gen.GStruct) (hn : g!"null" ∉ i.type ∨ (args.pointers = true ∧ k ∉ rq)) :
    NonNull (graphqlType f (decide (k ∈ rq)) args.pointers).2 ↔ ¬ Pointer (Gen.goType ef (decide (k ∈ rq)) args.pointers nested) := by
  obtain ⟨s, hsc, hlast⟩ := scalar_of hs
  have hlt : leafType i t = t := if_neg hnt
  have hgo' : ef.jsonType = t ∧ ef.array = false ∧ ef.nullable = decide (g!"null" ∈ i.type) := by
    cases hgo with
    | leaf hd' ht' =>
      rw [hd] at hd'; cases hd'
      obtain rfl := TypeIs.unique ht ht'
      exact ⟨hlt, rfl, rfl⟩
    | object hd' ht' | leaves hd' ht' | objects hd' ht' =>
      rw [hd] at hd'; cases hd'
      obtain rfl := TypeIs.unique ht ht'
      exact absurd hs (by decide)
  have hgq' : f.jsonType = t ∧ f.array = false ∧ f.nullable = decide (g!"null" ∈ i.type) ∧ f.target = [] := by
    cases hgq with
    | leaf hd' ht' =>
      rw [hd] at hd'; cases hd'
      obtain rfl := TypeIs.unique ht ht'
      exact ⟨hlt, rfl, by simp only [hnt, or_false], htg⟩
    | object hd' ht' | leaves hd' ht' | objects hd' ht' =>
      rw [hd] at hd'; cases hd'
      obtain rfl := TypeIs.unique ht ht'
      exact absurd hs (by decide)
  obtain ⟨a1, a2, a3⟩ := hgo'
  obtain ⟨b1, b2, b3, b4⟩ := hgq'
  rw [goType_scalar (by rw [a1]; exact hs) a2, a3]
  have hsc' : GqlScalar f.jsonType s := by rw [b1]; exact hsc
  cases hp : args.pointers with
  | false =>
    rw [C62_scalar_values hsc' b4 b2, show s ++ g!"!" = s ++ bang true from rfl, nonNull_bang s hlast]
    simpa [hp] using hn
  | true =>
    rw [C62_scalar hsc' b4 b2, nonNull_bang s hlast, b3]
    simp only [hp, true_and] at hn
    simp only [Bool.or_eq_true, decide_eq_true_eq, Bool.not_eq_true', decide_eq_false_iff_not]
    exact ⟨fun h => by rcases h with h | h; exacts [hn.resolve_right (fun hn => hn h), h], .inr⟩

/-- The types of a field with a struct in Go and a type of its own in GraphQL. -/
theorem types_object {args : Gen.Args} {rq : List Str} {key name k : Str} {i : Instance}
    (hkey : key.head? ≠ some '*' ∧ key ∉ [g!"boolean", g!"number", g!"integer", g!"string", g!"date-time", g!"object"])
    (hname : name.getLast? ≠ some '!' ∧ name ∉ [g!"boolean", g!"number", g!"integer", g!"string", g!"date-time", g!"object", g!"graphql-hydration", g!"DateTime", g!"Any"])
    {ef : Gen.EField} {f : GField} (a1 : ef.jsonType = structType args rq k key i) (a2 : ef.array = false) (a3 : ef.nullable = false)
    (b1 : f.jsonType = name) (b2 : f.array = false) (b4 : f.target = [])
    {nested : GMap Gen.GStruct} (hst : ∀ κ, GMap.get ('*' :: κ) nested = none) (hn : g!"null" ∉ i.type ∨ (args.pointers = true ∧ k ∉ rq)) :
    NonNull (graphqlType f (decide (k ∈ rq)) args.pointers).2 ↔ ¬ Pointer (Gen.goType ef (decide (k ∈ rq)) args.pointers nested) := by
  have hnm := hname.2
  simp only [List.mem_cons, List.not_mem_nil, or_false, not_or] at hnm
  obtain ⟨n1, n2, n3, n4, n5, n6, n7, n8, n9⟩ := hnm
  have hk := hkey.2
  simp only [List.mem_cons, List.not_mem_nil, or_false, not_or] at hk
  obtain ⟨k1, k2, k3, k4, k5, k6⟩ := hk
  rw [C62_named (.inr (by rw [b1]; simp [n1, n2, n3, n4, n5, n6])) ⟨by rw [b4]; decide, by rw [b1]; exact n8⟩ (by rw [b1]; exact n7) b2, b4, b1]
  simp only [ne_eq, not_true, if_false]
  rw [nonNull_bang name hname.1]
  have hptr : Pointer (Gen.goType ef (decide (k ∈ rq)) args.pointers nested) ↔ (args.pointers = true ∧ k ∉ rq) ∨ g!"null" ∈ i.type := by
    unfold Pointer Gen.goType
    rw [a1, a2, a3]
    unfold structType
    by_cases hc : (args.pointers = true ∧ k ∉ rq) ∨ g!"null" ∈ i.type
    · simp only [hc, if_true, hst, iff_true]
      simp (decide := true)
    · simp only [hc, if_false, k1, k2, k3, k4, k5, k6, iff_false]
      cases GMap.get key nested with
      | none => simpa using hkey.1
      | some ns =>
        simp only
        by_cases h : ns.fields.length = 0 <;> simp only [h, if_true, if_false] <;> simp (decide := true) [hkey.1]
  rw [hptr]
  simp only [Bool.and_eq_true, Bool.or_eq_true, decide_eq_true_eq, Bool.not_eq_true', n9, not_false_eq_true, and_true]
  rcases hn with hn | ⟨hn, hr⟩
  · cases args.pointers <;> by_cases hr : k ∈ rq <;> simp [hn, hr]
  · simp [hn, hr]

/-- **C72**, for objects. -/
theorem C72_object {title title' : Str → Str} {args : Gen.Args} {rename : GMap Str} {rq : List Str} {key name k : Str} {q : P} {i : Instance}
    (hd : decodeInstance false q = .ok i) (ht : TypeIs i g!"object") (hp : i.properties.getD [] ≠ []) (htg : i.target = [])
    (hkey : key.head? ≠ some '*' ∧ key ∉ [g!"boolean", g!"number", g!"integer", g!"string", g!"date-time", g!"object"])
    (hname : name.getLast? ≠ some '!' ∧ name ∉ [g!"boolean", g!"number", g!"integer", g!"string", g!"date-time", g!"object", g!"graphql-hydration", g!"DateTime", g!"Any"])
    {ef : Gen.EField} {f : GField} (hgo : FlatField title args rq key k q ef) (hgq : GqlField title' rename args.pointers (decide (k ∈ rq)) name k q f)
    {nested : GMap Gen.GStruct} (hst : ∀ κ, GMap.get ('*' :: κ) nested = none) (hn : g!"null" ∉ i.type ∨ (args.pointers = true ∧ k ∉ rq)) :
    NonNull (graphqlType f (decide (k ∈ rq)) args.pointers).2 ↔ ¬ Pointer (Gen.goType ef (decide (k ∈ rq)) args.pointers nested) := by
  have hgo' : ef.jsonType = structType args rq k key i ∧ ef.array = false ∧ ef.nullable = false := by
    cases hgo with
    | object hd' ht' =>
      rw [hd] at hd'; cases hd'
      exact ⟨rfl, rfl, rfl⟩
    | leaf hd' ht' hl =>
      rw [hd] at hd'; cases hd'
      exact absurd (TypeIs.unique ht ht') hl.1
    | leaves hd' ht' | objects hd' ht' =>
      rw [hd] at hd'; cases hd'
      exact absurd (TypeIs.unique ht ht') (by decide)
  have hgq' : f.jsonType = name ∧ f.array = false ∧ f.target = [] := by
    cases hgq with
    | object hd' ht' =>
      rw [hd] at hd'; cases hd'
      exact ⟨if_neg hp, rfl, htg⟩
    | leaf hd' ht' hl =>
      rw [hd] at hd'; cases hd'
      exact absurd (TypeIs.unique ht ht') hl.1
    | leaves hd' ht' | objects hd' ht' =>
      rw [hd] at hd'; cases hd'
      exact absurd (TypeIs.unique ht ht') (by decide)
  exact types_object hkey hname hgo'.1 hgo'.2.1 hgo'.2.2 hgq'.1 hgq'.2.1 hgq'.2.2 hst hn

/-- The statement of **C72** without its condition. -/
def C72_statement : Prop := ∀ (title : Str → Str) (args : Gen.Args) (rename : GMap Str) (rq : List Str) (key name k : Str) (q : P) (i : Instance),
  decodeInstance false q = .ok i → i.target = [] → TypeIs i g!"string" → ∀ (ef : Gen.EField) (f : GField), FlatField title args rq key k q ef →
    GqlField title rename args.pointers (decide (k ∈ rq)) name k q f →
      NonNull (graphqlType f (decide (k ∈ rq)) args.pointers).2 → ¬ Pointer (Gen.goType ef (decide (k ∈ rq)) args.pointers [])

namespace C72ex
open Toy

/-- A string that may be null. -/
def text : P := o [(g!"type", .arr [s g!"string", s g!"null"])]
/-- A string that may not. -/
def plain : P := o [(g!"type", s g!"string")]
/-- An object. -/
def object : P := o [(g!"type", s g!"object"), (g!"properties", o [(g!"a", plain)])]

theorem text_ok : ∃ i, decodeInstance false text = .ok i ∧ i.target = [] ∧ i.format = [] ∧ TypeIs i g!"string" ∧ g!"null" ∈ i.type :=
  ⟨_, rfl, rfl, rfl, rfl, by decide⟩
theorem plain_ok : ∃ i, decodeInstance false plain = .ok i ∧ i.target = [] ∧ i.format = [] ∧ TypeIs i g!"string" ∧ g!"null" ∉ i.type :=
  ⟨_, rfl, rfl, rfl, rfl, by decide⟩
theorem object_ok : ∃ i, decodeInstance false object = .ok i ∧ i.target = [] ∧ i.properties.getD [] ≠ [] ∧ TypeIs i g!"object" ∧ g!"null" ∉ i.type :=
  ⟨_, rfl, rfl, by decide, rfl, by decide⟩

end C72ex

/-- A required string that may be null is a pointer in Go and not null in GraphQL. -/
theorem C72_refuted : ¬ C72_statement := by
  intro h
  obtain ⟨i, h1, h2, h3, h4, h5⟩ := C72ex.text_ok
  have hl : leafType i g!"string" = g!"string" := by unfold leafType; rw [h3]; decide
  refine h id { C56flatex.args with pointers := true } [] [g!"a"] [] [] g!"a" C72ex.text i h1 h2 h4 _ _ (.leaf h1 h4 ⟨by decide, by decide, by decide⟩) (.leaf h1 h4 ⟨by decide, by decide⟩) ?_ ?_
  · rw [C62_scalar (s := g!"String") (by simp only [hl]; exact .string) h2 rfl, show (decide (g!"a" ∈ [g!"a"])) = true by decide, Bool.true_or]
    rfl
  · rw [goType_scalar (by simp only [hl]; decide) rfl]
    simpa using h5

/-- The hypotheses of `C72_scalar` are met: by a string that may not be null, and by one that may and is not required. -/
example (rq : List Str) (nested : GMap Gen.GStruct) : ∃ i ef f, decodeInstance false C72ex.plain = .ok i ∧ FlatField id C56flatex.args rq [] g!"a" C72ex.plain ef ∧
    GqlField id [] C56flatex.args.pointers (decide (g!"a" ∈ rq)) [] g!"a" C72ex.plain f ∧
    (NonNull (graphqlType f (decide (g!"a" ∈ rq)) C56flatex.args.pointers).2 ↔ ¬ Pointer (Gen.goType ef (decide (g!"a" ∈ rq)) C56flatex.args.pointers nested)) := by
  obtain ⟨i, h1, h2, h3, h4, h5⟩ := C72ex.plain_ok
  have hgo : FlatField id C56flatex.args rq [] g!"a" C72ex.plain _ := .leaf h1 h4 ⟨by decide, by decide, by decide⟩
  have hgq : GqlField id [] C56flatex.args.pointers (decide (g!"a" ∈ rq)) [] g!"a" C72ex.plain _ := .leaf h1 h4 ⟨by decide, by decide⟩
  exact ⟨i, _, _, h1, hgo, hgq, C72_scalar h1 h4 (by decide) (fun h => by have := h.2; rw [h3] at this; cases this) h2 hgo hgq nested (.inl h5)⟩

example (nested : GMap Gen.GStruct) : ∃ ef f, FlatField id { C56flatex.args with pointers := true } [] [] g!"a" C72ex.text ef ∧
    GqlField id [] true (decide (g!"a" ∈ ([] : List Str))) [] g!"a" C72ex.text f ∧
    (NonNull (graphqlType f false true).2 ↔ ¬ Pointer (Gen.goType ef false true nested)) := by
  obtain ⟨i, h1, h2, h3, h4, h5⟩ := C72ex.text_ok
  have hgo : FlatField id { C56flatex.args with pointers := true } [] [] g!"a" C72ex.text _ := .leaf h1 h4 ⟨by decide, by decide, by decide⟩
  have hgq : GqlField id [] true (decide (g!"a" ∈ ([] : List Str))) [] g!"a" C72ex.text _ := .leaf h1 h4 ⟨by decide, by decide⟩
  exact ⟨_, _, hgo, hgq, C72_scalar h1 h4 (by decide) (fun h => by have := h.2; rw [h3] at this; cases this) h2 hgo hgq nested (.inr ⟨rfl, by decide⟩)⟩

/-- The hypotheses of `C72_object` are met. -/
example (rq : List Str) : ∃ ef f, FlatField id C56flatex.args rq g!"RootA" g!"a" C72ex.object ef ∧
    GqlField id [] C56flatex.args.pointers (decide (g!"a" ∈ rq)) g!"RootA" g!"a" C72ex.object f ∧
    (NonNull (graphqlType f (decide (g!"a" ∈ rq)) C56flatex.args.pointers).2 ↔ ¬ Pointer (Gen.goType ef (decide (g!"a" ∈ rq)) C56flatex.args.pointers [])) := by
  obtain ⟨i, h1, h2, h3, h4, h5⟩ := C72ex.object_ok
  have hgo : FlatField id C56flatex.args rq g!"RootA" g!"a" C72ex.object _ := .object h1 h4
  have hgq : GqlField id [] C56flatex.args.pointers (decide (g!"a" ∈ rq)) g!"RootA" g!"a" C72ex.object _ := .object h1 h4
  exact ⟨_, _, hgo, hgq, C72_object h1 h4 h3 h2 ⟨by decide, by decide⟩ ⟨by decide, by decide⟩ hgo hgq (fun _ => rfl) (.inl h5)⟩

/-- The hypotheses of `C71_partial` are met by the schema of `C69ex`. -/
example : Gql.Conditions (fun s => '_' :: s) C69ex.args (rootNames (fun s => '_' :: s) id { C69ex.args with structNames := [(g!"T", g!"T")] } g!"T" true).1
    (rootNames (fun s => '_' :: s) id { C69ex.args with structNames := [(g!"T", g!"T")] } g!"T" true).2 ⟨some C56flatex.good, none⟩ :=
  C69ex.conditions (C56flatex.conditions (by decide +kernel) (by decide +kernel) (by decide +kernel)) (by decide +kernel) (by decide +kernel)

end JT

namespace JT.C71ex
open JT.C69ex

/-- The objects at `a.b` and at `aB` get the same name, and the second one has no properties. -/
def empty : GMap P := [(g!"a", object [(g!"b", object [(g!"y", leaf)])]), (g!"aB", object [])]

end JT.C71ex

namespace JT
open Spec Gql

/-- The full statement of **C71**, for schemas that name no other types: the type of a field is a scalar, `Any`, a list that its items give no type, or a type that is written. -/
def C71_statement : Prop := ∀ (m : GMap P), (∀ l q i, SchemaAt instNode ⟨some m, none⟩ l q → decodeInstance false q = .ok i → i.type = [g!"string"] ∨ i.type = [g!"object"]) →
  ∀ t ∈ C69ex.typesOf m, ∀ f ∈ t.2, f.2 ∈ [g!"string", g!"Any"] ∨ f.2 ∈ (C69ex.typesOf m).map Prod.fst

/-- If two objects get the same name and one has no properties, the type of the other is not written but named. -/
theorem C71_refuted : ¬ C71_statement := fun h => by
  have hc : ((schemaPositions instNode ⟨some C71ex.empty, none⟩).all fun x => match decodeInstance false x.2 with
      | .ok i => decide (i.type = [g!"string"] ∨ i.type = [g!"object"])
      | _ => true) = true := by decide +kernel
  have h1 := h C71ex.empty (fun l q i hat hd => by
    have := check_positions (f := fun _ q => match decodeInstance false q with
      | .ok i => decide (i.type = [g!"string"] ∨ i.type = [g!"object"])
      | _ => true) instNode_shrinks hc hat
    rw [hd] at this
    exact of_decide_eq_true this)
  exact absurd (h1 (g!"TA", [(g!"b", g!"TAB")]) (by decide +kernel) (g!"b", g!"TAB") (by simp)) (by decide +kernel)

end JT
