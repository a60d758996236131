import Verif.Props.C62
/- C70: the types of the oneOf entries implement the interface with the fields of the allOf entries. -/
namespace JT.Spec

/-- `SubRef s t`: a value of type `s` is one of type `t`. -/
inductive SubRef : Str → Str → Prop where
  | refl {t : Str} : SubRef t t
  | nonNull {t : Str} : SubRef (t ++ g!"!") t
  | list {s t : Str} : SubRef s t → SubRef (g!"[" ++ s ++ g!"]") (g!"[" ++ t ++ g!"]")
  | both {s t : Str} : SubRef s t → SubRef (s ++ g!"!") (t ++ g!"!")
  | trans {s t u : Str} : SubRef s t → SubRef t u → SubRef s u

/-- The names in a type. -/
def letters (t : Str) : Str := t.filter fun c => c ∉ ['!', '[', ']']

theorem letters_sub {s t : Str} (h : SubRef s t) : letters s = letters t := by
  induction h with
  | refl => rfl
  | nonNull => simp [letters]
  | list _ ih => simp only [letters, List.filter_append] at ih ⊢; rw [ih]
  | both _ ih => simp only [letters, List.filter_append] at ih ⊢; rw [ih]
  | trans _ _ ih1 ih2 => rw [ih1, ih2]

end JT.Spec

namespace JT.Gql
open Spec

theorem setAll_none {α : Type} {k : Str} : ∀ (m n : GMap α), k ∉ m.map Prod.fst → GMap.get k (setAll m n) = GMap.get k n
  | [], n, _ => rfl
  | (k', v) :: m, n, h => by
    have h1 : k ∉ m.map Prod.fst := fun h' => h (by simp [h'])
    have h2 : k ≠ k' := fun h' => h (by simp [h'])
    change GMap.get k (setAll m (GMap.set k' v n)) = _
    rw [setAll_none m _ h1, GMap.get_set_ne h2]

theorem setAll_some {α : Type} {k : Str} : ∀ (m n : GMap α), (k ∈ m.map Prod.fst ∨ (GMap.get k n).isSome = true) → (GMap.get k (setAll m n)).isSome = true
  | [], n, h => by
    rcases h with h | h
    · simp at h
    · exact h
  | (k', v) :: m, n, h => by
    change (GMap.get k (setAll m (GMap.set k' v n))).isSome = true
    apply setAll_some m
    by_cases hk : k = k'
    · subst hk; right; rw [GMap.get_set_self]; rfl
    · rcases h with h | h
      · left
        simpa [hk] using h
      · right
        rw [GMap.get_set_ne hk]
        exact h

/-- The fields of several types together. -/
def together (common : List GFile) : GMap GField := common.foldl (fun acc c => setAll c.root.fields acc) []

theorem together_more (common : List GFile) {k : Str} (m : GMap GField) (h : (GMap.get k m).isSome = true) :
    (GMap.get k (common.foldl (fun acc c => setAll c.root.fields acc) m)).isSome = true := by
  induction common generalizing m with
  | nil => exact h
  | cons c cs ih => exact ih _ (setAll_some _ _ (.inr h))

/-- The oneOf entries, one after the other. -/
theorem oneOf_each {sched : Sched} {title lower : Str → Str} {args : Args} {name : Str} {hasAllOf : Bool} : ∀ {ss : List Instance} {common : List GFile}
    {files : List (Str × GFile)}, oneOfFiles sched title lower args name hasAllOf ss common = .ok files → files.length = ss.length ∧
    ∀ (n : Nat) (s : Instance), ss[n]? = some s → ∃ (g : GFile) (more : List GFile) (T : GFile), newFile sched title lower args s (subName s.fromRef) hasAllOf = .ok g ∧ files[n]? = some (subName s.fromRef, T) ∧
      T = mergeCommon (common ++ more) (if hasAllOf then (GMap.get name args.typeNames).getD (title name) else []) g ∧ (args.embedAllOf = false → more = [])
  | [], common, files, h => by
    cases h
    exact ⟨rfl, fun n s hs => by simp at hs⟩
  | s :: ss, common, files, h => by
    unfold oneOfFiles at h
    obtain ⟨g, h1, h⟩ := Res.bind_eq_ok.1 h
    obtain ⟨more, h2, h⟩ := Res.bind_eq_ok.1 h
    obtain ⟨rest, h3, h⟩ := Res.bind_eq_ok.1 h
    cases h
    obtain ⟨h4, h5⟩ := oneOf_each h3
    have hmore : args.embedAllOf = false → more = [] := by
      intro he
      unfold moreFiles at h2
      rw [he] at h2
      cases h2
      rfl
    refine ⟨by simp [h4], fun n s' hs => ?_⟩
    cases n with
    | zero =>
      simp only [List.getElem?_cons_zero, Option.some.injEq] at hs
      subst hs
      exact ⟨g, more, _, h1, rfl, rfl, hmore⟩
    | succ n =>
      rw [List.getElem?_cons_succ] at hs
      obtain ⟨g', more', T, e1, e2, e3, e4⟩ := h5 n s' hs
      refine ⟨g', more ++ more', T, e1, by rw [List.getElem?_cons_succ]; exact e2, by rw [e3, List.append_assoc], fun he => ?_⟩
      rw [hmore he, e4 he]
      rfl

end JT.Gql

namespace JT
open Spec Gql

/-- What is written for a type, without the directive of lists. -/
def Gql.typeOnly (f : GField) (required pointers : Bool) : Str :=
  if f.jsonType = g!"graphql-hydration" then f.target
  else if f.array then g!"[" ++ baseType f required pointers ++ (if f.arrayNullable = true ∨ (pointers = true ∧ required = false) then g!"]" else g!"]!")
  else baseType f required pointers

theorem Gql.typeOnly_eq (f : GField) (required pointers : Bool) : (graphqlType f required pointers).2 = typeOnly f required pointers ++
    (if f.jsonType ≠ g!"graphql-hydration" ∧ f.array = true then g!" @goField(forceResolver: true)" else []) := by
  unfold graphqlType typeOnly
  by_cases h1 : f.jsonType = g!"graphql-hydration"
  · simp [h1]
  · by_cases h2 : f.array = true
    · simp only [h1, h2, if_false, if_true, ne_eq, not_false_eq_true, and_self]
    · simp [h1, h2]

theorem Gql.baseType_mono (f : GField) (pointers : Bool) : SubRef (baseType f true pointers) (baseType f false pointers) := by
  unfold baseType
  simp only
  generalize (if f.target ≠ [] then f.target else (scalarName f.jsonType).getD f.jsonType) = ty
  split
  · split
    · exact .refl
    · exact .nonNull
  · rename_i h
    rw [if_neg]
    · exact .refl
    · intro h'
      exact h ⟨h'.1, .inr (.inl trivial), h'.2.2⟩

/-- The more is required, the fewer values a type has. -/
theorem Gql.typeOnly_mono (f : GField) {r1 r2 : Bool} (h : r1 = true → r2 = true) (pointers : Bool) : SubRef (typeOnly f r2 pointers) (typeOnly f r1 pointers) := by
  have hm := baseType_mono f pointers
  cases r1 with
  | true => rw [h rfl]; exact .refl
  | false =>
    cases r2 with
    | false => exact .refl
    | true =>
      unfold typeOnly
      split
      · exact .refl
      · split
        · have hl := SubRef.list hm
          by_cases hn : f.arrayNullable = true
          · simpa [hn] using hl
          · cases pointers
            · simpa [hn] using SubRef.both hl
            · simp only [hn, Bool.false_eq_true, Bool.true_eq_false, and_false, or_false, if_false, and_self, or_true, if_true]
              exact .trans (by simpa using SubRef.nonNull (t := g!"[" ++ baseType f true true ++ g!"]")) hl
        · exact hm

/-- **C70**, partial: if there are allOf entries, the first type has the fields of all of them; there is one more type for each oneOf entry, which says that it implements
the first and has all its fields.  A field that the entry does not define itself, nor an allOf entry of a oneOf entry, is the same, and what is written for it is a type
with the same values or fewer.  What is missing is that fields the entry defines itself agree with those of the interface (`C70_refuted`), that the name it implements is
the one of the interface (`C70_refuted_name`), and that there are no other fields (`C70_refuted_leak`). -/
theorem C70_partial {sched : Sched} {title lower : Str → Str} {args : Gql.Args} {schema : Instance} {name packageName : Str} {files : List (Str × GFile)}
    (h : buildFiles sched title lower args schema name packageName = .ok files) (ha : schema.allOf ≠ []) :
    ∃ p I rest, files = (p, I) :: rest ∧ rest.length = schema.oneOf.length ∧ ∀ (n : Nat) (s : Instance), schema.oneOf[n]? = some s →
      ∃ (p' : Str) (T g : GFile), rest[n]? = some (p', T) ∧ newFile sched title lower args s (subName s.fromRef) true = .ok g ∧
        T.root.implements = (GMap.get name args.typeNames).getD (title name) ∧
        (∀ k, k ∈ I.root.required → k ∈ T.root.required) ∧ (∀ k, k ∈ g.root.required → k ∈ T.root.required) ∧
        (∀ k f, GMap.get k I.root.fields = some f → ∃ f', GMap.get k T.root.fields = some f' ∧
          (args.embedAllOf = false → k ∉ g.root.fields.map Prod.fst →
            f' = f ∧ SubRef (typeOnly f' (decide (f'.jsonName ∈ T.root.required)) args.pointers) (typeOnly f (decide (f.jsonName ∈ I.root.required)) args.pointers))) := by
  unfold buildFiles at h
  obtain ⟨common, h1, h⟩ := Res.bind_eq_ok.1 h
  obtain ⟨oneOf, h2, h⟩ := Res.bind_eq_ok.1 h
  have hl : schema.allOf.length ≠ 0 := fun h => ha (List.length_eq_zero_iff.1 h)
  obtain ⟨own, h3, h⟩ := Res.bind_eq_ok.1 h
  unfold ownFile at h3
  rw [if_neg (fun h => hl h.1)] at h3
  cases h3
  rw [if_pos hl] at h
  cases h
  rw [decide_eq_true hl] at h2
  obtain ⟨h4, h5⟩ := oneOf_each h2
  refine ⟨_, _, oneOf.map fun ng => (oneOfPath args name ng.1, ng.2), by rw [List.append_nil]; rfl, by rw [List.length_map, h4], fun n s hs => ?_⟩
  obtain ⟨g, more, T, e1, e2, e3, e4⟩ := h5 n s hs
  refine ⟨oneOfPath args name (subName s.fromRef), T, g, by rw [List.getElem?_map, e2]; rfl, e1, by rw [e3]; rfl, ?_, ?_, ?_⟩
  · intro k hk
    rw [e3]
    change k ∈ ((common ++ more).map fun c => c.root.required).flatten ++ g.root.required
    rw [List.map_append, List.flatten_append]
    exact List.mem_append_left _ (List.mem_append_left _ hk)
  · intro k hk
    rw [e3]
    exact List.mem_append_right _ hk
  · intro k f hk
    have hT : T.root.fields = setAll g.root.fields (together (common ++ more)) := by rw [e3]; rfl
    have hI : GMap.get k (together common) = some f := hk
    have hsome : (GMap.get k T.root.fields).isSome = true := by
      rw [hT]
      refine setAll_some _ _ (.inr ?_)
      unfold together
      rw [List.foldl_append]
      exact together_more more _ (by change (GMap.get k (together common)).isSome = true; rw [hI]; rfl)
    obtain ⟨f', hf'⟩ := Option.isSome_iff_exists.1 hsome
    refine ⟨f', hf', fun he hown => ?_⟩
    have hff : f' = f := by
      rw [hT, setAll_none _ _ hown, e4 he, List.append_nil, hI] at hf'
      exact (Option.some.inj hf').symm
    subst hff
    refine ⟨rfl, typeOnly_mono _ (fun hr => ?_) _⟩
    have := of_decide_eq_true hr
    apply decide_eq_true
    rw [e3]
    change f'.jsonName ∈ ((common ++ more).map fun c => c.root.required).flatten ++ g.root.required
    rw [List.map_append, List.flatten_append]
    exact List.mem_append_left _ (List.mem_append_left _ this)

namespace C70ex
open Toy

def args : Gql.Args := C69ex.args

def str : P := o [(g!"type", s g!"string")]
def int : P := o [(g!"type", s g!"integer")]

def part (ref : Str) (m : GMap P) (rq : List Str) : Instance := { Instance.zero with properties := some m, required := rq, fromRef := ref }

/-- Two types with a field in common. -/
def schema : Instance := { Instance.zero with
  allOf := [part g!"base.json" [(g!"id", str)] [g!"id"]], oneOf := [part g!"a.json" [(g!"x", int)] [], part g!"b.json" [(g!"id", int), (g!"y", str)] [g!"y"]] }

/-- The types with their fields. -/
def shown (args : Gql.Args) (schema : Instance) (name packageName : Str) : List Str := match buildFiles Sched.rev id id args schema name packageName with
  | .ok files => files.map fun pT => pT.2.root.buildType.text ++ g!" " ++ pT.2.root.jsonName ++
      (if pT.2.root.implements ≠ [] then g!" implements " ++ pT.2.root.implements else []) ++ (pT.2.root.fields.flatMap fun kf =>
        g!" " ++ kf.1 ++ g!": " ++ typeOnly kf.2 (decide (kf.2.jsonName ∈ pT.2.root.required)) args.pointers)
  | _ => []

/-- The field that the second type defines itself has another type than in the interface, and the interface has the name of the package. -/
theorem shown_schema : shown args schema g!"doc" g!"out" = [g!"interface out id: String!", g!"type a implements doc id: String! x: Int!", g!"type b implements doc id: Int! y: String!"] := by
  decide +kernel

/-- The first type has an allOf entry. -/
def embedded : Instance := { Instance.zero with
  allOf := [part g!"base.json" [(g!"id", str)] [g!"id"]],
  oneOf := [{ part g!"a.json" [] [] with allOf := [part g!"more.json" [(g!"x", int)] []] }, part g!"b.json" [(g!"y", str)] []] }

theorem shown_embedded : shown { args with embedAllOf := true } embedded g!"doc" g!"doc" =
    [g!"interface doc id: String!", g!"type a implements doc id: String! x: Int!", g!"type b implements doc id: String! x: Int! y: String!"] := by
  decide +kernel

end C70ex

/-- The full statement: the fields of the interface have, in each implementation, types with the same values or fewer. -/
def C70_statement (name packageName : Str) : Prop := ∀ (sched : Sched) (args : Gql.Args) (schema : Instance) (p : Str) (I : GFile) (rest : List (Str × GFile)), schema.allOf ≠ [] →
  buildFiles sched id id args schema name packageName = .ok ((p, I) :: rest) → ∀ pT ∈ rest, pT.2.root.implements = I.root.jsonName ∧
    ∀ k f, GMap.get k I.root.fields = some f → ∃ f', GMap.get k pT.2.root.fields = some f' ∧
      SubRef (typeOnly f' (decide (f'.jsonName ∈ pT.2.root.required)) args.pointers) (typeOnly f (decide (f.jsonName ∈ I.root.required)) args.pointers)

namespace C70ex

/-- The first type, the second of the others, and the field `id` of both. -/
theorem files : ∃ p I rest, buildFiles Sched.id id id args schema g!"doc" g!"doc" = .ok ((p, I) :: rest) ∧ ∃ pT ∈ rest,
    (GMap.get g!"id" I.root.fields).map (fun f => typeOnly f (decide (f.jsonName ∈ I.root.required)) args.pointers) = some g!"String!" ∧
    (GMap.get g!"id" pT.2.root.fields).map (fun f => typeOnly f (decide (f.jsonName ∈ pT.2.root.required)) args.pointers) = some g!"Int!" := by
  have h : (match buildFiles Sched.id id id args schema g!"doc" g!"doc" with
    | .ok ((p, I) :: rest) => rest.any fun pT =>
      decide ((GMap.get g!"id" I.root.fields).map (fun f => typeOnly f (decide (f.jsonName ∈ I.root.required)) args.pointers) = some g!"String!" ∧
        (GMap.get g!"id" pT.2.root.fields).map (fun f => typeOnly f (decide (f.jsonName ∈ pT.2.root.required)) args.pointers) = some g!"Int!")
    | _ => false) = true := by decide +kernel
  split at h
  · rename_i p I rest hb
    obtain ⟨pT, h1, h2⟩ := List.any_eq_true.1 h
    have := of_decide_eq_true h2
    exact ⟨p, I, rest, hb, pT, h1, this⟩
  · cases h

/-- The names of the interface and of what is implemented. -/
theorem file_names : ∃ p I rest, buildFiles Sched.id id id args schema g!"doc" g!"out" = .ok ((p, I) :: rest) ∧ ∃ pT ∈ rest, pT.2.root.implements ≠ I.root.jsonName := by
  have h : (match buildFiles Sched.id id id args schema g!"doc" g!"out" with
    | .ok ((p, I) :: rest) => rest.any fun pT => decide (pT.2.root.implements ≠ I.root.jsonName)
    | _ => false) = true := by decide +kernel
  split at h
  · rename_i p I rest hb
    obtain ⟨pT, h1, h2⟩ := List.any_eq_true.1 h
    have := of_decide_eq_true h2
    exact ⟨p, I, rest, hb, pT, h1, this⟩
  · cases h

end C70ex

/-- A oneOf entry that defines a field of the interface with another type does not implement it. -/
theorem C70_refuted : ¬ C70_statement g!"doc" g!"doc" := by
  intro h
  obtain ⟨p, I, rest, hb, pT, hm, h1, h2⟩ := C70ex.files
  obtain ⟨_, h3⟩ := h Sched.id C70ex.args C70ex.schema p I rest (by simp [C70ex.schema]) hb pT hm
  obtain ⟨f, hf, h4⟩ := Option.map_eq_some_iff.1 h1
  obtain ⟨f', hf', h5⟩ := h3 g!"id" f hf
  rw [hf'] at h2
  simp only [Option.map_some, Option.some.injEq] at h2
  rw [h4, h2] at h5
  exact absurd (letters_sub h5) (by decide)

/-- If the directory of the result does not have the name of the schema, the types implement an interface that there is not. -/
theorem C70_refuted_name : ¬ C70_statement g!"doc" g!"out" := by
  intro h
  obtain ⟨p, I, rest, hb, pT, hm, h1⟩ := C70ex.file_names
  exact h1 (h Sched.id C70ex.args C70ex.schema p I rest (by simp [C70ex.schema]) hb pT hm).1

/-- The fields of the allOf entries of a oneOf entry are also in the types of the entries that follow: the type `b` has the field `x` of `more.json`, which only `a.json`
includes. -/
theorem C70_refuted_leak : C70ex.shown { C70ex.args with embedAllOf := true } C70ex.embedded g!"doc" g!"doc" =
    [g!"interface doc id: String!", g!"type a implements doc id: String! x: Int!", g!"type b implements doc id: String! x: Int! y: String!"] :=
  C70ex.shown_embedded

end JT
