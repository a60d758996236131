import Verif.Proofs.GqlFiles
/- C90: the GraphQL files of schemas with allOf and oneOf entries. -/
namespace JT
open Spec Gql GqlText
open Flat (keyOf)

/-- Types can be written: the first of them, and those of the objects below the root of `inner` that are not looked up elsewhere. -/
structure Gql.TypesWritable (isPrint : Char → Bool) (title : Str → Str) (args : Gql.Args) (rn gn : Str) (inner : Instance) (hd : TypeHead) (m : GMap P) (rq : List Str) (nm : Str → Str) : Prop where
  name : GqlName hd.name
  description : ∃ d, DescribedAs hd.description d
  implements : ∃ i, ImplementsAs hd.implements i
  shown : ∀ c ∈ args.importPath ++ '.' :: title hd.goName, Shown isPrint c
  fields : FieldsWritable isPrint title args m rq nm
  below : ∀ l m' rq', l ≠ [] → ObjectAt inner l m' rq' → Written ⟨inner.properties, inner.items⟩ l → GqlName (gqlName title args.typeNames gn (names l)) ∧
    (∀ c ∈ args.importPath ++ '.' :: title (keyOf title rn l), Shown isPrint c) ∧
    FieldsWritable isPrint title args m' rq' (fun k => gqlName title args.typeNames gn (names (l ++ [.key k])))
  described : ∀ l q i, SchemaAt instNode ⟨inner.properties, inner.items⟩ l q → decodeInstance false q = .ok i → Written ⟨inner.properties, inner.items⟩ l →
    ∃ d, DescribedAs i.description d

/-- `TypesMean … d l`: the definition of the first type is `d`, and `l` are those of the objects below the root of `inner`, each with its position, in the order of their Go names. -/
structure Spec.TypesMean (isPrint : Char → Bool) (title : Str → Str) (args : Gql.Args) (rn gn : Str) (inner : Instance) (hd : TypeHead) (m : GMap P) (rq : List Str) (nm : Str → Str)
    (d : TypeDef) (l : List (List Seg × TypeDef)) : Prop where
  first : ∃ o : GObject, hd.Of o ∧ GqlFields title args.fieldNames args.pointers rq nm m o ∧ TypeMeans isPrint title args o d
  objects : ∀ p, p ∈ l.map Prod.fst ↔ p ≠ [] ∧ (∃ m' rq', ObjectAt inner p m' rq') ∧ Written ⟨inner.properties, inner.items⟩ p
  order : (l.map Prod.fst).Pairwise fun p p' => strLt (keyOf title rn p) (keyOf title rn p') = true
  each : ∀ p d', (p, d') ∈ l → ∀ m' rq', ObjectAt inner p m' rq' → ∃ o : GObject, o.jsonName = gqlName title args.typeNames gn (names p) ∧
    GqlFields title args.fieldNames args.pointers rq' (fun k => gqlName title args.typeNames gn (names (p ++ [.key k]))) m' o ∧ GqlHead title rn inner p o ∧
    TypeMeans isPrint title args o d'

theorem totals_apart {title : Str → Str} {args : Gql.Args} {rn gn : Str} {S : Instance} (hc : Conditions title args rn gn ⟨S.properties, S.items⟩) {l : List Seg} {m : GMap P}
    {rq : List Str} (ho : ObjectAt S l m rq) {k : Str} {q : P} (hk : GMap.get k m = some q) (ha : IsArray q) : GMap.get (totalOf title args.fieldNames k) m = none := by
  have hm : Flat.PropsAt ⟨S.properties, S.items⟩ l m := by
    cases ho with
    | root hm => exact .root hm
    | inner h4 h5 h6 h7 =>
      refine .inner h4 ?_
      unfold instNode
      rw [h5]
      simp only [(Gen.mem_type h6 (by decide)).2 (rfl : g!"object" = g!"object"), if_true, h7, Option.map_some]
  cases hx : GMap.get (totalOf title args.fieldNames k) m with
  | none => rfl
  | some q' => exact absurd (GMap.get_some_mem hx) ((hc.totals l m hm k q (GMap.get_some_mem hk) ha).1 q')

/-- What types that can be written say. -/
theorem types_mean {isPrint : Char → Bool} {title : Str → Str} {args : Gql.Args} {rn gn : Str} {inner : Instance} {hd : TypeHead} {m : GMap P} {rq : List Str} {nm : Str → Str} {g : GFile}
    (hc : Conditions title args rn gn ⟨inner.properties, inner.items⟩)
    (ht : ∀ k q, GMap.get k m = some q → IsArray q → GMap.get (totalOf title args.fieldNames k) m = none)
    (hw : TypesWritable isPrint title args rn gn inner hd m rq nm) (hg : TypesOf title args rn gn inner hd m rq nm g) :
    ∃ d l, TypesMean isPrint title args rn gn inner hd m rq nm d l ∧ FileMeans isPrint title args g (d :: l.map Prod.snd) := by
  have hkind : g.root.buildType ≠ .ignored := by rw [hg.head.kind]; split <;> simp
  obtain ⟨d0, hd0⟩ := fields_mean hw.fields ht hg.root hkind (by rw [hg.head.name]; exact hw.name) (by rw [hg.head.description]; exact hw.description)
    (by rw [hg.head.implements]; exact hw.implements) (by rw [hg.head.goName]; exact hw.shown)
  have hnested : ∀ κ o, (κ, o) ∈ g.nested → ∃ p m' rq', p ≠ [] ∧ ObjectAt inner p m' rq' ∧ κ = keyOf title rn p ∧ o.jsonName = gqlName title args.typeNames gn (names p) ∧
      ((o.target = [] ∧ o.buildType ≠ .ignored) ↔ Written ⟨inner.properties, inner.items⟩ p) ∧
      GqlFields title args.fieldNames args.pointers rq' (fun k => gqlName title args.typeNames gn (names (p ++ [.key k]))) m' o ∧ GqlHead title rn inner p o ∧ o.name = κ := by
    intro κ o hκ
    have hk := GMap.get_mem_nodup hg.sorted.nodup hκ
    obtain ⟨p, m', rq', a1, a2, rfl⟩ := hg.only κ o hk
    obtain ⟨o', b1, b2, b3, b4, b5⟩ := hg.each p m' rq' a1 a2
    rw [hk] at b1
    cases b1
    refine ⟨p, m', rq', a1, a2, rfl, b2, b3, b4, b5, ?_⟩
    cases b5 with
    | root _ _ _ _ => exact absurd rfl a1
    | inner _ _ b6 _ _ _ => exact b6
  have hnd : ((g.nested.map fun ko => (ko.2.name, ko.2)).map Prod.fst).Nodup := by
    rw [List.map_map]
    have : g.nested.map (Prod.fst ∘ fun ko : Str × GObject => (ko.2.name, ko.2)) = g.nested.map Prod.fst := by
      refine List.map_congr_left fun ko hko => ?_
      obtain ⟨_, _, _, _, _, _, _, _, _, _, h⟩ := hnested ko.1 ko.2 hko
      exact h
    rw [this]
    exact hg.sorted.nodup
  obtain ⟨L, g1, g2, _⟩ := Gen.sorted_spec hnd
  let keep : Str × GObject → Bool := fun x => decide (x.2.target = [] ∧ x.2.buildType ≠ .ignored)
  have heach : ∀ x ∈ L.filter keep, ∃ pd : List Seg × TypeDef, pd.1 ≠ [] ∧ Written ⟨inner.properties, inner.items⟩ pd.1 ∧ x.1 = keyOf title rn pd.1 ∧
      TypeMeans isPrint title args x.2 pd.2 ∧ ∃ m' rq', ObjectAt inner pd.1 m' rq' ∧ x.2.jsonName = gqlName title args.typeNames gn (names pd.1) ∧
        GqlFields title args.fieldNames args.pointers rq' (fun k => gqlName title args.typeNames gn (names (pd.1 ++ [.key k]))) m' x.2 ∧ GqlHead title rn inner pd.1 x.2 := by
    intro x hx
    obtain ⟨hx1, hx2⟩ := List.mem_filter.1 hx
    have hx2 := of_decide_eq_true hx2
    obtain ⟨⟨κ, o⟩, hκ, rfl⟩ := List.mem_map.1 (g1.mem_iff.1 hx1)
    obtain ⟨p, m', rq', a1, a2, a3, a4, a5, a6, a7, a8⟩ := hnested κ o hκ
    have hwr := a5.1 hx2
    obtain ⟨w1, w2, w3⟩ := hw.below p m' rq' a1 a2 hwr
    have hdesc : (∃ d, DescribedAs o.description d) ∧ o.implements = [] ∧ o.name = keyOf title rn p := by
      cases a7 with
      | root _ _ _ _ => exact absurd rfl a1
      | inner b1 b2 b3 b4 b5 b6 => exact ⟨by rw [b4]; exact hw.described _ _ _ b1 b2 hwr, b6, b3⟩
    obtain ⟨d, hd⟩ := fields_mean w3 (fun k q => totals_apart hc a2) a6 hx2.2 (by rw [a4]; exact w1) hdesc.1 ⟨none, by rw [hdesc.2.1]; exact .none⟩
      (by rw [hdesc.2.2]; exact w2)
    exact ⟨(p, d), a1, hwr, a8.trans a3, hd, m', rq', a2, a4, a6, a7⟩
  obtain ⟨l, hl⟩ := each_choice heach
  refine ⟨d0, l, ⟨⟨g.root, hg.head, hg.root, hd0⟩, ?_, ?_, ?_⟩, L, g1, g2, ?_⟩
  · intro p
    constructor
    · intro hp
      obtain ⟨pd, hpd, rfl⟩ := List.mem_map.1 hp
      obtain ⟨x, hx, b1, b2, _, _, m', rq', b3, _⟩ := each_mem hl pd hpd
      exact ⟨b1, ⟨m', rq', b3⟩, b2⟩
    · rintro ⟨hp, ⟨m', rq', ho⟩, hwp⟩
      obtain ⟨o, b1, _, b3, _, _⟩ := hg.each p m' rq' hp ho
      have hmem := GMap.get_some_mem b1
      have hx : (o.name, o) ∈ L.filter keep := List.mem_filter.2 ⟨g1.mem_iff.2 (List.mem_map.2 ⟨_, hmem, rfl⟩), decide_eq_true (b3.2 hwp)⟩
      obtain ⟨pd, hpd, c1, _, c5, _, m'', rq'', c2, _⟩ := each_mem' hl _ hx
      obtain ⟨_, _, _, _, _, _, _, _, _, _, e⟩ := hnested _ _ hmem
      have := (object_eq hc hp c1 ho c2 (by rw [← c5]; exact e.symm)).1
      exact List.mem_map.2 ⟨pd, hpd, this.symm⟩
  · rw [List.pairwise_map]
    have hpw : (L.filter keep).Pairwise fun a b => strLt a.1 b.1 = true := List.Pairwise.filter _ g2
    clear heach
    generalize L.filter keep = K at hl hpw
    induction hl with
    | nil => exact .nil
    | @cons a b as bs c1 c2 ih =>
      rw [List.pairwise_cons] at hpw ⊢
      refine ⟨fun b' hb' => ?_, ih hpw.2⟩
      obtain ⟨x, hx, e⟩ := each_mem c2 b' hb'
      rw [← c1.2.2.1, ← e.2.2.1]
      exact hpw.1 x hx
  · intro p d hpd m' rq' ho
    obtain ⟨x, hx, b1, _, _, b4, m'', rq'', b5, b6, b7, b8⟩ := each_mem hl _ hpd
    obtain ⟨_, rfl, rfl⟩ := object_eq hc b1 b1 ho b5 rfl
    exact ⟨x.2, b6, b7, b8, b4⟩
  · rw [List.filter_cons_of_pos (by simpa using ⟨hg.head.target, hkind⟩), List.filter_map]
    refine .cons hd0 ?_
    change Each _ ((L.filter keep).map Prod.snd) _
    clear heach
    generalize L.filter keep = K at hl
    induction hl with
    | nil => exact .nil
    | cons b1 _ ih => exact .cons b1.2.2.2.1 ih

/-! ### The types that are built -/

/-- The conditions on a oneOf entry: those on schemas of `C69_partial`, its properties go together with those of the allOf entries, and it has no allOf entries of its own that
are embedded. -/
structure Gql.EntryConditions (title lower : Str → Str) (args : Gql.Args) (name : Str) (allOf : List Instance) (M : GMap P) (RQ : List Str) (e : Entry) : Prop where
  names : FileNames title lower args (decide (allOf ≠ [])) e.schema.fromRef e.goName e.name
  implements : Implements title args name allOf e.implements
  props : e.schema.properties = some e.own
  conditions : Conditions title args e.goName e.name ⟨e.schema.properties, e.schema.items⟩
  over : Over title args.fieldNames e.own e.schema.required M RQ e.props e.required
  alone : args.embedAllOf = false ∨ e.schema.allOf = []

theorem rootNames_eq {title lower : Str → Str} {args : Gql.Args} {implements : Bool} {ref rn gn : Str} (h : FileNames title lower args implements ref rn gn) :
    rootNames title lower args (subName ref) implements = (rn, gn) := by
  unfold rootNames
  simp only
  rw [← Gen.nameOf_eq h.go, ← Gen.nameOf_eq h.type]

theorem entryFile_eq {args : Gql.Args} {name ref : Str} : EntryFile args name ref (oneOfPath args name (subName ref)) := by
  obtain ⟨stem, hs⟩ := baseName_total ref
  unfold oneOfPath
  rw [subName_baseName hs]
  cases hi : args.interfaceFiles with
  | false => exact .schema hi
  | true =>
    simp only [if_true]
    by_cases hp : hasPrefix stem name = true
    · rw [if_pos hp]
      exact .own hi hs (List.isPrefixOf_iff_prefix.1 hp)
    · rw [if_neg hp]
      exact .joined hi hs fun h => hp (List.isPrefixOf_iff_prefix.2 h)

theorem mapRes_ok {α β : Type} {f : α → Res β} {R : α → β → Prop} : ∀ {l : List α}, (∀ x ∈ l, ∃ y, f x = .ok y ∧ R x y) → ∃ l', mapRes f l = .ok l' ∧ Each R l l'
  | [], _ => ⟨[], rfl, .nil⟩
  | x :: l, h => by
    obtain ⟨y, h1, h2⟩ := h x (by simp)
    obtain ⟨l', h3, h4⟩ := mapRes_ok (l := l) fun z hz => h z (by simp [hz])
    exact ⟨y :: l', by simp [mapRes, h1, h3, Res.bind, Bind.bind, Pure.pure], .cons h2 h4⟩

theorem oneOf_types {sched : Sched} {title lower : Str → Str} {args : Gql.Args} {name gn0 : Str} {allOf : List Instance} {M : GMap P} {RQ : List Str} {common : List GFile} {o0 : GObject}
    (h0 : GqlFields title args.fieldNames args.pointers RQ (fun k => gqlName title args.typeNames gn0 [k]) M o0)
    (hf0 : o0.fields = common.foldl (fun acc c => setAll c.root.fields acc) []) (hr0 : o0.required = (common.map fun c => c.root.required).flatten) :
    ∀ {es : List Entry}, (∀ e ∈ es, EntryConditions title lower args name allOf M RQ e) →
      ∃ files, oneOfFiles sched title lower args name (decide (allOf.length ≠ 0)) (es.map Entry.schema) common = .ok files ∧
        Each (fun (e : Entry) (pg : Str × GFile) => pg.1 = subName e.schema.fromRef ∧
          TypesOf title args e.goName e.name e.schema e.head e.props e.required (e.typeName title args gn0) pg.2) es files
  | [], _ => ⟨[], rfl, .nil⟩
  | e :: es, h => by
    have he := h e (by simp)
    have hd : decide (allOf.length ≠ 0) = decide (allOf ≠ []) := by cases allOf <;> simp
    have hrn := rootNames_eq he.names
    rw [← hd] at hrn
    have hc := he.conditions
    obtain ⟨g, h1, h2⟩ := entry_types (sched := sched) (name := subName e.schema.fromRef) (implements := decide (allOf.length ≠ 0)) (lower := lower) he.props (by rw [hrn]; exact hc)
    rw [hrn] at h2
    have hmore : moreFiles sched title lower args e.schema = .ok [] := by
      unfold moreFiles
      rcases he.alone with h' | h' <;> rw [h']
      · rfl
      · split <;> rfl
    have himp : (if decide (allOf.length ≠ 0) = true then (GMap.get name args.typeNames).getD (title name) else []) = e.implements := by
      rw [hd]
      have hi := he.implements
      generalize e.implements = i at hi
      cases hi with
      | interface h3 h4 =>
        simp only [h3, ne_eq, not_false_eq_true, decide_true, if_true]
        rcases h4 with h4 | ⟨h4, h5⟩ <;> rw [h4]
        · rfl
        · exact h5.symm
      | none h3 => simp [h3]
    obtain ⟨files, h3, h4⟩ := oneOf_types (sched := sched) h0 hf0 hr0 (es := es) fun e he => h e (by simp [he])
    refine ⟨(subName e.schema.fromRef, mergeCommon common e.implements g) :: files, ?_, .cons ⟨rfl, ?_⟩ h4⟩
    · rw [List.map_cons, oneOfFiles, h1, hmore, himp]
      simp only [Res.bind, Bind.bind, Pure.pure, List.append_nil, h3]
    · exact over_types (implements := e.implements) h0 hf0 hr0 h2 he.over

/-- The conditions on the schema: its allOf entries go together, and the objects in them have the conditions of `C69_partial`. -/
structure Gql.FilesConditions (title lower : Str → Str) (args : Gql.Args) (schema : Instance) (name packageName : Str) (rn0 gn0 : Str) (hd : TypeHead) (M : GMap P) (RQ : List Str)
    (es : List Entry) : Prop where
  entries : es.map Entry.schema = schema.oneOf
  some : schema.allOf ≠ [] ∨ schema.oneOf ≠ []
  together : Together schema.allOf M RQ
  names : ∀ a as, schema.allOf = a :: as → FileNames title lower args false a.fromRef rn0 gn0 ∧ CommonHead title args packageName rn0 schema.oneOf hd
  conditions : schema.allOf ≠ [] → Conditions title args rn0 gn0 ⟨.some M, none⟩
  each : ∀ e ∈ es, EntryConditions title lower args name schema.allOf M RQ e

/-- What is built first: the type for the allOf entries with the types of the objects in them, if there are any. -/
inductive Spec.FirstTypes (title : Str → Str) (args : Gql.Args) (schema : Instance) (rn0 gn0 : Str) (hd : TypeHead) (M : GMap P) (RQ : List Str) : List GFile → Prop where
  | none : schema.allOf = [] → FirstTypes title args schema rn0 gn0 hd M RQ []
  | some {g : GFile} : schema.allOf ≠ [] → TypesOf title args rn0 gn0 (allTogether M RQ) hd M RQ (fun k => gqlName title args.typeNames gn0 [k]) g →
      FirstTypes title args schema rn0 gn0 hd M RQ [g]

/-- The types that are built for a schema with allOf or oneOf entries. -/
theorem files_types {title lower : Str → Str} {args : Gql.Args} {schema : Instance} {name packageName rn0 gn0 : Str} {hd : TypeHead} {M : GMap P} {RQ : List Str} {es : List Entry}
    (hc : FilesConditions title lower args schema name packageName rn0 gn0 hd M RQ es) (sched : Sched) :
    ∃ first rest, buildFiles sched title lower args schema name packageName = .ok (first.map (fun g => (name ++ g!".graphqls", g)) ++ rest) ∧
      FirstTypes title args schema rn0 gn0 hd M RQ first ∧ rest.length = schema.oneOf.length ∧
      Each (fun (e : Entry) (pg : Str × GFile) => EntryFile args name e.schema.fromRef pg.1 ∧
        TypesOf title args e.goName e.name e.schema e.head e.props e.required (e.typeName title args gn0) pg.2) es rest := by
  have hmap : ∀ {files : List (Str × GFile)}, Each (fun (e : Entry) (pg : Str × GFile) => pg.1 = subName e.schema.fromRef ∧
      TypesOf title args e.goName e.name e.schema e.head e.props e.required (e.typeName title args gn0) pg.2) es files →
      Each (fun (e : Entry) (pg : Str × GFile) => EntryFile args name e.schema.fromRef pg.1 ∧
        TypesOf title args e.goName e.name e.schema e.head e.props e.required (e.typeName title args gn0) pg.2) es (files.map fun ng => (oneOfPath args name ng.1, ng.2)) ∧
      files.length = es.length := by
    intro files h
    clear hc
    induction h with
    | nil => exact ⟨.nil, rfl⟩
    | cons h1 _ ih => exact ⟨.cons ⟨by simp only [h1.1]; exact entryFile_eq, h1.2⟩ ih.1, by simp [ih.2]⟩
  have hlen : es.length = schema.oneOf.length := by rw [← hc.entries, List.length_map]
  have hown : ownFile sched title lower args schema name = .ok [] := by
    unfold ownFile
    rw [if_neg]
    rintro ⟨h1, h2⟩
    rcases hc.some with h | h
    · exact h (List.length_eq_zero_iff.1 h1)
    · exact h (List.length_eq_zero_iff.1 h2)
  cases hall : schema.allOf with
  | nil =>
    have ht := hc.together
    rw [hall] at ht
    have hM : M = [] := List.eq_nil_iff_forall_not_mem.2 fun x hx => by
      obtain ⟨a, ha, _⟩ := (ht.props x.1 x.2).1 hx
      cases ha
    have hR : RQ = [] := List.eq_nil_iff_forall_not_mem.2 fun x hx => by
      obtain ⟨a, ha, _⟩ := (ht.required x).1 hx
      cases ha
    have h0 : GqlFields title args.fieldNames args.pointers RQ (fun k => gqlName title args.typeNames gn0 [k]) M (interfaceFile title args [] [] false []).root := by
      subst hM hR
      exact ⟨trivial, fun k q h => (nomatch h), fun k q h => (nomatch h), fun κ f h => (nomatch h), fun κ => by simp [interfaceFile, GMap.get]⟩
    obtain ⟨files, h1, h2⟩ := oneOf_types (sched := sched) (common := []) h0 rfl rfl hc.each
    rw [hc.entries, hall] at h1
    simp only [List.length_nil, ne_eq, not_true] at h1
    obtain ⟨h3, h4⟩ := hmap h2
    refine ⟨[], _, ?_, .none hall, by rw [List.length_map, h4, hlen], h3⟩
    unfold buildFiles
    rw [hown]
    simp only [hall, allOfFiles, mapRes, Res.bind, Bind.bind, Pure.pure, h1, List.length_nil, List.map_nil, List.nil_append, ne_eq, not_true, if_false, List.append_nil]
  | cons a as =>
    have hne : schema.allOf ≠ [] := by rw [hall]; simp
    have hlenA : schema.allOf.length ≠ 0 := fun h => hne (List.length_eq_zero_iff.1 h)
    have hcM := hc.conditions hne
    obtain ⟨hfn, hch⟩ := hc.names a as hall
    have hrn := rootNames_eq hfn
    have ht := hc.together
    have hhead : schema.allOf.headD Instance.zero = a := by rw [hall]; rfl
    obtain ⟨common, g1, g2⟩ := mapRes_ok (f := fun s => newFile sched title lower args s (subName a.fromRef) false)
      (R := fun a c => ∃ hd m, a.properties = some m ∧ TypesOf title args rn0 gn0 a hd m a.required (fun k => gqlName title args.typeNames gn0 [k]) c) (l := schema.allOf) fun x hx => by
        obtain ⟨m, e1, e2, e3⟩ := ht.each x hx
        have hsub : ∀ k q, (k, q) ∈ m → (k, q) ∈ M := fun k q hk => (ht.props k q).2 ⟨x, hx, m, e1, hk⟩
        obtain ⟨g, k1, k2⟩ := entry_types (sched := sched) (name := subName a.fromRef) (implements := false) (lower := lower) e1
          (by rw [hrn, e1, e2]; exact conditions_sub hsub e3 hcM)
        rw [hrn] at k2
        exact ⟨g, k1, _, m, e1, k2⟩
    have hT := together_types (packageName := packageName) (ref := a.fromRef) ht hcM g2 hch hfn.go
    obtain ⟨files, h1, h2⟩ := oneOf_types (sched := sched) (common := common) hT.root rfl rfl hc.each
    rw [hc.entries] at h1
    simp only [hlenA, ne_eq, not_false_eq_true] at h1
    obtain ⟨h3, h4⟩ := hmap h2
    refine ⟨[_], _, ?_, .some hne hT, by rw [List.length_map, h4, hlen], h3⟩
    unfold buildFiles
    rw [hown, hhead]
    simp only [allOfFiles, g1, Res.bind, Bind.bind, Pure.pure, h1, hlenA, ne_eq, not_false_eq_true, if_true, List.append_nil, List.map_cons, List.map_nil, List.cons_append,
      List.nil_append]

/-! ### What is written -/

/-- The types can be written. -/
structure Gql.FilesWritable (isPrint : Char → Bool) (title : Str → Str) (args : Gql.Args) (schema : Instance) (rn0 gn0 : Str) (hd : TypeHead) (M : GMap P) (RQ : List Str) (es : List Entry) :
    Prop where
  first : schema.allOf ≠ [] → TypesWritable isPrint title args rn0 gn0 (allTogether M RQ) hd M RQ (fun k => gqlName title args.typeNames gn0 [k])
  each : ∀ e ∈ es, TypesWritable isPrint title args e.goName e.name e.schema e.head e.props e.required (e.typeName title args gn0)

/-- The definitions for the allOf entries. -/
inductive Spec.FirstMean (isPrint : Char → Bool) (title : Str → Str) (args : Gql.Args) (schema : Instance) (rn0 gn0 : Str) (hd : TypeHead) (M : GMap P) (RQ : List Str) :
    List TypeDef → Prop where
  | none : schema.allOf = [] → FirstMean isPrint title args schema rn0 gn0 hd M RQ []
  | some {d : TypeDef} {l : List (List Seg × TypeDef)} : schema.allOf ≠ [] →
      TypesMean isPrint title args rn0 gn0 (allTogether M RQ) hd M RQ (fun k => gqlName title args.typeNames gn0 [k]) d l →
      FirstMean isPrint title args schema rn0 gn0 hd M RQ (d :: l.map Prod.snd)

/-- The definitions for a oneOf entry. -/
def Spec.EntryMeans (isPrint : Char → Bool) (title : Str → Str) (args : Gql.Args) (gn0 : Str) (e : Entry) (ds : List TypeDef) : Prop :=
  ∃ d l, TypesMean isPrint title args e.goName e.name e.schema e.head e.props e.required (e.typeName title args gn0) d l ∧ ds = d :: l.map Prod.snd

/-- The text is GraphQL, and the definitions are the only ones it can be read as. -/
def Spec.Says (text : Str) (defs : List Def) : Prop := ∀ ds, Denotes text ds ↔ ds = defs

/-- Each definition is in its file: all are in the file for the schema, unless there is to be a file for each oneOf entry. -/
inductive Spec.FilesSay (args : Gql.Args) (name : Str) (es : List Entry) (ds0 : List TypeDef) (dss : List (List TypeDef)) : GMap Str → Prop where
  | one {text : Str} : args.interfaceFiles = false → Says text (anyScalar args true ++ (ds0 ++ dss.flatten).map Def.type) →
      FilesSay args name es ds0 dss [(name ++ g!".graphqls", text)]
  | each {files : GMap Str} {text : Str} : args.interfaceFiles = true → GMap.get (name ++ g!".graphqls") files = some text →
      Says text (anyScalar args true ++ ds0.map Def.type) →
      Each (fun e ds => ∃ p text, EntryFile args name e.schema.fromRef p ∧ GMap.get p files = some text ∧ Says text (ds.map Def.type)) es dss →
      (∀ p text, GMap.get p files = some text → p = name ++ g!".graphqls" ∨ ∃ e ∈ es, EntryFile args name e.schema.fromRef p) → FilesSay args name es ds0 dss files

/-- The files for the entries are different, and not the one for the schema. -/
structure Spec.FilesApart (args : Gql.Args) (name : Str) (es : List Entry) : Prop where
  entries : es.Pairwise fun e e' => ∀ p, EntryFile args name e.schema.fromRef p → ¬ EntryFile args name e'.schema.fromRef p
  schema : ∀ e ∈ es, ¬ EntryFile args name e.schema.fromRef (name ++ g!".graphqls")

theorem set_files {isPrint : Char → Bool} {title : Str → Str} {args : Gql.Args} {name : Str} {R : Entry → GFile → Prop} : ∀ {es : List Entry} {rest : List (Str × GFile)},
    Each (fun (e : Entry) (pg : Str × GFile) => EntryFile args name e.schema.fromRef pg.1 ∧ R e pg.2) es rest →
    (es.Pairwise fun e e' => ∀ p, EntryFile args name e.schema.fromRef p → ¬ EntryFile args name e'.schema.fromRef p) → ∀ (m : GMap Str),
    let files := rest.foldl (fun m pg => GMap.set pg.1 (fileText isPrint title args false [pg.2]) m) m
    Each (fun (e : Entry) (pg : Str × GFile) => EntryFile args name e.schema.fromRef pg.1 ∧ R e pg.2 ∧ GMap.get pg.1 files = some (fileText isPrint title args false [pg.2])) es rest ∧
    (∀ p, (∀ e ∈ es, ¬ EntryFile args name e.schema.fromRef p) → GMap.get p files = GMap.get p m)
  | _, _, .nil, _, m => ⟨.nil, fun _ _ => rfl⟩
  | _, _, @Each.cons _ _ _ e pg es rest h hs, hp, m => by
    rw [List.pairwise_cons] at hp
    obtain ⟨h1, h2⟩ := set_files (isPrint := isPrint) (title := title) hs hp.2 (GMap.set pg.1 (fileText isPrint title args false [pg.2]) m)
    refine ⟨.cons ⟨h.1, h.2, ?_⟩ h1, fun p hpn => ?_⟩
    · have := h2 pg.1 fun e' he' => hp.1 e' he' _ h.1
      rw [GMap.get_set_self] at this
      exact this
    · have hne : p ≠ pg.1 := by
        rintro rfl
        exact hpn _ (by simp) h.1
      have := h2 p fun e' he' => hpn e' (by simp [he'])
      rw [GMap.get_set_ne hne] at this
      exact this

/-- **C90**, partial: for a schema with allOf or oneOf entries the files are GraphQL, and there is only one way to read them: the type for the allOf entries has a field for each
of their properties and is an interface if there are oneOf entries; the type of each oneOf entry implements it and has fields for these properties and its own, and there is one
more type for each object that is not looked up elsewhere.  They are in the file for the schema, or those of each oneOf entry in a file of their own.  The conditions are that the
properties of the entries go together (`Together`, `Over`), those of `C69_partial` for each entry, that the types can be written, that oneOf entries have no embedded allOf entries of
their own (`C70_refuted_leak`), and that the files are different (`C90_refuted`). -/
theorem C90_partial {isPrint : Char → Bool} {title lower : Str → Str} {args : Gql.Args} {schema : Instance} {name packageName rn0 gn0 : Str} {hd : TypeHead} {M : GMap P} {RQ : List Str}
    {es : List Entry} (hc : FilesConditions title lower args schema name packageName rn0 gn0 hd M RQ es) (hw : FilesWritable isPrint title args schema rn0 gn0 hd M RQ es)
    (hp : args.interfaceFiles = true → FilesApart args name es) (sched : Sched) :
    ∃ files ds0 dss, graphqlFiles sched isPrint title lower args schema name packageName = .ok files ∧ FirstMean isPrint title args schema rn0 gn0 hd M RQ ds0 ∧
      Each (EntryMeans isPrint title args gn0) es dss ∧ FilesSay args name es ds0 dss files := by
  obtain ⟨first, rest, hb, hfirst, hlen, heach⟩ := files_types hc sched
  have h0 : ∃ ds0 dss0, FirstMean isPrint title args schema rn0 gn0 hd M RQ ds0 ∧ Each (fun g ds => FileMeans isPrint title args g ds) first dss0 ∧ dss0.flatten = ds0 := by
    cases hfirst with
    | none h => exact ⟨[], [], .none h, .nil, rfl⟩
    | @some g h hT =>
      have hcM := hc.conditions h
      obtain ⟨d, l, h1, h2⟩ := types_mean (inner := allTogether M RQ) hcM (fun k q hk => totals_apart (S := allTogether M RQ) hcM (.root rfl) hk) (hw.first h) hT
      exact ⟨_, [_], .some h h1, .cons h2 .nil, by simp⟩
  obtain ⟨ds0, dss0, a1, a2, a3⟩ := h0
  have hent : ∀ e ∈ es, ∀ g, TypesOf title args e.goName e.name e.schema e.head e.props e.required (e.typeName title args gn0) g →
      ∃ ds, EntryMeans isPrint title args gn0 e ds ∧ FileMeans isPrint title args g ds := by
    intro e he g hg
    obtain ⟨d, l, h1, h2⟩ := types_mean (hc.each e he).conditions (fun k q hk ha => ((hc.each e he).over.totals k q hk ha).1) (hw.each e he) hg
    exact ⟨_, ⟨d, l, h1, rfl⟩, h2⟩
  have hdss : ∀ {es' : List Entry} {rest' : List (Str × GFile)} {Q : Entry → Str × GFile → Prop}, (∀ e ∈ es', e ∈ es) →
      Each (fun (e : Entry) (pg : Str × GFile) => EntryFile args name e.schema.fromRef pg.1 ∧
        TypesOf title args e.goName e.name e.schema e.head e.props e.required (e.typeName title args gn0) pg.2 ∧ Q e pg) es' rest' →
      ∃ dss, Each (EntryMeans isPrint title args gn0) es' dss ∧ Each (fun g ds => FileMeans isPrint title args g ds) (rest'.map Prod.snd) dss ∧
        Each (fun e ds => ∃ p g, EntryFile args name e.schema.fromRef p ∧ Q e (p, g) ∧ FileMeans isPrint title args g ds) es' dss := by
    intro es' rest' Q hsub h
    induction h with
    | nil => exact ⟨[], .nil, .nil, .nil⟩
    | @cons e pg es' rest' h1 _ ih =>
      obtain ⟨dss, b1, b2, b3⟩ := ih fun e he => hsub e (by simp [he])
      obtain ⟨ds, c1, c2⟩ := hent e (hsub e (by simp)) pg.2 h1.2.1
      exact ⟨ds :: dss, .cons c1 b1, .cons c2 b2, .cons ⟨pg.1, pg.2, h1.1, h1.2.2, c2⟩ b3⟩
  have happend : ∀ {α β : Type} {R : α → β → Prop} {l l' : List α} {r r' : List β}, Each R l r → Each R l' r' → Each R (l ++ l') (r ++ r') := by
    intro α β R l l' r r' h h'
    induction h with
    | nil => exact h'
    | cons h1 _ ih => exact .cons h1 ih
  unfold graphqlFiles
  rw [hb]
  cases hi : args.interfaceFiles with
  | false =>
    have heach' : Each (fun (e : Entry) (pg : Str × GFile) => EntryFile args name e.schema.fromRef pg.1 ∧
        TypesOf title args e.goName e.name e.schema e.head e.props e.required (e.typeName title args gn0) pg.2 ∧ True) es rest := by
      clear hb hlen
      generalize es = es' at heach
      induction heach with
      | nil => exact .nil
      | cons h _ ih => exact .cons ⟨h.1, h.2, trivial⟩ ih
    obtain ⟨dss, b1, b2, _⟩ := hdss (fun e he => he) heach'
    refine ⟨_, ds0, dss, rfl, a1, b1, .one hi ?_⟩
    intro ds
    rw [List.map_append, List.map_map, show (Prod.snd ∘ fun g : GFile => (name ++ g!".graphqls", g)) = id from rfl, List.map_id, C89_text (happend a2 b2), List.flatten_append, a3]
  | true =>
    have hp := hp hi
    obtain ⟨c1, c2⟩ := set_files (isPrint := isPrint) (title := title) heach hp.entries [(name ++ g!".graphqls", fileText isPrint title args true first)]
    obtain ⟨dss, b1, b2, b3⟩ := hdss (fun e he => he) c1
    have hn : (first.map (fun g => (name ++ g!".graphqls", g)) ++ rest).length - schema.oneOf.length = (first.map (fun g => (name ++ g!".graphqls", g))).length := by
      rw [List.length_append, hlen]
      omega
    refine ⟨_, ds0, dss, rfl, a1, b1, ?_⟩
    rw [hn, List.drop_left, List.take_left, List.map_map, show (Prod.snd ∘ fun g : GFile => (name ++ g!".graphqls", g)) = id from rfl, List.map_id]
    refine .each (text := fileText isPrint title args true first) hi ?_ ?_ ?_ ?_
    · rw [c2 _ hp.schema]
      simp [GMap.get]
    · intro ds
      rw [C89_text a2, a3]
    · clear b1 b2
      generalize es = es' at b3
      induction b3 with
      | nil => exact .nil
      | cons h _ ih =>
        obtain ⟨p, g, d1, d2, d3⟩ := h
        refine .cons ⟨p, _, d1, d2, fun ds => ?_⟩ ih
        rw [C89_text (.cons d3 .nil)]
        simp [anyScalar]
    · intro p text hpt
      by_cases h : ∃ e ∈ es, EntryFile args name e.schema.fromRef p
      · exact .inr h
      · rw [c2 p fun e he h' => h ⟨e, he, h'⟩] at hpt
        refine .inl ?_
        by_cases hpe : p = name ++ g!".graphqls"
        · exact hpe
        · simp [GMap.get, hpe] at hpt

end JT

namespace JT.C90ex
open Spec Gql GqlText Toy
open Flat (keyOf)

/-! Checks for concrete schemas. -/

/-- The properties of the entries, one after the other. -/
def allProps (as : List Instance) : GMap P := as.flatMap fun a => a.properties.getD []

def allRequired (as : List Instance) : List Str := as.flatMap fun a => a.required

def togetherB (as : List Instance) : Bool := as.all fun a => a.properties.isSome && a.items.isNone && decide (((a.properties.getD []).map Prod.fst).Nodup) &&
  (a.properties.getD []).all fun kq => !decide (kq.1 ∈ allRequired as) || decide (kq.1 ∈ a.required)

theorem together_of {as : List Instance} (h : togetherB as = true) : Together as (allProps as) (allRequired as) := by
  have h1 := fun a ha => List.all_eq_true.1 h a ha
  simp only [Bool.and_eq_true, decide_eq_true_eq] at h1
  refine ⟨fun a ha => ?_, fun k q => ?_, fun k => by simp [allRequired], fun a ha m hm k q hk hr => ?_⟩
  · obtain ⟨⟨⟨h2, h3⟩, h4⟩, _⟩ := h1 a ha
    obtain ⟨m, hm⟩ := Option.isSome_iff_exists.1 h2
    rw [hm] at h4
    exact ⟨m, hm, Option.isNone_iff_eq_none.1 h3, h4⟩
  · unfold allProps
    rw [List.mem_flatMap]
    constructor
    · rintro ⟨a, ha, hk⟩
      obtain ⟨m, hm⟩ := Option.isSome_iff_exists.1 (h1 a ha).1.1.1
      rw [hm] at hk
      exact ⟨a, ha, m, hm, hk⟩
    · rintro ⟨a, ha, m, hm, hk⟩
      exact ⟨a, ha, by rw [hm]; exact hk⟩
  · have h2 := (h1 a ha).2
    rw [hm] at h2
    have h3 := List.all_eq_true.1 h2 _ hk
    simp only [Bool.or_eq_true, Bool.not_eq_true', decide_eq_false_iff_not, decide_eq_true_eq] at h3
    exact h3.resolve_left fun h => h hr

def overProps (m M : GMap P) : GMap P := m ++ M.filter fun kq => decide (kq.1 ∉ m.map Prod.fst)

theorem get_append {α : Type} (k : Str) : ∀ (m n : GMap α), GMap.get k (m ++ n) = (GMap.get k m).or (GMap.get k n)
  | [], _ => rfl
  | (k', v) :: m, n => by
    by_cases h : k = k'
    · simp [GMap.get, h]
    · simpa [GMap.get, h] using get_append k m n

theorem get_filter {α : Type} {k : Str} {p : Str → Bool} (hp : p k = true) : ∀ (m : GMap α), GMap.get k (m.filter fun kv => p kv.1) = GMap.get k m
  | [] => rfl
  | (k', v) :: m => by
    by_cases h : k = k'
    · subst h
      rw [List.filter_cons_of_pos (by simpa using hp)]
      simp [GMap.get]
    · rw [List.filter_cons]
      split
      · simpa [GMap.get, h] using get_filter hp m
      · simpa [GMap.get, h] using get_filter hp m

theorem get_over (m M : GMap P) (k : Str) : GMap.get k (overProps m M) = (GMap.get k m).or (GMap.get k M) := by
  unfold overProps
  rw [get_append]
  cases h : GMap.get k m with
  | some q => rfl
  | none =>
    rw [get_filter (p := fun k => decide (k ∉ m.map Prod.fst)) (decide_eq_true (GMap.get_none_iff.1 h))]

def overB (title : Str → Str) (rename : GMap Str) (m : GMap P) (rq : List Str) (M : GMap P) (RQ : List Str) : Bool :=
  (m.all fun kq => !decide (kq.1 ∈ RQ) || decide (kq.1 ∈ rq)) && (M.all fun kq => !decide (kq.1 ∈ rq) || decide (kq.1 ∈ RQ) || decide (kq.1 ∈ m.map Prod.fst)) &&
    (m.all fun kq => C69ex.isArrayB kq.2 || M.all fun kq' => decide (kq'.1 ≠ kq.1) || !C69ex.isArrayB kq'.2) && C69ex.totalsB title rename (overProps m M)

theorem isArrayB_to {q : P} (h : C69ex.isArrayB q = true) : IsArray q := by
  unfold C69ex.isArrayB at h
  split at h
  · rename_i r hr
    exact ⟨r, hr⟩
  · cases h

theorem over_of {title : Str → Str} {rename : GMap Str} {m M : GMap P} {rq RQ : List Str} (h : overB title rename m rq M RQ = true) :
    Over title rename m rq M RQ (overProps m M) (RQ ++ rq) := by
  unfold overB at h
  simp only [Bool.and_eq_true, List.all_eq_true, Bool.or_eq_true, Bool.not_eq_true', decide_eq_false_iff_not, decide_eq_true_eq] at h
  obtain ⟨⟨⟨h1, h2⟩, h3⟩, h4⟩ := h
  refine ⟨fun k q => ?_, fun k => by simp, fun k q hk hr => (h1 _ (GMap.get_some_mem hk)).resolve_left fun h => h hr, fun k q hk hM hr => ?_, fun k q q' hk hM ha => ?_, fun k q hk ha => ?_⟩
  · rw [get_over]
    cases GMap.get k m <;> simp
  · rcases h2 _ (GMap.get_some_mem hM) with (h | h) | h
    · exact absurd hr h
    · exact h
    · exact absurd h (GMap.get_none_iff.1 hk)
  · rcases h3 _ (GMap.get_some_mem hk) with h | h
    · exact isArrayB_to h
    · rcases h _ (GMap.get_some_mem hM) with h | h
      · exact absurd rfl h
      · rw [C69ex.isArrayB_of ha] at h
        cases h
  · obtain ⟨e1, e2⟩ := C69ex.totalsB_of h4 (GMap.get_some_mem hk) ha
    refine ⟨GMap.get_none_iff.2 fun h => ?_, fun k' q' hk' => e2 k' q' (GMap.get_some_mem hk')⟩
    obtain ⟨x, hx, e⟩ := List.mem_map.1 h
    exact e1 x.2 (by rw [← e]; exact hx)

def fieldB (title : Str → Str) (args : Args) (nm : Str → Str) (kq : Str × P) : Bool :=
  C89ex.nameB kq.1 && (match decodeInstance false kq.2 with | .ok i => C89ex.textB i.description | _ => true) &&
    (!C69ex.isArrayB kq.2 || (C89ex.nameB (totalOf title args.fieldNames kq.1) && C89ex.describableB (totalSentence ((GMap.get kq.1 args.fieldNames).getD kq.1)))) &&
    C89ex.typeB (nm kq.1) kq.2

def fieldsB (title : Str → Str) (args : Args) (m : GMap P) (nm : Str → Str) : Bool := !m.isEmpty && C89ex.apartB title args.fieldNames m && m.all (fieldB title args nm)

theorem fields_of {isPrint : Char → Bool} {title : Str → Str} {args : Args} {m : GMap P} {rq : List Str} {nm : Str → Str} (h : fieldsB title args m nm = true) :
    FieldsWritable isPrint title args m rq nm := by
  unfold fieldsB at h
  simp only [Bool.and_eq_true, Bool.not_eq_true', List.all_eq_true] at h
  obtain ⟨⟨h1, h2⟩, h3⟩ := h
  unfold fieldB at h3
  simp only [Bool.and_eq_true, Bool.or_eq_true, Bool.not_eq_true'] at h3
  refine ⟨(fun h => by rw [h] at h1; cases h1), C89ex.apartB_of h2, fun k q i hk hd => ?_, fun k q f hk hf => C89ex.typeB_of (h3 _ (GMap.get_some_mem hk)).2 hf⟩
  obtain ⟨⟨⟨e1, e2⟩, e3⟩, _⟩ := h3 _ (GMap.get_some_mem hk)
  simp only [hd] at e2
  refine ⟨name_of_b e1, C89ex.textB_of e2, fun ha => ?_⟩
  rw [C69ex.isArrayB_of ha] at e3
  have := e3.resolve_left (by simp)
  exact ⟨name_of_b this.1, C89ex.describableB_of this.2⟩

def belowB (title : Str → Str) (args : Args) (rn gn : Str) (l : List Seg) (q : P) : Bool := match decodeInstance false q with
  | .ok i => C89ex.describableB i.description && (decide (g!"object" ∉ i.type) || (C89ex.nameB (gqlName title args.typeNames gn (names l)) &&
      C89ex.shownB (args.importPath ++ '.' :: title (keyOf title rn l)) &&
      fieldsB title args (i.properties.getD []) (fun k => gqlName title args.typeNames gn (names (l ++ [.key k])))))
  | _ => true

def headB (title : Str → Str) (args : Args) (hd : TypeHead) : Bool :=
  C89ex.nameB hd.name && C89ex.describableB hd.description && (hd.implements.isEmpty || C89ex.nameB hd.implements) && C89ex.shownB (args.importPath ++ '.' :: title hd.goName)

theorem shown_of {isPrint : Char → Bool} {s : Str} (h : C89ex.shownB s = true) : ∀ c ∈ s, Shown isPrint c :=
  fun c hc => .inl (of_decide_eq_true (List.all_eq_true.1 h c hc))

theorem types_of {isPrint : Char → Bool} {title : Str → Str} {args : Args} {rn gn : Str} {inner : Instance} {hd : TypeHead} {m : GMap P} {rq : List Str} {nm : Str → Str}
    (hh : headB title args hd = true) (hf : fieldsB title args m nm = true)
    (hb : ((schemaPositions instNode ⟨inner.properties, inner.items⟩).all fun x => belowB title args rn gn x.1 x.2) = true) :
    TypesWritable isPrint title args rn gn inner hd m rq nm := by
  unfold headB at hh
  simp only [Bool.and_eq_true, Bool.or_eq_true] at hh
  obtain ⟨⟨⟨h1, h2⟩, h3⟩, h4⟩ := hh
  refine ⟨name_of_b h1, C89ex.described_of h2, ?_, shown_of h4, fields_of hf, fun l m' rq' hl ho _ => ?_, fun l q i hat hd _ => ?_⟩
  · rcases h3 with h3 | h3
    · rw [List.isEmpty_iff.1 h3]
      exact ⟨_, .none⟩
    · exact ⟨_, .some (name_of_b h3)⟩
  · cases ho with
    | root _ => exact absurd rfl hl
    | @inner _ q i _ g1 g2 g3 g4 =>
      have := check_positions instNode_shrinks hb g1
      unfold belowB at this
      simp only [g2, g4, (Gen.mem_type g3 (by decide)).2 (rfl : g!"object" = g!"object"), Option.getD_some, Bool.and_eq_true, Bool.or_eq_true, decide_eq_true_eq,
        not_true, false_or] at this
      exact ⟨name_of_b this.2.1.1, shown_of this.2.1.2, fields_of this.2.2⟩
  · have := check_positions instNode_shrinks hb hat
    unfold belowB at this
    simp only [hd, Bool.and_eq_true] at this
    exact C89ex.described_of this.1

theorem nameOf_of {names : GMap Str} {f : Str → Str} {ref n : Str} (h : (GMap.get (subName ref) names).getD (f (subName ref)) = n) : NameOf names f ref n := by
  subst h
  exact Gen.nameOf_getD

theorem fileNames_of {title lower : Str → Str} {args : Args} {implements : Bool} {ref rn gn : Str} (h : rootNames title lower args (subName ref) implements = (rn, gn)) :
    FileNames title lower args implements ref rn gn := by
  unfold rootNames at h
  simp only [Prod.mk.injEq] at h
  obtain ⟨h1, h2⟩ := h
  exact ⟨nameOf_of h1, nameOf_of (by rw [← h1]; exact h2)⟩

theorem conditions_of {title : Str → Str} {args : Args} {rn gn : Str} {sc : Schema} (h : ((match sc.properties with | some m => C56flatex.namesB m | none => true) &&
    ((schemaPositions instNode sc).all fun x => C56flatex.checkB title rn x.1 x.2) && C56flatex.apartB title rn (schemaPositions instNode sc) &&
    (match sc.properties with | some m => C69ex.totalsB title args.fieldNames m | none => true) &&
    ((schemaPositions instNode sc).all fun x => C69ex.checkB title args rn gn x.1 x.2)) = true) : Conditions title args rn gn sc := by
  simp only [Bool.and_eq_true] at h
  obtain ⟨⟨⟨⟨h1, h2⟩, h3⟩, h4⟩, h5⟩ := h
  exact C69ex.conditions (C56flatex.conditions h1 h2 h3) h4 h5

/-! Two allOf entries, with an object and a list, and two oneOf entries, one of which repeats a property. -/

def part (ref description : Str) (m : GMap P) (rq : List Str) : Instance := { Instance.zero with properties := some m, required := rq, fromRef := ref, description := description }

def str : P := o [(g!"type", s g!"string")]
def int : P := o [(g!"type", s g!"integer")]

def base : Instance := part g!"base.json" [] [(g!"id", str), (g!"meta", o [(g!"type", s g!"object"), (g!"description", s g!"About it."), (g!"properties", o [(g!"at", str)])])] [g!"id"]
def tags : Instance := part g!"tags.json" [] [(g!"tags", o [(g!"type", s g!"array"), (g!"items", str)])] []
def photo : Instance := part g!"photo.json" g!"A photo." [(g!"size", o [(g!"type", s g!"object"), (g!"properties", o [(g!"w", int)])])] []
def video : Instance := part g!"doc_video.json" g!"A video." [(g!"id", int), (g!"length", int)] [g!"id", g!"length"]

def schema : Instance := { Instance.zero with allOf := [base, tags], oneOf := [photo, video] }

def args (interfaceFiles : Bool) : Args := { C69ex.args with importPath := g!"x/y", scalarAny := true, interfaceFiles := interfaceFiles, typeNames := [(g!"photo", g!"Picture")] }

def M : GMap P := allProps schema.allOf
def RQ : List Str := allRequired schema.allOf

def entry (goName name : Str) (s : Instance) : Entry :=
  ⟨s, goName, name, g!"Doc", s.properties.getD [], overProps (s.properties.getD []) M, RQ ++ s.required⟩

def entries : List Entry := [entry g!"Photo" g!"Picture" photo, entry g!"Doc_video" g!"doc_video" video]

def head : TypeHead := ⟨g!"Doc", g!"Doc", [], true, []⟩

theorem fits (b : Bool) : FilesConditions C89ex.title id (args b) schema g!"doc" g!"doc" g!"Base" g!"Base" head M RQ entries := by
  refine ⟨rfl, .inl (by decide), together_of (by decide +kernel), ?_, fun _ => ?_, ?_⟩
  · intro a as h
    cases h
    exact ⟨fileNames_of (by cases b <;> decide), .interface (by decide) (.inr ⟨by cases b <;> decide, by decide⟩)⟩
  · exact conditions_of (by cases b <;> decide +kernel)
  · have hi : Implements C89ex.title (args b) g!"doc" schema.allOf g!"Doc" := .interface (by decide) (.inr ⟨by cases b <;> decide, by decide⟩)
    intro e he
    rcases List.mem_cons.1 he with rfl | he
    · exact ⟨fileNames_of (by cases b <;> decide), hi, rfl, conditions_of (by cases b <;> decide +kernel), over_of (by cases b <;> decide +kernel), .inr rfl⟩
    · rcases List.mem_cons.1 he with rfl | he
      · exact ⟨fileNames_of (by cases b <;> decide), hi, rfl, conditions_of (by cases b <;> decide +kernel), over_of (by cases b <;> decide +kernel), .inr rfl⟩
      · cases he

theorem writes (isPrint : Char → Bool) (b : Bool) : FilesWritable isPrint C89ex.title (args b) schema g!"Base" g!"Base" head M RQ entries := by
  refine ⟨fun _ => types_of (by cases b <;> decide +kernel) (by cases b <;> decide +kernel) (by cases b <;> decide +kernel), ?_⟩
  intro e he
  rcases List.mem_cons.1 he with rfl | he
  · exact types_of (by cases b <;> decide +kernel) (by cases b <;> decide +kernel) (by cases b <;> decide +kernel)
  · rcases List.mem_cons.1 he with rfl | he
    · exact types_of (by cases b <;> decide +kernel) (by cases b <;> decide +kernel) (by cases b <;> decide +kernel)
    · cases he

theorem entryFile_is {args : Gql.Args} {name ref p : Str} (h : EntryFile args name ref p) : p = oneOfPath args name (subName ref) := by
  unfold oneOfPath
  cases h with
  | schema h => simp [h]
  | own h hb hp =>
    rw [subName_baseName hb, if_pos h, if_pos (show hasPrefix _ _ = true from List.isPrefixOf_iff_prefix.2 hp)]
  | joined h hb hp =>
    rw [subName_baseName hb, if_pos h, if_neg (show ¬ hasPrefix _ _ = true from fun h' => hp (List.isPrefixOf_iff_prefix.1 h'))]

theorem apart : FilesApart (args true) g!"doc" entries := by
  refine ⟨?_, ?_⟩
  · unfold entries
    simp only [List.pairwise_cons, List.mem_singleton, forall_eq, List.not_mem_nil, false_implies, implies_true, List.Pairwise.nil, and_true]
    intro p h1 h2
    have e := entryFile_is h1
    rw [entryFile_is h2] at e
    exact absurd e (by decide)
  · intro e he h
    have e1 := entryFile_is h
    rcases List.mem_cons.1 he with rfl | he
    · exact absurd e1 (by decide)
    · rcases List.mem_cons.1 he with rfl | he
      · exact absurd e1 (by decide)
      · cases he

/-- The conditions of `C90_partial` hold for the schema, with one file and with a file for each entry. -/
example (isPrint : Char → Bool) (b : Bool) (sched : Sched) :
    ∃ files ds0 dss, graphqlFiles sched isPrint C89ex.title id (args b) schema g!"doc" g!"doc" = .ok files ∧
      FirstMean isPrint C89ex.title (args b) schema g!"Base" g!"Base" head M RQ ds0 ∧
      Each (EntryMeans isPrint C89ex.title (args b) g!"Base") entries dss ∧ FilesSay (args b) g!"doc" entries ds0 dss files :=
  C90_partial (fits b) (writes isPrint b) (fun h => by cases b with | false => cases h | true => exact apart) sched

def filesOf (schema : Instance) (b : Bool) : GMap Str := match graphqlFiles Sched.id (fun _ => true) C89ex.title id (args b) schema g!"doc" g!"doc" with
  | .ok files => files
  | _ => []

/-- An entry in a file with the name of the schema. -/
def same : Instance := { Instance.zero with allOf := [part g!"base.json" [] [(g!"id", str)] []], oneOf := [part g!"types/doc.json" [] [(g!"x", int)] []] }

theorem same_files : filesOf same true = [(g!"doc.graphqls",
    g!"# // Code generated by github.com/GannettDigital/jstransform; DO NOT EDIT.\n\ntype doc implements Doc @goModel(model: \"x/y.Doc\") {\n  id: String!\n\n  x: Int!\n}\n")] := by
  decide +kernel

theorem infix_at {t s : Str} (h : t <:+: s) : ((List.range (s.length + 1)).any fun n => t.isPrefixOf (s.drop n)) = true := by
  obtain ⟨a, b, rfl⟩ := h
  refine List.any_eq_true.2 ⟨a.length, List.mem_range.2 (by simp; omega), ?_⟩
  rw [List.append_assoc, List.drop_left]
  exact List.isPrefixOf_iff_prefix.2 ⟨b, rfl⟩

end JT.C90ex

namespace JT
open Spec Gql GqlText

/-- The full statement of **C90** about where types are: for every schema, each type that is built is in the file that it is written to. -/
def C90_statement : Prop := ∀ (schema : Instance) (files : GMap Str) (built : List (Str × GFile)),
  buildFiles Sched.id C89ex.title id (C90ex.args true) schema g!"doc" g!"doc" = .ok built →
  graphqlFiles Sched.id (fun _ => true) C89ex.title id (C90ex.args true) schema g!"doc" g!"doc" = .ok files →
  ∀ pg ∈ built, ∃ text, GMap.get pg.1 files = some text ∧ pg.2.text (fun _ => true) C89ex.title (C90ex.args true) <:+: text

/-- If there are to be files for the oneOf entries and the file of one of them has the name of the schema, what was written before is lost: the interface is not defined. -/
theorem C90_refuted : ¬ C90_statement := by
  intro h
  have hf := C90ex.same_files
  unfold C90ex.filesOf at hf
  cases hg : graphqlFiles Sched.id (fun _ => true) C89ex.title id (C90ex.args true) C90ex.same g!"doc" g!"doc" with
  | err => rw [hg] at hf; cases hf
  | panic => rw [hg] at hf; cases hf
  | ok files =>
    rw [hg] at hf
    have hb : (match buildFiles Sched.id C89ex.title id (C90ex.args true) C90ex.same g!"doc" g!"doc" with
      | .ok (pg :: _) => decide (pg.1 = g!"doc.graphqls" ∧ pg.2.text (fun _ => true) C89ex.title (C90ex.args true) =
        g!"\ninterface Doc @goModel(model: \"x/y.Doc\") {\n  id: String!\n}\n")
      | _ => false) = true := by decide +kernel
    split at hb
    · rename_i pg rest hbuilt
      obtain ⟨e1, e2⟩ := of_decide_eq_true hb
      obtain ⟨text, h1, h2⟩ := h _ files _ hbuilt hg pg (by simp)
      simp only at hf
      rw [hf, e1] at h1
      rw [e2] at h2
      have h1 := Option.some.inj h1
      subst h1
      exact absurd (C90ex.infix_at h2) (by decide +kernel)
    · cases hb

end JT
