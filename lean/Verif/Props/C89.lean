import Verif.Proofs.GqlWrite
import Verif.Proofs.GqlText
import Verif.Props.C65
/- C89: generated GraphQL files are GraphQL. -/
namespace JT.GqlText
open Spec Gql

theorem each_mem {α β : Type} {R : α → β → Prop} : ∀ {l : List α} {m : List β}, Each R l m → ∀ b ∈ m, ∃ a ∈ l, R a b
  | _, _, .nil, _, hb => nomatch hb
  | _, _, .cons h hs, b, hb => by
    rcases List.mem_cons.1 hb with rfl | hb
    · exact ⟨_, by simp, h⟩
    · obtain ⟨a, ha, h'⟩ := each_mem hs b hb
      exact ⟨a, by simp [ha], h'⟩

theorem each_mem' {α β : Type} {R : α → β → Prop} : ∀ {l : List α} {m : List β}, Each R l m → ∀ a ∈ l, ∃ b ∈ m, R a b
  | _, _, .nil, _, hb => nomatch hb
  | _, _, .cons h hs, a, ha => by
    rcases List.mem_cons.1 ha with rfl | ha
    · exact ⟨_, by simp, h⟩
    · obtain ⟨b, hb, h'⟩ := each_mem' hs a ha
      exact ⟨b, by simp [hb], h'⟩

theorem each_nil {α β : Type} {R : α → β → Prop} {l : List α} (h : Each R l ([] : List β)) : l = [] := by cases h; rfl

theorem type_fields {isPrint : Char → Bool} {title : Str → Str} {args : Args} {o : GObject} {d : TypeDef} (h : TypeMeans isPrint title args o d) : d.fields ≠ [] := by
  obtain ⟨l, h1, _, h3⟩ := h.fields
  intro e
  rw [e] at h3
  rw [each_nil h3] at h1
  exact h.some (List.map_eq_nil_iff.1 (List.nil_perm.1 h1))

theorem gfile_text {isPrint : Char → Bool} {title : Str → Str} {args : Args} {g : GFile} {ds : List TypeDef} (h : FileMeans isPrint title args g ds) :
    Whole (g.text isPrint title args) (ds.flatMap TypeDef.toks) := by
  obtain ⟨l, h1, h2, h3⟩ := h
  have hnd : ((g.nested.map fun ko => (ko.2.name, ko.2)).map Prod.fst).Nodup := by
    refine (h1.map Prod.fst).nodup_iff.1 (List.pairwise_map.2 (h2.imp fun {a b} hab e => ?_))
    rw [e, strLt_irrefl] at hab
    cases hab
  obtain ⟨l', g1, g2, g3⟩ := Gen.sorted_spec hnd
  have : l' = l := Gen.ordered_unique g2 h2 (g1.trans h1.symm)
  subst this
  unfold GFile.text GFile.structs
  rw [g3]
  exact file_text h3

theorem whole_header (args : Args) (main : Bool) : Whole (header args main) ((anyScalar args main).flatMap Def.toks) := by
  unfold header anyScalar
  split
  · show Reads _ _ _ _
    show run _ _ = _
    decide +kernel
  · show Reads _ _ _ _
    show run _ _ = _
    decide +kernel

end JT.GqlText

namespace JT
open Spec Gql GqlText

/-- **C89**, the text: a file with types that can be written is GraphQL, and what it defines are these types; there is only one way to read it. -/
theorem C89_text {isPrint : Char → Bool} {title : Str → Str} {args : Gql.Args} {main : Bool} {gs : List GFile} {dss : List (List TypeDef)}
    (h : Each (fun g ds => FileMeans isPrint title args g ds) gs dss) (defs : List Def) :
    Denotes (fileText isPrint title args main gs) defs ↔ defs = anyScalar args main ++ dss.flatten.map Def.type := by
  have hd : Denotes (fileText isPrint title args main gs) (anyScalar args main ++ dss.flatten.map Def.type) := by
    refine ⟨?_, ?_⟩
    · rw [List.flatMap_append]
      refine Whole.lex (Whole.append (whole_header args main) ?_)
      induction h with
      | nil => rfl
      | cons h1 _ ih =>
        rw [List.flatMap_cons, List.flatten_cons, List.map_append, List.flatMap_append]
        refine Whole.append ?_ ih
        have := gfile_text h1
        rw [List.flatMap_map]
        exact this
    · intro d hd
      have hd : d ∈ dss.flatten := by
        rcases List.mem_append.1 hd with hd | hd
        · unfold anyScalar at hd
          split at hd <;> simp at hd
        · simpa using hd
      obtain ⟨ds, hds, hd⟩ := List.mem_flatten.1 hd
      obtain ⟨g, _, l, _, _, hl⟩ := each_mem h ds hds
      obtain ⟨o, _, ho⟩ := each_mem hl d hd
      exact type_fields ho
  exact ⟨fun h' => denotes_unique h' hd, fun e => e ▸ hd⟩

/-! ### The files of a schema -/

/-- The Go names of the fields of an object are different. -/
structure Spec.GoNamesApart (title : Str → Str) (rename : GMap Str) (m : GMap P) : Prop where
  names : ∀ k q k' q', GMap.get k m = some q → GMap.get k' m = some q' → goName title rename k = goName title rename k' → k = k'
  lengths : ∀ k q k' q', GMap.get k m = some q → GMap.get k' m = some q' → IsArray q' → goName title rename k ≠ title (totalOf title rename k')
  apart : ∀ k q k' q', GMap.get k m = some q → IsArray q → GMap.get k' m = some q' → IsArray q' →
    title (totalOf title rename k) = title (totalOf title rename k') → k = k'

/-- The objects of a schema can be written: names are GraphQL names, descriptions can be quoted, the Go names of fields are different, types that are given are types, and there
is at least one property in each. -/
structure Gql.Writable (isPrint : Char → Bool) (title : Str → Str) (args : Gql.Args) (name gname : Str) (schema : Instance) : Prop where
  root : schema.properties ≠ none
  filled : ∀ l m rq, ObjectAt schema l m rq → Written ⟨schema.properties, schema.items⟩ l → m ≠ []
  named : ∀ l m rq, ObjectAt schema l m rq → Written ⟨schema.properties, schema.items⟩ l → GqlName (nameAt title args gname l)
  described : ∀ l o, GqlHead title name schema l o → Written ⟨schema.properties, schema.items⟩ l → ∃ d, DescribedAs o.description d
  shown : ∀ l o, GqlHead title name schema l o → Written ⟨schema.properties, schema.items⟩ l → ∀ c ∈ args.importPath ++ '.' :: title o.name, Shown isPrint c
  apart : ∀ l m rq, ObjectAt schema l m rq → Written ⟨schema.properties, schema.items⟩ l → GoNamesApart title args.fieldNames m
  fields : ∀ l m rq, ObjectAt schema l m rq → Written ⟨schema.properties, schema.items⟩ l → ∀ k q i, GMap.get k m = some q → decodeInstance false q = .ok i →
    GqlName k ∧ (∃ d ds, FieldText isPrint i.description d ds) ∧
    (IsArray q → GqlName (totalOf title args.fieldNames k) ∧ Describable (totalSentence ((GMap.get k args.fieldNames).getD k)))
  types : ∀ l m rq, ObjectAt schema l m rq → Written ⟨schema.properties, schema.items⟩ l → ∀ k q f, GMap.get k m = some q →
    GqlField title args.fieldNames args.pointers (decide (k ∈ rq)) (gqlName title args.typeNames gname (names (l ++ [.key k]))) k q f →
    ∃ as t ds, FieldType f (decide (k ∈ rq)) args.pointers as t ds

theorem each_choice {α β : Type} {R : α → β → Prop} : ∀ {l : List α}, (∀ a ∈ l, ∃ b, R a b) → ∃ m, Each R l m
  | [], _ => ⟨[], .nil⟩
  | a :: l, h => by
    obtain ⟨b, hb⟩ := h a (by simp)
    obtain ⟨m, hm⟩ := each_choice (l := l) fun x hx => h x (by simp [hx])
    exact ⟨b :: m, .cons hb hm⟩

theorem nodup_map_gql {α β : Type} {f : α → β} : ∀ {l : List α}, (∀ a ∈ l, ∀ b ∈ l, f a = f b → a = b) → l.Nodup → (l.map f).Nodup
  | [], _, _ => by simp
  | x :: l, h, hn => by
    rw [List.map_cons, List.nodup_cons]
    rw [List.nodup_cons] at hn
    refine ⟨fun hm => ?_, nodup_map_gql (fun a ha b hb => h a (List.mem_cons_of_mem _ ha) b (List.mem_cons_of_mem _ hb)) hn.2⟩
    obtain ⟨y, hy, he⟩ := List.mem_map.1 hm
    have := h y (List.mem_cons_of_mem _ hy) x List.mem_cons_self he
    subst this
    exact hn.1 hy

theorem not_white {c : Char} (h : spaces.contains c = false) : ¬ White c := fun h' => by
  rw [white_iff.2 h'] at h
  cases h

theorem trimmed_sentence (field : Str) : Trimmed (totalSentence field) (totalSentence field) := by
  refine ⟨[], [], by simp, by simp, by simp, ?_, ?_⟩
  · intro c hc
    unfold totalSentence at hc
    cases hc
    exact not_white (by decide)
  · intro c hc
    unfold totalSentence at hc
    rw [List.getLast?_append] at hc
    cases hc
    exact not_white (by decide)

theorem deprecated_line {a b x y : Str} (ha : '\n' ∉ a) (hb : '\n' ∉ b) (h : a ++ '\n' :: x = b ++ '\n' :: y) : a = b := by
  have h1 := JT.splitC_append '\n' a x ha
  rw [h, JT.splitC_append '\n' b y hb] at h1
  exact (List.cons.inj h1).1.symm

/-- The reason that is given for the list. -/
theorem deprecation_reason {isPrint : Char → Bool} {d line : Str} {o : Option Str} {ds : List Directive} (h : FieldText isPrint d o ds) (hl : '\n' ∉ line)
    (hd : d = g!"DEPRECATED:" ++ line ∨ ∃ more, d = g!"DEPRECATED:" ++ line ++ '\n' :: more) :
    ∃ reason, Trimmed line reason ∧ ∀ c ∈ reason, Shown isPrint c := by
  cases h with
  | plain h1 _ =>
    refine absurd ?_ h1
    rcases hd with rfl | ⟨more, rfl⟩
    · exact ⟨_, rfl⟩
    · exact ⟨_, by rw [List.append_assoc]⟩
  | @deprecated line' more' reason rest _ h1 h2 _ h3 _ =>
    rcases hd with hd | ⟨more, hd⟩
    · rw [List.append_assoc] at hd
      have := List.append_cancel_left hd
      exact absurd (by rw [← this]; simp) hl
    · rw [List.append_assoc, List.append_assoc] at hd
      have := deprecated_line h1 hl (List.append_cancel_left hd)
      subst this
      exact ⟨_, h2, h3⟩
  | @deprecatedOnly line' reason h1 h2 h3 =>
    rcases hd with hd | ⟨more, hd⟩
    · have := List.append_cancel_left hd
      subst this
      exact ⟨_, h2, h3⟩
    · rw [List.append_assoc] at hd
      have := List.append_cancel_left hd
      exact absurd (by rw [this]; simp) h1

theorem total_text {isPrint : Char → Bool} {field d d' : Str} (h : TotalText field d d') (hs : Describable (totalSentence field))
    (hd : ∃ o ds, FieldText isPrint d o ds) : ∃ o ds, FieldText isPrint d' o ds := by
  obtain ⟨o, ds, hd⟩ := hd
  have hne : totalSentence field ≠ [] := by simp [totalSentence]
  have hnp : ¬ g!"DEPRECATED:" <+: totalSentence field := by
    rintro ⟨r, hr⟩
    unfold totalSentence at hr
    cases hr
  cases h with
  | plain _ => exact ⟨_, _, .plain hnp (.some hne hs)⟩
  | deprecated hl =>
    obtain ⟨reason, h1, h2⟩ := deprecation_reason hd hl (.inl rfl)
    exact ⟨_, _, .deprecated hl h1 (trimmed_sentence field) h2 (.some hne hs)⟩
  | deprecatedMore hl =>
    obtain ⟨reason, h1, h2⟩ := deprecation_reason hd hl (.inr ⟨_, rfl⟩)
    exact ⟨_, _, .deprecated hl h1 (trimmed_sentence field) h2 (.some hne hs)⟩

theorem total_type {title : Str → Str} {field d name : Str} {f : GField} (h : IsTotal title field d name f) (required pointers : Bool) :
    ∃ as t ds, FieldType f required pointers as t ds := by
  obtain ⟨_, h1, h2, h3, h4, _⟩ := h
  exact ⟨_, _, _, .one (by rw [h1]; decide) h2 (.scalar h4 (by rw [h1]; exact .integer))⟩

theorem field_facts {title : Str → Str} {rename : GMap Str} {pointers required : Bool} {name k : Str} {q : P} {f : GField}
    (h : GqlField title rename pointers required name k q f) : f.jsonName = k ∧ f.name = goName title rename k ∧ ∃ i, decodeInstance false q = .ok i ∧ f.description = i.description := by
  cases h with
  | leaf h _ _ => exact ⟨rfl, rfl, _, h, rfl⟩
  | object h _ => exact ⟨rfl, rfl, _, h, rfl⟩
  | leaves h _ _ _ _ _ => exact ⟨rfl, rfl, _, h, rfl⟩
  | objects h _ _ _ _ => exact ⟨rfl, rfl, _, h, rfl⟩

/-- The fields of a type can be written: there is at least one, names are GraphQL names, descriptions can be quoted, Go names are different, and types that are given are types. -/
structure Gql.FieldsWritable (isPrint : Char → Bool) (title : Str → Str) (args : Gql.Args) (m : GMap P) (rq : List Str) (nm : Str → Str) : Prop where
  filled : m ≠ []
  apart : GoNamesApart title args.fieldNames m
  fields : ∀ k q i, GMap.get k m = some q → decodeInstance false q = .ok i →
    GqlName k ∧ (∃ d ds, FieldText isPrint i.description d ds) ∧
    (IsArray q → GqlName (totalOf title args.fieldNames k) ∧ Describable (totalSentence ((GMap.get k args.fieldNames).getD k)))
  types : ∀ k q f, GMap.get k m = some q → GqlField title args.fieldNames args.pointers (decide (k ∈ rq)) (nm k) k q f →
    ∃ as t ds, FieldType f (decide (k ∈ rq)) args.pointers as t ds

/-- The definition of one type. -/
theorem fields_mean {isPrint : Char → Bool} {title : Str → Str} {args : Gql.Args} {m : GMap P} {rq : List Str} {nm : Str → Str} {o : GObject}
    (hw : Gql.FieldsWritable isPrint title args m rq nm)
    (ht : ∀ k q, GMap.get k m = some q → IsArray q → GMap.get (totalOf title args.fieldNames k) m = none)
    (hf : GqlFields title args.fieldNames args.pointers rq nm m o) (hb : o.buildType ≠ .ignored) (hn : GqlName o.jsonName) (hdesc : ∃ d, DescribedAs o.description d)
    (himp : ∃ i, ImplementsAs o.implements i) (hshown : ∀ c ∈ args.importPath ++ '.' :: title o.name, Shown isPrint c) : ∃ d, TypeMeans isPrint title args o d := by
  obtain ⟨desc, hdesc⟩ := hdesc
  obtain ⟨imp, himp⟩ := himp
  have hmodel : ∃ ds, ModelAs isPrint title args o ds := by
    by_cases hv : ∀ k f, (k, f) ∈ o.fields → f.jsonType = g!"graphql-hydration"
    · exact ⟨_, .virtual hv⟩
    · simp only [Classical.not_forall] at hv
      obtain ⟨k, f, h1, h2⟩ := hv
      exact ⟨_, .stored h1 h2 hshown⟩
  obtain ⟨ds, hmodel⟩ := hmodel
  have hap := hw.apart
  have hsome := hw.filled
  have hkind : ∀ κ f, (κ, f) ∈ o.fields → (∃ q, GMap.get κ m = some q ∧
      GqlField title args.fieldNames args.pointers (decide (κ ∈ rq)) (nm κ) κ q f) ∨
      ∃ k q i, GMap.get k m = some q ∧ IsArray q ∧ κ = totalOf title args.fieldNames k ∧ decodeInstance false q = .ok i ∧
        IsTotal title ((GMap.get k args.fieldNames).getD k) i.description (totalOf title args.fieldNames k) f := by
    intro κ f hκ
    have hg := GMap.get_mem_nodup hf.sorted.nodup hκ
    rcases hf.only κ f hg with ⟨q, hq⟩ | ⟨k, q, h1, h2, rfl⟩
    · obtain ⟨f', h3, h4⟩ := hf.each κ q hq
      rw [hg] at h3
      cases h3
      exact .inl ⟨q, hq, h4⟩
    · obtain ⟨i, f', h3, h4, h5⟩ := hf.total k q h1 h2
      rw [hg] at h4
      cases h4
      exact .inr ⟨k, q, i, h1, h2, rfl, h3, h5⟩
  have hnd : ((o.fields.map fun kf => (kf.2.name, kf.2)).map Prod.fst).Nodup := by
    rw [List.map_map]
    have hgo : ∀ κ f, (κ, f) ∈ o.fields → ∀ κ' f', (κ', f') ∈ o.fields → f.name = f'.name → κ = κ' := by
      intro κ f h1 κ' f' h2 he
      rcases hkind κ f h1 with ⟨q, hq, hg⟩ | ⟨k, q, i, a1, a2, rfl, a3, a4⟩ <;> rcases hkind κ' f' h2 with ⟨q', hq', hg'⟩ | ⟨k', q', i', b1, b2, rfl, b3, b4⟩
      · rw [(field_facts hg).2.1, (field_facts hg').2.1] at he
        exact hap.names _ _ _ _ hq hq' he
      · rw [(field_facts hg).2.1, b4.2.2.2.2.2.2.1] at he
        exact absurd he (hap.lengths _ _ _ _ hq b1 b2)
      · rw [(field_facts hg').2.1, a4.2.2.2.2.2.2.1] at he
        exact absurd he.symm (hap.lengths _ _ _ _ hq' a1 a2)
      · rw [a4.2.2.2.2.2.2.1, b4.2.2.2.2.2.2.1] at he
        rw [hap.apart _ _ _ _ a1 a2 b1 b2 he]
    refine nodup_map_gql ?_ (List.Pairwise.of_map Prod.fst (fun _ _ h e => h (e ▸ rfl)) hf.sorted.nodup)
    rintro ⟨κ, f⟩ h1 ⟨κ', f'⟩ h2 he
    have := hgo κ f h1 κ' f' h2 he
    subst this
    have e1 := GMap.get_mem_nodup hf.sorted.nodup h1
    rw [GMap.get_mem_nodup hf.sorted.nodup h2] at e1
    cases e1
    rfl
  obtain ⟨fl, g1, g2, _⟩ := Gen.sorted_spec hnd
  have heach : ∀ x ∈ fl, ∃ fd, FieldMeans isPrint args.pointers x.2 (decide (x.2.jsonName ∈ o.required)) fd := by
    intro x hx
    obtain ⟨⟨κ, f⟩, hκ, rfl⟩ := List.mem_map.1 (g1.mem_iff.1 hx)
    rcases hkind κ f hκ with ⟨q, hq, hg⟩ | ⟨k, q, i, h1, h2, rfl, h3, h4⟩
    · obtain ⟨e1, _, i, e2, e3⟩ := field_facts hg
      obtain ⟨a1, ⟨d, ds', a2⟩, _⟩ := hw.fields κ q i hq e2
      obtain ⟨as, t, ds, a3⟩ := hw.types κ q f hq hg
      have hr : decide (f.jsonName ∈ o.required) = decide (κ ∈ rq) := by
        refine decide_eq_decide.2 ?_
        rw [e1, hf.required, or_iff_left]
        rintro ⟨k, q', b1, b2, rfl⟩
        rw [ht k q' b1 b2] at hq
        cases hq
      simp only
      rw [hr]
      exact ⟨_, .field (e1 ▸ a1) a3 (e3 ▸ a2)⟩
    · obtain ⟨_, a2, a3⟩ := hw.fields k q i h1 h3
      obtain ⟨as, t, ds, a4⟩ := total_type h4 (decide (f.jsonName ∈ o.required)) args.pointers
      obtain ⟨d, ds', a5⟩ := total_text h4.2.2.2.2.2.2.2 (a3 h2).2 a2
      exact ⟨_, .field (by rw [h4.1]; exact (a3 h2).1) a4 a5⟩
  obtain ⟨fds, hfds⟩ := each_choice heach
  refine ⟨⟨desc, decide (o.buildType = .interface), o.jsonName, imp, ds, fds⟩, hdesc, ?_, ⟨hn, rfl⟩, himp, hmodel, ⟨fl, g1, g2, hfds⟩, ?_⟩
  · cases hbt : o.buildType with
    | ignored => exact absurd hbt hb
    | interface => exact .inl ⟨rfl, rfl⟩
    | type => exact .inr ⟨rfl, rfl⟩
  · intro he
    cases m with
    | nil => exact hsome rfl
    | cons kq m =>
      obtain ⟨f, h1, _⟩ := hf.each kq.1 kq.2 (by simp [GMap.get])
      rw [he] at h1
      cases h1

theorem type_means {isPrint : Char → Bool} {title : Str → Str} {args : Gql.Args} {name gname : Str} {schema : Instance} (hw : Gql.Writable isPrint title args name gname schema)
    (ht : ∀ l m rq, ObjectAt schema l m rq → ∀ k q, GMap.get k m = some q → IsArray q → GMap.get (totalOf title args.fieldNames k) m = none)
    {l : List Seg} {m : GMap P} {rq : List Str} {o : GObject} (ho : ObjectAt schema l m rq) (hl : Written ⟨schema.properties, schema.items⟩ l)
    (hn : o.jsonName = nameAt title args gname l) (hb : o.buildType ≠ .ignored)
    (hf : GqlFields title args.fieldNames args.pointers rq (fun k => gqlName title args.typeNames gname (names (l ++ [.key k]))) m o)
    (hh : GqlHead title name schema l o) : ∃ d, TypeMeans isPrint title args o d :=
  fields_mean ⟨hw.filled l m rq ho hl, hw.apart l m rq ho hl, hw.fields l m rq ho hl, hw.types l m rq ho hl⟩ (ht l m rq ho) hf hb (hn ▸ hw.named l m rq ho hl)
    (hw.described l o hh hl) ⟨none, by rw [show o.implements = [] by cases hh <;> assumption]; exact .none⟩ (hw.shown l o hh hl)

theorem newFile_sorted {sched : Sched} {title lower : Str → Str} {args : Gql.Args} {schema : Instance} {name : Str} {implements : Bool} {g : GFile}
    (h : newFile sched title lower args schema name implements = .ok g) : g.nested.Sorted := by
  unfold newFile at h
  simp only at h
  obtain ⟨r, h1, rfl⟩ := Res.map_eq_ok.1 h
  refine Gen.walkSchema_inv (I := fun g : GFile => g.nested.Sorted) ?_ (by exact trivial) h1
  intro path i g g' hs hg
  unfold walkFunc at hg
  simp only at hg
  split at hg
  · cases hg
  · obtain ⟨fr, _, rfl⟩ := Res.map_eq_ok.1 hg
    have hn : ∀ (b : Bool) (k : Str) (o : GObject), (if b = true then GMap.set k o g.nested else g.nested).Sorted := by
      intro b k o
      split
      · exact GMap.sorted_set hs
      · exact hs
    split
    · exact hn _ _ _
    · split
      · exact hn _ _ _
      · exact GMap.sorted_set (hn _ _ _)

/-- The definitions of a schema, each with the position of the object that it is for: there is one for each object that is written, the one of the schema itself comes first and
the others are ordered by their Go names. -/
structure Spec.SchemaMeans (isPrint : Char → Bool) (title : Str → Str) (args : Gql.Args) (name gname : Str) (schema : Instance) (l : List (List Seg × TypeDef)) : Prop where
  objects : ∀ p, p ∈ l.map Prod.fst ↔ (∃ m rq, ObjectAt schema p m rq) ∧ Written ⟨schema.properties, schema.items⟩ p
  order : (l.map Prod.fst).Pairwise fun p p' => p' ≠ [] ∧ (p ≠ [] → strLt (Flat.keyOf title name p) (Flat.keyOf title name p') = true)
  each : ∀ p d, (p, d) ∈ l → ∀ m rq, ObjectAt schema p m rq → ∃ o : GObject, o.jsonName = nameAt title args gname p ∧
    GqlFields title args.fieldNames args.pointers rq (fun k => gqlName title args.typeNames gname (names (p ++ [.key k]))) m o ∧ GqlHead title name schema p o ∧
    TypeMeans isPrint title args o d

/-- **C89**, partial: the file that is generated for a schema without allOf and oneOf entries is GraphQL, and there is only one way to read it: it defines one type for each
object that is not looked up elsewhere, with what the schema says about it.  The conditions are those of `C69_partial` and that the names, descriptions and types can be written
(`Gql.Writable`).  The files of schemas with allOf and oneOf entries are those of C90. -/
theorem C89_partial {isPrint : Char → Bool} {title lower : Str → Str} {args : Gql.Args} {schema : Instance} {name : Str} {implements : Bool}
    (hc : Gql.Conditions title args (rootNames title lower args name implements).1 (rootNames title lower args name implements).2 ⟨schema.properties, schema.items⟩)
    (hw : Gql.Writable isPrint title args (rootNames title lower args name implements).1 (rootNames title lower args name implements).2 schema) (sched : Sched) :
    ∃ g l, newFile sched title lower args schema name implements = .ok g ∧
      SchemaMeans isPrint title args (rootNames title lower args name implements).1 (rootNames title lower args name implements).2 schema l ∧
      ∀ main defs, Denotes (fileText isPrint title args main [g]) defs ↔ defs = anyScalar args main ++ l.map fun pd => Def.type pd.2 := by
  obtain ⟨g, hg, h1, h2⟩ := C69_partial hc sched
  generalize hrn : (rootNames title lower args name implements).1 = rn at *
  generalize hgn : (rootNames title lower args name implements).2 = gn at *
  have hs := newFile_sorted hg
  have htot : ∀ l m rq, ObjectAt schema l m rq → ∀ k q, GMap.get k m = some q → IsArray q → GMap.get (totalOf title args.fieldNames k) m = none := by
    intro l m rq ho k q hk ha
    have hm : Flat.PropsAt ⟨schema.properties, schema.items⟩ l m := by
      cases ho with
      | root hm => exact .root hm
      | inner h4 h5 h6 h7 =>
        refine .inner h4 ?_
        unfold instNode
        rw [h5]
        simp only [(Gen.mem_type h6 (by decide)).2 (rfl : g!"object" = g!"object"), if_true, h7, Option.map_some]
    cases hx : GMap.get (totalOf title args.fieldNames k) m with
    | none => rfl
    | some q' => exact absurd (GMap.get_some_mem hx) ((hc.totals l m hm k q (GMap.get_some_mem hk) ha).1 q')
  have hmean : ∀ p m rq o, ObjectAt schema p m rq → typeAt title rn g p = some o → o.target = [] ∧ o.buildType ≠ .ignored → Written ⟨schema.properties, schema.items⟩ p ∧
      ∃ d, TypeMeans isPrint title args o d := by
    intro p m rq o ho hat hwo
    obtain ⟨o', a1, a2, a3, a4, a5⟩ := h1 p m rq ho
    rw [hat] at a1
    cases a1
    exact ⟨a3.1 hwo, type_means hw htot ho (a3.1 hwo) a2 hwo.2 a4 a5⟩
  have hobjuniq : ∀ p p' m rq m' rq', p ≠ [] → p' ≠ [] → ObjectAt schema p m rq → ObjectAt schema p' m' rq' → Flat.keyOf title rn p = Flat.keyOf title rn p' → p = p' := by
    intro p p' m rq m' rq' hp hp' ho ho' he
    cases ho with
    | root _ => exact absurd rfl hp
    | inner a1 a2 a3 a4 =>
      cases ho' with
      | root _ => exact absurd rfl hp'
      | inner b1 b2 b3 b4 =>
        exact hc.plain.apart _ _ _ _ a1 b1 (Gen.node_object a2 a3 (by rw [a4]; simp)) (Gen.node_object b2 b3 (by rw [b4]; simp)) he
  have hnested : ∀ κ o, (κ, o) ∈ g.nested → o.name = κ ∧ ∃ p m rq, p ≠ [] ∧ ObjectAt schema p m rq ∧ typeAt title rn g p = some o ∧ κ = Flat.keyOf title rn p := by
    intro κ o hκ
    obtain ⟨p, m, rq, a1, a2, a3, rfl⟩ := h2 κ o (GMap.get_mem_nodup hs.nodup hκ)
    obtain ⟨o', b1, _, _, _, b5⟩ := h1 p m rq a2
    rw [a3] at b1
    cases b1
    refine ⟨?_, p, m, rq, a1, a2, a3, rfl⟩
    cases b5 with
    | root _ _ _ _ => exact absurd rfl a1
    | inner _ _ b6 _ _ _ => exact b6
  -- the root
  obtain ⟨m0, hm0⟩ := Option.ne_none_iff_exists'.1 hw.root
  have ho0 : ObjectAt schema [] m0 schema.required := .root hm0
  obtain ⟨o0, a1, a2, a3, a4, a5⟩ := h1 [] m0 _ ho0
  have hroot : o0 = g.root := by unfold typeAt at a1; rw [if_pos rfl] at a1; cases a1; rfl
  subst hroot
  have hwr := a3.2 .root
  obtain ⟨_, d0, hd0⟩ := hmean [] m0 _ g.root ho0 a1 hwr
  -- the others
  have hnd : ((g.nested.map fun ko => (ko.2.name, ko.2)).map Prod.fst).Nodup := by
    rw [List.map_map]
    have : g.nested.map (Prod.fst ∘ fun ko : Str × GObject => (ko.2.name, ko.2)) = g.nested.map Prod.fst :=
      List.map_congr_left fun ko hko => (hnested ko.1 ko.2 hko).1
    rw [this]
    exact hs.nodup
  obtain ⟨L, g1, g2, _⟩ := Gen.sorted_spec hnd
  have hL : ∀ x ∈ L, ∃ κ, (κ, x.2) ∈ g.nested ∧ x.1 = κ := by
    intro x hx
    obtain ⟨⟨κ, o⟩, hκ, rfl⟩ := List.mem_map.1 (g1.mem_iff.1 hx)
    exact ⟨κ, hκ, (hnested κ o hκ).1⟩
  let keep : Str × GObject → Bool := fun x => decide (x.2.target = [] ∧ x.2.buildType ≠ .ignored)
  have heach : ∀ x ∈ L.filter keep, ∃ pd : List Seg × TypeDef, pd.1 ≠ [] ∧ (∃ m rq, ObjectAt schema pd.1 m rq) ∧ Written ⟨schema.properties, schema.items⟩ pd.1 ∧
      typeAt title rn g pd.1 = some x.2 ∧ x.1 = Flat.keyOf title rn pd.1 ∧ TypeMeans isPrint title args x.2 pd.2 := by
    intro x hx
    obtain ⟨hx1, hx2⟩ := List.mem_filter.1 hx
    obtain ⟨κ, hκ, hxκ⟩ := hL x hx1
    obtain ⟨_, p, m, rq, b1, b2, b3, b4⟩ := hnested κ x.2 hκ
    obtain ⟨b5, d, b6⟩ := hmean p m rq x.2 b2 b3 (of_decide_eq_true hx2)
    exact ⟨(p, d), b1, ⟨m, rq, b2⟩, b5, b3, hxκ.trans b4, b6⟩
  obtain ⟨l, hl⟩ := each_choice heach
  have hfile : FileMeans isPrint title args g (d0 :: l.map Prod.snd) := by
    refine ⟨L, g1, g2, ?_⟩
    rw [List.filter_cons_of_pos (by simpa using hwr), List.filter_map]
    refine .cons hd0 ?_
    change Each _ ((L.filter keep).map Prod.snd) _
    clear heach
    generalize L.filter keep = K at hl
    induction hl with
    | nil => exact .nil
    | cons b1 _ ih => exact .cons b1.2.2.2.2.2 ih
  refine ⟨g, ([], d0) :: l, hg, ⟨?_, ?_, ?_⟩, ?_⟩
  · intro p
    rw [List.map_cons, List.mem_cons]
    constructor
    · rintro (rfl | hp)
      · exact ⟨⟨m0, _, ho0⟩, .root⟩
      · obtain ⟨pd, hpd, rfl⟩ := List.mem_map.1 hp
        obtain ⟨x, hx, b⟩ := each_mem hl pd hpd
        exact ⟨b.2.1, b.2.2.1⟩
    · rintro ⟨⟨m, rq, ho⟩, hwp⟩
      by_cases hp : p = []
      · exact .inl hp
      · right
        obtain ⟨o, b1, _, b3, _, _⟩ := h1 p m rq ho
        have hget : GMap.get (Flat.keyOf title rn p) g.nested = some o := by unfold typeAt at b1; rwa [if_neg hp] at b1
        have hmem := GMap.get_some_mem hget
        have hx : (o.name, o) ∈ L.filter keep := by
          refine List.mem_filter.2 ⟨g1.mem_iff.2 (List.mem_map.2 ⟨_, hmem, rfl⟩), ?_⟩
          exact decide_eq_true (b3.2 hwp)
        obtain ⟨pd, hpd, c1, ⟨m', rq', c2⟩, _, _, c5, _⟩ := each_mem' hl _ hx
        have : p = pd.1 := by
          refine hobjuniq p pd.1 m rq m' rq' hp c1 ho c2 ?_
          rw [← c5]
          exact (hnested _ _ hmem).1.symm
        exact List.mem_map.2 ⟨pd, hpd, this.symm⟩
  · rw [List.map_cons, List.pairwise_cons]
    refine ⟨fun p hp => ⟨?_, fun h => absurd rfl h⟩, ?_⟩
    · obtain ⟨pd, hpd, rfl⟩ := List.mem_map.1 hp
      obtain ⟨x, hx, b⟩ := each_mem hl pd hpd
      exact b.1
    · rw [List.pairwise_map]
      have hpw : (L.filter keep).Pairwise fun a b => strLt a.1 b.1 = true := List.Pairwise.filter _ g2
      clear hfile heach
      generalize L.filter keep = K at hl hpw
      induction hl with
      | nil => exact .nil
      | @cons a b as bs c1 c2 ih =>
        rw [List.pairwise_cons] at hpw ⊢
        refine ⟨fun b' hb' => ?_, ih hpw.2⟩
        obtain ⟨x, hx, e⟩ := each_mem c2 b' hb'
        refine ⟨e.1, fun _ => ?_⟩
        rw [← c1.2.2.2.2.1, ← e.2.2.2.2.1]
        exact hpw.1 x hx
  · intro p d hpd m rq ho
    obtain ⟨o, b1, b2, _, b4, b5⟩ := h1 p m rq ho
    refine ⟨o, b2, b4, b5, ?_⟩
    rcases List.mem_cons.1 hpd with he | hpd
    · cases he
      rw [a1] at b1
      cases b1
      exact hd0
    · obtain ⟨x, hx, e⟩ := each_mem hl _ hpd
      rw [e.2.2.2.1] at b1
      cases b1
      exact e.2.2.2.2.2
  · intro main defs
    rw [C89_text (.cons hfile .nil)]
    simp [List.map_map, Function.comp_def]

end JT

namespace JT.C89ex
open Spec Gql GqlText Toy

/-! Checks for concrete schemas, with descriptions that do not say that something is deprecated. -/

def nameB (n : Str) : Bool := match n with | [] => false | c :: cs => nameStart c && cs.all nameRest

def describableB (d : Str) : Bool := d.all fun c => decide (0x20 ≤ c.toNat) && c != '"' && c != '\\'

theorem describableB_of {d : Str} (h : describableB d = true) : Describable d := by
  have h1 := fun c hc => List.all_eq_true.1 h c hc
  simp only [Bool.and_eq_true, decide_eq_true_eq, bne_iff_ne, ne_eq] at h1
  have hq : '"' ∉ d := fun hm => (h1 _ hm).1.2 rfl
  exact ⟨fun c hc => .inl (h1 c hc).1.1, fun _ => ⟨hq, fun hm => (h1 _ hm).2 rfl⟩, fun ⟨x, y, e⟩ => hq (by rw [← e]; simp)⟩

theorem described_of {d : Str} (h : describableB d = true) : ∃ o, DescribedAs d o := by
  by_cases hd : d = []
  · subst hd
    exact ⟨_, .none⟩
  · exact ⟨_, .some hd (describableB_of h)⟩

def textB (d : Str) : Bool := describableB d && !hasPrefix d g!"DEPRECATED:"

theorem textB_of {isPrint : Char → Bool} {d : Str} (h : textB d = true) : ∃ o ds, FieldText isPrint d o ds := by
  unfold textB at h
  rw [Bool.and_eq_true, Bool.not_eq_true'] at h
  obtain ⟨o, ho⟩ := described_of h.1
  refine ⟨o, _, .plain (fun hp => ?_) ho⟩
  have := List.isPrefixOf_iff_prefix.2 hp
  unfold hasPrefix at h
  rw [this] at h
  cases h.2

def scalarB (i : Instance) (t : Str) : Bool :=
  (decide (i.target = []) && decide (leafType i t ∈ [g!"boolean", g!"number", g!"integer", g!"string", g!"date-time"])) ||
  (decide (leafType i t = g!"graphql-hydration") && nameB i.target && decide (i.graphQLArguments = []))

def objectB (name : Str) (i : Instance) : Bool :=
  decide (i.target = []) && nameB (gqlObjectType name i) &&
    decide (gqlObjectType name i ∉ [g!"boolean", g!"number", g!"integer", g!"string", g!"object", g!"DateTime", g!"graphql-hydration"])

/-- The types other than null. -/
def typesOf (i : Instance) : List Str := i.type.filter (fun x => x ≠ g!"null")

def typeB (name : Str) (q : P) : Bool := match decodeInstance false q with
  | .ok i =>
    if g!"object" ∈ i.type then objectB name i
    else if g!"array" ∈ i.type then
      decide (i.target = []) && match i.items with
      | some r => match decodeInstance false r with
        | .ok j => if g!"object" ∈ j.type then objectB name j else (typesOf j).all fun t => scalarB j t && decide (leafType j t ≠ g!"graphql-hydration")
        | _ => false
      | none => false
    else (typesOf i).all fun t => scalarB i t
  | _ => false

theorem scalar_elem {i : Instance} {t : Str} {ef : GField} {required pointers : Bool} (hj : ef.jsonType = leafType i t) (ht : ef.target = [])
    (h : leafType i t ∈ [g!"boolean", g!"number", g!"integer", g!"string", g!"date-time"]) : ef.jsonType ≠ g!"graphql-hydration" ∧ ∃ t, ElemType ef required pointers t := by
  rw [← hj] at h
  simp only [List.mem_cons, List.not_mem_nil, or_false] at h
  rcases h with h | h | h | h | h
  · exact ⟨by rw [h]; decide, _, .scalar ht (by rw [h]; exact .boolean)⟩
  · exact ⟨by rw [h]; decide, _, .scalar ht (by rw [h]; exact .number)⟩
  · exact ⟨by rw [h]; decide, _, .scalar ht (by rw [h]; exact .integer)⟩
  · exact ⟨by rw [h]; decide, _, .scalar ht (by rw [h]; exact .string)⟩
  · exact ⟨by rw [h]; decide, _, .time ht h⟩

theorem object_elem {name : Str} {i : Instance} {ef : GField} {required pointers : Bool} (hj : ef.jsonType = gqlObjectType name i) (ht : ef.target = [])
    (h : objectB name i = true) : ef.jsonType ≠ g!"graphql-hydration" ∧ ∃ t, ElemType ef required pointers t := by
  unfold objectB at h
  simp only [Bool.and_eq_true, decide_eq_true_eq, ← hj] at h
  obtain ⟨⟨_, h1⟩, h2⟩ := h
  simp only [List.mem_cons, List.not_mem_nil, or_false, not_or] at h2
  refine ⟨h2.2.2.2.2.2.2, _, .object ht (name_of_b h1) ?_⟩
  simp only [List.mem_cons, List.not_mem_nil, or_false, not_or]
  exact ⟨h2.1, h2.2.1, h2.2.2.1, h2.2.2.2.1, h2.2.2.2.2.1, h2.2.2.2.2.2.1⟩

theorem field_type {ef : GField} {required pointers : Bool} (h : ef.jsonType ≠ g!"graphql-hydration" ∧ ∃ t, ElemType ef required pointers t) (hn : ef.arrayNullable = false) :
    ∃ as t ds, FieldType ef required pointers as t ds := by
  obtain ⟨h1, t, h2⟩ := h
  cases ha : ef.array with
  | false => exact ⟨_, _, _, .one h1 ha h2⟩
  | true => exact ⟨_, _, _, .list h1 ha hn h2⟩

theorem typeB_of {title : Str → Str} {rename : GMap Str} {pointers required : Bool} {name k : Str} {q : P} {f : GField} (h : typeB name q = true)
    (hf : GqlField title rename pointers required name k q f) : ∃ as t ds, FieldType f required pointers as t ds := by
  unfold typeB at h
  cases hf with
  | @leaf i t hd ht hn =>
    rw [hd] at h
    have h1 : g!"object" ∉ i.type := fun h' => hn.1 ((Gen.mem_type ht (by decide)).1 h').symm
    have h2 : g!"array" ∉ i.type := fun h' => hn.2 ((Gen.mem_type ht (by decide)).1 h').symm
    simp only [h1, h2, if_false] at h
    rw [show typesOf i = [t] from ht] at h
    simp only [List.all_cons, List.all_nil, Bool.and_true, scalarB, Bool.or_eq_true, Bool.and_eq_true, decide_eq_true_eq] at h
    rcases h with ⟨h3, h4⟩ | ⟨⟨h3, h4⟩, h5⟩
    · exact field_type (scalar_elem rfl h3 h4) rfl
    · exact ⟨_, .named i.target false, _, .hydrated h3 h5 (by simp [GType.text]) (name_of_b h4)⟩
  | @object i hd ht =>
    rw [hd] at h
    have h1 := (Gen.mem_type ht (by decide)).2 (rfl : g!"object" = g!"object")
    simp only [h1, if_true] at h
    have h3 : i.target = [] := by
      unfold objectB at h
      simp only [Bool.and_eq_true, decide_eq_true_eq] at h
      exact h.1.1
    exact field_type (object_elem rfl h3 h) rfl
  | @leaves items i j t hd ht hi hdj htj hn =>
    rw [hd] at h
    have h1 : g!"object" ∉ i.type := fun h' => absurd ((Gen.mem_type ht (by decide)).1 h') (by decide)
    have h2 := (Gen.mem_type ht (by decide)).2 (rfl : g!"array" = g!"array")
    have h3 : g!"object" ∉ j.type := fun h' => hn.1 ((Gen.mem_type htj (by decide)).1 h').symm
    simp only [h1, h2, h3, if_true, if_false, hi, hdj] at h
    rw [show typesOf j = [t] from htj] at h
    simp only [List.all_cons, List.all_nil, Bool.and_true, scalarB, Bool.or_eq_true, Bool.and_eq_true, decide_eq_true_eq] at h
    obtain ⟨h4, h5, h6⟩ := h
    obtain ⟨h7, h8⟩ := h5.resolve_right fun h => h6 h.1.1
    have ht : itemTarget pointers required i j = [] := by unfold itemTarget; rw [if_neg (fun h => h.2 h7)]; exact h4
    exact field_type (scalar_elem rfl ht h8) rfl
  | @objects items i j hd ht hi hdj htj =>
    rw [hd] at h
    have h1 : g!"object" ∉ i.type := fun h' => absurd ((Gen.mem_type ht (by decide)).1 h') (by decide)
    have h2 := (Gen.mem_type ht (by decide)).2 (rfl : g!"array" = g!"array")
    have h3 := (Gen.mem_type htj (by decide)).2 (rfl : g!"object" = g!"object")
    simp only [h1, h2, h3, if_true, if_false, hi, hdj, Bool.and_eq_true, decide_eq_true_eq] at h
    obtain ⟨h4, h5⟩ := h
    have h7 : j.target = [] := by
      unfold objectB at h5
      simp only [Bool.and_eq_true, decide_eq_true_eq] at h5
      exact h5.1.1
    have ht : itemTarget pointers required i j = [] := by unfold itemTarget; rw [if_neg (fun h => h.2 h7)]; exact h4
    exact field_type (object_elem rfl ht h5) rfl

def apartB (title : Str → Str) (rename : GMap Str) (m : GMap P) : Bool :=
  m.all fun a => m.all fun b => decide (goName title rename a.1 = goName title rename b.1 → a.1 = b.1) &&
    (!C69ex.isArrayB b.2 || (decide (goName title rename a.1 ≠ title (totalOf title rename b.1)) &&
      (!C69ex.isArrayB a.2 || decide (title (totalOf title rename a.1) = title (totalOf title rename b.1) → a.1 = b.1))))

theorem apartB_of {title : Str → Str} {rename : GMap Str} {m : GMap P} (h : apartB title rename m = true) : GoNamesApart title rename m := by
  have h1 : ∀ k q k' q', GMap.get k m = some q → GMap.get k' m = some q' → _ := fun k q k' q' hk hk' =>
    List.all_eq_true.1 (List.all_eq_true.1 h _ (GMap.get_some_mem hk)) _ (GMap.get_some_mem hk')
  simp only [Bool.and_eq_true, decide_eq_true_eq, Bool.or_eq_true, Bool.not_eq_true'] at h1
  refine ⟨fun k q k' q' a b => (h1 k q k' q' a b).1, fun k q k' q' a b c => ?_, fun k q k' q' a c b d => ?_⟩
  · have := (h1 k q k' q' a b).2
    rw [C69ex.isArrayB_of c] at this
    exact (this.resolve_left (by simp)).1
  · have := (h1 k q k' q' a b).2
    rw [C69ex.isArrayB_of c, C69ex.isArrayB_of d] at this
    exact (this.resolve_left (by simp)).2.resolve_left (by simp)

def fieldB (title : Str → Str) (args : Args) (gname : Str) (l : List Seg) (kq : Str × P) : Bool :=
  nameB kq.1 && (match decodeInstance false kq.2 with | .ok i => textB i.description | _ => true) &&
    (!C69ex.isArrayB kq.2 || (nameB (totalOf title args.fieldNames kq.1) && describableB (totalSentence ((GMap.get kq.1 args.fieldNames).getD kq.1)))) &&
    typeB (gqlName title args.typeNames gname (names (l ++ [.key kq.1]))) kq.2

def shownB (s : Str) : Bool := s.all fun c => decide (0x20 ≤ c.toNat ∧ c.toNat ≤ 0x7e)

def objB (title : Str → Str) (args : Args) (gname : Str) (l : List Seg) (m : GMap P) : Bool :=
  decide (m ≠ []) && nameB (nameAt title args gname l) && apartB title args.fieldNames m && m.all (fieldB title args gname l)

def headB (title : Str → Str) (args : Args) (description name : Str) : Bool := describableB description && shownB (args.importPath ++ '.' :: title name)

def checkB (title : Str → Str) (args : Args) (name gname : Str) (l : List Seg) (q : P) : Bool := match decodeInstance false q with
  | .ok i => headB title args i.description (Flat.keyOf title name l) &&
      (decide (g!"object" ∉ i.type) || objB title args gname l (i.properties.getD []))
  | _ => true

theorem writable {isPrint : Char → Bool} {title : Str → Str} {args : Args} {name gname : Str} {schema : Instance} {m0 : GMap P}
    (h0 : schema.properties = some m0)
    (hr : (headB title args schema.description name && objB title args gname [] m0) = true)
    (hb : ((schemaPositions instNode ⟨schema.properties, schema.items⟩).all fun x => checkB title args name gname x.1 x.2) = true) :
    Gql.Writable isPrint title args name gname schema := by
  rw [Bool.and_eq_true] at hr
  have hobj : ∀ l m rq, ObjectAt schema l m rq → Written ⟨schema.properties, schema.items⟩ l → objB title args gname l m = true := by
    intro l m rq ho hwr
    cases ho with
    | root hm => rw [h0] at hm; cases hm; exact hr.2
    | @inner _ q i _ h1 h2 h3 h4 =>
      have := check_positions instNode_shrinks hb h1
      unfold checkB at this
      simp only [h2, h4, (Gen.mem_type h3 (by decide)).2 (rfl : g!"object" = g!"object"), Option.getD_some, Bool.and_eq_true, Bool.or_eq_true, decide_eq_true_eq,
        not_true, false_or] at this
      exact this.2
  have hhead : ∀ l o, GqlHead title name schema l o → headB title args o.description o.name = true := by
    intro l o hh
    cases hh with
    | root e1 e2 _ _ => rw [e1, e2]; exact hr.1
    | @inner _ q i _ e1 e2 e3 e4 _ _ =>
      have := check_positions instNode_shrinks hb e1
      unfold checkB at this
      simp only [e2, Bool.and_eq_true] at this
      rw [e3, e4]
      exact this.1
  unfold objB at hobj
  unfold headB at hhead
  simp only [Bool.and_eq_true, decide_eq_true_eq] at hobj hhead
  have hfield : ∀ l m rq, ObjectAt schema l m rq → Written ⟨schema.properties, schema.items⟩ l → ∀ k q, GMap.get k m = some q → fieldB title args gname l (k, q) = true :=
    fun l m rq h1 h2 k q hk => List.all_eq_true.1 (hobj l m rq h1 h2).2 _ (GMap.get_some_mem hk)
  unfold fieldB at hfield
  simp only [Bool.and_eq_true, Bool.or_eq_true, Bool.not_eq_true'] at hfield
  refine ⟨by rw [h0]; simp, fun l m rq h1 h2 => (hobj l m rq h1 h2).1.1.1, fun l m rq h1 h2 => name_of_b (hobj l m rq h1 h2).1.1.2, fun l o h _ => described_of (hhead l o h).1,
    fun l o h _ c hc => ?_, fun l m rq h1 h2 => apartB_of (hobj l m rq h1 h2).1.2, fun l m rq h1 h2 k q i hk hd => ?_, fun l m rq h1 h2 k q f hk hf => ?_⟩
  · exact .inl (of_decide_eq_true (List.all_eq_true.1 (hhead l o h).2 c hc))
  · obtain ⟨⟨⟨e1, e2⟩, e3⟩, _⟩ := hfield l m rq h1 h2 k q hk
    simp only [hd] at e2
    refine ⟨name_of_b e1, textB_of e2, fun ha => ?_⟩
    rw [C69ex.isArrayB_of ha] at e3
    have := e3.resolve_left (by simp)
    exact ⟨name_of_b this.1, describableB_of this.2⟩
  · exact typeB_of (hfield l m rq h1 h2 k q hk).2 hf

/-- Objects in an array and in an object, a time, a list, and a field that is looked up elsewhere. -/
def props : GMap P := [
  (g!"a", o [(g!"type", s g!"array"), (g!"description", s g!"All of them."), (g!"items", o [(g!"type", s g!"object"), (g!"required", a [s g!"b"]), (g!"properties", o [
    (g!"b", o [(g!"type", s g!"integer"), (g!"description", s g!"How many.")])])])]),
  (g!"c", o [(g!"type", a [s g!"string", s g!"null"])]),
  (g!"f", o [(g!"type", s g!"object"), (g!"description", s g!"An object."), (g!"properties", o [(g!"e", o [(g!"type", s g!"array"), (g!"items", o [(g!"type", s g!"number")])])])]),
  (g!"h", o [(g!"type", s g!"graphql-hydration"), (g!"target", s g!"Other")]),
  (g!"t", o [(g!"type", s g!"string"), (g!"format", s g!"date-time")])]

def schema : Instance := { C56ex.schema props with description := g!"The root.", required := [g!"c"] }

def title (s : Str) : Str := match s with | [] => [] | c :: cs => c.toUpper :: cs

def args : Args := { C69ex.args with importPath := g!"x/y", scalarAny := true }

example : rootNames title id args g!"thing" false = (g!"Thing", g!"Thing") := by decide

/-- The conditions of `C69_partial` and `C89_partial` hold for it. -/
theorem conds : Gql.Conditions title args g!"Thing" g!"Thing" ⟨schema.properties, schema.items⟩ :=
  C69ex.conditions (C56flatex.conditions (by decide +kernel) (by decide +kernel) (by decide +kernel)) (by decide +kernel) (by decide +kernel)

theorem writes (isPrint : Char → Bool) : Gql.Writable isPrint title args g!"Thing" g!"Thing" schema := writable rfl (by decide +kernel) (by decide +kernel)

def fileOf (m : GMap P) (description : Str) : Res GFile := newFile Sched.id title id args { schema with properties := some m, description := description } g!"thing" false

def textOf (m : GMap P) (description : Str) : Str := match fileOf m description with
  | .ok g => fileText (fun _ => true) title args false [g]
  | _ => []

def isOk {α : Type} : Res α → Bool
  | .ok _ => true
  | _ => false

/-- The text of one property, and what it says. -/
example : textOf [(g!"c", o [(g!"type", s g!"string"), (g!"description", s g!"DEPRECATED: use d\nThe \"c\".\nOf old.")])] g!"The root." =
    g!"# // Code generated by github.com/GannettDigital/jstransform; DO NOT EDIT.\n\n\"The root.\"\ntype Thing @goModel(model: \"x/y.Thing\") {\n  \"\"\"\n  The \"c\".\n  Of old.\n  \"\"\"\n  c: String! @deprecated(reason: \"use d\")\n}\n" := by
  decide +kernel

example : Denotes (textOf [(g!"c", o [(g!"type", s g!"string"), (g!"description", s g!"DEPRECATED: use d\nThe \"c\".\nOf old.")])] g!"The root.")
    [.type ⟨some g!"The root.", false, g!"Thing", none, [⟨g!"goModel", [(g!"model", .str g!"x/y.Thing")]⟩],
      [⟨some g!"The \"c\".\nOf old.", g!"c", [], .named g!"String" true, [⟨g!"deprecated", [(g!"reason", .str g!"use d")]⟩]⟩]⟩] :=
  ⟨by decide +kernel, by intro d hd; simp only [List.mem_singleton, Def.type.injEq] at hd; subst hd; simp⟩

def props1 : GMap P := [(g!"c", o [(g!"type", s g!"string")])]
def props2 : GMap P := [(g!"c-d", o [(g!"type", s g!"string")])]

end JT.C89ex

namespace JT
open Spec Gql GqlText

/-- The full statement of **C89** for schemas without allOf and oneOf entries: what is written is GraphQL. -/
def C89_statement : Prop := ∀ (m : GMap P) (description : Str) (g : GFile), C89ex.fileOf m description = .ok g →
  ∃ defs, Denotes (fileText (fun _ => true) C89ex.title C89ex.args false [g]) defs

theorem C89ex.refute {m : GMap P} {description : Str} (h : C89_statement) (hok : C89ex.isOk (C89ex.fileOf m description) = true) :
    ∃ defs, Denotes (C89ex.textOf m description) defs := by
  unfold C89ex.textOf
  cases hf : C89ex.fileOf m description with
  | ok g => exact h m description g hf
  | err => rw [hf] at hok; cases hok
  | panic => rw [hf] at hok; cases hok

/-- If a description has a backslash, the file is not GraphQL. -/
theorem C89_refuted : ¬ C89_statement := fun h => by
  obtain ⟨defs, h1, _⟩ := C89ex.refute (m := C89ex.props1) (description := g!"matches \\d") h (by decide +kernel)
  rw [show lex (C89ex.textOf C89ex.props1 g!"matches \\d") = none by decide +kernel] at h1
  cases h1

/-- If the name of a property has a hyphen, the file is not GraphQL. -/
theorem C89_refuted_name : ¬ C89_statement := fun h => by
  obtain ⟨defs, h1, _⟩ := C89ex.refute (m := C89ex.props2) (description := []) h (by decide +kernel)
  rw [show lex (C89ex.textOf C89ex.props2 []) = none by decide +kernel] at h1
  cases h1

/-- If a schema has no properties, the file is not GraphQL: its type has no fields. -/
theorem C89_refuted_empty : ¬ C89_statement := fun h => by
  obtain ⟨defs, h1, h2⟩ := C89ex.refute (m := []) (description := []) h (by decide +kernel)
  have h3 : lex (C89ex.textOf [] []) = some ([Def.type ⟨none, false, g!"Thing", none, [], []⟩].flatMap Def.toks) := by decide +kernel
  rw [h3] at h1
  have := defs_inj (Option.some.inj h1)
  subst this
  exact h2 _ (List.mem_singleton.2 rfl) rfl

end JT
