import Verif.Spec.AvroText
import Verif.Props.C84
import Verif.Proofs.GoMeaning
/- From the text of Go source to the Avro schema. -/
namespace JT.GoText
open Gen Spec JT.Spec GoJson Flat

variable {title : Str → Str} {w : Go.World} {args : Args}

/-! ### Tags -/

/-- A field with the option. -/
def sample (k d : Str) (struct : Bool) : EField := ⟨false, d, if struct then some [([], ⟨false, [], none, [], [], [], false, []⟩)] else none, k, [], [], false, []⟩

theorem sample_option (k d : Str) (required struct : Bool) : omitOption (sample k d struct) required [] = optionOf required struct := by
  cases required <;> cases struct <;> simp [omitOption, sample, optionOf, GMap.get]

theorem tag_ast {p : Char → Bool} {descTag : Bool} {k d : Str} (required struct : Bool) (hk : TagName k) (hd : descTag = true → PlainText p (firstLine d)) :
    tagAst (some (tagOf descTag k (optionOf required struct) d)) = { name := k, description := if descTag = true then firstLine d else [], omitEmpty := !required && !struct } := by
  obtain ⟨h1, h2⟩ := Go.tagName_plain (p := p) hk
  have h := Go.parse_literal (f := sample k d struct) required descTag (Go.plain_quiet h1) h2 fun h => Go.plain_quiet (hd h)
  have e : Go.literal (sample k d struct) required descTag [] = '`' :: tagOf descTag k (optionOf required struct) d ++ ['`'] := by
    rw [Go.literal, sample_option, tagOf, Go.descriptionPart]
    show g!"`" ++ (g!"json:\"" ++ (k ++ optionOf required struct) ++ '"' :: (if descTag = true ∧ d ≠ [] then g!" description:\"" ++ firstLine d ++ ['"'] else [])) ++ g!"`" = _
    simp
  rw [e] at h
  rw [tagAst, h, Go.tagOf, sample_option]
  show ({ name := k, description := _, omitEmpty := _ } : Go.Tag) = _
  cases required <;> cases struct <;> rfl

/-! ### Types -/

/-- The Go type for a property gives the Avro type for it, and the option of the field fits. -/
def TypeAvro (title : Str → Str) (args : Args) (w : Go.World) (q : P) (required : Bool) (t : Ty) (struct : Bool) : Prop :=
  ∃ x, Go.GoodT w t.ast x ∧ JT.Spec.TypeFor title args.fieldNames args.descTag (Misses args) q x ∧
    (required = false → (struct = true ↔ BareObject q ∧ ¬ (args.noNested = true ∧ args.pointers = true)))

theorem goodT_ptr {b : Prop} [Decidable b] {t : Ty} {x : AType} (h : Go.GoodT w t.ast x) : Go.GoodT w (ptrIf b t).ast x := by
  unfold ptrIf
  split
  · exact Go.goodT_star h
  · exact h

theorem not_bare {q : P} {i : Instance} {t : Str} (hd : decodeInstance false q = .ok i) (ht : TypeIs i t) (h : t ≠ g!"object") : ¬ BareObject q := by
  rintro ⟨i', m, h1, h2, -⟩
  exact h (same_type hd h1 ht h2)

theorem plain_option {q : P} {required : Bool} {c : Prop} (h : ¬ BareObject q) : required = false → (false = true ↔ BareObject q ∧ c) := fun _ =>
  ⟨fun h => (nomatch h), fun h' => absurd h'.1 h⟩

theorem scalar_avro {t b : Str} (h : (t, b) ∈ scalarTable) : ∃ a, (t, a) ∈ JT.Spec.scalarTable ∧ Go.GoodT w (.ident b) (.scalar a) ∧ t ≠ g!"object" ∧ t ≠ g!"array" := by
  simp only [scalarTable, List.mem_cons, Prod.mk.injEq, List.not_mem_nil, or_false] at h
  rcases h with ⟨rfl, rfl⟩ | ⟨rfl, rfl⟩ | ⟨rfl, rfl⟩ | ⟨rfl, rfl⟩
  · exact ⟨g!"boolean", by decide, Go.goodT_scalar rfl (Go.plain_ascii (by decide)), by decide, by decide⟩
  · exact ⟨g!"double", by decide, Go.goodT_scalar rfl (Go.plain_ascii (by decide)), by decide, by decide⟩
  · exact ⟨g!"long", by decide, Go.goodT_scalar rfl (Go.plain_ascii (by decide)), by decide, by decide⟩
  · exact ⟨g!"string", by decide, Go.goodT_scalar rfl (Go.plain_ascii (by decide)), by decide, by decide⟩

theorem avro_scalar {required : Bool} {q : P} {i : Instance} {t b : Str} (hd : decodeInstance false q = .ok i) (ht : TypeIs i t) (hb : (t, b) ∈ scalarTable)
    (hn : ¬ (t = g!"string" ∧ i.format = g!"date-time")) : TypeAvro title args w q required (ptrIf (g!"null" ∈ i.type) (.name b)) false := by
  obtain ⟨a, h1, h2, h3, _⟩ := scalar_avro (w := w) hb
  exact ⟨_, goodT_ptr h2, .scalar hd ht h1 hn, plain_option (not_bare hd ht h3)⟩

theorem avro_time {required : Bool} {q : P} {i : Instance} {b : Prop} [Decidable b] (hd : decodeInstance false q = .ok i) (ht : TypeIs i g!"string") (hf : i.format = g!"date-time") :
    TypeAvro title args w q required (ptrIf b (.sel g!"time" g!"Time")) false :=
  ⟨_, goodT_ptr Go.goodT_time, .time hd ht hf, plain_option (not_bare hd ht (by decide))⟩

theorem avro_dict {required : Bool} {q : P} {i : Instance} {m : GMap P} {b : Prop} [Decidable b] (hd : decodeInstance false q = .ok i) (ht : TypeIs i g!"object")
    (hp : i.properties = some m) (hno : ∀ k q, ¬ Listed m k q) : TypeAvro title args w q required (ptrIf b (.map (.name g!"string") (.name g!"string"))) false :=
  ⟨_, goodT_ptr Go.goodT_map, .strings hd ht hp hno, plain_option fun hb => by
    obtain ⟨⟨k, q, h⟩, _⟩ := (Go.bare_iff hd ht hp).1 hb
    exact hno k q h⟩

theorem avro_slice {required : Bool} {q items : P} {i : Instance} {t : Ty} {x : AType} {b : Prop} [Decidable b] (hd : decodeInstance false q = .ok i) (ht : TypeIs i g!"array")
    (hi : i.items = some items) (hg : Go.GoodT w t.ast x) (hx : JT.Spec.TypeFor title args.fieldNames args.descTag (Misses args) items x) :
    TypeAvro title args w q required (.slice (ptrIf b t)) false :=
  ⟨_, Go.goodT_array (goodT_ptr hg), .list hd ht hi hx, plain_option (not_bare hd ht (by decide))⟩

/-- The record for an object. -/
theorem record_type {rename : GMap Str} {descTag : Bool} {miss : P → Bool → Prop} {q : P} {i : Instance} {m : GMap P} {fs : List AField} (hd : decodeInstance false q = .ok i)
    (ht : TypeIs i g!"object") (hp : i.properties = some m) (hs : ∃ k q, Listed m k q) (h : RecordFor title rename descTag miss m i.required fs) :
    JT.Spec.TypeFor title rename descTag miss q (.record fs) := .record hd ht hp hs h.order h.names h.doc h.optional h.type

/-- A struct of its own. -/
theorem goodT_named {key : Str} {l : List Go.GoField} {fs : List AField} (hp : Go.primitive key = none) (hk : w.pkg key = some l) (h : Go.GoodFs w l fs) :
    Go.GoodT w (.ident key) (.record fs) := by
  obtain ⟨N, h⟩ := Go.goodT_struct h
  refine ⟨N + 1, fun n hn ns seen name nullable h1 h2 => ?_⟩
  obtain ⟨n, rfl⟩ : ∃ k, n = k + 1 := ⟨n - 1, by omega⟩
  have := h (n + 1) (by omega) ns seen name nullable h1 h2
  simp only [Go.avroType, hp, hk] at this ⊢
  exact this

/-! ### Fields -/

/-- The fields of a struct and of the record. -/
structure FieldsAvro (title : Str → Str) (args : Args) (w : Go.World) (m : GMap P) (r ks : List Str) (Fs : List Field) (ps : List (Go.GoField × AField)) : Prop where
  ast : fieldsAst Fs = ps.map Prod.fst
  keys : ps.map (fun p => p.2.name) = ks
  good : ∀ p ∈ ps, Go.GoodF w p.1 p.2
  named : ∀ p ∈ ps, p.1.name = some (goName title args.fieldNames p.2.name)
  like : ∀ p ∈ ps, ∃ q, Listed m p.2.name q ∧ DocOf args.descTag q p.2.doc ∧ (p.2.optional = true ↔ Misses args q (decide (p.2.name ∈ r))) ∧
    JT.Spec.TypeFor title args.fieldNames args.descTag (Misses args) q p.2.type

theorem FieldsAvro.record {m : GMap P} {r ks : List Str} {Fs : List Field} {ps : List (Go.GoField × AField)} (h : FieldsAvro title args w m r ks Fs ps)
    (hord : (ks.map (goName title args.fieldNames)).Pairwise (fun a b => strLt a b = true)) (hks : ∀ k, k ∈ ks ↔ ∃ q, Listed m k q) :
    Go.GoodFs w (fieldsAst Fs) (ps.map Prod.snd) ∧ RecordFor title args.fieldNames args.descTag (Misses args) m r (ps.map Prod.snd) := by
  refine ⟨h.ast ▸ Go.goodFs_of h.good, ?_, fun k => ?_, ?_, ?_, ?_⟩
  · rw [← h.keys, List.map_map] at hord
    rw [List.map_map]
    exact hord
  · rw [← hks k, ← h.keys]
    simp only [List.mem_map]
    constructor
    · rintro ⟨f, ⟨p, hp, rfl⟩, rfl⟩; exact ⟨p, hp, rfl⟩
    · rintro ⟨p, hp, rfl⟩; exact ⟨_, ⟨p, hp, rfl⟩, rfl⟩
  all_goals
    intro f hf q hq
    obtain ⟨p, hp, rfl⟩ := List.mem_map.1 hf
    obtain ⟨q', h1, h2, h3, h4⟩ := h.like p hp
    obtain rfl : q = q' := Option.some.inj (hq.1.symm.trans h1.1)
    assumption

theorem fields_cons {m : GMap P} {r ks : List Str} {k : Str} {q : P} {i : Instance} {t : Ty} {struct : Bool} {Fs : List Field} {ps : List (Go.GoField × AField)}
    (hl : Listed m k q) (hd : decodeInstance false q = .ok i) (hk : TagName k) (hdoc : PlainDoc w.isPrint args.descTag i)
    (ht : TypeAvro title args w q (decide (k ∈ r)) t struct) (h : FieldsAvro title args w m r ks Fs ps) :
    ∃ ps, FieldsAvro title args w m r (k :: ks) (.mk (docOf args.descTag i.description) (some (goName title args.fieldNames k)) t
      (some (tagOf args.descTag k (optionOf (decide (k ∈ r)) struct) i.description)) :: Fs) ps := by
  obtain ⟨x, h1, h2, h3⟩ := ht
  have htag := tag_ast (p := w.isPrint) (decide (k ∈ r)) struct hk hdoc
  refine ⟨(.mk (some (goName title args.fieldNames k)) t.ast (tagAst (some (tagOf args.descTag k (optionOf (decide (k ∈ r)) struct) i.description))),
    .mk k (if args.descTag = true then firstLine i.description else []) x (!decide (k ∈ r) && !struct)) :: ps, ?_, ?_, ?_, ?_, ?_⟩
  · rw [fieldsAst, h.ast]; rfl
  · rw [List.map_cons, h.keys]; rfl
  · intro p hp
    rcases List.mem_cons.1 hp with rfl | hp
    · refine ⟨⟨_, rfl⟩, ?_, ?_, ?_, hk.1, (Go.tagName_plain hk).1, ?_, h1⟩
      · rw [htag]; rfl
      · rw [htag]; rfl
      · rw [htag]; rfl
      · show PlainText _ (if args.descTag = true then firstLine i.description else [])
        split
        · exact hdoc (by assumption)
        · intro c hc; cases hc
    · exact h.good p hp
  · intro p hp
    rcases List.mem_cons.1 hp with rfl | hp
    · rfl
    · exact h.named p hp
  · intro p hp
    rcases List.mem_cons.1 hp with rfl | hp
    · refine ⟨q, hl, ⟨i, hd, rfl⟩, ?_, h2⟩
      show (!decide (k ∈ r) && !struct) = true ↔ Misses args q (decide (k ∈ r))
      unfold Misses
      cases hr : decide (k ∈ r) with
      | true => simp
      | false =>
        have h3 := h3 hr
        cases struct with
        | true => simpa using h3
        | false => simpa using h3
    · exact h.like p hp

theorem clean_plain {rename : GMap Str} {p : Char → Bool} {descTag : Bool} {q : P} {i : Instance} (h : AvroClean title rename p descTag q) (hd : decodeInstance false q = .ok i) :
    PlainDoc p descTag i := by
  cases h with
  | leaf h1 _ _ h => rw [hd] at h1; cases h1; exact h
  | array h1 _ _ h => rw [hd] at h1; cases h1; exact h
  | object h1 _ _ h => rw [hd] at h1; cases h1; exact h

/-! ### Structs of their own -/

/-- The struct for the object in a property, if it is one with properties or a list of them. -/
def NamedAvro (title : Str → Str) (args : Args) (w : Go.World) (key : Str) (q : P) : Prop :=
  (∀ i m, decodeInstance false q = .ok i → TypeIs i g!"object" → i.properties = some m → (∃ k q, Listed m k q) →
    ∃ fs, Go.GoodT w (.ident key) (.record fs) ∧ RecordFor title args.fieldNames args.descTag (Misses args) m i.required fs) ∧
  ∀ i items j m, decodeInstance false q = .ok i → TypeIs i g!"array" → i.items = some items → decodeInstance false items = .ok j → TypeIs j g!"object" →
    j.properties = some m → (∃ k q, Listed m k q) →
    ∃ fs, Go.GoodT w (.ident key) (.record fs) ∧ RecordFor title args.fieldNames args.descTag (Misses args) m j.required fs

theorem flat_avro (hnn : args.noNested = true) {key : Str} {q : P} {required : Bool} {t : Ty} {struct : Bool} (h : FlatType args.pointers key q required t struct)
    (hn : NamedAvro title args w key q) : TypeAvro title args w q required t struct := by
  cases h with
  | scalar h1 h2 h3 h4 => exact avro_scalar h1 h2 h3 h4
  | time h1 h2 h3 => exact avro_time h1 h2 h3
  | dict h1 h2 h3 h4 => exact avro_dict h1 h2 h3 h4
  | struct h1 h2 h3 h4 =>
    obtain ⟨fs, h5, h6⟩ := hn.1 _ _ h1 h2 h3 h4
    refine ⟨_, goodT_ptr h5, record_type h1 h2 h3 h4 h6, fun hr => ?_⟩
    rw [Go.bare_iff h1 h2 h3, decide_eq_true_eq]
    simp only [hr, hnn, h4, true_and, and_true, not_or]
  | scalars h1 h2 h3 h4 h5 h6 h7 =>
    obtain ⟨a, k1, k2, _⟩ := scalar_avro (w := w) h6
    exact avro_slice h1 h2 h3 k2 (.scalar h4 h5 k1 h7)
  | times h1 h2 h3 h4 h5 h6 => exact avro_slice h1 h2 h3 Go.goodT_time (.time h4 h5 h6)
  | dicts h1 h2 h3 h4 h5 h6 h7 => exact avro_slice h1 h2 h3 Go.goodT_map (.strings h4 h5 h6 h7)
  | structs h1 h2 h3 h4 h5 h6 h7 =>
    obtain ⟨fs, k1, k2⟩ := hn.2 _ _ _ _ h1 h2 h3 h4 h5 h6 h7
    exact avro_slice h1 h2 h3 k1 (record_type h4 h5 h6 h7 k2)

theorem flat_fields_avro (hnn : args.noNested = true) {key : Str → Str} {m : GMap P} {r ks : List Str} {Fs : List Field} (hm : CleanNames title args.fieldNames m)
    (hcl : ∀ k q, Listed m k q → AvroClean title args.fieldNames w.isPrint args.descTag q) (hn : ∀ k q, Listed m k q → NamedAvro title args w (key k) q)
    (h : FlatFieldsFor title args.fieldNames args.descTag args.pointers key m r ks Fs) : ∃ ps, FieldsAvro title args w m r ks Fs ps := by
  induction h with
  | nil => exact ⟨[], rfl, rfl, by simp, by simp, by simp⟩
  | @cons k q i t struct ks fs hl hd ht hf ih =>
    obtain ⟨ps, h1⟩ := ih
    exact fields_cons hl hd (hm.tag _ _ hl) (clean_plain (hcl k q hl) hd) (flat_avro hnn ht (hn k q hl)) h1

theorem flat_struct_avro (hnn : args.noNested = true) {key : Str → Str} {m : GMap P} {r : List Str} {Fs : List Field} (hm : CleanNames title args.fieldNames m)
    (hcl : ∀ k q, Listed m k q → AvroClean title args.fieldNames w.isPrint args.descTag q) (hn : ∀ k q, Listed m k q → NamedAvro title args w (key k) q)
    (h : FlatStruct title args.fieldNames args.descTag args.pointers key m r Fs) :
    ∃ fs, Go.GoodFs w (fieldsAst Fs) fs ∧ RecordFor title args.fieldNames args.descTag (Misses args) m r fs := by
  obtain ⟨ks, h1, h2, h3⟩ := h
  obtain ⟨ps, h4⟩ := flat_fields_avro (w := w) hnn hm hcl hn h3
  exact ⟨_, h4.record h1 h2⟩

/-- What the generator finds are the structs of the file. -/
def Knows (w : Go.World) (f : File) (d : Str × Ty) : Prop := d ∈ f.types → ∀ Fs, d.2 = .struct Fs → w.pkg d.1 = some (fieldsAst Fs)

theorem named_avro {schema : Instance} {m0 : GMap P} {pkg name : Str} {f : File} (hnn : args.noNested = true)
    (hcond : Conditions title name ⟨schema.properties, schema.items⟩) (hfile : FlatFile title args schema m0 pkg name [] f)
    (hknow : ∀ l d, l ≠ [] → StructAt title args schema name l d → Knows w f d) (hprim : ∀ l, Go.primitive (keyOf title name l) = none)
    {q : P} (hcl : AvroClean title args.fieldNames w.isPrint args.descTag q) :
    ∀ l, l ≠ [] → SchemaAt instNode ⟨schema.properties, schema.items⟩ l q → NamedAvro title args w (keyOf title name l) q := by
  induction hcl with
  | @leaf raw i t h1 h2 h3 h4 =>
    intro l _ _
    refine ⟨fun i' m a1 a2 _ _ => ?_, fun i' items j m a1 a2 _ _ _ _ _ => ?_⟩
    · rw [same_type h1 a1 h2 a2] at h3; simp [JT.Spec.scalarTable] at h3
    · rw [same_type h1 a1 h2 a2] at h3; simp [JT.Spec.scalarTable] at h3
  | @array raw items i h1 h2 h3 h4 h5 ih =>
    intro l _ hat
    refine ⟨fun i' m a1 a2 _ _ => absurd (same_type h1 a1 h2 a2) (by decide), fun i' items' j m a1 a2 a3 a4 a5 a6 a7 => ?_⟩
    obtain rfl := same_instance h1 a1
    obtain rfl := Option.some.inj (h3.symm.trans a3)
    have := (ih (l ++ [.star]) (by simp) (items_at hcond hat h1 h2 h3)).1 j m a4 a5 a6 a7
    rwa [keyOf_star] at this
  | @object raw i m h1 h2 h3 h4 h5 h6 ih =>
    intro l hl hat
    refine ⟨fun i' m' a1 a2 a3 a4 => ?_, fun i' items j m a1 a2 _ _ _ _ _ => absurd (same_type h1 a1 h2 a2) (by decide)⟩
    obtain rfl := same_instance h1 a1
    obtain rfl := Option.some.inj (h3.symm.trans a3)
    have ho : ObjectAt schema l m i.required := .inner hat h1 h2 h3
    obtain ⟨Fs0, ds, t1, t2, t3, t4, t5⟩ := hfile.types
    obtain ⟨d, hd, hs⟩ := t5 l m _ hl ho a4
    have hk := hknow l d hl hs
    cases hs with
    | @mk m' rq' Fs b1 b2 b3 =>
      obtain ⟨rfl, rfl⟩ := objectAt_unique hcond hl ho b1
      have hmem : structDecl (keyOf title name l) [] Fs ∈ f.types := by rw [t1]; exact List.mem_cons_of_mem _ hd
      obtain ⟨fs, g1, g2⟩ := flat_struct_avro (w := w) hnn h5 h6
        (fun k q hl' => ih k q hl' (l ++ [.key k]) (by simp) (listed_at hcond ho hl')) b3
      exact ⟨fs, goodT_named (hprim l) (hk hmem _ rfl) g1, g2⟩

/-! ### Inline structs -/

mutual
theorem type_avro (hnn : args.noNested = false) {q : P} {required : Bool} {t : Ty} {struct : Bool} :
    TypeFor title args.fieldNames args.descTag args.pointers q required t struct → AvroClean title args.fieldNames w.isPrint args.descTag q →
    TypeAvro title args w q required t struct
  | .scalar h1 h2 h3 h4, _ => avro_scalar h1 h2 h3 h4
  | .time h1 h2 h3, _ => avro_time h1 h2 h3
  | .dict h1 h2 h3 h4, _ => avro_dict h1 h2 h3 h4
  | .struct h1 h2 h3 h4 h5, hcl => by
    cases hcl with
    | leaf a1 a2 a3 _ => rw [← same_type h1 a1 h2 a2] at a3; simp [JT.Spec.scalarTable] at a3
    | array a1 a2 _ _ _ => exact absurd (same_type h1 a1 h2 a2) (by decide)
    | object a1 a2 a3 a4 a5 a6 =>
      obtain rfl := same_instance h1 a1
      obtain rfl := Option.some.inj (h3.symm.trans a3)
      obtain ⟨fs, k1, k2⟩ := struct_avro hnn h5 a5 a6
      refine ⟨_, goodT_ptr (t := .struct _) (Go.goodT_struct k1), record_type h1 h2 h3 h4 k2, fun _ => ?_⟩
      rw [Go.bare_iff h1 h2 h3, decide_eq_true_eq]
      simp [hnn, h4]
  | .scalars h1 h2 h3 h4 h5 h6 h7, _ => by
    obtain ⟨a, k1, k2, _⟩ := scalar_avro (w := w) h6
    exact avro_slice h1 h2 h3 k2 (.scalar h4 h5 k1 h7)
  | .times h1 h2 h3 h4 h5 h6, _ => avro_slice h1 h2 h3 Go.goodT_time (.time h4 h5 h6)
  | .dicts h1 h2 h3 h4 h5 h6 h7, _ => avro_slice h1 h2 h3 Go.goodT_map (.strings h4 h5 h6 h7)
  | .structs h1 h2 h3 h4 h5 h6 h7 h8, hcl => by
    cases hcl with
    | leaf a1 a2 a3 _ => rw [← same_type h1 a1 h2 a2] at a3; simp [JT.Spec.scalarTable] at a3
    | object a1 a2 _ _ _ _ => exact absurd (same_type h1 a1 h2 a2) (by decide)
    | array a1 a2 a3 _ hcl =>
      obtain rfl := same_instance h1 a1
      obtain rfl := Option.some.inj (h3.symm.trans a3)
      cases hcl with
      | leaf a1 a2 a3 _ => rw [← same_type h4 a1 h5 a2] at a3; simp [JT.Spec.scalarTable] at a3
      | array a1 a2 _ _ _ => exact absurd (same_type h4 a1 h5 a2) (by decide)
      | object a1 a2 a3 a4 a5 a6 =>
        obtain rfl := same_instance h4 a1
        obtain rfl := Option.some.inj (h6.symm.trans a3)
        obtain ⟨fs, k1, k2⟩ := struct_avro hnn h8 a5 a6
        exact avro_slice (t := .struct _) h1 h2 h3 (Go.goodT_struct k1) (record_type h4 h5 h6 h7 k2)
theorem struct_avro (hnn : args.noNested = false) {m : GMap P} {r ks : List Str} {Fs : List Field} :
    StructFor title args.fieldNames args.descTag args.pointers m r ks Fs → CleanNames title args.fieldNames m →
    (∀ k q, Listed m k q → AvroClean title args.fieldNames w.isPrint args.descTag q) →
    ∃ fs, Go.GoodFs w (fieldsAst Fs) fs ∧ RecordFor title args.fieldNames args.descTag (Misses args) m r fs
  | .mk h1 h2 h3, hm, hcl => by
    obtain ⟨ps, h4⟩ := fieldsFor_avro hnn h3 hm hcl
    exact ⟨_, h4.record h1 h2⟩
theorem fieldsFor_avro (hnn : args.noNested = false) {m : GMap P} {r ks : List Str} {Fs : List Field} :
    FieldsFor title args.fieldNames args.descTag args.pointers m r ks Fs → CleanNames title args.fieldNames m →
    (∀ k q, Listed m k q → AvroClean title args.fieldNames w.isPrint args.descTag q) → ∃ ps, FieldsAvro title args w m r ks Fs ps
  | .nil, _, _ => ⟨[], rfl, rfl, by simp, by simp, by simp⟩
  | @FieldsFor.cons _ _ _ _ _ _ k q i t struct ks fs hl hd ht hfs, hm, hcl => by
    obtain ⟨ps, h1⟩ := fieldsFor_avro hnn hfs hm hcl
    exact fields_cons hl hd (hm.tag _ _ hl) (clean_plain (hcl k q hl) hd) (type_avro hnn ht (hcl k q hl)) h1
end

end JT.GoText
