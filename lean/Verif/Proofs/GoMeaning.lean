import Verif.Spec.GoMeaning
import Verif.Props.C94
import Verif.Props.C76
/- The types that generated Go source declares, and JSON documents. -/
namespace JT.GoText
open Gen Spec JT.Spec GoJson Flat

variable {title : Str → Str}

/-! ### Declarations mean one type -/

theorem basic_fun {n : Str} {g g' : GT} (h : (n, g) ∈ basicTypes) (h' : (n, g') ∈ basicTypes) : g = g' := by
  simp only [basicTypes, List.mem_cons, Prod.mk.injEq, List.not_mem_nil, or_false] at h h'
  rcases h with ⟨rfl, rfl⟩ | ⟨rfl, rfl⟩ | ⟨rfl, rfl⟩ | ⟨rfl, rfl⟩ <;> rcases h' with ⟨h, rfl⟩ | ⟨h, rfl⟩ | ⟨h, rfl⟩ | ⟨h, rfl⟩ <;> first | rfl | exact absurd h (by decide)

mutual
theorem denotes_unique {f : File} (hn : (f.types.map Prod.fst).Nodup) {t : Ty} {g g' : GT} : Denotes f t g → Denotes f t g' → g = g'
  | .basic h1 h2, h' => by
    cases h' with
    | basic h1' h2' => exact basic_fun h2 h2'
    | named h1' h2' => exact absurd (List.mem_map.2 ⟨_, h1', rfl⟩) h1
  | .named h1 h2, h' => by
    cases h' with
    | basic h1' h2' => exact absurd (List.mem_map.2 ⟨_, h1, rfl⟩) h1'
    | named h1' h2' =>
      obtain rfl := nodup_fst hn h1 h1'
      exact denotes_unique hn h2 h2'
  | .time _, h' => by cases h'; rfl
  | .dict _ _, h' => by cases h'; rfl
  | .ptr h, h' => by
    cases h' with
    | ptr h' => rw [denotes_unique hn h h']
  | .slice h, h' => by
    cases h' with
    | slice h' => rw [denotes_unique hn h h']
  | .struct h _, h' => by
    cases h' with
    | struct h' _ => rw [fieldsDenote_unique hn h h']
theorem fieldsDenote_unique {f : File} (hn : (f.types.map Prod.fst).Nodup) {fs : List Field} {s s' : List SF} : FieldsDenote f fs s → FieldsDenote f fs s' → s = s'
  | .nil, h' => by cases h'; rfl
  | .cons h1 h2 h3, h' => by
    cases h' with
    | cons h1' h2' h3' =>
      have := h1.symm.trans h1'
      cases this
      rw [denotes_unique hn h2 h2', fieldsDenote_unique hn h3 h3']
end

/-! ### The type of a property -/

variable {c : Codec} {pointers : Bool} {f : File}

theorem denotes_ptr {b : Prop} [Decidable b] {t : Ty} {g : GT} (h : Denotes f t g) : Denotes f (ptrIf b t) (GoJson.ptrIf (decide b) g) := by
  unfold ptrIf GoJson.ptrIf
  by_cases hb : b
  · rw [if_pos hb, if_pos (by simpa using hb)]; exact .ptr h
  · rw [if_neg hb, if_neg (by simpa using hb)]; exact h

theorem nullable_iff {q : P} {i : Instance} (hd : decodeInstance false q = .ok i) : Nullable q ↔ g!"null" ∈ i.type :=
  ⟨fun ⟨i', a, b⟩ => by rw [hd] at a; cases a; exact b, fun h => ⟨i, hd, h⟩⟩

/-- The option of a field. -/
def omitOf (required struct : Bool) : Omit := if required then .never else if struct then .zero else .empty

theorem omitOf_text (required struct : Bool) : optionOf required struct = omitText (omitOf required struct) := by cases required <;> cases struct <;> rfl

/-- The Go type `t` for a property means a type that its documents go through. -/
def Means (c : Codec) (pointers : Bool) (f : File) (required : Bool) (q : P) (t : Ty) (struct : Bool) : Prop :=
  ∃ g, Denotes f t g ∧ Good c pointers g q ∧ (required = false → ¬ BareTime pointers q → skipped (omitOf required struct) (zero c g) = true)

/-- No type of the language is declared anew. -/
def Fresh (f : File) : Prop := ∀ n ∈ scalarTable.map Prod.snd, n ∉ f.types.map Prod.fst

theorem scalar_good (hc : c.Lawful) (hf : Fresh f) {q : P} {i : Instance} {t b : Str} (hd : decodeInstance false q = .ok i) (ht : TypeIs i t) (hb : (t, b) ∈ scalarTable)
    (hn : ¬ (t = g!"string" ∧ i.format = g!"date-time")) : ∃ g, Denotes f (.name b) g ∧ GoodNN c pointers g q ∧ isEmpty (zero c g) = true := by
  have hfr := hf b (List.mem_map.2 ⟨_, hb, rfl⟩)
  simp only [scalarTable, List.mem_cons, Prod.mk.injEq, List.not_mem_nil, or_false] at hb
  rcases hb with ⟨rfl, rfl⟩ | ⟨rfl, rfl⟩ | ⟨rfl, rfl⟩ | ⟨rfl, rfl⟩
  · exact ⟨.bool, .basic hfr (by simp [basicTypes]), good_bool hd ht, rfl⟩
  · exact ⟨.float64, .basic hfr (by simp [basicTypes]), good_number hc hd ht, by simp [zero, isEmpty, hc.zeroFloat]⟩
  · exact ⟨.int64, .basic hfr (by simp [basicTypes]), good_integer hd ht, rfl⟩
  · exact ⟨.string, .basic hfr (by simp [basicTypes]), good_string hd ht fun h => hn ⟨rfl, h⟩, rfl⟩

theorem skip_ptr {b : Bool} {required : Bool} {g : GT} (hr : required = false) (h : b = false → isEmpty (zero c g) = true) :
    skipped (omitOf required false) (zero c (GoJson.ptrIf b g)) = true := by
  subst hr
  cases b with
  | true => rfl
  | false => exact h rfl

theorem means_slice {required : Bool} {q items : P} {i : Instance} {t : Ty} {g : GT} {b : Prop} [Decidable b] (hd : decodeInstance false q = .ok i) (ht : TypeIs i g!"array")
    (hi : i.items = some items) (h : Denotes f t g) (hg : GoodNN c pointers g items) : Means c pointers f required q (.slice (ptrIf b t)) false := by
  refine ⟨_, .slice (denotes_ptr h), good_slice hd ht hi ?_, fun hr _ => ?_⟩
  · unfold GoJson.ptrIf
    split
    · exact hg.ptr.nn
    · exact hg
  · subst hr; rfl

theorem means_scalar (hc : c.Lawful) (hf : Fresh f) {required : Bool} {q : P} {i : Instance} {t b : Str} (hd : decodeInstance false q = .ok i) (ht : TypeIs i t)
    (hb : (t, b) ∈ scalarTable) (hn : ¬ (t = g!"string" ∧ i.format = g!"date-time")) : Means c pointers f required q (ptrIf (g!"null" ∈ i.type) (.name b)) false := by
  obtain ⟨g, h1, h2, h3⟩ := scalar_good (pointers := pointers) hc hf hd ht hb hn
  exact ⟨_, denotes_ptr h1, h2.ptrIf fun h => by simpa using (nullable_iff hd).1 h, fun hr _ => skip_ptr hr fun _ => h3⟩

theorem means_time (hc : c.Lawful) (hi : g!"time" ∈ f.imports) {required : Bool} {q : P} {i : Instance} (hd : decodeInstance false q = .ok i) (ht : TypeIs i g!"string")
    (hfm : i.format = g!"date-time") :
    Means c pointers f required q (ptrIf (g!"null" ∈ i.type ∨ (pointers = true ∧ required = false)) (.sel g!"time" g!"Time")) false := by
  refine ⟨_, denotes_ptr (.time hi), (good_time hc hd ht hfm).ptrIf fun h => by simp [(nullable_iff hd).1 h], fun hr hb => skip_ptr hr fun he => ?_⟩
  simp only [decide_eq_false_iff_not, not_or, not_and, hr, not_true_eq_false, imp_false] at he
  refine absurd ⟨?_, fun h => he.1 ((nullable_iff hd).1 h), i, hd, ht, hfm⟩ hb
  simpa using he.2

theorem dict_denotes (hf : Fresh f) : Denotes f (.map (.name g!"string") (.name g!"string")) .dict :=
  .dict (.basic (hf _ (by decide)) (by simp [basicTypes])) (.basic (hf _ (by decide)) (by simp [basicTypes]))

theorem means_dict (hf : Fresh f) {required : Bool} {q : P} {i : Instance} {m : GMap P} (hd : decodeInstance false q = .ok i) (ht : TypeIs i g!"object") (hp : i.properties = some m)
    (hno : ∀ k q, ¬ Listed m k q) : Means c pointers f required q (ptrIf (g!"null" ∈ i.type) (.map (.name g!"string") (.name g!"string"))) false :=
  ⟨_, denotes_ptr (dict_denotes hf), (good_dict hd ht hp hno).ptrIf fun h => by simpa using (nullable_iff hd).1 h, fun hr _ => skip_ptr hr fun _ => rfl⟩

theorem means_struct (hc : c.Lawful) {required : Bool} {q : P} {i : Instance} {t : Ty} {sfs : List SF} {b : Prop} [Decidable b] (hd : decodeInstance false q = .ok i)
    (h : Denotes f t (.struct sfs)) (hg : GoodNN c pointers (.struct sfs) q) (hb : g!"null" ∈ i.type → b) : Means c pointers f required q (ptrIf b t) (decide (¬ b)) := by
  refine ⟨_, denotes_ptr h, hg.ptrIf fun h => by simpa using hb ((nullable_iff hd).1 h), fun hr _ => ?_⟩
  subst hr
  by_cases h : b
  · simp [GoJson.ptrIf, h, omitOf, skipped, zero, isEmpty]
  · simp only [GoJson.ptrIf, h, omitOf, skipped, decide_false, Bool.false_eq_true, if_false, not_false_eq_true, decide_true, if_true]
    exact zero_isZero hc sfs

/-! ### Structs -/

/-- The fields of a struct. -/
structure StructMeans (c : Codec) (pointers : Bool) (f : File) (m : GMap P) (r : List Str) (Fs : List Field) (sfs : List SF) : Prop where
  denotes : Denotes f (.struct Fs) (.struct sfs)
  nodup : (sfs.map SF.json).Nodup
  sound : ∀ s ∈ sfs, ∃ q, Listed m s.json q ∧ FieldGood c pointers (decide (s.json ∈ r)) s.json q s
  complete : ∀ k q, Listed m k q → ∃ s ∈ sfs, s.json = k

theorem StructMeans.good {q : P} {i : Instance} {m : GMap P} {Fs : List Field} {sfs : List SF} (h : StructMeans c pointers f m i.required Fs sfs)
    (hd : decodeInstance false q = .ok i) (ht : TypeIs i g!"object") (hp : i.properties = some m) : GoodNN c pointers (.struct sfs) q :=
  good_struct hd ht hp h.nodup h.sound h.complete

theorem tag_read {descTag : Bool} {k d : Str} {o : Omit} (hk : TagName k) (hd : descTag = true → '`' ∉ firstLine d) :
    readTag ('`' :: tagOf descTag k (omitText o) d ++ g!"`\n") = some (k, o) := by
  have := readTag_text (o := o) (d := if descTag = true ∧ d ≠ [] then g!" description:\"" ++ firstLine d ++ g!"\"" else []) hk (by
    split
    · rename_i h
      intro hm
      simp only [List.mem_append] at hm
      rcases hm with (hm | hm) | hm
      · revert hm; decide
      · exact hd h.1 hm
      · revert hm; decide
    · simp)
  rw [← this]
  simp [tagOf]

/-- What a field of a struct is like. -/
def FieldLike (title : Str → Str) (rename : GMap Str) (c : Codec) (pointers : Bool) (m : GMap P) (r : List Str) (k : Str) (s : SF) : Prop :=
  s.json = k ∧ s.name = goName title rename k ∧ ∃ q, Listed m k q ∧ FieldGood c pointers (decide (k ∈ r)) k q s

theorem struct_means {rename : GMap Str} {m : GMap P} {r ks : List Str} {Fs : List Field} {sfs : List SF} (hm : CleanNames title rename m)
    (hord : (ks.map (goName title rename)).Pairwise (fun a b => strLt a b = true)) (hks : ∀ k, k ∈ ks ↔ ∃ q, Listed m k q) (hd : FieldsDenote f Fs sfs)
    (hlike : sfs.map SF.json = ks ∧ ∀ s ∈ sfs, FieldLike title rename c pointers m r s.json s) : StructMeans c pointers f m r Fs sfs := by
  obtain ⟨hj, hlike⟩ := hlike
  have hnames : sfs.map SF.name = ks.map (goName title rename) := by
    rw [← hj, List.map_map]
    exact List.map_congr_left fun s hs => (hlike s hs).2.1
  have hnd : (ks.map (goName title rename)).Nodup := hord.imp fun {a b} hab e => by rw [e, strLt_irrefl] at hab; cases hab
  refine ⟨.struct hd ?_, by rw [hj]; exact nodup_of_map hnd, fun s hs => (hlike s hs).2.2, fun k q hl => ?_⟩
  · unfold checked
    rw [if_pos]
    refine ⟨by rw [hnames]; exact hnd, fun s hs => ?_⟩
    obtain ⟨_, h2, q, h3, _⟩ := hlike s hs
    rw [h2]
    exact hm.exported _ _ h3
  · have := (hks k).2 ⟨q, hl⟩
    rw [← hj] at this
    obtain ⟨s, hs, he⟩ := List.mem_map.1 this
    exact ⟨s, hs, he⟩

theorem like_cons {rename : GMap Str} {m : GMap P} {r : List Str} {k : Str} {q : P} {t : Ty} {struct : Bool} (hl : Listed m k q)
    (ht : Means c pointers f (decide (k ∈ r)) q t struct) :
    ∃ g, Denotes f t g ∧ FieldLike title rename c pointers m r k (.mk (goName title rename k) k (omitOf (decide (k ∈ r)) struct) g) := by
  obtain ⟨g, h1, h2, h3⟩ := ht
  exact ⟨g, h1, rfl, rfl, q, hl, rfl, h2, fun h => by simp only [SF.opt, omitOf, h, if_true], h3⟩

/-- The fields of a struct, given what the type of each means. -/
theorem flat_fields_mean {rename : GMap Str} {descTag : Bool} {key : Str → Str} {m : GMap P} {r : List Str} (hm : CleanNames title rename m)
    (hdoc : ∀ k q i, Listed m k q → decodeInstance false q = .ok i → descTag = true → '`' ∉ firstLine i.description) {ks : List Str} {Fs : List Field}
    (h : FlatFieldsFor title rename descTag pointers key m r ks Fs)
    (hmean : ∀ k q t struct, Listed m k q → FlatType pointers (key k) q (decide (k ∈ r)) t struct → (t.uses g!"time" = true → g!"time" ∈ f.imports) →
      Means c pointers f (decide (k ∈ r)) q t struct) (hu : fieldsUse g!"time" Fs = true → g!"time" ∈ f.imports) :
    ∃ sfs, FieldsDenote f Fs sfs ∧ sfs.map SF.json = ks ∧ ∀ s ∈ sfs, FieldLike title rename c pointers m r s.json s := by
  induction h with
  | nil => exact ⟨[], .nil, rfl, by simp⟩
  | @cons k q i t struct ks fs hl hd ht hf ih =>
    obtain ⟨sfs, h1, h2, h3⟩ := ih fun h => hu (by simp [fieldsUse, h])
    obtain ⟨g, h4, h5⟩ := like_cons (title := title) (rename := rename) hl (hmean k q t struct hl ht fun h => hu (by simp [fieldsUse, h]))
    refine ⟨.mk (goName title rename k) k (omitOf (decide (k ∈ r)) struct) g :: sfs, .cons ?_ h4 h1, by rw [List.map_cons, h2]; rfl, fun s hs => ?_⟩
    · rw [omitOf_text]
      exact tag_read (hm.tag _ _ hl) (hdoc k q i hl hd)
    · rcases List.mem_cons.1 hs with rfl | hs
      · exact h5
      · exact h3 s hs

theorem clean_doc {rename : GMap Str} {descTag : Bool} {q : P} {i : Instance} (h : GoJson.Clean title rename descTag q) (hd : decodeInstance false q = .ok i) :
    descTag = true → '`' ∉ firstLine i.description := by
  have : DescOk descTag i := by
    cases h with
    | leaf h1 _ _ h => rw [hd] at h1; cases h1; exact h
    | array h1 _ _ h => rw [hd] at h1; cases h1; exact h
    | object h1 _ _ h => rw [hd] at h1; cases h1; exact h
  exact fun hb hm => this hb (List.takeWhile_subset _ hm)

/-! ### Structs of their own -/

/-- The struct for the object in a property, if it is one with properties or a list of them. -/
def NamedMeans (c : Codec) (pointers : Bool) (f : File) (key : Str) (q : P) : Prop :=
  (∀ i m, decodeInstance false q = .ok i → TypeIs i g!"object" → i.properties = some m → (∃ k q, Listed m k q) →
    ∃ sfs, Denotes f (.name key) (.struct sfs) ∧ GoodNN c pointers (.struct sfs) q) ∧
  ∀ i items j m, decodeInstance false q = .ok i → TypeIs i g!"array" → i.items = some items → decodeInstance false items = .ok j → TypeIs j g!"object" →
    j.properties = some m → (∃ k q, Listed m k q) → ∃ sfs, Denotes f (.name key) (.struct sfs) ∧ GoodNN c pointers (.struct sfs) items

theorem flat_means (hc : c.Lawful) (hf : Fresh f) {key : Str} {q : P} {required : Bool} {t : Ty} {struct : Bool} (h : FlatType pointers key q required t struct)
    (hn : NamedMeans c pointers f key q) (hu : t.uses g!"time" = true → g!"time" ∈ f.imports) : Means c pointers f required q t struct := by
  cases h with
  | scalar h1 h2 h3 h4 => exact means_scalar hc hf h1 h2 h3 h4
  | time h1 h2 h3 => exact means_time hc (hu (by unfold ptrIf; split <;> rfl)) h1 h2 h3
  | dict h1 h2 h3 h4 => exact means_dict hf h1 h2 h3 h4
  | struct h1 h2 h3 h4 =>
    obtain ⟨sfs, h5, h6⟩ := hn.1 _ _ h1 h2 h3 h4
    exact means_struct hc h1 h5 h6 .inl
  | scalars h1 h2 h3 h4 h5 h6 h7 =>
    obtain ⟨g, k1, k2, _⟩ := scalar_good (pointers := pointers) hc hf h4 h5 h6 h7
    exact means_slice h1 h2 h3 k1 k2
  | times h1 h2 h3 h4 h5 h6 => exact means_slice h1 h2 h3 (.time (hu (by unfold ptrIf; split <;> rfl))) (good_time hc h4 h5 h6)
  | dicts h1 h2 h3 h4 h5 h6 h7 => exact means_slice h1 h2 h3 (dict_denotes hf) (good_dict h4 h5 h6 h7)
  | structs h1 h2 h3 h4 h5 h6 h7 =>
    obtain ⟨sfs, k1, k2⟩ := hn.2 _ _ _ _ h1 h2 h3 h4 h5 h6 h7
    exact means_slice h1 h2 h3 k1 k2

/-- A struct in a file. -/
theorem flat_struct_means (hc : c.Lawful) (hf : Fresh f) {rename : GMap Str} {descTag : Bool} {key : Str → Str} {m : GMap P} {r : List Str} {Fs : List Field}
    (hm : CleanNames title rename m) (hcl : ∀ k q, Listed m k q → GoJson.Clean title rename descTag q)
    (h : FlatStruct title rename descTag pointers key m r Fs) (hn : ∀ k q, Listed m k q → NamedMeans c pointers f (key k) q)
    (hu : fieldsUse g!"time" Fs = true → g!"time" ∈ f.imports) : ∃ sfs, StructMeans c pointers f m r Fs sfs := by
  obtain ⟨ks, h1, h2, h3⟩ := h
  obtain ⟨sfs, h4, h5, h6⟩ := flat_fields_mean (c := c) (f := f) hm (fun k q i hl hd => clean_doc (hcl k q hl) hd) h3
    (fun k q t struct hl ht hu => flat_means hc hf ht (hn k q hl) hu) hu
  exact ⟨sfs, struct_means hm h1 h2 h4 ⟨h5, h6⟩⟩

theorem named_means (hc : c.Lawful) {args : Args} {schema : Instance} {m0 : GMap P} {pkg name : Str} {es : List Str} (hcond : Conditions title name ⟨schema.properties, schema.items⟩)
    (hfile : FlatFile title args schema m0 pkg name es f) (hf : Fresh f) {q : P} (hcl : GoJson.Clean title args.fieldNames args.descTag q) :
    ∀ l, l ≠ [] → SchemaAt instNode ⟨schema.properties, schema.items⟩ l q → NamedMeans c args.pointers f (keyOf title name l) q := by
  induction hcl with
  | @leaf raw i t h1 h2 h3 h4 =>
    intro l _ _
    refine ⟨fun i' m a1 a2 _ _ => ?_, fun i' items j m a1 a2 _ _ _ _ _ => ?_⟩
    · rw [same_type h1 a1 h2 a2] at h3; simp at h3
    · rw [same_type h1 a1 h2 a2] at h3; simp at h3
  | @array raw items i h1 h2 h3 h4 h5 ih =>
    intro l _ hat
    refine ⟨fun i' m a1 a2 _ _ => absurd (same_type h1 a1 h2 a2) (by decide), fun i' items' j m a1 a2 a3 a4 a5 a6 a7 => ?_⟩
    obtain rfl := same_instance h1 a1
    obtain rfl := Option.some.inj (h3.symm.trans a3)
    have := (ih (l ++ [.star]) (by simp) (items_at hcond hat h1 h2 h3)).1 j m a4 a5 a6 a7
    rwa [keyOf_star] at this
  | @object raw i m h1 h2 h3 h4 h5 h6 ih =>
    intro l hl hat
    refine ⟨fun i' m' a1 a2 a3 a4 => ?_, fun i' items j m a1 a2 _ _ _ _ _ => absurd (same_type h1 a1 h2 a2) (by decide)⟩
    obtain rfl := same_instance h1 a1
    obtain rfl := Option.some.inj (h3.symm.trans a3)
    have ho : ObjectAt schema l m i.required := .inner hat h1 h2 h3
    obtain ⟨Fs0, ds, t1, t2, t3, t4, t5⟩ := hfile.types
    obtain ⟨d, hd, hs⟩ := t5 l m _ hl ho a4
    cases hs with
    | @mk m' rq' Fs b1 b2 b3 =>
      obtain ⟨rfl, rfl⟩ := objectAt_unique hcond hl ho b1
      have hmem : structDecl (keyOf title name l) [] Fs ∈ f.types := by rw [t1]; exact List.mem_cons_of_mem _ hd
      obtain ⟨sfs, hsm⟩ := flat_struct_means (c := c) hc hf h5 h6 b3
        (fun k q hl' => ih k q hl' (l ++ [.key k]) (by simp) (listed_at hcond ho hl'))
        (fun hu => (hfile.imports.2 _).2 ⟨_, hmem, by simpa [structDecl, Ty.uses] using hu⟩)
      exact ⟨sfs, .named hmem hsm.denotes, hsm.good h1 h2 h3⟩

/-! ### Inline structs -/

mutual
theorem type_means (hc : c.Lawful) (hf : Fresh f) {rename : GMap Str} {descTag : Bool} {q : P} {required : Bool} {t : Ty} {struct : Bool} :
    TypeFor title rename descTag pointers q required t struct → GoJson.Clean title rename descTag q → (t.uses g!"time" = true → g!"time" ∈ f.imports) →
    Means c pointers f required q t struct
  | .scalar h1 h2 h3 h4, _, _ => means_scalar hc hf h1 h2 h3 h4
  | .time h1 h2 h3, _, hu => means_time hc (hu (by unfold ptrIf; split <;> rfl)) h1 h2 h3
  | .dict h1 h2 h3 h4, _, _ => means_dict hf h1 h2 h3 h4
  | .struct h1 h2 h3 h4 h5, hcl, hu => by
    cases hcl with
    | leaf a1 a2 a3 _ => rw [← same_type h1 a1 h2 a2] at a3; simp at a3
    | array a1 a2 _ _ _ => exact absurd (same_type h1 a1 h2 a2) (by decide)
    | object a1 a2 a3 a4 a5 a6 =>
      obtain rfl := same_instance h1 a1
      obtain rfl := Option.some.inj (h3.symm.trans a3)
      obtain ⟨sfs, hs⟩ := structFor_means hc hf h5 a5 a6 fun h => hu (by unfold ptrIf; split <;> simpa [Ty.uses] using h)
      have := means_struct (required := required) (b := g!"null" ∈ _) hc h1 hs.denotes (hs.good h1 h2 h3) id
      exact this
  | .scalars h1 h2 h3 h4 h5 h6 h7, _, _ => by
    obtain ⟨g, k1, k2, _⟩ := scalar_good (pointers := pointers) hc hf h4 h5 h6 h7
    exact means_slice h1 h2 h3 k1 k2
  | .times h1 h2 h3 h4 h5 h6, _, hu => means_slice h1 h2 h3 (.time (hu (by unfold ptrIf; split <;> rfl))) (good_time hc h4 h5 h6)
  | .dicts h1 h2 h3 h4 h5 h6 h7, _, _ => means_slice h1 h2 h3 (dict_denotes hf) (good_dict h4 h5 h6 h7)
  | .structs h1 h2 h3 h4 h5 h6 h7 h8, hcl, hu => by
    cases hcl with
    | leaf a1 a2 a3 _ => rw [← same_type h1 a1 h2 a2] at a3; simp at a3
    | object a1 a2 _ _ _ _ => exact absurd (same_type h1 a1 h2 a2) (by decide)
    | array a1 a2 a3 _ hcl =>
      obtain rfl := same_instance h1 a1
      obtain rfl := Option.some.inj (h3.symm.trans a3)
      cases hcl with
      | leaf a1 a2 a3 _ => rw [← same_type h4 a1 h5 a2] at a3; simp at a3
      | array a1 a2 _ _ _ => exact absurd (same_type h4 a1 h5 a2) (by decide)
      | object a1 a2 a3 a4 a5 a6 =>
        obtain rfl := same_instance h4 a1
        obtain rfl := Option.some.inj (h6.symm.trans a3)
        obtain ⟨sfs, hs⟩ := structFor_means hc hf h8 a5 a6 fun h => hu (by unfold ptrIf; split <;> simpa [Ty.uses] using h)
        exact means_slice h1 h2 h3 hs.denotes (hs.good h4 h5 h6)
theorem structFor_means (hc : c.Lawful) (hf : Fresh f) {rename : GMap Str} {descTag : Bool} {m : GMap P} {r ks : List Str} {Fs : List Field} :
    StructFor title rename descTag pointers m r ks Fs → CleanNames title rename m → (∀ k q, Listed m k q → GoJson.Clean title rename descTag q) →
    (fieldsUse g!"time" Fs = true → g!"time" ∈ f.imports) → ∃ sfs, StructMeans c pointers f m r Fs sfs
  | .mk h1 h2 h3, hm, hcl, hu => by
    obtain ⟨sfs, h4, h5, h6⟩ := fieldsFor_mean hc hf h3 hm hcl hu
    exact ⟨sfs, struct_means hm h1 h2 h4 ⟨h5, h6⟩⟩
theorem fieldsFor_mean (hc : c.Lawful) (hf : Fresh f) {rename : GMap Str} {descTag : Bool} {m : GMap P} {r ks : List Str} {Fs : List Field} :
    FieldsFor title rename descTag pointers m r ks Fs → CleanNames title rename m → (∀ k q, Listed m k q → GoJson.Clean title rename descTag q) →
    (fieldsUse g!"time" Fs = true → g!"time" ∈ f.imports) →
    ∃ sfs, FieldsDenote f Fs sfs ∧ sfs.map SF.json = ks ∧ ∀ s ∈ sfs, FieldLike title rename c pointers m r s.json s
  | .nil, _, _, _ => ⟨[], .nil, rfl, by simp⟩
  | @FieldsFor.cons _ _ _ _ _ _ k q i t struct ks fs hl hd ht hfs, hm, hcl, hu => by
    obtain ⟨sfs, h1, h2, h3⟩ := fieldsFor_mean hc hf hfs hm hcl fun h => hu (by simp [fieldsUse, h])
    obtain ⟨g, h4, h5⟩ := like_cons (title := title) (rename := rename) hl (type_means hc hf ht (hcl k q hl) fun h => hu (by simp [fieldsUse, h]))
    refine ⟨.mk (goName title rename k) k (omitOf (decide (k ∈ r)) struct) g :: sfs, .cons ?_ h4 h1, by rw [List.map_cons, h2]; rfl, fun s hs => ?_⟩
    · rw [omitOf_text]
      exact tag_read (hm.tag _ _ hl) (clean_doc (hcl k q hl) hd)
    · rcases List.mem_cons.1 hs with rfl | hs
      · exact h5
      · exact h3 s hs
end

end JT.GoText
