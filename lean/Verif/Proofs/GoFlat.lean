import Verif.Proofs.GoSource
import Verif.Spec.GoFlat
/- The declarations of fields when objects have structs of their own. -/
namespace JT.GoText
open Gen Spec JT.Spec GoJson Flat

variable {u : Unicode} {title : Str → Str} {args : Args}

/-- A text that begins with a letter that is not small. -/
def Big (u : Unicode) (s : Str) : Prop := ∃ c t, s = c :: t ∧ isLetter u c = true ∧ c.isLower = false

theorem not_big {c : Char} {t : Str} (h : isLetter u c = false ∨ c.isLower = true) : ¬ Big u (c :: t) := by
  rintro ⟨c', t', e, h1, h2⟩
  cases e
  rcases h with h | h
  · rw [h] at h1; cases h1
  · rw [h] at h2; cases h2

/-- The structs in a file and the names of those that are left out. -/
structure Ctx (u : Unicode) (nested : GMap GStruct) (exclude : List Str) : Prop where
  keys : ∀ κ st, GMap.get κ nested = some st → Big u κ
  out : ∀ s ∈ exclude, ∃ st, GMap.get s nested = some st ∧ st.fields = []

theorem Ctx.none {nested : GMap GStruct} {exclude : List Str} (h : Ctx u nested exclude) {s : Str} (hs : ¬ Big u s) : GMap.get s nested = none := by
  cases hg : GMap.get s nested with
  | none => rfl
  | some st => exact absurd (h.keys _ _ hg) hs

theorem Ctx.kept {nested : GMap GStruct} {exclude : List Str} (h : Ctx u nested exclude) {s : Str} (hs : ¬ Big u s) : s ∉ exclude := fun hx => by
  obtain ⟨st, h1, _⟩ := h.out s hx
  exact hs (h.keys _ _ h1)

variable {nested : GMap GStruct} {exclude : List Str} {required : Bool}

theorem signs_small {w : Str} {ty : Ty} (hw : (w, ty) ∈ words) (a b : Bool) : ¬ Big u (signs a b w) := by
  simp only [words, List.mem_cons, Prod.mk.injEq, List.not_mem_nil, or_false] at hw
  rcases hw with ⟨rfl, -⟩ | ⟨rfl, -⟩ | ⟨rfl, -⟩ | ⟨rfl, -⟩ | ⟨rfl, -⟩ | ⟨rfl, -⟩ <;> cases a <;> cases b <;>
    first | exact not_big (.inl rfl) | exact not_big (.inr rfl)

/-- The type of a field without parts does not depend on other structs. -/
theorem goType_leaf {i : Instance} {t : Str} (ht : t ∈ scalarTable.map Prod.fst) (a : Bool) (d k n : Str) (nu : Bool) (pointers : Bool) :
    goType ⟨a, d, none, k, leafType i t, n, nu, []⟩ required pointers nested = goType ⟨a, d, none, k, leafType i t, n, nu, []⟩ required pointers [] ∧
      ¬ Big u (leafType i t) := by
  simp only [scalarTable, List.map_cons, List.map_nil, List.mem_cons, List.not_mem_nil, or_false] at ht
  unfold leafType
  split
  · exact ⟨rfl, not_big (.inr rfl)⟩
  · rcases ht with rfl | rfl | rfl | rfl <;> exact ⟨rfl, not_big (.inr rfl)⟩

theorem option_flat {f : EField} (hf : f.fields = none) (required : Bool) : omitOption f required nested = optionOf required
    (decide (f.array = false ∧ f.nullable = false ∧ ∃ ns, GMap.get f.jsonType nested = some ns ∧ ns.fields.length ≠ 0)) := by
  unfold omitOption optionOf
  rw [hf]
  cases required
  · simp
  · simp

/-- The name of a struct as a type. -/
theorem runs_key {key : Str} (hk : Name u key) (sl st b : Bool) : Runs u (.start b) (signs sl st key ++ g!"\t") (signed sl st (.name key)).toks (.start true) := by
  obtain ⟨b', hb⟩ := runs_signs (u := u) sl st b
  rw [signs_word, signed_toks, List.append_assoc]
  exact hb.append (runs_name hk b' (.inl rfl))

/-- A field whose type is a word. -/
theorem flat_word {descTag pointers : Bool} (hc : Ctx u nested exclude) {i : Instance} {a : Bool} {k n w jt : Str} {ty : Ty} {nu b : Bool} (hn : Name u n) (hk : RawText k)
    (hd : DocText descTag i) (hw : (w, ty) ∈ words) (hty : goType ⟨a, i.description, none, k, jt, n, nu, []⟩ required pointers nested = signs a b w)
    (hj : ∀ ns, GMap.get jt nested = some ns → ns.fields = []) :
    Writes u descTag pointers exclude nested required ⟨a, i.description, none, k, jt, n, nu, []⟩
      (.mk (docOf descTag i.description) (some n) (signed a b ty) (some (tagOf descTag k (optionOf required false) i.description))) := by
  have := writes_plain (u := u) (descTag := descTag) (pointers := pointers) (required := required) (exclude := exclude) (nested := nested)
    (f := ⟨a, i.description, none, k, jt, n, nu, []⟩) (t := signed a b ty) hn hk (doc_tag hd) (doc_comment hd) (fun b' => by rw [hty]; exact runs_type hw a b b')
    (by rw [hty]; exact hc.kept (signs_small hw a b)) (by rw [hty]; exact signs_ne hw) (.inl rfl)
  rw [option_flat rfl, show decide _ = false from decide_eq_false (by
    rintro ⟨_, _, ns, h1, h2⟩
    exact h2 (by rw [hj ns h1]; rfl))] at this
  exact this

/-- The type of a field for a struct. -/
theorem goType_key {key : Str} (hc : Ctx u nested exclude) (hb : Big u key) {st : GStruct} (hg : GMap.get key nested = some st) (a : Bool) (d k n : Str) (nu : Bool)
    (pointers : Bool) : goType ⟨a, d, none, k, key, n, nu, []⟩ required pointers nested = if st.fields.length = 0 then signs a nu g!"map[string]string" else signs a false key := by
  have hne : ∀ c t, c.isLower = true → key ≠ c :: t := by
    rintro c t hl rfl
    exact not_big (.inr hl) hb
  unfold goType
  simp only [hg]
  rw [if_neg (hne _ _ rfl), if_neg (hne _ _ rfl), if_neg (hne _ _ rfl), if_neg (hne _ _ rfl), if_neg (hne _ _ rfl), if_neg (hne _ _ rfl)]
  by_cases h : st.fields.length = 0
  · rw [if_pos h, if_pos h]; cases a <;> cases nu <;> rfl
  · rw [if_neg h, if_neg h]; cases a <;> cases nu <;> rfl

theorem goType_star {key : Str} (hc : Ctx u nested exclude) (a : Bool) (d k n : Str) (nu : Bool) (pointers : Bool) :
    goType ⟨a, d, none, k, '*' :: key, n, nu, []⟩ required pointers nested = signs a true key := by
  have hne : ∀ c t, c ≠ '*' → '*' :: key ≠ c :: t := by
    rintro c t hl e
    cases e
    exact hl rfl
  unfold goType
  simp only [hc.none (not_big (.inl rfl) : ¬ Big u ('*' :: key))]
  rw [if_neg (hne _ _ (by decide)), if_neg (hne _ _ (by decide)), if_neg (hne _ _ (by decide)), if_neg (hne _ _ (by decide)), if_neg (hne _ _ (by decide)),
    if_neg (hne _ _ (by decide))]
  cases a <;> cases nu <;> rfl

theorem signs_key {key : Str} (hk : Big u key) (a b : Bool) : signs a b key ≠ g!"[]" := by
  obtain ⟨c, t, rfl, h, _⟩ := hk
  cases a <;> cases b <;> simp [signs]
  rintro rfl
  cases h

theorem signs_not_big (key : Str) {a b : Bool} (h : a = true ∨ b = true) : ¬ Big u (signs a b key) := by
  cases a <;> cases b
  · simp at h
  · exact not_big (.inl rfl)
  · exact not_big (.inl rfl)
  · exact not_big (.inl rfl)

/-- A field whose type is a struct of the file. -/
theorem flat_key {descTag pointers : Bool} (hc : Ctx u nested exclude) {i : Instance} {a b : Bool} {k n key : Str} {nu : Bool} (hn : Name u n) (hk : RawText k)
    (hd : DocText descTag i) (hb : Big u key) (hkey : Name u key) {st : GStruct} (hg : GMap.get key nested = some st) (hst : st.fields ≠ []) (hnu : a = false → nu = false) :
    Writes u descTag pointers exclude nested required ⟨a, i.description, none, k, if b then '*' :: key else key, n, nu, []⟩
      (.mk (docOf descTag i.description) (some n) (signed a b (.name key)) (some (tagOf descTag k (optionOf required (decide (a = false ∧ b = false))) i.description))) := by
  have hlen : st.fields.length ≠ 0 := by simpa using hst
  have hty : goType ⟨a, i.description, none, k, if b then '*' :: key else key, n, nu, []⟩ required pointers nested = signs a b key := by
    cases b
    · simp only [Bool.false_eq_true, if_false]; rw [goType_key hc hb hg, if_neg hlen]
    · simp only [if_true]; exact goType_star hc ..
  have := writes_plain (u := u) (descTag := descTag) (pointers := pointers) (required := required) (exclude := exclude) (nested := nested)
    (f := ⟨a, i.description, none, k, if b then '*' :: key else key, n, nu, []⟩) (t := signed a b (.name key)) hn hk (doc_tag hd) (doc_comment hd)
    (fun b' => by rw [hty]; exact runs_key hkey a b b') (by
      rw [hty]
      by_cases h : a = true ∨ b = true
      · exact hc.kept (signs_not_big key h)
      · simp only [not_or, Bool.not_eq_true] at h
        rw [h.1, h.2]
        intro hx
        obtain ⟨st', h1, h2⟩ := hc.out _ hx
        rw [show signs false false key = key from rfl, hg] at h1
        cases h1
        exact hst h2) (by rw [hty]; exact signs_key hb a b) (.inl rfl)
  rw [option_flat rfl] at this
  refine cast ?_ this
  congr 5
  rw [decide_eq_decide]
  simp only
  constructor
  · rintro ⟨h1, _, ns, h2, _⟩
    refine ⟨h1, ?_⟩
    cases b
    · rfl
    · rw [if_pos rfl, hc.none (not_big (.inl rfl))] at h2; cases h2
  · rintro ⟨rfl, rfl⟩
    exact ⟨rfl, hnu rfl, st, hg, hlen⟩

/-! ### The field for a property -/

/-- What is to be shown of the field for a property. -/
def FlatSrc (u : Unicode) (title : Str → Str) (args : Args) (exclude : List Str) (nested : GMap GStruct) (key k : Str) (raw : P) (f : EField) (required : Bool) (F : Field)
    (t : Ty) : Prop :=
  Writes u args.descTag args.pointers exclude nested required f F ∧ (∀ p, t.uses p = (f.hasTime && decide (p = g!"time"))) ∧
  ∃ i struct, decodeInstance false raw = .ok i ∧ FlatType args.pointers key raw required t struct ∧
    F = .mk (docOf args.descTag i.description) (some (goName title args.fieldNames k)) t (some (tagOf args.descTag k (optionOf required struct) i.description))

theorem structType_eq {rq : List Str} {k key : Str} {i : Instance} : structType args rq k key i =
    if decide (g!"null" ∈ i.type ∨ (args.pointers = true ∧ decide (k ∈ rq) = false)) = true then '*' :: key else key := by
  unfold structType
  by_cases h : (args.pointers = true ∧ k ∉ rq) ∨ g!"null" ∈ i.type
  · rw [if_pos h, if_pos (by simpa [or_comm] using h)]
  · rw [if_neg h, if_neg (by simpa [or_comm, not_or] using h)]

/-- The field for a property declares what the schema asks for. -/
theorem field_flat (hc : Ctx u nested exclude) {rq : List Str} {key k : Str} {raw : P} {f : EField} (hf : FlatField title args rq key k raw f)
    (hn : Name u (goName title args.fieldNames k)) (hk : RawText k) (hd : ∀ i, decodeInstance false raw = .ok i → DocText args.descTag i)
    (ht : ∀ i t, decodeInstance false raw = .ok i → TypeIs i t → LeafType t → t ∈ scalarTable.map Prod.fst)
    (hti : ∀ i items j t, decodeInstance false raw = .ok i → TypeIs i g!"array" → i.items = some items → decodeInstance false items = .ok j → TypeIs j t → LeafType t →
      t ∈ scalarTable.map Prod.fst)
    (hpr : ∀ i, decodeInstance false raw = .ok i → TypeIs i g!"object" → i.properties ≠ none)
    (hpri : ∀ i items j, decodeInstance false raw = .ok i → TypeIs i g!"array" → i.items = some items → decodeInstance false items = .ok j → TypeIs j g!"object" →
      j.properties ≠ none)
    (hin : ∀ i m, Inner raw i m → Name u key ∧ Big u key ∧ (∃ st, GMap.get key nested = some st ∧ (st.fields = [] ↔ ∀ k q, ¬ Listed m k q)) ∧
      ((∀ k q, ¬ Listed m k q) → g!"null" ∉ i.type ∧ (args.pointers = true → k ∈ rq))) :
    ∃ F t, FlatSrc u title args exclude nested key k raw f (decide (k ∈ rq)) F t := by
  cases hf with
  | @leaf i t h1 h2 h3 =>
    have hts := ht _ _ h1 h2 h3
    obtain ⟨w, ty, tm, hw, hlw, htm, hty⟩ := leaf_word (pointers := args.pointers) (i := i) hts
    have hg := fun a d k n nu => goType_leaf (u := u) (nested := nested) (required := decide (k ∈ rq)) (i := i) hts a d k n nu args.pointers
    refine ⟨_, _, flat_word hc hn hk (hd i h1) hw ((hg ..).1.trans (hty ..)) (fun ns h => ?_), fun p => ?_, i, false, h1, ?_, rfl⟩
    · rw [hc.none (hg false [] k [] false).2] at h; cases h
    · rw [signed_uses, leafWord_uses hlw, ← htm]; rfl
    · rcases hlw with ⟨rfl, b, g1, g2, _, rfl⟩ | ⟨rfl, rfl, g1, _, rfl⟩
      · rw [show signed false (decide (g!"null" ∈ i.type) || (false && args.pointers && !decide (k ∈ rq))) (.name b) = ptrIf (g!"null" ∈ i.type) (.name b) from
          (ptrIf_eq (by simp) _).symm]
        exact .scalar h1 h2 g1 g2
      · rw [show signed false (decide (g!"null" ∈ i.type) || (true && args.pointers && !decide (k ∈ rq))) (.sel g!"time" g!"Time") =
          ptrIf (g!"null" ∈ i.type ∨ (args.pointers = true ∧ decide (k ∈ rq) = false)) (.sel g!"time" g!"Time") from (ptrIf_eq (by simp) _).symm]
        exact .time h1 h2 g1
  | @leaves items i j t h1 h2 h3 h4 h5 h6 =>
    have hts := hti _ _ _ _ h1 h2 h3 h4 h5 h6
    obtain ⟨w, ty, tm, hw, hlw, htm, hty⟩ := leaf_word (pointers := args.pointers) (i := j) hts
    have hg := fun a d k n nu => goType_leaf (u := u) (nested := nested) (required := decide (k ∈ rq)) (i := j) hts a d k n nu args.pointers
    refine ⟨_, _, flat_word hc hn hk (hd i h1) hw ((hg ..).1.trans (hty ..)) (fun ns h => ?_), fun p => ?_, i, false, h1, ?_, rfl⟩
    · rw [hc.none (hg false [] k [] false).2] at h; cases h
    · rw [signed_uses, leafWord_uses hlw, ← htm]; rfl
    · rcases hlw with ⟨rfl, b, g1, g2, _, rfl⟩ | ⟨rfl, rfl, g1, _, rfl⟩
      · rw [show signed true (decide (g!"null" ∈ i.type) || (false && args.pointers && !decide (k ∈ rq))) (.name b) = .slice (ptrIf (g!"null" ∈ i.type) (.name b)) from
          congrArg Ty.slice (ptrIf_eq (by simp) _).symm]
        exact .scalars h1 h2 h3 h4 h5 g1 g2
      · rw [show signed true (decide (g!"null" ∈ i.type) || (true && args.pointers && !decide (k ∈ rq))) (.sel g!"time" g!"Time") =
          .slice (ptrIf (g!"null" ∈ i.type ∨ (args.pointers = true ∧ decide (k ∈ rq) = false)) (.sel g!"time" g!"Time")) from congrArg Ty.slice (ptrIf_eq (by simp) _).symm]
        exact .times h1 h2 h3 h4 h5 g1
  | @object i h1 h2 =>
    obtain ⟨m, hm⟩ := Option.ne_none_iff_exists'.1 (hpr i h1 h2)
    obtain ⟨k1, k2, ⟨st, k3, k4⟩, k5⟩ := hin i m (.object h1 h2 hm)
    have hnt : ∀ s : Str, (s = key ∨ s = '*' :: key) → decide (s = g!"date-time") = false := by
      rintro s (rfl | rfl)
      · exact decide_eq_false fun e => not_big (.inr rfl) (e ▸ k2)
      · exact decide_eq_false fun e => by cases e
    by_cases hl : ∀ k q, ¬ Listed m k q
    · obtain ⟨n1, n2⟩ := k5 hl
      have hst : structType args rq k key i = key := by unfold structType; rw [if_neg]; rintro (⟨a, b⟩ | h); exacts [b (n2 a), n1 h]
      rw [hst]
      refine ⟨_, _, flat_word (w := g!"map[string]string") (ty := .map (.name g!"string") (.name g!"string")) (b := false) hc hn hk (hd i h1) (by simp [words]) ?_ ?_, fun p => ?_, i, false, h1, ?_, rfl⟩
      · rw [goType_key hc k2 k3, if_pos (by rw [k4.2 hl]; rfl)]
      · intro ns h; rw [k3] at h; cases h; exact k4.2 hl
      · rw [signed_uses]; simp only [EField.hasTime, hnt _ (.inl rfl), Bool.false_and]; rfl
      · have := FlatType.dict (pointers := args.pointers) (key := key) (required := decide (k ∈ rq)) h1 h2 hm hl
        rw [ptrIf, if_neg n1] at this
        exact this
    · have hl' : ∃ k q, Listed m k q := Classical.byContradiction fun h => hl fun k q hh => h ⟨k, q, hh⟩
      rw [structType_eq]
      refine ⟨_, _, flat_key hc hn hk (hd i h1) k2 k1 k3 (fun e => hl (k4.1 e)) (fun _ => rfl), fun p => ?_, i, _, h1, ?_, rfl⟩
      · rw [signed_uses]; simp only [EField.hasTime]; rw [hnt _ (by split <;> simp)]; rfl
      · have := FlatType.struct (pointers := args.pointers) (key := key) (required := decide (k ∈ rq)) h1 h2 hm hl'
        rw [show signed false (decide (g!"null" ∈ i.type ∨ (args.pointers = true ∧ decide (k ∈ rq) = false))) (.name key) =
          ptrIf (g!"null" ∈ i.type ∨ (args.pointers = true ∧ decide (k ∈ rq) = false)) (.name key) from (ptrIf_eq decide_eq_true_iff _).symm]
        refine cast ?_ this
        congr 1
        simp
  | @objects items i j h1 h2 h3 h4 h5 =>
    obtain ⟨m, hm⟩ := Option.ne_none_iff_exists'.1 (hpri i items j h1 h2 h3 h4 h5)
    obtain ⟨k1, k2, ⟨st, k3, k4⟩, k5⟩ := hin j m (.items h1 h2 h3 h4 h5 hm)
    have hnt : ∀ s : Str, (s = key ∨ s = '*' :: key) → decide (s = g!"date-time") = false := by
      rintro s (rfl | rfl)
      · exact decide_eq_false fun e => not_big (.inr rfl) (e ▸ k2)
      · exact decide_eq_false fun e => by cases e
    by_cases hl : ∀ k q, ¬ Listed m k q
    · obtain ⟨n1, n2⟩ := k5 hl
      have hst : structType args rq k key j = key := by unfold structType; rw [if_neg]; rintro (⟨a, b⟩ | h); exacts [b (n2 a), n1 h]
      rw [hst]
      refine ⟨_, _, flat_word (w := g!"map[string]string") (ty := .map (.name g!"string") (.name g!"string")) (b := decide (g!"null" ∈ i.type)) hc hn hk (hd i h1) (by simp [words]) ?_ ?_, fun p => ?_, i, false, h1, ?_, rfl⟩
      · rw [goType_key hc k2 k3, if_pos (by rw [k4.2 hl]; rfl)]
      · intro ns h; rw [k3] at h; cases h; exact k4.2 hl
      · rw [signed_uses]; simp only [EField.hasTime, hnt _ (.inl rfl), Bool.false_and]; rfl
      · rw [show signed true (decide (g!"null" ∈ i.type)) (.map (.name g!"string") (.name g!"string")) =
          .slice (ptrIf (g!"null" ∈ i.type) (.map (.name g!"string") (.name g!"string"))) from congrArg Ty.slice (ptrIf_eq decide_eq_true_iff _).symm]
        exact .dicts h1 h2 h3 h4 h5 hm hl
    · have hl' : ∃ k q, Listed m k q := Classical.byContradiction fun h => hl fun k q hh => h ⟨k, q, hh⟩
      rw [structType_eq]
      refine ⟨_, signed true (decide (g!"null" ∈ j.type ∨ (args.pointers = true ∧ decide (k ∈ rq) = false))) (.name key), flat_key (a := true) hc hn hk (hd i h1) k2 k1 k3 (fun e => hl (k4.1 e)) (fun h => absurd h (by decide)), fun p => ?_, i, false, h1, ?_, ?_⟩
      · rw [signed_uses]; simp only [EField.hasTime]; rw [hnt _ (by split <;> simp)]; rfl
      · rw [show signed true (decide (g!"null" ∈ j.type ∨ (args.pointers = true ∧ decide (k ∈ rq) = false))) (.name key) =
          .slice (ptrIf (g!"null" ∈ j.type ∨ (args.pointers = true ∧ decide (k ∈ rq) = false)) (.name key)) from congrArg Ty.slice (ptrIf_eq (by simp) _).symm]
        exact .structs h1 h2 h3 h4 h5 hm hl'
      · simp

/-! ### The fields of a struct -/

theorem flatField_name {rq : List Str} {key k : Str} {raw : P} {f : EField} (hf : FlatField title args rq key k raw f) :
    f.jsonName = k ∧ f.name = goName title args.fieldNames k := by
  cases hf <;> exact ⟨rfl, rfl⟩

theorem flatFieldsFor_map {descTag pointers : Bool} {rename : GMap Str} {key : Str → Str} {m : GMap P} {r : List Str} {α : Type} {K : α → Str} {S : α → Field} : ∀ (l : List α),
    (∀ x ∈ l, ∃ q i t struct, Listed m (K x) q ∧ decodeInstance false q = .ok i ∧ FlatType pointers (key (K x)) q (decide (K x ∈ r)) t struct ∧
      S x = .mk (docOf descTag i.description) (some (goName title rename (K x))) t (some (tagOf descTag (K x) (optionOf (decide (K x ∈ r)) struct) i.description))) →
    FlatFieldsFor title rename descTag pointers key m r (l.map K) (l.map S)
  | [], _ => .nil
  | x :: l, h => by
    obtain ⟨q, i, t, struct, h1, h2, h3, h4⟩ := h x (by simp)
    rw [List.map_cons, List.map_cons, h4]
    exact .cons h1 h2 h3 (flatFieldsFor_map l fun y hy => h y (by simp [hy]))

/-- The fields for some properties, given each. -/
theorem fields_flat {m : GMap P} {fs : GMap EField} {r : List Str} {key : Str → Str} (hf : FlatFields title args r key m fs)
    (hm : ∀ k q k' q', Listed m k q → Listed m k' q' → goName title args.fieldNames k = goName title args.fieldNames k' → k = k')
    (hS : ∀ k q f, Listed m k q → GMap.get k fs = some f → ∃ F t, FlatSrc u title args exclude nested (key k) k q f (decide (k ∈ r)) F t) :
    ∃ Fs, FlatStruct title args.fieldNames args.descTag args.pointers key m r Fs ∧ (∀ p, fieldsUse p Fs = (includeTime fs && decide (p = g!"time"))) ∧
      ∀ ind, Tabs ind → Runs u (.start false) (textOf (sortedByName (linesAll args.descTag args.pointers exclude nested ind r fs)).flatten) (fieldsToks Fs) (.start false) := by
  have hent : ∀ kf ∈ fs, ∃ q, Listed m kf.1 q ∧ GMap.get kf.1 fs = some kf.2 ∧ FlatField title args r (key kf.1) kf.1 q kf.2 := by
    intro kf hkf
    have hg : GMap.get kf.1 fs = some kf.2 := GMap.get_mem_nodup hf.sorted.nodup hkf
    have hq : ∃ q, GMap.get kf.1 m = some q ∧ ¬ Spec.Hydrated q := by
      refine Classical.byContradiction fun hno => ?_
      have := (hf.names kf.1).2 fun q hq => Classical.byContradiction fun hh => hno ⟨q, hq, hh⟩
      rw [hg] at this
      cases this
    obtain ⟨q, hq⟩ := hq
    exact ⟨q, hq, hg, hf.each _ _ _ hq.1 hg⟩
  have hex : ∀ kf : Str × EField, ∃ p : Field × Ty, kf ∈ fs → kf.2.name = goName title args.fieldNames kf.1 ∧ kf.2.jsonName = kf.1 ∧
      ∃ q, Listed m kf.1 q ∧ FlatSrc u title args exclude nested (key kf.1) kf.1 q kf.2 (decide (kf.1 ∈ r)) p.1 p.2 := by
    intro kf
    by_cases hkf : kf ∈ fs
    · obtain ⟨q, h1, h2, h3⟩ := hent kf hkf
      obtain ⟨F, t, h4⟩ := hS _ _ _ h1 h2
      exact ⟨(F, t), fun _ => ⟨(flatField_name h3).2, (flatField_name h3).1, q, h1, h4⟩⟩
    · exact ⟨(.mk [] none (.name []) none, .name []), fun h => absurd h hkf⟩
  obtain ⟨S, hS⟩ := Classical.axiomOfChoice hex
  have hkeys : (fs.map Prod.fst).Nodup := hf.sorted.nodup
  have hnames : (fs.map fun kf => kf.2.name).Nodup := by
    refine nodup_map_on ?_ (nodup_of_map hkeys)
    intro a ha b hb he
    obtain ⟨q, h1, h2, h3⟩ := hent a ha
    obtain ⟨q', h1', h2', h3'⟩ := hent b hb
    rw [(flatField_name h3).2, (flatField_name h3').2] at he
    have hk := hm _ _ _ _ h1 h1' he
    rw [hk] at h2
    rw [h2] at h2'
    obtain ⟨a1, a2⟩ := a
    obtain ⟨b1, b2⟩ := b
    simp only at hk
    cases h2'
    rw [hk]
  obtain ⟨ord, hp, hord, hlines⟩ := Go.ordered_lines_in (descTag := args.descTag) (pointers := args.pointers) (exclude := exclude) (nested := nested) (r := r) hnames
  have hmem : ∀ kf, kf ∈ ord ↔ kf ∈ fs := fun kf => hp.mem_iff
  have hSo : ∀ kf ∈ ord, _ := fun kf hkf => hS kf ((hmem kf).1 hkf)
  refine ⟨ord.map fun kf => (S kf).1, ⟨ord.map Prod.fst, ?_, ?_, ?_⟩, fun p => ?_, fun ind hind => ?_⟩
  · rw [List.map_map]
    have : ord.map (goName title args.fieldNames ∘ Prod.fst) = ord.map fun kf => kf.2.name := List.map_congr_left fun kf hkf => (hSo kf hkf).1.symm
    rw [this]
    exact hord
  · intro k
    constructor
    · intro hk
      obtain ⟨kf, hkf, rfl⟩ := List.mem_map.1 hk
      obtain ⟨q, h, _⟩ := hent kf ((hmem kf).1 hkf)
      exact ⟨q, h⟩
    · rintro ⟨q, hl⟩
      have : ∃ f, GMap.get k fs = some f := by
        cases hg : GMap.get k fs with
        | some f => exact ⟨f, rfl⟩
        | none => exact absurd ((hf.names k).1 hg q hl.1) hl.2
      obtain ⟨f, hg⟩ := this
      exact List.mem_map.2 ⟨(k, f), (hmem _).2 (GMap.get_some_mem hg), rfl⟩
  · refine flatFieldsFor_map (K := Prod.fst) ord fun kf hkf => ?_
    obtain ⟨_, _, q, h1, _, _, i, struct, h2, h3, h4⟩ := hSo kf hkf
    exact ⟨q, i, (S kf).2, struct, h1, h2, h3, h4⟩
  · rw [fieldsUse_map p (fun kf => (S kf).1) (fun kf => (S kf).2) ord (fun kf hkf => by
      obtain ⟨_, _, q, h1, _, _, i, struct, h2, h3, h4⟩ := hSo kf hkf
      exact ⟨_, _, _, h4⟩), includeTime_any, ← any_perm hp, ← any_and]
    rw [Bool.eq_iff_iff]
    simp only [List.any_eq_true]
    have huse : ∀ kf ∈ ord, (S kf).2.uses p = (kf.2.hasTime && decide (p = g!"time")) := fun kf hkf => by
      obtain ⟨_, _, q, h1, _, h, _⟩ := hSo kf hkf
      exact h p
    constructor
    · rintro ⟨kf, hkf, h⟩; exact ⟨kf, hkf, by rw [← huse kf hkf]; exact h⟩
    · rintro ⟨kf, hkf, h⟩; exact ⟨kf, hkf, by rw [huse kf hkf]; exact h⟩
  · rw [hlines ind]
    refine writes_all (S := fun kf => (S kf).1) ord fun kf hkf => ?_
    obtain ⟨_, h1, q, _, h2, _⟩ := hSo kf hkf
    rw [h1]
    exact h2 ind hind

end JT.GoText
