import Verif.Proofs.GoText
/- The declarations of the fields of a schema. -/
namespace JT.GoText
open Gen Spec GoJson

variable {u : Unicode} {title : Str → Str} {rename : GMap Str} {descTag pointers : Bool}

/-- What is to be shown of the field for a property. -/
structure SrcOf (u : Unicode) (title : Str → Str) (rename : GMap Str) (descTag pointers : Bool) (k : Str) (raw : P) (f : EField) (required : Bool) (F : Field) : Prop where
  writes : Writes u descTag pointers [] [] required f F
  form : ∃ i t struct, decodeInstance false raw = .ok i ∧ TypeFor title rename descTag pointers raw required t struct ∧ (∀ p, t.uses p = (f.hasTime && decide (p = g!"time"))) ∧
    F = .mk (docOf descTag i.description) (some (goName title rename k)) t (some (tagOf descTag k (optionOf required struct) i.description))

theorem fieldsUse_map {α : Type} (p : Str) (S : α → Field) (T : α → Ty) (l : List α) (h : ∀ x ∈ l, ∃ d n g, S x = .mk d n (T x) g) :
    fieldsUse p (l.map S) = l.any fun x => (T x).uses p := by
  induction l with
  | nil => rfl
  | cons x l ih =>
    obtain ⟨d, n, g, hx⟩ := h x (by simp)
    rw [List.map_cons, hx, fieldsUse, ih fun y hy => h y (by simp [hy])]
    rfl

theorem includeTime_any (fs : List (Str × EField)) : includeTime fs = fs.any fun kf => kf.2.hasTime := by
  induction fs with
  | nil => rfl
  | cons kf t ih => obtain ⟨k, f⟩ := kf; rw [includeTime, ih]; rfl

theorem any_and {α : Type} (l : List α) (f : α → Bool) (b : Bool) : (l.any fun x => f x && b) = (l.any f && b) := by
  induction l with
  | nil => rfl
  | cons x l ih => simp only [List.any_cons, ih]; cases f x <;> cases b <;> simp

theorem any_perm {α : Type} {l m : List α} (h : l.Perm m) (f : α → Bool) : l.any f = m.any f := by
  rw [Bool.eq_iff_iff]
  simp only [List.any_eq_true]
  exact ⟨fun ⟨x, hx, hf⟩ => ⟨x, h.mem_iff.1 hx, hf⟩, fun ⟨x, hx, hf⟩ => ⟨x, h.mem_iff.2 hx, hf⟩⟩

theorem fieldsFor_map {m : GMap P} {r : List Str} {α : Type} {K : α → Str} {S : α → Field} : ∀ (l : List α),
    (∀ x ∈ l, ∃ q i t struct, Listed m (K x) q ∧ decodeInstance false q = .ok i ∧ TypeFor title rename descTag pointers q (decide (K x ∈ r)) t struct ∧
      S x = .mk (docOf descTag i.description) (some (goName title rename (K x))) t (some (tagOf descTag (K x) (optionOf (decide (K x ∈ r)) struct) i.description))) →
    FieldsFor title rename descTag pointers m r (l.map K) (l.map S)
  | [], _ => .nil
  | x :: l, h => by
    obtain ⟨q, i, t, struct, h1, h2, h3, h4⟩ := h x (by simp)
    rw [List.map_cons, List.map_cons, h4]
    exact .cons h1 h2 h3 (fieldsFor_map l fun y hy => h y (by simp [hy]))

/-- The fields for some properties, given each. -/
theorem fields_source {m : GMap P} {fs : GMap EField} {r : List Str} (hf : Spec.FieldsOf title rename m fs) (hm : Names u title rename m)
    (hS : ∀ k q f, Listed m k q → GMap.get k fs = some f → ∃ F, SrcOf u title rename descTag pointers k q f (decide (k ∈ r)) F) :
    ∃ ks Fs, StructFor title rename descTag pointers m r ks Fs ∧ (∀ p, fieldsUse p Fs = (includeTime fs && decide (p = g!"time"))) ∧
      ∀ ind, Tabs ind → Runs u (.start false) (textOf (sortedByName (linesAll descTag pointers [] [] ind r fs)).flatten) (fieldsToks Fs) (.start false) := by
  have hent : ∀ kf ∈ fs, ∃ q, Listed m kf.1 q ∧ GMap.get kf.1 fs = some kf.2 ∧ Spec.FieldOf title rename kf.1 q kf.2 := by
    intro kf hkf
    have hg : GMap.get kf.1 fs = some kf.2 := GMap.get_mem_nodup hf.sorted.nodup hkf
    have hq : ∃ q, GMap.get kf.1 m = some q ∧ ¬ Spec.Hydrated q := by
      refine Classical.byContradiction fun hno => ?_
      have := (hf.names kf.1).2 fun q hq => Classical.byContradiction fun hh => hno ⟨q, hq, hh⟩
      rw [hg] at this
      cases this
    obtain ⟨q, hq⟩ := hq
    exact ⟨q, hq, hg, hf.each _ _ _ hq.1 hg⟩
  have hex : ∀ kf : Str × EField, ∃ p : Field × Ty, kf ∈ fs → kf.2.name = goName title rename kf.1 ∧ kf.2.jsonName = kf.1 ∧
      Writes u descTag pointers [] [] (decide (kf.1 ∈ r)) kf.2 p.1 ∧ (∀ s, p.2.uses s = (kf.2.hasTime && decide (s = g!"time"))) ∧
      ∃ q i struct, Listed m kf.1 q ∧ decodeInstance false q = .ok i ∧ TypeFor title rename descTag pointers q (decide (kf.1 ∈ r)) p.2 struct ∧
      p.1 = .mk (docOf descTag i.description) (some (goName title rename kf.1)) p.2 (some (tagOf descTag kf.1 (optionOf (decide (kf.1 ∈ r)) struct) i.description)) := by
    intro kf
    by_cases hkf : kf ∈ fs
    · obtain ⟨q, h1, h2, h3⟩ := hent kf hkf
      obtain ⟨F, h4, i, t, struct, h5, h6, h7, h8⟩ := hS _ _ _ h1 h2
      exact ⟨(F, t), fun _ => ⟨(fieldOf_name h3).2, (fieldOf_name h3).1, h4, h7, q, i, struct, h1, h5, h6, h8⟩⟩
    · exact ⟨(.mk [] none (.name []) none, .name []), fun h => absurd h hkf⟩
  obtain ⟨S, hS⟩ := Classical.axiomOfChoice hex
  have hkeys : (fs.map Prod.fst).Nodup := hf.sorted.nodup
  have hnames : (fs.map fun kf => kf.2.name).Nodup := by
    refine nodup_map_on ?_ (nodup_of_map hkeys)
    intro a ha b hb he
    obtain ⟨q, h1, h2, h3⟩ := hent a ha
    obtain ⟨q', h1', h2', h3'⟩ := hent b hb
    rw [(fieldOf_name h3).2, (fieldOf_name h3').2] at he
    have hk := hm.distinct _ _ _ _ h1 h1' he
    rw [hk] at h2
    rw [h2] at h2'
    obtain ⟨a1, a2⟩ := a
    obtain ⟨b1, b2⟩ := b
    simp only at hk
    cases h2'
    rw [hk]
  obtain ⟨ord, hp, hord, hlines⟩ := Go.ordered_lines (descTag := descTag) (pointers := pointers) (r := r) hnames
  have hmem : ∀ kf, kf ∈ ord ↔ kf ∈ fs := fun kf => hp.mem_iff
  have hSo : ∀ kf ∈ ord, _ := fun kf hkf => hS kf ((hmem kf).1 hkf)
  refine ⟨ord.map Prod.fst, ord.map fun kf => (S kf).1, .mk ?_ ?_ ?_, fun p => ?_, fun ind hind => ?_⟩
  · rw [List.map_map]
    have : ord.map (goName title rename ∘ Prod.fst) = ord.map fun kf => kf.2.name := List.map_congr_left fun kf hkf => (hSo kf hkf).1.symm
    rw [this]
    exact hord
  · intro k
    constructor
    · intro hk
      obtain ⟨kf, hkf, rfl⟩ := List.mem_map.1 hk
      obtain ⟨q, h, _⟩ := hent kf ((hmem kf).1 hkf)
      exact ⟨q, h⟩
    · rintro ⟨q, hl⟩
      have : ∃ f, GMap.get k fs = some f := by
        cases hg : GMap.get k fs with
        | some f => exact ⟨f, rfl⟩
        | none => exact absurd ((hf.names k).1 hg q hl.1) hl.2
      obtain ⟨f, hg⟩ := this
      exact List.mem_map.2 ⟨(k, f), (hmem _).2 (GMap.get_some_mem hg), rfl⟩
  · refine fieldsFor_map (K := Prod.fst) ord fun kf hkf => ?_
    obtain ⟨_, _, _, _, q, i, struct, h1, h2, h3, h4⟩ := hSo kf hkf
    exact ⟨q, i, (S kf).2, struct, h1, h2, h3, h4⟩
  · rw [fieldsUse_map p (fun kf => (S kf).1) (fun kf => (S kf).2) ord (fun kf hkf => by
      obtain ⟨_, _, _, _, q, i, struct, h1, h2, h3, h4⟩ := hSo kf hkf
      exact ⟨_, _, _, h4⟩), includeTime_any, ← any_perm hp, ← any_and]
    rw [Bool.eq_iff_iff]
    simp only [List.any_eq_true]
    constructor
    · rintro ⟨kf, hkf, h⟩; exact ⟨kf, hkf, by rw [← (hSo kf hkf).2.2.2.1 p]; exact h⟩
    · rintro ⟨kf, hkf, h⟩; exact ⟨kf, hkf, by rw [(hSo kf hkf).2.2.2.1 p]; exact h⟩
  · rw [hlines ind]
    refine writes_all (S := fun kf => (S kf).1) ord fun kf hkf => ?_
    obtain ⟨_, h1, h2, _⟩ := hSo kf hkf
    rw [h1]
    exact h2 ind hind

/-! ### The field for a property -/

theorem option_eq (f : EField) (required : Bool) :
    omitOption f required [] = optionOf required (decide (f.array = false ∧ f.nullable = false ∧ (f.fields.getD []).length ≠ 0)) := by
  rw [omitOption_eq]
  generalize decide (f.array = false ∧ f.nullable = false ∧ (f.fields.getD []).length ≠ 0) = b
  cases required <;> cases b <;> rfl

theorem ptrIf_eq {p : Prop} [Decidable p] {b : Bool} (h : b = true ↔ p) (t : Ty) : ptrIf p t = if b = true then .star t else t := by
  unfold ptrIf
  by_cases hp : p
  · rw [if_pos hp, if_pos (h.2 hp)]
  · rw [if_neg hp, if_neg (fun e => hp (h.1 e))]

/-- What the type without parts is written as; `tm` for times. -/
def LeafWord (i : Instance) (t : Str) (w : Str) (ty : Ty) (tm : Bool) : Prop :=
  (tm = false ∧ ∃ b, (t, b) ∈ scalarTable ∧ ¬ (t = g!"string" ∧ i.format = g!"date-time") ∧ w = b ∧ ty = .name b) ∨
  (tm = true ∧ t = g!"string" ∧ i.format = g!"date-time" ∧ w = g!"time.Time" ∧ ty = .sel g!"time" g!"Time")

theorem leaf_word {i : Instance} {t : Str} (htm : t ∈ scalarTable.map Prod.fst) : ∃ w ty tm, (w, ty) ∈ words ∧ LeafWord i t w ty tm ∧
    decide (Spec.leafType i t = g!"date-time") = tm ∧
    ∀ a d k n nu required, goType ⟨a, d, none, k, Spec.leafType i t, n, nu, []⟩ required pointers [] = signs a (nu || (tm && pointers && !required)) w := by
  simp only [scalarTable, List.map_cons, List.map_nil, List.mem_cons, List.not_mem_nil, or_false] at htm
  rcases htm with rfl | rfl | rfl | rfl
  · have : Spec.leafType i g!"boolean" = g!"boolean" := if_neg (by simp)
    refine ⟨g!"bool", _, false, by simp [words], .inl ⟨rfl, g!"bool", by decide, by simp, rfl, rfl⟩, by rw [this]; decide, ?_⟩
    intro a d k n nu required
    rw [this]
    cases a <;> cases nu <;> rfl
  · have : Spec.leafType i g!"number" = g!"number" := if_neg (by simp)
    refine ⟨g!"float64", _, false, by simp [words], .inl ⟨rfl, g!"float64", by decide, by simp, rfl, rfl⟩, by rw [this]; decide, ?_⟩
    intro a d k n nu required
    rw [this]
    cases a <;> cases nu <;> rfl
  · have : Spec.leafType i g!"integer" = g!"integer" := if_neg (by simp)
    refine ⟨g!"int64", _, false, by simp [words], .inl ⟨rfl, g!"int64", by decide, by simp, rfl, rfl⟩, by rw [this]; decide, ?_⟩
    intro a d k n nu required
    rw [this]
    cases a <;> cases nu <;> rfl
  · by_cases hf : i.format = g!"date-time"
    · have : Spec.leafType i g!"string" = g!"date-time" := if_pos ⟨rfl, hf⟩
      refine ⟨g!"time.Time", _, true, by simp [words], .inr ⟨rfl, rfl, hf, rfl, rfl⟩, by rw [this]; decide, ?_⟩
      intro a d k n nu required
      rw [this]
      cases a <;> cases nu <;> cases pointers <;> cases required <;> rfl
    · have : Spec.leafType i g!"string" = g!"string" := if_neg (fun h => hf h.2)
      refine ⟨g!"string", _, false, by simp [words], .inl ⟨rfl, g!"string", by decide, fun h => hf h.2, rfl, rfl⟩, by rw [this]; decide, ?_⟩
      intro a d k n nu required
      rw [this]
      cases a <;> cases nu <;> rfl

theorem signs_ne {sl st : Bool} {w : Str} {ty : Ty} (h : (w, ty) ∈ words) : signs sl st w ≠ g!"[]" := by
  simp only [words, List.mem_cons, Prod.mk.injEq, List.not_mem_nil, or_false] at h
  rcases h with ⟨rfl, -⟩ | ⟨rfl, -⟩ | ⟨rfl, -⟩ | ⟨rfl, -⟩ | ⟨rfl, -⟩ | ⟨rfl, -⟩ <;> cases sl <;> cases st <;> decide

theorem doc_tag {i : Instance} (h : DocText descTag i) : descTag = true → RawText (firstLine i.description) := fun e => by
  unfold DocText at h; rwa [if_pos e] at h

theorem doc_comment {i : Instance} (h : DocText descTag i) : descTag = false → CommentText i.description := fun e => by
  unfold DocText at h; rwa [if_neg (by simp [e])] at h

theorem signed_uses (sl st : Bool) (t : Ty) (p : Str) : (signed sl st t).uses p = t.uses p := by
  cases sl <;> cases st <;> simp [signed, Ty.uses]

theorem leafWord_uses {i : Instance} {t w : Str} {ty : Ty} {tm : Bool} (h : LeafWord i t w ty tm) (p : Str) : ty.uses p = (tm && decide (p = g!"time")) := by
  rcases h with ⟨rfl, b, _, _, _, rfl⟩ | ⟨rfl, _, _, _, rfl⟩
  · rfl
  · simp [Ty.uses]

/-- A field on a line. -/
theorem leaf_writes {i : Instance} {a : Bool} {k n w jt : Str} {ty : Ty} {nu b required : Bool} (hn : Name u n) (hk : RawText k) (hd : DocText descTag i) (hw : (w, ty) ∈ words)
    (hty : goType ⟨a, i.description, none, k, jt, n, nu, []⟩ required pointers [] = signs a b w) :
    Writes u descTag pointers [] [] required ⟨a, i.description, none, k, jt, n, nu, []⟩
      (.mk (docOf descTag i.description) (some n) (signed a b ty) (some (tagOf descTag k (optionOf required false) i.description))) := by
  have := writes_plain (u := u) (descTag := descTag) (pointers := pointers) (required := required) (exclude := []) (nested := [])
    (f := ⟨a, i.description, none, k, jt, n, nu, []⟩) (t := signed a b ty) hn hk (doc_tag hd) (doc_comment hd) (fun b' => by rw [hty]; exact runs_type hw a b b')
    (by simp) (by rw [hty]; exact signs_ne hw) (.inl rfl)
  rw [option_eq] at this
  simpa using this

/-- A field for an object, or a list of them. -/
theorem object_source {m : GMap P} {fs : GMap EField} {r : List Str} {i : Instance} (hf : Spec.FieldsOf title rename m fs) (hm : Names u title rename m)
    {a nu required : Bool} {k n : Str} (hn : Name u n) (hk : RawText k) (hd : DocText descTag i)
    (hS : ∀ k q f, Listed m k q → GMap.get k fs = some f → ∃ F, SrcOf u title rename descTag pointers k q f (decide (k ∈ r)) F) :
    ∃ ty b, Writes u descTag pointers [] [] required ⟨a, i.description, some fs, k, g!"object", n, nu, r⟩
        (.mk (docOf descTag i.description) (some n) (signed a nu ty) (some (tagOf descTag k (optionOf required b) i.description))) ∧
      (∀ p, ty.uses p = (includeTime fs && decide (p = g!"time"))) ∧
      ((ty = .map (.name g!"string") (.name g!"string") ∧ b = false ∧ ∀ k q, ¬ Listed m k q) ∨
       ∃ ks Fs, ty = .struct Fs ∧ b = decide (a = false ∧ nu = false) ∧ (∃ k q, Listed m k q) ∧ StructFor title rename descTag pointers m r ks Fs) := by
  have hne : fs ≠ [] ↔ ∃ k q, Listed m k q := by
    constructor
    · intro h
      obtain ⟨⟨k, f⟩, t, rfl⟩ := List.exists_cons_of_ne_nil h
      refine ⟨k, Classical.byContradiction fun hno => ?_⟩
      have h1 := (hf.names k).2 fun q hq => Classical.byContradiction fun hh => hno ⟨q, hq, hh⟩
      rw [GMap.get_mem_nodup hf.sorted.nodup List.mem_cons_self] at h1
      cases h1
    · rintro ⟨k, q, hl⟩ rfl
      exact hl.2 ((hf.names k).1 rfl q hl.1)
  by_cases hfs : fs = []
  · have hno : ∀ k q, ¬ Listed m k q := fun k q hl => hne.2 ⟨k, q, hl⟩ hfs
    subst hfs
    have hty : goType ⟨a, i.description, some [], k, g!"object", n, nu, r⟩ required pointers [] = signs a nu g!"map[string]string" := by cases a <;> cases nu <;> rfl
    have hw : (g!"map[string]string", Ty.map (.name g!"string") (.name g!"string")) ∈ words := by simp [words]
    have := writes_plain (u := u) (descTag := descTag) (pointers := pointers) (required := required) (exclude := []) (nested := [])
      (f := ⟨a, i.description, some [], k, g!"object", n, nu, r⟩) (t := signed a nu (.map (.name g!"string") (.name g!"string"))) hn hk (doc_tag hd) (doc_comment hd)
      (fun b' => by rw [hty]; exact runs_type hw a nu b') (by simp) (by rw [hty]; exact signs_ne hw) (.inr (.inl rfl))
    rw [option_eq] at this
    exact ⟨_, false, by simpa using this, fun p => rfl, .inl ⟨rfl, rfl, hno⟩⟩
  · obtain ⟨ks, Fs, h1, h2, h3⟩ := fields_source hf hm hS
    have hlen : fs.length ≠ 0 := by simpa using hfs
    have hty : goType ⟨a, i.description, some fs, k, g!"object", n, nu, r⟩ required pointers [] = signs a nu g!"struct" := by
      have : ∀ x : Str × Bool, (if ((some fs : Option (GMap EField)).getD []).length = 0 then x else (g!"struct", false)) = (g!"struct", false) := fun x => if_neg hlen
      unfold goType
      simp only [this]
      cases a <;> cases nu <;> rfl
    have := writes_struct (u := u) (descTag := descTag) (pointers := pointers) (required := required) (exclude := []) (nested := []) (Fs := Fs) hn hk (doc_tag hd) (doc_comment hd) hfs
      hty (by simp) h3
    rw [option_eq] at this
    refine ⟨.struct Fs, _, this, fun p => by rw [Ty.uses]; exact h2 p, .inr ⟨ks, Fs, rfl, ?_, hne.1 hfs, h1⟩⟩
    simp [hlen]

/-- The field for a property declares what the schema asks for. -/
theorem field_source {k : Str} {raw : P} {f : EField} (hf : Spec.FieldOf title rename k raw f) (hn : Name u (goName title rename k)) (hk : RawText k)
    (hcl : Clean u title rename descTag raw) : ∀ required, ∃ F, SrcOf u title rename descTag pointers k raw f required F := by
  induction hf with
  | @leaf k raw i t hd ht hl =>
    intro required
    have hcl' : t ∈ scalarTable.map Prod.fst ∧ DocText descTag i := by
      cases hcl with
      | leaf h1 h2 h3 h4 => rw [hd] at h1; cases h1; rw [typeIs_unique ht h2]; exact ⟨h3, h4⟩
      | array h1 h2 => exact absurd (same_type hd h1 ht h2) hl.2.1
      | object h1 h2 => exact absurd (same_type hd h1 ht h2) hl.1
    obtain ⟨w, ty, tm, hw, hlw, htm, hty⟩ := leaf_word (pointers := pointers) (i := i) hcl'.1
    refine ⟨_, leaf_writes hn hk hcl'.2 hw (hty ..), i, _, false, hd, ?_, fun p => ?_, rfl⟩
    · rcases hlw with ⟨rfl, b, h1, h2, _, rfl⟩ | ⟨rfl, rfl, h1, _, rfl⟩
      · rw [show signed false (decide (g!"null" ∈ i.type) || (false && pointers && !required)) (.name b) = ptrIf (g!"null" ∈ i.type) (.name b) from
          (ptrIf_eq (by simp) _).symm]
        exact .scalar hd ht h1 h2
      · rw [show signed false (decide (g!"null" ∈ i.type) || (true && pointers && !required)) (.sel g!"time" g!"Time") =
          ptrIf (g!"null" ∈ i.type ∨ (pointers = true ∧ required = false)) (.sel g!"time" g!"Time") from (ptrIf_eq (by simp) _).symm]
        exact .time hd ht h1
    · rw [signed_uses, leafWord_uses hlw, ← htm]; rfl
  | @leaves k raw items i j t hd ht hi hj hjt hl =>
    intro required
    have hcl' : t ∈ scalarTable.map Prod.fst ∧ DocText descTag i := by
      cases hcl with
      | leaf h1 h2 h3 h4 => rw [← same_type hd h1 ht h2] at h3; exact absurd h3 (by decide)
      | object h1 h2 => exact absurd (same_type hd h1 ht h2) (by decide)
      | array h1 h2 h3 h4 h5 =>
        rw [hd] at h1; cases h1
        rw [hi] at h3; cases h3
        refine ⟨?_, h4⟩
        cases h5 with
        | leaf h1 h2 h3 h4 => rw [same_type hj h1 hjt h2]; exact h3
        | array h1 h2 => exact absurd (same_type hj h1 hjt h2) hl.2.1
        | object h1 h2 => exact absurd (same_type hj h1 hjt h2) hl.1
    obtain ⟨w, ty, tm, hw, hlw, htm, hty⟩ := leaf_word (pointers := pointers) (i := j) hcl'.1
    refine ⟨_, leaf_writes hn hk hcl'.2 hw (hty ..), i, _, false, hd, ?_, fun p => ?_, rfl⟩
    · rcases hlw with ⟨rfl, b, h1, h2, _, rfl⟩ | ⟨rfl, rfl, h1, _, rfl⟩
      · rw [show signed true (decide (g!"null" ∈ i.type) || (false && pointers && !required)) (.name b) = .slice (ptrIf (g!"null" ∈ i.type) (.name b)) from
          congrArg Ty.slice (ptrIf_eq (by simp) _).symm]
        exact .scalars hd ht hi hj hjt h1 h2
      · rw [show signed true (decide (g!"null" ∈ i.type) || (true && pointers && !required)) (.sel g!"time" g!"Time") =
          .slice (ptrIf (g!"null" ∈ i.type ∨ (pointers = true ∧ required = false)) (.sel g!"time" g!"Time")) from congrArg Ty.slice (ptrIf_eq (by simp) _).symm]
        exact .times hd ht hi hj hjt h1
    · rw [signed_uses, leafWord_uses hlw, ← htm]; rfl
  | @object k raw i m fs hd ht hp hs hnone hall ih =>
    intro required
    have hcl' : DocText descTag i ∧ Names u title rename m ∧ ∀ k q, Listed m k q → Clean u title rename descTag q := by
      cases hcl with
      | leaf h1 h2 h3 h4 => rw [← same_type hd h1 ht h2] at h3; exact absurd h3 (by decide)
      | array h1 h2 => exact absurd (same_type hd h1 ht h2) (by decide)
      | object h1 h2 h3 h4 h5 h6 =>
        rw [hd] at h1; cases h1
        rw [hp] at h3; cases h3
        exact ⟨h4, h5, h6⟩
    obtain ⟨ty, b, h1, h2, h3⟩ := object_source (a := false) (nu := decide (g!"null" ∈ i.type)) (required := required) (r := i.required) (pointers := pointers) ⟨hs, hnone, hall⟩
      hcl'.2.1 hn hk hcl'.1 (fun k' q f hl hf => ih k' q f hl.1 hf (hcl'.2.1.name _ _ hl) (hcl'.2.1.tag _ _ hl) (hcl'.2.2 _ _ hl) _)
    have hsg : ∀ t, signed false (decide (g!"null" ∈ i.type)) t = ptrIf (g!"null" ∈ i.type) t := fun t => (ptrIf_eq (by simp) _).symm
    refine ⟨_, h1, i, _, b, hd, ?_, fun p => ?_, rfl⟩
    · rw [hsg]
      rcases h3 with ⟨rfl, rfl, h4⟩ | ⟨ks, Fs, rfl, rfl, h4, h5⟩
      · exact .dict hd ht hp h4
      · simpa using TypeFor.struct (required := required) hd ht hp h4 h5
    · rw [signed_uses, h2, EField.hasTime]; simp
  | @objects k raw items i j m fs hd ht hi hj hjt hp hs hnone hall ih =>
    intro required
    have hcl' : DocText descTag i ∧ Names u title rename m ∧ ∀ k q, Listed m k q → Clean u title rename descTag q := by
      cases hcl with
      | leaf h1 h2 h3 h4 => rw [← same_type hd h1 ht h2] at h3; exact absurd h3 (by decide)
      | object h1 h2 => exact absurd (same_type hd h1 ht h2) (by decide)
      | array h1 h2 h3 h4 h5 =>
        rw [hd] at h1; cases h1
        rw [hi] at h3; cases h3
        refine ⟨h4, ?_⟩
        cases h5 with
        | leaf h1 h2 h3 h4 => rw [← same_type hj h1 hjt h2] at h3; exact absurd h3 (by decide)
        | array h1 h2 => exact absurd (same_type hj h1 hjt h2) (by decide)
        | object h1 h2 h3 h4 h5 h6 =>
          rw [hj] at h1; cases h1
          rw [hp] at h3; cases h3
          exact ⟨h5, h6⟩
    obtain ⟨ty, b, h1, h2, h3⟩ := object_source (a := true) (nu := decide (g!"null" ∈ i.type)) (required := required) (r := j.required) (pointers := pointers) ⟨hs, hnone, hall⟩
      hcl'.2.1 hn hk hcl'.1 (fun k' q f hl hf => ih k' q f hl.1 hf (hcl'.2.1.name _ _ hl) (hcl'.2.1.tag _ _ hl) (hcl'.2.2 _ _ hl) _)
    have hsg : ∀ t, signed true (decide (g!"null" ∈ i.type)) t = .slice (ptrIf (g!"null" ∈ i.type) t) := fun t => congrArg Ty.slice (ptrIf_eq (by simp) _).symm
    refine ⟨_, h1, i, _, b, hd, ?_, fun p => ?_, rfl⟩
    · rw [hsg]
      rcases h3 with ⟨rfl, rfl, h4⟩ | ⟨ks, Fs, rfl, rfl, h4, h5⟩
      · exact .dicts hd ht hi hj hjt hp h4
      · simpa using TypeFor.structs (required := required) hd ht hi hj hjt hp h4 h5
    · rw [signed_uses, h2, EField.hasTime]; simp

end JT.GoText
