import Verif.Spec.GoJson
import Verif.Props.C53
import Verif.Props.C54
import Verif.Props.C56
import Verif.Proofs.NoPanic
/- Documents of a schema go through the generated struct. -/
namespace JT.GoJson
open Gen

variable {c : Codec} {pointers : Bool}

/-! ### Numbers -/

theorem atoi_itoa {n : Int} (h : inInt64 n = true) : atoi (itoa n) = some n := by
  have hp : parseSigned (itoa n) = some n := by
    unfold itoa
    have hd := parseDigits_itoaNat n.natAbs
    split
    · rename_i hn
      have : (-(n.natAbs : Int)) = n := by omega
      simp only [parseSigned, hd]
      show some (-(n.natAbs : Int)) = some n
      rw [this]
    · rename_i hn
      obtain ⟨h1, h2, _⟩ := itoaNat_spec n.natAbs
      have hn' : ((n.natAbs : Nat) : Int) = n := by omega
      cases hs : itoaNat n.natAbs with
      | nil => exact absurd hs h1
      | cons x xs =>
        have hx : isDigit x = true := List.all_eq_true.1 h2 x (by simp [hs])
        rw [hs] at hd
        have hm : x ≠ '-' := by rintro rfl; revert hx; decide
        have hq : x ≠ '+' := by rintro rfl; revert hx; decide
        unfold parseSigned
        split
        · rename_i h; cases h; exact absurd rfl hm
        · rename_i h; cases h; exact absurd rfl hq
        · rw [hd]
          show some ((n.natAbs : Nat) : Int) = some n
          rw [hn']
  unfold atoi
  rw [hp]
  simp [h]

/-! ### Values of a type -/

/-- Documents other than null go through a type. -/
def GoodNN (c : Codec) (pointers : Bool) (t : GT) (q : P) : Prop :=
  ∀ j, Valid c true pointers q j → j ≠ .null → ∃ v j', decode c t (zero c t) j = some v ∧ encode c t v = some j' ∧ Same c true q j j' ∧
    (isEmpty v = true ∨ isZero v = true → ¬ Nullable q → Blank c q j)

/-- All documents go through a type. -/
def Good (c : Codec) (pointers : Bool) (t : GT) (q : P) : Prop :=
  ∀ j, Valid c true pointers q j → ∃ v j', decode c t (zero c t) j = some v ∧ encode c t v = some j' ∧ Same c true q j j' ∧
    (isEmpty v = true ∨ isZero v = true → Blank c q j)

theorem not_null {q : P} {j : J} (hn : ¬ Nullable q) (h : Valid c true pointers q j) : j ≠ .null := by
  rintro rfl
  cases h with
  | null h => exact hn h

theorem GoodNN.good {t : GT} {q : P} (h : GoodNN c pointers t q) (hn : ¬ Nullable q) : Good c pointers t q := by
  intro j hj
  obtain ⟨v, j', h1, h2, h3, h4⟩ := h j hj (not_null hn hj)
  exact ⟨v, j', h1, h2, h3, fun h => h4 h hn⟩

theorem GoodNN.ptr {t : GT} {q : P} (h : GoodNN c pointers t q) : Good c pointers (.ptr t) q := by
  intro j hj
  by_cases hn : j = .null
  · subst hn
    exact ⟨.nil, .null, by simp [decode], by simp [encode], .null, fun _ => .null⟩
  · obtain ⟨v, j', h1, h2, h3, h4⟩ := h j hj hn
    refine ⟨.ptr v, j', ?_, by simp [encode, h2], h3, ?_⟩
    · cases j <;> simp_all [decode, zero]
    · simp [isEmpty, isZero]

theorem Good.nn {t : GT} {q : P} (h : Good c pointers t q) : GoodNN c pointers t q := by
  intro j hj _
  obtain ⟨v, j', h1, h2, h3, h4⟩ := h j hj
  exact ⟨v, j', h1, h2, h3, fun h _ => h4 h⟩

theorem same_type {q : P} {i i' : Instance} {a b : Str} (h : decodeInstance false q = .ok i) (h' : decodeInstance false q = .ok i')
    (ha : Spec.TypeIs i a) (hb : Spec.TypeIs i' b) : a = b := by
  rw [h] at h'
  cases h'
  exact typeIs_unique ha hb

theorem good_bool {q : P} {i : Instance} (hd : decodeInstance false q = .ok i) (ht : Spec.TypeIs i g!"boolean") : GoodNN c pointers .bool q := by
  intro j hj hn
  cases hj with
  | null => exact absurd rfl hn
  | @bool _ _ b h1 h2 =>
    refine ⟨.bool b, .bool b, by simp [decode], by simp [encode], .bool, ?_⟩
    intro h hnn
    simp only [isEmpty, isZero, or_self, Bool.not_eq_true', Bool.not_eq_true] at h
    subst h
    exact .bool hnn
  | number h1 h2 => exact absurd (same_type hd h1 ht h2) (by decide)
  | integer h1 h2 => exact absurd (same_type hd h1 ht h2) (by decide)
  | string h1 h2 => exact absurd (same_type hd h1 ht h2) (by decide)
  | time h1 h2 => exact absurd (same_type hd h1 ht h2) (by decide)
  | array h1 h2 => exact absurd (same_type hd h1 ht h2) (by decide)
  | object h1 h2 => exact absurd (same_type hd h1 ht h2) (by decide)

theorem good_number (hc : c.Lawful) {q : P} {i : Instance} (hd : decodeInstance false q = .ok i) (ht : Spec.TypeIs i g!"number") :
    GoodNN c pointers .float64 q := by
  intro j hj hn
  cases hj with
  | null => exact absurd rfl hn
  | bool h1 h2 => exact absurd (same_type hd h1 ht h2) (by decide)
  | number h1 h2 h3 =>
    obtain ⟨x, hx⟩ := Option.isSome_iff_exists.1 h3
    refine ⟨.float x, .num (c.formatFloat x), by simp [decode, hx], by simp [encode], .float hx (hc.float _ _ hx), ?_⟩
    intro h hnn
    simp only [isEmpty, isZero, or_self] at h
    exact .float hnn hx h
  | integer h1 h2 => exact absurd (same_type hd h1 ht h2) (by decide)
  | string h1 h2 => exact absurd (same_type hd h1 ht h2) (by decide)
  | time h1 h2 => exact absurd (same_type hd h1 ht h2) (by decide)
  | array h1 h2 => exact absurd (same_type hd h1 ht h2) (by decide)
  | object h1 h2 => exact absurd (same_type hd h1 ht h2) (by decide)

theorem good_integer {q : P} {i : Instance} (hd : decodeInstance false q = .ok i) (ht : Spec.TypeIs i g!"integer") :
    GoodNN c pointers .int64 q := by
  intro j hj hn
  cases hj with
  | null => exact absurd rfl hn
  | bool h1 h2 => exact absurd (same_type hd h1 ht h2) (by decide)
  | number h1 h2 h3 => exact absurd (same_type hd h1 ht h2) (by decide)
  | @integer _ _ n _ h1 h2 h3 h4 =>
    obtain ⟨rfl, hr⟩ := h4 rfl
    have ha := atoi_itoa hr
    refine ⟨.int n, .num (itoa n), by simp [decode, ha], by simp [encode], .int ha ha, ?_⟩
    intro h hnn
    simp only [isEmpty, isZero, or_self, beq_iff_eq] at h
    subst h
    exact .int hnn ha
  | string h1 h2 => exact absurd (same_type hd h1 ht h2) (by decide)
  | time h1 h2 => exact absurd (same_type hd h1 ht h2) (by decide)
  | array h1 h2 => exact absurd (same_type hd h1 ht h2) (by decide)
  | object h1 h2 => exact absurd (same_type hd h1 ht h2) (by decide)

theorem good_string {q : P} {i : Instance} (hd : decodeInstance false q = .ok i) (ht : Spec.TypeIs i g!"string") (hf : i.format ≠ g!"date-time") :
    GoodNN c pointers .string q := by
  intro j hj hn
  cases hj with
  | null => exact absurd rfl hn
  | bool h1 h2 => exact absurd (same_type hd h1 ht h2) (by decide)
  | number h1 h2 h3 => exact absurd (same_type hd h1 ht h2) (by decide)
  | integer h1 h2 => exact absurd (same_type hd h1 ht h2) (by decide)
  | @string _ _ s h1 h2 =>
    refine ⟨.str s, .str s, by simp [decode], by simp [encode], .str, ?_⟩
    intro h hnn
    simp only [isEmpty, isZero, or_self, List.isEmpty_iff] at h
    subst h
    exact .string hnn
  | time h1 h2 h3 => rw [hd] at h1; cases h1; exact absurd h3 hf
  | array h1 h2 => exact absurd (same_type hd h1 ht h2) (by decide)
  | object h1 h2 => exact absurd (same_type hd h1 ht h2) (by decide)

theorem good_time (hc : c.Lawful) {q : P} {i : Instance} (hd : decodeInstance false q = .ok i) (ht : Spec.TypeIs i g!"string") (hf : i.format = g!"date-time") :
    GoodNN c pointers .time q := by
  intro j hj hn
  cases hj with
  | null => exact absurd rfl hn
  | bool h1 h2 => exact absurd (same_type hd h1 ht h2) (by decide)
  | number h1 h2 h3 => exact absurd (same_type hd h1 ht h2) (by decide)
  | integer h1 h2 => exact absurd (same_type hd h1 ht h2) (by decide)
  | string h1 h2 h3 => rw [hd] at h1; cases h1; exact absurd hf h3
  | time h1 h2 h3 h4 =>
    obtain ⟨x, hx⟩ := Option.isSome_iff_exists.1 h4
    refine ⟨.time x, .str (c.formatTime x), by simp [decode, hx], by simp [encode], .time hd hf hx (hc.time _ _ hx), ?_⟩
    intro h hnn
    simp only [isEmpty, isZero, Bool.false_eq_true, false_or] at h
    exact .time hnn hx h
  | array h1 h2 => exact absurd (same_type hd h1 ht h2) (by decide)
  | object h1 h2 => exact absurd (same_type hd h1 ht h2) (by decide)

theorem good_slice {q items : P} {i : Instance} {t : GT} (hd : decodeInstance false q = .ok i) (ht : Spec.TypeIs i g!"array") (hi : i.items = some items)
    (h : GoodNN c pointers t items) : Good c pointers (.slice t) q := by
  intro j hj
  cases hj with
  | null => exact ⟨.nil, .null, by simp [decode], by simp [encode], .null, fun _ => .null⟩
  | bool h1 h2 => exact absurd (same_type hd h1 ht h2) (by decide)
  | number h1 h2 h3 => exact absurd (same_type hd h1 ht h2) (by decide)
  | integer h1 h2 => exact absurd (same_type hd h1 ht h2) (by decide)
  | string h1 h2 => exact absurd (same_type hd h1 ht h2) (by decide)
  | time h1 h2 => exact absurd (same_type hd h1 ht h2) (by decide)
  | @array _ items' i' l h1 h2 h3 h4 h5 =>
    rw [hd] at h1
    cases h1
    rw [hi] at h3
    cases h3
    have h5 := h5 rfl
    have key : ∀ l : List J, (∀ x ∈ l, Valid c true pointers items x) → (∀ x ∈ l, x ≠ .null) → ∃ vs l', mapOpt (decode c t (zero c t)) l = some vs ∧
        mapOpt (encode c t) vs = some l' ∧ Same c true q (.arr l) (.arr l') ∧ vs.length = l.length := by
      intro l
      induction l with
      | nil => intro _ _; exact ⟨[], [], rfl, rfl, .nil, rfl⟩
      | cons x l ih =>
        intro h4 h5
        obtain ⟨vs, l', a1, a2, a3, a4⟩ := ih (fun y hy => h4 y (List.mem_cons_of_mem _ hy)) (fun y hy => h5 y (List.mem_cons_of_mem _ hy))
        obtain ⟨v, x', b1, b2, b3, _⟩ := h x (h4 x List.mem_cons_self) (h5 x List.mem_cons_self)
        exact ⟨v :: vs, x' :: l', by simp [mapOpt, b1, a1], by simp [mapOpt, b2, a2], .cons hd hi b3 a3, by simp [a4]⟩
    obtain ⟨vs, l', a1, a2, a3, a4⟩ := key l h4 h5
    refine ⟨.slice vs, .arr l', by simp [decode, a1], by simp [encode, a2], a3, ?_⟩
    intro h
    simp only [isEmpty, isZero, Bool.false_eq_true, or_false, List.isEmpty_iff] at h
    subst h
    have : l = [] := List.eq_nil_of_length_eq_zero (by simpa using a4.symm)
    subst this
    exact .list
  | object h1 h2 => exact absurd (same_type hd h1 ht h2) (by decide)

/-- An object, given what is said about its members. -/
theorem object_cases {q : P} {i : Instance} {m : GMap P} {j : J} (hd : decodeInstance false q = .ok i) (ht : Spec.TypeIs i g!"object") (hp : i.properties = some m)
    (hj : Valid c true pointers q j) (hn : j ≠ .null) : ∃ l, j = .obj l ∧ Members c true pointers m i.required l := by
  cases hj with
  | null => exact absurd rfl hn
  | bool h1 h2 => exact absurd (same_type hd h1 ht h2) (by decide)
  | number h1 h2 h3 => exact absurd (same_type hd h1 ht h2) (by decide)
  | integer h1 h2 => exact absurd (same_type hd h1 ht h2) (by decide)
  | string h1 h2 => exact absurd (same_type hd h1 ht h2) (by decide)
  | time h1 h2 => exact absurd (same_type hd h1 ht h2) (by decide)
  | array h1 h2 => exact absurd (same_type hd h1 ht h2) (by decide)
  | object h1 h2 h3 h4 h5 h6 h7 h8 h9 =>
    rw [hd] at h1
    cases h1
    rw [hp] at h3
    cases h3
    exact ⟨_, rfl, h4, h5, h6, h7, h8, h9⟩

theorem good_dict {q : P} {i : Instance} {m : GMap P} (hd : decodeInstance false q = .ok i) (ht : Spec.TypeIs i g!"object") (hp : i.properties = some m)
    (hl : ∀ k q, ¬ Listed m k q) : GoodNN c pointers .dict q := by
  intro j hj hn
  obtain ⟨l, rfl, hm⟩ := object_cases hd ht hp hj hn
  have hs := hm.dict rfl hl
  have key : ∀ l : List (Str × J), (∀ k v, (k, v) ∈ l → ∃ s, v = .str s) → ∃ d : List (Str × Str), mapOpt dictEntry l = some d ∧
      l = d.map fun kv => (kv.1, .str kv.2) := by
    intro l
    induction l with
    | nil => intro _; exact ⟨[], rfl, rfl⟩
    | cons x l ih =>
      intro h
      obtain ⟨d, h1, h2⟩ := ih (fun k v hk => h k v (List.mem_cons_of_mem _ hk))
      obtain ⟨k, v⟩ := x
      obtain ⟨s, rfl⟩ := h k v List.mem_cons_self
      exact ⟨(k, s) :: d, by simp [mapOpt, dictEntry, h1], by simp [← h2]⟩
  obtain ⟨d, h1, rfl⟩ := key l hs
  refine ⟨.dict d, .obj _, by simp [decode, h1], by simp only [encode], .dict hd hp hl, ?_⟩
  intro h hnn
  simp only [isEmpty, isZero, Bool.false_eq_true, or_false, List.isEmpty_iff] at h
  subst h
  exact .dict hnn

/-! ### Structs -/

@[simp] theorem SF.name_mk (n j : Str) (o : Omit) (t : GT) : (SF.mk n j o t).name = n := rfl
@[simp] theorem SF.json_mk (n j : Str) (o : Omit) (t : GT) : (SF.mk n j o t).json = j := rfl
@[simp] theorem SF.opt_mk (n j : Str) (o : Omit) (t : GT) : (SF.mk n j o t).opt = o := rfl
@[simp] theorem SF.type_mk (n j : Str) (o : Omit) (t : GT) : (SF.mk n j o t).type = t := rfl

theorem zeros_eq (fs : List SF) : zeros c fs = fs.map fun f => zero c f.type := by
  induction fs with
  | nil => simp [zeros]
  | cons f fs ih => cases f; simp [zeros, ih, SF.type]

theorem decodeAt_eq (fs : List SF) : ∀ (i : Nat) (f : SF), fs[i]? = some f → ∀ v j, decodeAt c fs i v j = decode c f.type v j := by
  induction fs with
  | nil => intro i f h; simp at h
  | cons g fs ih =>
    intro i f h v j
    obtain ⟨n, k, o, t⟩ := g
    cases i with
    | zero => simp at h; subst h; simp [decodeAt, SF.type]
    | succ i => simp at h; simp only [decodeAt]; exact ih i f h v j

/-- The values of the fields, given those that are set. -/
def valsOf (c : Codec) (fs : List SF) (A : Str → Option (GV c)) : List (GV c) := fs.map fun f => (A f.json).getD (zero c f.type)

/-- Setting one more. -/
def setA (A : Str → Option (GV c)) (k : Str) (v : GV c) : Str → Option (GV c) := fun x => if x = k then some v else A x

theorem valsOf_set {fs : List SF} (hn : (fs.map SF.json).Nodup) {A : Str → Option (GV c)} {i : Nat} {f : SF} (hf : fs[i]? = some f) (v : GV c) :
    (valsOf c fs A).set i v = valsOf c fs (setA A f.json v) := by
  apply List.ext_getElem?
  intro n
  simp only [valsOf, List.getElem?_set, List.getElem?_map, List.length_map]
  by_cases h : i = n
  · subst h
    have hlt : i < fs.length := (List.getElem?_eq_some_iff.1 hf).1
    simp [hlt, setA, hf]
    have := (List.getElem?_eq_some_iff.1 hf).2
    simp [this]
  · rw [if_neg h]
    cases hg : fs[n]? with
    | none => rfl
    | some g =>
      have : g.json ≠ f.json := by
        intro he
        have h1 : (fs.map SF.json)[i]? = some f.json := by simp [hf]
        have h2 : (fs.map SF.json)[n]? = some f.json := by simp [hg, he]
        have hi : i < (fs.map SF.json).length := (List.getElem?_eq_some_iff.1 h1).1
        exact h ((List.getElem?_inj hi hn).1 (h1.trans h2.symm))
      simp [setA, this]

theorem fieldFor_own {fs : List SF} (hn : (fs.map SF.json).Nodup) {f : SF} (hf : f ∈ fs) : ∃ i, fieldFor c fs f.json = some i ∧ fs[i]? = some f := by
  unfold fieldFor
  cases h : fs.findIdx? (fun g => decide (g.json = f.json)) with
  | none =>
    rw [List.findIdx?_eq_none_iff] at h
    have := h f hf
    simp at this
  | some i =>
    refine ⟨i, rfl, ?_⟩
    rw [List.findIdx?_eq_some_iff_getElem] at h
    obtain ⟨hi, h1, _⟩ := h
    obtain ⟨n, hn1, hn2⟩ := List.getElem_of_mem hf
    have he : fs[i].json = f.json := by simpa using h1
    have h2 : (fs.map SF.json)[i]? = (fs.map SF.json)[n]? := by simp [hi, hn1, he, hn2]
    have : i = n := (List.getElem?_inj (by simpa using hi) hn).1 h2
    subst this
    simp [hi, hn2]

theorem fieldFor_none {fs : List SF} {k : Str} (h : ∀ f ∈ fs, c.fold f.json ≠ c.fold k) : fieldFor c fs k = none := by
  unfold fieldFor
  have h1 : fs.findIdx? (fun f => decide (f.json = k)) = none := by
    rw [List.findIdx?_eq_none_iff]
    intro f hf
    simp only [decide_eq_false_iff_not]
    intro he
    exact h f hf (by rw [he])
  rw [h1]
  simp only
  rw [List.findIdx?_eq_none_iff]
  intro f hf
  simpa using h f hf

/-- The members that are read, given the value for each. -/
def assign (fs : List SF) (val : SF → J → GV c) : (Str → Option (GV c)) → List (Str × J) → (Str → Option (GV c))
  | A, [] => A
  | A, (k, v) :: l => assign fs val (match fs.find? (fun f => f.json = k) with | some f => setA A k (val f v) | none => A) l

theorem assign_other {fs : List SF} {val : SF → J → GV c} {k : Str} : ∀ (l : List (Str × J)) (A : Str → Option (GV c)), (∀ v, (k, v) ∉ l) →
    assign fs val A l k = A k := by
  intro l
  induction l with
  | nil => intro A _; rfl
  | cons x l ih =>
    obtain ⟨k', v⟩ := x
    intro A h
    simp only [assign]
    rw [ih _ (fun v hv => h v (List.mem_cons_of_mem _ hv))]
    have hk : k ≠ k' := by rintro rfl; exact h v List.mem_cons_self
    cases fs.find? (fun f => decide (f.json = k')) with
    | none => rfl
    | some f => simp [setA, hk]

theorem find_own {fs : List SF} (hn : (fs.map SF.json).Nodup) {f : SF} (hf : f ∈ fs) : fs.find? (fun g => decide (g.json = f.json)) = some f := by
  induction fs with
  | nil => cases hf
  | cons g fs ih =>
    rw [List.map_cons, List.nodup_cons] at hn
    rw [List.find?_cons]
    rcases List.mem_cons.1 hf with rfl | h
    · simp
    · have : g.json ≠ f.json := fun he => hn.1 (he ▸ List.mem_map.2 ⟨f, h, rfl⟩)
      simp [this, ih hn.2 h]

theorem assign_own {fs : List SF} {val : SF → J → GV c} (hn : (fs.map SF.json).Nodup) {f : SF} (hf : f ∈ fs) {v : J} :
    ∀ (l : List (Str × J)) (A : Str → Option (GV c)), (l.map Prod.fst).Nodup → (f.json, v) ∈ l → assign fs val A l f.json = some (val f v) := by
  intro l
  induction l with
  | nil => intro A _ h; cases h
  | cons x l ih =>
    obtain ⟨k', v'⟩ := x
    intro A hl h
    rw [List.map_cons, List.nodup_cons] at hl
    simp only [assign]
    rcases List.mem_cons.1 h with he | h
    · cases he
      rw [assign_other l _ (fun v hv => hl.1 (List.mem_map.2 ⟨_, hv, rfl⟩)), find_own hn hf]
      simp [setA]
    · exact ih _ hl.2 h

/-- Reading the members. -/
theorem decode_members {fs : List SF} (hn : (fs.map SF.json).Nodup) (val : SF → J → GV c) : ∀ (l : List (Str × J)) (A : Str → Option (GV c)),
    (l.map Prod.fst).Nodup → (∀ k v, (k, v) ∈ l → A k = none) →
    (∀ k v, (k, v) ∈ l → ∀ f ∈ fs, c.fold f.json = c.fold k → f.json = k) →
    (∀ f ∈ fs, ∀ v, (f.json, v) ∈ l → decode c f.type (zero c f.type) v = some (val f v)) →
    foldOpt (fun vs kv => match fieldFor c fs kv.1 with
        | none => some vs
        | some i => (vs[i]?).bind fun v => (decodeAt c fs i v kv.2).map fun v' => vs.set i v') (valsOf c fs A) l = some (valsOf c fs (assign fs val A l)) := by
  intro l
  induction l with
  | nil => intro A _ _ _ _; rfl
  | cons x l ih =>
    obtain ⟨k, v⟩ := x
    intro A hl hA hfold hdec
    rw [List.map_cons, List.nodup_cons] at hl
    simp only [foldOpt, assign]
    by_cases hk : ∃ f ∈ fs, f.json = k
    · obtain ⟨f, hf, rfl⟩ := hk
      obtain ⟨i, h1, h2⟩ := fieldFor_own (c := c) hn hf
      have hvi : (valsOf c fs A)[i]? = some (zero c f.type) := by
        simp [valsOf, h2, hA _ v List.mem_cons_self]
      rw [h1]
      simp only [hvi, Option.bind_some]
      rw [decodeAt_eq fs i f h2, hdec f hf v List.mem_cons_self, Option.map_some, Option.bind_some, valsOf_set hn h2, find_own hn hf]
      refine ih _ hl.2 ?_ (fun k v hv => hfold k v (List.mem_cons_of_mem _ hv)) (fun f hf v hv => hdec f hf v (List.mem_cons_of_mem _ hv))
      intro k' v' hv
      have hne : k' ≠ f.json := by
        rintro rfl
        exact hl.1 (List.mem_map.2 ⟨_, hv, rfl⟩)
      simp [setA, hne, hA k' v' (List.mem_cons_of_mem _ hv)]
    · have h1 : fieldFor c fs k = none := fieldFor_none fun f hf he => hk ⟨f, hf, hfold k v List.mem_cons_self f hf he⟩
      have h2 : fs.find? (fun f => decide (f.json = k)) = none := by
        rw [List.find?_eq_none]
        intro f hf
        simp only [decide_eq_true_eq]
        exact fun he => hk ⟨f, hf, he⟩
      rw [h1, h2]
      simp only [Option.bind_some]
      exact ih _ hl.2 (fun k' v' hv => hA k' v' (List.mem_cons_of_mem _ hv)) (fun k v hv => hfold k v (List.mem_cons_of_mem _ hv))
        (fun f hf v hv => hdec f hf v (List.mem_cons_of_mem _ hv))

/-- Writing the members. -/
theorem encode_members (w : SF → GV c) (e : SF → J) : ∀ fs : List SF, (∀ f ∈ fs, skipped f.opt (w f) = false → encode c f.type (w f) = some (e f)) →
    encodeFields c fs (fs.map w) = some ((fs.filter fun f => !skipped f.opt (w f)).map fun f => (f.json, e f)) := by
  intro fs
  induction fs with
  | nil => intro _; rfl
  | cons f fs ih =>
    intro h
    have ih := ih fun g hg => h g (List.mem_cons_of_mem _ hg)
    have h := h f List.mem_cons_self
    obtain ⟨n, k, o, t⟩ := f
    simp only [List.map_cons, encodeFields, ih, Option.bind_some, List.filter_cons]
    rw [SF.opt_mk, SF.type_mk] at h
    by_cases hs : skipped o (w (.mk n k o t)) = true
    · simp [hs]
    · simp [hs, h (by simpa using hs)]

theorem allZero_iff {l : List (GV c)} : allZero l = true ↔ ∀ v ∈ l, isZero v = true := by
  induction l with
  | nil => simp [allZero]
  | cons v l ih => simp [allZero, ih]

/-- What is known about the field of a property. -/
structure FieldGood (c : Codec) (pointers : Bool) (required : Bool) (k : Str) (q : P) (s : SF) : Prop where
  json : s.json = k
  good : Good c pointers s.type q
  never : required = true → s.opt = .never
  absent : required = false → ¬ BareTime pointers q → skipped s.opt (zero c s.type) = true

theorem skipped_blank {o : Omit} {v : GV c} (h : skipped o v = true) : isEmpty v = true ∨ isZero v = true := by
  cases o with
  | never => cases h
  | empty => exact Or.inl h
  | zero => exact Or.inr h

/-- Objects go through a struct that has a field for each property. -/
theorem struct_good {m : GMap P} {required : List Str} {fs : List SF} (hn : (fs.map SF.json).Nodup)
    (hfs : ∀ s ∈ fs, ∃ q, Listed m s.json q ∧ FieldGood c pointers (decide (s.json ∈ required)) s.json q s)
    (hall : ∀ k q, Listed m k q → ∃ s ∈ fs, s.json = k) {l : List (Str × J)} (hl : Members c true pointers m required l) :
    ∃ vs l', decode c (.struct fs) (zero c (.struct fs)) (.obj l) = some (.struct vs) ∧ encodeFields c fs vs = some l' ∧
      SameMembers c true m required l l' ∧ (allZero vs = true → ∀ k v q, (k, v) ∈ l → Listed m k q → Blank c q v) := by
  have hgood : ∀ s ∈ fs, ∀ v, (s.json, v) ∈ l → ∃ x j' q, Listed m s.json q ∧ decode c s.type (zero c s.type) v = some x ∧ encode c s.type x = some j' ∧
      Same c true q v j' ∧ (isEmpty x = true ∨ isZero x = true → Blank c q v) := by
    intro s hs v hv
    obtain ⟨q, h1, h2⟩ := hfs s hs
    obtain ⟨x, j', a1, a2, a3, a4⟩ := h2.good v (hl.each _ _ _ hv h1.1)
    exact ⟨x, j', q, h1, a1, a2, a3, a4⟩
  have hex : ∀ sv : SF × J, ∃ xj : GV c × J, sv.1 ∈ fs → (sv.1.json, sv.2) ∈ l → ∃ q, Listed m sv.1.json q ∧
      decode c sv.1.type (zero c sv.1.type) sv.2 = some xj.1 ∧ encode c sv.1.type xj.1 = some xj.2 ∧
      Same c true q sv.2 xj.2 ∧ (isEmpty xj.1 = true ∨ isZero xj.1 = true → Blank c q sv.2) := by
    intro sv
    by_cases h : sv.1 ∈ fs ∧ (sv.1.json, sv.2) ∈ l
    · obtain ⟨x, j', q, h1⟩ := hgood sv.1 h.1 sv.2 h.2
      exact ⟨(x, j'), fun _ _ => ⟨q, h1⟩⟩
    · exact ⟨(.nil, .null), fun h1 h2 => absurd ⟨h1, h2⟩ h⟩
  obtain ⟨F, hF⟩ := Classical.axiomOfChoice hex
  have hl1 := hl.nodup
  -- the value of a key
  have huniq : ∀ {k v v'}, (k, v) ∈ l → (k, v') ∈ l → v = v' := by
    intro k v v' h h'
    have h1 := GMap.get_mem_nodup hl1 h
    have h2 := GMap.get_mem_nodup hl1 h'
    rw [h1] at h2
    exact Option.some.inj h2
  let A := assign fs (fun s v => (F (s, v)).1) (fun _ => none) l
  have hdec := decode_members (c := c) hn (fun s v => (F (s, v)).1) l (fun _ => none) hl1 (fun _ _ _ => rfl)
    (fun k v hv s hs he => by
      obtain ⟨q, h1, _⟩ := hfs s hs
      exact hl.fold rfl k v hv _ q h1 he)
    (fun s hs v hv => by
      obtain ⟨q, _, h1, _⟩ := hF (s, v) hs hv
      exact h1)
  let w : SF → GV c := fun s => (A s.json).getD (zero c s.type)
  let e : SF → J := fun s => match GMap.get s.json l with
    | some v => (F (s, v)).2
    | none => .null
  have hw : ∀ s ∈ fs, ∀ v, (s.json, v) ∈ l → w s = (F (s, v)).1 ∧ e s = (F (s, v)).2 := by
    intro s hs v hv
    constructor
    · show (A s.json).getD _ = _
      rw [show A s.json = some ((F (s, v)).1) from assign_own hn hs l _ hl1 hv]
      rfl
    · show (match GMap.get s.json l with | some v => (F (s, v)).2 | none => .null) = _
      rw [GMap.get_mem_nodup hl1 hv]
  have hw0 : ∀ s ∈ fs, (∀ v, (s.json, v) ∉ l) → w s = zero c s.type := by
    intro s hs h
    show (A s.json).getD _ = _
    rw [show A s.json = none from assign_other l _ h]
    rfl
  -- fields that are written have a value
  have hskip : ∀ s ∈ fs, skipped s.opt (w s) = false → ∃ v, (s.json, v) ∈ l := by
    intro s hs h
    obtain ⟨q, h1, h2⟩ := hfs s hs
    refine Classical.byContradiction fun hno => ?_
    have hno' : ∀ v, (s.json, v) ∉ l := fun v hv => hno ⟨v, hv⟩
    rw [hw0 s hs hno'] at h
    by_cases hr : s.json ∈ required
    · exact hno (hl.given _ hr)
    · by_cases hb : BareTime pointers q
      · exact hno (hl.times rfl _ q h1 hr hb)
      · rw [h2.absent (by simpa using hr) hb] at h
        cases h
  have henc := encode_members (c := c) w e fs (fun s hs h => by
    obtain ⟨v, hv⟩ := hskip s hs h
    obtain ⟨q, _, _, h2, _⟩ := hF (s, v) hs hv
    rw [(hw s hs v hv).1, (hw s hs v hv).2]
    exact h2)
  refine ⟨fs.map w, _, ?_, henc, ⟨?_, ?_, ?_, ?_⟩, ?_⟩
  · simp only [decode, zero, zeros_eq]
    have : fs.map (fun f => zero c f.type) = valsOf c fs (fun _ => none) := by simp [valsOf]
    rw [this]
    exact congrArg (Option.map GV.struct) hdec
  · rw [List.map_map]
    exact (List.filter_sublist.map _).nodup hn
  · intro k v' hk
    obtain ⟨s, hs, he⟩ := List.mem_map.1 hk
    rw [List.mem_filter] at hs
    obtain ⟨rfl, _⟩ := Prod.mk.inj he
    obtain ⟨v, hv⟩ := hskip s hs.1 (by simpa using hs.2)
    obtain ⟨q, h1, _⟩ := hfs s hs.1
    exact ⟨v, q, hv, h1⟩
  · intro k v v' q hv hk hq
    obtain ⟨s, hs, he⟩ := List.mem_map.1 hk
    rw [List.mem_filter] at hs
    obtain ⟨rfl, rfl⟩ := Prod.mk.inj he
    rw [(hw s hs.1 v hv).2]
    obtain ⟨q', h1, _, _, h2, _⟩ := hF (s, v) hs.1 hv
    have : q' = q := by
      have := h1.1.symm.trans hq.1
      exact Option.some.inj this
    subst this
    exact h2
  · intro k v q hv hq
    obtain ⟨s, hs, rfl⟩ := hall k q hq
    by_cases h : skipped s.opt (w s) = true
    · right
      obtain ⟨q', h1, h2⟩ := hfs s hs
      refine ⟨rfl, fun hr => ?_, ?_⟩
      · rw [h2.never (by simpa using hr)] at h
        cases h
      · rw [(hw s hs v hv).1] at h
        obtain ⟨q', h1, _, _, _, h2⟩ := hF (s, v) hs hv
        have : q' = q := Option.some.inj (h1.1.symm.trans hq.1)
        subst this
        exact h2 (skipped_blank h)
    · exact Or.inl ⟨e s, List.mem_map.2 ⟨s, List.mem_filter.2 ⟨hs, by simpa using h⟩, rfl⟩⟩
  · intro hz k v q hv hq
    obtain ⟨s, hs, rfl⟩ := hall k q hq
    have := allZero_iff.1 hz (w s) (List.mem_map.2 ⟨s, hs, rfl⟩)
    rw [(hw s hs v hv).1] at this
    obtain ⟨q', h1, _, _, _, h2⟩ := hF (s, v) hs hv
    have hqq : q' = q := Option.some.inj (h1.1.symm.trans hq.1)
    subst hqq
    exact h2 (Or.inr this)

theorem good_struct {q : P} {i : Instance} {m : GMap P} {fs : List SF} (hd : decodeInstance false q = .ok i) (ht : Spec.TypeIs i g!"object")
    (hp : i.properties = some m) (hn : (fs.map SF.json).Nodup)
    (hfs : ∀ s ∈ fs, ∃ q, Listed m s.json q ∧ FieldGood c pointers (decide (s.json ∈ i.required)) s.json q s)
    (hall : ∀ k q, Listed m k q → ∃ s ∈ fs, s.json = k) : GoodNN c pointers (.struct fs) q := by
  intro j hj hnn
  obtain ⟨l, rfl, hm⟩ := object_cases hd ht hp hj hnn
  obtain ⟨vs, l', h1, h2, h3, h4⟩ := struct_good hn hfs hall hm
  refine ⟨.struct vs, .obj l', h1, by simp [encode, h2], .object hd hp h3.nodup h3.sound h3.each h3.complete, ?_⟩
  intro h hnull
  simp only [isEmpty, isZero, Bool.false_eq_true, false_or] at h
  exact .object hnull hd hp (h4 h)

theorem zero_isZero (hc : c.Lawful) : ∀ fs : List SF, isZero (zero c (.struct fs)) = true := by
  have key : ∀ n, ∀ fs : List SF, sizeOf fs ≤ n → allZero (zeros c fs) = true := by
    intro n
    induction n with
    | zero =>
      intro fs h
      cases fs with
      | nil => simp [zeros, allZero]
      | cons f fs => simp at h
    | succ n ih =>
      intro fs h
      rw [allZero_iff, zeros_eq]
      intro v hv
      obtain ⟨s, hs, rfl⟩ := List.mem_map.1 hv
      have hlt := List.sizeOf_lt_of_mem hs
      obtain ⟨a, b, o, t⟩ := s
      rw [SF.type_mk]
      cases t with
      | struct gs =>
        simp only [zero, isZero]
        apply ih
        simp at hlt
        omega
      | bool => simp [zero, isZero]
      | int64 => simp [zero, isZero]
      | float64 => simp [zero, isZero, hc.zeroFloat]
      | string => simp [zero, isZero]
      | time => simp [zero, isZero, hc.zeroTime]
      | dict => simp [zero, isZero]
      | ptr => simp [zero, isZero]
      | slice => simp [zero, isZero]
  intro fs
  simp only [zero, isZero]
  exact key _ fs (Nat.le_refl _)

/-! ### Reading the text -/

theorem takeWhile_stop {p : Char → Bool} : ∀ (a b : Str) (x : Char), (∀ y ∈ a, p y = true) → p x = false →
    (a ++ x :: b).takeWhile p = a ∧ (a ++ x :: b).dropWhile p = x :: b
  | [], b, x, _, hx => by simp [hx]
  | y :: a, b, x, ha, hx => by
    have := takeWhile_stop a b x (fun z hz => ha z (List.mem_cons_of_mem _ hz)) hx
    simp [ha y List.mem_cons_self, this]

theorem takeWhile_all {p : Char → Bool} : ∀ (a : Str), (∀ y ∈ a, p y = true) → a.takeWhile p = a ∧ a.dropWhile p = []
  | [], _ => by simp
  | y :: a, ha => by
    have := takeWhile_all a (fun z hz => ha z (List.mem_cons_of_mem _ hz))
    simp [ha y List.mem_cons_self, this]

theorem tagChar_not {c' : Char} (h : tagChar c' = true) : c' ≠ '"' ∧ c' ≠ '`' ∧ c' ≠ ',' := by
  refine ⟨?_, ?_, ?_⟩ <;> (rintro rfl; revert h; decide)

/-- The text of an option. -/
def omitText : Omit → Str
  | .never => []
  | .empty => g!",omitempty"
  | .zero => g!",omitzero"

theorem readOmit_text (o : Omit) : readOmit (omitText o) = some o := by cases o <;> decide

theorem readTag_text {k d : Str} {o : Omit} (hk : TagName k) (hd : '`' ∉ d) :
    readTag (g!"`json:\"" ++ k ++ omitText o ++ g!"\"" ++ d ++ g!"`\n") = some (k, o) := by
  have hq : ∀ y ∈ k ++ omitText o, y ≠ '"' ∧ y ≠ '`' := by
    intro y hy
    rcases List.mem_append.1 hy with h | h
    · exact ⟨(tagChar_not (hk.2.2 y h)).1, (tagChar_not (hk.2.2 y h)).2.1⟩
    · have : ∀ y ∈ omitText o, y ≠ '"' ∧ y ≠ '`' := by cases o <;> decide
      exact this y h
  have e1 : g!"`json:\"" ++ k ++ omitText o ++ g!"\"" ++ d ++ g!"`\n" = g!"`json:\"" ++ (k ++ omitText o ++ '"' :: (d ++ g!"`\n")) := by simp
  have e2 : k ++ omitText o ++ '"' :: (d ++ g!"`\n") = (k ++ omitText o ++ '"' :: d) ++ '`' :: g!"\n" := by simp
  rw [e1]
  unfold readTag
  have hpre : hasPrefix (g!"`json:\"" ++ (k ++ omitText o ++ '"' :: (d ++ g!"`\n"))) g!"`json:\"" = true := by
    simp [hasPrefix]
  rw [hpre]
  simp only [Bool.true_eq_false, if_false]
  rw [show (g!"`json:\"" ++ (k ++ omitText o ++ '"' :: (d ++ g!"`\n"))).drop (g!"`json:\"").length = k ++ omitText o ++ '"' :: (d ++ g!"`\n") from
    List.drop_left]
  obtain ⟨t1, t2⟩ := takeWhile_stop (p := fun c => decide (c ≠ '"')) (k ++ omitText o) (d ++ g!"`\n") '"' (fun y hy => by simpa using (hq y hy).1) (by simp)
  obtain ⟨_, t4⟩ := takeWhile_stop (p := fun c => decide (c ≠ '`')) (k ++ omitText o ++ '"' :: d) g!"\n" '`' (fun y hy => by
    rcases List.mem_append.1 hy with h | h
    · simpa using (hq y h).2
    · rcases List.mem_cons.1 h with rfl | h
      · decide
      · have : y ≠ '`' := by rintro rfl; exact hd h
        simpa using this) (by simp)
  rw [← e2] at t4
  rw [t1, t2, t4]
  have hno : '`' ∉ k ++ omitText o := fun h => (hq _ h).2 rfl
  rw [if_neg (by simp only [not_or]; exact ⟨by simp, by simp, hno⟩)]
  have hk2 : ∀ y ∈ k, decide (y ≠ ',') = true := fun y hy => by simpa using (tagChar_not (hk.2.2 y hy)).2.2
  have hsplit : (k ++ omitText o).takeWhile (fun c => decide (c ≠ ',')) = k ∧ (k ++ omitText o).dropWhile (fun c => decide (c ≠ ',')) = omitText o := by
    cases o with
    | never =>
      simp only [omitText, List.append_nil]
      exact takeWhile_all k hk2
    | empty => exact takeWhile_stop k g!"omitempty" ',' hk2 (by simp)
    | zero => exact takeWhile_stop k g!"omitzero" ',' hk2 (by simp)
  rw [hsplit.1, hsplit.2, if_pos hk, readOmit_text]
  rfl

theorem headD_mem {s : Str} {y : Char} (h : y ∈ (splitC '\n' s).headD []) : y ∈ s := by
  cases hs : splitC '\n' s with
  | nil => rw [hs] at h; cases h
  | cons x xs =>
    rw [hs] at h
    exact splitC_mem (c := '\n') (s := s) (x := x) (by simp [hs]) y h

theorem readTag_struct {ef : EField} {required descTag : Bool} {o : Omit} (hk : TagName ef.jsonName) (ho : omitOption ef required [] = omitText o)
    (hd : descTag = true → '`' ∉ ef.description) : readTag (structTag ef required descTag []) = some (ef.jsonName, o) := by
  rw [C57_tag, ho]
  apply readTag_text hk
  split
  · rename_i h
    intro hm
    simp only [List.mem_append] at hm
    rcases hm with (hm | hm) | hm
    · revert hm; decide
    · exact hd h.1 (headD_mem hm)
    · revert hm; decide
  · simp

theorem readLines_comments {cs : List Str} {rest : List Line} {st : List (Str × Str × List SF)} {acc : List SF} :
    readLines (cs.map Line.comment ++ rest) st acc = readLines rest st acc := by
  induction cs with
  | nil => rfl
  | cons x cs ih => simpa [readLines] using ih

theorem readLines_commentLines {ef : EField} {descTag : Bool} {rest : List Line} {st : List (Str × Str × List SF)} {acc : List SF} :
    readLines (commentLines ef descTag ++ rest) st acc = readLines rest st acc := by
  unfold commentLines
  split
  · exact readLines_comments
  · rfl

/-! ### The field of a property -/

/-- A field is read as it should. -/
def Reads (descTag pointers required : Bool) (f : EField) (s : SF) : Prop :=
  ∀ ind rest st acc, readLines (f.lines descTag pointers [] [] ind required ++ rest) st acc = readLines rest st (acc ++ [s])

/-- The option of the tag. -/
def optOf (required strct : Bool) : Omit := if required then .never else if strct then .zero else .empty

theorem omitOption_eq (ef : EField) (required : Bool) :
    omitOption ef required [] = omitText (optOf required (decide (ef.array = false ∧ ef.nullable = false ∧ (ef.fields.getD []).length ≠ 0))) := by
  unfold omitOption optOf
  cases required with
  | true => rfl
  | false =>
    simp only [Bool.false_eq_true, if_false, GMap.get, false_and, exists_false, or_false, reduceCtorEq]
    split <;> rename_i h
    · rw [if_pos (by simpa using h)]; rfl
    · rw [if_neg (by simpa using h)]; rfl

/-- A field on a single line. -/
theorem reads_plain {descTag pointers required : Bool} {f : EField} {g : GT} (hk : TagName f.jsonName) (hd : descTag = true → '`' ∉ f.description)
    (hty : readType wordType (goType f required pointers []) = some g) (hsl : goType f required pointers [] ≠ g!"[]")
    (hfs : f.fields = none ∨ f.jsonType ≠ g!"object" ∨ f.fields = some []) :
    Reads descTag pointers required f (.mk f.name f.jsonName (optOf required (decide (f.array = false ∧ f.nullable = false ∧ (f.fields.getD []).length ≠ 0))) g) := by
  intro ind rest st acc
  have htag := readTag_struct (required := required) hk (omitOption_eq f required) hd
  have hlines : f.lines descTag pointers [] [] ind required = commentLines f descTag ++ [.field ind f.name (goType f required pointers []) (structTag f required descTag [])] := by
    obtain ⟨a, d, fs, j, t, n, u, r⟩ := f
    cases fs with
    | none =>
      simp only [EField.lines]
      rw [if_neg (by simp only [List.not_mem_nil, false_or]; exact hsl)]
    | some fs =>
      simp only [EField.lines]
      rw [if_neg (by simp only [List.not_mem_nil, false_or]; exact hsl), if_pos]
      rcases hfs with h | h | h
      · cases h
      · exact Or.inl h
      · right
        simp only [Option.some.injEq] at h
        simp [h]
  rw [hlines, List.append_assoc, readLines_commentLines]
  simp only [List.cons_append, List.nil_append, readLines, hty, htag, Option.bind_some]

/-- A field with an inline struct. -/
theorem reads_struct {descTag pointers required : Bool} {a : Bool} {d : Str} {fs : List (Str × EField)} {j n : Str} {u : Bool} {r : List Str} {sfs : List SF} {g : GT}
    (hk : TagName j) (hd : descTag = true → '`' ∉ d) (hne : fs ≠ [])
    (hty : readType (structWord sfs) (goType ⟨a, d, some fs, j, g!"object", n, u, r⟩ required pointers []) = some g)
    (hsl : goType ⟨a, d, some fs, j, g!"object", n, u, r⟩ required pointers [] ≠ g!"[]")
    (hch : checked sfs = some sfs)
    (hbody : ∀ ind rest st acc, readLines ((sortedByName (linesAll descTag pointers [] [] ind r fs)).flatten ++ rest) st acc = readLines rest st (acc ++ sfs)) :
    Reads descTag pointers required ⟨a, d, some fs, j, g!"object", n, u, r⟩ (.mk n j (optOf required (decide (a = false ∧ u = false))) g) := by
  intro ind rest st acc
  have hlen : fs.length ≠ 0 := by simpa using hne
  have htag := readTag_struct (ef := ⟨a, d, some fs, j, g!"object", n, u, r⟩) (required := required) hk (omitOption_eq _ required) hd
  have ho : decide (a = false ∧ u = false ∧ ((some fs).getD []).length ≠ 0) = decide (a = false ∧ u = false) := by simp [hne]
  simp only at htag
  rw [ho] at htag
  have hlines : EField.lines descTag pointers [] [] ind required ⟨a, d, some fs, j, g!"object", n, u, r⟩ =
      commentLines ⟨a, d, some fs, j, g!"object", n, u, r⟩ descTag ++
      .open ind n (goType ⟨a, d, some fs, j, g!"object", n, u, r⟩ required pointers []) ::
        ((sortedByName (linesAll descTag pointers [] [] (ind ++ g!"\t") r fs)).flatten ++
          [.close ind (structTag ⟨a, d, some fs, j, g!"object", n, u, r⟩ required descTag [])]) := by
    simp only [EField.lines]
    rw [if_neg (by simp only [List.not_mem_nil, false_or]; exact hsl), if_neg (by simp [hlen])]
  rw [hlines, List.append_assoc, readLines_commentLines]
  simp only [List.cons_append, readLines, List.append_assoc]
  rw [hbody]
  simp only [List.nil_append, readLines, hch, hty, htag, Option.bind_some]

/-- The fields of a struct are written in the same order at each depth. -/
theorem sorted_lines {descTag pointers : Bool} {r : List Str} {fs : List (Str × EField)} (h : (fs.map fun kf => kf.2.name).Nodup) :
    ∃ ord : List (Str × EField), ord.Perm fs ∧ ∀ ind, sortedByName (linesAll descTag pointers [] [] ind r fs) =
      ord.map fun kf => kf.2.lines descTag pointers [] [] ind (decide (kf.2.jsonName ∈ r)) := by
  have hn : ((fs.map fun kf => (kf.2.name, kf)).map Prod.fst).Nodup := by rw [List.map_map]; exact h
  obtain ⟨l', h1, h2, _⟩ := sorted_spec hn
  refine ⟨l'.map Prod.snd, ?_, fun ind => ?_⟩
  · have := h1.map Prod.snd
    rw [List.map_map] at this
    rw [show (Prod.snd ∘ fun kf : Str × EField => (kf.2.name, kf)) = id from rfl, List.map_id] at this
    exact this
  · rw [linesAll_map]
    have hn2 : ((fs.map fun kf => (kf.2.name, kf.2.lines descTag pointers [] [] ind (decide (kf.2.jsonName ∈ r)))).map Prod.fst).Nodup := by
      rw [List.map_map]; exact h
    obtain ⟨l2, g1, g2, g3⟩ := sorted_spec hn2
    rw [g3]
    have : l2 = l'.map fun x => (x.1, x.2.2.lines descTag pointers [] [] ind (decide (x.2.2.jsonName ∈ r))) := by
      refine ordered_unique g2 ?_ (g1.trans ?_)
      · unfold Spec.Ordered at h2 ⊢
        rw [List.pairwise_map]
        exact h2
      · have := h1.map fun x : Str × (Str × EField) => (x.1, x.2.2.lines descTag pointers [] [] ind (decide (x.2.2.jsonName ∈ r)))
        rw [List.map_map] at this
        exact this.symm
    rw [this, List.map_map, List.map_map]
    rfl

theorem reads_all {descTag pointers : Bool} {r : List Str} {S : Str × EField → SF} : ∀ (ord : List (Str × EField)),
    (∀ kf ∈ ord, Reads descTag pointers (decide (kf.2.jsonName ∈ r)) kf.2 (S kf)) → ∀ ind rest st acc,
    readLines ((ord.map fun kf => kf.2.lines descTag pointers [] [] ind (decide (kf.2.jsonName ∈ r))).flatten ++ rest) st acc =
      readLines rest st (acc ++ ord.map S) := by
  intro ord
  induction ord with
  | nil => intro _ ind rest st acc; simp
  | cons kf ord ih =>
    intro h ind rest st acc
    simp only [List.map_cons, List.flatten_cons, List.append_assoc]
    rw [h kf List.mem_cons_self, ih (fun x hx => h x (List.mem_cons_of_mem _ hx))]
    simp

variable {title : Str → Str} {rename : GMap Str} {descTag : Bool}

theorem fieldOf_name {k : Str} {q : P} {f : EField} (h : Spec.FieldOf title rename k q f) : f.jsonName = k ∧ f.name = Spec.goName title rename k := by
  cases h <;> exact ⟨rfl, rfl⟩

theorem nodup_map_on {α β : Type} {f : α → β} : ∀ {l : List α}, (∀ a ∈ l, ∀ b ∈ l, f a = f b → a = b) → l.Nodup → (l.map f).Nodup
  | [], _, _ => by simp
  | x :: l, h, hn => by
    rw [List.map_cons, List.nodup_cons]
    rw [List.nodup_cons] at hn
    refine ⟨fun hm => ?_, nodup_map_on (fun a ha b hb => h a (List.mem_cons_of_mem _ ha) b (List.mem_cons_of_mem _ hb)) hn.2⟩
    obtain ⟨y, hy, he⟩ := List.mem_map.1 hm
    have := h y (List.mem_cons_of_mem _ hy) x List.mem_cons_self he
    subst this
    exact hn.1 hy

/-- The struct for some properties, given the fields for each. -/
theorem struct_of {m : GMap P} {fs : GMap EField} {r : List Str} (hf : Spec.FieldsOf title rename m fs) (hm : CleanNames title rename m)
    (hS : ∀ k q f, Listed m k q → GMap.get k fs = some f → ∃ s, Reads descTag pointers (decide (k ∈ r)) f s ∧ s.name = f.name ∧ FieldGood c pointers (decide (k ∈ r)) k q s) :
    ∃ sfs, checked sfs = some sfs ∧ (fs ≠ [] → sfs ≠ []) ∧ (∀ ind rest st acc, readLines ((sortedByName (linesAll descTag pointers [] [] ind r fs)).flatten ++ rest) st acc =
        readLines rest st (acc ++ sfs)) ∧
      (sfs.map SF.json).Nodup ∧ (∀ s ∈ sfs, ∃ q, Listed m s.json q ∧ FieldGood c pointers (decide (s.json ∈ r)) s.json q s) ∧
      (∀ k q, Listed m k q → ∃ s ∈ sfs, s.json = k) ∧ ∀ s ∈ sfs, s.name = Spec.goName title rename s.json := by
  -- entries of the map
  have hent : ∀ kf ∈ fs, ∃ q, Listed m kf.1 q ∧ GMap.get kf.1 fs = some kf.2 ∧ Spec.FieldOf title rename kf.1 q kf.2 := by
    intro kf hkf
    have hg : GMap.get kf.1 fs = some kf.2 := GMap.get_mem_nodup hf.sorted.nodup hkf
    have hq : ∃ q, GMap.get kf.1 m = some q ∧ ¬ Spec.Hydrated q := by
      refine Classical.byContradiction fun hno => ?_
      have := (hf.names kf.1).2 fun q hq => Classical.byContradiction fun hh => hno ⟨q, hq, hh⟩
      rw [hg] at this
      cases this
    obtain ⟨q, hq⟩ := hq
    exact ⟨q, hq, hg, hf.each _ _ _ hq.1 hg⟩
  have hex : ∀ kf : Str × EField, ∃ s, kf ∈ fs → Reads descTag pointers (decide (kf.2.jsonName ∈ r)) kf.2 s ∧ s.name = kf.2.name ∧ s.json = kf.1 ∧
      ∃ q, Listed m kf.1 q ∧ FieldGood c pointers (decide (kf.1 ∈ r)) kf.1 q s := by
    intro kf
    by_cases hkf : kf ∈ fs
    · obtain ⟨q, h1, h2, h3⟩ := hent kf hkf
      obtain ⟨s, a1, a2, a3⟩ := hS _ _ _ h1 h2
      refine ⟨s, fun _ => ⟨?_, a2, a3.json, q, h1, a3⟩⟩
      rw [(fieldOf_name h3).1]
      exact a1
    · exact ⟨.mk [] [] .never .bool, fun h => absurd h hkf⟩
  obtain ⟨S, hS⟩ := Classical.axiomOfChoice hex
  have hkeys : (fs.map Prod.fst).Nodup := hf.sorted.nodup
  have hnames : (fs.map fun kf => kf.2.name).Nodup := by
    refine nodup_map_on ?_ (nodup_of_map hkeys)
    intro a ha b hb he
    obtain ⟨q, h1, h2, h3⟩ := hent a ha
    obtain ⟨q', h1', h2', h3'⟩ := hent b hb
    rw [(fieldOf_name h3).2, (fieldOf_name h3').2] at he
    have hk := hm.distinct _ _ _ _ h1 h1' he
    rw [hk] at h2
    rw [h2] at h2'
    obtain ⟨a1, a2⟩ := a
    obtain ⟨b1, b2⟩ := b
    simp only at hk
    cases h2'
    rw [hk]
  obtain ⟨ord, hp, hlines⟩ := sorted_lines (descTag := descTag) (pointers := pointers) (r := r) hnames
  have hmem : ∀ kf, kf ∈ ord ↔ kf ∈ fs := fun kf => hp.mem_iff
  refine ⟨ord.map S, ?_, ?_, ?_, ?_, ?_, ?_, ?_⟩
  · unfold checked
    rw [if_pos]
    constructor
    · have : (ord.map S).map SF.name = ord.map fun kf => kf.2.name := by
        rw [List.map_map]
        exact List.map_congr_left fun kf hkf => (hS kf ((hmem kf).1 hkf)).2.1
      rw [this]
      exact (hp.map _).nodup_iff.2 hnames
    · intro s hs
      obtain ⟨kf, hkf, rfl⟩ := List.mem_map.1 hs
      have hkf := (hmem kf).1 hkf
      rw [(hS kf hkf).2.1]
      obtain ⟨q, h1, h2, h3⟩ := hent kf hkf
      rw [(fieldOf_name h3).2]
      exact hm.exported _ _ h1
  · intro hne he
    have : ord = [] := by simpa using he
    subst this
    exact hne (List.Perm.nil_eq hp).symm
  · intro ind rest st acc
    rw [hlines ind]
    exact reads_all ord (fun kf hkf => (hS kf ((hmem kf).1 hkf)).1) ind rest st acc
  · have : (ord.map S).map SF.json = ord.map Prod.fst := by
      rw [List.map_map]
      exact List.map_congr_left fun kf hkf => (hS kf ((hmem kf).1 hkf)).2.2.1
    rw [this]
    exact (hp.map _).nodup_iff.2 hkeys
  · intro s hs
    obtain ⟨kf, hkf, rfl⟩ := List.mem_map.1 hs
    obtain ⟨_, _, h3, q, h4, h5⟩ := hS kf ((hmem kf).1 hkf)
    rw [h3]
    exact ⟨q, h4, h5⟩
  · intro k q hq
    cases hg : GMap.get k fs with
    | none => exact absurd ((hf.names k).1 hg q hq.1) hq.2
    | some f =>
      have hkf : (k, f) ∈ fs := GMap.get_some_mem hg
      exact ⟨S (k, f), List.mem_map.2 ⟨_, (hmem _).2 hkf, rfl⟩, (hS _ hkf).2.2.1⟩
  · intro s hs
    obtain ⟨kf, hkf, rfl⟩ := List.mem_map.1 hs
    have hkf := (hmem kf).1 hkf
    obtain ⟨q, h1, h2, h3⟩ := hent kf hkf
    rw [(hS kf hkf).2.1, (fieldOf_name h3).2, (hS kf hkf).2.2.1]

/-- The star of a pointer. -/
def starIf (b : Bool) : Str := if b then g!"*" else []

def ptrIf (b : Bool) (g : GT) : GT := if b then .ptr g else g

/-- The word for a type without parts, and the type it is read as. -/
theorem leaf_cases (hc : c.Lawful) {q : P} {i : Instance} {t : Str} (hd : decodeInstance false q = .ok i) (ht : Spec.TypeIs i t)
    (htm : t ∈ [g!"boolean", g!"number", g!"integer", g!"string"]) :
    ∃ w g tm, GoodNN c pointers g q ∧ wordType w = some g ∧ (w.headD ' ' ≠ '*' ∧ w.headD ' ' ≠ '[') ∧
      (tm = false → isEmpty (zero c g) = true) ∧ (tm = true → t = g!"string" ∧ i.format = g!"date-time") ∧
      ∀ a d k n u required, goType ⟨a, d, none, k, Spec.leafType i t, n, u, []⟩ required pointers [] =
        (if a then g!"[]" else []) ++ (starIf (u || (tm && pointers && !required)) ++ w) := by
  simp only [List.mem_cons, List.not_mem_nil, or_false] at htm
  rcases htm with rfl | rfl | rfl | rfl
  · refine ⟨g!"bool", .bool, false, good_bool hd ht, rfl, by decide, fun _ => rfl, fun h => (by cases h), ?_⟩
    intro a d k n u required
    have : Spec.leafType i g!"boolean" = g!"boolean" := if_neg (by simp)
    rw [this]
    cases a <;> cases u <;> rfl
  · refine ⟨g!"float64", .float64, false, good_number hc hd ht, rfl, by decide, fun _ => ?_, fun h => (by cases h), ?_⟩
    · simp [zero, isEmpty, hc.zeroFloat]
    intro a d k n u required
    have : Spec.leafType i g!"number" = g!"number" := if_neg (by simp)
    rw [this]
    cases a <;> cases u <;> rfl
  · refine ⟨g!"int64", .int64, false, good_integer hd ht, rfl, by decide, fun _ => rfl, fun h => (by cases h), ?_⟩
    intro a d k n u required
    have : Spec.leafType i g!"integer" = g!"integer" := if_neg (by simp)
    rw [this]
    cases a <;> cases u <;> rfl
  · by_cases hf : i.format = g!"date-time"
    · refine ⟨g!"time.Time", .time, true, good_time hc hd ht hf, rfl, by decide, fun h => (by cases h), fun _ => ⟨rfl, hf⟩, ?_⟩
      intro a d k n u required
      have : Spec.leafType i g!"string" = g!"date-time" := if_pos ⟨rfl, hf⟩
      rw [this]
      cases a <;> cases u <;> cases pointers <;> cases required <;> rfl
    · refine ⟨g!"string", .string, false, good_string hd ht hf, rfl, by decide, fun _ => rfl, fun h => (by cases h), ?_⟩
      intro a d k n u required
      have : Spec.leafType i g!"string" = g!"string" := if_neg (fun h => hf h.2)
      rw [this]
      cases a <;> cases u <;> rfl

theorem readType_star {word : Str → Option GT} {w : Str} {g : GT} (b : Bool) (h : word w = some g) (hw : w.headD ' ' ≠ '*' ∧ w.headD ' ' ≠ '[') :
    readType word (starIf b ++ w) = some (ptrIf b g) := by
  have : readType word w = some g := by
    unfold readType
    split
    · exact absurd rfl hw.1
    · exact absurd rfl hw.2
    · exact h
  cases b with
  | false => exact this
  | true => show (readType word w).map GT.ptr = _; rw [this]; rfl

theorem readType_slice {word : Str → Option GT} {w : Str} {g : GT} (h : readType word w = some g) : readType word (g!"[]" ++ w) = some (.slice g) := by
  show (readType word w).map GT.slice = _
  rw [h]
  rfl

theorem GoodNN.ptrIf {t : GT} {q : P} (h : GoodNN c pointers t q) {b : Bool} (hb : Nullable q → b = true) : Good c pointers (ptrIf b t) q := by
  cases b with
  | true => exact h.ptr
  | false => exact h.good fun hn => (by cases hb hn)

/-- A field for an object, or a list of them. -/
theorem object_good (hc : c.Lawful) {q : P} {i : Instance} {m : GMap P} {fs : GMap EField} (hd : decodeInstance false q = .ok i) (ht : Spec.TypeIs i g!"object")
    (hp : i.properties = some m) (hf : Spec.FieldsOf title rename m fs) (hm : CleanNames title rename m) {a u required : Bool} {d k n : Str} (hk : TagName k)
    (hdesc : descTag = true → '`' ∉ d)
    (hS : ∀ k q f, Listed m k q → GMap.get k fs = some f → ∃ s, Reads descTag pointers (decide (k ∈ i.required)) f s ∧ s.name = f.name ∧
      FieldGood c pointers (decide (k ∈ i.required)) k q s) :
    ∃ g, Reads descTag pointers required ⟨a, d, some fs, k, g!"object", n, u, i.required⟩
        (.mk n k (optOf required (decide (a = false ∧ u = false ∧ fs.length ≠ 0))) (if a then .slice (ptrIf u g) else ptrIf u g)) ∧ GoodNN c pointers g q ∧
      (a = false → required = false → skipped (optOf required (decide (a = false ∧ u = false ∧ fs.length ≠ 0))) (zero c (ptrIf u g)) = true) := by
  by_cases hfs : fs = []
  · subst hfs
    refine ⟨.dict, ?_, good_dict hd ht hp fun k q hl => hl.2 ((hf.names k).1 rfl q hl.1), ?_⟩
    · have hty : goType ⟨a, d, some [], k, g!"object", n, u, i.required⟩ required pointers [] =
          (if a then g!"[]" else []) ++ (starIf u ++ g!"map[string]string") := by cases a <;> cases u <;> rfl
      have hread := readType_star (word := wordType) (w := g!"map[string]string") (g := .dict) u rfl (by decide)
      refine reads_plain (f := ⟨a, d, some [], k, g!"object", n, u, i.required⟩) hk hdesc ?_ ?_ (Or.inr (Or.inr rfl))
      · rw [hty]
        cases a with
        | false => exact hread
        | true => exact readType_slice hread
      · rw [hty]
        cases a <;> cases u <;> simp [starIf]
    · intro ha hr
      subst ha
      subst hr
      cases u <;> simp [optOf, skipped, ptrIf, zero, isEmpty]
  · obtain ⟨sfs, h1, h2, h3, h4, h5, h6, _⟩ := struct_of hf hm hS
    have hlen : fs.length ≠ 0 := by simpa using hfs
    refine ⟨.struct sfs, ?_, good_struct hd ht hp h4 h5 h6, ?_⟩
    · have hty : goType ⟨a, d, some fs, k, g!"object", n, u, i.required⟩ required pointers [] =
          (if a then g!"[]" else []) ++ (starIf u ++ g!"struct") := by
        have : ∀ x : Str × Bool, (if ((some fs : Option (GMap EField)).getD []).length = 0 then x else (g!"struct", false)) = (g!"struct", false) := fun x => if_neg hlen
        unfold goType
        simp only [this]
        cases a <;> cases u <;> rfl
      have hread := readType_star (word := structWord sfs) (w := g!"struct") (g := .struct sfs) u rfl (by decide)
      have ho : decide (a = false ∧ u = false ∧ fs.length ≠ 0) = decide (a = false ∧ u = false) := by simp [hfs]
      rw [ho]
      refine reads_struct hk hdesc hfs ?_ ?_ h1 h3
      · rw [hty]
        cases a with
        | false => exact hread
        | true => exact readType_slice hread
      · rw [hty]
        cases a <;> cases u <;> simp [starIf]
    · intro ha hr
      subst ha
      subst hr
      cases u with
      | true => simp [optOf, skipped, ptrIf, zero, isEmpty]
      | false =>
        simp only [optOf, skipped, ptrIf, Bool.false_eq_true, if_false, true_and, hlen, ne_eq, not_false_eq_true, decide_true, if_true]
        exact zero_isZero hc sfs

/-- The field for a property goes through the struct, and its text is read as it. -/
theorem field_good (hc : c.Lawful) {k : Str} {raw : P} {f : EField} (hf : Spec.FieldOf title rename k raw f) (hk : TagName k)
    (hcl : Clean title rename descTag raw) : ∀ required, ∃ s, Reads descTag pointers required f s ∧ s.name = f.name ∧ FieldGood c pointers required k raw s := by
  induction hf with
  | @leaf k raw i t hd ht hl =>
    intro required
    have hcl' : t ∈ [g!"boolean", g!"number", g!"integer", g!"string"] ∧ DescOk descTag i := by
      cases hcl with
      | leaf h1 h2 h3 h4 => rw [hd] at h1; cases h1; rw [typeIs_unique ht h2]; exact ⟨h3, h4⟩
      | array h1 h2 => exact absurd (same_type hd h1 ht h2) hl.2.1
      | object h1 h2 => exact absurd (same_type hd h1 ht h2) hl.1
    obtain ⟨w, g, tm, h1, h2, h3, h4, h5, h6⟩ := leaf_cases (pointers := pointers) hc hd ht hcl'.1
    have hnull : Nullable raw ↔ g!"null" ∈ i.type := ⟨fun ⟨i', a, b⟩ => by rw [hd] at a; cases a; exact b, fun h => ⟨i, hd, h⟩⟩
    have hty := h6 false i.description k (Spec.goName title rename k) (decide (g!"null" ∈ i.type)) required
    simp only [Bool.false_eq_true, if_false, List.nil_append] at hty
    have hread := readType_star (decide (g!"null" ∈ i.type) || (tm && pointers && !required)) h2 h3
    have hr := reads_plain (descTag := descTag) (pointers := pointers) (required := required)
      (f := ⟨false, i.description, none, k, Spec.leafType i t, Spec.goName title rename k, decide (g!"null" ∈ i.type), []⟩) hk hcl'.2 (by rw [hty]; exact hread)
      (by rw [hty]; intro he; rw [he] at hread; cases hread) (Or.inl rfl)
    refine ⟨_, hr, rfl, rfl, ?_, ?_, ?_⟩
    · exact h1.ptrIf fun hn => by simp [hnull.1 hn]
    · intro h; simp [SF.opt, optOf, h]
    · intro h hb
      simp only [SF.opt, SF.type, optOf, h, Bool.false_eq_true, if_false, Option.getD_none, List.length_nil, ne_eq, not_true_eq_false, and_false, decide_false, skipped]
      cases hu : (decide (g!"null" ∈ i.type) || (tm && pointers && !false)) with
      | true => rfl
      | false =>
        refine h4 ?_
        cases tm with
        | false => rfl
        | true =>
          simp only [Bool.true_and, Bool.not_false, Bool.and_true, Bool.or_eq_false_iff, decide_eq_false_iff_not] at hu
          obtain ⟨rfl, hfmt⟩ := h5 rfl
          exact absurd ⟨hu.2, fun hn => hu.1 (hnull.1 hn), i, hd, ht, hfmt⟩ hb
  | @leaves k raw items i j t hd ht hi hj hjt hl =>
    intro required
    have hcl' : t ∈ [g!"boolean", g!"number", g!"integer", g!"string"] ∧ DescOk descTag i := by
      cases hcl with
      | leaf h1 h2 h3 h4 => rw [← same_type hd h1 ht h2] at h3; simp at h3
      | object h1 h2 => exact absurd (same_type hd h1 ht h2) (by decide)
      | array h1 h2 h3 h4 h5 =>
        rw [hd] at h1; cases h1
        rw [hi] at h3; cases h3
        refine ⟨?_, h4⟩
        cases h5 with
        | leaf h1 h2 h3 h4 => rw [same_type hj h1 hjt h2]; exact h3
        | array h1 h2 => exact absurd (same_type hj h1 hjt h2) hl.2.1
        | object h1 h2 => exact absurd (same_type hj h1 hjt h2) hl.1
    obtain ⟨w, g, tm, h1, h2, h3, h4, h5, h6⟩ := leaf_cases (pointers := pointers) hc hj hjt hcl'.1
    have hty := h6 true i.description k (Spec.goName title rename k) (decide (g!"null" ∈ i.type)) required
    simp only [if_true] at hty
    have hread := readType_slice (readType_star (decide (g!"null" ∈ i.type) || (tm && pointers && !required)) h2 h3)
    have hr := reads_plain (descTag := descTag) (pointers := pointers) (required := required)
      (f := ⟨true, i.description, none, k, Spec.leafType j t, Spec.goName title rename k, decide (g!"null" ∈ i.type), []⟩) hk hcl'.2 (by rw [hty]; exact hread)
      (by rw [hty]; intro he; rw [he] at hread; simp [readType, wordType] at hread) (Or.inl rfl)
    refine ⟨_, hr, rfl, rfl, ?_, ?_, ?_⟩
    · refine good_slice hd ht hi ?_
      unfold ptrIf
      split
      · exact h1.ptr.nn
      · exact h1
    · intro h; simp [SF.opt, optOf, h]
    · intro h hb
      simp [SF.opt, SF.type, optOf, h, skipped, zero, isEmpty]
  | @object k raw i m fs hd ht hp hs hnone hall ih =>
    intro required
    have hcl' : DescOk descTag i ∧ CleanNames title rename m ∧ ∀ k q, Listed m k q → Clean title rename descTag q := by
      cases hcl with
      | leaf h1 h2 h3 h4 => rw [← same_type hd h1 ht h2] at h3; simp at h3
      | array h1 h2 => exact absurd (same_type hd h1 ht h2) (by decide)
      | object h1 h2 h3 h4 h5 h6 =>
        rw [hd] at h1; cases h1
        rw [hp] at h3; cases h3
        exact ⟨h4, h5, h6⟩
    have hnull : Nullable raw ↔ g!"null" ∈ i.type := ⟨fun ⟨i', a, b⟩ => by rw [hd] at a; cases a; exact b, fun h => ⟨i, hd, h⟩⟩
    obtain ⟨g, hr, hg, hz⟩ := object_good (descTag := descTag) (pointers := pointers) (c := c) (a := false) (n := Spec.goName title rename k) (k := k)
      (u := decide (g!"null" ∈ i.type)) (required := required) hc hd ht hp ⟨hs, hnone, hall⟩ hcl'.2.1 hk hcl'.1
      (fun k' q f hl hf => ih k' q f hl.1 hf (hcl'.2.1.tag _ _ hl) (hcl'.2.2 _ _ hl) _)
    refine ⟨_, hr, rfl, rfl, ?_, ?_, ?_⟩
    · exact hg.ptrIf fun hn => by simp [hnull.1 hn]
    · intro h; simp [SF.opt, optOf, h]
    · intro h _
      exact hz rfl h
  | @objects k raw items i j m fs hd ht hi hj hjt hp hs hnone hall ih =>
    intro required
    have hcl' : DescOk descTag i ∧ CleanNames title rename m ∧ ∀ k q, Listed m k q → Clean title rename descTag q := by
      cases hcl with
      | leaf h1 h2 h3 h4 => rw [← same_type hd h1 ht h2] at h3; simp at h3
      | object h1 h2 => exact absurd (same_type hd h1 ht h2) (by decide)
      | array h1 h2 h3 h4 h5 =>
        rw [hd] at h1; cases h1
        rw [hi] at h3; cases h3
        refine ⟨h4, ?_⟩
        cases h5 with
        | leaf h1 h2 h3 h4 => rw [← same_type hj h1 hjt h2] at h3; simp at h3
        | array h1 h2 => exact absurd (same_type hj h1 hjt h2) (by decide)
        | object h1 h2 h3 h4 h5 h6 =>
          rw [hj] at h1; cases h1
          rw [hp] at h3; cases h3
          exact ⟨h5, h6⟩
    obtain ⟨g, hr, hg, hz⟩ := object_good (descTag := descTag) (pointers := pointers) (c := c) (a := true) (n := Spec.goName title rename k) (k := k)
      (u := decide (g!"null" ∈ i.type)) (required := required) hc hj hjt hp ⟨hs, hnone, hall⟩ hcl'.2.1 hk hcl'.1
      (fun k' q f hl hf => ih k' q f hl.1 hf (hcl'.2.1.tag _ _ hl) (hcl'.2.2 _ _ hl) _)
    refine ⟨_, hr, rfl, rfl, ?_, ?_, ?_⟩
    · refine good_slice hd ht hi ?_
      unfold ptrIf
      split
      · exact hg.ptr.nn
      · exact hg
    · intro h; simp [SF.opt, optOf, h]
    · intro h hb
      simp [SF.opt, SF.type, optOf, h, skipped, zero, isEmpty]

end JT.GoJson
