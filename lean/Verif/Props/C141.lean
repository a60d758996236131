import Verif.Props.C140
import Verif.Props.C106
/- C141: a null in the input is the same as nothing. -/
namespace JT
open Spec

namespace Spec
/-- Parts of documents that differ only in fields of objects that are null in one and missing in the other (at the top also the part itself). -/
inductive NullSame : Option P → Option P → Prop
  | empty {x y : Option P} : (x = none ∨ x = some nilP) → (y = none ∨ y = some nilP) → NullSame x y
  | sc (s : Scal) : NullSame (some (.sc s)) (some (.sc s))
  | arr {l l' : List P} : l.length = l'.length → (∀ (i : Nat) y y', l[i]? = some y → l'[i]? = some y' → NullSame (some y) (some y')) →
      NullSame (some (.arr l)) (some (.arr l'))
  | obj {m m' : List (Str × P)} : (∀ k, NullSame (GMap.get k m) (GMap.get k m')) → NullSame (some (.obj m)) (some (.obj m'))
end Spec

/-- **C141** for schemas that satisfy `cov`: documents that differ only in fields that are null in one and missing in the other give the same output, whatever calls
were made before. -/
def C141_statement (cov : Str → Schema → Prop) : Prop :=
  ∀ (lib : Lib) (b r1 r2 : Sched) (ident : Str) (sc : Schema) (t : T) (s0 : St), newTransformer ⟨lib, b, .json⟩ sc ident = .ok (t, s0) → cov ident sc →
    ∀ (raw1 raw2 : Str) (p1 p2 : P), lib.parseJSON raw1 = some p1 → lib.parseJSON raw2 = some p2 → NullSame (some (canon p1)) (some (canon p2)) →
    ∀ h1 h2 : List (Env × Str),
    (transformNoValidation ⟨lib, r1, .json⟩ t raw1 (afterCalls t h1 s0)).1.toOption = (transformNoValidation ⟨lib, r2, .json⟩ t raw2 (afterCalls t h2 s0)).1.toOption ∧
    (transform ⟨lib, r1, .json⟩ t raw1 (afterCalls t h1 s0)).1.toOption = (transform ⟨lib, r2, .json⟩ t raw2 (afterCalls t h2 s0)).1.toOption

theorem LeafAt_depth {p : P} {d : Nat} {r : Option P} (h : LeafAt P.view p d r) : d ≤ p.depth := by
  induction h with
  | leaf => omega
  | empty => omega
  | @cons x y l d r hs _ ih =>
    rcases x with s | l' | m
    · cases hs
    · have : l' = y :: l := by
        have hs : Shape.arr l' = Shape.arr (y :: l) := hs
        exact Shape.arr.inj hs
      subst this
      have := depthList_mem (List.mem_cons_self (a := y) (l := l))
      simp only [P.depth]
      omega
    · cases hs

/-- The first leaves of such parts. -/
theorem LeafAt_null {x : P} {d : Nat} {r : Option P} (h : LeafAt P.view x d r) : ∀ {y : P}, NullSame (some x) (some y) →
    ∃ r', LeafAt P.view y d r' ∧ (r = none ∧ r' = none ∨ (∃ s, r = some (.sc s) ∧ r' = some (.sc s)) ∨ ∃ m m', r = some (.obj m) ∧ r' = some (.obj m')) := by
  induction h with
  | @leaf x hx =>
    intro y hn
    cases hn with
    | empty h1 h2 =>
      obtain h1 := h1.resolve_left nofun
      obtain h2 := h2.resolve_left nofun
      cases h1; cases h2
      exact ⟨_, .leaf (fun l h => by cases h), .inr (.inl ⟨_, rfl, rfl⟩)⟩
    | sc s => exact ⟨_, .leaf hx, .inr (.inl ⟨s, rfl, rfl⟩)⟩
    | arr => exact absurd rfl (hx _)
    | obj => exact ⟨_, .leaf (fun l h => by cases h), .inr (.inr ⟨_, _, rfl, rfl⟩)⟩
  | @empty x hx =>
    intro y hn
    cases hn with
    | empty h1 h2 => obtain h1 := h1.resolve_left nofun; cases h1; cases hx
    | sc s => cases hx
    | @arr l l' hl _ =>
      have : l = [] := Shape.arr.inj hx
      subst this
      have : l' = [] := List.eq_nil_of_length_eq_zero hl.symm
      subst this
      exact ⟨none, .empty rfl, .inl ⟨rfl, rfl⟩⟩
    | obj => cases hx
  | @cons x z l0 d r hx _ ih =>
    intro y hn
    cases hn with
    | empty h1 h2 => obtain h1 := h1.resolve_left nofun; cases h1; cases hx
    | sc s => cases hx
    | @arr l l' hl hq =>
      have : l = z :: l0 := Shape.arr.inj hx
      subst this
      rcases l' with _ | ⟨z', l0'⟩
      · cases hl
      · obtain ⟨r', h1, h2⟩ := ih (hq 0 z z' rfl rfl)
        exact ⟨r', .cons (l := l0') rfl h1, h2⟩
    | obj => cases hx

theorem convertTo_obj {lib : Lib} {ty : Str} (hty : ScalarType ty) (m : List (Str × P)) : convertTo lib P.view ty (.obj m) = ⟨.sc .nil, true⟩ := by
  rcases hty with rfl | rfl | rfl | rfl | rfl <;> rfl

theorem scalarPart_null {lib : Lib} {ty : Str} (hty : ScalarType ty) {x y : Option P} (h : NullSame x y) : scalarPart lib ty x = scalarPart lib ty y := by
  have hnil : scalarPart lib ty (some nilP) = some nilP := rfl
  have main : ∀ a b : P, NullSame (some a) (some b) → scalarPart lib ty (some a) = scalarPart lib ty (some b) := by
    intro a b hab
    obtain ⟨d, r, hl⟩ := leaf_exists a
    obtain ⟨r', hl', hrr⟩ := LeafAt_null hl hab
    obtain ⟨c, hc⟩ := convert_defined (lib := lib) (ty := ty) hl (Nat.lt_succ_of_le (LeafAt_depth hl))
    obtain ⟨c', hc'⟩ := convert_defined (lib := lib) (ty := ty) hl' (Nat.lt_succ_of_le (LeafAt_depth hl'))
    have e : c = c' := by
      obtain ⟨k1, k2⟩ := C13_exact hty hc hl
      obtain ⟨g1, g2⟩ := C13_exact hty hc' hl'
      rcases hrr with ⟨rfl, rfl⟩ | ⟨s, rfl, rfl⟩ | ⟨m, m', rfl, rfl⟩
      · rw [k1 rfl, g1 rfl]
      · by_cases hs : d % 2 = 0 ∧ P.view.shape (.sc s) = .sc .nil
        · rw [(k2 _ rfl).1 hs.1 hs.2, (g2 _ rfl).1 hs.1 hs.2]
        · rw [(k2 _ rfl).2 hs, (g2 _ rfl).2 hs]
      · rw [(k2 _ rfl).2 (fun h => nomatch h.2), (g2 _ rfl).2 (fun h => nomatch h.2), convertTo_obj hty, convertTo_obj hty]
    subst e
    simp only [scalarPart, hc, hc']
  rcases x with _ | a <;> rcases y with _ | b
  · rfl
  · cases h with
    | empty _ h2 => cases h2.resolve_left nofun; exact hnil.symm
  · cases h with
    | empty h1 _ => cases h1.resolve_left nofun; exact hnil
  · exact main a b h

theorem fieldOf_null {x y : Option P} (h : NullSame x y) (k : Str) : NullSame (fieldOf k x) (fieldOf k y) := by
  cases h with
  | empty h1 h2 => rcases h1 with rfl | rfl <;> rcases h2 with rfl | rfl <;> exact .empty (.inl rfl) (.inl rfl)
  | sc s => exact .empty (.inl rfl) (.inl rfl)
  | arr => exact .empty (.inl rfl) (.inl rfl)
  | obj hq => exact hq k

theorem itemsOf_null {x y : Option P} (h : NullSame x y) : (itemsOf x).length = (itemsOf y).length ∧
    ∀ (i : Nat) a b, (itemsOf x)[i]? = some a → (itemsOf y)[i]? = some b → NullSame a b := by
  have none_ : NullSame none none := .empty (.inl rfl) (.inl rfl)
  cases h with
  | empty h1 h2 =>
    have e1 : itemsOf x = [] := by rcases h1 with rfl | rfl <;> rfl
    have e2 : itemsOf y = [] := by rcases h2 with rfl | rfl <;> rfl
    rw [e1, e2]
    exact ⟨rfl, fun i a b h => by cases h⟩
  | sc s =>
    refine ⟨rfl, fun i a b ha hb => ?_⟩
    cases ha.symm.trans hb
    have : ∀ z ∈ itemsOf (some (.sc s)), z = none := by
      intro z hz
      cases s <;> simp [itemsOf] at hz <;> exact hz
    rw [this a (List.mem_of_getElem? ha)]
    exact none_
  | arr hl hq =>
    refine ⟨by simp [itemsOf, hl], fun i a b ha hb => ?_⟩
    simp only [itemsOf, List.getElem?_map, Option.map_eq_some_iff] at ha hb
    obtain ⟨a, ha, rfl⟩ := ha
    obtain ⟨b, hb, rfl⟩ := hb
    exact hq i a b ha hb
  | obj hq =>
    refine ⟨rfl, fun i a b ha hb => ?_⟩
    rcases i with _ | i
    · cases ha; cases hb; exact hq _
    · cases ha

/-- Nulls make no difference to the value of an instance. -/
theorem Filled_null {lib : Lib} {raw : P} {x r : Option P} (h : Filled lib raw x r) : (∀ q, Inst raw q → UsualType q) → ∀ {y : Option P}, NullSame x y →
    Filled lib raw y r := by
  induction h with
  | @scalar raw x ty0 ty nu h1 h2 h3 h4 =>
    intro hu y hn
    have e : filledPart lib ty (canon ((raw.key g!"default").getD nilP)) x = filledPart lib ty (canon ((raw.key g!"default").getD nilP)) y := by
      unfold filledPart
      rw [scalarPart_null (UsualType_scalar (hu _ (.self _)) h1 h2 h3 h4) hn]
    rw [e]
    exact .scalar h1 h2 h3 h4
  | @array raw x nu items f h1 h2 h3 ih =>
    intro hu y hn
    obtain ⟨hl, hq⟩ := itemsOf_null hn
    rw [hl]
    refine .array h1 h2 fun i b hb => ?_
    have hi : i < (itemsOf x).length := hl ▸ (List.getElem?_eq_some_iff.1 hb).1
    have ha := List.getElem?_eq_getElem hi
    exact ih i _ ha (fun q hq' => hu q (Inst.trans (.items (.self _) h2) hq')) (hq i _ b ha hb)
  | @object raw x nu m f h1 h2 h3 h4 ih =>
    intro hu y hn
    exact .object h1 h2 h3 fun k q hkq => ih k q hkq (fun q' hq => hu q' (Inst.trans (.prop (.self _) h2 hkq) hq)) (fieldOf_null hn k)

theorem SchemaFilled_null {lib : Lib} {inp1 inp2 : P} {sc : Schema} {r : Option P} (h : SchemaFilled lib inp1 sc r) (hu : ∀ q, SchemaInst sc q → UsualType q)
    (hn : NullSame (some inp1) (some inp2)) : SchemaFilled lib inp2 sc r := by
  cases h with
  | @object m f h1 h2 =>
    exact .object h1 fun k q hkq => Filled_null (h2 k q hkq) (fun q' hq => hu q' (.inl ⟨m, k, q, h1, hkq, hq⟩)) (fieldOf_null hn k)
  | @array items f h1 h2 h3 =>
    obtain ⟨hl, hq⟩ := itemsOf_null hn
    rw [hl]
    refine .array h1 h2 fun i b hb => ?_
    have hi : i < (itemsOf (some inp1)).length := hl ▸ (List.getElem?_eq_some_iff.1 hb).1
    have ha := List.getElem?_eq_getElem hi
    exact Filled_null (h3 i _ ha) (fun q' hq' => hu q' (.inr ⟨items, h2, hq'⟩)) (hq i _ b ha hb)

/-- **C141** for schemas without transforms, of arrays, objects with properties, booleans, numbers and strings, in which only scalars have defaults. -/
theorem C141_partial : C141_statement (fun ident sc => FillSchema ident sc ∧ ∀ q, SchemaInst sc q → UsualType q ∧ ScalarDefault q) := by
  intro lib b r1 r2 ident sc t s0 hb hs raw1 raw2 p1 p2 hp1 hp2 hn hist1 hist2
  obtain ⟨hc, hcs⟩ := newTransformer_clean hb (fun q hq => (hs.2 q hq).2)
    (fun q hq tr htr hm => by
      rcases hs.1.noTransform q hq with e | e
      · rw [e] at htr; cases htr
      · rw [e] at htr; cases htr; cases hm)
  rw [afterCalls_state hc hcs, afterCalls_state hc hcs]
  obtain ⟨v1, h1, e1⟩ := C04_defaults_partial (env := ⟨lib, r1, .json⟩) hb hs.1 rfl rfl hp1
  obtain ⟨v2, h2, e2⟩ := C04_defaults_partial (env := ⟨lib, r2, .json⟩) hb hs.1 rfl rfl hp2
  cases SchemaFilled_unique (SchemaFilled_null h1 (fun q hq => (hs.2 q hq).1) hn) h2
  have e : (transformNoValidation ⟨lib, r1, .json⟩ t raw1 s0).1.toOption = (transformNoValidation ⟨lib, r2, .json⟩ t raw2 s0).1.toOption := e1.trans e2.symm
  refine ⟨e, ?_⟩
  unfold transform
  rw [validated_toOption, validated_toOption, e]

namespace C141ex
open Toy

/-- A number, a string with a default and a list of objects. -/
def sc : Schema := ⟨some [(g!"a", o [(g!"type", s g!"number")]), (g!"d", o [(g!"type", s g!"string"), (g!"default", s g!"D")]),
  (g!"l", o [(g!"type", s g!"array"), (g!"items", o [(g!"type", s g!"object"), (g!"properties", o [(g!"x", o [(g!"type", s g!"string")])])])])], none⟩

/-- An object without properties. -/
def free : Schema := ⟨some [(g!"o", o [(g!"type", s g!"object"), (g!"properties", o [])])], none⟩

def docs : List (Str × P) := [
  (g!"1", o [(g!"a", i 5), (g!"d", .sc .nil), (g!"l", a [o [(g!"x", s g!"X"), (g!"y", .sc .nil)], o [(g!"x", .sc .nil)]])]),
  (g!"2", o [(g!"a", i 5), (g!"l", a [o [(g!"x", s g!"X")], o []])]),
  (g!"3", o [(g!"o", o [(g!"k", .sc .nil), (g!"m", i 1)])]), (g!"4", o [(g!"o", o [(g!"m", i 1)])])]

theorem none_nil : NullSame none (some nilP) := .empty (.inl rfl) (.inr rfl)
theorem nil_none : NullSame (some nilP) none := .empty (.inr rfl) (.inl rfl)
theorem none_none : NullSame none none := .empty (.inl rfl) (.inl rfl)

/-- Whether parts are such, for computations. -/
def sameB : Nat → Option P → Option P → Bool
  | 0, _, _ => false
  | n + 1, x, y => match x, y with
    | none, none => true
    | none, some (.sc .nil) => true
    | some (.sc .nil), none => true
    | some (.sc x), some (.sc y) => decide (x = y)
    | some (.arr l), some (.arr l') => decide (l.length = l'.length) && (l.zip l').all fun p => sameB n (some p.1) (some p.2)
    | some (.obj m), some (.obj m') => (m.map Prod.fst ++ m'.map Prod.fst).all fun k => sameB n (GMap.get k m) (GMap.get k m')
    | _, _ => false

theorem get_none {m : List (Str × P)} {k : Str} (h : k ∉ m.map Prod.fst) : GMap.get k m = none := by
  cases e : GMap.get k m with
  | none => rfl
  | some v => exact absurd (List.mem_map_of_mem (f := Prod.fst) (GMap.get_some_mem e)) h

theorem sameB_sound : ∀ {n : Nat} {x y : Option P}, sameB n x y = true → NullSame x y := by
  intro n
  induction n with
  | zero => intro x y h; cases h
  | succ n ih =>
    intro x y h
    unfold sameB at h
    split at h
    · exact none_none
    · exact none_nil
    · exact nil_none
    · rw [of_decide_eq_true h]
      exact .sc _
    · rw [Bool.and_eq_true, List.all_eq_true] at h
      refine .arr (of_decide_eq_true h.1) fun i a b ha hb => ?_
      exact ih (h.2 (a, b) (List.mem_of_getElem? (i := i) (List.getElem?_zip_eq_some.2 ⟨ha, hb⟩)))
    · rename_i m m'
      rw [List.all_eq_true] at h
      refine .obj fun k => ?_
      by_cases hk : k ∈ m.map Prod.fst ++ m'.map Prod.fst
      · exact ih (h k hk)
      · rw [List.mem_append, not_or] at hk
        rw [get_none hk.1, get_none hk.2]
        exact none_none
    · cases h

theorem fill : FillSchema g!"t" sc := C140ex.fillSchema_of (n := 6) (simpleSchemaB_sound (ident := g!"t") (n := 6) (by decide +kernel)).noDefault (by decide +kernel) (by decide +kernel)
theorem fill_free : FillSchema g!"t" free := C140ex.fillSchema_of (n := 6) (simpleSchemaB_sound (ident := g!"t") (n := 6) (by decide +kernel)).noDefault (by decide +kernel) (by decide +kernel)

def defaultB (q : P) : Bool := match q.key g!"default" with
  | none => true
  | some (.sc _) => true
  | _ => false

theorem default_of {sc : Schema} (hc : checkSchema defaultB 6 sc = true) {q : P} (hq : SchemaInst sc q) : ScalarDefault q := by
  have h : defaultB q = true := checkSchema_sound hc hq
  unfold defaultB at h
  intro d hd
  rw [hd] at h
  rcases d with z | l | m
  · exact ⟨z, rfl⟩
  · cases h
  · cases h

def usualB (q : P) : Bool := match fieldType q with
  | .ok (ty, _) => decide (ty = g!"array" ∨ ty = g!"boolean" ∨ ty = g!"number" ∨ ty = g!"integer" ∨ ty = g!"string") ||
      decide (ty = g!"object") && (match q.key g!"properties" with | some (.obj (_ :: _)) => true | _ => false)
  | _ => true

theorem usual {q : P} (hq : SchemaInst sc q) : UsualType q := by
  have h : usualB q = true := checkSchema_sound (f := usualB) (n := 6) (by decide +kernel) hq
  unfold usualB at h
  intro ty nu e
  rw [e] at h
  simp only [Bool.or_eq_true, Bool.and_eq_true, decide_eq_true_eq] at h
  rcases h with (h | h) | ⟨h, h'⟩
  · exact .inl h
  · exact .inr (.inr h)
  · refine .inr (.inl ⟨h, fun e => ?_⟩)
    rw [e] at h'
    cases h'

/-- The hypotheses of `C141_partial` are met by two documents with nulls at two depths, and the output is not empty. -/
example : ∃ t s0, newTransformer ⟨lib docs, Sched.id, .json⟩ sc g!"t" = .ok (t, s0) ∧ FillSchema g!"t" sc ∧ (∀ q, SchemaInst sc q → UsualType q ∧ ScalarDefault q) ∧
    (∃ p1 p2, (lib docs).parseJSON g!"1" = some p1 ∧ (lib docs).parseJSON g!"2" = some p2 ∧ p1 ≠ p2 ∧ NullSame (some (canon p1)) (some (canon p2))) ∧
    (transform ⟨lib docs, Sched.id, .json⟩ t g!"1" s0).1 = .ok g!"{a:5,d:\"D\",l:[{x:\"X\"}]}" := by
  have h : (match newTransformer ⟨lib docs, Sched.id, .json⟩ sc g!"t" with
    | .ok (t, s0) => decide ((transform ⟨lib docs, Sched.id, .json⟩ t g!"1" s0).1 = .ok g!"{a:5,d:\"D\",l:[{x:\"X\"}]}")
    | _ => false) = true := by decide +kernel
  split at h
  · rename_i t s0 hb
    exact ⟨t, s0, hb, fill, fun q hq => ⟨usual hq, default_of (by decide +kernel) hq⟩, ⟨_, _, rfl, rfl, by simp [o], sameB_sound (n := 6) (by decide +kernel)⟩, of_decide_eq_true h⟩
  · contradiction

theorem differ : (match newTransformer ⟨lib docs, Sched.id, .json⟩ free g!"t" with
    | .ok (t, s0) => decide ((transform ⟨lib docs, Sched.id, .json⟩ t g!"3" s0).1.toOption ≠ (transform ⟨lib docs, Sched.id, .json⟩ t g!"4" s0).1.toOption)
    | _ => false) = true := by decide +kernel
end C141ex

/-- C141 is false with objects without properties: their fields are kept as they are, also nulls. -/
theorem C141_refuted : ¬ C141_statement (fun ident sc => FillSchema ident sc ∧ ∀ q, SchemaInst sc q → ScalarDefault q) := by
  intro hc
  have h := C141ex.differ
  split at h
  · rename_i t s0 hb
    exact of_decide_eq_true h (hc _ Sched.id Sched.id Sched.id _ _ t s0 hb ⟨C141ex.fill_free, fun q hq => C141ex.default_of (by decide +kernel) hq⟩ g!"3" g!"4" _ _ rfl rfl
      (C141ex.sameB_sound (n := 6) (by decide +kernel)) [] []).2
  · contradiction

end JT
