import Verif.Props.C136
import Verif.Props.C91
/- C139: the order in which a schema lists properties. -/
namespace JT
open Spec

namespace Spec
/-- The same keywords apart from `items` and `properties`, in any order. -/
def SameKeywords (a b : P) : Prop := ∀ k, k ≠ g!"items" → k ≠ g!"properties" → a.key k = b.key k

/-- Two instances of schemas with the same keywords and properties, listed in different orders at any depth. -/
inductive Reordered : P → P → Prop where
  | same {p : P} : Reordered p p
  | scalar {a b : P} {ty : Str} {nu : Bool} : SameKeywords a b → fieldType a = .ok (ty, nu) → ty ≠ g!"array" → ty ≠ g!"object" → Reordered a b
  | array {a b ia ib : P} {nu : Bool} : SameKeywords a b → fieldType a = .ok (g!"array", nu) → a.key g!"items" = some ia → b.key g!"items" = some ib →
      Reordered ia ib → Reordered a b
  | object {a b : P} {ma mb : List (Str × P)} {nu : Bool} : SameKeywords a b → fieldType a = .ok (g!"object", nu) →
      a.key g!"properties" = some (.obj ma) → b.key g!"properties" = some (.obj mb) → (ma.map Prod.fst).Perm (mb.map Prod.fst) →
      (∀ k p q, (k, p) ∈ ma → (k, q) ∈ mb → Reordered p q) → Reordered a b

/-- The same for whole schemas.  (The properties at the top are a Go map: they have no order.) -/
inductive SchemaReordered : Schema → Schema → Prop where
  | object {m1 m2 : GMap P} {i : Option P} : m1.map Prod.fst = m2.map Prod.fst → (∀ k p q, (k, p) ∈ m1 → (k, q) ∈ m2 → Reordered p q) →
      SchemaReordered ⟨some m1, i⟩ ⟨some m2, i⟩
  | array {i1 i2 : P} : Reordered i1 i2 → SchemaReordered ⟨none, some i1⟩ ⟨none, some i2⟩
end Spec

/-- **C139** for schemas that satisfy `cov`: schemas that differ only in the order of properties and keywords give the same outputs. -/
def C139_statement (cov : Format → Str → Schema → Prop) : Prop :=
  ∀ (lib : Lib) (fmt : Format) (b1 b2 r1 r2 : Sched) (ident : Str) (sc1 sc2 : Schema) (t1 t2 : T) (s1 s2 : St), SchemaReordered sc1 sc2 →
    cov fmt ident sc1 → cov fmt ident sc2 →
    newTransformer ⟨lib, b1, fmt⟩ sc1 ident = .ok (t1, s1) → newTransformer ⟨lib, b2, fmt⟩ sc2 ident = .ok (t2, s2) →
    ∀ raw : Str, (transform ⟨lib, r1, fmt⟩ t1 raw s1).1.toOption = (transform ⟨lib, r2, fmt⟩ t2 raw s2).1.toOption

theorem get_foldl_fun {g : Str → P} (k : Str) : ∀ (L : List (Str × P)) (acc : GMap P), (∀ x ∈ L, x.2 = g x.1) →
    GMap.get k (L.foldl (fun m kv => GMap.set kv.1 kv.2 m) acc) = if k ∈ L.map Prod.fst then some (g k) else GMap.get k acc
  | [], acc, _ => by simp
  | (k', v) :: L, acc, h => by
    rw [List.foldl_cons, get_foldl_fun k L _ fun x hx => h x (List.mem_cons_of_mem _ hx), GMap.get_set]
    have hv := h _ List.mem_cons_self
    dsimp only at hv
    subst hv
    by_cases h1 : k ∈ L.map Prod.fst
    · have : k ∈ ((k', g k') :: L).map Prod.fst := by rw [List.map_cons]; exact List.mem_cons_of_mem _ h1
      rw [if_pos h1, if_pos this]
    · by_cases h2 : k = k'
      · subst h2; simp
      · simp [h1, h2]

/-- What is there, of values given by a function. -/
theorem present_fun {g : Str → P} {ks : List Str} : ∀ x ∈ (ks.map fun k => (k, g k)).filter (fun kv => !isNilP kv.2), x.2 = g x.1 := by
  intro x hx
  obtain ⟨k, _, rfl⟩ := List.mem_map.1 (List.mem_filter.1 hx).1
  rfl

theorem present_keys {g : Str → P} {ks : List Str} {k : Str} :
    k ∈ ((ks.map fun k => (k, g k)).filter (fun kv => !isNilP kv.2)).map Prod.fst ↔ k ∈ ks ∧ isNilP (g k) = false := by
  rw [List.mem_map]
  constructor
  · rintro ⟨x, hx, rfl⟩
    obtain ⟨h1, h2⟩ := List.mem_filter.1 hx
    obtain ⟨k, hk, rfl⟩ := List.mem_map.1 h1
    exact ⟨hk, by simpa using h2⟩
  · rintro ⟨h1, h2⟩
    exact ⟨(k, g k), List.mem_filter.2 ⟨List.mem_map.2 ⟨k, h1, rfl⟩, by simpa using h2⟩, rfl⟩

theorem ofList_reorder {g : Str → P} {ks1 ks2 : List Str} (m : List (Str × P)) (h : ∀ k, k ∈ ks1 ↔ k ∈ ks2) :
    GMap.ofList (m ++ (ks1.map fun k => (k, g k)).filter fun kv => !isNilP kv.2) = GMap.ofList (m ++ (ks2.map fun k => (k, g k)).filter fun kv => !isNilP kv.2) := by
  refine GMap.Sorted.ext (GMap.sorted_ofList _) (GMap.sorted_ofList _) fun k => ?_
  unfold GMap.ofList
  rw [List.foldl_append, List.foldl_append, get_foldl_fun k _ _ present_fun, get_foldl_fun k _ _ present_fun]
  simp only [present_keys, h k]

theorem objectOver_reorder {g : Str → P} {ks1 ks2 : List Str} (d : P) (h : ∀ k, k ∈ ks1 ↔ k ∈ ks2) :
    objectOver d (ks1.map fun k => (k, g k)) = objectOver d (ks2.map fun k => (k, g k)) := by
  have e : ∀ m : List (Str × P), (m ++ (ks1.map fun k => (k, g k)).filter fun kv => !isNilP kv.2).isEmpty =
      (m ++ (ks2.map fun k => (k, g k)).filter fun kv => !isNilP kv.2).isEmpty := by
    intro m
    exact (isEmpty_ofList _).symm.trans ((congrArg List.isEmpty (ofList_reorder m h)).trans (isEmpty_ofList _))
  have ho : objectOf (ks1.map fun k => (k, g k)) = objectOf (ks2.map fun k => (k, g k)) := by
    have e0 := e []
    have l0 := ofList_reorder (g := g) [] h
    rw [List.nil_append, List.nil_append] at e0 l0
    unfold objectOf
    dsimp only
    rw [e0, l0]
  cases d with
  | sc _ => exact ho
  | arr _ => exact ho
  | obj m =>
    unfold objectOver
    dsimp only
    rw [e m, ofList_reorder m h]

/-- The fields of an object may be evaluated in any order. -/
theorem values_reorder {f : Str → Option P} {ks1 ks2 : List Str} (d : P) (h : ∀ k, k ∈ ks1 ↔ k ∈ ks2) :
    (optAll (fun k => (f k).map fun p => (k, p)) ks1).map (objectOver d) = (optAll (fun k => (f k).map fun p => (k, p)) ks2).map (objectOver d) := by
  by_cases hn : ∃ k ∈ ks1, f k = none
  · obtain ⟨k, hk, e⟩ := hn
    rw [optAll_none ⟨k, hk, by rw [e]; rfl⟩, optAll_none ⟨k, (h k).1 hk, by rw [e]; rfl⟩]
  · have hs : ∀ k ∈ ks1, (f k).map (fun p => (k, p)) = some (k, (f k).getD nilP) := by
      intro k hk
      rcases hf : f k with _ | p
      · exact absurd ⟨k, hk, hf⟩ hn
      · rfl
    rw [optAll_some (g := fun k => (k, (f k).getD nilP)) hs, optAll_some (g := fun k => (k, (f k).getD nilP)) fun k hk => hs k ((h k).2 hk)]
    show some _ = some _
    rw [objectOver_reorder d h]

theorem objectOver_nil : objectOver nilP = objectOf := by funext kvs; rfl

theorem SameKeywords_fieldType {a b : P} (h : SameKeywords a b) : fieldType a = fieldType b := by
  unfold fieldType; rw [h g!"type" (by decide) (by decide)]

theorem SameKeywords_scalarType {a b : P} (h : SameKeywords a b) (ty : Str) : scalarType a ty = scalarType b ty := by
  unfold scalarType; rw [h g!"format" (by decide) (by decide)]

theorem SameKeywords_transformed {lib : Lib} {ident : Str} {inp a b : P} {up : Str} {sub : Mod} {ty : Str} {r : Res P} (h : SameKeywords a b)
    (ht : Transformed lib ident inp a up sub ty r) : Transformed lib ident inp b up sub ty r := by
  have e := h g!"transform" (by decide) (by decide)
  cases ht with
  | none h1 => exact .none (e ▸ h1)
  | empty h1 => exact .empty (e ▸ h1)
  | some h1 h2 h3 => exact .some (e ▸ h1) h2 h3

theorem SameKeywords_noTransform {ident : Str} {a b : P} (h : SameKeywords a b) : NoTransform ident a ↔ NoTransform ident b := by
  unfold NoTransform; rw [h g!"transform" (by decide) (by decide)]

theorem SameKeywords_xtransformed {lib : Lib} {ident : Str} {n : NodeId} {a b : P} {up : Str} {sub : Mod} {ty : Str} {r : Res P} (h : SameKeywords a b)
    (ht : XTransformed lib ident n a up sub ty r) : XTransformed lib ident n b up sub ty r := by
  have e := h g!"transform" (by decide) (by decide)
  cases ht with
  | none h1 => exact .none ((SameKeywords_noTransform h).1 h1)
  | some h1 h2 h3 => exact .some (e ▸ h1) h2 h3

theorem SameKeywords_default {a b : P} (h : SameKeywords a b) : a.key g!"default" = b.key g!"default" := h g!"default" (by decide) (by decide)

theorem keys_mem {ma mb : List (Str × P)} (h : (ma.map Prod.fst).Perm (mb.map Prod.fst)) {k : Str} {q : P} (hq : (k, q) ∈ mb) : ∃ p, (k, p) ∈ ma := by
  obtain ⟨⟨k', p⟩, hp, e⟩ := List.mem_map.1 ((h.mem_iff).2 (List.mem_map.2 ⟨_, hq, rfl⟩))
  cases e
  exact ⟨p, hp⟩

theorem keys_nil {ma mb : List (Str × P)} (h : (ma.map Prod.fst).Perm (mb.map Prod.fst)) (hb : mb = []) : ma = [] := by
  subst hb
  exact List.map_eq_nil_iff.1 (List.perm_nil.1 h)

/-- Reordered instances have the same value. -/
theorem Val_reorder {lib : Lib} {ident : Str} {inp a : P} {up sp cp : Str} {sub : Mod} {r : Option P} (h : Val lib ident inp a up sp cp sub r) :
    ∀ {b : P}, Reordered a b → Val lib ident inp b up sp cp sub r := by
  induction h with
  | @scalar a up sp cp sub ty0 ty nu tr h1 h2 h3 h4 h5 =>
    intro b hr
    cases hr with
    | same => exact .scalar h1 h2 h3 h4 h5
    | scalar hk ht _ ho =>
      rw [h1] at ht
      cases ht
      rw [SameKeywords_default hk]
      exact .scalar (SameKeywords_fieldType hk ▸ h1) h2 (fun e => absurd e ho) (SameKeywords_scalarType hk _ ▸ h4) (SameKeywords_transformed hk h5)
    | array hk ht => rw [h1] at ht; cases ht; exact absurd rfl h2
    | @object _ _ ma mb _ hk ht ha hb hp _ =>
      rw [h1] at ht
      cases ht
      rw [h3 rfl] at ha
      cases ha
      have : mb = [] := keys_nil hp.symm rfl
      subst this
      rw [SameKeywords_default hk]
      exact .scalar (SameKeywords_fieldType hk ▸ h1) h2 (fun _ => hb) (SameKeywords_scalarType hk _ ▸ h4) (SameKeywords_transformed hk h5)
  | @array a up sp cp sub nu items f h1 h2 h3 ih =>
    intro b hr
    cases hr with
    | same => exact .array h1 h2 h3
    | scalar hk ht hn => rw [h1] at ht; cases ht; exact absurd rfl hn
    | array hk ht ha hb hi =>
      rw [h2] at ha
      cases ha
      exact .array (SameKeywords_fieldType hk ▸ h1) hb fun i => ih i hi
    | object hk ht => rw [h1] at ht; cases ht
  | @object a up sp cp sub nu m f h1 h2 h3 h4 ih =>
    intro b hr
    cases hr with
    | same => exact .object h1 h2 h3 h4
    | scalar hk ht _ hn => rw [h1] at ht; cases ht; exact absurd rfl hn
    | array hk ht => rw [h1] at ht; cases ht
    | @object _ _ ma mb _ hk ht ha hb hp hq =>
      rw [h2] at ha
      cases ha
      have e := values_reorder (f := f) nilP fun k => hp.mem_iff (a := k)
      rw [objectOver_nil] at e
      rw [e]
      refine .object (SameKeywords_fieldType hk ▸ h1) hb (fun e => h3 (keys_nil hp e)) fun k q hkq => ?_
      obtain ⟨p, hpm⟩ := keys_mem hp hkq
      exact ih k p hpm (hq k p q hpm hkq)

/-- The same for XML input. -/
theorem XVal_reorder {lib : Lib} {ident : Str} {n : NodeId} {a : P} {upS upC sp cp : Str} {sub : Mod} {r : Option P}
    (h : XVal lib ident n a upS upC sp cp sub r) : ∀ {b : P}, Reordered a b → XVal lib ident n b upS upC sp cp sub r := by
  have hd : ∀ {a b : P}, SameKeywords a b → defaultOf a = defaultOf b := by
    intro a b hk; unfold defaultOf; rw [SameKeywords_default hk]
  induction h with
  | @scalar n a upS upC sp cp sub ty0 ty nu tr h1 h2 h3 h4 h5 =>
    intro b hr
    cases hr with
    | same => exact .scalar h1 h2 h3 h4 h5
    | scalar hk ht _ ho =>
      rw [h1] at ht
      cases ht
      rw [hd hk]
      exact .scalar (SameKeywords_fieldType hk ▸ h1) h2 (fun e => absurd e ho) (SameKeywords_scalarType hk _ ▸ h4) (SameKeywords_xtransformed hk h5)
    | array hk ht => rw [h1] at ht; cases ht; exact absurd rfl h2
    | @object _ _ ma mb _ hk ht ha hb hp _ =>
      rw [h1] at ht
      cases ht
      rw [h3 rfl] at ha
      cases ha
      have : mb = [] := keys_nil hp.symm rfl
      subst this
      rw [hd hk]
      exact .scalar (SameKeywords_fieldType hk ▸ h1) h2 (fun _ => hb) (SameKeywords_scalarType hk _ ▸ h4) (SameKeywords_xtransformed hk h5)
  | array h1 h2 h3 h4 ih =>
    intro b hr
    cases hr with
    | same => exact .array h1 h2 h3 h4
    | scalar hk ht hn => rw [h1] at ht; cases ht; exact absurd rfl hn
    | array hk ht ha hb hi =>
      rw [h2] at ha
      cases ha
      rw [hd hk]
      exact .array (SameKeywords_fieldType hk ▸ h1) hb (SameKeywords_xtransformed hk h3) fun i m => ih i m hi
    | object hk ht => rw [h1] at ht; cases ht
  | @object n a upS upC sp cp sub nu m f h1 h2 h3 h4 h5 ih =>
    intro b hr
    cases hr with
    | same => exact .object h1 h2 h3 h4 h5
    | scalar hk ht _ hn => rw [h1] at ht; cases ht; exact absurd rfl hn
    | array hk ht => rw [h1] at ht; cases ht
    | @object _ _ ma mb _ hk ht ha hb hp hq =>
      rw [h2] at ha
      cases ha
      rw [values_reorder (f := f) _ fun k => hp.mem_iff (a := k), hd hk]
      refine .object (SameKeywords_fieldType hk ▸ h1) hb (fun e => h3 (keys_nil hp e)) ((SameKeywords_noTransform hk).1 h4) fun k q hkq => ?_
      obtain ⟨p, hpm⟩ := keys_mem hp hkq
      exact ih k p hpm (hq k p q hpm hkq)
  | @objectAt n n' a upS upC sp cp sub nu m f v h1 h2 h3 h4 h5 h6 h7 ih =>
    intro b hr
    cases hr with
    | same => exact .objectAt h1 h2 h3 h4 h5 h6 h7
    | scalar hk ht _ hn => rw [h1] at ht; cases ht; exact absurd rfl hn
    | array hk ht => rw [h1] at ht; cases ht
    | @object _ _ ma mb _ hk ht ha hb hp hq =>
      rw [h2] at ha
      cases ha
      rw [values_reorder (f := f) _ fun k => hp.mem_iff (a := k), hd hk]
      refine .objectAt (SameKeywords_fieldType hk ▸ h1) hb (fun e => h3 (keys_nil hp e)) (fun e => h4 ((SameKeywords_noTransform hk).2 e))
        (SameKeywords_xtransformed hk h5) h6 fun k q hkq => ?_
      obtain ⟨p, hpm⟩ := keys_mem hp hkq
      exact ih k p hpm (hq k p q hpm hkq)
  | objectAbsent h1 h2 h3 h4 h5 h6 =>
    intro b hr
    cases hr with
    | same => exact .objectAbsent h1 h2 h3 h4 h5 h6
    | scalar hk ht _ hn => rw [h1] at ht; cases ht; exact absurd rfl hn
    | array hk ht => rw [h1] at ht; cases ht
    | object hk ht ha hb hp hq =>
      rw [h2] at ha
      cases ha
      rw [hd hk]
      exact .objectAbsent (SameKeywords_fieldType hk ▸ h1) hb (fun e => h3 (keys_nil hp e)) (fun e => h4 ((SameKeywords_noTransform hk).2 e))
        (SameKeywords_xtransformed hk h5) h6
  | objectFails h1 h2 h3 h4 h5 h6 =>
    intro b hr
    cases hr with
    | same => exact .objectFails h1 h2 h3 h4 h5 h6
    | scalar hk ht _ hn => rw [h1] at ht; cases ht; exact absurd rfl hn
    | array hk ht => rw [h1] at ht; cases ht
    | object hk ht ha hb hp hq =>
      rw [h2] at ha
      cases ha
      exact .objectFails (SameKeywords_fieldType hk ▸ h1) hb (fun e => h3 (keys_nil hp e)) (fun e => h4 ((SameKeywords_noTransform hk).2 e))
        (SameKeywords_xtransformed hk h5) h6

theorem SchemaVal_reorder {lib : Lib} {ident : Str} {inp : P} {sc1 sc2 : Schema} {r : Option P} (hr : SchemaReordered sc1 sc2)
    (h : SchemaVal lib ident inp sc1 r) : SchemaVal lib ident inp sc2 r := by
  cases hr with
  | @object m1 m2 i hm hq =>
    cases h with
    | object h1 h2 =>
      cases h1
      rw [hm]
      refine .object rfl fun k q hkq => ?_
      obtain ⟨p, hp⟩ := keys_mem (ma := m1) (mb := m2) (hm ▸ .refl _) hkq
      exact Val_reorder (h2 k p hp) (hq k p q hp hkq)
    | array h1 => cases h1
  | array hi =>
    cases h with
    | object h1 => cases h1
    | array h1 h2 h3 => cases h2; exact .array rfl rfl fun i => Val_reorder (h3 i) hi

theorem XSchemaVal_reorder {lib : Lib} {ident : Str} {n : NodeId} {sc1 sc2 : Schema} {r : Option P} (hr : SchemaReordered sc1 sc2)
    (h : XSchemaVal lib ident n sc1 r) : XSchemaVal lib ident n sc2 r := by
  cases hr with
  | @object m1 m2 i hm hq =>
    cases h with
    | object h1 h2 =>
      cases h1
      rw [hm]
      refine .object rfl fun k q hkq => ?_
      obtain ⟨p, hp⟩ := keys_mem (ma := m1) (mb := m2) (hm ▸ .refl _) hkq
      exact XVal_reorder (h2 k p hp) (hq k p q hp hkq)
    | array h1 => cases h1
  | array hi =>
    cases h with
    | object h1 => cases h1
    | array h1 h2 => exact .array rfl rfl

/-- **C139**, partial: for JSON input arrays and objects have neither default nor transform, for XML input objects have no default; no method `last`
and no clock.  Missing: the other schemas, for which it is false (`C139_refuted`). -/
theorem C139_partial : C139_statement Separate := by
  intro lib fmt b1 b2 r1 r2 ident sc1 sc2 t1 t2 s1 s2 hr hc1 hc2 hb1 hb2 raw
  cases fmt with
  | json =>
    obtain ⟨v1, a1, e1⟩ := transform_output (r := r1) hb1 (hc1.1 rfl) raw
    obtain ⟨v2, a2, e2⟩ := transform_output (r := r2) hb2 (hc2.1 rfl) raw
    rw [e1, e2]
    rcases hp : lib.parseJSON raw with _ | p
    · rfl
    · rw [SchemaVal.unique (SchemaVal_reorder hr (a1 p hp)) (a2 p hp)]
  | xml =>
    obtain ⟨n1, a1⟩ := C77_partial (r := r1) hb1 (hc1.2 rfl) raw
    obtain ⟨n2, a2⟩ := C77_partial (r := r2) hb2 (hc2.2 rfl) raw
    rcases hp : lib.parseXML raw with _ | n
    · rw [(n1 hp).1, (n2 hp).1]
    · obtain ⟨v1, x1, _, _, e1⟩ := a1 n hp
      obtain ⟨v2, x2, u2, _, e2⟩ := a2 n hp
      rw [e1, e2, u2 v1 (XSchemaVal_reorder hr x1)]

/-! ### Which schemas are accepted -/

theorem Reordered_symm {a b : P} (h : Reordered a b) : Reordered b a := by
  induction h with
  | same => exact .same
  | scalar hk ht h1 h2 => exact .scalar (fun k a b => (hk k a b).symm) (SameKeywords_fieldType hk ▸ ht) h1 h2
  | array hk ht ha hb _ ih => exact .array (fun k a b => (hk k a b).symm) (SameKeywords_fieldType hk ▸ ht) hb ha ih
  | object hk ht ha hb hp _ ih =>
    exact .object (fun k a b => (hk k a b).symm) (SameKeywords_fieldType hk ▸ ht) hb ha hp.symm fun k p q hp hq => ih k q p hq hp

theorem SchemaReordered_symm {sc1 sc2 : Schema} (h : SchemaReordered sc1 sc2) : SchemaReordered sc2 sc1 := by
  cases h with
  | object hm hq => exact .object hm.symm fun k p q hp hq' => Reordered_symm (hq k q p hq' hp)
  | array hi => exact .array (Reordered_symm hi)

/-- The contents of reordered instances. -/
theorem Reordered_node {a b : P} (h : Reordered a b) : a = b ∨ (SameKeywords a b ∧
    ((rawNode a = some .leaf ∧ rawNode b = some .leaf) ∨ (∃ ia ib, rawNode a = some (.array ia) ∧ rawNode b = some (.array ib) ∧ Reordered ia ib) ∨
      ∃ ma mb, a.key g!"properties" = some (.obj ma) ∧ b.key g!"properties" = some (.obj mb) ∧ rawNode a = some (.object ma) ∧ rawNode b = some (.object mb) ∧
        (ma.map Prod.fst).Perm (mb.map Prod.fst) ∧ ∀ k p q, (k, p) ∈ ma → (k, q) ∈ mb → Reordered p q)) := by
  cases h with
  | same => exact .inl rfl
  | scalar hk ht h1 h2 =>
    have hb := SameKeywords_fieldType hk ▸ ht
    refine .inr ⟨hk, .inl ⟨?_, ?_⟩⟩
    · unfold rawNode; rw [ht]; simp only [if_neg h2, if_neg h1]
    · unfold rawNode; rw [hb]; simp only [if_neg h2, if_neg h1]
  | @array _ _ ia ib _ hk ht ha hb hi =>
    have ht' := SameKeywords_fieldType hk ▸ ht
    refine .inr ⟨hk, .inr (.inl ⟨ia, ib, ?_, ?_, hi⟩)⟩
    · unfold rawNode; rw [ht, ha]; rfl
    · unfold rawNode; rw [ht', hb]; rfl
  | @object _ _ ma mb _ hk ht ha hb hp hq =>
    have ht' := SameKeywords_fieldType hk ▸ ht
    refine .inr ⟨hk, .inr (.inr ⟨ma, mb, ha, hb, ?_, ?_, hp, hq⟩)⟩
    · unfold rawNode; rw [ht, ha]; rfl
    · unfold rawNode; rw [ht', hb]; rfl

/-- Reordered schemas have reordered instances at the same positions. -/
theorem At_reorder {b r : P} {l : List Seg} (h : At rawNode b l r) : ∀ {a : P}, Reordered a b → ∃ r', At rawNode a l r' ∧ Reordered r' r := by
  induction h with
  | here => intro a hr; exact ⟨a, .here, hr⟩
  | prop h1 h2 h3 ih =>
    intro a hr
    rcases Reordered_node hr with rfl | ⟨_, ⟨_, e⟩ | ⟨_, _, _, e, _⟩ | ⟨ma, mb, _, _, ea, e, hp, hq⟩⟩
    · exact ⟨_, .prop h1 h2 h3, .same⟩
    · rw [h1] at e; cases e
    · rw [h1] at e; cases e
    · rw [h1] at e
      cases e
      obtain ⟨p, hpm⟩ := keys_mem hp h2
      obtain ⟨r', hr', hrr⟩ := ih (hq _ p _ hpm h2)
      exact ⟨r', .prop ea hpm hr', hrr⟩
  | item h1 h2 ih =>
    intro a hr
    rcases Reordered_node hr with rfl | ⟨_, ⟨_, e⟩ | ⟨ia, ib, ea, e, hi⟩ | ⟨_, _, _, _, _, e, _⟩⟩
    · exact ⟨_, .item h1 h2, .same⟩
    · rw [h1] at e; cases e
    · rw [h1] at e
      cases e
      obtain ⟨r', hr', hrr⟩ := ih hi
      exact ⟨r', .item ea hr', hrr⟩
    · rw [h1] at e; cases e

theorem SchemaAt_reorder {sc1 sc2 : Schema} {l : List Seg} {r : P} (hr : SchemaReordered sc1 sc2) (h : SchemaAt rawNode sc2 l r) :
    (∃ r', SchemaAt rawNode sc1 l r' ∧ Reordered r' r) := by
  cases hr with
  | @object m1 m2 i hm hq =>
    cases h with
    | prop h1 h2 h3 =>
      cases h1
      obtain ⟨p, hp⟩ := keys_mem (ma := m1) (mb := m2) (hm ▸ .refl _) h2
      obtain ⟨r', hr', hrr⟩ := At_reorder h3 (hq _ p _ hp h2)
      exact ⟨r', .prop rfl hp hr', hrr⟩
    | item h1 h2 => exact ⟨r, .item h1 h2, .same⟩
  | array hi =>
    cases h with
    | prop h1 => cases h1
    | item h1 h2 =>
      cases h1
      obtain ⟨r', hr', hrr⟩ := At_reorder h2 hi
      exact ⟨r', .item rfl hr', hrr⟩

theorem InstanceAccepted_reorder {lib : Lib} {ident : Str} {a b : P} (hr : Reordered a b) (h : InstanceAccepted lib ident a) : InstanceAccepted lib ident b := by
  rcases Reordered_node hr with rfl | ⟨hk, hn⟩
  · exact h
  · have ht := SameKeywords_fieldType hk
    have hd := SameKeywords_default hk
    refine ⟨fun p hp => h.transform p ?_, fun nu hf d hdd => h.array nu (ht ▸ hf) d (hd ▸ hdd), fun nu hf hne d hdd => h.object nu (ht ▸ hf) ?_ d (hd ▸ hdd),
      fun nu hf f hff => h.format nu (ht ▸ hf) f (hk g!"format" (by decide) (by decide) ▸ hff)⟩
    · unfold transformFor at hp ⊢
      rw [hk g!"transform" (by decide) (by decide)]; exact hp
    · have hf' : fieldType a = .ok (g!"object", nu) := ht ▸ hf
      rcases hn with ⟨e, _⟩ | ⟨_, _, e, _⟩ | ⟨ma, mb, ea, eb, _, _, hp, _⟩
      · exfalso
        unfold rawNode at e
        rw [hf'] at e
        dsimp only at e
        rw [if_pos rfl] at e
        split at e <;> cases e
      · exfalso
        unfold rawNode at e
        rw [hf'] at e
        dsimp only at e
        rw [if_pos rfl] at e
        split at e <;> cases e
      · rw [ea]
        intro e
        cases e
        rw [eb, keys_nil hp.symm rfl] at hne
        exact hne rfl

theorem SchemaAccepted_reorder {lib : Lib} {ident : Str} {sc1 sc2 : Schema} (hr : SchemaReordered sc1 sc2) (h : SchemaAccepted lib ident sc1) :
    SchemaAccepted lib ident sc2 := by
  refine ⟨?_, fun l q hq => ?_, fun l q hq => ?_⟩
  · have := h.top
    cases hr with
    | object _ _ => exact this
    | array _ => simp
  · obtain ⟨r', hr', hrr⟩ := SchemaAt_reorder hr hq
    have := h.read l r' hr'
    rcases Reordered_node hrr with rfl | ⟨_, ⟨_, e⟩ | ⟨_, _, _, e, _⟩ | ⟨_, _, _, _, _, e, _⟩⟩
    · exact this
    · rw [e]; exact fun e => nomatch e
    · rw [e]; exact fun e => nomatch e
    · rw [e]; exact fun e => nomatch e
  · obtain ⟨r', hr', hrr⟩ := SchemaAt_reorder hr hq
    exact InstanceAccepted_reorder hrr (h.each l r' hr')

/-- Whether NewTransformer accepts a schema does not depend on the order of properties and keywords either, with plain names and whatever defaults and
transforms there are. -/
theorem C139_accepts_partial (env1 env2 : Env) (hlib : env1.lib = env2.lib) (ident : Str) (sc1 sc2 : Schema) (hr : SchemaReordered sc1 sc2)
    (h1 : PlainSchema sc1) (h2 : PlainSchema sc2) : (∃ r, newTransformer env1 sc1 ident = .ok r) ↔ ∃ r, newTransformer env2 sc2 ident = .ok r := by
  rw [C91_accepts_partial env1 sc1 ident h1, C91_accepts_partial env2 sc2 ident h2, hlib]
  exact ⟨SchemaAccepted_reorder hr, SchemaAccepted_reorder (SchemaReordered_symm hr)⟩

/-- Both together: a reordered schema is accepted as well and gives the same outputs. -/
theorem C139_whole_partial (lib : Lib) (fmt : Format) (b1 b2 : Sched) (ident : Str) (sc1 sc2 : Schema) (t1 : T) (s1 : St) (hr : SchemaReordered sc1 sc2)
    (hc1 : Separate fmt ident sc1) (hc2 : Separate fmt ident sc2) (hb : newTransformer ⟨lib, b1, fmt⟩ sc1 ident = .ok (t1, s1)) :
    ∃ t2 s2, newTransformer ⟨lib, b2, fmt⟩ sc2 ident = .ok (t2, s2) ∧ ∀ (r1 r2 : Sched) (raw : Str),
      (transform ⟨lib, r1, fmt⟩ t1 raw s1).1.toOption = (transform ⟨lib, r2, fmt⟩ t2 raw s2).1.toOption := by
  have plain : ∀ sc, Separate fmt ident sc → PlainSchema sc := by
    intro sc h
    cases fmt with
    | json => exact (h.1 rfl).plain
    | xml => exact (h.2 rfl).plain
  obtain ⟨⟨t2, s2⟩, h2⟩ := (C139_accepts_partial ⟨lib, b1, fmt⟩ ⟨lib, b2, fmt⟩ rfl ident sc1 sc2 hr (plain _ hc1) (plain _ hc2)).1 ⟨_, hb⟩
  exact ⟨t2, s2, h2, fun r1 r2 raw => C139_partial lib fmt b1 b2 r1 r2 ident sc1 sc2 t1 t2 s1 s2 hr hc1 hc2 hb h2 raw⟩

theorem SchemaReordered_refl {m : GMap P} {i : Option P} (h : (m.map Prod.fst).Nodup) : SchemaReordered ⟨some m, i⟩ ⟨some m, i⟩ :=
  .object rfl fun k p q hp hq => by
    have := (GMap.get_mem_nodup h hp).symm.trans (GMap.get_mem_nodup h hq)
    cases this
    exact .same

/-- C139 is false for all schemas with plain names: with transforms of arrays not even one schema always gives the same output (C03). -/
theorem C139_refuted : ¬ C139_statement (fun _ _ sc => PlainSchema sc) := by
  intro hc
  have h := C03ex.array_differs
  unfold C03ex.two at h
  split at h
  · rename_i t s0 hb
    have hp : PlainSchema C03ex.arraySc := ⟨by intro m hm; simp [C03ex.arraySc] at hm; subst hm; exact plainMapB_sound (by decide +kernel),
         fun q hq => plainPropsB_sound (checkSchema_sound (f := plainPropsB) (n := 5) (by decide +kernel) hq)⟩
    have := hc _ .json Sched.id Sched.id Sched.id Sched.rev _ C03ex.arraySc C03ex.arraySc t t s0 s0 (SchemaReordered_refl (by decide)) hp hp hb hb g!"in"
    split at h
    · rename_i x' y' hx hy
      simp only [Option.some.injEq, Prod.mk.injEq] at h
      rw [hx, hy] at this
      simp only [Res.toOption, Option.some.injEq] at this
      exact absurd (h.1.symm.trans (this.trans h.2)) (by decide)
    · contradiction
  · contradiction

namespace C139ex
open Toy

/-- The schema of `C03ex` with other orders of keywords and properties. -/
def other : Schema := ⟨some [
  (g!"l", o [(g!"items", o [(g!"properties", o [
    (g!"c", o [(g!"type", s g!"number"), (g!"default", i 7)]),
    (g!"b", o [(g!"transform", o [(g!"t", o [(g!"from", a [o [(g!"jsonPath", s g!"@.d")]])])]), (g!"type", s g!"string")])]), (g!"type", s g!"object")]),
    (g!"type", s g!"array")]),
  (g!"x", strFrom g!"concatenate" [g!"$.p", g!"$.q"])], none⟩

theorem keywords {m1 m2 : List (Str × P)} (h : ∀ k ∈ (m1 ++ m2).map Prod.fst, k ≠ g!"items" → k ≠ g!"properties" → GMap.get k m1 = GMap.get k m2) :
    SameKeywords (.obj m1) (.obj m2) := by
  intro k h1 h2
  show GMap.get k m1 = GMap.get k m2
  by_cases hk : k ∈ (m1 ++ m2).map Prod.fst
  · exact h k hk h1 h2
  · rw [List.map_append, List.mem_append, not_or] at hk
    rw [GMap.get_none_iff.2 hk.1, GMap.get_none_iff.2 hk.2]

theorem swapped {k1 k2 : Str} {p q p' : P} (hne : k1 ≠ k2) (h : k2 = g!"items" ∨ k2 = g!"properties" ∨ p = p') :
    SameKeywords (.obj [(k1, q), (k2, p)]) (.obj [(k2, p'), (k1, q)]) := by
  refine keywords fun k hk n1 n2 => ?_
  simp only [List.map_cons, List.map_nil, List.cons_append, List.nil_append, List.mem_cons, List.not_mem_nil, or_false] at hk
  have hk : k = k1 ∨ k = k2 := by rcases hk with rfl | rfl | rfl | rfl <;> simp
  rcases hk with rfl | rfl
  · simp [GMap.get, hne]
  · rcases h with e | e | e
    · exact absurd e n1
    · exact absurd e n2
    · simp [GMap.get, Ne.symm hne, e]

theorem two_of {k1 k2 : Str} {p1 p2 q1 q2 : P} (hne : k1 ≠ k2) (h1 : Reordered p1 q1) (h2 : Reordered p2 q2) :
    ∀ k p q, (k, p) ∈ [(k1, p1), (k2, p2)] → (k, q) ∈ [(k2, q2), (k1, q1)] → Reordered p q := by
  intro k p q hp hq
  simp only [List.mem_cons, Prod.mk.injEq, List.not_mem_nil, or_false] at hp hq
  rcases hp with ⟨rfl, rfl⟩ | ⟨rfl, rfl⟩ <;> rcases hq with ⟨e, rfl⟩ | ⟨e, rfl⟩
  · exact absurd e hne
  · exact h1
  · exact h2
  · exact absurd e.symm hne

theorem reordered : SchemaReordered C03ex.sc other := by
  refine .object rfl fun k p q hp hq => ?_
  simp only [List.mem_cons, Prod.mk.injEq, List.not_mem_nil, or_false] at hp hq
  rcases hp with ⟨rfl, rfl⟩ | ⟨rfl, rfl⟩ <;> rcases hq with ⟨e, rfl⟩ | ⟨e, rfl⟩
  · refine .array (nu := false) (swapped (by decide) (.inl rfl)) (by decide +kernel) rfl rfl ?_
    refine .object (nu := false) (swapped (by decide) (.inr (.inl rfl))) (by decide +kernel) rfl rfl (List.Perm.swap _ _ _) ?_
    exact two_of (by decide) (.scalar (ty := g!"string") (nu := false) (swapped (by decide) (.inr (.inr rfl))) (by decide +kernel) (by decide) (by decide)) .same
  · exact absurd e (by decide)
  · exact absurd e (by decide)
  · exact .same

/-- The hypotheses of `C139_partial` are met by different schemas, for JSON and XML. -/
example : SchemaReordered C03ex.sc other ∧ C03ex.sc ≠ other ∧ Separate .json g!"t" C03ex.sc ∧ Separate .json g!"t" other ∧ Separate .xml g!"t" other ∧
    (∃ t s0, newTransformer ⟨lib C03ex.docs, Sched.id, .json⟩ other g!"t" = .ok (t, s0) ∧
      (transform ⟨lib C03ex.docs, Sched.id, .json⟩ t g!"in" s0).1 = .ok g!"{l:[{b:\"D\",c:1},{b:\"E\",c:7}],x:\"PQ\"}") := by
  refine ⟨reordered, fun e => ?_, ⟨fun _ => C03ex.simple, fun e => by simp at e⟩,
    ⟨fun _ => simpleSchemaB_sound (n := 6) (by decide +kernel), fun e => by simp at e⟩,
    ⟨fun e => by simp at e, fun _ => xmlSchemaB_sound (n := 6) (by decide +kernel)⟩, ?_⟩
  · simp [C03ex.sc, other, o] at e
  · have h : (match newTransformer ⟨lib C03ex.docs, Sched.id, .json⟩ other g!"t" with
      | .ok (t, s0) => decide ((transform ⟨lib C03ex.docs, Sched.id, .json⟩ t g!"in" s0).1 = .ok g!"{l:[{b:\"D\",c:1},{b:\"E\",c:7}],x:\"PQ\"}")
      | _ => false) = true := by decide +kernel
    split at h
    · rename_i t s0 hb
      exact ⟨t, s0, hb, of_decide_eq_true h⟩
    · cases h

/-- The hypotheses of `C139_accepts_partial` are met by the same schemas, and the first is accepted. -/
example : SchemaReordered C03ex.sc other ∧ PlainSchema C03ex.sc ∧ PlainSchema other ∧ ∃ r, newTransformer ⟨lib C03ex.docs, Sched.id, .json⟩ C03ex.sc g!"t" = .ok r := by
  refine ⟨reordered, ⟨?_, fun q hq => plainPropsB_sound (checkSchema_sound (f := plainPropsB) (n := 5) (by decide +kernel) hq)⟩,
    ⟨?_, fun q hq => plainPropsB_sound (checkSchema_sound (f := plainPropsB) (n := 5) (by decide +kernel) hq)⟩, ?_⟩
  · intro m hm; simp [C03ex.sc] at hm; subst hm; exact plainMapB_sound (by decide +kernel)
  · intro m hm; simp [other] at hm; subst hm; exact plainMapB_sound (by decide +kernel)
  · have h : (match newTransformer ⟨lib C03ex.docs, Sched.id, .json⟩ C03ex.sc g!"t" with | .ok _ => true | _ => false) = true := by decide +kernel
    split at h
    · rename_i r hb
      exact ⟨r, hb⟩
    · cases h
end C139ex
end JT
