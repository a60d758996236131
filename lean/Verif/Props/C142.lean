import Verif.Props.C141
/- C142: a schema inside another one does what it does by itself. -/
namespace JT
open Spec

namespace Spec
/-- An object instance with the properties `m`. -/
def ObjectWith (q : P) (m : List (Str × P)) : Prop := (∃ nu, fieldType q = .ok (g!"object", nu)) ∧ q.key g!"properties" = some (.obj m) ∧ m ≠ []
end Spec

/-- **C142**, lists: the output for a list of documents is made from the values of the documents, each transformed by itself.  It fails if one of them does, and
documents without a value are left out. -/
def C142_statement (cov : Str → Schema → Prop) : Prop :=
  ∀ (lib : Lib) (b b' r r' : Sched) (ident : Str) (items : P) (m : GMap P) (t t' : T) (s0 s0' : St), newTransformer ⟨lib, b, .json⟩ ⟨none, some items⟩ ident = .ok (t, s0) →
    newTransformer ⟨lib, b', .json⟩ ⟨some m, none⟩ ident = .ok (t', s0') → ObjectWith items m → cov ident ⟨none, some items⟩ →
    ∀ (raw : Str) (raws : List Str) (ps : List P), lib.parseJSON raw = some (.arr ps) → raws.map lib.parseJSON = ps.map some → ∀ h : List (Env × Str),
    ∃ vs : Nat → Option P,
      (∀ (i : Nat) d, raws[i]? = some d → ∀ h' : List (Env × Str),
        (transformNoValidation ⟨lib, r', .json⟩ t' d (afterCalls t' h' s0')).1.toOption = (vs i).bind lib.marshal) ∧
      (transformNoValidation ⟨lib, r, .json⟩ t raw (afterCalls t h s0)).1.toOption = ((optAll vs (List.range raws.length)).map arrayOf).bind lib.marshal

/-- **C142**, properties: the fields for objects in a schema have the values that the fields of the input give with the schemas of these objects alone. -/
def C142_field_statement (cov : Str → Schema → Prop) : Prop :=
  ∀ (lib : Lib) (b r : Sched) (ident : Str) (ms : GMap P) (t : T) (s0 : St), newTransformer ⟨lib, b, .json⟩ ⟨some ms, none⟩ ident = .ok (t, s0) →
    cov ident ⟨some ms, none⟩ → ∀ (raw : Str) (p : P), lib.parseJSON raw = some p → ∀ h : List (Env × Str),
    ∃ vs : Str → Option P,
      (∀ (b' r' : Sched) (m : GMap P) (k : Str) (q : P) (t' : T) (s0' : St) (d : Str) (p' : P), (k, q) ∈ ms → ObjectWith q m →
        newTransformer ⟨lib, b', .json⟩ ⟨some m, none⟩ ident = .ok (t', s0') → lib.parseJSON d = some p' → (canon p).key k = some (canon p') → ∀ h' : List (Env × Str),
        (transformNoValidation ⟨lib, r', .json⟩ t' d (afterCalls t' h' s0')).1.toOption = (vs k).bind lib.marshal) ∧
      (transformNoValidation ⟨lib, r, .json⟩ t raw (afterCalls t h s0)).1.toOption =
        ((optAll (fun k => (vs k).map fun v => (k, v)) (ms.map Prod.fst)).map objectOf).bind lib.marshal

/-- The schema of an object in a schema. -/
theorem FillSchema_inner {ident : Str} {sc : Schema} {q : P} {m : GMap P} (h : FillSchema ident sc) (hq : SchemaInst sc q) (hm : q.key g!"properties" = some (.obj m)) :
    FillSchema ident ⟨some m, none⟩ ∧ ∀ q', SchemaInst ⟨some m, none⟩ q' → SchemaInst sc q' := by
  have inst : ∀ q', SchemaInst ⟨some m, none⟩ q' → SchemaInst sc q' := by
    rintro q' (⟨m', k, p, e, hk, hi⟩ | ⟨p, e, _⟩)
    · cases e
      have hi' : Inst q q' := Inst.trans (.prop (.self _) hm hk) hi
      rcases hq with ⟨m0, k0, p0, e0, hk0, hi0⟩ | ⟨p0, e0, hi0⟩
      · exact .inl ⟨m0, k0, p0, e0, hk0, Inst.trans hi0 hi'⟩
      · exact .inr ⟨p0, e0, Inst.trans hi0 hi'⟩
    · cases e
  refine ⟨⟨fun m' e => ?_, fun m' e => ?_, fun q' m' hq' => h.distinctIn q' m' (inst q' hq'), fun q' m' hq' => h.namesIn q' m' (inst q' hq'),
    fun q' hq' => h.noDefault q' (inst q' hq'), fun q' hq' => h.noTransform q' (inst q' hq')⟩, inst⟩
  · cases e
    exact h.distinctIn q m hq hm
  · cases e
    exact h.namesIn q m hq hm

/-- The value of an object instance is that of its schema. -/
theorem Filled_object {lib : Lib} {q : P} {m : GMap P} {x : P} {r : Option P} (ho : ObjectWith q m) (h : SchemaFilled lib x ⟨some m, none⟩ r) : Filled lib q (some x) r := by
  obtain ⟨⟨nu, h1⟩, h2, h3⟩ := ho
  cases h with
  | object e hf => cases e; exact .object h1 h2 h3 hf
  | array e => cases e

theorem canonList_map : ∀ l : List P, canonList l = l.map canon
  | [] => rfl
  | p :: ps => by rw [canonList, canonList_map ps]; rfl

theorem fill_state {env : Env} {sc : Schema} {ident : Str} {t : T} {s0 : St} (hb : newTransformer env sc ident = .ok (t, s0)) (hs : FillSchema ident sc)
    (hd : ∀ q, SchemaInst sc q → ScalarDefault q) (h : List (Env × Str)) : afterCalls t h s0 = s0 := by
  obtain ⟨hc, hcs⟩ := newTransformer_clean hb hd
    (fun q hq tr htr hm => by
      rcases hs.noTransform q hq with e | e
      · rw [e] at htr; cases htr
      · rw [e] at htr; cases htr; cases hm)
  exact afterCalls_state hc hcs h

/-- **C142** for lists, for schemas without transforms in which only scalars have defaults. -/
theorem C142_partial : C142_statement (fun ident sc => FillSchema ident sc ∧ ∀ q, SchemaInst sc q → ScalarDefault q) := by
  intro lib b b' r r' ident items m t t' s0 s0' hb hb' ho hs raw raws ps hp hps hist
  have hself : SchemaInst ⟨none, some items⟩ items := .inr ⟨items, rfl, .self _⟩
  obtain ⟨hin, hinst⟩ := FillSchema_inner hs.1 hself ho.2.1
  rw [fill_state hb hs.1 hs.2]
  have hlen : raws.length = ps.length := by simpa using congrArg List.length hps
  have hdoc : ∀ (i : Nat) d, raws[i]? = some d → ∃ p, ps[i]? = some p ∧ lib.parseJSON d = some p := by
    intro i d hd
    have e : (raws.map lib.parseJSON)[i]? = (ps.map some)[i]? := by rw [hps]
    simp only [List.getElem?_map, hd, Option.map_some] at e
    cases e' : ps[i]? with
    | none => rw [e'] at e; cases e
    | some p => rw [e'] at e; exact ⟨p, rfl, Option.some.inj e⟩
  have hv : ∀ i : Nat, ∃ v : Option P, ∀ d, raws[i]? = some d → ∃ p, ps[i]? = some p ∧ SchemaFilled lib (canon p) ⟨some m, none⟩ v ∧
      (transformNoValidation ⟨lib, r', .json⟩ t' d s0').1.toOption = v.bind lib.marshal := by
    intro i
    cases e : raws[i]? with
    | none => exact ⟨none, fun d h => nomatch h⟩
    | some d =>
      obtain ⟨p, h1, h2⟩ := hdoc i d e
      obtain ⟨v, g1, g2⟩ := C04_defaults_partial (env := ⟨lib, r', .json⟩) hb' hin rfl rfl h2
      exact ⟨v, fun d' hd' => by cases hd'; exact ⟨p, h1, g1, g2⟩⟩
  obtain ⟨vs, hvs⟩ := Classical.axiomOfChoice hv
  refine ⟨vs, fun i d hd h' => ?_, ?_⟩
  · rw [fill_state hb' hin (fun q hq => hs.2 q (hinst q hq))]
    obtain ⟨_, _, _, h⟩ := hvs i d hd
    exact h
  · obtain ⟨v, g1, g2⟩ := C04_defaults_partial (env := ⟨lib, r, .json⟩) hb hs.1 rfl rfl hp
    have e : itemsOf (some (canon (.arr ps))) = ps.map fun p => some (canon p) := by
      show (canonList ps).map some = _
      rw [canonList_map, List.map_map]
      rfl
    have hl : SchemaFilled lib (canon (.arr ps)) ⟨none, some items⟩ ((optAll vs (List.range (itemsOf (some (canon (.arr ps)))).length)).map arrayOf) := by
      refine .array rfl rfl fun i y hy => ?_
      rw [e, List.getElem?_map, Option.map_eq_some_iff] at hy
      obtain ⟨p, hp', rfl⟩ := hy
      have hi : i < raws.length := hlen ▸ (List.getElem?_eq_some_iff.1 hp').1
      obtain ⟨p2, k1, k2, _⟩ := hvs i _ (List.getElem?_eq_getElem hi)
      rw [hp'] at k1
      cases k1
      exact Filled_object ho k2
    rw [e, List.length_map, ← hlen] at hl
    cases SchemaFilled_unique g1 hl
    exact g2

/-- **C142** for properties. -/
theorem C142_field_partial : C142_field_statement (fun ident sc => FillSchema ident sc ∧ ∀ q, SchemaInst sc q → ScalarDefault q) := by
  intro lib b r ident ms t s0 hb hs raw p hp hist
  rw [fill_state hb hs.1 hs.2]
  obtain ⟨v, g1, g2⟩ := C04_defaults_partial (env := ⟨lib, r, .json⟩) hb hs.1 rfl rfl hp
  cases g1 with
  | array e => cases e
  | @object m0 f e hf' =>
    cases e
    refine ⟨f, fun b' r' m k q t' s0' d p' hkq ho hb' hp' hf hist' => ?_, g2⟩
    have hself : SchemaInst ⟨some ms, none⟩ q := .inl ⟨ms, k, q, rfl, hkq, .self _⟩
    obtain ⟨hin, hinst⟩ := FillSchema_inner hs.1 hself ho.2.1
    rw [fill_state hb' hin (fun q hq => hs.2 q (hinst q hq))]
    obtain ⟨v', k1, k2⟩ := C04_defaults_partial (env := ⟨lib, r', .json⟩) hb' hin rfl rfl hp'
    have h1 := hf' k q hkq
    have hfield : fieldOf k (some (canon p)) = some (canon p') := by
      revert hf
      generalize canon p = z
      intro hf
      cases z with
      | obj => exact hf
      | sc => cases hf
      | arr => cases hf
    rw [hfield] at h1
    rw [Filled_unique h1 (Filled_object ho k1)]
    exact k2

namespace C142ex
open Toy

/-- A string with a default and a list of numbers. -/
def props : GMap P := [(g!"d", o [(g!"type", s g!"string"), (g!"default", s g!"D")]), (g!"l", o [(g!"type", s g!"array"), (g!"items", o [(g!"type", s g!"number")])])]
def item : P := o [(g!"type", s g!"object"), (g!"properties", .obj props)]
def outer : GMap P := [(g!"x", item), (g!"y", o [(g!"type", s g!"boolean")])]

def docs : List (Str × P) := [
  (g!"1", o [(g!"d", s g!"A"), (g!"l", a [i 1, i 2])]), (g!"2", o []), (g!"all", a [o [(g!"d", s g!"A"), (g!"l", a [i 1, i 2])], o []]),
  (g!"x", o [(g!"x", o [(g!"d", s g!"A"), (g!"l", a [i 1, i 2])])])]

theorem fill_list : FillSchema g!"t" ⟨none, some item⟩ :=
  C140ex.fillSchema_of (n := 6) (simpleSchemaB_sound (ident := g!"t") (n := 6) (by decide +kernel)).noDefault (by decide +kernel) (by decide +kernel)
theorem fill_outer : FillSchema g!"t" ⟨some outer, none⟩ :=
  C140ex.fillSchema_of (n := 6) (simpleSchemaB_sound (ident := g!"t") (n := 6) (by decide +kernel)).noDefault (by decide +kernel) (by decide +kernel)
theorem objectWith : ObjectWith item props := ⟨⟨false, by decide +kernel⟩, by rfl, by simp [props]⟩

/-- The hypotheses of `C142_partial` are met by a list of two documents. -/
example : (∃ t s0, newTransformer ⟨lib docs, Sched.id, .json⟩ ⟨none, some item⟩ g!"t" = .ok (t, s0) ∧
      (transform ⟨lib docs, Sched.id, .json⟩ t g!"all" s0).1 = .ok g!"[{d:\"A\",l:[1,2]},{d:\"D\"}]") ∧
    (∃ t s0, newTransformer ⟨lib docs, Sched.id, .json⟩ ⟨some props, none⟩ g!"t" = .ok (t, s0) ∧
      (transform ⟨lib docs, Sched.id, .json⟩ t g!"1" s0).1 = .ok g!"{d:\"A\",l:[1,2]}" ∧ (transform ⟨lib docs, Sched.id, .json⟩ t g!"2" s0).1 = .ok g!"{d:\"D\"}") ∧
    ObjectWith item props ∧ FillSchema g!"t" ⟨none, some item⟩ ∧ (∀ q, SchemaInst ⟨none, some item⟩ q → ScalarDefault q) ∧
    ∃ ps, (lib docs).parseJSON g!"all" = some (.arr ps) ∧ [g!"1", g!"2"].map (lib docs).parseJSON = ps.map some := by
  refine ⟨?_, ?_, objectWith, fill_list, fun q hq => C141ex.default_of (by decide +kernel) hq, _, rfl, rfl⟩
  · have h : (match newTransformer ⟨lib docs, Sched.id, .json⟩ ⟨none, some item⟩ g!"t" with
      | .ok (t, s0) => decide ((transform ⟨lib docs, Sched.id, .json⟩ t g!"all" s0).1 = .ok g!"[{d:\"A\",l:[1,2]},{d:\"D\"}]")
      | _ => false) = true := by decide +kernel
    split at h
    · rename_i t s0 hb
      exact ⟨t, s0, hb, of_decide_eq_true h⟩
    · contradiction
  · have h : (match newTransformer ⟨lib docs, Sched.id, .json⟩ ⟨some props, none⟩ g!"t" with
      | .ok (t, s0) => decide ((transform ⟨lib docs, Sched.id, .json⟩ t g!"1" s0).1 = .ok g!"{d:\"A\",l:[1,2]}" ∧
          (transform ⟨lib docs, Sched.id, .json⟩ t g!"2" s0).1 = .ok g!"{d:\"D\"}")
      | _ => false) = true := by decide +kernel
    split at h
    · rename_i t s0 hb
      exact ⟨t, s0, hb, of_decide_eq_true h⟩
    · contradiction

/-- The hypotheses of `C142_field_partial` are met by a document with another one as field. -/
example : (∃ t s0, newTransformer ⟨lib docs, Sched.id, .json⟩ ⟨some outer, none⟩ g!"t" = .ok (t, s0) ∧
      (transform ⟨lib docs, Sched.id, .json⟩ t g!"x" s0).1 = .ok g!"{x:{d:\"A\",l:[1,2]}}") ∧
    (g!"x", item) ∈ outer ∧ ObjectWith item props ∧ FillSchema g!"t" ⟨some outer, none⟩ ∧ (∀ q, SchemaInst ⟨some outer, none⟩ q → ScalarDefault q) ∧
    ∃ p p', (lib docs).parseJSON g!"x" = some p ∧ (lib docs).parseJSON g!"1" = some p' ∧ (canon p).key g!"x" = some (canon p') := by
  refine ⟨?_, by simp [outer], objectWith, fill_outer, fun q hq => C141ex.default_of (by decide +kernel) hq, _, _, rfl, rfl, by rfl⟩
  have h : (match newTransformer ⟨lib docs, Sched.id, .json⟩ ⟨some outer, none⟩ g!"t" with
    | .ok (t, s0) => decide ((transform ⟨lib docs, Sched.id, .json⟩ t g!"x" s0).1 = .ok g!"{x:{d:\"A\",l:[1,2]}}")
    | _ => false) = true := by decide +kernel
  split at h
  · rename_i t s0 hb
    exact ⟨t, s0, hb, of_decide_eq_true h⟩
  · contradiction

/-- A string from another place. -/
def moved : GMap P := [(g!"x", strFrom g!"first" [g!"$.p"])]
def movedItem : P := o [(g!"type", s g!"object"), (g!"properties", .obj moved)]
def movedDocs : List (Str × P) := [(g!"1", o [(g!"p", s g!"P")]), (g!"all", a [o [(g!"p", s g!"P")]])]

theorem differ : (match newTransformer ⟨lib movedDocs, Sched.id, .json⟩ ⟨none, some movedItem⟩ g!"t", newTransformer ⟨lib movedDocs, Sched.id, .json⟩ ⟨some moved, none⟩ g!"t" with
    | .ok (t, s0), .ok (t', s0') => decide ((transformNoValidation ⟨lib movedDocs, Sched.id, .json⟩ t g!"all" s0).1 = .ok g!"null" ∧
        (transformNoValidation ⟨lib movedDocs, Sched.id, .json⟩ t' g!"1" s0').1 = .ok g!"{x:\"P\"}")
    | _, _ => false) = true := by decide +kernel
end C142ex

/-- C142 is false with transforms: paths from the root are looked up in the list, not in its documents. -/
theorem C142_refuted : ¬ C142_statement SimpleSchema := by
  intro hc
  have h := C142ex.differ
  split at h
  · rename_i t s0 t' s0' hb hb'
    obtain ⟨h1, h2⟩ := of_decide_eq_true h
    obtain ⟨vs, g1, g2⟩ := hc _ Sched.id Sched.id Sched.id Sched.id _ _ _ t t' s0 s0' hb hb' ⟨⟨false, by decide +kernel⟩, by rfl, by simp [C142ex.moved]⟩
      (simpleSchemaB_sound (n := 6) (by decide +kernel)) g!"all" [g!"1"] _ rfl rfl []
    replace g1 := g1 0 _ rfl []
    rw [show afterCalls t' [] s0' = s0' from rfl, h2] at g1
    rw [show afterCalls t [] s0 = s0 from rfl, h1] at g2
    generalize hv : vs 0 = v at g1
    have e : optAll vs (List.range [g!"1"].length) = v.map fun v => [v] := by
      show optAll vs [0] = _
      simp only [optAll, hv]
      cases v <;> rfl
    rw [e] at g2
    rcases v with _ | v
    · cases g1
    · rcases v with z | l | m
      · cases z <;> first | exact absurd g1 (by decide) | cases g2
      · cases g2
      · cases g2
  · contradiction

end JT
