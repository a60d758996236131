import Verif.Props.C05
import Verif.Props.C77
import Verif.Props.C91
import Verif.Proofs.MapMore
import Verif.Spec.CheckXml
/- C136: the properties of a schema do not affect each other. -/
namespace JT
open Spec

namespace Spec
/-- A document without the fields that are not among these; nothing at all if none is left. -/
def onlyKeys (ks : List Str) : P → P
  | .obj m => if (m.filter fun kv => decide (kv.1 ∈ ks)).isEmpty then nilP else .obj (m.filter fun kv => decide (kv.1 ∈ ks))
  | p => p

/-- The schemas covered for an input format: for JSON, arrays and objects have neither default nor transform; for XML, objects have no default; no
method `last` and no clock. -/
def Separate (fmt : Format) (ident : Str) (sc : Schema) : Prop := (fmt = .json → SimpleSchema ident sc) ∧ (fmt = .xml → XmlSchema ident sc)
end Spec

/-- **C136** for schemas that satisfy `cov`: if a schema is cut down to some of its properties then what Transform returns, before it is validated,
is cut down in the same way and nothing else changes. -/
def C136_statement (cov : Format → Str → Schema → Prop) : Prop :=
  ∀ (lib : Lib) (fmt : Format) (b1 b2 r1 r2 : Sched) (ident : Str) (sc1 sc2 : Schema) (m1 m2 : GMap P) (t1 t2 : T) (s1 s2 : St),
    sc1.properties = some m1 → sc2.properties = some m2 → (∀ x ∈ m1, x ∈ m2) → cov fmt ident sc1 → cov fmt ident sc2 →
    newTransformer ⟨lib, b1, fmt⟩ sc1 ident = .ok (t1, s1) → newTransformer ⟨lib, b2, fmt⟩ sc2 ident = .ok (t2, s2) →
    ∀ raw out2 : Str, (transformNoValidation ⟨lib, r2, fmt⟩ t2 raw s2).1 = .ok out2 →
      ∃ p2, lib.marshal p2 = some out2 ∧ (transformNoValidation ⟨lib, r1, fmt⟩ t1 raw s1).1.toOption = lib.marshal (onlyKeys (m1.map Prod.fst) p2)

theorem sorted_filter {α : Type} {f : Str × α → Bool} : ∀ {m : GMap α}, GMap.Sorted m → GMap.Sorted (m.filter f : List (Str × α))
  | [], _ => trivial
  | (k, v) :: m, h => by
    obtain ⟨h1, h2⟩ := h
    rw [List.filter_cons]
    split
    · exact ⟨fun kv hkv => h1 kv (List.mem_filter.1 hkv).1, sorted_filter h2⟩
    · exact sorted_filter h2

theorem get_filter_key {α : Type} {ks : List Str} (k : Str) : ∀ (m : GMap α),
    GMap.get k (m.filter (fun kv => decide (kv.1 ∈ ks)) : List (Str × α)) = if k ∈ ks then GMap.get k m else none
  | [] => by simp [GMap.get]
  | (k', v) :: m => by
    have ih := get_filter_key (ks := ks) k m
    rw [List.filter_cons]
    by_cases hk : k = k'
    · subst hk
      by_cases hm : k ∈ ks
      · simp [hm, GMap.get]
      · simp only [hm, decide_false]
        simp only [hm] at ih
        simpa using ih
    · split
      · simp only [GMap.get, if_neg hk]; exact ih
      · rw [ih]; simp only [GMap.get, if_neg hk]

/-- The fields of a map made of values given by a function. -/
theorem get_ofList_fun {g : Str → P} {ks : List Str} (k : Str) :
    GMap.get k (GMap.ofList ((ks.map fun k => (k, g k)).filter fun kv => !isNilP kv.2)) = if k ∈ ks ∧ isNilP (g k) = false then some (g k) else none := by
  have hm : ∀ k' v, (k', v) ∈ ((ks.map fun k => (k, g k)).filter fun kv => !isNilP kv.2) ↔ k' ∈ ks ∧ v = g k' ∧ isNilP (g k') = false := by
    intro k' v
    rw [List.mem_filter, List.mem_map]
    constructor
    · rintro ⟨⟨x, hx, e⟩, hn⟩
      cases e
      exact ⟨hx, rfl, by simpa using hn⟩
    · rintro ⟨h1, rfl, h3⟩
      exact ⟨⟨k', h1, rfl⟩, by simpa using h3⟩
  split
  · rename_i h
    obtain ⟨q, hq⟩ := GMap.mem_ofList_key.2 ⟨g k, (hm k (g k)).2 ⟨h.1, rfl, h.2⟩⟩
    rw [GMap.get_mem_nodup (GMap.Sorted.nodup (GMap.sorted_ofList _)) hq, ((hm k q).1 (GMap.mem_ofList hq)).2.1]
  · rename_i h
    rcases hg : GMap.get k (GMap.ofList ((ks.map fun k => (k, g k)).filter fun kv => !isNilP kv.2)) with _ | q
    · rfl
    · have := (hm k q).1 (GMap.mem_ofList (GMap.get_some_mem hg))
      exact absurd ⟨this.1, this.2.2⟩ h

theorem key_objectOf {g : Str → P} {ks : List Str} (k : Str) :
    (objectOf (ks.map fun k => (k, g k))).key k = if k ∈ ks ∧ isNilP (g k) = false then some (g k) else none := by
  rw [← get_ofList_fun]
  unfold objectOf
  dsimp only
  split
  · rename_i h
    rw [List.isEmpty_iff.1 h]
    rfl
  · rfl

theorem isEmpty_ofList {α : Type} (l : List (Str × α)) : List.isEmpty (GMap.ofList l : List (Str × α)) = l.isEmpty := by
  rcases l with _ | ⟨⟨k, v⟩, l⟩
  · rfl
  · obtain ⟨q, hq⟩ := (GMap.mem_ofList_key (l := (k, v) :: l)).2 ⟨v, List.mem_cons_self⟩
    rcases hl : GMap.ofList ((k, v) :: l) with _ | ⟨x, y⟩
    · rw [hl] at hq; cases hq
    · rfl

/-- Fewer fields in, fewer fields out. -/
theorem objectOf_only {g : Str → P} {ks1 ks2 : List Str} (h : ∀ k ∈ ks1, k ∈ ks2) :
    objectOf (ks1.map fun k => (k, g k)) = onlyKeys ks1 (objectOf (ks2.map fun k => (k, g k))) := by
  have e : (GMap.ofList ((ks2.map fun k => (k, g k)).filter fun kv => !isNilP kv.2)).filter (fun kv => decide (kv.1 ∈ ks1)) =
      GMap.ofList ((ks1.map fun k => (k, g k)).filter fun kv => !isNilP kv.2) := by
    refine GMap.Sorted.ext (sorted_filter (GMap.sorted_ofList _)) (GMap.sorted_ofList _) fun k => ?_
    rw [get_filter_key, get_ofList_fun, get_ofList_fun]
    by_cases hk : k ∈ ks1
    · simp [hk, h k hk]
    · simp [hk]
  unfold objectOf
  dsimp only
  by_cases h2 : ((ks2.map fun k => (k, g k)).filter fun kv => !isNilP kv.2).isEmpty = true
  · rw [if_pos h2]
    rw [List.isEmpty_iff.1 h2] at e
    have h1 : ((ks1.map fun k => (k, g k)).filter fun kv => !isNilP kv.2).isEmpty = true := by
      rw [← isEmpty_ofList, ← e]; rfl
    rw [if_pos h1]
    rfl
  · rw [if_neg h2]
    unfold onlyKeys
    dsimp only
    rw [e, isEmpty_ofList]

/-- What two schemas make of an input: all properties of the output are given by functions, which agree for the same property. -/
theorem two_values {lib : Lib} {fmt : Format} {b1 b2 r1 r2 : Sched} {ident : Str} {sc1 sc2 : Schema} {m1 m2 : GMap P} {t1 t2 : T} {s1 s2 : St}
    (hm1 : sc1.properties = some m1) (hm2 : sc2.properties = some m2) (hc1 : Separate fmt ident sc1) (hc2 : Separate fmt ident sc2)
    (hb1 : newTransformer ⟨lib, b1, fmt⟩ sc1 ident = .ok (t1, s1)) (hb2 : newTransformer ⟨lib, b2, fmt⟩ sc2 ident = .ok (t2, s2))
    {raw out2 : Str} (h : (transformNoValidation ⟨lib, r2, fmt⟩ t2 raw s2).1 = .ok out2) :
    ∃ f1 f2 : Str → Option P, (∀ k q, (k, q) ∈ m1 → (k, q) ∈ m2 → f1 k = f2 k) ∧
      (transformNoValidation ⟨lib, r1, fmt⟩ t1 raw s1).1.toOption =
        ((optAll (fun k => (f1 k).map fun p => (k, p)) (m1.map Prod.fst)).map objectOf).bind lib.marshal ∧
      (transformNoValidation ⟨lib, r2, fmt⟩ t2 raw s2).1.toOption =
        ((optAll (fun k => (f2 k).map fun p => (k, p)) (m2.map Prod.fst)).map objectOf).bind lib.marshal := by
  cases fmt with
  | json =>
    rcases hp : lib.parseJSON raw with _ | p
    · have e : (transformNoValidation ⟨lib, r2, .json⟩ t2 raw s2).1 = .err := baseTransform_noParse (env := ⟨lib, r2, .json⟩) rfl hp
      rw [e] at h; cases h
    · obtain ⟨v1, h1, e1⟩ := transform_schemaVal (env := ⟨lib, r1, .json⟩) hb1 (hc1.1 rfl) rfl rfl hp
      obtain ⟨v2, h2, e2⟩ := transform_schemaVal (env := ⟨lib, r2, .json⟩) hb2 (hc2.1 rfl) rfl rfl hp
      cases h1 with
      | array h _ _ => rw [hm1] at h; cases h
      | @object m f1 h1 k1 =>
        rw [hm1] at h1; cases h1
        cases h2 with
        | array h _ _ => rw [hm2] at h; cases h
        | @object m f2 h2 k2 =>
          rw [hm2] at h2; cases h2
          exact ⟨f1, f2, fun k q a b => Val.unique (k1 k q a) (k2 k q b), e1, e2⟩
  | xml =>
    rcases hp : lib.parseXML raw with _ | n
    · have e : (transformNoValidation ⟨lib, r2, .xml⟩ t2 raw s2).1 = .err := baseTransform_noParseX (env := ⟨lib, r2, .xml⟩) rfl hp
      rw [e] at h; cases h
    · obtain ⟨v1, h1, e1⟩ := transform_xschemaVal (env := ⟨lib, r1, .xml⟩) hb1 (hc1.2 rfl) rfl rfl hp
      obtain ⟨v2, h2, e2⟩ := transform_xschemaVal (env := ⟨lib, r2, .xml⟩) hb2 (hc2.2 rfl) rfl rfl hp
      cases h1 with
      | array h _ => rw [hm1] at h; cases h
      | @object m f1 h1 k1 =>
        rw [hm1] at h1; cases h1
        cases h2 with
        | array h _ => rw [hm2] at h; cases h
        | @object m f2 h2 k2 =>
          rw [hm2] at h2; cases h2
          exact ⟨f1, f2, fun k q a b => XVal.unique (k1 k q a) (k2 k q b), e1, e2⟩

/-- If all values are there, they are given by a function. -/
theorem optAll_values {f : Str → Option P} {ks : List Str} {l : List (Str × P)} (h : optAll (fun k => (f k).map fun p => (k, p)) ks = some l) :
    (∀ k ∈ ks, f k = some ((f k).getD nilP)) ∧ l = ks.map fun k => (k, (f k).getD nilP) := by
  have h1 : ∀ k ∈ ks, f k = some ((f k).getD nilP) := by
    intro k hk
    obtain ⟨y, _, hy⟩ := optAll_mem h hk
    rcases hf : f k with _ | p
    · rw [hf] at hy; cases hy
    · rfl
  refine ⟨h1, ?_⟩
  have := optAll_some (f := fun k => (f k).map fun p => (k, p)) (g := fun k => (k, (f k).getD nilP)) (l := ks) (fun k hk => by
    show (f k).map _ = _
    rw [h1 k hk]; rfl)
  rw [this] at h
  exact (Option.some.inj h).symm

theorem toOption_ok {r : Res Str} {x : Str} (h : r = .ok x) : r.toOption = some x := by subst h; rfl

/-- **C136**, partial: for JSON input arrays and objects have neither default nor transform, for XML input objects have no default; no method `last`
and no clock.  Missing: the other schemas, for which it is false (`C136_refuted`). -/
theorem C136_partial : C136_statement Separate := by
  intro lib fmt b1 b2 r1 r2 ident sc1 sc2 m1 m2 t1 t2 s1 s2 hm1 hm2 hsub hc1 hc2 hb1 hb2 raw out2 hout
  obtain ⟨f1, f2, hf, e1, e2⟩ := two_values (r1 := r1) hm1 hm2 hc1 hc2 hb1 hb2 hout
  rw [toOption_ok hout] at e2
  rcases ho : optAll (fun k => (f2 k).map fun p => (k, p)) (m2.map Prod.fst) with _ | l2
  · rw [ho] at e2; cases e2
  · rw [ho] at e2
    obtain ⟨h2, rfl⟩ := optAll_values ho
    refine ⟨_, e2.symm, ?_⟩
    have hk : ∀ k ∈ m1.map Prod.fst, f1 k = f2 k ∧ k ∈ m2.map Prod.fst := by
      intro k hk
      obtain ⟨⟨k, q⟩, hq, rfl⟩ := List.mem_map.1 hk
      exact ⟨hf k q hq (hsub _ hq), List.mem_map.2 ⟨_, hsub _ hq, rfl⟩⟩
    have := optAll_some (f := fun k => (f1 k).map fun p => (k, p)) (g := fun k => (k, (f2 k).getD nilP)) (l := m1.map Prod.fst) (fun k hk' => by
      show (f1 k).map _ = _
      rw [(hk k hk').1, h2 k (hk k hk').2]; rfl)
    rw [e1, this]
    show lib.marshal _ = _
    rw [objectOf_only (fun k h => (hk k h).2)]

/-- A schema cut down to some of its properties has only instances that it had. -/
theorem SchemaInst_cut {m1 m2 : GMap P} (hsub : List.Sublist m1 m2) {q : P} (h : SchemaInst ⟨some m1, none⟩ q) : SchemaInst ⟨some m2, none⟩ q := by
  rcases h with ⟨m, k, p, h1, h2, h3⟩ | ⟨p, h1, _⟩
  · cases h1
    exact .inl ⟨m2, k, p, rfl, hsub.subset h2, h3⟩
  · cases h1

theorem SchemaAt_cut {m1 m2 : GMap P} (hsub : List.Sublist m1 m2) {l : List Seg} {q : P} (h : SchemaAt rawNode ⟨some m1, none⟩ l q) :
    SchemaAt rawNode ⟨some m2, none⟩ l q := by
  cases h with
  | prop h1 h2 h3 => cases h1; exact .prop rfl (hsub.subset h2) h3
  | item h1 => cases h1

theorem PlainSchema_cut {m1 m2 : GMap P} (hsub : List.Sublist m1 m2) (h : PlainSchema ⟨some m2, none⟩) : PlainSchema ⟨some m1, none⟩ := by
  refine ⟨fun m hm => ?_, fun q hq => h.2 q (SchemaInst_cut hsub hq)⟩
  cases hm
  obtain ⟨h1, h2⟩ := h.1 m2 rfl
  exact ⟨h1.sublist (hsub.map _), fun kv hkv => h2 kv (hsub.subset hkv)⟩

theorem Separate_cut {fmt : Format} {ident : Str} {m1 m2 : GMap P} (hsub : List.Sublist m1 m2) (h : Separate fmt ident ⟨some m2, none⟩) :
    Separate fmt ident ⟨some m1, none⟩ := by
  refine ⟨fun e => ?_, fun e => ?_⟩
  · have h := h.1 e
    exact ⟨PlainSchema_cut hsub h.plain, fun q hq => h.noDefault q (SchemaInst_cut hsub hq), fun q hq => h.noTransform q (SchemaInst_cut hsub hq),
      fun q hq => h.notLast q (SchemaInst_cut hsub hq), fun q hq => h.noClock q (SchemaInst_cut hsub hq)⟩
  · have h := h.2 e
    exact ⟨PlainSchema_cut hsub h.plain, fun q hq => h.noDefault q (SchemaInst_cut hsub hq),
      fun q hq => h.notLast q (SchemaInst_cut hsub hq), fun q hq => h.noClock q (SchemaInst_cut hsub hq)⟩

/-- A schema with plain names that is accepted is still accepted without some of its properties, whatever defaults and transforms there are. -/
theorem C136_accepts_partial (env1 env2 : Env) (hlib : env1.lib = env2.lib) (ident : Str) {m1 m2 : GMap P} (hsub : List.Sublist m1 m2)
    (hp : PlainSchema ⟨some m2, none⟩) (h : ∃ r, newTransformer env2 ⟨some m2, none⟩ ident = .ok r) : ∃ r, newTransformer env1 ⟨some m1, none⟩ ident = .ok r := by
  rw [C91_accepts_partial env2 _ ident hp] at h
  rw [C91_accepts_partial env1 _ ident (PlainSchema_cut hsub hp), hlib]
  exact ⟨by simp, fun l q hq => h.read l q (SchemaAt_cut hsub hq), fun l q hq => h.each l q (SchemaAt_cut hsub hq)⟩

/-- Both together: without some of its properties a schema is still accepted, and its outputs are those from before without these properties. -/
theorem C136_whole_partial (lib : Lib) (fmt : Format) (b1 b2 : Sched) (ident : Str) {m1 m2 : GMap P} (hsub : List.Sublist m1 m2)
    (hc : Separate fmt ident ⟨some m2, none⟩) {t2 : T} {s2 : St} (hb : newTransformer ⟨lib, b2, fmt⟩ ⟨some m2, none⟩ ident = .ok (t2, s2)) :
    ∃ t1 s1, newTransformer ⟨lib, b1, fmt⟩ ⟨some m1, none⟩ ident = .ok (t1, s1) ∧ ∀ (r1 r2 : Sched) (raw out2 : Str),
      (transformNoValidation ⟨lib, r2, fmt⟩ t2 raw s2).1 = .ok out2 →
      ∃ p2, lib.marshal p2 = some out2 ∧ (transformNoValidation ⟨lib, r1, fmt⟩ t1 raw s1).1.toOption = lib.marshal (onlyKeys (m1.map Prod.fst) p2) := by
  have hp : PlainSchema ⟨some m2, none⟩ := by
    cases fmt with
    | json => exact (hc.1 rfl).plain
    | xml => exact (hc.2 rfl).plain
  obtain ⟨⟨t1, s1⟩, h1⟩ := C136_accepts_partial ⟨lib, b1, fmt⟩ ⟨lib, b2, fmt⟩ rfl ident hsub hp ⟨_, hb⟩
  exact ⟨t1, s1, h1, fun r1 r2 raw out2 ho =>
    C136_partial lib fmt b1 b2 r1 r2 ident _ _ m1 m2 t1 t2 s1 s2 rfl rfl (fun x hx => hsub.subset hx) (Separate_cut hsub hc) hc h1 hb raw out2 ho⟩

/-- The same for two schemas that only share some properties: the values of these are the same. -/
theorem C136_common_partial {lib : Lib} {fmt : Format} {b1 b2 r1 r2 : Sched} {ident : Str} {sc1 sc2 : Schema} {m1 m2 : GMap P} {t1 t2 : T} {s1 s2 : St}
    (hm1 : sc1.properties = some m1) (hm2 : sc2.properties = some m2) (hc1 : Separate fmt ident sc1) (hc2 : Separate fmt ident sc2)
    (hb1 : newTransformer ⟨lib, b1, fmt⟩ sc1 ident = .ok (t1, s1)) (hb2 : newTransformer ⟨lib, b2, fmt⟩ sc2 ident = .ok (t2, s2))
    {raw out1 out2 : Str} (h1 : (transformNoValidation ⟨lib, r1, fmt⟩ t1 raw s1).1 = .ok out1)
    (h2 : (transformNoValidation ⟨lib, r2, fmt⟩ t2 raw s2).1 = .ok out2) :
    ∃ p1 p2, lib.marshal p1 = some out1 ∧ lib.marshal p2 = some out2 ∧ (∀ k ∉ m1.map Prod.fst, p1.key k = none) ∧ (∀ k ∉ m2.map Prod.fst, p2.key k = none) ∧
      ∀ k q, (k, q) ∈ m1 → (k, q) ∈ m2 → p1.key k = p2.key k := by
  obtain ⟨f1, f2, hf, e1, e2⟩ := two_values (r1 := r1) hm1 hm2 hc1 hc2 hb1 hb2 h2
  rw [toOption_ok h1] at e1
  rw [toOption_ok h2] at e2
  rcases o1 : optAll (fun k => (f1 k).map fun p => (k, p)) (m1.map Prod.fst) with _ | l1
  · rw [o1] at e1; cases e1
  rcases o2 : optAll (fun k => (f2 k).map fun p => (k, p)) (m2.map Prod.fst) with _ | l2
  · rw [o2] at e2; cases e2
  rw [o1] at e1
  rw [o2] at e2
  obtain ⟨v1, rfl⟩ := optAll_values o1
  obtain ⟨v2, rfl⟩ := optAll_values o2
  refine ⟨_, _, e1.symm, e2.symm, fun k hk => ?_, fun k hk => ?_, fun k q hk1 hk2 => ?_⟩
  · rw [key_objectOf, if_neg (fun h => hk h.1)]
  · rw [key_objectOf, if_neg (fun h => hk h.1)]
  · rw [key_objectOf, key_objectOf, hf k q hk1 hk2]
    have a1 : k ∈ m1.map Prod.fst := List.mem_map.2 ⟨_, hk1, rfl⟩
    have a2 : k ∈ m2.map Prod.fst := List.mem_map.2 ⟨_, hk2, rfl⟩
    simp only [a1, a2]

namespace C136ex
open Toy

/-- The schema of `C03ex` with one of its two properties. -/
def one : Schema := ⟨some [(g!"x", strFrom g!"concatenate" [g!"$.p", g!"$.q"])], none⟩

theorem simple_one : SimpleSchema g!"t" one := simpleSchemaB_sound (n := 6) (by decide +kernel)

/-- The hypotheses of `C136_partial` and `C136_common_partial` are met, and both outputs have values. -/
example : ∃ t1 s1 t2 s2, newTransformer ⟨lib C03ex.docs, Sched.id, .json⟩ one g!"t" = .ok (t1, s1) ∧
    newTransformer ⟨lib C03ex.docs, Sched.rev, .json⟩ C03ex.sc g!"t" = .ok (t2, s2) ∧ Separate .json g!"t" one ∧ Separate .json g!"t" C03ex.sc ∧
    (transformNoValidation ⟨lib C03ex.docs, Sched.id, .json⟩ t1 g!"in" s1).1 = .ok g!"{x:\"PQ\"}" ∧
    (transformNoValidation ⟨lib C03ex.docs, Sched.rev, .json⟩ t2 g!"in" s2).1 = .ok g!"{l:[{b:\"D\",c:1},{b:\"E\",c:7}],x:\"PQ\"}" := by
  have h : (match newTransformer ⟨lib C03ex.docs, Sched.id, .json⟩ one g!"t", newTransformer ⟨lib C03ex.docs, Sched.rev, .json⟩ C03ex.sc g!"t" with
    | .ok (t1, s1), .ok (t2, s2) =>
      decide ((transformNoValidation ⟨lib C03ex.docs, Sched.id, .json⟩ t1 g!"in" s1).1 = .ok g!"{x:\"PQ\"}") &&
      decide ((transformNoValidation ⟨lib C03ex.docs, Sched.rev, .json⟩ t2 g!"in" s2).1 = .ok g!"{l:[{b:\"D\",c:1},{b:\"E\",c:7}],x:\"PQ\"}")
    | _, _ => false) = true := by decide +kernel
  split at h
  · rename_i t1 s1 t2 s2 h1 h2
    simp only [Bool.and_eq_true, decide_eq_true_eq] at h
    exact ⟨t1, s1, t2, s2, h1, h2, ⟨fun _ => simple_one, fun e => by simp at e⟩, ⟨fun _ => C03ex.simple, fun e => by simp at e⟩, h.1, h.2⟩
  · contradiction

/-- The hypotheses of `C136_whole_partial` and `C136_accepts_partial` are met. -/
example : ∃ m1 m2 : GMap P, one = ⟨some m1, none⟩ ∧ C03ex.sc = ⟨some m2, none⟩ ∧ List.Sublist m1 m2 ∧ Separate .json g!"t" ⟨some m2, none⟩ ∧
    ∃ r, newTransformer ⟨lib C03ex.docs, Sched.rev, .json⟩ ⟨some m2, none⟩ g!"t" = .ok r := by
  refine ⟨_, _, rfl, rfl, .cons _ (List.Sublist.refl _), ⟨fun _ => C03ex.simple, fun e => by simp at e⟩, ?_⟩
  have h : (match newTransformer ⟨lib C03ex.docs, Sched.rev, .json⟩ C03ex.sc g!"t" with | .ok _ => true | _ => false) = true := by decide +kernel
  split at h
  · rename_i r hb
    exact ⟨r, hb⟩
  · cases h

/-- Both schemas are covered for XML input as well. -/
example : Separate .xml g!"t" one ∧ Separate .xml g!"t" C03ex.sc :=
  ⟨⟨fun e => by simp at e, fun _ => xmlSchemaB_sound (n := 6) (by decide +kernel)⟩,
   ⟨fun e => by simp at e, fun _ => xmlSchemaB_sound (n := 6) (by decide +kernel)⟩⟩

/-- The property that reads the place of an array, without the array. -/
def alone : Schema := ⟨some [(g!"c", strFrom g!"first" [g!"$.a[0]"])], none⟩

def outs : Option (Str × Str) :=
  match newTransformer ⟨C05ex.lib', Sched.id, .json⟩ alone g!"t", newTransformer ⟨C05ex.lib', Sched.id, .json⟩ C03ex.arraySc g!"t" with
  | .ok (t1, s1), .ok (t2, s2) =>
    match (transformNoValidation ⟨C05ex.lib', Sched.id, .json⟩ t1 g!"in" s1).1, (transformNoValidation ⟨C05ex.lib', Sched.id, .json⟩ t2 g!"in" s2).1 with
    | .ok x, .ok y => some (x, y)
    | _, _ => none
  | _, _ => none

theorem outs_eq : outs = some (g!"0", g!"1") := by decide +kernel
end C136ex

/-- C136 is false for all schemas with plain names: the transform of an array is saved into the input, where another property may read it.  Without the
array this property has no value. -/
theorem C136_refuted : ¬ C136_statement (fun _ _ sc => PlainSchema sc) := by
  intro hc
  have h := C136ex.outs_eq
  unfold C136ex.outs at h
  split at h
  · rename_i t1 s1 t2 s2 hb1 hb2
    split at h
    · rename_i x y hx hy
      simp only [Option.some.injEq, Prod.mk.injEq] at h
      rw [h.1] at hx
      rw [h.2] at hy
      obtain ⟨p2, hp, he⟩ := hc C05ex.lib' .json _ _ Sched.id Sched.id g!"t" C136ex.alone C03ex.arraySc _ _ t1 t2 s1 s2 rfl rfl (by
          intro x hx
          rcases List.mem_cons.1 hx with rfl | hx
          · exact List.mem_cons_of_mem _ List.mem_cons_self
          · cases hx)
        ⟨by intro m hm; simp [C136ex.alone] at hm; subst hm; exact plainMapB_sound (by decide +kernel),
         fun q hq => plainPropsB_sound (checkSchema_sound (f := plainPropsB) (n := 5) (by decide +kernel) hq)⟩
        ⟨by intro m hm; simp [C03ex.arraySc] at hm; subst hm; exact plainMapB_sound (by decide +kernel),
         fun q hq => plainPropsB_sound (checkSchema_sound (f := plainPropsB) (n := 5) (by decide +kernel) hq)⟩ hb1 hb2 _ _ hy
      rw [toOption_ok hx] at he
      -- the rendering says that there is a `c`, also when nothing else is left
      rcases p2 with _ | _ | m
      · exact absurd hp (by simp [C05ex.lib'])
      · exact absurd hp (by simp [C05ex.lib'])
      · have hg : (GMap.get g!"c" m).isSome = true := by
          by_contra hn
          simp only [C05ex.lib', if_neg hn] at hp
          exact absurd hp (by decide)
        have hf := get_filter_key (ks := [g!"c"]) g!"c" m
        rw [if_pos List.mem_cons_self] at hf
        have hne : (m.filter fun kv => decide (kv.1 ∈ [g!"c"])).isEmpty = false := by
          by_contra hn
          rw [List.isEmpty_iff.1 (Bool.of_not_eq_false hn)] at hf
          rw [← hf] at hg
          exact absurd hg (by decide)
        have hr : onlyKeys [g!"c"] (.obj m) = .obj (m.filter fun kv => decide (kv.1 ∈ [g!"c"])) := by
          unfold onlyKeys; dsimp only; rw [hne]; rfl
        replace he : some g!"0" = C05ex.lib'.marshal (onlyKeys [g!"c"] (.obj m)) := he
        rw [hr] at he
        simp only [C05ex.lib'] at he
        rw [hf, if_pos hg] at he
        exact absurd he (by decide)
    · contradiction
  · contradiction

end JT
