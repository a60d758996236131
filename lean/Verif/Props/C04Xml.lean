import Verif.Props.C04
import Verif.Props.C77
/- C04 on XML input, where it is false: without transforms nothing is copied from the document. -/
namespace JT
open Spec

theorem optAll_nil {α β : Type} {f : α → Option β} {g : α → β} : ∀ {l : List α}, (∀ x ∈ l, f x = some (g x)) → optAll f l = some (l.map g)
  | [], _ => rfl
  | x :: l, h => by
    rw [optAll, h x (by simp), optAll_nil fun y hy => h y (by simp [hy])]
    rfl

theorem objectOf_nils (l : List Str) : objectOf (l.map fun k => (k, nilP)) = nilP := by
  have : (l.map fun k => (k, nilP)).filter (fun kv => !isNilP kv.2) = [] := by
    rw [List.filter_eq_nil_iff]
    intro x hx
    obtain ⟨k, _, rfl⟩ := List.mem_map.1 hx
    simp [nilP, isNilP]
  unfold objectOf
  simp only [this]
  rfl

theorem noDefault_nil {q : P} (h : NoDefault q) : defaultOf q = nilP := by
  unfold NoDefault at h
  unfold defaultOf
  rw [h]
  rfl

/-- Without transforms and defaults an instance has no value on an XML document. -/
theorem XVal.pure {lib : Lib} {ident : Str} {n : NodeId} {raw : P} {upS upC sp cp : Str} {sub : Mod} {r : Option P}
    (h : XVal lib ident n raw upS upC sp cp sub r) (hq : ∀ q, Inst raw q → NoDefault q ∧ NoTransform ident q) : r = some nilP := by
  induction h with
  | @scalar n raw upS upC sp cp sub ty0 ty nu tr h1 h2 h3 h4 h5 =>
    obtain ⟨hd, ht⟩ := hq raw (.self _)
    cases h5 with
    | none _ =>
      simp only [okP, Option.map_some, nilP, isNilP, if_true]
      rw [noDefault_nil hd]
    | some h6 h7 h8 =>
      rcases ht with ht | ht <;> rw [ht] at h6 <;> simp at h6
      exact absurd h6.symm h7
  | @array n raw upS upC sp cp sub nu items tr f h1 h2 h3 h4 ih =>
    obtain ⟨hd, ht⟩ := hq raw (.self _)
    cases h3 with
    | none _ =>
      simp only [okP, Option.bind_some, nilP, entriesX, noDefault_nil hd]
      rfl
    | some h6 h7 h8 =>
      rcases ht with ht | ht <;> rw [ht] at h6 <;> simp at h6
      exact absurd h6.symm h7
  | @object n raw upS upC sp cp sub nu m f h1 h2 h3 h4 h5 ih =>
    obtain ⟨hd, ht⟩ := hq raw (.self _)
    rw [optAll_nil (g := fun k => (k, nilP))]
    · simp only [Option.map_some, noDefault_nil hd]
      exact congrArg some (objectOf_nils _)
    · intro k hk
      obtain ⟨⟨k', q⟩, hkq, rfl⟩ := List.mem_map.1 hk
      rw [ih k' q hkq fun r hr => hq r (Inst.trans (.prop (.self _) h2 hkq) hr)]
      rfl
  | objectAt _ _ _ h4 => exact absurd (hq _ (.self _)).2 h4
  | objectAbsent _ _ _ h4 => exact absurd (hq _ (.self _)).2 h4
  | objectFails _ _ _ h4 => exact absurd (hq _ (.self _)).2 h4

/-- C04 does not extend to XML input: with a schema without transforms and defaults, the output for every XML document is the rendering of null, whatever
the document contains. -/
theorem C04_xml {lib : Lib} {b r : Sched} {sc : Schema} {ident : Str} {t : T} {s : St} (hb : newTransformer ⟨lib, b, .xml⟩ sc ident = .ok (t, s))
    (hs : PureSchema ident sc) {raw : Str} {n : NodeId} (hp : lib.parseXML raw = some n) :
    (transformNoValidation ⟨lib, r, .xml⟩ t raw s).1.toOption = lib.marshal nilP := by
  have h0 := PureSchema.simple hs
  have hx : XmlSchema ident sc := ⟨h0.plain, fun q hq _ => hs.noDefault q hq, h0.notLast, h0.noClock⟩
  obtain ⟨v, h1, -, h3, -⟩ := (C77_partial (r := r) hb hx raw).2 n hp
  rw [h3]
  cases h1 with
  | @object m f h h2 =>
    rw [optAll_nil (g := fun k => (k, nilP))]
    · simp only [Option.map_some, Option.bind_some, objectOf_nils]
    · intro k hk
      obtain ⟨⟨k', q⟩, hkq, rfl⟩ := List.mem_map.1 hk
      rw [XVal.pure (h2 k' q hkq) fun r hr =>
        have hi : SchemaInst sc r := Or.inl ⟨m, k', q, h, hkq, hr⟩
        ⟨hs.noDefault r hi, hs.noTransform r hi⟩]
      rfl
  | array => rfl

/-- The hypotheses are met, with a document that has an element for the schema's property. -/
example : ∃ t s, newTransformer ⟨C77ex.lib', Sched.id, .xml⟩ C04ex.sc g!"t" = .ok (t, s) ∧ PureSchema g!"t" C04ex.sc ∧ C77ex.lib'.parseXML g!"in" = some 0 ∧
    C77ex.lib'.marshal nilP = some g!"null" := by
  have h : (match newTransformer ⟨C77ex.lib', Sched.id, .xml⟩ C04ex.sc g!"t" with
    | .ok _ => true
    | _ => false) = true := by decide +kernel
  split at h
  · rename_i x hb
    exact ⟨x.1, x.2, hb, C04ex.pure, by decide +kernel, by decide +kernel⟩
  · contradiction

end JT
