import Verif.Spec.CheckSimple
import Verif.Spec.XmlSemantics
/- Computable check for the schemas covered on XML input, used in examples. -/
namespace JT.Spec

def objectInstB (q : P) : Bool := match fieldType q with
  | .ok (ty, _) => decide (ty = g!"object") && match q.key g!"properties" with
    | some (.obj []) => false
    | _ => true
  | _ => false

theorem objectInstB_complete {q : P} (h : ObjectInst q) : objectInstB q = true := by
  obtain ⟨⟨nu, h⟩, h2⟩ := h
  unfold objectInstB
  rw [h]
  show (decide _ && _) = true
  rw [decide_eq_true (p := g!"object" = g!"object") rfl, Bool.true_and]
  split
  · exact absurd (by assumption) h2
  · rfl

/-- All conditions on an instance. -/
def xmlInstB (ident : Str) (q : P) : Bool :=
  plainPropsB q && notLastB ident q && noClockB ident q && (!objectInstB q || isNilB ((q.key g!"default").getD nilP))

def xmlSchemaB (ident : Str) (n : Nat) (sc : Schema) : Bool :=
  checkSchema (xmlInstB ident) n sc && match sc.properties with
    | some m => plainMapB m
    | none => true

theorem xmlSchemaB_sound {ident : Str} {n : Nat} {sc : Schema} (h : xmlSchemaB ident n sc = true) : XmlSchema ident sc := by
  unfold xmlSchemaB at h
  rw [Bool.and_eq_true] at h
  have key : ∀ q, SchemaInst sc q → xmlInstB ident q = true := fun q hq => checkSchema_sound h.1 hq
  refine ⟨⟨?_, ?_⟩, ?_, ?_, ?_⟩
  · intro m hm
    rw [hm] at h
    exact plainMapB_sound h.2
  · intro q hq
    have := key q hq
    simp only [xmlInstB, Bool.and_eq_true] at this
    exact plainPropsB_sound this.1.1.1
  · intro q hq hcq
    have := key q hq
    simp only [xmlInstB, Bool.and_eq_true, objectInstB_complete hcq, Bool.not_true, Bool.false_or] at this
    have := this.2
    unfold NoDefault
    generalize (q.key g!"default").getD nilP = d at this
    unfold isNilB at this
    split at this
    · rfl
    · contradiction
  · intro q hq
    have := key q hq
    simp only [xmlInstB, Bool.and_eq_true] at this
    exact notLastB_sound this.1.1.2
  · intro q hq
    have := key q hq
    simp only [xmlInstB, Bool.and_eq_true] at this
    exact noClockB_sound this.1.2

end JT.Spec
