import Verif.Spec.Check
import Verif.Spec.Semantics
/- Computable checks for covered schemas, used in examples. -/
namespace JT.Spec

def plainNameB (k : Str) : Bool := decide (k ≠ []) && decide ('.' ∉ k) && decide ('[' ∉ k)

theorem plainNameB_sound {k : Str} (h : plainNameB k = true) : PlainName k := by
  simp only [plainNameB, Bool.and_eq_true, decide_eq_true_eq] at h
  exact ⟨h.1.1, h.1.2, h.2⟩

def plainMapB (m : List (Str × P)) : Bool := decide (m.map Prod.fst).Nodup && m.all fun kv => plainNameB kv.1

theorem plainMapB_sound {m : List (Str × P)} (h : plainMapB m = true) : (m.map Prod.fst).Nodup ∧ ∀ kv ∈ m, PlainName kv.1 := by
  simp only [plainMapB, Bool.and_eq_true, decide_eq_true_eq, List.all_eq_true] at h
  exact ⟨h.1, fun kv hkv => plainNameB_sound (h.2 kv hkv)⟩

def plainPropsB (q : P) : Bool := match q.key g!"properties" with
  | some (.obj m) => plainMapB m
  | _ => true

theorem plainPropsB_sound {q : P} (h : plainPropsB q = true) : PlainProps q := by
  intro m hm
  unfold plainPropsB at h
  rw [hm] at h
  exact plainMapB_sound h

def isNilB : P → Bool
  | .sc .nil => true
  | _ => false

def containerB (q : P) : Bool := match fieldType q with
  | .ok (ty, _) => decide (ty = g!"array") || (decide (ty = g!"object") && match q.key g!"properties" with
    | some (.obj []) => false
    | _ => true)
  | _ => false

theorem containerB_complete {q : P} (h : Container q) : containerB q = true := by
  unfold containerB
  rcases h with ⟨nu, h⟩ | ⟨⟨nu, h⟩, h2⟩
  · rw [h]; simp
  · rw [h]
    show (decide _ || (decide _ && _)) = true
    rw [decide_eq_true (p := g!"object" = g!"object") rfl, Bool.true_and, Bool.or_eq_true]
    refine Or.inr ?_
    split
    · exact absurd (by assumption) h2
    · rfl

def noTransformB (ident : Str) (q : P) : Bool := match (q.key g!"transform").bind (P.key ident) with
  | none => true
  | some (.sc (.str [])) => true
  | _ => false

theorem noTransformB_sound {ident : Str} {q : P} (h : noTransformB ident q = true) : NoTransform ident q := by
  unfold noTransformB at h
  split at h
  · exact Or.inl (by assumption)
  · exact Or.inr (by assumption)
  · contradiction

def opsOf (tr : P) : List P := match tr.key g!"from" with
  | some (.arr l) => l.flatMap fun e => match e.key g!"operations" with
    | some (.arr ops) => ops
    | _ => []
  | _ => []

def noClockB (ident : Str) (q : P) : Bool := match (q.key g!"transform").bind (P.key ident) with
  | none => true
  | some tr => (opsOf tr).all fun op => match op.key g!"type" with
    | some (.sc (.str s)) => decide (s ≠ g!"currentTime")
    | _ => true

theorem noClockB_sound {ident : Str} {q : P} (h : noClockB ident q = true) : NoClock ident q := by
  intro tr l e ops op h1 h2 h3 h4 h5 h6
  unfold noClockB at h
  rw [h1] at h
  simp only [List.all_eq_true] at h
  have := h op (by
    unfold opsOf
    rw [h2]
    simp only [List.mem_flatMap]
    exact ⟨e, h3, by rw [h4]; exact h5⟩)
  rw [h6] at this
  simp at this

/-- All conditions on an instance. -/
def simpleInstB (ident : Str) (q : P) : Bool :=
  plainPropsB q && notLastB ident q && noClockB ident q && (!containerB q || (isNilB ((q.key g!"default").getD nilP) && noTransformB ident q))

def simpleSchemaB (ident : Str) (n : Nat) (sc : Schema) : Bool :=
  checkSchema (simpleInstB ident) n sc && match sc.properties with
    | some m => plainMapB m
    | none => true

theorem simpleSchemaB_sound {ident : Str} {n : Nat} {sc : Schema} (h : simpleSchemaB ident n sc = true) : SimpleSchema ident sc := by
  unfold simpleSchemaB at h
  rw [Bool.and_eq_true] at h
  have key : ∀ q, SchemaInst sc q → simpleInstB ident q = true := fun q hq => checkSchema_sound h.1 hq
  have hc : ∀ q, SchemaInst sc q → Container q → isNilB ((q.key g!"default").getD nilP) = true ∧ noTransformB ident q = true := by
    intro q hq hcq
    have := key q hq
    simp only [simpleInstB, Bool.and_eq_true, containerB_complete hcq, Bool.not_true, Bool.false_or] at this
    exact this.2
  refine ⟨⟨?_, ?_⟩, ?_, ?_, ?_, ?_⟩
  · intro m hm
    rw [hm] at h
    exact plainMapB_sound h.2
  · intro q hq
    have := key q hq
    simp only [simpleInstB, Bool.and_eq_true] at this
    exact plainPropsB_sound this.1.1.1
  · intro q hq hcq
    have := (hc q hq hcq).1
    unfold NoDefault
    generalize (q.key g!"default").getD nilP = d at this
    unfold isNilB at this
    split at this
    · rfl
    · contradiction
  · intro q hq hcq
    exact noTransformB_sound (hc q hq hcq).2
  · intro q hq
    have := key q hq
    simp only [simpleInstB, Bool.and_eq_true] at this
    exact notLastB_sound this.1.1.2
  · intro q hq
    have := key q hq
    simp only [simpleInstB, Bool.and_eq_true] at this
    exact noClockB_sound this.1.2

end JT.Spec
