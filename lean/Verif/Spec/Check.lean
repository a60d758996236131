import Verif.Spec.Schema
/- Computable checks of the hypotheses, used in examples. -/
namespace JT.Spec

/-- Check `f` on all instances of a schema document (with fuel). -/
def checkInst (f : P → Bool) : Nat → P → Bool
  | 0, _ => false
  | n + 1, p => f p
    && (match p.key g!"properties" with
      | some (.obj m) => m.all fun kv => checkInst f n kv.2
      | _ => true)
    && (match p.key g!"items" with
      | some r => checkInst f n r
      | none => true)

theorem checkInst_sound {f : P → Bool} {n : Nat} {p q : P} (h : checkInst f n p = true) (hi : Inst p q) : f q = true := by
  have key : ∃ m, checkInst f m q = true := by
    induction hi with
    | self => exact ⟨n, h⟩
    | prop _ hp hm ih =>
      obtain ⟨m, hm'⟩ := ih
      cases m with
      | zero => simp [checkInst] at hm'
      | succ m =>
        simp only [checkInst, Bool.and_eq_true, hp] at hm'
        exact ⟨m, List.all_eq_true.1 hm'.1.2 _ hm⟩
    | items _ hp ih =>
      obtain ⟨m, hm'⟩ := ih
      cases m with
      | zero => simp [checkInst] at hm'
      | succ m =>
        simp only [checkInst, Bool.and_eq_true, hp] at hm'
        exact ⟨m, hm'.2⟩
  obtain ⟨m, hm⟩ := key
  cases m with
  | zero => simp [checkInst] at hm
  | succ m => simp only [checkInst, Bool.and_eq_true] at hm; exact hm.1.1

/-- Check `f` on all instances of a schema. -/
def checkSchema (f : P → Bool) (n : Nat) (s : Schema) : Bool :=
  (match s.properties with
    | some m => m.all fun kv => checkInst f n kv.2
    | none => true)
  && (match s.items with
    | some p => checkInst f n p
    | none => true)

theorem checkSchema_sound {f : P → Bool} {n : Nat} {s : Schema} {q : P} (h : checkSchema f n s = true)
    (hi : SchemaInst s q) : f q = true := by
  unfold checkSchema at h
  rw [Bool.and_eq_true] at h
  rcases hi with ⟨m, k, p, hm, hk, hi⟩ | ⟨p, hp, hi⟩
  · rw [hm] at h
    exact checkInst_sound (List.all_eq_true.1 h.1 _ hk) hi
  · rw [hp] at h
    exact checkInst_sound h.2 hi

def scalarDefaultB (q : P) : Bool := match q.key g!"default" with
  | some (.sc _) => true
  | none => true
  | _ => false

theorem scalarDefaultB_sound {q : P} (h : scalarDefaultB q = true) : ScalarDefault q := by
  intro d hd
  unfold scalarDefaultB at h
  rw [hd] at h
  cases d <;> simp_all

def notLastB (ident : Str) (q : P) : Bool := match (q.key g!"transform").bind (P.key ident) with
  | some tr => match tr.key g!"method" with
    | some (.sc (.str s)) => decide (s ≠ g!"last")
    | _ => true
  | none => true

theorem notLastB_sound {ident : Str} {q : P} (h : notLastB ident q = true) : NotLast ident q := by
  intro tr htr hm
  unfold notLastB at h
  rw [htr] at h
  simp only [hm] at h
  simp at h

end JT.Spec
