import Verif.Model.Validator
import Verif.Model.Build
import Verif.Proofs.Strings
import Verif.Props.C54
import Verif.Props.C100
/- C101: validators. -/
namespace JT.Spec

/-- The texts from the least to the greatest, each as often as it occurs. -/
def Ascending (l l' : List Str) : Prop := l'.Perm l ∧ l'.Pairwise fun a b => strLt b a = false

/-- The text of an error about violations. -/
def ViolationText (l : List Str) (text : Str) : Prop := ∃ l', Ascending l l' ∧ text = g!"invalid schema: [" ++ join g!" " l' ++ g!"]"

/-- `Valid()` says whether there are violations. -/
def Truthful (r : Report) : Prop := r.valid = true ↔ r.errors = []

end JT.Spec

namespace JT
open Spec Cache

theorem strLt_false_trans {a b c : Str} (h1 : strLt b a = false) (h2 : strLt c b = false) : strLt c a = false := by
  cases h : strLt c a with
  | false => rfl
  | true =>
    rcases strLt_total a b with h3 | h3 | h3
    · rw [strLt_trans h h3] at h2; cases h2
    · subst h3; rw [h] at h2; cases h2
    · rw [h3] at h1; cases h1

theorem insertStr_ascending {x : Str} : ∀ {l : List Str}, l.Pairwise (fun a b => strLt b a = false) → (insertStr x l).Pairwise fun a b => strLt b a = false
  | [], _ => by simp [insertStr]
  | y :: ys, h => by
    obtain ⟨h1, h2⟩ := List.pairwise_cons.1 h
    unfold insertStr
    split
    · rename_i hlt
      refine List.pairwise_cons.2 ⟨fun z hz => ?_, insertStr_ascending h2⟩
      rcases List.mem_cons.1 ((Gen.insertStr_perm x ys).mem_iff.1 hz) with rfl | hz
      · exact strLt_asymm hlt
      · exact h1 z hz
    · rename_i hlt
      simp only [Bool.not_eq_true] at hlt
      refine List.pairwise_cons.2 ⟨fun z hz => ?_, h⟩
      rcases List.mem_cons.1 hz with rfl | hz
      · exact hlt
      · exact strLt_false_trans hlt (h1 z hz)

theorem sortStrings_ascending : ∀ l : List Str, Ascending l (sortStrings l)
  | [] => ⟨.refl _, .nil⟩
  | x :: xs => ⟨Gen.sortStrings_perm _, insertStr_ascending (sortStrings_ascending xs).2⟩

/-- There is one way to put texts in order. -/
theorem ascending_unique {l l1 l2 : List Str} (h1 : Ascending l l1) (h2 : Ascending l l2) : l1 = l2 := by
  obtain ⟨p1, q1⟩ := h1
  obtain ⟨p2, q2⟩ := h2
  have hp : l1.Perm l2 := p1.trans p2.symm
  clear p1 p2 l
  induction l1 generalizing l2 with
  | nil => rw [hp.symm.eq_nil]
  | cons a l1 ih =>
    cases l2 with
    | nil => exact absurd hp.eq_nil (by simp)
    | cons b l2 =>
      have hab : a = b := by
        have h1 : a ∈ b :: l2 := hp.mem_iff.1 (by simp)
        have h2 : b ∈ a :: l1 := hp.mem_iff.2 (by simp)
        rcases List.mem_cons.1 h1 with h | h1
        · exact h
        rcases List.mem_cons.1 h2 with h | h2
        · exact h.symm
        have e1 := (List.pairwise_cons.1 q1).1 b h2
        have e2 := (List.pairwise_cons.1 q2).1 a h1
        rcases strLt_total a b with h | h | h
        · rw [h] at e2; cases e2
        · exact h
        · rw [h] at e1; cases e1
      subst hab
      rw [ih (List.pairwise_cons.1 q1).2 (List.pairwise_cons.1 q2).2 ((List.perm_cons a).1 hp)]

/-- The text for violations does not depend on the order in which they were found. -/
theorem violationText_unique {l l' : List Str} (hp : l.Perm l') {a b : Str} (ha : ViolationText l a) (hb : ViolationText l' b) : a = b := by
  obtain ⟨la, h1, rfl⟩ := ha
  obtain ⟨lb, h2, rfl⟩ := hb
  rw [ascending_unique h1 ⟨h2.1.trans hp.symm, h2.2⟩]

/-- **C101**: `Validate` says true without an error exactly if the library reports a valid document without violations; with violations it gives an error with the
texts of all of them in order; if the library fails so does it; and it never says false without an error. -/
theorem C101 (x : Option Report) (hx : ∀ r, x = some r → Truthful r) :
    (validateReport x = (true, none) ↔ ∃ r, x = some r ∧ r.errors = []) ∧
    (∀ r, x = some r → r.errors ≠ [] → ∃ text, ViolationText r.errors text ∧ validateReport x = (false, some text)) ∧
    (x = none → (validateReport x).1 = false ∧ (validateReport x).2 ≠ none) ∧
    validateReport x ≠ (false, none) := by
  cases x with
  | none => simp [validateReport]
  | some r =>
    obtain ⟨errors, valid⟩ := r
    have ht := hx _ rfl
    unfold Truthful at ht
    simp only at ht
    cases errors with
    | nil =>
      have hv : valid = true := ht.2 rfl
      subst hv
      simp [validateReport]
    | cons e es =>
      refine ⟨by simp [validateReport], fun r hr _ => ?_, by simp, by simp [validateReport]⟩
      cases hr
      exact ⟨_, ⟨_, sortStrings_ascending _, rfl⟩, by simp [validateReport, reportText]⟩

/-- **C101**: what `Validate` says does not depend on the order in which the library found the violations. -/
theorem C101_order {l l' : List Str} (hp : l.Perm l') (valid : Bool) : validateReport (some ⟨l, valid⟩) = validateReport (some ⟨l', valid⟩) := by
  unfold validateReport
  simp only [hp.length_eq]
  rw [ascending_unique (sortStrings_ascending l) ⟨(Gen.sortStrings_perm l').trans hp.symm, (sortStrings_ascending l').2⟩]

/-- **C101**: `Transform` returns a document only if the library reports no violations of it, and it is the one that `TransformNoValidation` returns; and then it does. -/
theorem C101_transform {env : Env} {report : Str → Option Report} (hv : env.lib.validate = validateOf report) (ht : ∀ raw r, report raw = some r → Truthful r)
    (root : T) (raw out : Str) (s : St) : (transform env root raw s).1 = .ok out ↔
      (transformNoValidation env root raw s).1 = .ok out ∧ ∃ r, report out = some r ∧ r.errors = [] := by
  have hval : ∀ o, env.lib.validate o = some true ↔ ∃ r, report o = some r ∧ r.errors = [] := fun o => by
    rw [hv, ← (C101 (report o) (ht o)).1]
    unfold validateOf
    split
    · rename_i h; rw [h]; simp
    · rename_i h; rw [h]; simp
  unfold transform validated
  rw [M.bind_apply]
  rcases transformNoValidation env root raw s with ⟨r, s1⟩
  cases r with
  | ok o =>
    simp only [Res.ok.injEq]
    have hval' := hval o
    generalize env.lib.validate o = b at hval' ⊢
    match b with
    | some true =>
      simp only [true_iff] at hval'
      exact ⟨fun h => by cases h; exact ⟨rfl, hval'⟩, fun h => by obtain ⟨rfl, _⟩ := h; rfl⟩
    | some false => exact ⟨fun h => (nomatch h), fun ⟨h1, h2⟩ => by subst h1; exact absurd (hval'.2 h2) (by simp)⟩
    | none => exact ⟨fun h => (nomatch h), fun ⟨h1, h2⟩ => by subst h1; exact absurd (hval'.2 h2) (by simp)⟩
  | err => exact ⟨fun h => (nomatch h), fun h => nomatch h.1⟩
  | panic => exact ⟨fun h => (nomatch h), fun h => nomatch h.1⟩

variable {V : Type}

/-- What the schema in the file at a path compiles to. -/
def Spec.compiled (compile : Str → Option V) (abs : Str → Option Str) (path : Str) : Option V := (abs path).bind fun p => compile (g!"file://" ++ p)

theorem newValidator_alone (compile : Str → Option V) (abs : Str → Option Str) (path : Str) :
    Alone (compileProg compile) (newValidator abs path) (compiled compile abs path) := by
  unfold newValidator compiled
  cases abs path with
  | none => exact .ret
  | some p => exact .load (r := compile (g!"file://" ++ p)) .ret .ret

/-- **C101**: any number of goroutines that make validators, for any paths and under every schedule, all end, each with the compiled schema of its own path. -/
theorem C101_load (compile : Str → Option V) (abs : Str → Option Str) (paths : List Str) :
    EndsAlways (Det (compileProg compile)) (paths.map (newValidator abs)) ∧
    ∀ s, Steps (Det (compileProg compile)) (init (paths.map (newValidator abs))) s → ∀ (i : Nat) path r, paths[i]? = some path →
      s.threads[i]? = some ⟨.run (.ret r), []⟩ → r = compiled compile abs path := by
  constructor
  · refine (C100 _ _).2.1 fun p hp => ?_
    obtain ⟨path, _, rfl⟩ := List.mem_map.1 hp
    exact ⟨_, newValidator_alone compile abs path⟩
  · intro s hs i path r hi hth
    exact alone_unique ((C67 _ _ hs).2 i (newValidator abs path) r (by rw [List.getElem?_map, hi]; rfl) hth) (newValidator_alone compile abs path)

/-- Two validators share a cache entry exactly if their absolute paths are the same. -/
theorem C101_key (p q : Str) : validatorKey p = validatorKey q ↔ p = q := by
  unfold validatorKey
  exact ⟨List.append_cancel_left, fun h => by rw [h]⟩

namespace C101ex

/-- Two violations. -/
def report : Report := ⟨[g!"b: must be a string", g!"a: is required"], false⟩

example : Truthful report := by simp [Truthful, report]
example : validateReport (some report) = (false, some g!"invalid schema: [a: is required b: must be a string]") := by decide +kernel
example : validateReport (some ⟨[], true⟩) = (true, none) ∧ Truthful ⟨[], true⟩ := ⟨rfl, by simp [Truthful]⟩
example : report.errors.Perm [g!"a: is required", g!"b: must be a string"] := .swap _ _ _

end C101ex

end JT
