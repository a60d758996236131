import Verif.Props.C01
import Verif.Props.C20
/- C25 (validation) and C26 (malformed input). -/
namespace JT
open Spec

/-- **C25**: a document is returned by `Transform` exactly when `TransformNoValidation` returns it and the validator
accepts it; the effect on the Transformer is the same. -/
theorem C25 (env : Env) (t : T) (raw : Str) (s s' : St) (out : Str) :
    transform env t raw s = (.ok out, s') ↔ transformNoValidation env t raw s = (.ok out, s') ∧ env.lib.validate out = some true := by
  unfold transform validated
  rw [M.bind_eq_ok]
  constructor
  · rintro ⟨a, s1, h1, h2⟩
    rcases hv : env.lib.validate a with _ | (_ | _) <;> rw [hv] at h2 <;> simp only at h2
    · simp [M.fail] at h2
    · simp [M.fail] at h2
    · rw [M.pure_eq_ok] at h2
      obtain ⟨rfl, rfl⟩ := h2
      exact ⟨h1, hv⟩
  · rintro ⟨h1, h2⟩
    refine ⟨out, s', h1, ?_⟩
    simp only [h2]
    rfl

/-- A document the validator rejects, or cannot check, is not returned: the result is an error. -/
theorem C25_reject (env : Env) (t : T) (raw : Str) (s s' : St) (out : Str) (h : transformNoValidation env t raw s = (.ok out, s'))
    (hv : env.lib.validate out ≠ some true) : transform env t raw s = (.err, s') := by
  unfold transform validated
  rw [M.bind_ok h]
  rcases hv' : env.lib.validate out with _ | (_ | _)
  · rfl
  · rfl
  · contradiction

/-- Errors (and panics) of the transformation itself are passed on whatever the validator does. -/
theorem C25_fail (env : Env) (t : T) (raw : Str) (s s' : St) (h : transformNoValidation env t raw s = (.err, s')) :
    transform env t raw s = (.err, s') := by
  unfold transform validated
  rw [M.bind_err h]

namespace C25ex
open Toy
def sc : Schema := ⟨some [(g!"a", o [(g!"type", s g!"string")])], none⟩
def docs : List (Str × P) := [(g!"in", o [(g!"a", s g!"x")])]
def env : Env := Toy.env docs
def strict : Env := { env with lib := { env.lib with validate := fun _ => some false } }
def both (e : Env) : Option (Option Str × Option Str) := (newTransformer e sc g!"t").toOption.map fun x =>
  ((transform e x.1 g!"in" x.2).1.toOption, (transformNoValidation e x.1 g!"in" x.2).1.toOption)
example : both env = some (some g!"{a:\"x\"}", some g!"{a:\"x\"}") := by decide +kernel
example : both strict = some (none, some g!"{a:\"x\"}") := by decide +kernel
end C25ex

/-! ### Malformed input -/

namespace Spec
/-- The text is not a document of the input format. -/
def Malformed (env : Env) (raw : Str) : Prop :=
  match env.fmt with
  | .json => env.lib.parseJSON raw = none
  | .xml => env.lib.parseXML raw = none
end Spec

/-- Between calls: nothing to collect and no bookkeeping. -/
def Idle (s : St) : Prop := s.gc = s

theorem gc_idle (s : St) : Idle s.gc := by
  unfold Idle
  simp only [St.gc]
  split
  · simp_all [List.take_take]
  · simp_all

theorem load_fresh {p : P} {s s' : St} {v : V} (h : load p s = (.ok v, s')) : s'.tick = s.tick ∧ s'.wlog = s.wlog ∧ s'.ilog = s.ilog := by
  unfold load at h
  simp at h
  obtain ⟨_, rfl⟩ := h
  exact ⟨rfl, rfl, rfl⟩

theorem addInstrs_fresh {t : Option Instrs} {s s' : St} {r : Option Nat} (h : addInstrs t s = (.ok r, s')) :
    s'.tick = s.tick ∧ s'.wlog = s.wlog ∧ s'.ilog = s.ilog := by
  unfold addInstrs at h
  cases t <;> simp at h <;> obtain ⟨_, rfl⟩ := h <;> exact ⟨rfl, rfl, rfl⟩

theorem newInstance_fresh {lib : Lib} {path ident : Str} {raw : P} {s s' : St} {t : T}
    (h : newInstance lib ident path raw s = (.ok t, s')) : s'.tick = s.tick ∧ s'.wlog = s.wlog ∧ s'.ilog = s.ilog := by
  have comb : ∀ {p : P} {a b c : St} {v : V} {ti : Option Instrs} {r : Option Nat}, load p a = (.ok v, b) → addInstrs ti b = (.ok r, c) →
      c.tick = a.tick ∧ c.wlog = a.wlog ∧ c.ilog = a.ilog := by
    intro p a b c v ti r h1 h2
    obtain ⟨a1, a2, a3⟩ := load_fresh h1
    obtain ⟨b1, b2, b3⟩ := addInstrs_fresh h2
    exact ⟨b1.trans a1, b2.trans a2, b3.trans a3⟩
  have ho : newObject lib path ident raw s = (.ok t, s') → s'.tick = s.tick ∧ s'.wlog = s.wlog ∧ s'.ilog = s.ilog := by
    intro h
    unfold newObject at h
    simp only [M.bind_eq_ok, M.lift_eq_ok] at h
    obtain ⟨tis, _, ⟨htis, rfl⟩, d, _, ⟨hdd, rfl⟩, dv, s1, hl, tid, s2, ha, h⟩ := h
    split at h
    · rw [M.pure_eq_ok] at h; obtain ⟨_, rfl⟩ := h; exact comb hl ha
    · rw [M.pure_eq_ok] at h; obtain ⟨_, rfl⟩ := h; exact comb hl ha
    · simp [M.fail] at h
  have hs : ∀ ty, newScalar lib path ident raw ty s = (.ok t, s') → s'.tick = s.tick ∧ s'.wlog = s.wlog ∧ s'.ilog = s.ilog := by
    intro ty h
    unfold newScalar at h
    simp only [M.bind_eq_ok, M.lift_eq_ok, M.pure_eq_ok] at h
    obtain ⟨_, _, ⟨_, rfl⟩, tis, _, ⟨htis, rfl⟩, d, _, ⟨hdd, rfl⟩, dv, s1, hl, tid, s2, ha, rfl, rfl⟩ := h
    exact comb hl ha
  unfold newInstance at h
  simp only [M.bind_eq_ok, M.lift_eq_ok] at h
  obtain ⟨⟨ty, nu⟩, _, ⟨_, rfl⟩, h⟩ := h
  simp only at h
  by_cases h1 : ty = g!"object"
  · rw [if_pos h1] at h
    rcases hp : raw.key g!"properties" with _ | (_ | _ | (_ | _))
    · simp [hp, M.fail] at h
    all_goals rw [hp] at h
    · exact ho h
    · exact ho h
    · exact hs _ h
    · exact ho h
  · rw [if_neg h1] at h
    by_cases h2 : ty = g!"array"
    · rw [if_pos h2] at h
      unfold newArray at h
      simp only [M.bind_eq_ok, M.lift_eq_ok] at h
      obtain ⟨tis, _, ⟨htis, rfl⟩, d, _, ⟨hdd, rfl⟩, dv, s1, hl, tid, s2, ha, h⟩ := h
      split at h
      · rw [M.pure_eq_ok] at h; obtain ⟨_, rfl⟩ := h; exact comb hl ha
      · rw [M.pure_eq_ok] at h; obtain ⟨_, rfl⟩ := h; exact comb hl ha
      · simp [M.fail] at h
    · rw [if_neg h2] at h
      exact hs _ h

theorem newTransformer_idle {env : Env} {sc : Schema} {ident : Str} {t : T} {s0 : St} (hb : newTransformer env sc ident = .ok (t, s0)) : Idle s0 := by
  unfold newTransformer at hb
  simp only at hb
  split at hb
  · contradiction
  · rename_i r hr
    rw [Res.map_eq_ok] at hb
    obtain ⟨⟨t1, s1⟩, hw, he⟩ := hb
    simp at he
    obtain ⟨rfl, rfl⟩ := he
    have : (fun st : T × St => st.2.tick = 0 ∧ st.2.wlog = [] ∧ st.2.ilog = []) (t1, s1) := by
      refine walkRawSchema_inv (I := fun st : T × St => st.2.tick = 0 ∧ st.2.wlog = [] ∧ st.2.ilog = []) ?_ hw ⟨rfl, rfl, rfl⟩
      rintro path q ⟨ta, sa⟩ ⟨tb, sb⟩ hq hfn ⟨h1, h2, h3⟩
      unfold walker at hfn
      split at hfn
      · contradiction
      · contradiction
      · rename_i node s2 hni
        obtain ⟨a1, a2, a3⟩ := newInstance_fresh hni
        split at hfn
        · contradiction
        · contradiction
        · rw [Res.map_eq_ok] at hfn
          obtain ⟨root, hroot, he⟩ := hfn
          simp at he
          obtain ⟨rfl, rfl⟩ := he
          exact ⟨a1.trans h1, a2.trans h2, a3.trans h3⟩
    obtain ⟨h1, h2, h3⟩ := this
    unfold Idle St.gc
    simp only at h1 h2 h3 ⊢
    simp [h1, h2, h3]

theorem transform_idle (env : Env) (t : T) (raw : Str) (s : St) : Idle (transform env t raw s).2 := by
  have hn : Idle (transformNoValidation env t raw s).2 := gc_idle _
  unfold transform validated
  rw [M.bind_apply]
  rcases hx : transformNoValidation env t raw s with ⟨r, s1⟩
  rw [hx] at hn
  cases r with
  | ok out => simp only; rcases env.lib.validate out with _ | (_ | _) <;> exact hn
  | err => exact hn
  | panic => exact hn

theorem afterCalls_idle (t : T) : ∀ (history : List (Env × Str)) {s : St}, Idle s → Idle (afterCalls t history s)
  | [], _, h => h
  | (env, raw) :: rest, s, _ => afterCalls_idle t rest (transform_idle env t raw s)

theorem malformed_base {env : Env} {raw : Str} (h : Malformed env raw) (t : T) (s : St) : baseTransform env t raw s = (.err, s) := by
  have hr : readInput env raw s = (.err, s) := by
    unfold Malformed at h
    unfold readInput
    cases hf : env.fmt <;> rw [hf] at h <;> simp only at h ⊢ <;> rw [h] <;> rfl
  unfold baseTransform
  rw [M.bind_err hr]

/-- **C26**: at any time in the life of a Transformer, a text that is not a document of the input format gives an error, with and without validation, and the
Transformer is as it was before the call. -/
theorem C26 {env0 : Env} {sc : Schema} {ident : Str} {t : T} {s0 : St} (hb : newTransformer env0 sc ident = .ok (t, s0)) (history : List (Env × Str))
    (env : Env) (raw : Str) (h : Malformed env raw) :
    transformNoValidation env t raw (afterCalls t history s0) = (.err, afterCalls t history s0) ∧
    transform env t raw (afterCalls t history s0) = (.err, afterCalls t history s0) := by
  have hid := afterCalls_idle t history (newTransformer_idle hb)
  have h1 : transformNoValidation env t raw (afterCalls t history s0) = (.err, afterCalls t history s0) := by
    unfold transformNoValidation
    rw [malformed_base h]
    simp only
    rw [hid]
  exact ⟨h1, C25_fail _ _ _ _ _ h1⟩

/-- Conversely the Transformer does read a well-formed document: the first step succeeds. -/
theorem C26_conv (env : Env) (raw : Str) (s : St) (h : ¬ Malformed env raw) : ∃ v s', readInput env raw s = (.ok v, s') := by
  unfold Malformed at h
  unfold readInput
  cases hf : env.fmt <;> rw [hf] at h <;> simp only at h ⊢
  · obtain ⟨p, hp⟩ := Option.ne_none_iff_exists'.1 h
    rw [hp]; exact ⟨_, _, rfl⟩
  · obtain ⟨p, hp⟩ := Option.ne_none_iff_exists'.1 h
    rw [hp]; exact ⟨_, _, rfl⟩

example : Malformed C25ex.env g!"{" := show C25ex.env.lib.parseJSON _ = none by rfl
example : ¬ Malformed C25ex.env g!"in" := fun h : C25ex.env.lib.parseJSON _ = none => by cases h

end JT
