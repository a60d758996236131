import Verif.Proofs.Project
import Verif.Props.C03
/- C04: a schema without transforms and defaults acts as a projection. -/
namespace JT
open Spec

/-- **C04** for JSON input and property names that are identifiers (false for other names, `C04_refuted`, and on XML, `C04_xml`): with a schema without transforms and defaults (property names are identifiers), TransformNoValidation on a JSON
document that parses gives the rendering of the projection of the document on the schema, and fails exactly if a scalar cannot be
converted. -/
theorem C04_partial {env0 env : Env} {sc : Schema} {ident : Str} {t : T} {s0 : St} (hb : newTransformer env0 sc ident = .ok (t, s0))
    (hs : PureSchema ident sc) (hf : env.fmt = .json) (hlib : env.lib = env0.lib) {raw : Str} {p : P} (hp : env.lib.parseJSON raw = some p) :
    ∃ r, SchemaProjected env.lib (canon p) sc r ∧ (transformNoValidation env t raw s0).1.toOption = r.bind env.lib.marshal := by
  obtain ⟨r, h1, h2⟩ := transform_schemaVal hb (PureSchema.simple hs) hf hlib hp
  exact ⟨r, SchemaVal.projected hs h1, h2⟩

namespace C04ex
open Toy

def pureInstB (ident : Str) (q : P) : Bool :=
  (match q.key g!"properties" with
    | some (.obj m) => decide (m.map Prod.fst).Nodup && m.all fun kv => isName kv.1
    | _ => true) && isNilB ((q.key g!"default").getD nilP) && noTransformB ident q

theorem pureSchema_of {ident : Str} {n : Nat} {sc : Schema} (h : checkSchema (pureInstB ident) n sc = true)
    (h2 : (match sc.properties with
      | some m => decide (m.map Prod.fst).Nodup && m.all fun kv => isName kv.1
      | none => true) = true) : PureSchema ident sc := by
  have key : ∀ q, SchemaInst sc q → pureInstB ident q = true := fun q hq => checkSchema_sound h hq
  refine ⟨?_, ?_, ?_, ?_, ?_, ?_⟩
  · intro m hm
    rw [hm] at h2
    simp only [Bool.and_eq_true, decide_eq_true_eq] at h2
    exact h2.1
  · intro m hm
    rw [hm] at h2
    simp only [Bool.and_eq_true, List.all_eq_true] at h2
    exact h2.2
  · intro q m hq hm
    have := key q hq
    unfold pureInstB at this
    rw [hm] at this
    simp only [Bool.and_eq_true, decide_eq_true_eq] at this
    exact this.1.1.1
  · intro q m hq hm
    have := key q hq
    unfold pureInstB at this
    rw [hm] at this
    simp only [Bool.and_eq_true, List.all_eq_true] at this
    exact this.1.1.2
  · intro q hq
    have := key q hq
    unfold pureInstB at this
    simp only [Bool.and_eq_true] at this
    have := this.1.2
    unfold NoDefault
    generalize (q.key g!"default").getD nilP = d at this
    unfold isNilB at this
    split at this
    · rfl
    · contradiction
  · intro q hq
    have := key q hq
    unfold pureInstB at this
    simp only [Bool.and_eq_true] at this
    exact noTransformB_sound this.2

/-- Scalars in objects in an array in an object, and a nested array. -/
def sc : Schema := ⟨some [
  (g!"l", o [(g!"type", s g!"array"), (g!"items", o [(g!"type", s g!"object"), (g!"properties", o [
    (g!"b", o [(g!"type", s g!"string")]),
    (g!"c", o [(g!"type", s g!"number")])])])]),
  (g!"m", o [(g!"type", s g!"array"), (g!"items", o [(g!"type", s g!"array"), (g!"items", o [(g!"type", s g!"boolean")])])])], none⟩

def docs : List (Str × P) := [(g!"in", o [(g!"l", a [o [(g!"b", i 5), (g!"c", s g!"12"), (g!"x", i 3)], i 9, o [(g!"b", s g!"E")]]),
  (g!"m", a [a [s g!"true"], a [], a [i 0, i 1]]), (g!"q", s g!"Q")])]

theorem pure : PureSchema g!"t" sc := pureSchema_of (n := 6) (by decide +kernel) (by decide +kernel)

/-- The hypotheses are met and the projection is as expected. -/
example : ∃ t s0, newTransformer (env docs) sc g!"t" = .ok (t, s0) ∧ PureSchema g!"t" sc ∧
    (transformNoValidation (env docs) t g!"in" s0).1 = .ok g!"{l:[{b:\"5\",c:12},{b:\"E\"}],m:[[true],[false,true]]}" := by
  have h : (match newTransformer (env docs) sc g!"t" with
    | .ok (t, s0) => decide ((transformNoValidation (env docs) t g!"in" s0).1 = .ok g!"{l:[{b:\"5\",c:12},{b:\"E\"}],m:[[true],[false,true]]}")
    | _ => false) = true := by decide +kernel
  split at h
  · rename_i t s0 hb
    exact ⟨t, s0, hb, pure, of_decide_eq_true h⟩
  · contradiction

end C04ex
end JT
