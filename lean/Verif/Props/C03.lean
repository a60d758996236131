import Verif.Proofs.SchemaVal
import Verif.Spec.CheckSimple
import Verif.Props.C01
/- C03 (independence of map iteration order) and C24 (NewTransformer mirrors the schema). -/
namespace JT
open Spec

/-- **C24**: a Transformer has one node per instance of the schema, at the same position, with the type, default and
transform of the instance (`MirrorsSchema`), whatever the order in which the properties are visited. -/
theorem C24 {env : Env} {sc : Schema} {ident : Str} {t : T} {s0 : St} (hb : newTransformer env sc ident = .ok (t, s0))
    (hpl : PlainSchema sc) : MirrorsSchema env.lib ident s0 t sc := newTransformer_mirrors hb hpl

/-- **C03, full statement**: two runs of the program that differ only in map iteration orders, both when the
Transformer is built and when it is used, give the same output document. -/
def C03_statement : Prop :=
  ∀ (lib : Lib) (fmt : Format) (b1 b2 r1 r2 : Sched) (sc : Schema) (ident : Str) (t1 t2 : T) (s1 s2 : St),
    newTransformer ⟨lib, b1, fmt⟩ sc ident = .ok (t1, s1) → newTransformer ⟨lib, b2, fmt⟩ sc ident = .ok (t2, s2) →
    ∀ raw : Str, (transform ⟨lib, r1, fmt⟩ t1 raw s1).1.toOption = (transform ⟨lib, r2, fmt⟩ t2 raw s2).1.toOption

theorem validated_toOption {env : Env} {x : M Str} {s : St} : (validated env x s).1.toOption = (x s).1.toOption.bind fun out =>
    if env.lib.validate out = some true then some out else none := by
  unfold validated
  rw [M.bind_apply]
  rcases x s with ⟨r, s1⟩
  cases r with
  | ok out =>
    simp only [Res.toOption, Option.bind_some]
    rcases env.lib.validate out with _ | (_ | _) <;> rfl
  | err => rfl
  | panic => rfl

theorem baseTransform_noParse {env : Env} {t : T} {raw : Str} {s : St} (hf : env.fmt = .json) (hp : env.lib.parseJSON raw = none) :
    (baseTransform env t raw s).1 = .err := by
  unfold baseTransform readInput
  rw [M.bind_apply]
  simp only [hf, hp]
  rfl

/-- The output of Transform on a JSON input for a covered schema. -/
theorem transform_output {lib : Lib} {b r : Sched} {sc : Schema} {ident : Str} {t : T} {s : St} (hb : newTransformer ⟨lib, b, .json⟩ sc ident = .ok (t, s))
    (hs : SimpleSchema ident sc) (raw : Str) : ∃ v, (∀ p, lib.parseJSON raw = some p → SchemaVal lib ident (canon p) sc v) ∧
      (transform ⟨lib, r, .json⟩ t raw s).1.toOption = ((lib.parseJSON raw).bind fun _ => v.bind lib.marshal).bind fun out =>
        if lib.validate out = some true then some out else none := by
  cases hp : lib.parseJSON raw with
  | none =>
    refine ⟨none, by simp, ?_⟩
    unfold transform
    rw [validated_toOption]
    have : (transformNoValidation ⟨lib, r, .json⟩ t raw s).1 = .err := baseTransform_noParse (env := ⟨lib, r, .json⟩) rfl hp
    rw [this]
    rfl
  | some p =>
    obtain ⟨v, h1, h2⟩ := transform_schemaVal (env := ⟨lib, r, .json⟩) hb hs rfl rfl hp
    refine ⟨v, fun p' hp' => by simp only [Option.some.injEq] at hp'; subst hp'; exact h1, ?_⟩
    unfold transform
    rw [validated_toOption]
    have : (transformNoValidation ⟨lib, r, .json⟩ t raw s).1.toOption = v.bind lib.marshal := h2
    rw [this]
    rfl

/-- C03 holds for JSON input and schemas whose arrays and objects have neither default nor transform, without method
`last` and without `currentTime`.
Missing: XML input (see `C03_xml_partial`); schemas with array or object transforms or defaults, where it is false (below);
method `last` and `currentTime`. -/
theorem C03_partial (lib : Lib) (b1 b2 r1 r2 : Sched) (sc : Schema) (ident : Str) (t1 t2 : T) (s1 s2 : St)
    (h1 : newTransformer ⟨lib, b1, .json⟩ sc ident = .ok (t1, s1)) (h2 : newTransformer ⟨lib, b2, .json⟩ sc ident = .ok (t2, s2))
    (hs : SimpleSchema ident sc) (raw : Str) :
    (transform ⟨lib, r1, .json⟩ t1 raw s1).1.toOption = (transform ⟨lib, r2, .json⟩ t2 raw s2).1.toOption := by
  obtain ⟨v1, a1, e1⟩ := transform_output (r := r1) h1 hs raw
  obtain ⟨v2, a2, e2⟩ := transform_output (r := r2) h2 hs raw
  rw [e1, e2]
  cases hp : lib.parseJSON raw with
  | none => rfl
  | some p => rw [SchemaVal.unique (a1 p hp) (a2 p hp)]

namespace C03ex
open Toy

/-- A covered schema: nested objects and arrays, defaults, transforms. -/
def sc : Schema := ⟨some [
  (g!"l", o [(g!"type", s g!"array"), (g!"items", o [(g!"type", s g!"object"), (g!"properties", o [
    (g!"b", o [(g!"type", s g!"string"), (g!"transform", o [(g!"t", o [(g!"from", a [o [(g!"jsonPath", s g!"@.d")]])])])]),
    (g!"c", o [(g!"type", s g!"number"), (g!"default", i 7)])])])]),
  (g!"x", strFrom g!"concatenate" [g!"$.p", g!"$.q"])], none⟩

def docs : List (Str × P) := [(g!"in", o [(g!"l", a [o [(g!"d", s g!"D"), (g!"c", i 1)], o [(g!"d", s g!"E")]]), (g!"p", s g!"P"), (g!"q", s g!"Q")])]

theorem simple : SimpleSchema g!"t" sc := simpleSchemaB_sound (n := 6) (by decide +kernel)

/-- The hypotheses of `C03_partial` and `C24` are met, and the transformation is not trivial. -/
example : ∃ t1 s1 t2 s2, newTransformer ⟨lib docs, Sched.id, .json⟩ sc g!"t" = .ok (t1, s1) ∧
    newTransformer ⟨lib docs, Sched.rev, .json⟩ sc g!"t" = .ok (t2, s2) ∧ SimpleSchema g!"t" sc ∧ PlainSchema sc ∧
    (transform ⟨lib docs, Sched.id, .json⟩ t1 g!"in" s1).1 = .ok g!"{l:[{b:\"D\",c:1},{b:\"E\",c:7}],x:\"PQ\"}" ∧
    (transform ⟨lib docs, Sched.rev, .json⟩ t2 g!"in" s2).1 = .ok g!"{l:[{b:\"D\",c:1},{b:\"E\",c:7}],x:\"PQ\"}" := by
  have h : (match newTransformer ⟨lib docs, Sched.id, .json⟩ sc g!"t", newTransformer ⟨lib docs, Sched.rev, .json⟩ sc g!"t" with
    | .ok (t1, s1), .ok (t2, s2) =>
      decide ((transform ⟨lib docs, Sched.id, .json⟩ t1 g!"in" s1).1 = .ok g!"{l:[{b:\"D\",c:1},{b:\"E\",c:7}],x:\"PQ\"}") &&
      decide ((transform ⟨lib docs, Sched.rev, .json⟩ t2 g!"in" s2).1 = .ok g!"{l:[{b:\"D\",c:1},{b:\"E\",c:7}],x:\"PQ\"}")
    | _, _ => false) = true := by decide +kernel
  split at h
  · rename_i t1 s1 t2 s2 h1 h2
    simp only [Bool.and_eq_true, decide_eq_true_eq] at h
    exact ⟨t1, s1, t2, s2, h1, h2, simple, simple.plain, h.1, h.2⟩
  · contradiction

/-- An array with a transform, and a sibling reading the input at the place of the array. -/
def arraySc : Schema := ⟨some [
  (g!"a", o [(g!"type", s g!"array"), (g!"items", o [(g!"type", s g!"string")]),
    (g!"transform", o [(g!"t", o [(g!"from", a [o [(g!"jsonPath", s g!"$.b")]])])])]),
  (g!"c", strFrom g!"first" [g!"$.a[0]"])], none⟩

/-- An object with a transform; its child is written into the input. -/
def objectSc : Schema := ⟨some [
  (g!"o", o [(g!"type", s g!"object"), (g!"properties", o [(g!"p", strFrom g!"first" [g!"$.y"])]),
    (g!"transform", o [(g!"t", o [(g!"from", a [o [(g!"jsonPath", s g!"$.x")]])])])]),
  (g!"r", strFrom g!"first" [g!"$.x.p"])], none⟩

def docs2 : List (Str × P) := [(g!"in", o [(g!"b", a [s g!"B", s g!"C"])]), (g!"in2", o [(g!"x", o [(g!"z", s g!"Z")]), (g!"y", s g!"Y")])]

/-- Results with children visited in order, and in reverse order. -/
def two (sc : Schema) (raw : Str) : Option (Str × Str) :=
  match newTransformer ⟨lib docs2, Sched.id, .json⟩ sc g!"t" with
  | .ok (t, s0) =>
    match (transform ⟨lib docs2, Sched.id, .json⟩ t raw s0).1, (transform ⟨lib docs2, Sched.rev, .json⟩ t raw s0).1 with
    | .ok x, .ok y => some (x, y)
    | _, _ => none
  | _ => none

theorem array_differs : two arraySc g!"in" = some (g!"{a:[\"B\",\"C\"],c:\"B\"}", g!"{a:[\"B\",\"C\"]}") := by decide +kernel

theorem object_differs : two objectSc g!"in2" = some (g!"{o:{p:\"Y\",z:\"Z\"},r:\"Y\"}", g!"{o:{p:\"Y\",z:\"Z\"}}") := by decide +kernel

end C03ex

theorem C03_of_two {sc : Schema} {raw x y : Str} (h : C03ex.two sc raw = some (x, y)) (hne : x ≠ y) : ¬ C03_statement := by
  intro hc
  unfold C03ex.two at h
  split at h
  · rename_i t s0 hb
    have := hc _ .json Sched.id Sched.id Sched.id Sched.rev sc _ t t s0 s0 hb hb raw
    split at h
    · rename_i x' y' hx hy
      simp only [Option.some.injEq, Prod.mk.injEq] at h
      rw [hx, hy] at this
      simp only [Res.toOption, Option.some.injEq] at this
      exact hne (by rw [← h.1, ← h.2, this])
    · contradiction
  · contradiction

/-- C03 is false in general: the result of an array transform is written into the decoded input, so whether a sibling
instance sees it depends on the iteration order. -/
theorem C03_refuted_array : ¬ C03_statement := C03_of_two C03ex.array_differs (by decide)

/-- C03 is false in general: the result of an object transform is a map of the decoded input and the children are saved
there, so whether a sibling sees them depends on the iteration order. -/
theorem C03_refuted_object : ¬ C03_statement := C03_of_two C03ex.object_differs (by decide)

end JT
