import Verif.Props.C98
import Verif.Props.C77
/- C07 on XML input. -/
namespace JT
open Spec

theorem Spec.HasShape.array_xml {q v : P} (h : HasShape .xml q v) (ho : ArrayDef q) (hd : NoDefault q) : ∃ items l, q.key g!"items" = some items ∧ v = .arr l ∧ l ≠ [] ∧
    ∀ w ∈ l, w ≠ nilP ∧ ((∃ s, w = .sc s) ∨ HasShape .xml items w) := by
  cases h with
  | scalar h =>
    obtain ⟨ty0, nu, h1, h2, h3, -⟩ := h
    obtain ⟨nu', h4⟩ := ho
    rw [h4, Res.ok.injEq, Prod.mk.injEq] at h1
    exact absurd h1.1.symm h2
  | array other h1 h2 h3 h4 h5 h6 =>
    refine ⟨_, _, h2, rfl, h3, fun w hw => ⟨h4 w hw, ?_⟩⟩
    by_cases h : other w
    · exact .inl ((h5 w hw h).2.resolve_left fun hn => hn hd)
    · exact .inr (h6 w hw h)
  | object f h =>
    obtain ⟨⟨nu, h⟩, _⟩ := h
    obtain ⟨nu', h4⟩ := ho
    rw [h4, Res.ok.injEq, Prod.mk.injEq] at h
    exact absurd h.1 (by decide)

theorem place_xml {ident : Str} {sc : Schema} (hs : FreshSchema .xml ident sc) (hd : ∀ q, SchemaInst sc q → ArrayDef q → NoDefault q) {p : P} (hp : ShapedSchema .xml sc p)
    {q v : P} (h : Place sc p q v) : SchemaInst sc q ∧ v ≠ nilP ∧ ((∃ s, v = .sc s) ∨ HasShape .xml q v) := by
  induction h with
  | @prop m o k q v h1 h2 h3 h4 =>
    subst h3
    refine ⟨.inl ⟨m, k, q, h1, h2, .self q⟩, ?_⟩
    rcases hp with hp | ⟨m', o', e1, e2, e3, e4, e5⟩ | ⟨q', l, e1, e2, -⟩
    · cases hp
    · cases e2
      rw [h1, Option.some.injEq] at e1
      subst e1
      obtain ⟨g1, q', g2, g3⟩ := e5 _ h4
      rw [key_unique (hs.plain.1 m h1).1 h2 g2]
      exact ⟨g1, .inr g3⟩
    · cases e2
  | @item l q v h1 h2 h3 =>
    subst h2
    refine ⟨.inr ⟨q, h1, .self q⟩, ?_⟩
    rcases hp with hp | ⟨m', o', e1, e2, -⟩ | ⟨q', l', e1, e2, e3, e4⟩
    · cases hp
    · cases e2
    · cases e2
      rw [h1, Option.some.injEq] at e1
      subst e1
      obtain ⟨g1, g2 | g2⟩ := e4 v h3
      · exact ⟨g1, .inl g2.2⟩
      · exact ⟨g1, .inr g2⟩
  | @inner q q' v m o k h1 h2 h3 h4 h5 ih =>
    obtain ⟨i1, i2, ⟨_, i3⟩ | i3⟩ := ih
    · cases i3
    obtain ⟨m', o', e1, e2, -, -, e5⟩ := i3.object_inv h2
    cases e2
    rw [h3, Option.some.injEq, P.obj.injEq] at e1
    subst e1
    obtain ⟨g1, q1, g2, g3⟩ := e5 _ h5
    rw [key_unique ((hs.plain.2 q i1) m h3).1 h4 g2]
    exact ⟨SchemaInst.inner i1 (.prop (.self q) h3 g2), g1, .inr g3⟩
  | @elem q q' v l h1 h2 h3 h4 ih =>
    obtain ⟨i1, i2, ⟨_, i3⟩ | i3⟩ := ih
    · cases i3
    obtain ⟨items, l', e1, e2, -, e4⟩ := i3.array_xml h2 (hd q i1 h2)
    cases e2
    rw [h3, Option.some.injEq] at e1
    subst e1
    obtain ⟨g1, g2⟩ := e4 v h4
    exact ⟨SchemaInst.inner i1 (.items (.self q) h3), g1, g2⟩

/-- **C07** at every place of the output, for XML input and schemas with plain property names in which neither objects nor arrays have defaults; transforms are not
restricted.  No place holds a null; at the place of an object instance is an object with at least one property, all of them declared and none null, and at the place of
an array instance a non-empty array without nulls.  Only entries of arrays may be scalars in place of these, and properties that are objects or arrays never are empty or scalars. -/
theorem C07_xml_partial {env0 : Env} {sc : Schema} {ident : Str} {t : T} {s0 : St} (hb : newTransformer env0 sc ident = .ok (t, s0)) {env : Env} (hf : env.fmt = .xml)
    (hs : FreshSchema .xml ident sc) (hd : ∀ q, SchemaInst sc q → ArrayDef q → NoDefault q) {history : List (Env × Str)} (hh : ∀ c ∈ history, c.1.fmt = .xml) {raw out : Str}
    (ho : (transform env t raw (afterCalls t history s0)).1 = .ok out ∨ (transformNoValidation env t raw (afterCalls t history s0)).1 = .ok out) :
    ∃ p, env.lib.marshal p = some out ∧ ∀ q v, Place sc p q v → v ≠ nilP ∧
      (ObjectInst q → (∃ s, v = .sc s) ∨ ∃ m o, q.key g!"properties" = some (.obj m) ∧ v = .obj o ∧ o ≠ [] ∧ ∀ kv ∈ o, kv.2 ≠ nilP ∧ ∃ q', (kv.1, q') ∈ m ∧
        (ObjectInst q' → ∃ o', kv.2 = .obj o' ∧ o' ≠ []) ∧ (ArrayDef q' → ∃ l, kv.2 = .arr l ∧ l ≠ [])) ∧
      (ArrayDef q → (∃ s, v = .sc s) ∨ ∃ l, v = .arr l ∧ l ≠ [] ∧ ∀ w ∈ l, w ≠ nilP) := by
  obtain ⟨p, h1, h2⟩ := C98_partial hb (by rw [hf]; exact hs) (by rw [hf]; exact hh) ho
  rw [hf] at h2
  refine ⟨p, h1, fun q v hpl => ?_⟩
  obtain ⟨i1, g1, g2⟩ := place_xml hs hd h2 hpl
  refine ⟨g1, fun ho => ?_, fun ha => ?_⟩
  · rcases g2 with g2 | g2
    · exact .inl g2
    obtain ⟨m, o, e1, e2, e3, -, e5⟩ := g2.object_inv ho
    refine .inr ⟨m, o, e1, e2, e3, fun kv hkv => ⟨(e5 kv hkv).1, ?_⟩⟩
    obtain ⟨q', hq, hsh⟩ := (e5 kv hkv).2
    refine ⟨q', hq, fun ho' => ?_, fun ha' => ?_⟩
    · obtain ⟨_, o', -, f2, f3, -⟩ := hsh.object_inv ho'
      exact ⟨o', f2, f3⟩
    · obtain ⟨_, l, -, f2, f3, -⟩ := hsh.array_xml ha' (hd q' (SchemaInst.inner i1 (.prop (.self q) e1 hq)) ha')
      exact ⟨l, f2, f3⟩
  · rcases g2 with g2 | g2
    · exact .inl g2
    obtain ⟨items, l, -, e2, e3, e4⟩ := g2.array_xml ha (hd q i1 ha)
    exact .inr ⟨l, e2, e3, fun w hw => (e4 w hw).1⟩

namespace C07Xex
open Toy C77ex
/-- An object with a transform, one that is not found, an array of objects. -/
def sc : Schema := ⟨some [
  (g!"f", o [(g!"type", s g!"object"), trX g!"b", (g!"properties", o [(g!"k", o [(g!"type", s g!"string"), trX g!"c"])])]),
  (g!"g", o [(g!"type", s g!"object"), trX g!"z", (g!"properties", o [(g!"k", o [(g!"type", s g!"string"), (g!"default", s g!"N")])])]),
  (g!"l", o [(g!"type", s g!"array"), trX g!"b", (g!"items", o [(g!"type", s g!"object"), (g!"properties", o [
    (g!"k", o [(g!"type", s g!"string"), trX g!"c"]),
    (g!"m", o [(g!"type", s g!"string"), (g!"default", s g!"D"), trX g!"d"])])])])], none⟩

def arrayB (q : P) : Bool := match fieldType q with
  | .ok (ty, _) => decide (ty ≠ g!"array") || isNilB ((q.key g!"default").getD nilP)
  | _ => true

theorem noDefault (q : P) (h : SchemaInst sc q) (ha : ArrayDef q) : NoDefault q := by
  have := checkSchema_sound (f := arrayB) (n := 6) (s := sc) (by decide +kernel) h
  obtain ⟨nu, ha⟩ := ha
  unfold arrayB at this
  rw [ha] at this
  simp only [ne_eq, not_true_eq_false, decide_false, Bool.false_or] at this
  unfold NoDefault
  generalize (q.key g!"default").getD nilP = d at this
  unfold isNilB at this
  split at this
  · rfl
  · contradiction

theorem fresh : FreshSchema .xml g!"t" sc := freshSchemaB_sound (n := 6) (by decide +kernel)

/-- The hypotheses are met, and the output has an object, an array and a property that is left out. -/
example : ∃ t s0, newTransformer ⟨lib', Sched.id, .xml⟩ sc g!"t" = .ok (t, s0) ∧
    (transformNoValidation ⟨lib', Sched.id, .xml⟩ t g!"in" (afterCalls t [] s0)).1 = .ok g!"{f:{k:\"x\"},l:[{k:\"x\",m:\"D\"},{m:\"y\"}]}" := by
  have h : (match newTransformer ⟨lib', Sched.id, .xml⟩ sc g!"t" with
    | .ok (t, s0) => decide ((transformNoValidation ⟨lib', Sched.id, .xml⟩ t g!"in" s0).1 = .ok g!"{f:{k:\"x\"},l:[{k:\"x\",m:\"D\"},{m:\"y\"}]}")
    | _ => false) = true := by decide +kernel
  split at h
  · rename_i t s0 h1
    exact ⟨t, s0, h1, of_decide_eq_true h⟩
  · contradiction

example {t : T} {s0 : St} (h : newTransformer ⟨lib', Sched.id, .xml⟩ sc g!"t" = .ok (t, s0)) {raw out : Str}
    (ho : (transform ⟨lib', Sched.id, .xml⟩ t raw (afterCalls t [] s0)).1 = .ok out) :=
  C07_xml_partial (env := ⟨lib', Sched.id, .xml⟩) h rfl fresh noDefault (history := []) (by simp) (.inl ho)
end C07Xex

end JT
