import Verif.Proofs.XmlVal
import Verif.Spec.CheckXml
import Verif.Props.C03
/- C77 (the output for an XML input) and C03 (independence of map iteration order) on XML input. -/
namespace JT
open Spec

/-- **C77, full statement**: on an XML document, for any schema with plain property names that does not use the clock, the call
gives the rendering of the value of the schema on the root node of the document. -/
def C77_statement : Prop :=
  ∀ (env : Env) (sc : Schema) (ident : Str) (t : T) (s0 : St) (raw : Str) (n : NodeId), newTransformer env sc ident = .ok (t, s0) →
    PlainSchema sc → (∀ q, SchemaInst sc q → NoClock ident q) → env.fmt = .xml → env.lib.parseXML raw = some n →
    ∃ r, XSchemaVal env.lib ident n sc r ∧ (transformNoValidation env t raw s0).1.toOption = r.bind env.lib.marshal

theorem baseTransform_noParseX {env : Env} {t : T} {raw : Str} {s : St} (hf : env.fmt = .xml) (hp : env.lib.parseXML raw = none) :
    (baseTransform env t raw s).1 = .err := by
  unfold baseTransform readInput
  rw [M.bind_apply]
  simp only [hf, hp]
  rfl

/-- **C77** for schemas whose objects have no default and that do not use method `last`: Transform of an XML document is the
validated rendering of the value of the schema, the only one there is; a document that is not XML is an error.
Missing: objects with a default, for which it is false (`C77_refuted`), and method `last`. -/
theorem C77_partial {lib : Lib} {b r : Sched} {sc : Schema} {ident : Str} {t : T} {s : St} (hb : newTransformer ⟨lib, b, .xml⟩ sc ident = .ok (t, s))
    (hs : XmlSchema ident sc) (raw : Str) :
    (lib.parseXML raw = none → (transform ⟨lib, r, .xml⟩ t raw s).1 = .err ∧ (transformNoValidation ⟨lib, r, .xml⟩ t raw s).1 = .err) ∧
    ∀ n, lib.parseXML raw = some n → ∃ v, XSchemaVal lib ident n sc v ∧ (∀ w, XSchemaVal lib ident n sc w → w = v) ∧
      (transformNoValidation ⟨lib, r, .xml⟩ t raw s).1.toOption = v.bind lib.marshal ∧
      (transform ⟨lib, r, .xml⟩ t raw s).1.toOption = (v.bind lib.marshal).bind fun out => if lib.validate out = some true then some out else none := by
  refine ⟨fun hp => ?_, fun n hp => ?_⟩
  · have : (transformNoValidation ⟨lib, r, .xml⟩ t raw s).1 = .err := baseTransform_noParseX (env := ⟨lib, r, .xml⟩) rfl hp
    refine ⟨?_, this⟩
    unfold transform validated
    rw [M.bind_apply]
    revert this
    generalize transformNoValidation ⟨lib, r, .xml⟩ t raw s = x
    rcases x with ⟨x, s1⟩
    rintro ⟨⟩
    rfl
  · obtain ⟨v, h1, h2⟩ := transform_xschemaVal (env := ⟨lib, r, .xml⟩) hb hs rfl rfl hp
    refine ⟨v, h1, fun w hw => XSchemaVal.unique hw h1, h2, ?_⟩
    unfold transform
    rw [validated_toOption]
    have : (transformNoValidation ⟨lib, r, .xml⟩ t raw s).1.toOption = v.bind lib.marshal := h2
    rw [this]

/-- C03 holds for XML input and schemas whose objects have no default (arrays may have one), with any transforms on scalars,
arrays and objects, without method `last` and without `currentTime`. -/
theorem C03_xml_partial (lib : Lib) (b1 b2 r1 r2 : Sched) (sc : Schema) (ident : Str) (t1 t2 : T) (s1 s2 : St)
    (h1 : newTransformer ⟨lib, b1, .xml⟩ sc ident = .ok (t1, s1)) (h2 : newTransformer ⟨lib, b2, .xml⟩ sc ident = .ok (t2, s2))
    (hs : XmlSchema ident sc) (raw : Str) :
    (transform ⟨lib, r1, .xml⟩ t1 raw s1).1.toOption = (transform ⟨lib, r2, .xml⟩ t2 raw s2).1.toOption := by
  obtain ⟨n1, a1⟩ := C77_partial (r := r1) h1 hs raw
  obtain ⟨n2, a2⟩ := C77_partial (r := r2) h2 hs raw
  cases hp : lib.parseXML raw with
  | none => rw [(n1 hp).1, (n2 hp).1]
  | some n =>
    obtain ⟨v1, x1, -, -, e1⟩ := a1 n hp
    obtain ⟨v2, x2, -, -, e2⟩ := a2 n hp
    rw [e1, e2, XSchemaVal.unique x1 x2]

/-- A schema with top level `items` on XML input: the output is the rendering of null, whatever the document. -/
theorem C77_items {lib : Lib} {b r : Sched} {sc : Schema} {ident : Str} {t : T} {s : St} (hb : newTransformer ⟨lib, b, .xml⟩ sc ident = .ok (t, s))
    (hs : XmlSchema ident sc) (hi : sc.properties = none) (raw : Str) (n : NodeId) (hp : lib.parseXML raw = some n) :
    (transformNoValidation ⟨lib, r, .xml⟩ t raw s).1.toOption = lib.marshal nilP := by
  obtain ⟨v, h1, -, h3, -⟩ := (C77_partial (r := r) hb hs raw).2 n hp
  rw [h3]
  cases h1 with
  | object h => rw [hi] at h; simp at h
  | array => rfl

namespace C77ex
open Toy

/-- A document: the root 0 has two `b`, 1 and 2; 1 has a `c` (3, text x), 2 has a `d` (4, text y). -/
def lib' : Lib := { lib [] with
  parseXML := fun raw => if raw = g!"in" then some 0 else none
  xfind := fun n p =>
    if n = 0 ∧ (p = g!"b" ∨ p = g!"b[*]") then some [1, 2]
    else if n = 1 ∧ (p = g!"c" ∨ p = g!"c[not(*)]") then some [3]
    else if n = 2 ∧ (p = g!"d" ∨ p = g!"d[not(*)]") then some [4]
    else some []
  innerText := fun n => if n = 3 then g!"x" else if n = 4 then g!"y" else [] }

def trX (path : Str) : Str × P := (g!"transform", o [(g!"t", o [(g!"from", a [o [(g!"xmlPath", s path)]])])])

/-- An array of objects, an object with a transform, one that is not found, an array with a default. -/
def sc : Schema := ⟨some [
  (g!"f", o [(g!"type", s g!"object"), trX g!"b", (g!"properties", o [(g!"k", o [(g!"type", s g!"string"), trX g!"c"])])]),
  (g!"g", o [(g!"type", s g!"object"), trX g!"z", (g!"properties", o [(g!"k", o [(g!"type", s g!"string"), (g!"default", s g!"N")])])]),
  (g!"l", o [(g!"type", s g!"array"), trX g!"b", (g!"items", o [(g!"type", s g!"object"), (g!"properties", o [
    (g!"k", o [(g!"type", s g!"string"), trX g!"c"]),
    (g!"m", o [(g!"type", s g!"string"), (g!"default", s g!"D"), trX g!"d"])])])]),
  (g!"n", o [(g!"type", s g!"array"), trX g!"z", (g!"default", a [s g!"p", s g!"q"]), (g!"items", o [(g!"type", s g!"string")])])], none⟩

theorem covered : XmlSchema g!"t" sc := xmlSchemaB_sound (n := 6) (by decide +kernel)

def expected : Str := g!"{f:{k:\"x\"},l:[{k:\"x\",m:\"D\"},{m:\"y\"}],n:[\"p\",\"q\"]}"

/-- The hypotheses of `C77_partial` and `C03_xml_partial` are met, and the output is not trivial. -/
example : ∃ t1 s1 t2 s2, newTransformer ⟨lib', Sched.id, .xml⟩ sc g!"t" = .ok (t1, s1) ∧
    newTransformer ⟨lib', Sched.rev, .xml⟩ sc g!"t" = .ok (t2, s2) ∧ XmlSchema g!"t" sc ∧
    (transform ⟨lib', Sched.id, .xml⟩ t1 g!"in" s1).1 = .ok expected ∧
    (transform ⟨lib', Sched.rev, .xml⟩ t2 g!"in" s2).1 = .ok expected := by
  have h : (match newTransformer ⟨lib', Sched.id, .xml⟩ sc g!"t", newTransformer ⟨lib', Sched.rev, .xml⟩ sc g!"t" with
    | .ok (t1, s1), .ok (t2, s2) =>
      decide ((transform ⟨lib', Sched.id, .xml⟩ t1 g!"in" s1).1 = .ok expected) &&
      decide ((transform ⟨lib', Sched.rev, .xml⟩ t2 g!"in" s2).1 = .ok expected)
    | _, _ => false) = true := by decide +kernel
  split at h
  · rename_i t1 s1 t2 s2 h1 h2
    simp only [Bool.and_eq_true, decide_eq_true_eq] at h
    exact ⟨t1, s1, t2, s2, h1, h2, covered, h.1, h.2⟩
  · contradiction

/-- Top level items. -/
def scItems : Schema := ⟨none, some (o [(g!"type", s g!"object"), (g!"properties", o [(g!"k", o [(g!"type", s g!"string"), trX g!"c"])])])⟩
example : XmlSchema g!"t" scItems ∧ (match newTransformer ⟨lib', Sched.id, .xml⟩ scItems g!"t" with
    | .ok (t, s) => decide ((transformNoValidation ⟨lib', Sched.id, .xml⟩ t g!"in" s).1 = .ok g!"null")
    | _ => false) = true := ⟨xmlSchemaB_sound (n := 6) (by decide +kernel), by decide +kernel⟩

/-- Items with a default. -/
def itm : P := o [(g!"type", s g!"object"), (g!"default", o [(g!"z", s g!"Z")]), (g!"properties", o [(g!"k", o [(g!"type", s g!"string"), trX g!"c"])])]
def arr : P := o [(g!"type", s g!"array"), trX g!"b", (g!"items", itm)]
def scD : Schema := ⟨some [(g!"l", arr)], none⟩

def out : Option Str := match newTransformer ⟨lib', Sched.id, .xml⟩ scD g!"t" with
  | .ok (t, s0) => (transformNoValidation ⟨lib', Sched.id, .xml⟩ t g!"in" s0).1.toOption
  | _ => none

/-- The second item has a `k`, although its node has no `c`. -/
theorem out_eq : out = some g!"{l:[{k:\"x\",z:\"Z\"},{k:\"x\",z:\"Z\"}]}" := by decide +kernel

def tis (path : Str) : Instrs := ⟨[⟨[], path, []⟩], .first, []⟩

def kq : P := o [(g!"type", s g!"string"), trX g!"c"]

/-- The values of the property `k`, of an item, and of the array. -/
def kVal (n : NodeId) (upS : Str) (sub : Mod) : Option P :=
  (okP (instrsX lib' g!"string" (fun p => sub (atPath upS p)) (tis g!"c") n)).map fun p => if isNilP p then defaultOf kq else p

theorem kVal_is (n : NodeId) (upS upC sp cp : Str) (sub : Mod) : XVal lib' g!"t" n kq upS upC sp cp sub (kVal n upS sub) :=
  .scalar (ty0 := g!"string") (nu := false) (by decide +kernel) (by decide) (fun h => by simp at h) (by decide +kernel) (.some (by rfl) (by simp) (by decide +kernel))

def itmVal (n : NodeId) (sp : Str) (sub : Mod) : Option P :=
  ((optAll (fun k => (kVal n sp sub).map fun p => (k, p)) [g!"k"]).map (objectOver (defaultOf itm)))

theorem itmVal_is (n : NodeId) (upS upC sp cp : Str) (sub : Mod) : XVal lib' g!"t" n itm upS upC sp cp sub (itmVal n sp sub) :=
  .object (nu := false) (m := [(g!"k", kq)]) (f := fun _ => kVal n sp sub) (by decide +kernel) (by rfl) (by simp) (Or.inl (by rfl)) (by
    intro k q h
    simp only [List.mem_singleton, Prod.mk.injEq] at h
    obtain ⟨rfl, rfl⟩ := h
    exact kVal_is ..)

def arrVal : Option P := (okP (instrsX lib' g!"array" (fun p => id (atPath g!"$" p)) (tis g!"b") 0)).bind fun v =>
  (optAll (entryX fun i m => itmVal m (g!"$.l" ++ g!"[*]") fun p => replace1 (id p) (g!"$.l" ++ g!"[*]") (g!"$.l" ++ g!"[" ++ itoaNat i ++ g!"]"))
    (entriesX v (defaultOf arr)).zipIdx).map arrayOf

theorem arrVal_is : XVal lib' g!"t" 0 arr g!"$" g!"$" g!"$.l" g!"$.l" id arrVal :=
  .array (nu := false) (items := itm) (by decide +kernel) (by rfl) (.some (by rfl) (by simp) (by decide +kernel)) fun i m => itmVal_is ..

def scVal : Option P := (optAll (fun k => arrVal.map fun p => (k, p)) [g!"l"]).map objectOf

theorem scVal_is : XSchemaVal lib' g!"t" 0 scD scVal :=
  .object (m := [(g!"l", arr)]) (f := fun _ => arrVal) rfl (by
    intro k q h
    simp only [List.mem_singleton, Prod.mk.injEq] at h
    obtain ⟨rfl, rfl⟩ := h
    exact arrVal_is)

theorem scVal_eq : scVal.bind lib'.marshal = some g!"{l:[{k:\"x\",z:\"Z\"},{z:\"Z\"}]}" := by decide +kernel

theorem plainD : PlainSchema scD :=
  ⟨by intro m hm; simp [scD] at hm; subst hm; exact plainMapB_sound (by decide +kernel),
   fun q hq => plainPropsB_sound (checkSchema_sound (f := plainPropsB) (n := 5) (by decide +kernel) hq)⟩

end C77ex

/-- C77 is false in general: the default of an object instance is one value shared by all items of an array, the properties of
each item are written into it. -/
theorem C77_refuted : ¬ C77_statement := by
  intro hc
  have hd := C77ex.out_eq
  unfold C77ex.out at hd
  split at hd
  · rename_i t s0 hb
    obtain ⟨r, h1, h2⟩ := hc _ _ _ _ _ g!"in" 0 hb C77ex.plainD
      (fun q hq => noClockB_sound (checkSchema_sound (f := noClockB g!"t") (n := 5) (by decide +kernel) hq)) rfl (by rfl)
    rw [XSchemaVal.unique h1 C77ex.scVal_is, hd, C77ex.scVal_eq] at h2
    revert h2
    decide
  · contradiction

end JT
