import Verif.Props.C04
import Verif.Props.C11
import Verif.Props.C136
/- C140: transforming the output of a schema without transforms again changes nothing. -/
namespace JT
open Spec

namespace Spec

/-- What `json.Unmarshal` reads of the text that `json.Marshal` writes for a value: numbers are read as float64, times as strings; `tm` are the times
that may occur. -/
inductive ReadBack (lib : Lib) (tm : GTime → Prop) : P → P → Prop
  | nil : ReadBack lib tm nilP nilP
  | bool (b : Bool) : ReadBack lib tm (.sc (.bool b)) (.sc (.bool b))
  | str (s : Str) : ReadBack lib tm (.sc (.str s)) (.sc (.str s))
  | f64 (f : F64) : ReadBack lib tm (.sc (.f64 f)) (.sc (.f64 f))
  | int (i : Int) : ReadBack lib tm (.sc (.int i)) (.sc (.f64 (lib.ofInt i)))
  | time {t : GTime} {s : Str} : tm t → s ≠ [] → lib.parseTime g!"2006-01-02T15:04:05Z07:00" s = some t → ReadBack lib tm (.sc (.time t)) (.sc (.str s))
  | arr {l l' : List P} : l.length = l'.length → (∀ (i : Nat) y y', l[i]? = some y → l'[i]? = some y' → ReadBack lib tm y y') → ReadBack lib tm (.arr l) (.arr l')
  | obj {m m' : List (Str × P)} : m.map Prod.fst = m'.map Prod.fst → (∀ k y y', (k, y) ∈ m → (k, y') ∈ m' → ReadBack lib tm y y') →
      ReadBack lib tm (.obj m) (.obj m')

mutual
/-- The value with float64 for all numbers. -/
def floats (lib : Lib) : P → P
  | .sc (.int i) => .sc (.f64 (lib.ofInt i))
  | .sc s => .sc s
  | .arr l => .arr (floatsList lib l)
  | .obj m => .obj (floatsFields lib m)
def floatsList (lib : Lib) : List P → List P
  | [] => []
  | p :: ps => floats lib p :: floatsList lib ps
def floatsFields (lib : Lib) : List (Str × P) → List (Str × P)
  | [] => []
  | (k, p) :: ps => (k, floats lib p) :: floatsFields lib ps
end

/-- Instances are arrays, objects with properties, booleans, numbers and strings. -/
def UsualType (q : P) : Prop := ∀ ty nu, fieldType q = .ok (ty, nu) →
  ty = g!"array" ∨ (ty = g!"object" ∧ q.key g!"properties" ≠ some (.obj [])) ∨ ty = g!"boolean" ∨ ty = g!"number" ∨ ty = g!"integer" ∨ ty = g!"string"

/-- A value converted to a scalar type, or the default. -/
def filledPart (lib : Lib) (ty : Str) (d : P) (x : Option P) : Option P := (scalarPart lib ty x).map fun v => if isNilP v then d else v

/-- `Filled lib raw x r`: projecting the part `x` of the input onto the instance `raw` (C04), with defaults where there are no values, gives `r`. -/
inductive Filled (lib : Lib) : P → Option P → Option P → Prop
  | scalar {raw : P} {x : Option P} {ty0 ty : Str} {nu : Bool} :
      fieldType raw = .ok (ty0, nu) → ty0 ≠ g!"array" →
      (ty0 = g!"object" → raw.key g!"properties" = some (.obj [])) → scalarType raw ty0 = .ok ty →
      Filled lib raw x (filledPart lib ty (canon ((raw.key g!"default").getD nilP)) x)
  | array {raw : P} {x : Option P} {nu : Bool} {items : P} {f : Nat → Option P} :
      fieldType raw = .ok (g!"array", nu) → raw.key g!"items" = some items →
      (∀ i y, (itemsOf x)[i]? = some y → Filled lib items y (f i)) →
      Filled lib raw x ((optAll f (List.range (itemsOf x).length)).map arrayOf)
  | object {raw : P} {x : Option P} {nu : Bool} {m : List (Str × P)} {f : Str → Option P} :
      fieldType raw = .ok (g!"object", nu) → raw.key g!"properties" = some (.obj m) → m ≠ [] →
      (∀ k q, (k, q) ∈ m → Filled lib q (fieldOf k x) (f k)) →
      Filled lib raw x ((optAll (fun k => (f k).map fun p => (k, p)) (m.map Prod.fst)).map objectOf)

/-- The same for a whole document and a schema. -/
inductive SchemaFilled (lib : Lib) (inp : P) (sc : Schema) : Option P → Prop
  | object {m : GMap P} {f : Str → Option P} : sc.properties = some m →
      (∀ k q, (k, q) ∈ m → Filled lib q (fieldOf k (some inp)) (f k)) →
      SchemaFilled lib inp sc ((optAll (fun k => (f k).map fun p => (k, p)) (m.map Prod.fst)).map objectOf)
  | array {items : P} {f : Nat → Option P} : sc.properties = none → sc.items = some items →
      (∀ i y, (itemsOf (some inp))[i]? = some y → Filled lib items y (f i)) →
      SchemaFilled lib inp sc ((optAll f (List.range (itemsOf (some inp)).length)).map arrayOf)

/-- The default of a scalar, if there is one, is a value of its type (for times there is none). -/
def TypedDefault (q : P) : Prop := NoDefault q ∨ ∀ ty0 nu ty, fieldType q = .ok (ty0, nu) → scalarType q ty0 = .ok ty →
  ∃ s, q.key g!"default" = some (.sc s) ∧ Represents ty s

/-- A schema without transforms (for the identifier) in which only scalars have defaults, whose property names are identifiers. -/
structure FillSchema (ident : Str) (sc : Schema) : Prop where
  distinct : ∀ m, sc.properties = some m → (m.map Prod.fst).Nodup
  names : ∀ m, sc.properties = some m → ∀ kv ∈ m, isName kv.1 = true
  distinctIn : ∀ q m, SchemaInst sc q → q.key g!"properties" = some (.obj m) → (m.map Prod.fst).Nodup
  namesIn : ∀ q m, SchemaInst sc q → q.key g!"properties" = some (.obj m) → ∀ kv ∈ m, isName kv.1 = true
  noDefault : ∀ q, SchemaInst sc q → Container q → NoDefault q
  noTransform : ∀ q, SchemaInst sc q → NoTransform ident q
end Spec

/-- The property for the times `tm`, numbers `num` and defaults `dflt`: the output of a schema without transforms, given as input again, is the output again,
if encoding/json reads what it wrote, whatever calls were made before. -/
def C140_statement (tm : GTime → Prop) (num : Lib → P → Prop) (dflt : P → Prop) : Prop :=
  ∀ (lib : Lib) (b0 b1 b2 : Sched) (ident : Str) (sc : Schema) (t : T) (s0 : St), newTransformer ⟨lib, b0, .json⟩ sc ident = .ok (t, s0) →
    FillSchema ident sc → (∀ q, SchemaInst sc q → UsualType q ∧ ScalarDefault q ∧ dflt q) → ∀ (raw out : Str) (p : P), lib.parseJSON raw = some p →
    (∀ v, SchemaFilled lib (canon p) sc (some v) →
      (∃ p', lib.parseJSON out = some p' ∧ ReadBack lib tm v (canon p')) ∧ num lib v) →
    ∀ h1 h2 : List (Env × Str),
    ((transformNoValidation ⟨lib, b1, .json⟩ t raw (afterCalls t h1 s0)).1 = .ok out →
      (transformNoValidation ⟨lib, b2, .json⟩ t out (afterCalls t h2 s0)).1 = .ok out) ∧
    ((transform ⟨lib, b1, .json⟩ t raw (afterCalls t h1 s0)).1 = .ok out → (transform ⟨lib, b2, .json⟩ t out (afterCalls t h2 s0)).1 = .ok out)

theorem FillSchema_simple {ident : Str} {sc : Schema} (h : FillSchema ident sc) : SimpleSchema ident sc := by
  refine ⟨⟨fun m hm => ⟨h.distinct m hm, fun kv hkv => plainName_of_isName (h.names m hm kv hkv)⟩,
    fun q hq m hm => ⟨h.distinctIn q m hq hm, fun kv hkv => plainName_of_isName (h.namesIn q m hq hm kv hkv)⟩⟩,
    h.noDefault, fun q hq _ => h.noTransform q hq, ?_, ?_⟩
  · intro q hq tr htr hm
    rcases h.noTransform q hq with hn | hn
    · rw [hn] at htr; cases htr
    · rw [hn] at htr; cases htr; cases hm
  · intro q hq tr l e ops op htr hm
    rcases h.noTransform q hq with hn | hn
    · rw [hn] at htr; cases htr
    · rw [hn] at htr; cases htr; cases hm

theorem okP_precedence_default (r : Res P) (d : P) : okP (precedence (.ok nilP) r d) = (okP r).map fun v => if isNilP v then d else v := by
  cases r with
  | ok q =>
    show okP (if isNilP q = true then .ok d else .ok q) = some (if isNilP q = true then d else q)
    split <;> rfl
  | err => rfl
  | panic => rfl

/-- Without transforms the value of an instance is the projection of the input, with defaults. -/
theorem Val_filled {lib : Lib} {ident : Str} {inp raw : P} {up sp cp : Str} {sub : Mod} {r : Option P}
    (h : Val lib ident inp raw up sp cp sub r) : ∀ {ss : List Step}, cp = '$' :: stepsStr ss → (∀ s ∈ ss, s.ok) →
      (∀ q, Inst raw q → NoTransform ident q ∧ ∀ m, q.key g!"properties" = some (.obj m) → ∀ kv ∈ m, isName kv.1 = true) →
      Filled lib raw (getSteps P.view ss inp) r := by
  induction h with
  | @scalar raw up sp cp sub ty0 ty nu tr h1 h2 h3 h4 h5 =>
    intro ss hcp hok hinst
    obtain ⟨ht, -⟩ := hinst raw (.self _)
    have htr := Transformed.of_noTransform h5 ht
    have : okP (precedence tr (sameP lib ty cp inp) (canon ((raw.key g!"default").getD nilP))) =
        filledPart lib ty (canon ((raw.key g!"default").getD nilP)) (getSteps P.view ss inp) := by
      subst htr hcp
      rw [okP_precedence_default, sameP, jpGet_steps hok, filledPart]
      congr 1
      cases getSteps P.view ss inp with
      | none => rfl
      | some x =>
        simp only [Option.map_some, scalarPart]
        have : outP (Out.val x) = x := rfl
        rw [this]
        cases hc : convert lib P.view ty (x.depth + 1) x with
        | err => rfl
        | panic => rfl
        | ok c =>
          simp only [Res.bind]
          by_cases hn : isNilP (outP c.val) = true
          · rw [if_pos hn, if_pos hn]; rfl
          · rw [if_neg hn, if_neg hn]
            by_cases he : c.err = true
            · rw [if_pos he, if_pos he]; rfl
            · rw [if_neg he, if_neg he]; rfl
    rw [this]
    exact .scalar h1 h2 h3 h4
  | @array raw up sp cp sub nu items f h1 h2 h3 ih =>
    intro ss hcp hok hinst
    have hi := fun i => ih i (ss := ss ++ [.idx i]) (by
      subst hcp
      simp [stepsStr_append, stepsStr, stepStr]) (by
      intro s hs
      rcases List.mem_append.1 hs with hs | hs
      · exact hok s hs
      · simp at hs; subst hs; trivial) (fun q hq => hinst q (Inst.trans (.items (.self _) h2) hq))
    simp only [getSteps_snoc] at hi
    subst hcp
    rw [itemsAt_steps hok, ← itemsOf_length]
    exact .array h1 h2 fun i y hy => by rw [itemsOf_get hy]; exact hi i
  | @object raw up sp cp sub nu m f h1 h2 h3 h4 ih =>
    intro ss hcp hok hinst
    refine .object h1 h2 h3 ?_
    intro k q hkq
    have hk := (hinst raw (.self _)).2 m h2 (k, q) hkq
    have := ih k q hkq (ss := ss ++ [.key k]) (by
      subst hcp
      simp [stepsStr_append, stepsStr, stepStr]) (by
      intro s hs
      rcases List.mem_append.1 hs with hs | hs
      · exact hok s hs
      · simp at hs; subst hs; exact hk) (fun q' hq => hinst q' (Inst.trans (.prop (.self _) h2 hkq) hq))
    rw [getSteps_snoc, fieldOf_eq] at this
    exact this

theorem SchemaVal_filled {lib : Lib} {ident : Str} {inp : P} {sc : Schema} {r : Option P} (hs : FillSchema ident sc)
    (h : SchemaVal lib ident inp sc r) : SchemaFilled lib inp sc r := by
  have hinst : ∀ q, SchemaInst sc q → NoTransform ident q ∧ ∀ m, q.key g!"properties" = some (.obj m) → ∀ kv ∈ m, isName kv.1 = true :=
    fun q hq => ⟨hs.noTransform q hq, fun m hm => hs.namesIn q m hq hm⟩
  cases h with
  | @object m f h1 h2 =>
    refine .object h1 fun k q hkq => ?_
    have := Val_filled (h2 k q hkq) (ss := [.key k]) (by simp [stepsStr, stepStr]) (by
      intro s hs'; simp at hs'; subst hs'; exact hs.names m h1 (k, q) hkq)
      (fun r hr => hinst r (Or.inl ⟨m, k, q, h1, hkq, hr⟩))
    simp only [getSteps] at this
    rw [show fieldOf k (some inp) = (some inp).bind (getStep P.view (.key k)) from (fieldOf_eq k _).symm]
    have he : ((getStep P.view (Step.key k) inp).bind fun v => some v) = getStep P.view (Step.key k) inp := by
      cases getStep P.view (Step.key k) inp <;> rfl
    exact (he ▸ this : _)
  | @array items f h1 h2 h3 =>
    have hn : itemsAt lib g!"$" inp = (itemsOf (some inp)).length := by
      rw [itemsOf_length]
      exact itemsAt_steps (ss := []) (by simp) inp
    rw [hn]
    refine .array h1 h2 fun i y hy => ?_
    have := Val_filled (h3 i) (ss := [.idx i]) (by simp [stepsStr, stepStr]) (by
      intro s hs'; simp at hs'; subst hs'; trivial) (fun r hr => hinst r (Or.inr ⟨items, h2, hr⟩))
    rw [itemsOf_get hy]
    simp only [getSteps] at this
    have he : ((getStep P.view (Step.idx i) inp).bind fun v => some v) = getStep P.view (Step.idx i) inp := by
      cases getStep P.view (Step.idx i) inp <;> rfl
    exact (he ▸ this : _)

/-- **C04** also for schemas in which scalars have defaults: TransformNoValidation gives the rendering of the projection of the document on the schema, with
defaults where there are no values, and fails exactly if a scalar cannot be converted. -/
theorem C04_defaults_partial {env0 env : Env} {sc : Schema} {ident : Str} {t : T} {s0 : St} (hb : newTransformer env0 sc ident = .ok (t, s0))
    (hs : FillSchema ident sc) (hf : env.fmt = .json) (hlib : env.lib = env0.lib) {raw : Str} {p : P} (hp : env.lib.parseJSON raw = some p) :
    ∃ r, SchemaFilled env.lib (canon p) sc r ∧ (transformNoValidation env t raw s0).1.toOption = r.bind env.lib.marshal := by
  obtain ⟨r, h1, h2⟩ := transform_schemaVal hb (FillSchema_simple hs) hf hlib hp
  exact ⟨r, SchemaVal_filled hs h1, h2⟩

/-- A part is filled in one way. -/
theorem Filled_unique {lib : Lib} {raw : P} {x : Option P} {r : Option P}
    (h : Filled lib raw x r) : ∀ {r' : Option P}, Filled lib raw x r' → r = r' := by
  induction h with
  | scalar h1 h2 h3 h4 =>
    intro r' h'
    cases h' with
    | scalar g1 g2 g3 g4 =>
      rw [h1] at g1
      simp at g1
      obtain ⟨rfl, rfl⟩ := g1
      rw [h4] at g4
      simp at g4
      subst g4
      rfl
    | array g1 => rw [h1] at g1; simp at g1; exact absurd g1.1 h2
    | object g1 g2 g3 =>
      rw [h1] at g1
      simp only [Res.ok.injEq, Prod.mk.injEq] at g1
      rw [h3 g1.1] at g2
      simp at g2
      exact absurd g2.symm (by simpa using g3)
  | @array raw x nu items f h1 h2 h3 ih =>
    intro r' h'
    cases h' with
    | scalar g1 g2 => rw [h1] at g1; simp at g1; exact absurd g1.1.symm g2
    | array g1 g2 g3 =>
      rw [h2] at g2
      simp at g2
      subst g2
      congr 1
      refine optAll_congr fun i hi => ?_
      have hi : i < (itemsOf x).length := List.mem_range.1 hi
      exact ih i _ (List.getElem?_eq_getElem hi) (g3 i _ (List.getElem?_eq_getElem hi))
    | object g1 => rw [h1] at g1; simp at g1
  | object h1 h2 h3 h4 ih =>
    intro r' h'
    cases h' with
    | scalar g1 g2 g3 =>
      rw [h1] at g1
      simp only [Res.ok.injEq, Prod.mk.injEq] at g1
      rw [g3 g1.1.symm] at h2
      simp at h2
      exact absurd h2.symm (by simpa using h3)
    | array g1 => rw [h1] at g1; simp at g1
    | object g1 g2 g3 g4 =>
      rw [h2] at g2
      simp at g2
      subst g2
      congr 1
      refine optAll_congr fun k hk => ?_
      obtain ⟨⟨k', q⟩, hkq, rfl⟩ := List.mem_map.1 hk
      rw [ih k' q hkq (g4 k' q hkq)]

theorem floatsList_eq (lib : Lib) : ∀ l, floatsList lib l = l.map (floats lib)
  | [] => rfl
  | p :: ps => by rw [floatsList, floatsList_eq lib ps]; rfl

theorem floatsFields_eq (lib : Lib) : ∀ m, floatsFields lib m = m.map fun kv => (kv.1, floats lib kv.2)
  | [] => rfl
  | (k, p) :: ps => by rw [floatsFields, floatsFields_eq lib ps]; rfl

theorem sorted_mapVal {α β : Type} {g : α → β} : ∀ {m : GMap α}, GMap.Sorted m → GMap.Sorted (m.map fun kv => (kv.1, g kv.2) : List (Str × β))
  | [], _ => trivial
  | (_, _) :: _, h => by
    refine ⟨fun kv hkv => ?_, sorted_mapVal h.2⟩
    obtain ⟨x, hx, rfl⟩ := List.mem_map.1 hkv
    exact h.1 x hx

theorem isNil_floats (lib : Lib) (p : P) : isNilP (floats lib p) = isNilP p := by
  rcases p with s | l | m
  · cases s <;> rfl
  · rfl
  · rfl

/-- The part of the new input at a place where the first output has the value. -/
def partAgain (v v' : P) : Option P := if isNilP v then none else some v'

theorem ReadBack_isNil {lib : Lib} {tm : GTime → Prop} {v v' : P} (h : ReadBack lib tm v v') : isNilP v' = isNilP v := by cases h <;> rfl

theorem eq_nilP {v : P} (h : isNilP v = true) : v = nilP := by
  rcases v with s | l | m
  · cases s <;> first | rfl | cases h
  · cases h
  · cases h

theorem fieldOf_again {lib : Lib} {tm : GTime → Prop} {v v' : P} (h : ReadBack lib tm v v') (k : Str) : fieldOf k (partAgain v v') = fieldOf k (some v') := by
  unfold partAgain
  split
  · rename_i hn
    rw [← ReadBack_isNil h] at hn
    rw [eq_nilP hn]; rfl
  · rfl

theorem itemsOf_again {lib : Lib} {tm : GTime → Prop} {v v' : P} (h : ReadBack lib tm v v') : itemsOf (partAgain v v') = itemsOf (some v') := by
  unfold partAgain
  split
  · rename_i hn
    rw [← ReadBack_isNil h] at hn
    rw [eq_nilP hn]; rfl
  · rfl

theorem scalarPart_represents {lib : Lib} {ty : Str} (hty : ScalarType ty) {x : Option P} {v : P} (h : scalarPart lib ty x = some v) (hn : isNilP v = false) :
    ∃ s, v = .sc s ∧ Represents ty s := by
  rcases x with _ | x
  · simp only [scalarPart, Option.some.injEq] at h
    rw [← h] at hn; cases hn
  · simp only [scalarPart] at h
    split at h
    · rename_i c hc
      obtain ⟨s, hs, h2⟩ := C11 hty hc
      rw [hs] at h
      split at h
      · cases h; cases hn
      · split at h
        · cases h
        · cases h
          refine ⟨s, rfl, h2.resolve_left fun e => ?_⟩
          subst e; cases hn
    · cases h

theorem scalarPart_again {lib : Lib} {ty : Str} {s : Scal} {v' : P} (hs : Represents ty s) (hr : ReadBack lib (fun t => t.isZero = false) (.sc s) v') :
    scalarPart lib ty (some v') = some (floats lib (.sc s)) := by
  rcases hs with ⟨rfl, b, rfl⟩ | ⟨hty, ⟨i, rfl⟩ | ⟨f, rfl⟩⟩ | ⟨rfl, z, rfl⟩ | ⟨rfl, t, rfl⟩
  · cases hr; rfl
  · cases hr; rcases hty with rfl | rfl <;> rfl
  · cases hr; rcases hty with rfl | rfl <;> rfl
  · cases hr; rfl
  · cases hr with
    | time h1 h2 h3 =>
      have h3 : lib.parseTime rfc3339 _ = some t := h3
      simp [scalarPart, convert, P.view, convertTo, convertDateTime, h2, h3, h1, outP, isNilP, floats, P.shape]

theorem Represents_notNil {ty : Str} {s : Scal} (hs : Represents ty s) : isNilP (.sc s) = false := by
  rcases hs with ⟨rfl, b, rfl⟩ | ⟨hty, ⟨i, rfl⟩ | ⟨f, rfl⟩⟩ | ⟨rfl, z, rfl⟩ | ⟨rfl, t, rfl⟩ <;> rfl

theorem filledPart_again {lib : Lib} {ty : Str} (hty : ScalarType ty) {d : P} (hd : d = nilP ∨ ∃ s, d = .sc s ∧ Represents ty s) {x : Option P} {v v' : P}
    (h : filledPart lib ty d x = some v) (hr : ReadBack lib (fun t => t.isZero = false) v v') : filledPart lib ty d (partAgain v v') = some (floats lib v) := by
  have hv : v = nilP ∧ d = nilP ∨ ∃ s, v = .sc s ∧ Represents ty s := by
    unfold filledPart at h
    rw [Option.map_eq_some_iff] at h
    obtain ⟨w, hw, rfl⟩ := h
    by_cases hn : isNilP w = true
    · rw [if_pos hn]
      rcases hd with rfl | hd
      · exact .inl ⟨rfl, rfl⟩
      · exact .inr hd
    · rw [if_neg hn]
      exact .inr (scalarPart_represents hty hw (by simpa using hn))
  rcases hv with ⟨rfl, rfl⟩ | ⟨s, rfl, hs⟩
  · rfl
  · have hn := Represents_notNil hs
    unfold partAgain filledPart
    rw [if_neg (by simp [hn]), scalarPart_again hs hr, Option.map_some, if_neg (by rw [isNil_floats]; simp [hn])]

/-- The fields of an object again. -/
theorem fields_again {lib : Lib} {m : List (Str × P)} {f : Str → Option P} {v v' : P} {tm : GTime → Prop}
    (ih : ∀ k q, (k, q) ∈ m → ∀ w, f k = some w → ∀ w', ReadBack lib tm w w' → Filled lib q (partAgain w w') (some (floats lib w)))
    (hv : (optAll (fun k => (f k).map fun p => (k, p)) (m.map Prod.fst)).map objectOf = some v) (hr : ReadBack lib tm v v') :
    (∀ k q, (k, q) ∈ m → Filled lib q (fieldOf k (partAgain v v')) ((f k).map (floats lib))) ∧
    (optAll (fun k => ((f k).map (floats lib)).map fun p => (k, p)) (m.map Prod.fst)).map objectOf = some (floats lib v) := by
  rw [Option.map_eq_some_iff] at hv
  obtain ⟨l, hl, rfl⟩ := hv
  obtain ⟨hf, rfl⟩ := optAll_values hl
  constructor
  · intro k q hkq
    have hk : k ∈ m.map Prod.fst := List.mem_map.2 ⟨_, hkq, rfl⟩
    have hfk := hf k hk
    have key : ∃ w', ReadBack lib tm ((f k).getD nilP) w' ∧ fieldOf k (partAgain (objectOf ((m.map Prod.fst).map fun k => (k, (f k).getD nilP))) v') =
        partAgain ((f k).getD nilP) w' := by
      rw [fieldOf_again hr]
      have hkey := key_objectOf (g := fun k => (f k).getD nilP) (ks := m.map Prod.fst) k
      generalize objectOf ((m.map Prod.fst).map fun k => (k, (f k).getD nilP)) = v at hr hkey
      by_cases hn : isNilP ((f k).getD nilP) = true
      · refine ⟨nilP, by rw [eq_nilP hn]; exact .nil, ?_⟩
        rw [if_neg (by simp [hn])] at hkey
        unfold partAgain
        rw [if_pos hn]
        cases hr with
        | obj h1 h2 => exact GMap.get_none_iff.2 (h1 ▸ GMap.get_none_iff.1 hkey)
        | _ => rfl
      · rw [if_pos ⟨hk, by simpa using hn⟩] at hkey
        cases hr with
        | @obj mv mv' h1 h2 =>
          have hm := GMap.get_some_mem hkey
          have : k ∈ mv'.map Prod.fst := h1 ▸ List.mem_map.2 ⟨_, hm, rfl⟩
          rcases hg : GMap.get k mv' with _ | w'
          · exact absurd this (GMap.get_none_iff.1 hg)
          · refine ⟨w', h2 k _ w' hm (GMap.get_some_mem hg), ?_⟩
            unfold partAgain
            rw [if_neg hn]
            exact hg
        | _ => cases hkey
    obtain ⟨w', hw, e⟩ := key
    rw [e, hfk]
    exact ih k q hkq _ hfk w' hw
  · have := optAll_some (f := fun k => ((f k).map (floats lib)).map fun p => (k, p)) (g := fun k => (k, floats lib ((f k).getD nilP))) (l := m.map Prod.fst)
      (fun k hk => by show ((f k).map _).map _ = _; rw [hf k hk]; rfl)
    rw [this]
    show some _ = some _
    congr 1
    have e : (GMap.ofList (((m.map Prod.fst).map fun k => (k, floats lib ((f k).getD nilP))).filter fun kv => !isNilP kv.2) : List (Str × P)) =
        (GMap.ofList (((m.map Prod.fst).map fun k => (k, (f k).getD nilP)).filter fun kv => !isNilP kv.2) : List (Str × P)).map fun kv => (kv.1, floats lib kv.2) := by
      refine GMap.Sorted.ext (GMap.sorted_ofList _) (sorted_mapVal (GMap.sorted_ofList _)) fun k => ?_
      rw [get_map_snd, get_ofList_fun (g := fun k => floats lib ((f k).getD nilP)), get_ofList_fun (g := fun k => (f k).getD nilP)]
      simp only [isNil_floats]
      split <;> rfl
    unfold objectOf
    dsimp only
    have e2 := congrArg List.isEmpty e
    rw [List.isEmpty_map] at e2
    rw [← isEmpty_ofList, e2, isEmpty_ofList]
    split
    · rfl
    · rw [e]; rw [floats, floatsFields_eq]

/-- The items of an array again. -/
theorem items_again {lib : Lib} {items : P} {n : Nat} {f : Nat → Option P} {v v' : P} {tm : GTime → Prop}
    (ih : ∀ i, i < n → ∀ w, f i = some w → ∀ w', ReadBack lib tm w w' → Filled lib items (partAgain w w') (some (floats lib w)))
    (hv : (optAll f (List.range n)).map arrayOf = some v) (hr : ReadBack lib tm v v') :
    ∃ f' : Nat → Option P, (∀ i y, (itemsOf (partAgain v v'))[i]? = some y → Filled lib items y (f' i)) ∧
    (optAll f' (List.range (itemsOf (partAgain v v')).length)).map arrayOf = some (floats lib v) := by
  rw [Option.map_eq_some_iff] at hv
  obtain ⟨l, hl, rfl⟩ := hv
  unfold arrayOf at hr ⊢
  dsimp only at hr ⊢
  by_cases he : (l.filter fun p => !isNilP p).isEmpty = true
  · rw [if_pos he]
    exact ⟨fun _ => none, fun i y hy => by simp [partAgain, isNilP, itemsOf] at hy, rfl⟩
  · rw [if_neg he] at hr ⊢
    have hps : ∀ y ∈ l.filter (fun p => !isNilP p), isNilP y = false ∧ ∃ i, i < n ∧ f i = some y := by
      intro y hy
      obtain ⟨h1, h2⟩ := List.mem_filter.1 hy
      obtain ⟨i, hi, e⟩ := optAll_mem_inv hl h1
      exact ⟨by simpa using h2, i, List.mem_range.1 hi, e⟩
    generalize l.filter (fun p => !isNilP p) = ps at he hr hps
    cases hr with
    | @arr _ ps' hlen hq =>
      refine ⟨fun i => (ps[i]?).map (floats lib), ?_, ?_⟩
      · intro i y hy
        simp only [partAgain, isNilP, itemsOf, Bool.false_eq_true, if_false, List.getElem?_map, Option.map_eq_some_iff] at hy
        obtain ⟨y', hy', rfl⟩ := hy
        have hi : i < ps.length := hlen ▸ (List.getElem?_eq_some_iff.1 hy').1
        have hy := List.getElem?_eq_getElem hi
        obtain ⟨hn, j, hj, e⟩ := hps _ (List.getElem_mem hi)
        have := ih j hj _ e y' (hq i _ y' hy hy')
        unfold partAgain at this
        rw [if_neg (by simp [hn])] at this
        show Filled lib items (some y') ((ps[i]?).map (floats lib))
        rw [hy]
        exact this
      · have hl2 : (itemsOf (partAgain (.arr ps) (.arr ps'))).length = ps.length := by
          simp [partAgain, isNilP, itemsOf, hlen]
        rw [hl2]
        have : optAll (fun i => (ps[i]?).map (floats lib)) (List.range ps.length) = some (ps.map (floats lib)) := by
          rw [optAll_some_iff]
          refine ⟨by simp, fun i hi hi' => ?_⟩
          simp at hi
          simp [hi]
        rw [this]
        show some _ = some _
        congr 1
        have hf : (ps.map (floats lib)).filter (fun p => !isNilP p) = ps.map (floats lib) := by
          rw [List.filter_eq_self]
          intro a ha
          obtain ⟨y, hy, rfl⟩ := List.mem_map.1 ha
          rw [isNil_floats, (hps y hy).1]; rfl
        dsimp only
        rw [hf, List.isEmpty_map, if_neg he, floats, floatsList_eq]

/-- The types of scalars. -/
theorem UsualType_scalar {raw : P} {ty0 ty : Str} {nu : Bool} (hu : UsualType raw) (h1 : fieldType raw = .ok (ty0, nu)) (h2 : ty0 ≠ g!"array")
    (h3 : ty0 = g!"object" → raw.key g!"properties" = some (.obj [])) (h4 : scalarType raw ty0 = .ok ty) : ScalarType ty := by
  unfold scalarType at h4
  rcases hu _ _ h1 with e | ⟨e, e'⟩ | rfl | rfl | rfl | rfl
  · exact absurd e h2
  · exact absurd (h3 e) e'
  · rw [if_neg (by decide)] at h4; cases h4; exact .inl rfl
  · rw [if_neg (by decide)] at h4; cases h4; exact .inr (.inl rfl)
  · rw [if_neg (by decide)] at h4; cases h4; exact .inr (.inr (.inl rfl))
  · rw [if_pos rfl] at h4
    split at h4
    · cases h4; exact .inr (.inr (.inr (.inl rfl)))
    · split at h4
      · cases h4; exact .inr (.inr (.inr (.inr rfl)))
      · cases h4; exact .inr (.inr (.inr (.inl rfl)))
    · cases h4

/-- Projecting again. -/
theorem Filled_again {lib : Lib} {raw : P} {x r : Option P} (h : Filled lib raw x r) : (∀ q, Inst raw q → UsualType q ∧ TypedDefault q) →
    ∀ v, r = some v → ∀ v', ReadBack lib (fun t => t.isZero = false) v v' → Filled lib raw (partAgain v v') (some (floats lib v)) := by
  induction h with
  | @scalar raw x ty0 ty nu h1 h2 h3 h4 =>
    intro hu v hv v' hr
    have hty := UsualType_scalar (hu _ (.self _)).1 h1 h2 h3 h4
    rw [← filledPart_again hty (d := canon ((raw.key g!"default").getD nilP)) ?_ hv hr]
    · exact .scalar h1 h2 h3 h4
    · rcases (hu _ (.self _)).2 with hd | hd
      · exact .inl (canon_nilP hd)
      · obtain ⟨s, e, hs⟩ := hd _ _ _ h1 h4
        rw [e]
        exact .inr ⟨s, rfl, hs⟩
  | @array raw x nu items f h1 h2 h3 ih =>
    intro hu v hv v' hr
    obtain ⟨f', k1, k2⟩ := items_again (n := (itemsOf x).length) (items := items) (f := f)
      (fun i hi w hw w' hww => ih i _ (List.getElem?_eq_getElem hi) (fun q hq => hu q (Inst.trans (.items (.self _) h2) hq)) w hw w' hww) hv hr
    rw [← k2]
    exact .array h1 h2 k1
  | @object raw x nu m f h1 h2 h3 h4 ih =>
    intro hu v hv v' hr
    obtain ⟨k1, k2⟩ := fields_again (fun k q hkq w hw w' hww => ih k q hkq (fun q' hq => hu q' (Inst.trans (.prop (.self _) h2 hkq) hq)) w hw w' hww) hv hr
    rw [← k2]
    exact .object h1 h2 h3 k1

theorem SchemaFilled_again {lib : Lib} {inp : P} {sc : Schema} {v v' : P} (h : SchemaFilled lib inp sc (some v))
    (hu : ∀ q, SchemaInst sc q → UsualType q ∧ TypedDefault q) (hr : ReadBack lib (fun t => t.isZero = false) v v') : SchemaFilled lib v' sc (some (floats lib v)) := by
  generalize hg : some v = r at h
  cases h with
  | @object m f h1 h2 =>
    obtain ⟨k1, k2⟩ := fields_again (fun k q hkq w hw w' hww =>
      Filled_again (h2 k q hkq) (fun q' hq => hu q' (.inl ⟨m, k, q, h1, hkq, hq⟩)) w hw w' hww) hg.symm hr
    rw [← k2]
    exact .object h1 fun k q hkq => fieldOf_again hr k ▸ k1 k q hkq
  | @array items f h1 h2 h3 =>
    obtain ⟨f', k1, k2⟩ := items_again (n := (itemsOf (some inp)).length) (items := items) (f := f) (fun i hi w hw w' hww =>
      Filled_again (h3 i _ (List.getElem?_eq_getElem hi)) (fun q' hq => hu q' (.inr ⟨items, h2, hq⟩)) w hw w' hww) hg.symm hr
    rw [← k2]
    rw [itemsOf_again hr] at k1 ⊢
    exact .array h1 h2 k1

theorem SchemaFilled_unique {lib : Lib} {inp : P} {sc : Schema} {r r' : Option P} (h : SchemaFilled lib inp sc r) (h' : SchemaFilled lib inp sc r') :
    r = r' := by
  cases h with
  | object h1 h2 =>
    cases h' with
    | object g1 g2 =>
      cases h1.symm.trans g1
      congr 1
      refine optAll_congr fun k hk => ?_
      obtain ⟨⟨k', q⟩, hkq, rfl⟩ := List.mem_map.1 hk
      rw [Filled_unique (h2 k' q hkq) (g2 k' q hkq)]
    | array g1 => rw [h1] at g1; cases g1
  | array h1 h2 h3 =>
    cases h' with
    | object g1 => rw [h1] at g1; cases g1
    | array g1 g2 g3 =>
      cases h2.symm.trans g2
      congr 1
      refine optAll_congr fun i hi => ?_
      have hi := List.mem_range.1 hi
      exact Filled_unique (h3 i _ (List.getElem?_eq_getElem hi)) (g3 i _ (List.getElem?_eq_getElem hi))

/-- **C140** for outputs without the zero time whose numbers are written like their float64 (whole numbers up to 2^53 are). -/
theorem C140_partial : C140_statement (fun t => t.isZero = false) (fun lib v => lib.marshal (floats lib v) = lib.marshal v) TypedDefault := by
  intro lib b0 b1 b2 ident sc t s0 hb hs hu raw out p hp hl hist1 hist2
  obtain ⟨hc, hcs⟩ := newTransformer_clean hb (fun q hq => (hu q hq).2.1)
    (fun q hq tr htr hm => by
      rcases hs.noTransform q hq with e | e
      · rw [e] at htr; cases htr
      · rw [e] at htr; cases htr; cases hm)
  rw [afterCalls_state hc hcs, afterCalls_state hc hcs]
  have main : (transformNoValidation ⟨lib, b1, .json⟩ t raw s0).1 = .ok out → (transformNoValidation ⟨lib, b2, .json⟩ t out s0).1 = .ok out := by
    intro ho
    obtain ⟨r, h1, h2⟩ := C04_defaults_partial (env := ⟨lib, b1, .json⟩) hb hs rfl rfl hp
    rw [ho] at h2
    rcases r with _ | v
    · cases h2
    · obtain ⟨⟨p', hp', hr⟩, hm⟩ := hl v h1
      obtain ⟨r', g1, g2⟩ := C04_defaults_partial (env := ⟨lib, b2, .json⟩) hb hs rfl rfl hp'
      rw [← SchemaFilled_unique (SchemaFilled_again h1 (fun q hq => ⟨(hu q hq).1, (hu q hq).2.2⟩) hr) g1] at g2
      have h2 : some out = lib.marshal v := h2
      have g2 : (transformNoValidation ⟨lib, b2, .json⟩ t out s0).1.toOption = lib.marshal (floats lib v) := g2
      rw [hm, ← h2] at g2
      generalize (transformNoValidation ⟨lib, b2, .json⟩ t out s0).1 = z at g2
      cases z with
      | ok z => cases g2; rfl
      | err => cases g2
      | panic => cases g2
  refine ⟨main, fun ho => ?_⟩
  have h1 : (transform ⟨lib, b1, .json⟩ t raw s0).1.toOption = _ := validated_toOption
  rw [ho] at h1
  have h2 : (transform ⟨lib, b2, .json⟩ t out s0).1.toOption = _ := validated_toOption
  rcases hz : (transformNoValidation ⟨lib, b1, .json⟩ t raw s0).1 with z | _ | _
  · rw [hz] at h1
    have hzo : z = out := by
      simp only [Res.toOption, Option.bind_some] at h1
      split at h1 <;> simp_all
    subst hzo
    rw [main hz] at h2
    rw [← h1] at h2
    generalize (transform ⟨lib, b2, .json⟩ t z s0).1 = y at h2
    cases y with
    | ok y => cases h2; rfl
    | err => cases h2
    | panic => cases h2
  · rw [hz] at h1; cases h1
  · rw [hz] at h1; cases h1

namespace C140ex
open Toy

/-- A number, a string with a default, a list of strings and a time. -/
def props : GMap P := [(g!"a", o [(g!"type", s g!"number")]), (g!"d", o [(g!"type", s g!"string"), (g!"default", s g!"D")]),
  (g!"l", o [(g!"type", s g!"array"), (g!"items", o [(g!"type", s g!"string")])]), (g!"t", o [(g!"type", s g!"string"), (g!"format", s g!"date-time")])]
def sc : Schema := ⟨some props, none⟩

/-- A number with a string as default. -/
def wrong : Schema := ⟨some [(g!"a", o [(g!"type", s g!"number"), (g!"default", s g!"7")])], none⟩

def docs : List (Str × P) := [
  (g!"in", o [(g!"a", s g!"12"), (g!"b", i 1), (g!"l", a [i 5, .sc .nil, s g!"x"]), (g!"t", s g!"T1")]),
  (g!"{a:12,d:\"D\",l:[\"5\",\"x\"],t:?}", o [(g!"a", .sc (.f64 12#64)), (g!"d", s g!"D"), (g!"l", a [s g!"5", s g!"x"]), (g!"t", s g!"T1")]),
  (g!"zero", o [(g!"t", .sc (.f64 1#64))]), (g!"{d:\"D\",t:?}", o [(g!"d", s g!"D"), (g!"t", s g!"T0")]),
  (g!"large", o [(g!"a", s g!"9007199254740993")]), (g!"{a:9007199254740993,d:\"D\"}", o [(g!"a", .sc (.f64 9007199254740992#64)), (g!"d", s g!"D")]),
  (g!"none", o []), (g!"{a:\"7\"}", o [(g!"a", s g!"7")])]

/-- A library with two times, in which 1 is the number of the zero time, and which rounds a large number. -/
def lib : Lib := { Toy.lib docs with
  parseTime := fun _ x => if x = g!"T1" then some ⟨7, 0, 0⟩ else if x = g!"T0" then some ⟨-62135596800, 0, 0⟩ else none
  toInt := fun f => if f = 1#64 then -62135596800 else 0
  ofInt := fun i => if i = 9007199254740993 then 9007199254740992#64 else BitVec.ofInt 64 i }

def fillInstB (ident : Str) (q : P) : Bool :=
  (match q.key g!"properties" with
    | some (.obj m) => decide (m.map Prod.fst).Nodup && m.all fun kv => isName kv.1
    | _ => true) && noTransformB ident q

theorem fillSchema_of {ident : Str} {n : Nat} {sc : Schema} (hd : ∀ q, SchemaInst sc q → Container q → NoDefault q) (h : checkSchema (fillInstB ident) n sc = true)
    (h2 : (match sc.properties with
      | some m => decide (m.map Prod.fst).Nodup && m.all fun kv => isName kv.1
      | none => true) = true) : FillSchema ident sc := by
  have key : ∀ q, SchemaInst sc q → fillInstB ident q = true := fun q hq => checkSchema_sound h hq
  refine ⟨fun m hm => ?_, fun m hm => ?_, fun q m hq hm => ?_, fun q m hq hm => ?_, hd, fun q hq => ?_⟩
  · rw [hm] at h2
    simp only [Bool.and_eq_true, decide_eq_true_eq] at h2
    exact h2.1
  · rw [hm] at h2
    simp only [Bool.and_eq_true, List.all_eq_true] at h2
    exact h2.2
  · have := key q hq
    unfold fillInstB at this
    rw [hm] at this
    simp only [Bool.and_eq_true, decide_eq_true_eq] at this
    exact this.1.1
  · have := key q hq
    unfold fillInstB at this
    rw [hm] at this
    simp only [Bool.and_eq_true, List.all_eq_true] at this
    exact this.1.2
  · have := key q hq
    unfold fillInstB at this
    simp only [Bool.and_eq_true] at this
    exact noTransformB_sound this.2

theorem fill : FillSchema g!"t" sc := fillSchema_of (n := 4) (simpleSchemaB_sound (ident := g!"t") (n := 4) (by decide +kernel)).noDefault (by decide +kernel) (by decide +kernel)
theorem fill_wrong : FillSchema g!"t" wrong := fillSchema_of (n := 4) (simpleSchemaB_sound (ident := g!"t") (n := 4) (by decide +kernel)).noDefault (by decide +kernel) (by decide +kernel)

def usualB (q : P) : Bool := (match fieldType q with
  | .ok (ty, _) => decide (ty = g!"array" ∨ ty = g!"boolean" ∨ ty = g!"number" ∨ ty = g!"integer" ∨ ty = g!"string")
  | _ => true) && match q.key g!"default" with
    | none => true
    | some (.sc _) => true
    | _ => false

theorem usual_of {sc : Schema} (hc : checkSchema usualB 4 sc = true) {q : P} (hq : SchemaInst sc q) : UsualType q ∧ ScalarDefault q := by
  have h : usualB q = true := checkSchema_sound hc hq
  unfold usualB at h
  rw [Bool.and_eq_true] at h
  refine ⟨fun ty nu e => ?_, fun d hd => ?_⟩
  · have h := h.1
    rw [e] at h
    rcases of_decide_eq_true h with h | h
    · exact .inl h
    · exact .inr (.inr h)
  · have h := h.2
    rw [hd] at h
    rcases d with z | l | m
    · exact ⟨z, rfl⟩
    · cases h
    · cases h

/-- Defaults are missing, or strings of strings. -/
def typedB (q : P) : Bool := isNilB ((q.key g!"default").getD nilP) ||
  (match q.key g!"default" with | some (.sc (.str _)) => true | _ => false) && match fieldType q with
    | .ok (ty, _) => decide (ty = g!"string" ∧ scalarType q ty = .ok g!"string")
    | _ => false

theorem typed {q : P} (hq : SchemaInst sc q) : TypedDefault q := by
  have h : typedB q = true := checkSchema_sound (f := typedB) (n := 4) (by decide +kernel) hq
  unfold typedB at h
  rw [Bool.or_eq_true, Bool.and_eq_true] at h
  rcases h with h | ⟨h1, h2⟩
  · left
    unfold NoDefault
    generalize (q.key g!"default").getD nilP = d at h
    unfold isNilB at h
    split at h
    · rfl
    · cases h
  · right
    intro ty0 nu ty e1 e2
    rw [e1] at h2
    obtain ⟨rfl, h2⟩ := of_decide_eq_true h2
    rw [e2] at h2
    cases h2
    split at h1
    · rename_i z hz
      exact ⟨_, hz, .inr (.inr (.inl ⟨rfl, z, rfl⟩))⟩
    · cases h1

theorem usual {q : P} (hq : SchemaInst sc q) : UsualType q ∧ ScalarDefault q := usual_of (by decide +kernel) hq

/-- What the schema makes of documents. -/
theorem filled {inp : P} {f : Str → Option P} (ha : f g!"a" = filledPart lib g!"number" nilP (fieldOf g!"a" (some inp)))
    (hd : f g!"d" = filledPart lib g!"string" (s g!"D") (fieldOf g!"d" (some inp)))
    (hl : f g!"l" = (optAll (fun i => ((itemsOf (fieldOf g!"l" (some inp)))[i]?).bind (filledPart lib g!"string" nilP))
      (List.range (itemsOf (fieldOf g!"l" (some inp))).length)).map arrayOf)
    (ht : f g!"t" = filledPart lib g!"date-time" nilP (fieldOf g!"t" (some inp))) :
    SchemaFilled lib inp sc ((optAll (fun k => (f k).map fun p => (k, p)) (props.map Prod.fst)).map objectOf) := by
  refine .object rfl fun k q hkq => ?_
  simp only [props, List.mem_cons, Prod.mk.injEq, List.not_mem_nil, or_false] at hkq
  rcases hkq with ⟨rfl, rfl⟩ | ⟨rfl, rfl⟩ | ⟨rfl, rfl⟩ | ⟨rfl, rfl⟩
  · rw [ha]
    exact Filled.scalar (raw := o [(g!"type", s g!"number")]) (ty0 := g!"number") (ty := g!"number") (nu := false)
      (by decide +kernel) (by decide) (fun e => absurd e (by decide)) (by decide +kernel)
  · rw [hd]
    exact Filled.scalar (raw := o [(g!"type", s g!"string"), (g!"default", s g!"D")]) (ty0 := g!"string") (ty := g!"string") (nu := false)
      (by decide +kernel) (by decide) (fun e => absurd e (by decide)) (by decide +kernel)
  · rw [hl]
    refine .array (nu := false) (items := o [(g!"type", s g!"string")]) (by decide +kernel) rfl fun i y hy => ?_
    rw [hy]
    exact Filled.scalar (raw := o [(g!"type", s g!"string")]) (ty0 := g!"string") (ty := g!"string") (nu := false)
      (by decide +kernel) (by decide) (fun e => absurd e (by decide)) (by decide +kernel)
  · rw [ht]
    exact Filled.scalar (raw := o [(g!"type", s g!"string"), (g!"format", s g!"date-time")]) (ty0 := g!"string") (ty := g!"date-time") (nu := false)
      (by decide +kernel) (by decide) (fun e => absurd e (by decide)) (by decide +kernel)

/-- The values that are given for the documents. -/
theorem value_in {v : P} (h : SchemaFilled lib (canon (o [(g!"a", s g!"12"), (g!"b", i 1), (g!"l", a [i 5, .sc .nil, s g!"x"]), (g!"t", s g!"T1")])) sc (some v)) :
    v = o [(g!"a", i 12), (g!"d", s g!"D"), (g!"l", a [s g!"5", s g!"x"]), (g!"t", .sc (.time ⟨7, 0, 0⟩))] := by
  have := SchemaFilled_unique h (filled (f := fun k => if k = g!"a" then some (i 12) else if k = g!"d" then some (s g!"D") else
    if k = g!"l" then some (a [s g!"5", s g!"x"]) else some (.sc (.time ⟨7, 0, 0⟩))) (by rfl) (by rfl) (by rfl) (by rfl))
  exact Option.some.inj (this.trans (by rfl))

theorem value_zero {v : P} (h : SchemaFilled lib (canon (o [(g!"t", .sc (.f64 1#64))])) sc (some v)) :
    v = o [(g!"d", s g!"D"), (g!"t", .sc (.time ⟨-62135596800, 0, 0⟩))] := by
  have := SchemaFilled_unique h (filled (f := fun k => if k = g!"t" then some (.sc (.time ⟨-62135596800, 0, 0⟩)) else
    if k = g!"d" then some (s g!"D") else some nilP) (by rfl) (by rfl) (by rfl) (by rfl))
  exact Option.some.inj (this.trans (by rfl))

theorem value_large {v : P} (h : SchemaFilled lib (canon (o [(g!"a", s g!"9007199254740993")])) sc (some v)) :
    v = o [(g!"a", i 9007199254740993), (g!"d", s g!"D")] := by
  have := SchemaFilled_unique h (filled (f := fun k => if k = g!"a" then some (i 9007199254740993) else
    if k = g!"d" then some (s g!"D") else some nilP) (by rfl) (by rfl) (by rfl) (by rfl))
  exact Option.some.inj (this.trans (by rfl))

theorem value_wrong {v : P} (h : SchemaFilled lib (canon (o [])) wrong (some v)) : v = o [(g!"a", s g!"7")] := by
  have := SchemaFilled_unique h (.object (f := fun _ => some (s g!"7")) rfl fun k q hkq => by
    simp only [List.mem_cons, Prod.mk.injEq, List.not_mem_nil, or_false] at hkq
    obtain ⟨rfl, rfl⟩ := hkq
    exact Filled.scalar (x := none) (raw := o [(g!"type", s g!"number"), (g!"default", s g!"7")]) (ty0 := g!"number") (ty := g!"number") (nu := false)
      (by decide +kernel) (by decide) (fun e => absurd e (by decide)) (by decide +kernel))
  exact Option.some.inj (this.trans (by rfl))

theorem one {tm : GTime → Prop} {k : Str} {y y' : P} (h : ReadBack lib tm y y') : ReadBack lib tm (o [(k, y)]) (o [(k, y')]) :=
  .obj rfl fun k' z z' hz hz' => by
    simp only [List.mem_cons, Prod.mk.injEq, List.not_mem_nil, or_false] at hz hz'
    rw [hz.2, hz'.2]; exact h

theorem two {tm : GTime → Prop} {k1 k2 : Str} (hne : k1 ≠ k2) {y y' z z' : P} (h : ReadBack lib tm y y') (h2 : ReadBack lib tm z z') :
    ReadBack lib tm (o [(k1, y), (k2, z)]) (o [(k1, y'), (k2, z')]) :=
  .obj rfl fun k' w w' hw hw' => by
    simp only [List.mem_cons, Prod.mk.injEq, List.not_mem_nil, or_false] at hw hw'
    rcases hw with ⟨rfl, rfl⟩ | ⟨rfl, rfl⟩ <;> rcases hw' with ⟨e, rfl⟩ | ⟨e, rfl⟩
    · exact h
    · exact absurd e hne
    · exact absurd e.symm hne
    · exact h2

theorem items {tm : GTime → Prop} {y y' z z' : P} (h : ReadBack lib tm y y') (h2 : ReadBack lib tm z z') : ReadBack lib tm (a [y, z]) (a [y', z']) :=
  .arr rfl fun i w w' hw hw' => by
    rcases i with _ | _ | i
    · cases hw; cases hw'; exact h
    · cases hw; cases hw'; exact h2
    · cases hw

/-- The hypotheses of `C140_partial` and `C04_defaults_partial` are met by a document with a number, strings and a time. -/
example : ∃ t s0, newTransformer ⟨lib, Sched.id, .json⟩ sc g!"t" = .ok (t, s0) ∧ FillSchema g!"t" sc ∧
    (∀ q, SchemaInst sc q → UsualType q ∧ ScalarDefault q ∧ TypedDefault q) ∧
    ∃ p, lib.parseJSON g!"in" = some p ∧ (∀ v, SchemaFilled lib (canon p) sc (some v) →
      (∃ p', lib.parseJSON g!"{a:12,d:\"D\",l:[\"5\",\"x\"],t:?}" = some p' ∧ ReadBack lib (fun t => t.isZero = false) v (canon p')) ∧
        lib.marshal (floats lib v) = lib.marshal v) ∧
    (transform ⟨lib, Sched.id, .json⟩ t g!"in" s0).1 = .ok g!"{a:12,d:\"D\",l:[\"5\",\"x\"],t:?}" := by
  have h : (match newTransformer ⟨lib, Sched.id, .json⟩ sc g!"t" with
    | .ok (t, s0) => decide ((transform ⟨lib, Sched.id, .json⟩ t g!"in" s0).1 = .ok g!"{a:12,d:\"D\",l:[\"5\",\"x\"],t:?}")
    | _ => false) = true := by decide +kernel
  split at h
  · rename_i t s0 hb
    refine ⟨t, s0, hb, fill, fun q hq => ⟨(usual hq).1, (usual hq).2, typed hq⟩, _, rfl, fun v hv => ?_, of_decide_eq_true h⟩
    rw [value_in hv]
    refine ⟨⟨_, rfl, .obj rfl fun k y y' hy hy' => ?_⟩, by decide +kernel⟩
    simp only [List.mem_cons, Prod.mk.injEq, List.not_mem_nil, or_false] at hy
    have hy' : (k, y') ∈ [(g!"a", P.sc (.f64 12#64)), (g!"d", s g!"D"), (g!"l", a [s g!"5", s g!"x"]), (g!"t", s g!"T1")] := hy'
    simp only [List.mem_cons, Prod.mk.injEq, List.not_mem_nil, or_false] at hy'
    rcases hy with ⟨rfl, rfl⟩ | ⟨rfl, rfl⟩ | ⟨rfl, rfl⟩ | ⟨rfl, rfl⟩ <;> rcases hy' with ⟨e, rfl⟩ | ⟨e, rfl⟩ | ⟨e, rfl⟩ | ⟨e, rfl⟩ <;>
      first | exact absurd e (by decide) | skip
    · exact .int 12
    · exact .str _
    · exact items (.str _) (.str _)
    · exact .time (by decide) (by decide) (by rfl)
  · contradiction

/-- What happens to the outputs of two documents. -/
theorem differ : (match newTransformer ⟨lib, Sched.id, .json⟩ sc g!"t" with
    | .ok (t, s0) => decide ((transform ⟨lib, Sched.id, .json⟩ t g!"zero" s0).1 = .ok g!"{d:\"D\",t:?}" ∧
        (transform ⟨lib, Sched.id, .json⟩ t g!"{d:\"D\",t:?}" s0).1 = .ok g!"{d:\"D\"}" ∧
        (transform ⟨lib, Sched.id, .json⟩ t g!"large" s0).1 = .ok g!"{a:9007199254740993,d:\"D\"}" ∧
        (transform ⟨lib, Sched.id, .json⟩ t g!"{a:9007199254740993,d:\"D\"}" s0).1 = .ok g!"{a:9007199254740992,d:\"D\"}")
    | _ => false) = true := by decide +kernel

theorem differ_wrong : (match newTransformer ⟨lib, Sched.id, .json⟩ wrong g!"t" with
    | .ok (t, s0) => decide ((transform ⟨lib, Sched.id, .json⟩ t g!"none" s0).1 = .ok g!"{a:\"7\"}" ∧ (transform ⟨lib, Sched.id, .json⟩ t g!"{a:\"7\"}" s0).1 = .ok g!"{a:7}")
    | _ => false) = true := by decide +kernel
end C140ex

/-- C140 is false for all times: a number may become the zero time, which is written, but no value when read again. -/
theorem C140_refuted : ¬ C140_statement (fun _ => True) (fun lib v => lib.marshal (floats lib v) = lib.marshal v) TypedDefault := by
  intro hc
  have h := C140ex.differ
  split at h
  · rename_i t s0 hb
    obtain ⟨h1, h2, _⟩ := of_decide_eq_true h
    have := (hc _ Sched.id Sched.id Sched.id _ _ t s0 hb C140ex.fill (fun q hq => ⟨(C140ex.usual hq).1, (C140ex.usual hq).2, C140ex.typed hq⟩)
      g!"zero" g!"{d:\"D\",t:?}" _ rfl (fun v hv => by
      rw [C140ex.value_zero hv]
      exact ⟨⟨_, rfl, C140ex.two (by decide) (.str _) (.time trivial (s := g!"T0") (by decide) (by rfl))⟩, by decide +kernel⟩) [] []).2 h1
    rw [show afterCalls t [] s0 = s0 from rfl, h2] at this
    exact absurd this (by decide)
  · contradiction

/-- C140 is false for all numbers: a string with a whole number beyond 2^53 is written exactly, but read as the nearest float64. -/
theorem C140_numbers_refuted : ¬ C140_statement (fun t => t.isZero = false) (fun _ _ => True) TypedDefault := by
  intro hc
  have h := C140ex.differ
  split at h
  · rename_i t s0 hb
    obtain ⟨_, _, h1, h2⟩ := of_decide_eq_true h
    have := (hc _ Sched.id Sched.id Sched.id _ _ t s0 hb C140ex.fill (fun q hq => ⟨(C140ex.usual hq).1, (C140ex.usual hq).2, C140ex.typed hq⟩)
      g!"large" g!"{a:9007199254740993,d:\"D\"}" _ rfl (fun v hv => by
      rw [C140ex.value_large hv]
      exact ⟨⟨_, rfl, C140ex.two (by decide) (.int _) (.str _)⟩, trivial⟩) [] []).2 h1
    rw [show afterCalls t [] s0 = s0 from rfl, h2] at this
    exact absurd this (by decide)
  · contradiction

/-- C140 is false for all defaults: they are not converted to the type of the property, but the output is when it is read again. -/
theorem C140_default_refuted : ¬ C140_statement (fun t => t.isZero = false) (fun lib v => lib.marshal (floats lib v) = lib.marshal v) (fun _ => True) := by
  intro hc
  have h := C140ex.differ_wrong
  split at h
  · rename_i t s0 hb
    obtain ⟨h1, h2⟩ := of_decide_eq_true h
    have := (hc _ Sched.id Sched.id Sched.id _ _ t s0 hb C140ex.fill_wrong
      (fun q hq => ⟨(C140ex.usual_of (by decide +kernel) hq).1, (C140ex.usual_of (by decide +kernel) hq).2, trivial⟩)
      g!"none" g!"{a:\"7\"}" _ rfl (fun v hv => by
      rw [C140ex.value_wrong hv]
      exact ⟨⟨_, rfl, C140ex.one (.str _)⟩, by decide +kernel⟩) [] []).2 h1
    rw [show afterCalls t [] s0 = s0 from rfl, h2] at this
    exact absurd this (by decide)
  · contradiction

end JT
