import Verif.Proofs.SchemaVal
import Verif.Spec.Project
/- Plain paths navigate; the semantics of a pure schema is projection. -/
namespace JT
open Spec

theorem isNameChar_of_isAlpha {c : Char} (h : isAlpha c = true) : isNameChar c = true := by simp [isNameChar, h]

theorem isName_all {k : Str} (h : isName k = true) : k.all isNameChar = true := by
  cases k with
  | nil => simp [isName] at h
  | cons c cs =>
    simp only [isName, Bool.and_eq_true] at h
    simp only [List.all_cons, Bool.and_eq_true]
    exact ⟨isNameChar_of_isAlpha h.1, h.2⟩

theorem isName_no {k : Str} (h : isName k = true) {c : Char} (hc : isNameChar c = false) : c ∉ k := by
  intro hm
  have := List.all_eq_true.1 (isName_all h) c hm
  rw [hc] at this
  contradiction

theorem plainName_of_isName {k : Str} (h : isName k = true) : PlainName k := by
  refine ⟨?_, isName_no h (by decide), isName_no h (by decide)⟩
  rintro rfl
  simp [isName] at h

/-- The text of a step. -/
def stepStr : Step → Str
  | .key k => '.' :: k
  | .idx i => '[' :: itoaNat i ++ g!"]"

def stepsStr : List Step → Str
  | [] => []
  | s :: ss => stepStr s ++ stepsStr ss

def Step.ok : Step → Prop
  | .key k => isName k = true
  | .idx _ => True

theorem stepsStr_append (a b : List Step) : stepsStr (a ++ b) = stepsStr a ++ stepsStr b := by
  induction a with
  | nil => rfl
  | cons s ss ih => simp [stepsStr, ih]

theorem takeWhile_append_stop {f : Char → Bool} : ∀ (a : Str) {b : Str}, a.all f = true → (∀ c cs, b = c :: cs → f c = false) →
    (a ++ b).takeWhile f = a ∧ (a ++ b).dropWhile f = b
  | [], [], _, _ => by simp
  | [], c :: cs, _, h => by simp [h c cs rfl]
  | x :: xs, b, h, hb => by
    simp only [List.all_cons, Bool.and_eq_true] at h
    have := takeWhile_append_stop xs h.2 hb
    simp [h.1, this.1, this.2]

theorem stepsStr_head (ss : List Step) (c : Char) (cs : Str) (h : stepsStr ss = c :: cs) : c = '.' ∨ c = '[' := by
  cases ss with
  | nil => simp [stepsStr] at h
  | cons s ss => cases s <;> simp [stepsStr, stepStr] at h <;> simp [h.1.symm]

theorem parseSteps_stepsStr : ∀ (ss : List Step) (n : Nat), (∀ s ∈ ss, s.ok) → (stepsStr ss).length < n → parseSteps n (stepsStr ss) = some ss
  | [], n, _, hn => by cases n <;> simp [parseSteps, stepsStr]
  | s :: ss, n, hok, hn => by
    cases n with
    | zero => omega
    | succ n =>
      have ih := parseSteps_stepsStr ss n (fun x hx => hok x (List.mem_cons_of_mem _ hx))
      have hs := hok s (List.mem_cons_self ..)
      cases s with
      | key k =>
        have hk : isName k = true := hs
        obtain ⟨h1, h2⟩ := takeWhile_append_stop (f := isNameChar) k (b := stepsStr ss) (isName_all hk) (by
          intro c cs hc
          rcases stepsStr_head ss c cs hc with rfl | rfl <;> decide)
        simp only [stepsStr, stepStr, List.cons_append] at hn ⊢
        rw [parseSteps, h1, h2, if_pos hk, ih]
        · rfl
        · simp only [List.length_cons, List.length_append] at hn
          omega
      | idx i =>
        obtain ⟨h1, h2⟩ := takeWhile_append_stop (f := isDigit) (itoaNat i) (b := ']' :: stepsStr ss) (itoaNat_spec i).2.1 (by
          intro c cs hc
          simp only [List.cons.injEq] at hc
          rw [← hc.1]
          decide)
        simp only [stepsStr, stepStr, List.cons_append, List.append_assoc, List.nil_append] at hn ⊢
        rw [parseSteps, h1, h2]
        simp only [(itoaNat_spec i).2.2]
        rw [if_pos trivial, ih]
        · rfl
        · simp only [List.length_cons, List.length_append] at hn
          omega

/-- Reading a plain path is navigating along its steps. -/
theorem parsePath_steps {ss : List Step} (h : ∀ s ∈ ss, s.ok) : parsePath ('$' :: stepsStr ss) = some ss := by
  rw [parsePath]
  exact parseSteps_stepsStr ss _ h (by omega)

theorem jpGet_steps {lib : Lib} {ss : List Step} (h : ∀ s ∈ ss, s.ok) (inp : P) :
    jpGet lib P.view ('$' :: stepsStr ss) inp = (getSteps P.view ss inp).map .val := by
  rw [jpGet, parsePath_steps h]

theorem getSteps_append {α : Type} (vw : View α) : ∀ (a b : List Step) (v : α), getSteps vw (a ++ b) v = (getSteps vw a v).bind (getSteps vw b)
  | [], b, v => by simp [getSteps]
  | s :: ss, b, v => by
    simp only [List.cons_append, getSteps]
    cases getStep vw s v with
    | none => rfl
    | some w => simp [getSteps_append vw ss b w]

theorem getSteps_snoc {α : Type} (vw : View α) (a : List Step) (s : Step) (v : α) : getSteps vw (a ++ [s]) v = (getSteps vw a v).bind (getStep vw s) := by
  rw [getSteps_append]
  cases getSteps vw a v with
  | none => rfl
  | some w =>
    simp only [Option.bind_some, getSteps]
    cases getStep vw s w <;> rfl

theorem fieldOf_eq (k : Str) (x : Option P) : x.bind (getStep P.view (.key k)) = fieldOf k x := by
  cases x with
  | none => rfl
  | some p => cases p <;> rfl

theorem itoaNat_zero : itoaNat 0 = g!"0" := by decide

theorem itemsOf_length (x : Option P) : (itemsOf x).length = (match x with
    | none => 0
    | some (.sc .nil) => 0
    | some (.arr l) => l.length
    | some _ => 1) := by
  cases x with
  | none => rfl
  | some p =>
    cases p with
    | sc s => cases s <;> rfl
    | obj m => rfl
    | arr l => simp [itemsOf]

theorem itemsOf_get {x y : Option P} {i : Nat} (h : (itemsOf x)[i]? = some y) : y = x.bind (getStep P.view (.idx i)) := by
  cases x with
  | none => simp [itemsOf] at h
  | some p =>
    cases p with
    | sc s =>
      cases s <;> simp only [itemsOf] at h
      · simp at h
      all_goals
        cases i with
        | zero => simp at h; subst h; rfl
        | succ i => simp at h
    | obj m =>
      simp only [itemsOf] at h
      cases i with
      | zero => simp at h; subst h; simp [getStep, P.view, P.shape, itoaNat_zero]
      | succ i => simp at h
    | arr l =>
      simp only [itemsOf, List.getElem?_map] at h
      simp only [Option.bind_some, getStep, P.view, P.shape]
      cases hl : l[i]? with
      | none => rw [hl] at h; simp at h
      | some v => rw [hl] at h; simpa using h.symm

theorem optAll_map {α β γ : Type} (f : β → Option γ) (g : α → β) : ∀ l : List α, optAll f (l.map g) = optAll (fun x => f (g x)) l
  | [] => rfl
  | x :: xs => by simp [optAll, optAll_map f g xs]

theorem canon_nilP {d : P} (h : d = nilP) : canon d = nilP := by subst h; rfl

theorem eq_nilP_of {p : P} (h : isNilP p = true) : p = nilP := by
  cases p with
  | sc s => cases s <;> simp_all [isNilP]
  | _ => simp [isNilP] at h

theorem okP_precedence (r : Res P) : okP (precedence (.ok nilP) r nilP) = okP r := by
  cases r with
  | ok q =>
    show okP (if isNilP q = true then .ok nilP else .ok q) = _
    by_cases h : isNilP q = true
    · rw [if_pos h, eq_nilP_of h]
    · rw [if_neg h]
  | err => rfl
  | panic => rfl

theorem Transformed.of_noTransform {lib : Lib} {ident : Str} {inp raw : P} {up : Str} {sub : Mod} {ty : Str} {r : Res P}
    (h : Transformed lib ident inp raw up sub ty r) (hn : NoTransform ident raw) : r = .ok nilP := by
  rcases hn with hn | hn
  · exact Transformed.unique h (.none hn)
  · exact Transformed.unique h (.empty hn)

theorem itemsAt_steps {lib : Lib} {ss : List Step} (h : ∀ s ∈ ss, s.ok) (inp : P) :
    itemsAt lib ('$' :: stepsStr ss) inp = (match getSteps P.view ss inp with
      | none => 0
      | some (.sc .nil) => 0
      | some (.arr l) => l.length
      | some _ => 1) := by
  rw [itemsAt, jpGet_steps h]
  cases getSteps P.view ss inp with
  | none => rfl
  | some p => cases p with
    | sc s => cases s <;> rfl
    | arr l => rfl
    | obj m => rfl

/-- Without transforms and defaults the value of an instance is the projection of the input. -/
theorem Val.projected {lib : Lib} {ident : Str} {inp raw : P} {up sp cp : Str} {sub : Mod} {r : Option P}
    (h : Val lib ident inp raw up sp cp sub r) : ∀ {ss : List Step}, cp = '$' :: stepsStr ss → (∀ s ∈ ss, s.ok) →
      (∀ q, Inst raw q → NoDefault q ∧ NoTransform ident q ∧ ∀ m, q.key g!"properties" = some (.obj m) → ∀ kv ∈ m, isName kv.1 = true) →
      Projected lib raw (getSteps P.view ss inp) r := by
  induction h with
  | @scalar raw up sp cp sub ty0 ty nu tr h1 h2 h3 h4 h5 =>
    intro ss hcp hok hinst
    obtain ⟨hd, ht, -⟩ := hinst raw (.self _)
    have htr := Transformed.of_noTransform h5 ht
    have : okP (precedence tr (sameP lib ty cp inp) (canon ((raw.key g!"default").getD nilP))) = scalarPart lib ty (getSteps P.view ss inp) := by
      subst htr hcp
      rw [canon_nilP hd, okP_precedence, sameP, jpGet_steps hok]
      cases getSteps P.view ss inp with
      | none => rfl
      | some x =>
        simp only [Option.map_some, scalarPart]
        have : outP (Out.val x) = x := rfl
        rw [this]
        cases hc : convert lib P.view ty (x.depth + 1) x with
        | err => rfl
        | panic => rfl
        | ok c =>
          simp only [Res.bind]
          by_cases hn : isNilP (outP c.val) = true
          · rw [if_pos hn, if_pos hn]; rfl
          · rw [if_neg hn, if_neg hn]
            by_cases he : c.err = true
            · rw [if_pos he, if_pos he]; rfl
            · rw [if_neg he, if_neg he]; rfl
    rw [this]
    exact .scalar h1 h2 h3 h4
  | @array raw up sp cp sub nu items f h1 h2 h3 ih =>
    intro ss hcp hok hinst
    have hi := fun i => ih i (ss := ss ++ [.idx i]) (by
      subst hcp
      simp [stepsStr_append, stepsStr, stepStr]) (by
      intro s hs
      rcases List.mem_append.1 hs with hs | hs
      · exact hok s hs
      · simp at hs; subst hs; trivial) (fun q hq => hinst q (Inst.trans (.items (.self _) h2) hq))
    simp only [getSteps_snoc] at hi
    subst hcp
    rw [itemsAt_steps hok, ← itemsOf_length]
    exact .array h1 h2 fun i y hy => by rw [itemsOf_get hy]; exact hi i
  | @object raw up sp cp sub nu m f h1 h2 h3 h4 ih =>
    intro ss hcp hok hinst
    refine .object h1 h2 h3 ?_
    intro k q hkq
    have hk := (hinst raw (.self _)).2.2 m h2 (k, q) hkq
    have := ih k q hkq (ss := ss ++ [.key k]) (by
      subst hcp
      simp [stepsStr_append, stepsStr, stepStr]) (by
      intro s hs
      rcases List.mem_append.1 hs with hs | hs
      · exact hok s hs
      · simp at hs; subst hs; exact hk) (fun q' hq => hinst q' (Inst.trans (.prop (.self _) h2 hkq) hq))
    rw [getSteps_snoc, fieldOf_eq] at this
    exact this

/-- A part has one projection. -/
theorem Projected.unique {lib : Lib} {raw : P} {x : Option P} {r : Option P}
    (h : Projected lib raw x r) : ∀ {r' : Option P}, Projected lib raw x r' → r = r' := by
  induction h with
  | scalar h1 h2 h3 h4 =>
    intro r' h'
    cases h' with
    | scalar g1 g2 g3 g4 =>
      rw [h1] at g1
      simp at g1
      obtain ⟨rfl, rfl⟩ := g1
      rw [h4] at g4
      simp at g4
      subst g4
      rfl
    | array g1 => rw [h1] at g1; simp at g1; exact absurd g1.1 h2
    | object g1 g2 g3 =>
      rw [h1] at g1
      simp only [Res.ok.injEq, Prod.mk.injEq] at g1
      rw [h3 g1.1] at g2
      simp at g2
      exact absurd g2.symm (by simpa using g3)
  | @array raw x nu items f h1 h2 h3 ih =>
    intro r' h'
    cases h' with
    | scalar g1 g2 => rw [h1] at g1; simp at g1; exact absurd g1.1.symm g2
    | array g1 g2 g3 =>
      rw [h2] at g2
      simp at g2
      subst g2
      congr 1
      refine optAll_congr fun i hi => ?_
      have hi : i < (itemsOf x).length := List.mem_range.1 hi
      exact ih i _ (List.getElem?_eq_getElem hi) (g3 i _ (List.getElem?_eq_getElem hi))
    | object g1 => rw [h1] at g1; simp at g1
  | object h1 h2 h3 h4 ih =>
    intro r' h'
    cases h' with
    | scalar g1 g2 g3 =>
      rw [h1] at g1
      simp only [Res.ok.injEq, Prod.mk.injEq] at g1
      rw [g3 g1.1.symm] at h2
      simp at h2
      exact absurd h2.symm (by simpa using h3)
    | array g1 => rw [h1] at g1; simp at g1
    | object g1 g2 g3 g4 =>
      rw [h2] at g2
      simp at g2
      subst g2
      congr 1
      refine optAll_congr fun k hk => ?_
      obtain ⟨⟨k', q⟩, hkq, rfl⟩ := List.mem_map.1 hk
      rw [ih k' q hkq (g4 k' q hkq)]

theorem PureSchema.simple {ident : Str} {sc : Schema} (h : PureSchema ident sc) : SimpleSchema ident sc := by
  refine ⟨⟨fun m hm => ⟨h.distinct m hm, fun kv hkv => plainName_of_isName (h.names m hm kv hkv)⟩,
    fun q hq m hm => ⟨h.distinctIn q m hq hm, fun kv hkv => plainName_of_isName (h.namesIn q m hq hm kv hkv)⟩⟩,
    fun q hq _ => h.noDefault q hq, fun q hq _ => h.noTransform q hq, ?_, ?_⟩
  · intro q hq tr htr hm
    rcases h.noTransform q hq with hn | hn
    · rw [hn] at htr; simp at htr
    · rw [hn] at htr
      simp at htr
      subst htr
      simp [P.key] at hm
  · intro q hq tr l e ops op htr hm
    rcases h.noTransform q hq with hn | hn
    · rw [hn] at htr; simp at htr
    · rw [hn] at htr
      simp at htr
      subst htr
      simp [P.key] at hm

theorem SchemaVal.projected {lib : Lib} {ident : Str} {inp : P} {sc : Schema} {r : Option P} (hs : PureSchema ident sc)
    (h : SchemaVal lib ident inp sc r) : SchemaProjected lib inp sc r := by
  have hinst : ∀ q, SchemaInst sc q → NoDefault q ∧ NoTransform ident q ∧ ∀ m, q.key g!"properties" = some (.obj m) → ∀ kv ∈ m, isName kv.1 = true :=
    fun q hq => ⟨hs.noDefault q hq, hs.noTransform q hq, fun m hm => hs.namesIn q m hq hm⟩
  cases h with
  | @object m f h1 h2 =>
    refine .object h1 fun k q hkq => ?_
    have := Val.projected (h2 k q hkq) (ss := [.key k]) (by simp [stepsStr, stepStr]) (by
      intro s hs'; simp at hs'; subst hs'; exact hs.names m h1 (k, q) hkq)
      (fun r hr => hinst r (Or.inl ⟨m, k, q, h1, hkq, hr⟩))
    simp only [getSteps] at this
    rw [show fieldOf k (some inp) = (some inp).bind (getStep P.view (.key k)) from (fieldOf_eq k _).symm]
    have he : ((getStep P.view (Step.key k) inp).bind fun v => some v) = getStep P.view (Step.key k) inp := by
      cases getStep P.view (Step.key k) inp <;> rfl
    exact (he ▸ this : _)
  | @array items f h1 h2 h3 =>
    have hn : itemsAt lib g!"$" inp = (itemsOf (some inp)).length := by
      rw [itemsOf_length]
      exact itemsAt_steps (ss := []) (by simp) inp
    rw [hn]
    refine .array h1 h2 fun i y hy => ?_
    have := Val.projected (h3 i) (ss := [.idx i]) (by simp [stepsStr, stepStr]) (by
      intro s hs'; simp at hs'; subst hs'; trivial) (fun r hr => hinst r (Or.inr ⟨items, h2, hr⟩))
    rw [itemsOf_get hy]
    simp only [getSteps] at this
    have he : ((getStep P.view (Step.idx i) inp).bind fun v => some v) = getStep P.view (Step.idx i) inp := by
      cases getStep P.view (Step.idx i) inp <;> rfl
    exact (he ▸ this : _)

end JT
