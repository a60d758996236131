import Verif.Props.C05
import Verif.Spec.CheckSimple
/- C137: what Transform returns depends only on the places of the input that the schema mentions. -/
namespace JT
open Spec

namespace Spec
/-- The paths at which an instance of a schema looks in the input: its own place, those of its transform and those of its items and properties.  `up`,
`sp`, `cp` and `sub` are as in `Val`. -/
inductive LooksAt (lib : Lib) (ident : Str) (inp : P) : P → Str → Str → Str → Mod → Str → Prop where
  | own {raw : P} {up sp cp : Str} {sub : Mod} : LooksAt lib ident inp raw up sp cp sub cp
  | source {raw tr : P} {up sp cp : Str} {sub : Mod} {tis : Instrs} {ti : Instr} : (raw.key g!"transform").bind (P.key ident) = some tr →
      parseInstrs lib tr = .ok tis → ti ∈ tis.from → LooksAt lib ident inp raw up sp cp sub (sub (atPath up ti.jsonPath))
  | item {raw items : P} {up sp cp path : Str} {sub : Mod} {i : Nat} : raw.key g!"items" = some items → i < itemsAt lib cp inp →
      LooksAt lib ident inp items (sp ++ g!"[*]") (sp ++ g!"[*]") (cp ++ g!"[" ++ itoaNat i ++ g!"]")
        (fun p => replace1 (sub p) (cp ++ g!"[*]") (cp ++ g!"[" ++ itoaNat i ++ g!"]")) path → LooksAt lib ident inp raw up sp cp sub path
  | prop {raw q : P} {m : List (Str × P)} {up sp cp k path : Str} {sub : Mod} : raw.key g!"properties" = some (.obj m) → (k, q) ∈ m →
      LooksAt lib ident inp q sp (sp ++ '.' :: k) (cp ++ '.' :: k) sub path → LooksAt lib ident inp raw up sp cp sub path

/-- The paths at which a schema looks. -/
inductive SchemaLooksAt (lib : Lib) (ident : Str) (inp : P) (sc : Schema) : Str → Prop where
  | root : sc.properties = none → SchemaLooksAt lib ident inp sc g!"$"
  | item {items : P} {path : Str} {i : Nat} : sc.properties = none → sc.items = some items → i < itemsAt lib g!"$" inp →
      LooksAt lib ident inp items g!"$[*]" g!"$[*]" (g!"$[" ++ itoaNat i ++ g!"]") (fun p => replace1 p g!"$[*]" (g!"$[" ++ itoaNat i ++ g!"]")) path →
      SchemaLooksAt lib ident inp sc path
  | prop {m : GMap P} {k path : Str} {q : P} : sc.properties = some m → (k, q) ∈ m →
      LooksAt lib ident inp q g!"$" (g!"$." ++ k) (g!"$." ++ k) id path → SchemaLooksAt lib ident inp sc path
end Spec

/-- **C137** for schemas that satisfy `cov`: two input documents with the same values at all paths at which the schema looks give the same output. -/
def C137_statement (cov : Str → Schema → Prop) : Prop :=
  ∀ (lib : Lib) (b r1 r2 : Sched) (ident : Str) (sc : Schema) (t : T) (s0 : St) (raw1 raw2 : Str) (p1 p2 : P), cov ident sc →
    newTransformer ⟨lib, b, .json⟩ sc ident = .ok (t, s0) → lib.parseJSON raw1 = some p1 → lib.parseJSON raw2 = some p2 →
    (∀ path, SchemaLooksAt lib ident (canon p1) sc path → jpGet lib P.view path (canon p1) = jpGet lib P.view path (canon p2)) →
    (transform ⟨lib, r1, .json⟩ t raw1 s0).1.toOption = (transform ⟨lib, r2, .json⟩ t raw2 s0).1.toOption

theorem instrP_agree {lib : Lib} {ty path : Str} {ops : List Op} {inp1 inp2 : P} (h : jpGet lib P.view path inp1 = jpGet lib P.view path inp2) :
    instrP lib ty path ops inp1 = instrP lib ty path ops inp2 := by unfold instrP; rw [h]

theorem instrsP_agree {lib : Lib} {ty : Str} {mod : Mod} {tis : Instrs} {inp1 inp2 : P}
    (h : ∀ ti ∈ tis.from, jpGet lib P.view (mod ti.jsonPath) inp1 = jpGet lib P.view (mod ti.jsonPath) inp2) :
    instrsP lib ty mod tis inp1 = instrsP lib ty mod tis inp2 := by
  have e : tis.from.map (fun ti => instrP lib ty (mod ti.jsonPath) ti.ops inp1) = tis.from.map (fun ti => instrP lib ty (mod ti.jsonPath) ti.ops inp2) :=
    List.map_congr_left fun ti hti => instrP_agree (h ti hti)
  unfold instrsP
  rw [e]

/-- The value of an instance depends only on the paths at which it looks. -/
theorem Val_agree {lib : Lib} {ident : Str} {inp1 inp2 raw : P} {up sp cp : Str} {sub : Mod} {r1 : Option P} (h1 : Val lib ident inp1 raw up sp cp sub r1) :
    (∀ path, LooksAt lib ident inp1 raw up sp cp sub path → jpGet lib P.view path inp1 = jpGet lib P.view path inp2) →
    ∀ {r2 : Option P}, Val lib ident inp2 raw up sp cp sub r2 → r1 = r2 := by
  induction h1 with
  | scalar a1 a2 a3 a4 a5 =>
    intro hr r2 h2
    have e : ∀ ty, sameP lib ty _ inp1 = sameP lib ty _ inp2 := fun ty => by unfold sameP; rw [hr _ .own]
    cases h2 with
    | scalar g1 g2 g3 g4 g5 =>
      rw [a1] at g1
      simp only [Res.ok.injEq, Prod.mk.injEq] at g1
      obtain ⟨rfl, rfl⟩ := g1
      rw [a4] at g4
      simp only [Res.ok.injEq] at g4
      subst g4
      rw [e]
      cases a5 with
      | none k =>
        cases g5 with
        | none => rfl
        | empty => rfl
        | some k1 => rw [k] at k1; cases k1
      | empty k =>
        cases g5 with
        | none => rfl
        | empty => rfl
        | some k1 k2 => rw [k] at k1; exact absurd (Option.some.inj k1).symm k2
      | some k k2 k3 =>
        cases g5 with
        | none k1 => rw [k] at k1; cases k1
        | empty k1 => rw [k] at k1; exact absurd (Option.some.inj k1) k2
        | some k1 _ k4 =>
          rw [k] at k1
          cases Option.some.inj k1
          rw [k3] at k4
          cases k4
          rw [instrsP_agree fun ti hti => hr _ (.source k k3 hti)]
    | array g1 => rw [a1] at g1; simp at g1; exact absurd g1.1 a2
    | object g1 g2 g3 =>
      rw [a1] at g1
      simp only [Res.ok.injEq, Prod.mk.injEq] at g1
      rw [a3 g1.1] at g2
      simp at g2
      exact absurd g2.symm (by simpa using g3)
  | @array raw up sp cp sub nu items f a1 a2 a3 ih =>
    intro hr r2 h2
    cases h2 with
    | scalar g1 g2 => rw [a1] at g1; simp at g1; exact absurd g1.1.symm g2
    | array g1 g2 g3 =>
      rw [a2] at g2
      cases Option.some.inj g2
      have e : itemsAt lib cp inp1 = itemsAt lib cp inp2 := by unfold itemsAt; rw [hr _ .own]
      rw [← e, optAll_congr fun i hi => ih i (fun path hp => hr path (.item a2 (List.mem_range.1 hi) hp)) (g3 i)]
    | object g1 => rw [a1] at g1; simp at g1
  | object a1 a2 a3 a4 ih =>
    intro hr r2 h2
    cases h2 with
    | scalar g1 g2 g3 =>
      rw [a1] at g1
      simp only [Res.ok.injEq, Prod.mk.injEq] at g1
      rw [g3 g1.1.symm] at a2
      simp at a2
      exact absurd a2.symm (by simpa using a3)
    | array g1 => rw [a1] at g1; simp at g1
    | object g1 g2 g3 g4 =>
      rw [a2] at g2
      simp only [Option.some.injEq, P.obj.injEq] at g2
      subst g2
      congr 1
      refine optAll_congr fun k hk => ?_
      obtain ⟨⟨k', q⟩, hkq, rfl⟩ := List.mem_map.1 hk
      rw [ih k' q hkq (fun path hp => hr path (.prop a2 hkq hp)) (g4 k' q hkq)]

theorem SchemaVal_agree {lib : Lib} {ident : Str} {inp1 inp2 : P} {sc : Schema} {r1 r2 : Option P} (h1 : SchemaVal lib ident inp1 sc r1)
    (hr : ∀ path, SchemaLooksAt lib ident inp1 sc path → jpGet lib P.view path inp1 = jpGet lib P.view path inp2)
    (h2 : SchemaVal lib ident inp2 sc r2) : r1 = r2 := by
  cases h1 with
  | object a1 a2 =>
    cases h2 with
    | object g1 g2 =>
      rw [a1] at g1
      cases Option.some.inj g1
      congr 1
      refine optAll_congr fun k hk => ?_
      obtain ⟨⟨k', q⟩, hkq, rfl⟩ := List.mem_map.1 hk
      rw [Val_agree (a2 k' q hkq) (fun path hp => hr path (.prop a1 hkq hp)) (g2 k' q hkq)]
    | array g1 => rw [a1] at g1; cases g1
  | array a1 a2 a3 =>
    cases h2 with
    | object g1 => rw [a1] at g1; cases g1
    | array g1 g2 g3 =>
      rw [a2] at g2
      cases Option.some.inj g2
      have e : itemsAt lib g!"$" inp1 = itemsAt lib g!"$" inp2 := by unfold itemsAt; rw [hr _ (.root a1)]
      rw [← e, optAll_congr fun i hi => Val_agree (a3 i) (fun path hp => hr path (.item a1 a2 (List.mem_range.1 hi) hp)) (g3 i)]

/-- **C137**, partial: for schemas whose arrays and objects have neither default nor transform, without method `last` and clock.  Missing: the other
schemas, for which it is false (`C137_refuted`), and XML input. -/
theorem C137_partial : C137_statement SimpleSchema := by
  intro lib b r1 r2 ident sc t s0 raw1 raw2 p1 p2 hs hb hp1 hp2 hr
  obtain ⟨v1, a1, e1⟩ := transform_output (r := r1) hb hs raw1
  obtain ⟨v2, a2, e2⟩ := transform_output (r := r2) hb hs raw2
  rw [e1, e2, hp1, hp2, SchemaVal_agree (a1 p1 hp1) hr (a2 p2 hp2)]
  rfl

/-- Paths that are plain and start with a name only look below the field of this name. -/
theorem jpGet_field {lib : Lib} {path k : Str} {ss : List Step} {inp1 inp2 : P} (hp : parsePath path = some (.key k :: ss)) (h : inp1.key k = inp2.key k) :
    jpGet lib P.view path inp1 = jpGet lib P.view path inp2 := by
  have e : ∀ p : P, getStep P.view (.key k) p = p.key k := by
    intro p
    unfold getStep
    cases p <;> rfl
  unfold jpGet
  rw [hp]
  simp only [getSteps, e, h]

/-- Fields of the input which no path of the schema starts with do not matter: they may be added, changed and taken away. -/
theorem C137_fields_partial {lib : Lib} {b r1 r2 : Sched} {ident : Str} {sc : Schema} {t : T} {s0 : St} {raw1 raw2 : Str} {p1 p2 : P} {K : List Str}
    (hs : SimpleSchema ident sc) (hb : newTransformer ⟨lib, b, .json⟩ sc ident = .ok (t, s0)) (hp1 : lib.parseJSON raw1 = some p1)
    (hp2 : lib.parseJSON raw2 = some p2)
    (hk : ∀ path, SchemaLooksAt lib ident (canon p1) sc path → ∃ k ∈ K, ∃ ss, parsePath path = some (.key k :: ss))
    (h : ∀ k ∈ K, (canon p1).key k = (canon p2).key k) :
    (transform ⟨lib, r1, .json⟩ t raw1 s0).1.toOption = (transform ⟨lib, r2, .json⟩ t raw2 s0).1.toOption :=
  C137_partial lib b r1 r2 ident sc t s0 raw1 raw2 p1 p2 hs hb hp1 hp2 fun path hpath => by
    obtain ⟨k, hkK, ss, e⟩ := hk path hpath
    exact jpGet_field e (h k hkK)

namespace C137ex
open Toy

def sc : Schema := ⟨some [(g!"x", strFrom g!"concatenate" [g!"$.p", g!"$.q.r"])], none⟩
theorem simple : SimpleSchema g!"t" sc := simpleSchemaB_sound (n := 6) (by decide +kernel)

def in1 : P := o [(g!"p", s g!"P"), (g!"q", o [(g!"r", s g!"R")])]
/-- Another field in front, and one beside `r`. -/
def in2 : P := o [(g!"a", i 1), (g!"p", s g!"P"), (g!"q", o [(g!"r", s g!"R"), (g!"z", i 2)])]
def docs : List (Str × P) := [(g!"1", in1), (g!"2", in2)]

/-- The instructions of the only property. -/
def instrs : Option (List Str) := match parseInstrs (lib docs) (o [(g!"method", s g!"concatenate"), (g!"from", a [o [(g!"jsonPath", s g!"$.p")], o [(g!"jsonPath", s g!"$.q.r")]])]) with
  | .ok tis => some (tis.from.map (·.jsonPath))
  | _ => none
theorem instrs_eq : instrs = some [g!"$.p", g!"$.q.r"] := by decide +kernel

theorem looks {inp : P} {path : Str} (h : SchemaLooksAt (lib docs) g!"t" inp sc path) : path ∈ [g!"$.x", g!"$.p", g!"$.q.r"] := by
  cases h with
  | root h => cases h
  | item h => cases h
  | prop h hq hp =>
    cases h
    rcases List.mem_cons.1 hq with e | e
    · cases e
      cases hp with
      | own => decide
      | @source _ tr _ _ _ _ tis ti ht hparse hti =>
        have ht' : tr = o [(g!"method", s g!"concatenate"), (g!"from", a [o [(g!"jsonPath", s g!"$.p")], o [(g!"jsonPath", s g!"$.q.r")]])] :=
          (Option.some.inj ht).symm
        subst ht'
        have hi := instrs_eq
        unfold instrs at hi
        rw [hparse] at hi
        have hj : ti.jsonPath ∈ [g!"$.p", g!"$.q.r"] := by
          rw [← Option.some.inj hi]; exact List.mem_map.2 ⟨ti, hti, rfl⟩
        rcases List.mem_cons.1 hj with e | e
        · rw [e]; decide
        · rw [List.mem_singleton.1 e]; decide
      | item hi => cases hi
      | prop hi => cases hi
    · cases e

/-- The hypotheses of `C137_partial` are met for two different documents, and the output is not trivial. -/
example : SimpleSchema g!"t" sc ∧ (∃ t s0, newTransformer ⟨lib docs, Sched.id, .json⟩ sc g!"t" = .ok (t, s0) ∧
    (transform ⟨lib docs, Sched.id, .json⟩ t g!"1" s0).1 = .ok g!"{x:\"PR\"}") ∧
    ∀ path, SchemaLooksAt (lib docs) g!"t" (canon in1) sc path → jpGet (lib docs) P.view path (canon in1) = jpGet (lib docs) P.view path (canon in2) := by
  refine ⟨simple, ?_, ?_⟩
  · have h : (match newTransformer ⟨lib docs, Sched.id, .json⟩ sc g!"t" with
      | .ok (t, s0) => decide ((transform ⟨lib docs, Sched.id, .json⟩ t g!"1" s0).1 = .ok g!"{x:\"PR\"}")
      | _ => false) = true := by decide +kernel
    split at h
    · rename_i t s0 hb
      exact ⟨t, s0, hb, of_decide_eq_true h⟩
    · cases h
  · intro path hp
    rcases List.mem_cons.1 (looks hp) with rfl | h
    · rfl
    · rcases List.mem_cons.1 h with rfl | h
      · rfl
      · rw [List.mem_singleton.1 h]; rfl

/-- The paths of this schema start with `x`, `p` and `q`: the hypotheses of `C137_fields_partial`, with another field in front. -/
example : (∀ path, SchemaLooksAt (lib docs) g!"t" (canon in1) sc path → ∃ k ∈ [g!"x", g!"p", g!"q"], ∃ ss, parsePath path = some (.key k :: ss)) ∧
    ∀ k ∈ [g!"x", g!"p", g!"q"], (canon in1).key k = (canon (o [(g!"a", i 1), (g!"p", s g!"P"), (g!"q", o [(g!"r", s g!"R")])])).key k := by
  constructor
  · intro path hp
    rcases List.mem_cons.1 (looks hp) with rfl | h
    · exact ⟨g!"x", by decide, [], by decide⟩
    · rcases List.mem_cons.1 h with rfl | h
      · exact ⟨g!"p", by decide, [], by decide⟩
      · rw [List.mem_singleton.1 h]; exact ⟨g!"q", by decide, [.key g!"r"], by decide⟩
  · intro k hk
    rcases List.mem_cons.1 hk with rfl | hk
    · rfl
    · rcases List.mem_cons.1 hk with rfl | hk
      · rfl
      · rw [List.mem_singleton.1 hk]; rfl

/-! The transform of an array is saved into the input, where other paths see it. -/

/-- A path such as `$[?($.a)].z`: the field `z` of documents that also have a field `a`. -/
def both : Str := g!"$[?($.a)].z"
def bad : Schema := ⟨some [
  (g!"a", o [(g!"type", s g!"array"), (g!"items", o [(g!"type", s g!"string")]),
    (g!"transform", o [(g!"t", o [(g!"from", a [o [(g!"jsonPath", s g!"$.b")]])])])]),
  (g!"c", strFrom g!"first" [both])], none⟩
def bad1 : P := o [(g!"b", a [s g!"B"])]
def bad2 : P := o [(g!"b", a [s g!"B"]), (g!"z", s g!"Z")]
def lib' : Lib := { lib [(g!"1", bad1), (g!"2", bad2)] with
  jsonpath := fun path p => if path = both ∧ (p.key g!"a").isSome ∧ (p.key g!"z").isSome then some (.loc [.key g!"z"]) else none }

def outs : Option (Option Str × Option Str) := match newTransformer ⟨lib', Sched.id, .json⟩ bad g!"t" with
  | .ok (t, s0) => some ((transform ⟨lib', Sched.id, .json⟩ t g!"1" s0).1.toOption, (transform ⟨lib', Sched.id, .json⟩ t g!"2" s0).1.toOption)
  | _ => none
theorem outs_eq : outs = some (some g!"{a:[\"B\"]}", some g!"{a:[\"B\"],c:\"Z\"}") := by decide +kernel

def badInstrs (p : Str) (m : List (Str × P)) : Option (List Str) := match parseInstrs lib' (o (m ++ [(g!"from", a [o [(g!"jsonPath", s p)]])])) with
  | .ok tis => some (tis.from.map (·.jsonPath))
  | _ => none
theorem bad_b : badInstrs g!"$.b" [] = some [g!"$.b"] := by decide +kernel
theorem bad_both : badInstrs both [(g!"method", s g!"first")] = some [both] := by decide +kernel

theorem bad_source {p : Str} {m : List (Str × P)} {tr : P} {tis : Instrs} {ti : Instr} (h : badInstrs p m = some [p])
    (ht : some (o (m ++ [(g!"from", a [o [(g!"jsonPath", s p)]])])) = some tr) (hp : parseInstrs lib' tr = .ok tis) (hi : ti ∈ tis.from) : ti.jsonPath = p := by
  cases Option.some.inj ht
  unfold badInstrs at h
  rw [hp] at h
  exact List.mem_singleton.1 (Option.some.inj h ▸ List.mem_map.2 ⟨ti, hi, rfl⟩)

theorem bad_looks {path : Str} (h : SchemaLooksAt lib' g!"t" (canon bad1) bad path) : path ∈ [g!"$.a", g!"$.b", g!"$.c", both] := by
  cases h with
  | root h => cases h
  | item h => cases h
  | prop h hq hp =>
    cases h
    rcases List.mem_cons.1 hq with e | e
    · cases e
      cases hp with
      | own => decide
      | source ht hparse hti =>
        rw [bad_source (p := g!"$.b") (m := []) bad_b ht hparse hti]
        decide
      | item _ hi =>
        have e : itemsAt lib' g!"$.a" (canon bad1) = 0 := by decide
        rw [show (g!"$." ++ g!"a") = g!"$.a" from rfl, e] at hi
        exact absurd hi (Nat.not_lt_zero _)
      | prop hi => cases hi
    · rcases List.mem_cons.1 e with e | e
      · cases e
        cases hp with
        | own => decide
        | source ht hparse hti =>
          rw [bad_source (p := both) (m := [(g!"method", s g!"first")]) bad_both ht hparse hti]
          decide
        | item hi => cases hi
        | prop hi => cases hi
      · cases e
end C137ex

open C137ex in
/-- C137 is false for all schemas with plain names: a path may look at the array that a transform has saved into the input, together with a field which
would not matter without it. -/
theorem C137_refuted : ¬ C137_statement (fun _ sc => PlainSchema sc) := by
  intro hc
  have h := outs_eq
  unfold outs at h
  split at h
  · rename_i t s0 hb
    have := hc lib' _ Sched.id Sched.id g!"t" bad t s0 g!"1" g!"2" bad1 bad2
      ⟨by intro m hm; simp [bad] at hm; subst hm; exact plainMapB_sound (by decide +kernel),
       fun q hq => plainPropsB_sound (checkSchema_sound (f := plainPropsB) (n := 5) (by decide +kernel) hq)⟩ hb rfl rfl (by
        intro path hp
        rcases List.mem_cons.1 (bad_looks hp) with rfl | h
        · rfl
        · rcases List.mem_cons.1 h with rfl | h
          · rfl
          · rcases List.mem_cons.1 h with rfl | h
            · rfl
            · rw [List.mem_singleton.1 h]; rfl)
    simp only [Option.some.injEq, Prod.mk.injEq] at h
    rw [h.1, h.2] at this
    exact absurd this (by decide)
  · cases h

end JT
