import Verif.Props.C88
import Verif.Props.C91
import Verif.Props.C77
/- C127: from schema files and an input to one output. -/
namespace JT
open Spec Cache Loading

namespace Spec

/-- Every file has the schema (or the error) made from its document and the schemas of the others. -/
def FilesMean (F : Files) (oneOfType : Str) (flatten : Bool) (sem : Str → Option Instance) : Prop :=
  ∀ path, SchemaOf F oneOfType flatten sem path (sem path)

/-- The value that a schema gives an input text (`none`: an error), which is JSON or XML. -/
inductive ValueOf (lib : Lib) (ident : Str) (sc : Schema) (raw : Str) : Format → Option P → Prop where
  | notJson : lib.parseJSON raw = none → ValueOf lib ident sc raw .json none
  | json {p v} : lib.parseJSON raw = some p → SchemaVal lib ident (canon p) sc v → ValueOf lib ident sc raw .json v
  | notXml : lib.parseXML raw = none → ValueOf lib ident sc raw .xml none
  | xml {n v} : lib.parseXML raw = some n → XSchemaVal lib ident n sc v → ValueOf lib ident sc raw .xml v

/-- What a schema makes of an input text (`none`: an error): the value the schema gives it is encoded, and the result has to be valid. -/
inductive OutputOf (lib : Lib) (ident : Str) (sc : Schema) (fmt : Format) (raw : Str) : Option Str → Prop where
  | noValue : ValueOf lib ident sc raw fmt none → OutputOf lib ident sc fmt raw none
  | noText {v} : ValueOf lib ident sc raw fmt (some v) → lib.marshal v = none → OutputOf lib ident sc fmt raw none
  | invalid {v out} : ValueOf lib ident sc raw fmt (some v) → lib.marshal v = some out → lib.validate out ≠ some true → OutputOf lib ident sc fmt raw none
  | output {v out} : ValueOf lib ident sc raw fmt (some v) → lib.marshal v = some out → lib.validate out = some true → OutputOf lib ident sc fmt raw (some out)

/-- The schemas that are covered. -/
structure Covered (fmt : Format) (ident : Str) (sc : Schema) : Prop where
  json : fmt = .json → SimpleSchema ident sc
  xml : fmt = .xml → XmlSchema ident sc
  scalar : ∀ q, SchemaInst sc q → ScalarDefault q

end Spec

theorem Spec.Covered.plain {fmt : Format} {ident : Str} {sc : Schema} (h : Covered fmt ident sc) : PlainSchema sc := by
  cases fmt
  · exact (h.json rfl).plain
  · exact (h.xml rfl).plain

theorem Spec.Covered.notLast {fmt : Format} {ident : Str} {sc : Schema} (h : Covered fmt ident sc) : ∀ q, SchemaInst sc q → NotLast ident q := by
  cases fmt
  · exact (h.json rfl).notLast
  · exact (h.xml rfl).notLast

/-- The output of Transform is what the schema makes of the input. -/
theorem transform_outputOf {lib : Lib} {b r : Sched} {fmt : Format} {sc : Schema} {ident : Str} {t : T} {s : St} (hb : newTransformer ⟨lib, b, fmt⟩ sc ident = .ok (t, s))
    (hs : Covered fmt ident sc) (raw : Str) : OutputOf lib ident sc fmt raw (transform ⟨lib, r, fmt⟩ t raw s).1.toOption := by
  obtain ⟨v, h1, h2⟩ : ∃ v, ValueOf lib ident sc raw fmt v ∧
      (transform ⟨lib, r, fmt⟩ t raw s).1.toOption = (v.bind lib.marshal).bind fun out => if lib.validate out = some true then some out else none := by
    cases fmt with
    | json =>
      obtain ⟨v, h1, h2⟩ := transform_output (r := r) hb (hs.json rfl) raw
      rw [h2]
      rcases hp : lib.parseJSON raw with _ | p
      · exact ⟨none, .notJson hp, rfl⟩
      · exact ⟨v, .json hp (h1 p hp), rfl⟩
    | xml =>
      obtain ⟨h1, h2⟩ := C77_partial (r := r) hb (hs.xml rfl) raw
      rcases hp : lib.parseXML raw with _ | n
      · exact ⟨none, .notXml hp, by rw [(h1 hp).1]; rfl⟩
      · obtain ⟨v, k1, _, _, k4⟩ := h2 n hp
        exact ⟨v, .xml hp k1, k4⟩
  rw [h2]
  rcases v with _ | v
  · exact .noValue h1
  · simp only [Option.bind_some]
    rcases hm : lib.marshal v with _ | out
    · exact .noText h1 hm
    · simp only [Option.bind_some]
      split
      · rename_i hval; exact .output h1 hm hval
      · rename_i hval; exact .invalid h1 hm hval

/-- A schema gives an input one value. -/
theorem Spec.ValueOf.unique {lib : Lib} {ident : Str} {sc : Schema} {raw : Str} {fmt : Format} {x y : Option P} (hx : ValueOf lib ident sc raw fmt x) (hy : ValueOf lib ident sc raw fmt y) : x = y := by
  cases hx with
  | notJson h => cases hy with
    | notJson _ => rfl
    | json h1 _ => exact absurd (h.symm.trans h1) (by simp)
  | json h hv => cases hy with
    | notJson h1 => exact absurd (h.symm.trans h1) (by simp)
    | json h1 hv1 => rw [h, Option.some.injEq] at h1; subst h1; exact SchemaVal.unique hv hv1
  | notXml h => cases hy with
    | notXml _ => rfl
    | xml h1 _ => exact absurd (h.symm.trans h1) (by simp)
  | xml h hv => cases hy with
    | notXml h1 => exact absurd (h.symm.trans h1) (by simp)
    | xml h1 hv1 => rw [h, Option.some.injEq] at h1; subst h1; exact XSchemaVal.unique hv hv1

/-- A schema makes one thing of an input. -/
theorem Spec.OutputOf.unique {lib : Lib} {ident : Str} {sc : Schema} {fmt : Format} {raw : Str} {x y : Option Str} (hx : OutputOf lib ident sc fmt raw x) (hy : OutputOf lib ident sc fmt raw y) : x = y := by
  have key : ∀ {z : Option Str}, OutputOf lib ident sc fmt raw z → ∃ v, ValueOf lib ident sc raw fmt v ∧
      z = (v.bind lib.marshal).bind fun out => if lib.validate out = some true then some out else none := by
    intro z hz
    cases hz with
    | noValue h1 => exact ⟨_, h1, rfl⟩
    | noText h1 h2 => exact ⟨_, h1, by simp [h2]⟩
    | invalid h1 h2 h3 => exact ⟨_, h1, by simp [h2, h3]⟩
    | output h1 h2 h3 => exact ⟨_, h1, by simp [h2, h3]⟩
  obtain ⟨v, h1, rfl⟩ := key hx
  obtain ⟨w, h2, rfl⟩ := key hy
  rw [h1.unique h2]

/-! ### A load that is made returns -/

/-- Where a goroutine is that only loads one key: before the load, in the load, in the builder that the load calls, or done. -/
inductive Loading1 {V : Type} (key : Str) : Thread V → Prop where
  | start : Loading1 key ⟨.run (.load key .ret), []⟩
  | enter : Loading1 key ⟨.enter key, [.cont .ret]⟩
  | check {j} : j.key = key → Loading1 key ⟨.check j, [.cont .ret]⟩
  | store {j v} : j.key = key → Loading1 key ⟨.store j v, [.cont .ret]⟩
  | finish {j r} : j.key = key → Loading1 key ⟨.finish j r, [.cont .ret]⟩
  | wait {j} : j.key = key → Loading1 key ⟨.wait j, [.cont .ret]⟩
  | back {j r} : j.key = key → Loading1 key ⟨.back j r, [.cont .ret]⟩
  | inside {c F j} : j.key = key → Loading1 key ⟨c, F ++ [.build j, .cont .ret]⟩
  | done {r} : Loading1 key ⟨.run (.ret r), []⟩

theorem loading1_step {V : Type} {B : Str → Prog V → Prop} {key : Str} {s s' : Shared V} {th th' : Thread V} (hi : Loading1 key th) (h : TStep B s th s' th') :
    Loading1 key th' ∧ (th'.done → ∃ j r, j.key = key ∧ th = ⟨.back j r, [.cont .ret]⟩) := by
  cases hi with
  | start => cases h with
    | load => exact ⟨.enter, fun ⟨r, hr⟩ => by simp at hr⟩
  | enter => cases h with
    | join _ => exact ⟨.wait rfl, fun ⟨r, hr⟩ => by simp at hr⟩
    | lead _ => exact ⟨.check rfl, fun ⟨r, hr⟩ => by simp at hr⟩
  | check hj => cases h with
    | hit _ => exact ⟨.finish hj, fun ⟨r, hr⟩ => by simp at hr⟩
    | miss _ _ => exact ⟨.inside (F := []) hj, fun ⟨r, hr⟩ => by simp at hr⟩
  | store hj => cases h with
    | store => exact ⟨.finish hj, fun ⟨r, hr⟩ => by simp at hr⟩
  | finish hj => cases h with
    | finish => exact ⟨.back hj, fun ⟨r, hr⟩ => by simp at hr⟩
  | wait hj => cases h with
    | wake _ => exact ⟨.back hj, fun ⟨r, hr⟩ => by simp at hr⟩
  | @back j r hj => cases h with
    | back => exact ⟨.done, fun _ => ⟨j, r, hj, rfl⟩⟩
  | done => cases h
  | @inside c F j hj =>
    generalize hG : F ++ [Frame.build j, Frame.cont .ret] = G at h
    cases h with
    | load => subst hG; exact ⟨.inside (F := _ :: F) hj, fun ⟨r, hr⟩ => by simp at hr⟩
    | join _ => subst hG; exact ⟨.inside hj, fun ⟨r, hr⟩ => by simp at hr⟩
    | lead _ => subst hG; exact ⟨.inside hj, fun ⟨r, hr⟩ => by simp at hr⟩
    | hit _ => subst hG; exact ⟨.inside hj, fun ⟨r, hr⟩ => by simp at hr⟩
    | miss _ _ => subst hG; exact ⟨.inside (F := _ :: F) hj, fun ⟨r, hr⟩ => by simp at hr⟩
    | store => subst hG; exact ⟨.inside hj, fun ⟨r, hr⟩ => by simp at hr⟩
    | finish => subst hG; exact ⟨.inside hj, fun ⟨r, hr⟩ => by simp at hr⟩
    | wake _ => subst hG; exact ⟨.inside hj, fun ⟨r, hr⟩ => by simp at hr⟩
    | failed =>
      cases F with
      | nil => simp only [List.nil_append, List.cons.injEq, Frame.build.injEq] at hG; obtain ⟨rfl, rfl⟩ := hG; exact ⟨.finish hj, fun ⟨r, hr⟩ => by simp at hr⟩
      | cons f F => simp only [List.cons_append, List.cons.injEq] at hG; obtain ⟨rfl, rfl⟩ := hG; exact ⟨.inside hj, fun ⟨r, hr⟩ => by simp at hr⟩
    | built =>
      cases F with
      | nil => simp only [List.nil_append, List.cons.injEq, Frame.build.injEq] at hG; obtain ⟨rfl, rfl⟩ := hG; exact ⟨.store hj, fun ⟨r, hr⟩ => by simp at hr⟩
      | cons f F => simp only [List.cons_append, List.cons.injEq] at hG; obtain ⟨rfl, rfl⟩ := hG; exact ⟨.inside hj, fun ⟨r, hr⟩ => by simp at hr⟩
    | back =>
      cases F with
      | nil => simp only [List.nil_append, List.cons.injEq] at hG; exact absurd hG.1 (by simp)
      | cons f F => simp only [List.cons_append, List.cons.injEq] at hG; obtain ⟨rfl, rfl⟩ := hG; exact ⟨.inside hj, fun ⟨r, hr⟩ => by simp at hr⟩

/-- A goroutine that only loads one key: when it is done, its load has returned what it ends with. -/
theorem loading1_returns {V : Type} {B : Str → Prog V → Prop} {key : Str} {s : State V} (h : Steps B (init [.load key .ret]) s) :
    (∃ th, s.threads = [th] ∧ Loading1 key th) ∧
    ∀ r, s.threads = [⟨.run (.ret r), []⟩] → ∃ s' since, Steps B (init [.load key .ret]) s' ∧ Returns s' key since r := by
  generalize hini : init [Prog.load key .ret] = s0 at h
  induction h with
  | refl => subst hini; exact ⟨⟨_, rfl, .start⟩, fun r hr => by simp [init] at hr⟩
  | @tail s1 s2 h1 h2 ih =>
    obtain ⟨⟨th, hth, hi⟩, _⟩ := ih
    cases h2 with
    | @mk s s' a b th1 th1' hstep =>
      simp only at hth
      have hab : a = [] ∧ th1 = th ∧ b = [] := by
        cases a with
        | nil => simpa using hth
        | cons x a => simp at hth
      obtain ⟨rfl, rfl, rfl⟩ := hab
      obtain ⟨k1, k2⟩ := loading1_step hi hstep
      refine ⟨⟨th1', rfl, k1⟩, ?_⟩
      intro r hr
      simp only [List.nil_append, List.cons.injEq, and_true] at hr
      obtain ⟨j, r', hj, rfl⟩ := k2 ⟨r, hr⟩
      subst hr
      cases hstep with
      | back => exact ⟨_, j.since, h1, ⟨.back j r, [.cont .ret]⟩, List.mem_singleton.2 rfl, j.call, by subst hj; rfl⟩

theorem steps_trans {V : Type} {B : Str → Prog V → Prop} {a b c : State V} (h : Steps B a b) (h' : Steps B b c) : Steps B a c := by
  induction h' with
  | refl => exact h
  | tail _ hs ih => exact .tail ih hs

/-- If every run ends, some run does. -/
theorem reach_done {V : Type} {B : Str → Prog V → Prop} {s : State V} (hacc : Acc (fun s' s => Cache.Step B s s') s)
    (hp : ∀ s', Steps B s s' → (∀ th ∈ s'.threads, th.done) ∨ ∃ s'', Cache.Step B s' s'') : ∃ s', Steps B s s' ∧ ∀ th ∈ s'.threads, th.done := by
  induction hacc with
  | intro s _ ih =>
    rcases hp s .refl with h | ⟨s1, h⟩
    · exact ⟨s, .refl, h⟩
    · obtain ⟨s2, h2, h3⟩ := ih s1 h fun s' hs' => hp s' (steps_trans (.tail .refl h) hs')
      exact ⟨s2, steps_trans (.tail .refl h) h2, h3⟩

/-- For every file there is a run in which a goroutine loads it and gets its schema. -/
theorem load_happens {F : Files} {rank : Str → Nat} (h : NotCircular F rank) {o : Str} (ho : '|' ∉ o) (fl : Bool) {sem : Str → Option Instance} (hsem : FilesMean F o fl sem) (path : Str) :
    ∃ s since r, Steps (FileBuilder F Subtype.val) (init [(.load (schemaKey path o fl) .ret : Prog Loaded)]) s ∧ Returns s (schemaKey path o fl) since r ∧ r.map Subtype.val = sem path := by
  obtain ⟨sem0, _, h2, _, h4⟩ := C88_partial F rank h
  obtain ⟨h5, h6, h7⟩ := h4 [.load (schemaKey path o fl) .ret]
  obtain ⟨s, hs, hd⟩ := reach_done h6 h5
  obtain ⟨⟨th, hth, _⟩, hret⟩ := loading1_returns hs
  obtain ⟨r, rfl⟩ := hd th (by simp [hth])
  obtain ⟨s', since, hs', hr⟩ := hret r hth
  refine ⟨s', since, r, hs', hr, ?_⟩
  rw [h2 o fl ho sem hsem]
  exact h7 s' hs' path o fl since r ho hr

/-- **C127**, partial: let schema files not refer to each other in circles.  Then they have exactly one meaning; and however many goroutines load them through the cache, under every schedule, each
load ends and gives the schema of the file.  From it a Transformer is made exactly if the instances of the schema are accepted; and whatever the iteration orders and whatever calls came before, Transform
gives what the schema makes of the input, which is at most one thing.
Missing: files that refer to each other in circles (`C88_refuted`); schemas whose arrays or objects have a default (`C01_refuted_default`) or, for JSON, a transform (`C03_refuted_array`,
`C03_refuted_object`); defaults that are not scalars; method `last` (`C01_refuted_last`); `currentTime`. -/
theorem C127_partial (F : Files) (rank : Str → Nat) (h : NotCircular F rank) (o : Str) (ho : '|' ∉ o) (fl : Bool) :
    ∃ sem, FilesMean F o fl sem ∧ (∀ sem', FilesMean F o fl sem' → sem' = sem) ∧
      ∀ ps : List (Prog Loaded),
        Acc (fun s' s => Cache.Step (FileBuilder F Subtype.val) s s') (init ps) ∧
        ∀ s, Steps (FileBuilder F Subtype.val) (init ps) s → ((∀ th ∈ s.threads, th.done) ∨ ∃ s', Cache.Step (FileBuilder F Subtype.val) s s') ∧
          ∀ path since r, Returns s (schemaKey path o fl) since r → r.map Subtype.val = sem path ∧
            ∀ v, r = some v → ∀ fmt ident, Covered fmt ident ⟨v.1.properties, v.1.items⟩ →
              ∀ lib b, ((∃ x, newTransformer ⟨lib, b, fmt⟩ ⟨v.1.properties, v.1.items⟩ ident = .ok x) ↔ SchemaAccepted lib ident ⟨v.1.properties, v.1.items⟩) ∧
                ∀ t s0, newTransformer ⟨lib, b, fmt⟩ ⟨v.1.properties, v.1.items⟩ ident = .ok (t, s0) → ∀ history sched raw out,
                  (transform ⟨lib, sched, fmt⟩ t raw (afterCalls t history s0)).1.toOption = out ↔ OutputOf lib ident ⟨v.1.properties, v.1.items⟩ fmt raw out := by
  obtain ⟨sem, h1, h2, _, h4⟩ := C88_partial F rank h
  refine ⟨sem o fl, fun path => h1 o fl path ho, fun sem' h' => h2 o fl ho sem' h', ?_⟩
  intro ps
  obtain ⟨h5, h6, h7⟩ := h4 ps
  refine ⟨h6, fun s hs => ⟨h5 s hs, ?_⟩⟩
  intro path since r hr
  refine ⟨h7 s hs path o fl since r ho hr, ?_⟩
  intro v _ fmt ident hcov lib b
  refine ⟨C91_accepts_partial ⟨lib, b, fmt⟩ _ ident hcov.plain, ?_⟩
  intro t s0 hb history sched raw out
  rw [C01_partial hb hcov.scalar hcov.notLast]
  constructor
  · rintro rfl; exact transform_outputOf hb hcov raw
  · intro hout; exact (transform_outputOf hb hcov raw).unique hout

/-- Two programs that load the same files, whatever their goroutines, schedules, Transformers, iteration orders and earlier calls: the same input gives the same output. -/
theorem C127_same_partial (F : Files) (rank : Str → Nat) (h : NotCircular F rank) {o path ident : Str} (ho : '|' ∉ o) {fl : Bool} {lib : Lib}
    {ps1 ps2 : List (Prog Loaded)} {s1 s2} (hs1 : Steps (FileBuilder F Subtype.val) (init ps1) s1) (hs2 : Steps (FileBuilder F Subtype.val) (init ps2) s2)
    {since1 since2 v1 v2} (hr1 : Returns s1 (schemaKey path o fl) since1 (some v1)) (hr2 : Returns s2 (schemaKey path o fl) since2 (some v2))
    {fmt : Format} (hcov : Covered fmt ident ⟨v1.1.properties, v1.1.items⟩)
    {b1 b2 t1 t2 st1 st2} (hb1 : newTransformer ⟨lib, b1, fmt⟩ ⟨v1.1.properties, v1.1.items⟩ ident = .ok (t1, st1))
    (hb2 : newTransformer ⟨lib, b2, fmt⟩ ⟨v2.1.properties, v2.1.items⟩ ident = .ok (t2, st2)) (history1 history2 : List (Env × Str)) (r1 r2 : Sched) (raw : Str) :
    (transform ⟨lib, r1, fmt⟩ t1 raw (afterCalls t1 history1 st1)).1.toOption = (transform ⟨lib, r2, fmt⟩ t2 raw (afterCalls t2 history2 st2)).1.toOption := by
  obtain ⟨sem, _, _, h3⟩ := C127_partial F rank h o ho fl
  obtain ⟨e1, k1⟩ := ((h3 ps1).2 s1 hs1).2 path since1 _ hr1
  obtain ⟨e2, k2⟩ := ((h3 ps2).2 s2 hs2).2 path since2 _ hr2
  have hv : v1.1 = v2.1 := by simpa using e1.trans e2.symm
  refine (((k1 v1 rfl fmt ident hcov lib b1).2 t1 st1 hb1 history1 r1 raw _).2 ?_)
  have := ((k2 v2 rfl fmt ident (hv ▸ hcov) lib b2).2 t2 st2 hb2 history2 r2 raw _).1 rfl
  rw [hv]; exact this

end JT

/-! ### Two files and an input -/

namespace JT.C127ex
open JT Spec Cache Loading Toy

/-- The elements of the list are described in another file. -/
def main : P := o [(g!"type", s g!"object"), (g!"properties", o [
  (g!"l", o [(g!"type", s g!"array"), (g!"items", o [(g!"$ref", s g!"sub/item.json")])]),
  (g!"x", strFrom g!"concatenate" [g!"$.p", g!"$.q"])])]
def item : P := o [(g!"type", s g!"object"), (g!"properties", o [
  (g!"b", o [(g!"type", s g!"string"), (g!"transform", o [(g!"t", o [(g!"from", a [o [(g!"jsonPath", s g!"@.d")]])])])]),
  (g!"c", o [(g!"type", s g!"number"), (g!"default", i 7)])])]

def files : Files where
  read p := if p = g!"/s/main.json" then .ok main else if p = g!"/s/sub/item.json" then .ok item else .err
  valid _ := true
  http _ := .err
  absRef p f := .ok (joinPath (pathDir p) f)
  quote s := s

def rank (p : Str) : Nat := if p = g!"/s/main.json" then 1 else 0

theorem files_cases {path : Str} {d : P} (h : files.read path = .ok d) : (path = g!"/s/main.json" ∧ d = main) ∨ (path = g!"/s/sub/item.json" ∧ d = item) := by
  simp only [files] at h
  split at h
  · rename_i hp; exact Or.inl ⟨hp, by simpa using h.symm⟩
  · split at h
    · rename_i hp; exact Or.inr ⟨hp, by simpa using h.symm⟩
    · simp at h

theorem not_circular : NotCircular files rank where
  tidy := by
    intro path d h
    rcases files_cases h with ⟨_, rfl⟩ | ⟨_, rfl⟩ <;> simp [main, item, strFrom, Tidy, TidyFields, TidyList]
  flat := by
    intro path d h
    rcases files_cases h with ⟨_, rfl⟩ | ⟨_, rfl⟩ <;> simp [main, item, strFrom, FlatRefs, FlatRefsFields, FlatRefsList]
  inside := by
    intro path d h
    refine ⟨fun _ => 0, ?_⟩
    rcases files_cases h with ⟨rfl, rfl⟩ | ⟨rfl, rfl⟩ <;> exact C88ex.rankedIn_sound (by decide +kernel)
  files := by
    intro path d h
    rcases files_cases h with ⟨rfl, rfl⟩ | ⟨rfl, rfl⟩ <;> exact C88ex.filesIn_sound (by decide +kernel)
  network := by
    intro url p h
    simp [files] at h

/-- The schemas of the files, made one after the other. -/
def made (load : Str → Option Instance) (path : Str) (d : P) : Option Instance :=
  match dereference (files.world (encoded load)) path 5 d with
  | some (.ok d') => match schemaOfDoc Sched.id [] true d' with
    | .ok i => some i
    | _ => none
  | _ => none

def items : Option Instance := made (fun _ => none) g!"/s/sub/item.json" item
def mains : Option Instance := made (fun _ => items) g!"/s/main.json" main

def sem (p : Str) : Option Instance := if p = g!"/s/main.json" then mains else if p = g!"/s/sub/item.json" then items else none

theorem made_sound {path : Str} {d : P} {i : Instance} (hr : files.read path = .ok d) (h : made sem path d = some i) : SchemaOf files [] true sem path (some i) := by
  unfold made at h
  split at h
  · rename_i d' hd
    split at h
    · rename_i i' hi
      simp only [Option.some.injEq] at h; subst h
      exact .made hr rfl hd fun sched => (schemaOfDoc_sched sched Sched.id _ _ _).trans hi
    · contradiction
  · contradiction

theorem means : FilesMean files [] true sem := by
  intro path
  by_cases h1 : path = g!"/s/main.json"
  · subst h1
    obtain ⟨i, hi⟩ := Option.isSome_iff_exists.1 (show (sem g!"/s/main.json").isSome = true by rfl)
    rw [hi]; exact made_sound (d := main) rfl (by rw [← hi]; rfl)
  · by_cases h2 : path = g!"/s/sub/item.json"
    · subst h2
      obtain ⟨i, hi⟩ := Option.isSome_iff_exists.1 (show (sem g!"/s/sub/item.json").isSome = true by rfl)
      rw [hi]; exact made_sound (d := item) rfl (by rw [← hi]; rfl)
    · have : sem path = none := by unfold sem; rw [if_neg h1, if_neg h2]
      rw [this]
      refine .unreadable fun d hd => ?_
      rcases files_cases hd with ⟨h, _⟩ | ⟨h, _⟩
      · exact h1 h
      · exact h2 h

def sc : Schema := ⟨mains.bind (·.properties), mains.bind (·.items)⟩

def docs : List (Str × P) := [(g!"in", o [(g!"l", a [o [(g!"d", s g!"D"), (g!"c", i 1)], o [(g!"d", s g!"E")]]), (g!"p", s g!"P"), (g!"q", s g!"Q")])]

theorem simple : SimpleSchema g!"t" sc := simpleSchemaB_sound (n := 8) (by decide +kernel)

theorem scalar : ∀ q, SchemaInst sc q → ScalarDefault q := fun _ hq => scalarDefaultB_sound (checkSchema_sound (f := scalarDefaultB) (n := 8) (by decide +kernel) hq)

theorem covered : Covered .json g!"t" sc := ⟨fun _ => simple, fun h => by simp at h, scalar⟩

/-- For XML input as well. -/
theorem covered_xml : Covered .xml g!"t" sc := ⟨fun h => by simp at h, fun _ => xmlSchemaB_sound (n := 8) (by decide +kernel), scalar⟩

example := C127_partial files rank not_circular [] (by simp) true

/-- The first file is loaded, with the second; a Transformer is made from it; and after an earlier call it gives this output. -/
example : ∃ st since v t s0, Steps (FileBuilder files Subtype.val) (init [(.load (schemaKey g!"/s/main.json" [] true) .ret : Prog Loaded)]) st ∧
    Returns st (schemaKey g!"/s/main.json" [] true) since (some v) ∧
    Covered .json g!"t" ⟨v.1.properties, v.1.items⟩ ∧
    newTransformer ⟨lib docs, Sched.rev, .json⟩ ⟨v.1.properties, v.1.items⟩ g!"t" = .ok (t, s0) ∧
    (transform ⟨lib docs, Sched.id, .json⟩ t g!"in" (afterCalls t [(⟨lib docs, Sched.rev, .json⟩, g!"in")] s0)).1 = .ok g!"{l:[{b:\"D\",c:1},{b:\"E\",c:7}],x:\"PQ\"}" := by
  obtain ⟨st, since, r, h1, h2, h3⟩ := load_happens not_circular (by simp) true means g!"/s/main.json"
  have hm : sem g!"/s/main.json" = mains := rfl
  rw [hm] at h3
  rcases r with _ | v
  · exact absurd (congrArg Option.isSome h3) (by decide +kernel)
  · have hsc : sc = ⟨v.1.properties, v.1.items⟩ := by unfold sc; rw [← h3]; rfl
    have h : (match newTransformer ⟨lib docs, Sched.rev, .json⟩ sc g!"t" with
      | .ok (t, s0) => decide ((transform ⟨lib docs, Sched.id, .json⟩ t g!"in" (afterCalls t [(⟨lib docs, Sched.rev, .json⟩, g!"in")] s0)).1 =
          .ok g!"{l:[{b:\"D\",c:1},{b:\"E\",c:7}],x:\"PQ\"}")
      | _ => false) = true := by decide +kernel
    rw [hsc] at h
    split at h
    · rename_i t s0 hb
      exact ⟨st, since, v, t, s0, h1, h2, hsc ▸ covered, hb, of_decide_eq_true h⟩
    · contradiction

/-! A file for which it is false. -/

/-- An array with a transform, and a property that reads the input where the array is put. -/
def clash : P := o [(g!"type", s g!"object"), (g!"properties", o [
  (g!"a", o [(g!"type", s g!"array"), (g!"items", o [(g!"type", s g!"string")]), (g!"transform", o [(g!"t", o [(g!"from", a [o [(g!"jsonPath", s g!"$.b")]])])])]),
  (g!"c", strFrom g!"first" [g!"$.a[0]"])])]

def one : Files := { files with read := fun p => if p = g!"/s/a.json" then .ok clash else .err }

theorem one_cases {path : Str} {d : P} (h : one.read path = .ok d) : path = g!"/s/a.json" ∧ d = clash := by
  simp only [one] at h
  split at h
  · rename_i hp; exact ⟨hp, by simpa using h.symm⟩
  · simp at h

theorem one_alone : NotCircular one fun _ => 0 where
  tidy := by rintro path d h; obtain ⟨_, rfl⟩ := one_cases h; simp [clash, strFrom, Tidy, TidyFields, TidyList]
  flat := by rintro path d h; obtain ⟨_, rfl⟩ := one_cases h; simp [clash, strFrom, FlatRefs, FlatRefsFields, FlatRefsList]
  inside := by rintro path d h; obtain ⟨rfl, rfl⟩ := one_cases h; exact ⟨fun _ => 0, C88ex.rankedIn_sound (by decide +kernel)⟩
  files := by rintro path d h; obtain ⟨rfl, rfl⟩ := one_cases h; exact C88ex.filesIn_sound (by decide +kernel)
  network := by intro url p h; simp [one, files] at h

def clashInst : Option Instance := match schemaOfDoc Sched.id [] true clash with
  | .ok i => some i
  | _ => none

def oneSem (p : Str) : Option Instance := if p = g!"/s/a.json" then clashInst else none

theorem one_means : FilesMean one [] true oneSem := by
  intro path
  by_cases h1 : path = g!"/s/a.json"
  · subst h1
    have hs : oneSem g!"/s/a.json" = clashInst := rfl
    rw [hs]
    have hsome : clashInst.isSome = true := by rfl
    unfold clashInst at hsome ⊢
    rcases hd : schemaOfDoc Sched.id [] true clash with i | _ | _
    · exact .made (d := clash) (n := 5) rfl rfl (d' := clash) (by rfl) fun sched => (schemaOfDoc_sched sched Sched.id _ _ _).trans hd
    · rw [hd] at hsome; simp at hsome
    · rw [hd] at hsome; simp at hsome
  · have : oneSem path = none := by unfold oneSem; rw [if_neg h1]
    rw [this]
    exact .unreadable fun d hd => h1 (one_cases hd).1

theorem clash_schema : clashInst.map (fun i => (i.properties, i.items)) = some (C03ex.arraySc.properties, C03ex.arraySc.items) := by rfl

end JT.C127ex

namespace JT
open Spec Cache Loading

/-- **C127, full statement**: two programs that load the same files give the same output for the same input. -/
def C127_statement : Prop :=
  ∀ (F : Files) (o path ident : Str) (fl : Bool) (lib : Lib) (ps1 ps2 : List (Prog Loaded)) (s1 s2 : State Loaded), '|' ∉ o →
    Steps (FileBuilder F Subtype.val) (init ps1) s1 → Steps (FileBuilder F Subtype.val) (init ps2) s2 →
    ∀ since1 since2 v1 v2, Returns s1 (schemaKey path o fl) since1 (some v1) → Returns s2 (schemaKey path o fl) since2 (some v2) →
      ∀ fmt b1 b2 t1 t2 st1 st2, newTransformer ⟨lib, b1, fmt⟩ ⟨v1.1.properties, v1.1.items⟩ ident = .ok (t1, st1) →
        newTransformer ⟨lib, b2, fmt⟩ ⟨v2.1.properties, v2.1.items⟩ ident = .ok (t2, st2) → ∀ (history1 history2 : List (Env × Str)) (r1 r2 : Sched) (raw : Str),
          (transform ⟨lib, r1, fmt⟩ t1 raw (afterCalls t1 history1 st1)).1.toOption = (transform ⟨lib, r2, fmt⟩ t2 raw (afterCalls t2 history2 st2)).1.toOption

/-- It is false in general: one file, loaded by one goroutine, gives a Transformer whose output depends on the iteration order. -/
theorem C127_refuted : ¬ C127_statement := by
  intro hc
  obtain ⟨st, since, r, h1, h2, h3⟩ := load_happens C127ex.one_alone (o := []) (by simp) true C127ex.one_means g!"/s/a.json"
  have hm : C127ex.oneSem g!"/s/a.json" = C127ex.clashInst := rfl
  rw [hm] at h3
  have hcl := C127ex.clash_schema
  rw [← h3] at hcl
  rcases r with _ | v
  · simp at hcl
  · simp only [Option.map_some, Option.some.injEq, Prod.mk.injEq] at hcl
    have hsc : C03ex.arraySc = ⟨v.1.properties, v.1.items⟩ := by rw [hcl.1, hcl.2]
    have h := C03ex.array_differs
    unfold C03ex.two at h
    split at h
    · rename_i t s0 hb
      have := hc C127ex.one [] g!"/s/a.json" g!"t" true (Toy.lib C03ex.docs2) _ _ st st (by simp) h1 h1 since since v v h2 h2 .json Sched.id Sched.id t t s0 s0
        (by rw [← hsc]; exact hb) (by rw [← hsc]; exact hb) [] [] Sched.id Sched.rev g!"in"
      simp only [afterCalls] at this
      split at h
      · rename_i x y hx hy
        rw [hx, hy] at this
        simp only [Res.toOption, Option.some.injEq] at this
        simp only [Option.some.injEq, Prod.mk.injEq] at h
        exact absurd (h.1.symm.trans (this.trans h.2)) (by decide)
      · contradiction
    · contradiction

end JT
