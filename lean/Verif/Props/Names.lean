import Verif.Props.C04Xml
import Verif.Props.C20
import Verif.Props.C31
import Verif.Props.C17
/- Why C04, C20, C31 and C47 are restricted: their full statements are false for unusual names. -/
namespace JT
open Spec

namespace Spec
/-- A schema without transforms and defaults whose objects have distinct property names. -/
structure PureNames (ident : Str) (sc : Schema) : Prop where
  distinct : ∀ m, sc.properties = some m → (m.map Prod.fst).Nodup
  distinctIn : ∀ q m, SchemaInst sc q → q.key g!"properties" = some (.obj m) → (m.map Prod.fst).Nodup
  noDefault : ∀ q, SchemaInst sc q → NoDefault q
  noTransform : ∀ q, SchemaInst sc q → NoTransform ident q

/-- The property names of the objects of a schema are distinct. -/
def Distinct (view : P → Option Node) (sc : Schema) : Prop :=
  (∀ m, sc.properties = some m → (m.map Prod.fst).Nodup) ∧ ∀ l q m, SchemaAt view sc l q → view q = some (.object m) → (m.map Prod.fst).Nodup
end Spec

/-- **C04, full statement** for JSON input. -/
def C04_statement : Prop := ∀ (env0 env : Env) (sc : Schema) (ident : Str) (t : T) (s0 : St) (raw : Str) (p : P),
  newTransformer env0 sc ident = .ok (t, s0) → PureNames ident sc → env.fmt = .json → env.lib = env0.lib → env.lib.parseJSON raw = some p →
    ∃ r, SchemaProjected env.lib (canon p) sc r ∧ (transformNoValidation env t raw s0).1.toOption = r.bind env.lib.marshal

/-- **C20, full statement**: for schemas whose objects have distinct property names. -/
def C20_statement : Prop := ∀ (env : Env) (sc : Schema) (ident : Str),
  (∀ m, sc.properties = some m → (m.map Prod.fst).Nodup) →
  (∀ q m, SchemaInst sc q → q.key g!"properties" = some (.obj m) → (m.map Prod.fst).Nodup) →
  (∀ (m : List (Str × P)) (f : Str × P → Str × P), env.sched.perm 0 _ (m.map f) = (env.sched.perm 0 _ m).map f) →
    newTransformer env (fullSchema ident sc) ident = newTransformer env sc ident

/-- **C31, full statement** for `WalkRaw`. -/
def C31_statement : Prop := ∀ (sched : Sched) (tick : Nat) (sc : Schema), Distinct rawNode sc →
    ∃ vs done, Visits rawNode sc vs done ∧ ∀ (σ : Type) (fn : Str → P → σ → Res σ) (s s' : σ),
      walkRawSchema sched tick fn sc s = .ok s' ↔ done = true ∧ Calls (fun x => fn (pathOf x.1) x.2) vs s s'

/-- **C47, full statement**. -/
def C47_statement : Prop := ∀ (data : P) (t : Str) (nu : Bool), fieldType data = .ok (t, nu) ↔ HasType data t nu

namespace NamesEx
open Toy

def str : P := o [(g!"type", s g!"string")]

/-- A property with a dot in its name besides the property it seems to be below. -/
def dotted : Schema := ⟨some [(g!"x", str), (g!"x.y", str)], none⟩
def docs : List (Str × P) := [(g!"in", o [(g!"x.y", s g!"B")])]

theorem dotted_inst {q : P} (h : SchemaInst dotted q) : q = str := by
  have hs : ∀ {p q : P}, Inst p q → p = str → q = str := by
    intro p q h
    induction h with
    | self => exact id
    | prop _ h2 _ ih => intro hp; rw [ih hp] at h2; simp [str, P.key, GMap.get] at h2
    | items _ h2 ih => intro hp; rw [ih hp] at h2; simp [str, P.key, GMap.get] at h2
  rcases h with ⟨m, k, p, h1, h2, h3⟩ | ⟨p, h1, _⟩
  · simp only [dotted, Option.some.injEq] at h1
    subst h1
    refine hs h3 ?_
    simp only [List.mem_cons, Prod.mk.injEq, List.not_mem_nil, or_false] at h2
    rcases h2 with ⟨_, h⟩ | ⟨_, h⟩ <;> exact h
  · simp [dotted] at h1

theorem dotted_pure : PureNames g!"t" dotted := by
  refine ⟨fun m hm => ?_, fun q m hq hm => ?_, fun q hq => ?_, fun q hq => ?_⟩
  · simp only [dotted, Option.some.injEq] at hm
    subst hm
    decide
  · rw [dotted_inst hq] at hm
    simp [str, P.key, GMap.get] at hm
  · rw [dotted_inst hq]
    rfl
  · rw [dotted_inst hq]
    exact Or.inl rfl

theorem dotted_out : (match newTransformer (env docs) dotted g!"t" with
    | .ok (t, s0) => (transformNoValidation (env docs) t g!"in" s0).1.toOption
    | _ => none) = some g!"null" := by decide +kernel

/-- The same with a relative path. -/
def rel : Schema := ⟨some [(g!"x", str), (g!"x.y", strFrom g!"first" [g!"@.w"])], none⟩

/-- The paths of the instructions of a new Transformer. -/
def paths (r : Res (T × JT.St)) : List (List Str) := match r with
  | .ok (_, s) => s.instrs.map fun i => i.from.map Instr.jsonPath
  | _ => []

theorem rel_differs : paths (newTransformer (env []) rel g!"t") ≠ paths (newTransformer (env []) (fullSchema g!"t" rel) g!"t") := by decide +kernel

/-- A property without a name. -/
def noName : Schema := ⟨some [([], str)], none⟩

end NamesEx

/-- C04 is false if a property has a dot in its name: here it gets no node in the Transformer, and its value is lost. -/
theorem C04_refuted : ¬ C04_statement := by
  intro hc
  have hd := NamesEx.dotted_out
  split at hd
  · rename_i t s0 hb
    obtain ⟨r, h1, h2⟩ := hc _ (Toy.env NamesEx.docs) _ _ t s0 g!"in" (Toy.o [(g!"x.y", Toy.s g!"B")]) hb NamesEx.dotted_pure rfl rfl (by rfl)
    rw [hd] at h2
    cases h1 with
    | @object m f h3 h4 =>
      simp only [NamesEx.dotted, Option.some.injEq] at h3
      subst h3
      have hx := Projected.unique (.scalar (lib := (Toy.env NamesEx.docs).lib) (raw := NamesEx.str) (x := fieldOf g!"x" (some (canon (Toy.o [(g!"x.y", Toy.s g!"B")]))))
        (ty0 := g!"string") (ty := g!"string") (nu := false) (by decide +kernel) (by decide) (fun h => by simp at h) (by decide +kernel)) (h4 g!"x" NamesEx.str (by simp))
      have hy := Projected.unique (.scalar (lib := (Toy.env NamesEx.docs).lib) (raw := NamesEx.str) (x := fieldOf g!"x.y" (some (canon (Toy.o [(g!"x.y", Toy.s g!"B")]))))
        (ty0 := g!"string") (ty := g!"string") (nu := false) (by decide +kernel) (by decide) (fun h => by simp at h) (by decide +kernel)) (h4 g!"x.y" NamesEx.str (by simp))
      simp only [List.map_cons, List.map_nil, optAll, ← hx, ← hy] at h2
      revert h2
      decide +kernel
    | array h => simp [NamesEx.dotted] at h
  · contradiction

/-- C20 is false if a property has a dot in its name: `@` then stands for the path up to that dot. -/
theorem C20_refuted : ¬ C20_statement := by
  intro hc
  refine NamesEx.rel_differs (congrArg NamesEx.paths (hc (Toy.env []) NamesEx.rel g!"t" ?_ ?_ fun m f => rfl)).symm
  · intro m hm
    simp only [NamesEx.rel, Option.some.injEq] at hm
    subst hm
    decide
  · intro q m hq hm
    have hs : ∀ {p q : P}, Inst p q → p.key g!"properties" = none → p.key g!"items" = none → q = p := by
      intro p q h
      induction h with
      | self => intros; rfl
      | prop _ h2 _ ih => intro h3 h4; rw [ih h3 h4, h3] at h2; simp at h2
      | items _ h2 ih => intro h3 h4; rw [ih h3 h4, h4] at h2; simp at h2
    rcases hq with ⟨m', k, p, h1, h2, h3⟩ | ⟨p, h1, _⟩
    · simp only [NamesEx.rel, Option.some.injEq] at h1
      subst h1
      simp only [List.mem_cons, Prod.mk.injEq, List.not_mem_nil, or_false] at h2
      rcases h2 with ⟨_, rfl⟩ | ⟨_, rfl⟩ <;> rw [hs h3 rfl rfl] at hm <;> simp [NamesEx.str, Toy.strFrom, P.key, GMap.get] at hm
    · simp [NamesEx.rel] at h1

/-- C31 is false if a property has the empty name: the path passed to the function is that of the enclosing object. -/
theorem C31_refuted : ¬ C31_statement := by
  intro hc
  have hat : ∀ l q, SchemaAt rawNode NamesEx.noName l q → rawNode q = some .leaf := by
    intro l q h
    cases h with
    | prop h1 h2 h3 =>
      simp only [NamesEx.noName, Option.some.injEq] at h1
      subst h1
      simp only [List.mem_singleton, Prod.mk.injEq] at h2
      obtain ⟨rfl, rfl⟩ := h2
      have hn : rawNode NamesEx.str = some .leaf := by rfl
      cases h3 with
      | here => exact hn
      | prop h => rw [hn] at h; simp at h
      | item h => rw [hn] at h; simp at h
    | item h => simp [NamesEx.noName] at h
  obtain ⟨vs, done, hv, hw⟩ := hc Sched.id 0 NamesEx.noName ⟨fun m hm => by
      simp only [NamesEx.noName, Option.some.injEq] at hm
      subst hm
      decide, fun l q m h1 h2 => by rw [hat l q h1] at h2; simp at h2⟩
  have hdone : done = true := hv.ends.2 fun l q h => by rw [hat l q h]; simp
  have hmem := hv.complete hdone [.key []] NamesEx.str (.prop (m := [([], NamesEx.str)]) rfl (by simp) .here)
  have hrun : walkRawSchema Sched.id 0 (fun p _ (l : List Str) => .ok (l ++ [p])) NamesEx.noName [] = .ok [g!"$"] := by decide +kernel
  have hcalls := ((hw _ _ _ _).1 hrun).2
  have hrec : ∀ (vs : List (List Seg × P)) (a b : List Str), Calls (fun (x : List Seg × P) (l : List Str) => Res.ok (l ++ [pathOf x.1])) vs a b →
      b = a ++ vs.map fun x => pathOf x.1 := by
    intro vs
    induction vs with
    | nil => intro a b h; cases h; simp
    | cons x vs ih =>
      intro a b h
      cases h with
      | cons h1 h2 =>
        simp only [Res.ok.injEq] at h1
        subst h1
        rw [ih _ _ h2]
        simp
  have he := hrec _ _ _ hcalls
  have : pathOf [.key []] ∈ [g!"$"] := by
    rw [he]
    exact List.mem_append_right _ (List.mem_map.2 ⟨_, hmem, rfl⟩)
  revert this
  decide

/-- C47 is false if an empty name is listed: it does not count. -/
theorem C47_refuted : ¬ C47_statement := by
  intro hc
  have h := (hc (Toy.o [(g!"type", Toy.a [Toy.s [], Toy.s g!"string"])]) g!"string" false).1 (by decide +kernel)
  cases h with
  | name h => simp [P.key, GMap.get] at h
  | list h1 _ h3 =>
    simp only [P.key, GMap.get, if_true, Option.some.injEq, P.arr.injEq] at h1
    subst h1
    revert h3
    decide +kernel

end JT
