import Verif.Proofs.Full
import Verif.Props.C04
/- C05 (scalar precedence), C06 (array precedence), C07 (omission of absent values). -/
namespace JT
open Spec

theorem Pos.inst {lib : Lib} {inp raw raw' : P} {c c' : Ctx} {l : List Step} (h : Pos lib inp raw c l raw' c') : Inst raw raw' := by
  induction h with
  | here => exact .self _
  | prop _ h2 h3 _ ih => exact Inst.trans (.prop (.self _) h2 h3) ih
  | item _ h2 _ _ ih => exact Inst.trans (.items (.self _) h2) ih

theorem SchemaPos.inst {lib : Lib} {inp q : P} {sc : Schema} {c : Ctx} {l : List Step} (h : SchemaPos lib inp sc l q c) : SchemaInst sc q := by
  cases h with
  | prop h1 h2 h3 => exact Or.inl ⟨_, _, _, h1, h2, Pos.inst h3⟩
  | item h1 h2 h3 h4 => exact Or.inr ⟨_, h2, Pos.inst h4⟩

/-- A successful call: the output is the rendering of a pruned full document. -/
theorem transform_full {env0 env : Env} {sc : Schema} {ident : Str} {t : T} {s0 : St} (hb : newTransformer env0 sc ident = .ok (t, s0))
    (hs : SimpleSchema ident sc) (hf : env.fmt = .json) (hlib : env.lib = env0.lib) {raw : Str} {p : P} (hp : env.lib.parseJSON raw = some p)
    {out : Str} (hout : (transformNoValidation env t raw s0).1 = .ok out) :
    ∃ f, env.lib.marshal (prune f) = some out ∧ f.Distinct ∧ ∀ l q c, SchemaPos env.lib (canon p) sc l q c →
      ∃ g, f.at l = some g ∧ NodeIs env.lib ident (canon p) q c g := by
  obtain ⟨r, h1, h2⟩ := transform_schemaVal hb hs hf hlib hp
  have h2 : (transformNoValidation env t raw s0).1.toOption = r.bind env.lib.marshal := h2
  rw [hout] at h2
  cases r with
  | none => simp [Res.toOption] at h2
  | some v =>
    obtain ⟨f, hf1, hf2⟩ := SchemaVal.full h1 hs.plain
    exact ⟨f, by rw [hf1]; exact h2.symm, hf2⟩

/-- **C05, full statement**: in the output of any successful call on a JSON document, the value at the place of a scalar instance
is the first available of: transform result, converted input value at the same path, default. -/
def C05_statement : Prop :=
  ∀ (env : Env) (sc : Schema) (ident : Str) (t : T) (s0 : St) (raw out : Str) (p : P), newTransformer env sc ident = .ok (t, s0) →
    PlainSchema sc → env.fmt = .json → env.lib.parseJSON raw = some p → (transformNoValidation env t raw s0).1 = .ok out →
    ∃ f, env.lib.marshal (prune f) = some out ∧ f.Distinct ∧ ∀ l q c ty, SchemaPos env.lib (canon p) sc l q c → IsScalar q ty →
      ∃ v, f.at l = some (.leaf v) ∧ FirstAvailable env.lib ident (canon p) q c ty v

/-- C05 for schemas whose arrays and objects have neither default nor transform, without `last` and `currentTime`, at every
depth of the output.  Missing: schemas with array or object transforms, for which it is false (`C05_refuted`), method `last`
and `currentTime`. -/
theorem C05_partial {env0 env : Env} {sc : Schema} {ident : Str} {t : T} {s0 : St} (hb : newTransformer env0 sc ident = .ok (t, s0))
    (hs : SimpleSchema ident sc) (hf : env.fmt = .json) (hlib : env.lib = env0.lib) {raw : Str} {p : P} (hp : env.lib.parseJSON raw = some p)
    {out : Str} (hout : (transformNoValidation env t raw s0).1 = .ok out) :
    ∃ f, env.lib.marshal (prune f) = some out ∧ f.Distinct ∧ ∀ l q c ty, SchemaPos env.lib (canon p) sc l q c → IsScalar q ty →
      ∃ v, f.at l = some (.leaf v) ∧ FirstAvailable env.lib ident (canon p) q c ty v := by
  obtain ⟨f, h1, h3, h2⟩ := transform_full hb hs hf hlib hp hout
  refine ⟨f, h1, h3, fun l q c ty hpos hsc => ?_⟩
  obtain ⟨g, hg, hn⟩ := h2 l q c hpos
  obtain ⟨v, rfl, hv⟩ := hn.1 ty hsc
  exact ⟨v, hg, hv⟩

namespace C05ex
open Toy

/-- Like the toy library, but rendering only tells whether there is a field `c`. -/
def lib' : Lib := { lib C03ex.docs2 with marshal := fun p => some (match p with
  | .obj m => if (GMap.get g!"c" m).isSome then g!"1" else g!"0"
  | _ => g!"0") }

def out : Option Str := match newTransformer ⟨lib', Sched.id, .json⟩ C03ex.arraySc g!"t" with
  | .ok (t, s0) => match (transformNoValidation ⟨lib', Sched.id, .json⟩ t g!"in" s0).1 with
    | .ok x => some x
    | _ => none
  | _ => none

theorem out_eq : out = some g!"1" := by decide +kernel

/-- The input. -/
def inp : P := o [(g!"b", a [s g!"B", s g!"C"])]

theorem trans_nil : isNilP (match parseInstrs lib' (o [(g!"method", s g!"first"), (g!"from", a [o [(g!"jsonPath", s g!"$.a[0]")]])]) with
    | .ok tis => (match instrsP lib' g!"string" (fun p => atPath g!"$" p) tis inp with
      | .ok p => p
      | _ => i 1)
    | _ => i 1) = true := by decide +kernel

end C05ex

/-- In `C03ex` the sibling of a transformed array gets a value that is neither its transform result on the input, nor the
input value, nor a default: it is read from the transformed array. -/
theorem C05_refuted : ¬ C05_statement := by
  intro hc
  have hd := C05ex.out_eq
  unfold C05ex.out at hd
  split at hd
  · rename_i t s0 hb
    split at hd
    · rename_i x hx
      obtain ⟨f, hm, hdis, hall⟩ := hc _ _ _ _ _ _ _ C05ex.inp hb
        ⟨by intro m hm; simp [C03ex.arraySc] at hm; subst hm; exact plainMapB_sound (by decide +kernel),
         fun q hq => plainPropsB_sound (checkSchema_sound (f := plainPropsB) (n := 5) (by decide +kernel) hq)⟩ rfl rfl hx
      have hcan : canon C05ex.inp = C05ex.inp := by rfl
      rw [hcan] at hall
      -- the value of `c`
      obtain ⟨v, hv, hfa⟩ := hall [.key g!"c"] (Toy.strFrom g!"first" [g!"$.a[0]"]) ⟨g!"$", g!"$.c", g!"$.c", id⟩ g!"string"
        (.prop (m := _) rfl (by simp) .here) ⟨g!"string", false, by decide +kernel, by decide, fun h => by simp at h, by decide +kernel⟩
      have htr : Transformed C05ex.lib' g!"t" C05ex.inp (Toy.strFrom g!"first" [g!"$.a[0]"]) g!"$" id g!"string" (.ok nilP) := by
        have hq := C05ex.trans_nil
        split at hq
        · rename_i tis htis
          split at hq
          · rename_i p hp
            have := eq_nilP_of hq
            subst this
            rw [← hp]
            exact .some rfl (by simp) htis
          · simp [isNilP] at hq
        · simp [isNilP] at hq
      have hsame : sameP C05ex.lib' g!"string" g!"$.c" C05ex.inp = .ok nilP := by rfl
      have hnil : v = nilP := by
        cases hfa with
        | transform h1 h2 =>
          have := Transformed.unique h1 htr
          simp only [Res.ok.injEq] at this
          exact absurd this h2
        | same h1 h2 h3 =>
          rw [hsame] at h2
          simp only [Res.ok.injEq] at h2
          exact absurd h2.symm h3
        | default => rfl
      subst hnil
      simp only [Option.some.injEq] at hd
      subst hd
      cases f with
      | leaf => simp [Full.at] at hv
      | arr => simp [Full.at] at hv
      | obj m =>
        simp only [Full.at] at hv
        cases hg : GMap.get g!"c" m with
        | none => rw [hg] at hv; simp at hv
        | some g =>
          rw [hg] at hv
          simp only [Option.bind_some, Full.at, Option.some.injEq] at hv
          subst hv
          rcases prune_obj hdis.1 with ⟨h1, -⟩ | ⟨m', h1, -, -, -, h2⟩
          · rw [h1] at hm
            simp [C05ex.lib'] at hm
          · have h2 := h2 g!"c"
            rw [hg] at h2
            rw [h1] at hm
            simp only [C05ex.lib'] at hm
            rw [h2] at hm
            simp [prune, isNilP] at hm
    · contradiction
  · contradiction

/-- Scalars of `C03ex` at two depths: transform, input value and default. -/
example : SchemaPos (Toy.lib C03ex.docs) (canon (Toy.o [(g!"l", Toy.a [Toy.i 1, Toy.i 2])])) C03ex.sc [.key g!"l", .idx 1, .key g!"c"]
    (Toy.o [(g!"type", Toy.s g!"number"), (g!"default", Toy.i 7)])
    (Ctx.prop (Ctx.item ⟨g!"$", g!"$.l", g!"$.l", id⟩ 1) g!"c") :=
  .prop (m := _) rfl (List.mem_cons_self ..) (.item (nu := false) rfl rfl (by decide +kernel) (.prop (nu := false) rfl rfl (by simp) .here))

example : (Ctx.prop (Ctx.item ⟨g!"$", g!"$.l", g!"$.l", id⟩ 1) g!"c").cp = g!"$.l[1].c" := by decide +kernel

/-- **C07** on covered schemas: the output is the rendering of a pruned document in which every object and array instance has one
entry per property or item (`NodeIs`); the value of an object instance is absent if all its entries are absent, else an object
without nil fields having exactly the present entries; an array value is absent or a non-empty array of the present entries in order. -/
theorem C07_partial {env0 env : Env} {sc : Schema} {ident : Str} {t : T} {s0 : St} (hb : newTransformer env0 sc ident = .ok (t, s0))
    (hs : SimpleSchema ident sc) (hf : env.fmt = .json) (hlib : env.lib = env0.lib) {raw : Str} {p : P} (hp : env.lib.parseJSON raw = some p)
    {out : Str} (hout : (transformNoValidation env t raw s0).1 = .ok out) :
    ∃ f, env.lib.marshal (prune f) = some out ∧
      (∀ l q c nu m, SchemaPos env.lib (canon p) sc l q c → fieldType q = .ok (g!"object", nu) → q.key g!"properties" = some (.obj m) → m ≠ [] →
        ∃ m', f.at l = some (.obj m') ∧ m'.map Prod.fst = m.map Prod.fst ∧
          ((prune (.obj m') = nilP ∧ ∀ k g, GMap.get k m' = some g → prune g = nilP) ∨
          ∃ o, prune (.obj m') = .obj o ∧ o ≠ [] ∧ (∀ kv ∈ o, kv.2 ≠ nilP) ∧
            ∀ k, GMap.get k o = (GMap.get k m').bind fun g => if isNilP (prune g) = true then none else some (prune g))) ∧
      (∀ l q c nu, SchemaPos env.lib (canon p) sc l q c → fieldType q = .ok (g!"array", nu) →
        ∃ gs, f.at l = some (.arr gs) ∧ gs.length = itemsAt env.lib c.cp (canon p) ∧
          ((prune (.arr gs) = nilP ∧ ∀ g ∈ gs, prune g = nilP) ∨
          ∃ l', prune (.arr gs) = .arr l' ∧ l' ≠ [] ∧ l' = (gs.map prune).filter fun p => !isNilP p)) := by
  obtain ⟨f, h1, h3, h2⟩ := transform_full hb hs hf hlib hp hout
  refine ⟨f, h1, ?_, ?_⟩
  · intro l q c nu m hpos hq hm hne
    obtain ⟨g, hg, hn⟩ := h2 l q c hpos
    obtain ⟨m', rfl, hm'⟩ := hn.2.2 nu m hq hm hne
    refine ⟨m', hg, hm', ?_⟩
    have hinst : SchemaInst sc q := SchemaPos.inst hpos
    have hnd : (m'.map Prod.fst).Nodup := by rw [hm']; exact ((hs.plain.2 q hinst) m hm).1
    rcases prune_obj hnd with h | ⟨o, h1, h2, -, h3, h4⟩
    · exact Or.inl h
    · exact Or.inr ⟨o, h1, h2, h3, h4⟩
  · intro l q c nu hpos hq
    obtain ⟨g, hg, hn⟩ := h2 l q c hpos
    obtain ⟨gs, rfl, hlen⟩ := hn.2.1 nu hq
    exact ⟨gs, hg, hlen, prune_arr gs⟩

end JT
