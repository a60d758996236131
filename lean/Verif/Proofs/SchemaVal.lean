import Verif.Proofs.Val
/- The whole call: a Transformer for a covered schema computes the value of the schema. -/
namespace JT
open Spec

theorem Transformed.unique {lib : Lib} {ident : Str} {inp raw : P} {up : Str} {sub : Mod} {ty : Str} {r r' : Res P}
    (h : Transformed lib ident inp raw up sub ty r) (h' : Transformed lib ident inp raw up sub ty r') : r = r' := by
  cases h with
  | none h1 => cases h' with
    | none => rfl
    | empty => rfl
    | some h2 => rw [h1] at h2; simp at h2
  | empty h1 => cases h' with
    | none => rfl
    | empty => rfl
    | some h2 h3 => rw [h1] at h2; simp at h2; exact absurd h2.symm h3
  | some h1 h2 h3 => cases h' with
    | none h4 => rw [h1] at h4; simp at h4
    | empty h4 => rw [h1] at h4; simp at h4; exact absurd h4 h2
    | some h4 h5 h6 =>
      rw [h1] at h4
      simp at h4
      subst h4
      rw [h3] at h6
      simp at h6
      subst h6
      rfl

/-- An instance has one value. -/
theorem Val.unique {lib : Lib} {ident : Str} {inp raw : P} {up sp cp : Str} {sub : Mod} {r : Option P}
    (h : Val lib ident inp raw up sp cp sub r) : ∀ {r' : Option P}, Val lib ident inp raw up sp cp sub r' → r = r' := by
  induction h with
  | scalar h1 h2 h3 h4 h5 =>
    intro r' h'
    cases h' with
    | scalar g1 g2 g3 g4 g5 =>
      rw [h1] at g1
      simp at g1
      obtain ⟨rfl, rfl⟩ := g1
      rw [h4] at g4
      simp at g4
      subst g4
      rw [Transformed.unique h5 g5]
    | array g1 => rw [h1] at g1; simp at g1; exact absurd g1.1 h2
    | object g1 g2 g3 =>
      rw [h1] at g1
      simp only [Res.ok.injEq, Prod.mk.injEq] at g1
      rw [h3 g1.1] at g2
      simp at g2
      exact absurd g2.symm (by simpa using g3)
  | array h1 h2 h3 ih =>
    intro r' h'
    cases h' with
    | scalar g1 g2 => rw [h1] at g1; simp at g1; exact absurd g1.1.symm g2
    | array g1 g2 g3 =>
      rw [h2] at g2
      simp at g2
      subst g2
      rw [optAll_congr fun i _ => ih i (g3 i)]
    | object g1 => rw [h1] at g1; simp at g1
  | object h1 h2 h3 h4 ih =>
    intro r' h'
    cases h' with
    | scalar g1 g2 g3 =>
      rw [h1] at g1
      simp only [Res.ok.injEq, Prod.mk.injEq] at g1
      rw [g3 g1.1.symm] at h2
      simp at h2
      exact absurd h2.symm (by simpa using h3)
    | array g1 => rw [h1] at g1; simp at g1
    | object g1 g2 g3 g4 =>
      rw [h2] at g2
      simp at g2
      subst g2
      congr 1
      refine optAll_congr fun k hk => ?_
      obtain ⟨⟨k', q⟩, hkq, rfl⟩ := List.mem_map.1 hk
      rw [ih k' q hkq (g4 k' q hkq)]

theorem SchemaVal.unique {lib : Lib} {ident : Str} {inp : P} {sc : Schema} {r r' : Option P}
    (h : SchemaVal lib ident inp sc r) (h' : SchemaVal lib ident inp sc r') : r = r' := by
  cases h with
  | object h1 h2 =>
    cases h' with
    | object g1 g2 =>
      rw [h1] at g1
      simp at g1
      subst g1
      congr 1
      refine optAll_congr fun k hk => ?_
      obtain ⟨⟨k', q⟩, hkq, rfl⟩ := List.mem_map.1 hk
      rw [Val.unique (h2 k' q hkq) (g2 k' q hkq)]
    | array g1 => rw [h1] at g1; simp at g1
  | array h1 h2 h3 =>
    cases h' with
    | object g1 => rw [h1] at g1; simp at g1
    | array g1 g2 g3 =>
      rw [h2] at g2
      simp at g2
      subst g2
      rw [optAll_congr fun i _ => Val.unique (h3 i) (g3 i)]

mutual
/-- The default values of a mirroring transformer have trees. -/
theorem defaults_toP {lib : Lib} {ident : Str} {s : St} : ∀ (t : T) {path : Str} {raw : P}, Mirrors lib ident s t path raw →
    ∀ d ∈ t.defaults, ∃ p, s.heap.toP d = some p
  | .scalar p ty d tid, path, raw, h => by
    simp only [Mirrors] at h
    intro d hd
    simp only [T.defaults, List.mem_singleton] at hd
    subst hd
    exact ⟨_, h.2.2.1⟩
  | .array p d tid none, path, raw, h => by simp [Mirrors] at h
  | .array p d tid (some c), path, raw, h => by
    simp only [Mirrors] at h
    obtain ⟨h1, h2, h3, h4, items, h5, h6⟩ := h
    simp only [T.defaults]
    exact defaults_toP c h6
  | .object p d tid cs, path, raw, h => by
    simp only [Mirrors] at h
    obtain ⟨h1, h2, h3, h4, m, h5, hne, h6, h7, h8⟩ := h
    simp only [T.defaults]
    exact defaultsKids_toP cs h8
theorem defaultsKids_toP {lib : Lib} {ident : Str} {s : St} : ∀ (cs : List (Str × T)) {path : Str} {m : List (Str × P)},
    MirrorsKids lib ident s cs path m → ∀ d ∈ T.defaultsKids cs, ∃ p, s.heap.toP d = some p
  | [], _, _, _, d, hd => by simp [T.defaultsKids] at hd
  | (k, t) :: r, path, m, h, d, hd => by
    simp only [MirrorsKids] at h
    obtain ⟨⟨q, h1, h2⟩, h3⟩ := h
    simp only [T.defaultsKids, List.mem_append] at hd
    rcases hd with hd | hd
    · exact defaults_toP t h2 d hd
    · exact defaultsKids_toP r h3 d hd
end

theorem SimpleSchema.inst {ident : Str} {sc : Schema} (h : SimpleSchema ident sc) {q : P} (hq : SchemaInst sc q) : SimpleInst ident q :=
  ⟨h.noDefault q hq, h.noTransform q hq, h.notLast q hq, h.noClock q hq, h.plain.2 q hq⟩

/-- The tree of a default value. -/
def dvOf (s : St) (d : V) : P := (s.heap.toP d).getD nilP

/-- A transformer for a covered schema is covered, and evaluates to the value of the schema. -/
theorem schemaVal_of_mirrors {lib : Lib} {ident : Str} {s : St} {t : T} {sc : Schema} (hm : MirrorsSchema lib ident s t sc) (hs : SimpleSchema ident sc) (inp : P) :
    t.frag s.instrs ∧ (∀ d ∈ t.defaults, Rep s.heap (fun _ => true) d (dvOf s d)) ∧
      SchemaVal lib ident inp sc (eval lib s.instrs (dvOf s) t inp id) := by
  rcases hm with ⟨m, cs, h1, h2, rfl, h3, h4, h5⟩ | ⟨q, c, h1, h2, rfl, h3⟩
  · have hpl := hs.plain.1 m h1
    have hinst : ∀ k q, (k, q) ∈ m → ∀ r, Inst q r → SimpleInst ident r := fun k q hkq r hr => SimpleSchema.inst hs (Or.inl ⟨m, k, q, h1, hkq, hr⟩)
    have hd : ∀ d ∈ T.defaultsKids cs, s.heap.toP d = some (dvOf s d) := by
      intro d hd
      obtain ⟨p, hp⟩ := defaultsKids_toP cs h5 d hd
      rw [dvOf, hp]; rfl
    refine ⟨?_, ?_, ?_⟩
    · simp only [T.frag]
      exact ⟨trivial, trivial, h3, fragKids_of_mirrors cs h5 (fun k q hkq => hpl.2 (k, q) hkq) hinst⟩
    · intro d hd'
      exact rep_of_toP (hd d (by simpa [T.defaults] using hd'))
    · simp only [eval]
      have hsub : ∀ kt ∈ cs, ∃ q, (kt.1, q) ∈ m := fun kt hkt => let ⟨q, h1, _⟩ := MirrorsKids_iff.1 h5 kt hkt; ⟨q, h1⟩
      rw [evalKids_objectOf h3 hpl.1 h4 hsub]
      refine SchemaVal.object h1 ?_
      intro k q hkq
      obtain ⟨t, ht⟩ := h4 k ⟨q, hkq⟩
      rw [GMap.get_of_mem h3 ht]
      simp only [Option.bind_some]
      exact valKids_of_mirrors (inp := inp) cs (l := []) (cp := g!"$") (mod := id) (by simp) h5 hpl.1 (fun k q hkq => hpl.2 (k, q) hkq)
        (fun k q hq r hr => (hinst k q hq r hr).plain) hd (fun rest => rfl) k t q ht hkq
  · have hinst : ∀ r, Inst q r → SimpleInst ident r := fun r hr => SimpleSchema.inst hs (Or.inr ⟨q, h2, hr⟩)
    have hd : ∀ d ∈ c.defaults, s.heap.toP d = some (dvOf s d) := by
      intro d hd
      obtain ⟨p, hp⟩ := defaults_toP c h3 d hd
      rw [dvOf, hp]; rfl
    refine ⟨?_, ?_, ?_⟩
    · simp only [T.frag]
      exact ⟨trivial, trivial, frag_of_mirrors c h3 hinst⟩
    · intro d hd'
      exact rep_of_toP (hd d (by simpa [T.defaults] using hd'))
    · simp only [eval]
      refine SchemaVal.array (f := fun i => eval lib s.instrs (dvOf s) c inp
        (pathReplace (g!"$" ++ g!"[*]") (g!"$" ++ g!"[" ++ itoaNat i ++ g!"]") id)) h1 h2 (fun i => ?_)
      exact val_of_mirrors (inp := inp) c (l := []) (sg := .star) (cp := g!"$[" ++ itoaNat i ++ g!"]")
        (mod := pathReplace (g!"$" ++ g!"[*]") (g!"$" ++ g!"[" ++ itoaNat i ++ g!"]") id)
        (by intro x hx; simp at hx; subst hx; trivial) h3 (fun r hr => (hinst r hr).plain) hd (fun rest => replace1_prefix g!"$[*]" rest _)

/-- A call on a Transformer for a covered schema, JSON input: the value of the schema, rendered. -/
theorem transform_schemaVal {env0 env : Env} {sc : Schema} {ident : Str} {t : T} {s0 : St} (hb : newTransformer env0 sc ident = .ok (t, s0))
    (hs : SimpleSchema ident sc) (hf : env.fmt = .json) (hlib : env.lib = env0.lib) {raw : Str} {p : P} (hp : env.lib.parseJSON raw = some p) :
    ∃ r, SchemaVal env.lib ident (canon p) sc r ∧ (baseTransform env t raw s0).1.toOption = r.bind env.lib.marshal := by
  have hm := newTransformer_mirrors hb hs.plain
  rw [← hlib] at hm
  obtain ⟨h1, h2, h3⟩ := schemaVal_of_mirrors hm hs (canon p)
  refine ⟨_, h3, ?_⟩
  rw [baseTransform_eval hf h1 h2 raw, hp]
  rfl

end JT
