import Verif.Proofs.TopSchema
import Verif.Spec.CheckIsolated
import Verif.Props.C05
/- C03, C05, C06 and C07 for schemas whose top level arrays have transforms or defaults of their own. -/
namespace JT
open Spec

namespace Spec

/-- The context of a top level property. -/
def topCtx (k : Str) : Ctx := ⟨g!"$", g!"$." ++ k, g!"$." ++ k, id⟩

/-- The entries of the top level array `k`, defined by `q`, and whether they are put into the input: from the transform, the input, the default. -/
def TopBase (lib : Lib) (ident : Str) (inp : P) (k : Str) (q : P) (b : List P × Bool) : Prop :=
  ∃ tr, Transformed lib ident inp q g!"$" id g!"array" tr ∧
    arrayBase tr ((jpGet lib P.view (g!"$." ++ k) inp).map outP) (canon ((q.key g!"default").getD nilP)) = some b

/-- Places of the output, with their instance, context, and the input this instance reads. -/
inductive TopPos (lib : Lib) (ident : Str) (inp : P) (sc : Schema) : List Step → P → Ctx → P → Prop
  | other {m : GMap P} {k : Str} {q raw : P} {l : List Step} {c : Ctx} : sc.properties = some m → (k, q) ∈ m → ¬ ArrayDef q →
      Pos lib inp q (topCtx k) l raw c → TopPos lib ident inp sc (.key k :: l) raw c inp
  | item {m : GMap P} {k : Str} {q items inp' raw : P} {b : List P × Bool} {i : Nat} {l : List Step} {c : Ctx} :
      sc.properties = some m → (k, q) ∈ m → ArrayDef q → q.key g!"items" = some items → TopBase lib ident inp k q b →
      inputWith k b inp = some inp' → i < b.1.length → Pos lib inp' items ((topCtx k).item i) l raw c →
      TopPos lib ident inp sc (.key k :: .idx i :: l) raw c inp'

end Spec

theorem TopSchemaVal.full {lib : Lib} {ident : Str} {inp : P} {sc : Schema} {m : GMap P} {r : P}
    (h : TopSchemaVal lib ident inp sc (some r)) (hi : IsolatedSchema ident sc m) :
      ∃ f, prune f = r ∧ f.Distinct ∧ (∃ mf, f = .obj mf ∧ mf.map Prod.fst = m.map Prod.fst) ∧
        (∀ l raw c inp', TopPos lib ident inp sc l raw c inp' → ∃ g, f.at l = some g ∧ NodeIs lib ident inp' raw c g) ∧
        (∀ k q, (k, q) ∈ m → ArrayDef q → ∃ b gs, TopBase lib ident inp k q b ∧ f.at [.key k] = some (.arr gs) ∧ gs.length = b.1.length) := by
  generalize ho : some r = o at h
  cases h with
  | @mk m' f h1 h2 =>
    have := hi.props
    rw [h1] at this
    simp only [Option.some.injEq] at this
    subst this
    have hnd := hi.nodup
    have hpl : ∀ q, SchemaInst sc q → PlainProps q := by
      intro q hq m1 hm1
      obtain ⟨a1, a2⟩ := hi.inNames q hq m1 hm1
      exact ⟨a1, fun kv hkv => isName_plain (a2 kv hkv)⟩
    cases hoa : optAll (fun k => (f k).map fun p => (k, p)) (m'.map Prod.fst) with
    | none => rw [hoa] at ho; simp at ho
    | some rs =>
      rw [hoa] at ho
      simp only [Option.map_some, Option.some.injEq] at ho
      have key : ∀ k, ∃ g : Full, ∀ q, (k, q) ∈ m' → (f k = some (prune g) ∧ g.Distinct ∧
          (∀ l raw c inp', TopPos lib ident inp sc (.key k :: l) raw c inp' → ∃ g', g.at l = some g' ∧ NodeIs lib ident inp' raw c g') ∧
          (ArrayDef q → ∃ b gs, TopBase lib ident inp k q b ∧ g = .arr gs ∧ gs.length = b.1.length)) := by
        intro k
        by_cases hex : ∃ q, (k, q) ∈ m'
        · obtain ⟨q, hq⟩ := hex
          obtain ⟨y, hy⟩ := optAll_some_mem hoa k (List.mem_map.2 ⟨(k, q), hq, rfl⟩)
          cases hfk : f k with
          | none => rw [hfk] at hy; simp at hy
          | some v =>
            have hv := h2 k q hq
            rw [hfk] at hv
            suffices hs : ∃ g : Full, some v = some (prune g) ∧ g.Distinct ∧
                (∀ l raw c inp', TopPos lib ident inp sc (.key k :: l) raw c inp' → ∃ g', g.at l = some g' ∧ NodeIs lib ident inp' raw c g') ∧
                (ArrayDef q → ∃ b gs, TopBase lib ident inp k q b ∧ g = .arr gs ∧ gs.length = b.1.length) by
              obtain ⟨g, hg⟩ := hs
              refine ⟨g, fun q' hq' => ?_⟩
              have := nodup_fst_eq hnd hq hq'
              subst this
              exact hg
            generalize ho' : some v = o' at hv
            cases hv with
            | other g1 g2 =>
              subst ho'
              obtain ⟨g, e1, e2, e3⟩ := Val.full g2 rfl (fun q' hq' => hpl q' (Or.inl ⟨m', k, q, h1, hq, hq'⟩))
              refine ⟨g, by rw [e1], e2, ?_, fun ⟨nu, h⟩ => absurd h (g1 nu)⟩
              intro l raw c inp' hp
              cases hp with
              | @other m2 _ q2 _ _ _ p1 p2 p3 p4 =>
                rw [h1] at p1
                simp only [Option.some.injEq] at p1
                subst p1
                have := nodup_fst_eq hnd hq p2
                subst this
                exact e3 l raw c p4
              | @item m2 _ q2 _ _ _ _ _ _ _ p1 p2 p3 =>
                rw [h1] at p1
                simp only [Option.some.injEq] at p1
                subst p1
                have := nodup_fst_eq hnd hq p2
                subst this
                exact absurd p3 (fun ⟨nu, h⟩ => g1 nu h)
            | @array nu items inp1 tr b fi g1 g2 g3 g4 g5 g6 =>
              cases hob : optAll fi (List.range b.1.length) with
              | none => rw [hob] at ho'; simp at ho'
              | some rs' =>
                rw [hob] at ho'
                simp only [Option.map_some, Option.some.injEq] at ho'
                have hit : ∀ i, ∃ g : Full, i < b.1.length → (fi i = some (prune g) ∧ g.Distinct ∧ ∀ l raw' c', Pos lib inp1 items
                    ((topCtx k).item i) l raw' c' → ∃ g', g.at l = some g' ∧ NodeIs lib ident inp1 raw' c' g') := by
                  intro i
                  by_cases hlt : i < b.1.length
                  · obtain ⟨y, hy⟩ := optAll_some_mem hob i (List.mem_range.2 hlt)
                    obtain ⟨g, e1, e2⟩ := Val.full (g6 i) hy (fun q' hq' => hpl q'
                      (Or.inl ⟨m', k, q, h1, hq, Inst.trans (.items (.self _) g2) hq'⟩))
                    exact ⟨g, fun _ => ⟨by rw [hy, e1], e2⟩⟩
                  · exact ⟨.leaf nilP, fun h => absurd h hlt⟩
                obtain ⟨g, hg⟩ := Classical.axiomOfChoice hit
                have hbase : TopBase lib ident inp k q b := ⟨tr, g3, g4⟩
                refine ⟨.arr ((List.range b.1.length).map g), ?_, distinct_arr fun i hi => (hg i hi).2.1, ?_,
                  fun _ => ⟨b, _, hbase, rfl, by simp⟩⟩
                · simp only [prune, pruneList_eq, List.map_map]
                  rw [optAll_of_all (g := fun i => prune (g i)) fun i hi => (hg i (List.mem_range.1 hi)).1] at hob
                  simp only [Option.some.injEq] at hob
                  rw [← hob]
                  rfl
                · intro l raw c inp' hp
                  cases hp with
                  | @other m2 _ q2 _ _ _ p1 p2 p3 p4 =>
                    rw [h1] at p1
                    simp only [Option.some.injEq] at p1
                    subst p1
                    have := nodup_fst_eq hnd hq p2
                    subst this
                    exact absurd ⟨nu, g1⟩ p3
                  | @item m2 _ q2 items2 inp2 _ b2 i l _ p1 p2 p3 p4 p5 p6 p7 p8 =>
                    rw [h1] at p1
                    simp only [Option.some.injEq] at p1
                    subst p1
                    have := nodup_fst_eq hnd hq p2
                    subst this
                    rw [g2] at p4
                    simp only [Option.some.injEq] at p4
                    subst p4
                    obtain ⟨tr2, p51, p52⟩ := p5
                    rw [← Transformed.unique g3 p51, g4] at p52
                    simp only [Option.some.injEq] at p52
                    subst p52
                    rw [g5] at p6
                    simp only [Option.some.injEq] at p6
                    subst p6
                    obtain ⟨g', e1, e2⟩ := (hg i p7).2.2 l raw c p8
                    exact ⟨g', by simp only [Full.at, List.getElem?_map]; rw [List.getElem?_range p7]; simpa using e1, e2⟩
            | fails => simp at ho'
        · exact ⟨.leaf nilP, fun q hq => absurd ⟨q, hq⟩ hex⟩
      obtain ⟨g, hg⟩ := Classical.axiomOfChoice key
      have hmem : ∀ k ∈ m'.map Prod.fst, ∃ q, (k, q) ∈ m' := by
        intro k hk
        obtain ⟨⟨k', q⟩, hkq, rfl⟩ := List.mem_map.1 hk
        exact ⟨q, hkq⟩
      refine ⟨.obj (m'.map fun kv => (kv.1, g kv.1)), ?_, distinct_obj hnd fun k q hq => (hg k q hq).2.1, ⟨_, rfl, by simp⟩, ?_, ?_⟩
      · simp only [prune, pruneFields_eq, List.map_map]
        rw [optAll_of_all (g := fun k => (k, prune (g k))) fun k hk => by
          obtain ⟨q, hq⟩ := hmem k hk
          rw [(hg k q hq).1]; rfl] at hoa
        simp only [Option.some.injEq] at hoa
        rw [ho, ← hoa, List.map_map]
        rfl
      · intro l raw c inp' hp
        have : ∃ k l', l = .key k :: l' ∧ ∃ q, (k, q) ∈ m' := by
          cases hp with
          | other p1 p2 =>
            rw [h1] at p1
            simp only [Option.some.injEq] at p1
            subst p1
            exact ⟨_, _, rfl, _, p2⟩
          | item p1 p2 =>
            rw [h1] at p1
            simp only [Option.some.injEq] at p1
            subst p1
            exact ⟨_, _, rfl, _, p2⟩
        obtain ⟨k, l', rfl, q, hq⟩ := this
        obtain ⟨g', e1, e2⟩ := (hg k q hq).2.2.1 l' raw c inp' hp
        exact ⟨g', by simp only [Full.at]; rw [GMap.get_map_nodup (g := g) hnd hq]; simpa using e1, e2⟩
      · intro k q hq ha
        obtain ⟨b, gs, e1, e2, e3⟩ := (hg k q hq).2.2.2 ha
        exact ⟨b, gs, e1, by simp only [Full.at]; rw [GMap.get_map_nodup (g := g) hnd hq]; simp [Full.at, e2], e3⟩

theorem takeWhile_name {n rest : Str} (hn : ∀ c ∈ n, isNameChar c = true) (hr : rest = [] ∨ ∃ r, rest = '.' :: r ∨ rest = '[' :: r) :
    (n ++ rest).takeWhile isNameChar = n ∧ (n ++ rest).dropWhile isNameChar = rest := by
  induction n with
  | nil =>
    rcases hr with rfl | ⟨r, rfl | rfl⟩
    · exact ⟨rfl, rfl⟩
    · exact ⟨rfl, rfl⟩
    · exact ⟨rfl, rfl⟩
  | cons c n ih =>
    obtain ⟨h1, h2⟩ := ih fun c hc => hn c (List.mem_cons_of_mem _ hc)
    have hc := hn c (List.mem_cons_self ..)
    simp only [List.cons_append, List.takeWhile_cons, List.dropWhile_cons, hc, if_true, h1, h2, and_self]

/-- A plain path starting with a field is a sequence of steps starting with this field. -/
theorem Spec.Rooted.parse {name path : Str} (h : Rooted name path) : parsePath path = none ∨ ∃ ss, parsePath path = some (.key name :: ss) := by
  obtain ⟨hn, rest, rfl, -, hr⟩ := h
  have hc : ∀ c ∈ name, isNameChar c = true := by
    cases name with
    | nil => simp
    | cons x xs =>
      simp only [isName, Bool.and_eq_true, List.all_eq_true] at hn
      intro c hc
      rcases List.mem_cons.1 hc with rfl | hc
      · simp only [isNameChar, hn.1, Bool.true_or]
      · exact hn.2 c hc
  obtain ⟨h1, h2⟩ := takeWhile_name hc hr
  have : parsePath (g!"$." ++ name ++ rest) = (parseSteps (name ++ rest).length.succ rest).map (Step.key name :: ·) := by
    show parseSteps (('.' :: (name ++ rest)).length + 1) ('.' :: (name ++ rest)) = _
    simp only [parseSteps, h1, h2, hn, if_true, List.length_cons]
  rw [this]
  cases parseSteps (name ++ rest).length.succ rest with
  | none => exact Or.inl rfl
  | some ss => exact Or.inr ⟨ss, rfl⟩

/-- The assumption on the JSONPath library only concerns paths which are not plain. -/
theorem local_of {lib : Lib} (h : ∀ name path, Rooted name path → parsePath path = none → ∀ W : Str → Prop, ¬ W name → Avoids lib W path) :
    Local lib := by
  intro name path hr W hW
  rcases hr.parse with hp | ⟨ss, hp⟩
  · exact h name path hr hp W hW
  · exact avoids_plain hp hW

theorem local_toy (docs : List (Str × P)) : Local (Toy.lib docs) := by
  refine local_of fun name path _ hp W _ => ?_
  have : ∀ p, select (Toy.lib docs) path p = none := by
    intro p
    unfold select
    rw [hp]
    rfl
  exact ⟨fun m => by rw [this]; trivial, fun m m' _ => by rw [this, this]⟩

/-- C03 holds for JSON input and schemas whose top level arrays have transforms or defaults, if no other instance reads the places of
these arrays (`IsolatedSchema`) and the JSONPath library is local.  See `C03_partial` for what is missing. -/
theorem C03_arrays_partial (lib : Lib) (b1 b2 r1 r2 : Sched) (sc : Schema) (m : GMap P) (ident : Str) (t1 t2 : T) (s1 s2 : St)
    (h1 : newTransformer ⟨lib, b1, .json⟩ sc ident = .ok (t1, s1)) (h2 : newTransformer ⟨lib, b2, .json⟩ sc ident = .ok (t2, s2))
    (hl : Local lib) (hs : IsolatedSchema ident sc m) (raw : Str) :
    (transform ⟨lib, r1, .json⟩ t1 raw s1).1.toOption = (transform ⟨lib, r2, .json⟩ t2 raw s2).1.toOption := by
  unfold transform
  rw [validated_toOption, validated_toOption]
  have key : (transformNoValidation ⟨lib, r1, .json⟩ t1 raw s1).1.toOption = (transformNoValidation ⟨lib, r2, .json⟩ t2 raw s2).1.toOption := by
    cases hp : lib.parseJSON raw with
    | none =>
      have e1 : (transformNoValidation ⟨lib, r1, .json⟩ t1 raw s1).1 = .err := baseTransform_noParse (env := ⟨lib, r1, .json⟩) rfl hp
      have e2 : (transformNoValidation ⟨lib, r2, .json⟩ t2 raw s2).1 = .err := baseTransform_noParse (env := ⟨lib, r2, .json⟩) rfl hp
      rw [e1, e2]
    | some p =>
      obtain ⟨v1, a1, e1⟩ := transform_topVal (env := ⟨lib, r1, .json⟩) h1 hl hs rfl rfl hp
      obtain ⟨v2, a2, e2⟩ := transform_topVal (env := ⟨lib, r2, .json⟩) h2 hl hs rfl rfl hp
      have e1 : (transformNoValidation ⟨lib, r1, .json⟩ t1 raw s1).1.toOption = v1.bind lib.marshal := e1
      have e2 : (transformNoValidation ⟨lib, r2, .json⟩ t2 raw s2).1.toOption = v2.bind lib.marshal := e2
      rw [e1, e2, TopSchemaVal.unique a1 a2]
  rw [key]

/-- A successful call: the output is the rendering of a pruned full document, with one entry per property of the schema. -/
theorem transform_topFull {env0 env : Env} {sc : Schema} {m : GMap P} {ident : Str} {t : T} {s0 : St}
    (hb : newTransformer env0 sc ident = .ok (t, s0)) (hl : Local env.lib) (hs : IsolatedSchema ident sc m) (hf : env.fmt = .json)
    (hlib : env.lib = env0.lib) {raw : Str} {p : P} (hp : env.lib.parseJSON raw = some p) {out : Str}
    (hout : (transformNoValidation env t raw s0).1 = .ok out) :
    ∃ f, env.lib.marshal (prune f) = some out ∧ f.Distinct ∧ (∃ mf, f = .obj mf ∧ mf.map Prod.fst = m.map Prod.fst) ∧
      (∀ l q c inp', TopPos env.lib ident (canon p) sc l q c inp' → ∃ g, f.at l = some g ∧ NodeIs env.lib ident inp' q c g) ∧
      (∀ k q, (k, q) ∈ m → ArrayDef q → ∃ b gs, TopBase env.lib ident (canon p) k q b ∧ f.at [.key k] = some (.arr gs) ∧
        gs.length = b.1.length) := by
  obtain ⟨r, h1, h2⟩ := transform_topVal hb hl hs hf hlib hp
  have h2 : (transformNoValidation env t raw s0).1.toOption = r.bind env.lib.marshal := h2
  rw [hout] at h2
  cases r with
  | none => simp [Res.toOption] at h2
  | some v =>
    obtain ⟨f, hf1, hf2⟩ := TopSchemaVal.full h1 hs
    exact ⟨f, by rw [hf1]; exact h2.symm, hf2⟩

/-- C05 with transforms and defaults on top level arrays: every scalar of the output is the first available of transform, input, default.
Scalars inside such an array see the input with the array's entries put at its place (`TopPos`), all others see the input. -/
theorem C05_arrays_partial {env0 env : Env} {sc : Schema} {m : GMap P} {ident : Str} {t : T} {s0 : St}
    (hb : newTransformer env0 sc ident = .ok (t, s0)) (hl : Local env.lib) (hs : IsolatedSchema ident sc m) (hf : env.fmt = .json)
    (hlib : env.lib = env0.lib) {raw : Str} {p : P} (hp : env.lib.parseJSON raw = some p) {out : Str}
    (hout : (transformNoValidation env t raw s0).1 = .ok out) :
    ∃ f, env.lib.marshal (prune f) = some out ∧ f.Distinct ∧ ∀ l q c inp' ty, TopPos env.lib ident (canon p) sc l q c inp' → IsScalar q ty →
      ∃ v, f.at l = some (.leaf v) ∧ FirstAvailable env.lib ident inp' q c ty v := by
  obtain ⟨f, h1, h2, -, h3, -⟩ := transform_topFull hb hl hs hf hlib hp hout
  refine ⟨f, h1, h2, fun l q c inp' ty hpos hq => ?_⟩
  obtain ⟨g, hg, hn⟩ := h3 l q c inp' hpos
  obtain ⟨v, rfl, hv⟩ := hn.1 ty hq
  exact ⟨v, hg, hv⟩

/-- C06 from input document to output document, for top level arrays: the number of entries of the array before absent ones are dropped is
that of the first available of transform result, input at the same path and default (`TopBase`), where a transform result or input
value which is not an array counts as a single entry; and the array in the output consists of the present entries, in order. -/
theorem C06_arrays {env0 env : Env} {sc : Schema} {m : GMap P} {ident : Str} {t : T} {s0 : St}
    (hb : newTransformer env0 sc ident = .ok (t, s0)) (hl : Local env.lib) (hs : IsolatedSchema ident sc m) (hf : env.fmt = .json)
    (hlib : env.lib = env0.lib) {raw : Str} {p : P} (hp : env.lib.parseJSON raw = some p) {out : Str}
    (hout : (transformNoValidation env t raw s0).1 = .ok out) :
    ∃ f, env.lib.marshal (prune f) = some out ∧ f.Distinct ∧ ∀ k q, (k, q) ∈ m → ArrayDef q →
      ∃ b gs, TopBase env.lib ident (canon p) k q b ∧ f.at [.key k] = some (.arr gs) ∧ gs.length = b.1.length ∧
        ((prune (.arr gs) = nilP ∧ ∀ g ∈ gs, prune g = nilP) ∨
          ∃ l', prune (.arr gs) = .arr l' ∧ l' ≠ [] ∧ l' = (gs.map prune).filter fun p => !isNilP p) := by
  obtain ⟨f, h1, h2, -, -, h3⟩ := transform_topFull hb hl hs hf hlib hp hout
  refine ⟨f, h1, h2, fun k q hq ha => ?_⟩
  obtain ⟨b, gs, e1, e2, e3⟩ := h3 k q hq ha
  exact ⟨b, gs, e1, e2, e3, prune_arr gs⟩

theorem TopPos.inst {lib : Lib} {ident : Str} {inp inp' q : P} {sc : Schema} {c : Ctx} {l : List Step} (h : TopPos lib ident inp sc l q c inp') :
    SchemaInst sc q := by
  cases h with
  | other h1 h2 h3 h4 => exact Or.inl ⟨_, _, _, h1, h2, Pos.inst h4⟩
  | item h1 h2 h3 h4 h5 h6 h7 h8 => exact Or.inl ⟨_, _, _, h1, h2, Inst.trans (.items (.self _) h4) (Pos.inst h8)⟩

/-- C07 with transforms and defaults on top level arrays: the root object and every object instance has exactly the present entries, and
is itself absent if there is none; an array is absent or the non-empty list of its present entries in order. -/
theorem C07_arrays_partial {env0 env : Env} {sc : Schema} {m : GMap P} {ident : Str} {t : T} {s0 : St}
    (hb : newTransformer env0 sc ident = .ok (t, s0)) (hl : Local env.lib) (hs : IsolatedSchema ident sc m) (hf : env.fmt = .json)
    (hlib : env.lib = env0.lib) {raw : Str} {p : P} (hp : env.lib.parseJSON raw = some p) {out : Str}
    (hout : (transformNoValidation env t raw s0).1 = .ok out) :
    ∃ mf, env.lib.marshal (prune (.obj mf)) = some out ∧ mf.map Prod.fst = m.map Prod.fst ∧
      ((prune (.obj mf) = nilP ∧ ∀ k g, GMap.get k mf = some g → prune g = nilP) ∨
        ∃ o, prune (.obj mf) = .obj o ∧ o ≠ [] ∧ (∀ kv ∈ o, kv.2 ≠ nilP) ∧
          ∀ k, GMap.get k o = (GMap.get k mf).bind fun g => if isNilP (prune g) = true then none else some (prune g)) ∧
      (∀ l q c inp' nu m, TopPos env.lib ident (canon p) sc l q c inp' → fieldType q = .ok (g!"object", nu) →
        q.key g!"properties" = some (.obj m) → m ≠ [] → ∃ m', (Full.obj mf).at l = some (.obj m') ∧ m'.map Prod.fst = m.map Prod.fst ∧
          ((prune (.obj m') = nilP ∧ ∀ k g, GMap.get k m' = some g → prune g = nilP) ∨
          ∃ o, prune (.obj m') = .obj o ∧ o ≠ [] ∧ (∀ kv ∈ o, kv.2 ≠ nilP) ∧
            ∀ k, GMap.get k o = (GMap.get k m').bind fun g => if isNilP (prune g) = true then none else some (prune g))) ∧
      (∀ l q c inp' nu, TopPos env.lib ident (canon p) sc l q c inp' → fieldType q = .ok (g!"array", nu) →
        ∃ gs, (Full.obj mf).at l = some (.arr gs) ∧ gs.length = itemsAt env.lib c.cp inp' ∧
          ((prune (.arr gs) = nilP ∧ ∀ g ∈ gs, prune g = nilP) ∨
          ∃ l', prune (.arr gs) = .arr l' ∧ l' ≠ [] ∧ l' = (gs.map prune).filter fun p => !isNilP p)) := by
  obtain ⟨f, h1, h2, ⟨mf, rfl, hmf⟩, h3, -⟩ := transform_topFull hb hl hs hf hlib hp hout
  have hobj : ∀ {m' : List (Str × Full)}, (m'.map Prod.fst).Nodup → (prune (.obj m') = nilP ∧ ∀ k g, GMap.get k m' = some g → prune g = nilP) ∨
          ∃ o, prune (.obj m') = .obj o ∧ o ≠ [] ∧ (∀ kv ∈ o, kv.2 ≠ nilP) ∧
            ∀ k, GMap.get k o = (GMap.get k m').bind fun g => if isNilP (prune g) = true then none else some (prune g) := by
    intro m' hnd
    rcases prune_obj hnd with h | ⟨o, h1, h2, -, h3, h4⟩
    · exact Or.inl h
    · exact Or.inr ⟨o, h1, h2, h3, h4⟩
  refine ⟨mf, h1, hmf, hobj (by rw [hmf]; exact hs.nodup), ?_, ?_⟩
  · intro l q c inp' nu m hpos hq hm hne
    obtain ⟨g, hg, hn⟩ := h3 l q c inp' hpos
    obtain ⟨m', rfl, hm'⟩ := hn.2.2 nu m hq hm hne
    exact ⟨m', hg, hm', hobj (by rw [hm']; exact (hs.inNames q (TopPos.inst hpos) m hm).1)⟩
  · intro l q c inp' nu hpos hq
    obtain ⟨g, hg, hn⟩ := h3 l q c inp' hpos
    obtain ⟨gs, rfl, hlen⟩ := hn.2.1 nu hq
    exact ⟨gs, hg, hlen, prune_arr gs⟩

namespace C03arrEx
open Toy

/-- The array `a` has a transform and items reading from its entries, `l` a default, `w` a transform giving a single value. -/
def props : List (Str × P) := [
  (g!"a", o [(g!"type", s g!"array"), (g!"transform", o [(g!"t", o [(g!"from", a [o [(g!"jsonPath", s g!"$.b")]])])]),
    (g!"items", o [(g!"type", s g!"object"), (g!"properties", o [
      (g!"d", o [(g!"type", s g!"string"), (g!"transform", o [(g!"t", o [(g!"from", a [o [(g!"jsonPath", s g!"@.e")]])])])]),
      (g!"n", o [(g!"type", s g!"number"), (g!"default", i 7)])])])]),
  (g!"l", o [(g!"type", s g!"array"), (g!"default", a [s g!"x", s g!"y"]), (g!"items", o [(g!"type", s g!"string")])]),
  (g!"w", o [(g!"type", s g!"array"), (g!"transform", o [(g!"t", o [(g!"from", a [o [(g!"jsonPath", s g!"$.p")]])])]),
    (g!"items", o [(g!"type", s g!"string")])]),
  (g!"z", strFrom g!"concatenate" [g!"$.p", g!"$.b[0].e"])]

def sc : Schema := ⟨some props, none⟩

def doc : P := o [(g!"b", a [o [(g!"e", s g!"E")], o [(g!"n", i 1)]]), (g!"p", s g!"P")]

def docs : List (Str × P) := [(g!"in", doc)]

theorem isolated : IsolatedSchema g!"t" sc props := isolatedB_sound (n := 6) (by decide +kernel)

/-- The hypotheses of `C03_arrays_partial` and the other theorems are met, with a nontrivial output. -/
example : ∃ t1 s1 t2 s2, newTransformer ⟨lib docs, Sched.id, .json⟩ sc g!"t" = .ok (t1, s1) ∧
    newTransformer ⟨lib docs, Sched.rev, .json⟩ sc g!"t" = .ok (t2, s2) ∧ Local (lib docs) ∧ IsolatedSchema g!"t" sc props ∧
    (transform ⟨lib docs, Sched.id, .json⟩ t1 g!"in" s1).1 = .ok g!"{a:[{d:\"E\",n:7},{n:1}],l:[\"x\",\"y\"],w:[\"P\"],z:\"PE\"}" ∧
    (transform ⟨lib docs, Sched.rev, .json⟩ t2 g!"in" s2).1 = .ok g!"{a:[{d:\"E\",n:7},{n:1}],l:[\"x\",\"y\"],w:[\"P\"],z:\"PE\"}" := by
  have h : (match newTransformer ⟨lib docs, Sched.id, .json⟩ sc g!"t", newTransformer ⟨lib docs, Sched.rev, .json⟩ sc g!"t" with
    | .ok (t1, s1), .ok (t2, s2) =>
      decide ((transform ⟨lib docs, Sched.id, .json⟩ t1 g!"in" s1).1 = .ok g!"{a:[{d:\"E\",n:7},{n:1}],l:[\"x\",\"y\"],w:[\"P\"],z:\"PE\"}") &&
      decide ((transform ⟨lib docs, Sched.rev, .json⟩ t2 g!"in" s2).1 = .ok g!"{a:[{d:\"E\",n:7},{n:1}],l:[\"x\",\"y\"],w:[\"P\"],z:\"PE\"}")
    | _, _ => false) = true := by decide +kernel
  split at h
  · rename_i t1 s1 t2 s2 h1 h2
    simp only [Bool.and_eq_true, decide_eq_true_eq] at h
    exact ⟨t1, s1, t2, s2, h1, h2, local_toy docs, isolated, h.1, h.2⟩
  · contradiction

/-- The base of `l` is its default. -/
theorem base_l : TopBase (lib docs) g!"t" doc g!"l" (o [(g!"type", s g!"array"), (g!"default", a [s g!"x", s g!"y"]),
    (g!"items", o [(g!"type", s g!"string")])]) ([s g!"x", s g!"y"], true) :=
  ⟨.ok nilP, .none rfl, rfl⟩

/-- The items of `l` have a place in the output and read the default put into the input. -/
example : TopPos (lib docs) g!"t" doc sc [.key g!"l", .idx 1] (o [(g!"type", s g!"string")]) ((topCtx g!"l").item 1)
    (o [(g!"b", a [o [(g!"e", s g!"E")], o [(g!"n", i 1)]]), (g!"l", a [s g!"x", s g!"y"]), (g!"p", s g!"P")]) :=
  .item (m := props) (q := _) rfl (List.mem_cons_of_mem _ (List.mem_cons_self ..)) ⟨false, rfl⟩ rfl base_l rfl (by decide) .here

/-- A schema not covered: a sibling reads the place of an array with a transform (`C03ex.arraySc`). -/
example (m : GMap P) : ¬ IsolatedSchema g!"t" C03ex.arraySc m := by
  intro h
  have hm := h.props
  simp only [C03ex.arraySc, Option.some.injEq] at hm
  subst hm
  obtain ⟨name, h1, h2⟩ := h.reads g!"c" (strFrom g!"first" [g!"$.a[0]"]) g!"$.a[0]" (by simp)
    ⟨_, _, o [(g!"jsonPath", s g!"$.a[0]")], rfl, rfl, List.mem_cons_self .., rfl⟩
  have hn : name = g!"a" := h1.unique (rootName_sound (by decide +kernel))
  subst hn
  refine h2 (by decide) ⟨_, List.mem_cons_self .., ⟨false, rfl⟩, fun ⟨_, h⟩ => ?_⟩
  rcases h with h | h <;> simp [P.key, GMap.get] at h

end C03arrEx

end JT
