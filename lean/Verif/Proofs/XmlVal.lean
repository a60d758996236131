import Verif.Proofs.XmlObj
/- XML input: the direct semantics of a mirroring transformer is the meaning of the schema. -/
namespace JT
open Spec

theorem dropLast_dot {k : Str} (hk : '.' ∉ k) (p : Str) : dropLast (p ++ '.' :: k) = p := by
  unfold dropLast
  rw [dropLast_splitC hk]
  exact join_splitC '.' _

theorem splitC_extend (c : Char) : ∀ (p w : Str), c ∉ w → ∃ l x, splitC c p = l ++ [x] ∧ splitC c (p ++ w) = l ++ [x ++ w]
  | [], w, hw => ⟨[], [], rfl, by rw [List.nil_append, splitC_no c w hw]; rfl⟩
  | d :: p, w, hw => by
    obtain ⟨l, x, h1, h2⟩ := splitC_extend c p w hw
    by_cases hd : d = c
    · subst hd
      have e := splitC_general d [] p
      have e2 := splitC_general d [] (p ++ w)
      simp only [List.nil_append] at e e2
      refine ⟨splitC d [] ++ l, x, by rw [e, h1, List.append_assoc], by rw [List.cons_append, e2, h2, List.append_assoc]⟩
    · simp only [List.cons_append]
      unfold splitC
      rw [if_neg hd, if_neg hd, h1, h2]
      cases l with
      | nil => exact ⟨[], d :: x, rfl, rfl⟩
      | cons y r => exact ⟨(d :: y) :: r, x, rfl, rfl⟩

theorem dropLast_extend (p : Str) {w : Str} (hw : '.' ∉ w) : dropLast (p ++ w) = dropLast p := by
  obtain ⟨l, x, h1, h2⟩ := splitC_extend '.' p w hw
  unfold dropLast
  rw [h1, h2]
  simp

theorem instrsX_replace (lib : Lib) (ty : Str) (mod : Mod) (tis : Instrs) (n : NodeId) {pp : Str} (hp : ∃ r, pp = '$' :: r) :
    instrsX lib ty mod (replaceJSONPathPrefix g!"@[" (pp ++ g!"[") (replaceJSONPathPrefix g!"@." (pp ++ g!".") tis)) n =
      instrsX lib ty (fun p => mod (atPath pp p)) tis n := by
  unfold instrsX replaceJSONPathPrefix
  simp only [List.map_map]
  have : ((fun ti : Instr => instrX lib ty (mod ti.xmlPath) ti.ops n) ∘
      (fun ti : Instr => { ti with jsonPath := replacePrefix g!"@[" (pp ++ g!"[") ti.jsonPath, xmlPath := replacePrefix g!"@[" (pp ++ g!"[") ti.xmlPath }) ∘
      (fun ti : Instr => { ti with jsonPath := replacePrefix g!"@." (pp ++ g!".") ti.jsonPath, xmlPath := replacePrefix g!"@." (pp ++ g!".") ti.xmlPath })) =
      fun ti => instrX lib ty (mod (atPath pp ti.xmlPath)) ti.ops n := by
    funext ti
    simp only [Function.comp]
    rw [replacePrefix_at hp]
  rw [this]

theorem transformedX_of {lib : Lib} {ident : Str} {s : St} {tid : Option Nat} {path : Str} {kind : Kind} {raw : P}
    (hp : ∃ r, parentPathOf kind path = '$' :: r)
    (h : InstrsAre lib ident s tid path kind raw) (n : NodeId) (mod : Mod) (ty : Str) :
    XTransformed lib ident n raw (parentPathOf kind path) mod ty (optInstrsX lib s.instrs ty mod n tid) := by
  obtain ⟨o, h1, h2⟩ := h
  rcases extractInstrs_cases h1 with ⟨rfl, hn⟩ | ⟨tr, tis, h3, h4, h5, rfl⟩
  · cases tid with
    | some i => simp at h2
    | none => exact .none hn
  · cases tid with
    | none => simp at h2
    | some i =>
      simp only at h2
      simp only [optInstrsX, h2]
      rw [instrsX_replace lib ty mod tis n hp]
      exact .some h3 h4 h5

theorem noTransform_of {lib : Lib} {ident : Str} {s : St} {path : Str} {kind : Kind} {raw : P}
    (h : InstrsAre lib ident s none path kind raw) : NoTransform ident raw := by
  obtain ⟨o, h1, h2⟩ := h
  rcases extractInstrs_cases h1 with ⟨rfl, hn⟩ | ⟨tr, tis, h3, h4, h5, rfl⟩
  · exact hn
  · simp at h2

theorem kidsOf_val {f : T → Option P} {cs : List (Str × T)} {m : List (Str × P)} (hs : GMap.Sorted cs)
    (hnd : (m.map Prod.fst).Nodup) (hall : ∀ k, (∃ q, (k, q) ∈ m) → ∃ t, (k, t) ∈ cs) (hsub : ∀ kt ∈ cs, ∃ q, (kt.1, q) ∈ m)
    {R : P → Str → Option P → Prop} (hR : ∀ k t q, (k, t) ∈ cs → (k, q) ∈ m → R q k (f t)) :
    ∃ g : Str → Option P, (∀ k q, (k, q) ∈ m → R q k (g k)) ∧ ((kidsOf f cs).map fun l => if l.isEmpty then nilP else .obj l) =
      (optAll (fun k => (g k).map fun p => (k, p)) (m.map Prod.fst)).map objectOf := by
  refine ⟨fun k => (GMap.get k cs).bind fun t => f t, ?_, kidsOf_objectOf hs hnd hall hsub⟩
  intro k q hkq
  obtain ⟨t, ht⟩ := hall k ⟨q, hkq⟩
  simp only
  rw [GMap.get_of_mem hs ht]
  exact hR k t q ht hkq

mutual
theorem xval_of_mirrors {lib : Lib} {ident : Str} {s : St} {dv : V → P} : ∀ (t : T) {l : List Seg} {sg : Seg} {raw : P} {cp : Str} {mod : Mod} (n : NodeId),
    (∀ x ∈ l ++ [sg], x.plain) → (∃ r, dropLast (pathOf (l ++ [sg])) = '$' :: r) →
    Mirrors lib ident s t (pathOf (l ++ [sg])) raw → (∀ q, Inst raw q → PlainProps q) → (∀ q, Inst raw q → ObjectInst q → NoDefault q) →
    (∀ d ∈ t.defaultsX, s.heap.toP d = some (dv d)) → (∀ rest, mod (pathOf (l ++ [sg]) ++ rest) = cp ++ rest) →
    XVal lib ident n raw (upOf l sg) (dropLast (pathOf (l ++ [sg]))) (pathOf (l ++ [sg])) cp mod (evalX lib s.instrs dv t n mod)
  | .scalar p ty d tid, l, sg, raw, cp, mod, n, hpl, hup, h, hpp, hnd, hd, hm => by
    simp only [Mirrors] at h
    obtain ⟨rfl, ⟨ty0, nu, h1, h2, h3, h4⟩, h5, h6⟩ := h
    simp only [evalX]
    have hdv : dv d = defaultOf raw := by
      unfold defaultOf
      have := hd d (by simp [T.defaultsX])
      rw [h5] at this
      simpa using this.symm
    rw [hdv]
    have ht := transformedX_of (by rw [parentPathOf_scalar hpl]; cases sg <;> exact ⟨_, rfl⟩) h6 n mod ty
    rw [parentPathOf_scalar hpl] at ht
    exact .scalar h1 h2 h3 h4 ht
  | .array p d tid none, l, sg, raw, cp, mod, n, hpl, hup, h, hpp, hnd, hd, hm => by simp [Mirrors] at h
  | .array p d tid (some c), l, sg, raw, cp, mod, n, hpl, hup, h, hpp, hnd, hd, hm => by
    simp only [Mirrors] at h
    obtain ⟨rfl, ⟨nu, h2⟩, h3, h4, items, h5, h6⟩ := h
    have hm0 := hm []
    simp only [List.append_nil] at hm0
    simp only [evalX, hm0]
    have hpl' : ∀ x ∈ l ++ [sg] ++ [.star], x.plain := by
      intro x hx
      rcases List.mem_append.1 hx with h1 | h1
      · exact hpl x h1
      · simp only [List.mem_singleton] at h1
        subst h1
        trivial
    have hps : pathOf (l ++ [sg] ++ [.star]) = pathOf (l ++ [sg]) ++ g!"[*]" := by rw [pathOf_snoc (l ++ [sg])]; rfl
    have hdl : dropLast (pathOf (l ++ [sg] ++ [.star])) = dropLast (pathOf (l ++ [sg])) := by rw [hps]; exact dropLast_extend _ (by simp)
    have hdv : dv (arrD d) = defaultOf raw := by
      unfold defaultOf
      have := hd (arrD d) (by simp [T.defaultsX])
      rw [h3] at this
      simpa using this.symm
    rw [hdv]
    have hpp' : parentPathOf .array (pathOf (l ++ [sg])) = dropLast (pathOf (l ++ [sg])) := by simp [parentPathOf]
    have ht := transformedX_of (by rw [hpp']; exact hup) h4 n mod g!"array"
    rw [hpp'] at ht
    exact XVal.array h2 h5 ht (f := fun i m => evalX lib s.instrs dv c m
        (pathReplace (cp ++ g!"[*]") (cp ++ g!"[" ++ itoaNat i ++ g!"]") mod)) (fun i m => by
      have ih := xval_of_mirrors c (l := l ++ [sg]) (sg := .star) (raw := items) (cp := cp ++ g!"[" ++ itoaNat i ++ g!"]")
        (mod := pathReplace (cp ++ g!"[*]") (cp ++ g!"[" ++ itoaNat i ++ g!"]") mod) m hpl' (by rw [hdl]; exact hup) (by rw [hps]; exact h6)
        (fun q hq => hpp q (Inst.trans (.items (.self raw) h5) hq)) (fun q hq => hnd q (Inst.trans (.items (.self raw) h5) hq))
        (fun d hd' => hd d (by simp [T.defaultsX, hd'])) (by
          intro rest
          unfold pathReplace
          rw [hps, List.append_assoc, hm, ← List.append_assoc, replace1_prefix])
      simp only [upOf] at ih
      rw [hdl, hps] at ih
      exact ih)
  | .object p d tid cs, l, sg, raw, cp, mod, n, hpl, hup, h, hpp, hnd, hd, hm => by
    simp only [Mirrors] at h
    obtain ⟨rfl, ⟨nu, h2⟩, h3, h4, m, h5, hne, h6, h7, h8⟩ := h
    have hnames := hpp raw (.self raw) m h5
    have hdn : defaultOf raw = nilP := noDefault_canon (hnd raw (.self raw) ⟨⟨nu, h2⟩, by rw [h5]; simp [hne]⟩)
    have hov : objectOver (defaultOf raw) = objectOf := by rw [hdn]; rfl
    have hsub : ∀ kt ∈ cs, ∃ q, (kt.1, q) ∈ m := fun kt hkt => let ⟨q, h1, _⟩ := MirrorsKids_iff.1 h8 kt hkt; ⟨q, h1⟩
    have hkids : ∀ n', ∃ g : Str → Option P, (∀ k q, (k, q) ∈ m →
          XVal lib ident n' q (pathOf (l ++ [sg])) (pathOf (l ++ [sg])) (pathOf (l ++ [sg]) ++ '.' :: k) (cp ++ '.' :: k) mod (g k)) ∧
        ((kidsOf (fun t => evalX lib s.instrs dv t n' mod) cs).map fun l => if l.isEmpty then nilP else .obj l) =
          (optAll (fun k => (g k).map fun p => (k, p)) (m.map Prod.fst)).map objectOf := by
      intro n'
      refine kidsOf_val (R := fun q k r => XVal lib ident n' q (pathOf (l ++ [sg])) (pathOf (l ++ [sg])) (pathOf (l ++ [sg]) ++ '.' :: k) (cp ++ '.' :: k) mod r)
        h6 hnames.1 h7 hsub ?_
      exact xvalKids_of_mirrors cs (l := l ++ [sg]) (cp := cp) (mod := mod) n' hpl h8 hnames.1 (fun k q hkq => hnames.2 (k, q) hkq)
        (fun k q hq r hr => hpp r (Inst.trans (.prop (.self raw) h5 hq) hr)) (fun k q hq r hr => hnd r (Inst.trans (.prop (.self raw) h5 hq) hr))
        (fun d hd' => hd d (by simpa [T.defaultsX] using hd')) hm
    cases tid with
    | none =>
      simp only [evalX]
      rw [evalKidsX_eq]
      obtain ⟨g, hg1, hg2⟩ := hkids n
      rw [hg2, ← hov]
      exact XVal.object h2 h5 hne (noTransform_of h4) hg1
    | some i =>
      simp only [evalX]
      have hpp' : parentPathOf .object (pathOf (l ++ [sg])) = dropLast (pathOf (l ++ [sg])) := by simp [parentPathOf]
      have ht := transformedX_of (by rw [hpp']; exact hup) h4 n mod g!"object"
      rw [hpp'] at ht
      have hnt : ¬ NoTransform ident raw := by
        intro hn
        have := instrsAre_none h4 hn
        simp at this
      cases htr : optInstrsX lib s.instrs g!"object" mod n (some i) with
      | err => rw [htr] at ht; exact XVal.objectFails h2 h5 hne hnt ht (by simp)
      | panic => rw [htr] at ht; exact XVal.objectFails h2 h5 hne hnt ht (by simp)
      | ok v =>
        rw [htr] at ht
        simp only [okP, Option.bind_some]
        cases hw : whereX n v with
        | absent =>
          have := XVal.objectAbsent (upS := upOf l sg) (sp := pathOf (l ++ [sg])) (cp := cp) h2 h5 hne hnt ht hw
          rw [hdn, ite_self] at this
          exact this
        | fails => exact XVal.objectFails h2 h5 hne hnt ht (fun v' hv' => by cases hv'; exact hw)
        | node n' =>
          simp only
          rw [evalKidsX_eq]
          obtain ⟨g, hg1, hg2⟩ := hkids n'
          rw [hg2, ← hov]
          exact XVal.objectAt h2 h5 hne hnt ht hw hg1
theorem xvalKids_of_mirrors {lib : Lib} {ident : Str} {s : St} {dv : V → P} : ∀ (cs : List (Str × T)) {l : List Seg} {m : List (Str × P)} {cp : Str} {mod : Mod} (n : NodeId),
    (∀ x ∈ l, x.plain) → MirrorsKids lib ident s cs (pathOf l) m → (m.map Prod.fst).Nodup → (∀ k q, (k, q) ∈ m → PlainName k) →
    (∀ k q, (k, q) ∈ m → ∀ r, Inst q r → PlainProps r) → (∀ k q, (k, q) ∈ m → ∀ r, Inst q r → ObjectInst r → NoDefault r) →
    (∀ d ∈ T.defaultsXKids cs, s.heap.toP d = some (dv d)) → (∀ rest, mod (pathOf l ++ rest) = cp ++ rest) →
    ∀ k t q, (k, t) ∈ cs → (k, q) ∈ m →
      XVal lib ident n q (pathOf l) (pathOf l) (pathOf l ++ '.' :: k) (cp ++ '.' :: k) mod (evalX lib s.instrs dv t n mod)
  | [], _, _, _, _, _, _, _, _, _, _, _, _, _, k, t, q, h, _ => by simp at h
  | (k', t') :: r, l, m, cp, mod, n, hpl, h, hnd, hp, hpp, hno, hd, hm, k, t, q, hk, hq => by
    simp only [MirrorsKids] at h
    obtain ⟨⟨q', h1, h2⟩, h3⟩ := h
    simp only [T.defaultsXKids, List.mem_append] at hd
    simp only [List.mem_cons, Prod.mk.injEq] at hk
    rcases hk with ⟨rfl, rfl⟩ | hk
    · have hqq : q = q' := nodup_fst_eq hnd hq h1
      subst hqq
      have hps : pathOf (l ++ [.key k]) = pathOf l ++ '.' :: k := pathOf_snoc l (.key k)
      have hdl : dropLast (pathOf (l ++ [.key k])) = pathOf l := by rw [hps]; exact dropLast_dot (hp k q hq).2.1 _
      have ih := xval_of_mirrors t (l := l) (sg := .key k) (raw := q) (cp := cp ++ '.' :: k) (mod := mod) n
        (by
          intro x hx
          rcases List.mem_append.1 hx with h1 | h1
          · exact hpl x h1
          · simp only [List.mem_singleton] at h1
            subst h1
            exact hp k q hq) (by rw [hdl]; exact ⟨_, rfl⟩) (by rw [hps]; exact h2) (hpp k q hq) (hno k q hq) (fun d hd' => hd d (Or.inl hd')) (by
          intro rest
          rw [hps, List.append_assoc, hm, ← List.append_assoc])
      simp only [upOf] at ih
      rw [hdl, hps] at ih
      exact ih
    · exact xvalKids_of_mirrors r n hpl h3 hnd hp hpp hno (fun d hd' => hd d (Or.inr hd')) hm k t q hk hq
end

/-! ### Uniqueness -/

theorem XTransformed.unique {lib : Lib} {ident : Str} {n : NodeId} {raw : P} {up : Str} {sub : Mod} {ty : Str} {r r' : Res P}
    (h : XTransformed lib ident n raw up sub ty r) (h' : XTransformed lib ident n raw up sub ty r') : r = r' := by
  have key : ∀ {tr : P}, (raw.key g!"transform").bind (P.key ident) = some tr → tr ≠ .sc (.str []) → ¬ NoTransform ident raw := by
    rintro tr h1 h2 (h3 | h3)
    · rw [h1] at h3; simp at h3
    · rw [h1] at h3; simp at h3; exact h2 h3
  cases h with
  | none h1 => cases h' with
    | none => rfl
    | some h2 h3 => exact absurd h1 (key h2 h3)
  | some h1 h2 h3 => cases h' with
    | none h4 => exact absurd h4 (key h1 h2)
    | some h4 h5 h6 =>
      rw [h1] at h4
      simp at h4
      subst h4
      rw [h3] at h6
      simp at h6
      subst h6
      rfl

theorem entryX_congr {f g : Nat → NodeId → Option P} (h : ∀ i m, f i m = g i m) : entryX f = entryX g := by
  have : f = g := by funext i m; exact h i m
  rw [this]

/-- An instance has one value on a node. -/
theorem XVal.unique {lib : Lib} {ident : Str} {n : NodeId} {raw : P} {upS upC sp cp : Str} {sub : Mod} {r : Option P}
    (h : XVal lib ident n raw upS upC sp cp sub r) : ∀ {r' : Option P}, XVal lib ident n raw upS upC sp cp sub r' → r = r' := by
  have scObj : ∀ {ty0 : Str} {nu nu' : Bool} {q : P} {m : List (Str × P)}, fieldType q = .ok (ty0, nu) →
      (ty0 = g!"object" → q.key g!"properties" = some (.obj [])) → fieldType q = .ok (g!"object", nu') → q.key g!"properties" = some (.obj m) →
      m ≠ [] → False := by
    intro ty0 nu nu' q m h1 h3 g1 g2 g3
    rw [h1] at g1
    simp only [Res.ok.injEq, Prod.mk.injEq] at g1
    rw [h3 g1.1] at g2
    simp only [Option.some.injEq, P.obj.injEq] at g2
    exact g3 g2.symm
  have kids : ∀ {m : List (Str × P)} {f g : Str → Option P} {o : List (Str × P) → P}, (∀ k q, (k, q) ∈ m → f k = g k) →
      ((optAll (fun k => (f k).map fun p => (k, p)) (m.map Prod.fst)).map o) = ((optAll (fun k => (g k).map fun p => (k, p)) (m.map Prod.fst)).map o) := by
    intro m f g o hfg
    congr 1
    refine optAll_congr fun k hk => ?_
    obtain ⟨⟨k', q⟩, hkq, rfl⟩ := List.mem_map.1 hk
    rw [hfg k' q hkq]
  induction h with
  | scalar h1 h2 h3 h4 h5 =>
    intro r' h'
    cases h' with
    | scalar g1 g2 g3 g4 g5 =>
      rw [h1] at g1
      simp at g1
      obtain ⟨rfl, rfl⟩ := g1
      rw [h4] at g4
      simp at g4
      subst g4
      rw [XTransformed.unique h5 g5]
    | array g1 => rw [h1] at g1; simp at g1; exact absurd g1.1 h2
    | object g1 g2 g3 => exact (scObj h1 h3 g1 g2 g3).elim
    | objectAt g1 g2 g3 => exact (scObj h1 h3 g1 g2 g3).elim
    | objectAbsent g1 g2 g3 => exact (scObj h1 h3 g1 g2 g3).elim
    | objectFails g1 g2 g3 => exact (scObj h1 h3 g1 g2 g3).elim
  | array h1 h2 h3 h4 ih =>
    intro r' h'
    cases h' with
    | scalar g1 g2 => rw [h1] at g1; simp at g1; exact absurd g1.1.symm g2
    | array g1 g2 g3 g4 =>
      rw [h2] at g2
      simp at g2
      subst g2
      rw [XTransformed.unique h3 g3, entryX_congr fun i m => ih i m (g4 i m)]
    | object g1 => rw [h1] at g1; simp at g1
    | objectAt g1 => rw [h1] at g1; simp at g1
    | objectAbsent g1 => rw [h1] at g1; simp at g1
    | objectFails g1 => rw [h1] at g1; simp at g1
  | object h1 h2 h3 h4 h5 ih =>
    intro r' h'
    cases h' with
    | scalar g1 g2 g3 => exact (scObj g1 g3 h1 h2 h3).elim
    | array g1 => rw [h1] at g1; simp at g1
    | object g1 g2 g3 g4 g5 =>
      rw [h2] at g2
      simp at g2
      subst g2
      exact kids fun k q hkq => ih k q hkq (g5 k q hkq)
    | objectAt _ _ _ g4 => exact absurd h4 g4
    | objectAbsent _ _ _ g4 => exact absurd h4 g4
    | objectFails _ _ _ g4 => exact absurd h4 g4
  | objectAt h1 h2 h3 h4 h5 h6 h7 ih =>
    intro r' h'
    cases h' with
    | scalar g1 g2 g3 => exact (scObj g1 g3 h1 h2 h3).elim
    | array g1 => rw [h1] at g1; simp at g1
    | object _ _ _ g4 => exact absurd g4 h4
    | objectAt g1 g2 g3 g4 g5 g6 g7 =>
      rw [h2] at g2
      simp at g2
      subst g2
      have := XTransformed.unique h5 g5
      simp only [Res.ok.injEq] at this
      subst this
      rw [h6] at g6
      simp only [Where.node.injEq] at g6
      subst g6
      exact kids fun k q hkq => ih k q hkq (g7 k q hkq)
    | objectAbsent g1 g2 g3 g4 g5 g6 =>
      have := XTransformed.unique h5 g5
      simp only [Res.ok.injEq] at this
      subst this
      rw [h6] at g6
      cases g6
    | objectFails g1 g2 g3 g4 g5 g6 =>
      have := g6 _ (XTransformed.unique h5 g5).symm
      rw [h6] at this
      cases this
  | objectAbsent h1 h2 h3 h4 h5 h6 =>
    intro r' h'
    cases h' with
    | scalar g1 g2 g3 => exact (scObj g1 g3 h1 h2 h3).elim
    | array g1 => rw [h1] at g1; simp at g1
    | object _ _ _ g4 => exact absurd g4 h4
    | objectAt g1 g2 g3 g4 g5 g6 g7 =>
      have := XTransformed.unique h5 g5
      simp only [Res.ok.injEq] at this
      subst this
      rw [h6] at g6
      cases g6
    | objectAbsent g1 g2 g3 g4 g5 g6 =>
      have := XTransformed.unique h5 g5
      simp only [Res.ok.injEq] at this
      subst this
      rfl
    | objectFails g1 g2 g3 g4 g5 g6 =>
      have := g6 _ (XTransformed.unique h5 g5).symm
      rw [h6] at this
      cases this
  | objectFails h1 h2 h3 h4 h5 h6 =>
    intro r' h'
    cases h' with
    | scalar g1 g2 g3 => exact (scObj g1 g3 h1 h2 h3).elim
    | array g1 => rw [h1] at g1; simp at g1
    | object _ _ _ g4 => exact absurd g4 h4
    | objectAt g1 g2 g3 g4 g5 g6 g7 =>
      have := h6 _ (XTransformed.unique h5 g5)
      rw [g6] at this
      cases this
    | objectAbsent g1 g2 g3 g4 g5 g6 =>
      have := h6 _ (XTransformed.unique h5 g5)
      rw [g6] at this
      cases this
    | objectFails => rfl

theorem XSchemaVal.unique {lib : Lib} {ident : Str} {n : NodeId} {sc : Schema} {r r' : Option P}
    (h : XSchemaVal lib ident n sc r) (h' : XSchemaVal lib ident n sc r') : r = r' := by
  cases h with
  | object h1 h2 =>
    cases h' with
    | object g1 g2 =>
      rw [h1] at g1
      simp at g1
      subst g1
      congr 1
      refine optAll_congr fun k hk => ?_
      obtain ⟨⟨k', q⟩, hkq, rfl⟩ := List.mem_map.1 hk
      rw [XVal.unique (h2 k' q hkq) (g2 k' q hkq)]
    | array g1 => rw [h1] at g1; simp at g1
  | array h1 h2 =>
    cases h' with
    | object g1 => rw [h1] at g1; simp at g1
    | array g1 g2 => rfl

/-! ### Whole schemas -/

/-- What is needed of each instance. -/
structure XmlInst (ident : Str) (q : P) : Prop where
  noDefault : ObjectInst q → NoDefault q
  notLast : NotLast ident q
  noClock : NoClock ident q
  plain : PlainProps q

theorem XmlSchema.inst {ident : Str} {sc : Schema} (h : XmlSchema ident sc) {q : P} (hq : SchemaInst sc q) : XmlInst ident q :=
  ⟨h.noDefault q hq, h.notLast q hq, h.noClock q hq, h.plain.2 q hq⟩

mutual
theorem fragX_of_mirrors {lib : Lib} {ident : Str} {s : St} : ∀ (t : T) {path : Str} {raw : P},
    Mirrors lib ident s t path raw → (∀ q, Inst raw q → XmlInst ident q) → t.fragX s.instrs
  | .scalar p ty d tid, path, raw, h, hs => by
    simp only [Mirrors] at h
    simp only [T.fragX]
    have := hs raw (.self raw)
    exact instrsAre_good h.2.2.2 this.notLast this.noClock
  | .array p d tid none, path, raw, h, hs => by simp [Mirrors] at h
  | .array p d tid (some c), path, raw, h, hs => by
    simp only [Mirrors] at h
    obtain ⟨h1, h2, h3, h4, items, h5, h6⟩ := h
    have h0 := hs raw (.self raw)
    simp only [T.fragX]
    exact ⟨instrsAre_good h4 h0.notLast h0.noClock, fragX_of_mirrors c h6 fun q hq => hs q (Inst.trans (.items (.self raw) h5) hq)⟩
  | .object p d tid cs, path, raw, h, hs => by
    simp only [Mirrors] at h
    obtain ⟨h1, h2, h3, h4, m, h5, hne, h6, h7, h8⟩ := h
    have h0 := hs raw (.self raw)
    have hcont : ObjectInst raw := ⟨h2, by rw [h5]; simp [hne]⟩
    simp only [T.fragX]
    refine ⟨?_, instrsAre_good h4 h0.notLast h0.noClock, h6, ?_⟩
    · cases d with
      | none => rfl
      | some a =>
        unfold DefaultIs at h3
        rw [noDefault_canon (h0.noDefault hcont)] at h3
        exact absurd h3 toP_obj_ne
    · subst h1
      exact fragXKids_of_mirrors cs h8 (fun k q hq => (h0.plain m h5).2 (k, q) hq)
        (fun k q hq r hr => hs r (Inst.trans (.prop (.self raw) h5 hq) hr))
theorem fragXKids_of_mirrors {lib : Lib} {ident : Str} {s : St} : ∀ (cs : List (Str × T)) {path : Str} {m : List (Str × P)},
    MirrorsKids lib ident s cs path m → (∀ k q, (k, q) ∈ m → PlainName k) →
    (∀ k q, (k, q) ∈ m → ∀ r, Inst q r → XmlInst ident r) → T.fragXKids s.instrs path cs
  | [], _, _, _, _, _ => trivial
  | (k, t) :: r, path, m, h, hp, hs => by
    simp only [MirrorsKids] at h
    obtain ⟨⟨q, h1, h2⟩, h3⟩ := h
    simp only [T.fragXKids]
    exact ⟨⟨Mirrors.path_eq h2, (hp k q h1).2.1, (hp k q h1).2.2, fragX_of_mirrors t h2 (hs k q h1)⟩,
      fragXKids_of_mirrors r h3 hp hs⟩
end

mutual
theorem defaultsX_toP {lib : Lib} {ident : Str} {s : St} : ∀ (t : T) {path : Str} {raw : P}, Mirrors lib ident s t path raw →
    ∀ d ∈ t.defaultsX, ∃ p, s.heap.toP d = some p
  | .scalar p ty d tid, path, raw, h => by
    simp only [Mirrors] at h
    intro d hd
    simp only [T.defaultsX, List.mem_singleton] at hd
    subst hd
    exact ⟨_, h.2.2.1⟩
  | .array p d tid none, path, raw, h => by simp [Mirrors] at h
  | .array p d tid (some c), path, raw, h => by
    simp only [Mirrors] at h
    obtain ⟨h1, h2, h3, h4, items, h5, h6⟩ := h
    simp only [T.defaultsX, List.mem_cons, forall_eq_or_imp]
    exact ⟨⟨_, h3⟩, defaultsX_toP c h6⟩
  | .object p d tid cs, path, raw, h => by
    simp only [Mirrors] at h
    obtain ⟨h1, h2, h3, h4, m, h5, hne, h6, h7, h8⟩ := h
    simp only [T.defaultsX]
    exact defaultsXKids_toP cs h8
theorem defaultsXKids_toP {lib : Lib} {ident : Str} {s : St} : ∀ (cs : List (Str × T)) {path : Str} {m : List (Str × P)},
    MirrorsKids lib ident s cs path m → ∀ d ∈ T.defaultsXKids cs, ∃ p, s.heap.toP d = some p
  | [], _, _, _, d, hd => by simp [T.defaultsXKids] at hd
  | (k, t) :: r, path, m, h, d, hd => by
    simp only [MirrorsKids] at h
    obtain ⟨⟨q, h1, h2⟩, h3⟩ := h
    simp only [T.defaultsXKids, List.mem_append] at hd
    rcases hd with hd | hd
    · exact defaultsX_toP t h2 d hd
    · exact defaultsXKids_toP r h3 d hd
end

/-- A transformer for a covered schema is covered, and evaluates to the value of the schema. -/
theorem xschemaVal_of_mirrors {lib : Lib} {ident : Str} {s : St} {t : T} {sc : Schema} (hm : MirrorsSchema lib ident s t sc) (hs : XmlSchema ident sc) (n : NodeId) :
    t.fragX s.instrs ∧ (∀ d ∈ t.defaultsX, Rep s.heap (fun _ => true) d (dvOf s d)) ∧
      XSchemaVal lib ident n sc (evalX lib s.instrs (dvOf s) t n id) := by
  rcases hm with ⟨m, cs, h1, h2, rfl, h3, h4, h5⟩ | ⟨q, c, h1, h2, rfl, h3⟩
  · have hpl := hs.plain.1 m h1
    have hinst : ∀ k q, (k, q) ∈ m → ∀ r, Inst q r → XmlInst ident r := fun k q hkq r hr => XmlSchema.inst hs (Or.inl ⟨m, k, q, h1, hkq, hr⟩)
    have hd : ∀ d ∈ T.defaultsXKids cs, s.heap.toP d = some (dvOf s d) := by
      intro d hd
      obtain ⟨p, hp⟩ := defaultsXKids_toP cs h5 d hd
      rw [dvOf, hp]; rfl
    refine ⟨?_, ?_, ?_⟩
    · simp only [T.fragX]
      exact ⟨trivial, fun i hi => by simp at hi, h3, fragXKids_of_mirrors cs h5 (fun k q hkq => hpl.2 (k, q) hkq) hinst⟩
    · intro d hd'
      exact rep_of_toP (hd d (by simpa [T.defaultsX] using hd'))
    · simp only [evalX]
      have hsub : ∀ kt ∈ cs, ∃ q, (kt.1, q) ∈ m := fun kt hkt => let ⟨q, h1, _⟩ := MirrorsKids_iff.1 h5 kt hkt; ⟨q, h1⟩
      rw [evalKidsX_eq]
      obtain ⟨g, hg1, hg2⟩ := kidsOf_val (f := fun t => evalX lib s.instrs (dvOf s) t n id)
        (R := fun q k r => XVal lib ident n q g!"$" g!"$" (g!"$." ++ k) (g!"$." ++ k) id r) h3 hpl.1 h4 hsub
        (xvalKids_of_mirrors cs (l := []) (cp := g!"$") (mod := id) n (by simp) h5 hpl.1 (fun k q hkq => hpl.2 (k, q) hkq)
          (fun k q hq r hr => (hinst k q hq r hr).plain) (fun k q hq r hr => (hinst k q hq r hr).noDefault) hd (fun rest => rfl))
      rw [hg2]
      exact XSchemaVal.object h1 hg1
  · have hinst : ∀ r, Inst q r → XmlInst ident r := fun r hr => XmlSchema.inst hs (Or.inr ⟨q, h2, hr⟩)
    have hnil : dvOf s V.nil = nilP := by simp [dvOf, Heap.toP, reify, V.nil]
    refine ⟨?_, ?_, ?_⟩
    · simp only [T.fragX]
      exact ⟨fun i hi => by simp at hi, fragX_of_mirrors c h3 hinst⟩
    · intro d hd'
      simp only [T.defaultsX, List.mem_cons] at hd'
      rcases hd' with rfl | hd'
      · show Rep s.heap _ V.nil (dvOf s V.nil)
        rw [hnil]
        exact Rep.sc _ _ _
      · obtain ⟨p, hp⟩ := defaultsX_toP c h3 d hd'
        exact rep_of_toP (by rw [dvOf, hp]; rfl)
    · have : evalX lib s.instrs (dvOf s) (.array g!"$" none none (some c)) n id = some nilP := by
        simp only [evalX, optInstrsX, okP, Option.bind_some, entriesX, arrD, hnil, List.zipIdx_nil, optAll, Option.map_some, arrayOf]
        rfl
      rw [this]
      exact XSchemaVal.array h1 h2

/-- A call on a Transformer for a covered schema, XML input: the value of the schema, rendered. -/
theorem transform_xschemaVal {env0 env : Env} {sc : Schema} {ident : Str} {t : T} {s0 : St} (hb : newTransformer env0 sc ident = .ok (t, s0))
    (hs : XmlSchema ident sc) (hf : env.fmt = .xml) (hlib : env.lib = env0.lib) {raw : Str} {n : NodeId} (hp : env.lib.parseXML raw = some n) :
    ∃ r, XSchemaVal env.lib ident n sc r ∧ (baseTransform env t raw s0).1.toOption = r.bind env.lib.marshal := by
  have hm := newTransformer_mirrors hb hs.plain
  rw [← hlib] at hm
  obtain ⟨h1, h2, h3⟩ := xschemaVal_of_mirrors hm hs n
  refine ⟨_, h3, ?_⟩
  rw [baseTransform_evalX hf h1 h2 raw, hp]
  rfl

end JT
