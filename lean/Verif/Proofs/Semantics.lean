import Verif.Proofs.MirrorSchema
import Verif.Spec.Semantics
/- The engine computes the meaning of the schema. -/
namespace JT
open Spec

/-! ### Where `@` points to -/

/-- What `@` stands for in a scalar at a place. -/
def upOf (l : List Seg) : Seg → Str
  | .key _ => pathOf l
  | .star => pathOf (l ++ [.star])

theorem suffix_star_key (p : Str) {k : Str} (hk : PlainName k) : hasSuffix (p ++ '.' :: k) g!"[*]" = false := by
  by_cases h : hasSuffix (p ++ '.' :: k) g!"[*]" = true
  · exfalso
    unfold hasSuffix at h
    rw [List.isSuffixOf_iff_suffix] at h
    obtain ⟨a, ha⟩ := h
    obtain ⟨h1, h2, h3⟩ := hk
    have hr := congrArg List.reverse ha
    simp only [List.reverse_append, List.reverse_cons, List.reverse_nil, List.nil_append, List.cons_append, List.append_assoc] at hr
    generalize hk' : k.reverse = kr at hr
    have h1' : kr ≠ [] := by rw [← hk']; simpa using h1
    have h2' : '.' ∉ kr := by rw [← hk']; simpa using h2
    have h3' : '[' ∉ kr := by rw [← hk']; simpa using h3
    match kr, h1', h2', h3', hr with
    | [x], _, _, _, hr => simp at hr
    | [x, y], _, _, _, hr => simp at hr
    | x :: y :: z :: w, _, _, h3', hr =>
      simp at hr
      exact h3' (by simp [← hr.2.2.1])
  · simpa using h

theorem suffix_dotstar (l : List Seg) (hpl : ∀ x ∈ l, x.plain) : hasSuffix (pathOf l ++ g!"[*]") g!".[*]" = false := by
  by_cases h : hasSuffix (pathOf l ++ g!"[*]") g!".[*]" = true
  · exfalso
    unfold hasSuffix at h
    rw [List.isSuffixOf_iff_suffix] at h
    obtain ⟨a, ha⟩ := h
    have hr := congrArg List.reverse ha
    simp only [List.reverse_append, List.reverse_cons, List.reverse_nil, List.nil_append, List.cons_append, List.append_assoc] at hr
    simp only [List.cons.injEq, true_and] at hr
    -- the path ends with a dot
    rcases List.eq_nil_or_concat l with rfl | ⟨l', sg, rfl⟩
    · simp [pathOf, segsText] at hr
    · simp only [List.concat_eq_append] at hr hpl
      rw [pathOf_snoc] at hr
      cases sg with
      | star => simp [Seg.text] at hr
      | key k =>
        obtain ⟨h1, h2, h3⟩ : PlainName k := hpl (.key k) (by simp)
        simp only [Seg.text, List.reverse_append, List.reverse_cons, List.append_assoc] at hr
        generalize hk' : k.reverse = kr at hr
        have h1' : kr ≠ [] := by rw [← hk']; simpa using h1
        have h2' : '.' ∉ kr := by rw [← hk']; simpa using h2
        cases kr with
        | nil => exact h1' rfl
        | cons x w =>
          simp at hr
          exact h2' (by simp [← hr.1])
  · simpa using h

theorem parentPathOf_scalar {l : List Seg} {sg : Seg} (hpl : ∀ x ∈ l ++ [sg], x.plain) :
    parentPathOf .scalar (pathOf (l ++ [sg])) = upOf l sg := by
  unfold parentPathOf
  cases sg with
  | key k =>
    have hk : PlainName k := hpl (.key k) (by simp)
    rw [pathOf_snoc]
    simp only [Seg.text]
    rw [if_neg (by rw [suffix_star_key _ hk]; simp)]
    unfold dropLast
    rw [dropLast_splitC hk.2.1]
    exact join_splitC '.' _
  | star =>
    rw [pathOf_snoc]
    simp only [Seg.text]
    have h1 : hasSuffix (pathOf l ++ g!"[*]") g!"[*]" = true := by
      unfold hasSuffix
      rw [List.isSuffixOf_iff_suffix]
      exact List.suffix_append _ _
    rw [if_pos ⟨trivial, h1, by rw [suffix_dotstar l fun x hx => hpl x (by simp [hx])]; simp⟩]
    simp only [upOf]
    rw [pathOf_snoc]
    rfl

theorem replacePrefix_eq (old new rest : Str) : replacePrefix old new (old ++ rest) = new ++ rest := by
  unfold replacePrefix hasPrefix
  rw [if_pos (by rw [List.isPrefixOf_iff_prefix]; exact List.prefix_append _ _)]
  exact replace1_prefix old rest new

theorem replacePrefix_ne {old new p : Str} (h : ¬ old <+: p) : replacePrefix old new p = p := by
  unfold replacePrefix hasPrefix
  rw [if_neg (by rw [List.isPrefixOf_iff_prefix]; exact h)]

/-- Replacing the two prefixes is putting `up` in the place of `@`. -/
theorem replacePrefix_at {pp : Str} (hp : ∃ r, pp = '$' :: r) (p : Str) :
    replacePrefix g!"@[" (pp ++ g!"[") (replacePrefix g!"@." (pp ++ g!".") p) = atPath pp p := by
  obtain ⟨r, rfl⟩ := hp
  unfold atPath
  split
  · rename_i q
    have h1 := replacePrefix_eq g!"@." ('$' :: r ++ g!".") q
    simp only [List.cons_append, List.nil_append] at h1
    simp only [List.cons_append]
    rw [h1, replacePrefix_ne]
    · simp
    · intro hpre
      obtain ⟨t, ht⟩ := hpre
      simp at ht
  · rename_i q
    rw [replacePrefix_ne (old := g!"@.")]
    · have h1 := replacePrefix_eq g!"@[" ('$' :: r ++ g!"[") q
      simp only [List.cons_append, List.nil_append] at h1
      simp only [List.cons_append]
      rw [h1]
      simp
    · intro hpre
      obtain ⟨t, ht⟩ := hpre
      simp at ht
  · rename_i h1 h2
    have e1 : replacePrefix g!"@." ('$' :: r ++ g!".") p = p := by
      apply replacePrefix_ne
      rintro ⟨t, ht⟩
      exact h1 t (by simp at ht; exact ht.symm)
    rw [e1]
    apply replacePrefix_ne
    rintro ⟨t, ht⟩
    exact h2 t (by simp at ht; exact ht.symm)

theorem instrsP_replace (lib : Lib) (ty : Str) (mod : Mod) (tis : Instrs) (inp : P) {pp : Str} (hp : ∃ r, pp = '$' :: r) :
    instrsP lib ty mod (replaceJSONPathPrefix g!"@[" (pp ++ g!"[") (replaceJSONPathPrefix g!"@." (pp ++ g!".") tis)) inp =
      instrsP lib ty (fun p => mod (atPath pp p)) tis inp := by
  unfold instrsP replaceJSONPathPrefix
  simp only [List.map_map]
  have : ((fun ti : Instr => instrP lib ty (mod ti.jsonPath) ti.ops inp) ∘
      (fun ti : Instr => { ti with jsonPath := replacePrefix g!"@[" (pp ++ g!"[") ti.jsonPath, xmlPath := replacePrefix g!"@[" (pp ++ g!"[") ti.xmlPath }) ∘
      (fun ti : Instr => { ti with jsonPath := replacePrefix g!"@." (pp ++ g!".") ti.jsonPath, xmlPath := replacePrefix g!"@." (pp ++ g!".") ti.xmlPath })) =
      fun ti => instrP lib ty (mod (atPath pp ti.jsonPath)) ti.ops inp := by
    funext ti
    simp only [Function.comp]
    rw [replacePrefix_at hp]
  rw [this]

/-! ### Covered schemas give covered transformers -/

theorem ite_all {α : Type} {c : Prop} [Decidable c] {x y : Option α} {Q : α → Prop} (hx : c → ∀ z, x = some z → Q z) (hy : ¬ c → ∀ z, y = some z → Q z) :
    ∀ z, (if c then x else y) = some z → Q z := by
  intro z h
  by_cases hc : c
  · rw [if_pos hc] at h; exact hx hc z h
  · rw [if_neg hc] at h; exact hy hc z h

theorem initOp_clock {lib : Lib} {name : Str} {args : GMap Str} : ∀ op, initOp lib name args = some op → (∃ f, op = .currentTime f) → name = g!"currentTime" := by
  unfold initOp
  repeat' (first | (refine ite_all (fun hc => ?_) (fun hc => ?_)) | (intro z h; cases h; done) | (intro z h; cases h; rintro ⟨f, hf⟩; cases hf; done))
  intro z h _
  assumption

theorem mapRes_mem {α β : Type} {f : α → Res β} : ∀ {l : List α} {l' : List β}, mapRes f l = .ok l' → ∀ y ∈ l', ∃ x ∈ l, f x = .ok y
  | [], l', h, y, hy => by simp [mapRes] at h; subst h; simp at hy
  | x :: xs, l', h, y, hy => by
    simp only [mapRes, Res.bind_eq_ok, Res.pure_eq_ok] at h
    obtain ⟨z, hz, zs, hzs, rfl⟩ := h
    simp only [List.mem_cons] at hy
    rcases hy with rfl | hy
    · exact ⟨x, by simp, hz⟩
    · obtain ⟨x', h1, h2⟩ := mapRes_mem hzs y hy
      exact ⟨x', by simp [h1], h2⟩

theorem asList_mem {o : Option P} {l : List P} (h : asList o = .ok l) {x : P} (hx : x ∈ l) : o = some (.arr l) := by
  unfold asList at h
  split at h <;> simp_all

theorem parseInstrs_clock {lib : Lib} {tr : P} {tis : Instrs} (h : parseInstrs lib tr = .ok tis)
    (hc : ∀ l e ops op, tr.key g!"from" = some (.arr l) → e ∈ l → e.key g!"operations" = some (.arr ops) → op ∈ ops →
      op.key g!"type" ≠ some (.sc (.str g!"currentTime"))) : ∀ ti ∈ tis.from, Clockless ti.ops := by
  unfold parseInstrs at h
  simp only [Res.bind_eq_ok, Res.pure_eq_ok] at h
  obtain ⟨p, hp, fromJ, hfr, fr, hmap, _, _, _, _, _, _, m, _, rfl⟩ := h
  intro ti hti op hop f hf
  subst hf
  simp only at hti
  obtain ⟨e, he, hpe⟩ := mapRes_mem hmap ti hti
  have hfr' := asList_mem hfr he
  rw [asStruct_key hp] at hfr'
  have hpi : ∃ p2 opsJ, asStruct e = .ok p2 ∧ asList (p2.key g!"operations") = .ok opsJ ∧ mapRes (parseOp lib) opsJ = .ok ti.ops := by
    unfold parseInstr at hpe
    split at hpe
    · contradiction
    · simp only [Res.bind_eq_ok, Res.pure_eq_ok] at hpe
      obtain ⟨p2, h2, _, _, _, _, opsJ, h3, ops, h4, rfl⟩ := hpe
      exact ⟨p2, opsJ, h2, h3, h4⟩
  obtain ⟨p2, opsJ, h2, h3, h4⟩ := hpi
  obtain ⟨oj, hoj, hpo⟩ := mapRes_mem h4 _ hop
  have hops := asList_mem h3 hoj
  rw [asStruct_key h2] at hops
  refine hc fromJ e opsJ oj hfr' he hops hoj ?_
  unfold parseOp at hpo
  simp only [Res.bind_eq_ok] at hpo
  obtain ⟨p3, h5, name, h6, args, _, h7⟩ := hpo
  split at h7
  · rename_i op' hop'
    simp only [Res.pure_eq_ok] at h7
    subst h7
    have := initOp_clock _ hop' ⟨f, rfl⟩
    subst this
    have := asString_some h6 (by simp)
    rw [asStruct_key h5] at this
    exact this
  · contradiction

theorem extractInstrs_cases {lib : Lib} {raw : P} {ident path : Str} {kind : Kind} {o : Option Instrs}
    (h : extractInstrs lib raw ident path kind = .ok o) :
    (o = none ∧ NoTransform ident raw) ∨
    ∃ tr tis, (raw.key g!"transform").bind (P.key ident) = some tr ∧ tr ≠ .sc (.str []) ∧ parseInstrs lib tr = .ok tis ∧
      o = some (replaceJSONPathPrefix g!"@[" (parentPathOf kind path ++ g!"[") (replaceJSONPathPrefix g!"@." (parentPathOf kind path ++ g!".") tis)) := by
  unfold extractInstrs at h
  split at h
  · rename_i hn
    simp at h
    exact Or.inl ⟨h.symm, Or.inl hn⟩
  · rename_i hn
    simp at h
    exact Or.inl ⟨h.symm, Or.inr hn⟩
  · rename_i tr hne hn
    simp only [Res.bind_eq_ok, Res.pure_eq_ok] at h
    obtain ⟨tis, h1, h2⟩ := h
    refine Or.inr ⟨tr, tis, hn, fun e => hne (by rw [e]), h1, h2.symm⟩

theorem instrsAre_none {lib : Lib} {ident : Str} {s : St} {tid : Option Nat} {path : Str} {kind : Kind} {raw : P}
    (h : InstrsAre lib ident s tid path kind raw) (hn : NoTransform ident raw) : tid = none := by
  obtain ⟨o, h1, h2⟩ := h
  rcases extractInstrs_cases h1 with ⟨rfl, _⟩ | ⟨tr, tis, h3, h4, _, _⟩
  · cases tid with
    | none => rfl
    | some i => simp at h2
  · rcases hn with hn | hn
    · rw [h3] at hn; simp at hn
    · rw [h3] at hn; simp at hn; exact absurd hn h4

theorem instrsAre_good {lib : Lib} {ident : Str} {s : St} {tid : Option Nat} {path : Str} {kind : Kind} {raw : P}
    (h : InstrsAre lib ident s tid path kind raw) (hl : NotLast ident raw) (hc : NoClock ident raw) : GoodTid s.instrs tid := by
  obtain ⟨o, h1, h2⟩ := h
  intro i hi
  subst hi
  cases o with
  | none => simp at h2
  | some tis =>
    simp only at h2
    refine ⟨tis, h2, extractInstrs_notLast hl h1, ?_⟩
    rcases extractInstrs_cases h1 with ⟨h3, _⟩ | ⟨tr, tis', h3, h4, h5, h6⟩
    · simp at h3
    · simp only [Option.some.injEq] at h6
      subst h6
      intro ti hti
      simp only [replaceJSONPathPrefix, List.map_map, List.mem_map] at hti
      obtain ⟨ti', hti', rfl⟩ := hti
      exact parseInstrs_clock h5 (fun l e ops op => hc tr l e ops op h3) ti' hti'

/-- What is needed of each instance. -/
structure SimpleInst (ident : Str) (q : P) : Prop where
  noDefault : Container q → NoDefault q
  noTransform : Container q → NoTransform ident q
  notLast : NotLast ident q
  noClock : NoClock ident q
  plain : PlainProps q

theorem toP_arr_ne {h : Heap} {a : Addr} : h.toP (.arr a) ≠ some nilP := by
  unfold Heap.toP
  simp only [reify]
  split
  · intro he
    rw [Option.map_eq_some_iff] at he
    obtain ⟨_, _, he⟩ := he
    simp at he
  · simp

theorem toP_obj_ne {h : Heap} {a : Addr} : h.toP (.obj a) ≠ some nilP := by
  unfold Heap.toP
  simp only [reify]
  split
  · intro he
    rw [Option.map_eq_some_iff] at he
    obtain ⟨_, _, he⟩ := he
    simp at he
  · simp

theorem noDefault_canon {q : P} (h : NoDefault q) : Spec.canon ((q.key g!"default").getD nilP) = nilP := by
  rw [h]; simp [Spec.canon]

theorem fragKids_of_all {ins : List Instrs} {p : Str} {cs : List (Str × T)}
    (h : ∀ kt ∈ cs, kt.2.path = p ++ '.' :: kt.1 ∧ '.' ∉ kt.1 ∧ '[' ∉ kt.1 ∧ kt.2.frag ins) : T.fragKids ins p cs :=
  fragKids_of_mem h

mutual
theorem frag_of_mirrors {lib : Lib} {ident : Str} {s : St} : ∀ (t : T) {path : Str} {raw : P},
    Mirrors lib ident s t path raw → (∀ q, Inst raw q → SimpleInst ident q) → t.frag s.instrs
  | .scalar p ty d tid, path, raw, h, hs => by
    simp only [Mirrors] at h
    simp only [T.frag]
    have := hs raw (.self raw)
    exact instrsAre_good h.2.2.2 this.notLast this.noClock
  | .array p d tid none, path, raw, h, hs => by simp [Mirrors] at h
  | .array p d tid (some c), path, raw, h, hs => by
    simp only [Mirrors] at h
    obtain ⟨h1, h2, h3, h4, items, h5, h6⟩ := h
    have h0 := hs raw (.self raw)
    have hcont : Container raw := Or.inl h2
    simp only [T.frag]
    refine ⟨?_, instrsAre_none h4 (h0.noTransform hcont), frag_of_mirrors c h6 fun q hq => hs q (Inst.trans (.items (.self raw) h5) hq)⟩
    cases d with
    | none => rfl
    | some a =>
      unfold DefaultIs at h3
      rw [noDefault_canon (h0.noDefault hcont)] at h3
      exact absurd h3 toP_arr_ne
  | .object p d tid cs, path, raw, h, hs => by
    simp only [Mirrors] at h
    obtain ⟨h1, h2, h3, h4, m, h5, hne, h6, h7, h8⟩ := h
    have h0 := hs raw (.self raw)
    have hcont : Container raw := Or.inr ⟨h2, by rw [h5]; simp [hne]⟩
    simp only [T.frag]
    refine ⟨?_, instrsAre_none h4 (h0.noTransform hcont), h6, ?_⟩
    · cases d with
      | none => rfl
      | some a =>
        unfold DefaultIs at h3
        rw [noDefault_canon (h0.noDefault hcont)] at h3
        exact absurd h3 toP_obj_ne
    · subst h1
      exact fragKids_of_mirrors cs h8 (fun k q hq => (h0.plain m h5).2 (k, q) hq)
        (fun k q hq r hr => hs r (Inst.trans (.prop (.self raw) h5 hq) hr))
theorem fragKids_of_mirrors {lib : Lib} {ident : Str} {s : St} : ∀ (cs : List (Str × T)) {path : Str} {m : List (Str × P)},
    MirrorsKids lib ident s cs path m → (∀ k q, (k, q) ∈ m → PlainName k) →
    (∀ k q, (k, q) ∈ m → ∀ r, Inst q r → SimpleInst ident r) → T.fragKids s.instrs path cs
  | [], _, _, _, _, _ => trivial
  | (k, t) :: r, path, m, h, hp, hs => by
    simp only [MirrorsKids] at h
    obtain ⟨⟨q, h1, h2⟩, h3⟩ := h
    simp only [T.fragKids]
    exact ⟨⟨Mirrors.path_eq h2, (hp k q h1).2.1, (hp k q h1).2.2, frag_of_mirrors t h2 (hs k q h1)⟩,
      fragKids_of_mirrors r h3 hp hs⟩
end

end JT
