import Verif.Spec.AtPath
import Verif.Proofs.Semantics
import Verif.Props.C17
/- C20: `@` in paths. -/
namespace JT
open Spec

theorem key_map_ne {g : Str × P → Str × P} {k : Str} (hg : ∀ kv, (g kv).1 = kv.1) (hk : ∀ v, g (k, v) = (k, v)) :
    ∀ (m : List (Str × P)), GMap.get k (m.map g) = GMap.get k m
  | [] => rfl
  | (k', v) :: m => by
    have h1 := hg (k', v)
    simp only [List.map_cons]
    generalize hgv : g (k', v) = x at *
    obtain ⟨a, b⟩ := x
    simp only at h1
    subst h1
    simp only [GMap.get]
    by_cases h : k = a
    · subst h
      rw [hk v] at hgv
      simp only [Prod.mk.injEq, true_and] at hgv
      simp [hgv]
    · rw [if_neg h, if_neg h, key_map_ne hg hk m]

theorem key_map_eq {f : P → P} {k : Str} : ∀ (m : List (Str × P)),
    GMap.get k (m.map fun kv => if kv.1 = k then (kv.1, f kv.2) else kv) = (GMap.get k m).map f
  | [] => rfl
  | (k', v) :: m => by
    simp only [List.map_cons, GMap.get]
    by_cases h : k' = k
    · simp [h]
    · simp only [if_neg h]
      rw [if_neg (Ne.symm h), if_neg (Ne.symm h), key_map_eq m]

theorem atKey_same (k : Str) (f : P → P) (p : P) : (atKey k f p).key k = (p.key k).map f := by
  cases p with
  | obj m => exact key_map_eq m
  | sc => rfl
  | arr => rfl

theorem atKey_other {k k' : Str} (h : k' ≠ k) (f : P → P) (p : P) : (atKey k f p).key k' = p.key k' := by
  cases p with
  | obj m =>
    refine key_map_ne (g := fun kv => if kv.1 = k then (kv.1, f kv.2) else kv) ?_ ?_ m
    · intro kv; show (if kv.1 = k then (kv.1, f kv.2) else kv).1 = kv.1; split <;> rfl
    · intro v; exact if_neg h
  | sc => rfl
  | arr => rfl

theorem asStruct_atKey (k : Str) (f : P → P) (p : P) : asStruct (atKey k f p) = (asStruct p).map (atKey k f) := by
  cases p with
  | obj m => rfl
  | arr => rfl
  | sc s => cases s <;> rfl

theorem depth_atKey {k : Str} {f : P → P} (hf : ∀ p, (f p).depth = p.depth) (p : P) : (atKey k f p).depth = p.depth := by
  cases p with
  | obj m =>
    simp only [atKey, P.depth]
    congr 1
    induction m with
    | nil => rfl
    | cons kv m ih =>
      obtain ⟨k', v⟩ := kv
      simp only [List.map_cons]
      by_cases h : k' = k
      · simp only [h, if_true, depthFields, hf, ih]
      · simp only [if_neg h, depthFields, ih]
  | sc => rfl
  | arr => rfl

/-! ### One transform -/

/-- Putting `@` paths in full in parsed instructions. -/
def fullInstr (up : Str) (ti : Instr) : Instr := { ti with jsonPath := atPath up ti.jsonPath, xmlPath := atPath up ti.xmlPath }

theorem atPath_nil (up : Str) : atPath up [] = [] := rfl

theorem asString_fullPath (up : Str) (o : Option P) : asString (o.map (fullPath up)) = (asString o).map (atPath up) := by
  cases o with
  | none => rfl
  | some p =>
    cases p with
    | arr => rfl
    | obj => rfl
    | sc s => cases s <;> rfl

theorem Res.map_bind {α β γ : Type} (x : Res α) (f : α → β) (g : β → Res γ) : (x.map f >>= g) = (x >>= fun a => g (f a)) := by cases x <;> rfl

theorem parseInstr_full (lib : Lib) (up : Str) (e : P) :
    parseInstr lib (atKey g!"jsonPath" (fullPath up) (atKey g!"xmlPath" (fullPath up) e)) = (parseInstr lib e).map (fullInstr up) := by
  have hobj : ∀ m, parseInstr lib (atKey g!"jsonPath" (fullPath up) (atKey g!"xmlPath" (fullPath up) (.obj m))) = (parseInstr lib (.obj m)).map (fullInstr up) := by
    intro m
    generalize he : P.obj m = e
    have hs : ∀ k f, ∃ m', atKey k f e = .obj m' := by rw [← he]; intro k f; exact ⟨_, rfl⟩
    have h1 : parseInstr lib (atKey g!"jsonPath" (fullPath up) (atKey g!"xmlPath" (fullPath up) e)) = (do
        let jp ← (asString (e.key g!"jsonPath")).map (atPath up)
        let xp ← (asString (e.key g!"xmlPath")).map (atPath up)
        let opsJ ← asList (e.key g!"operations")
        let ops ← mapRes (parseOp lib) opsJ
        return ⟨jp, xp, ops⟩) := by
      rw [← asString_fullPath, ← asString_fullPath]
      have e1 := atKey_same g!"jsonPath" (fullPath up) (atKey g!"xmlPath" (fullPath up) e)
      rw [atKey_other (k := g!"xmlPath") (by decide)] at e1
      have e2 := atKey_same g!"xmlPath" (fullPath up) e
      rw [← atKey_other (k := g!"jsonPath") (by decide) (fullPath up)] at e2
      have e3 := atKey_other (k := g!"xmlPath") (k' := g!"operations") (by decide) (fullPath up) e
      rw [← atKey_other (k := g!"jsonPath") (by decide) (fullPath up)] at e3
      rw [← e1, ← e2, ← e3, ← he]
      rfl
    have h2 : parseInstr lib e = (do
        let jp ← asString (e.key g!"jsonPath")
        let xp ← asString (e.key g!"xmlPath")
        let opsJ ← asList (e.key g!"operations")
        let ops ← mapRes (parseOp lib) opsJ
        return ⟨jp, xp, ops⟩) := by rw [← he]; rfl
    rw [h1, h2]
    cases asString (e.key g!"jsonPath") <;> cases asString (e.key g!"xmlPath") <;> try rfl
    cases asList (e.key g!"operations") <;> try rfl
    rename_i l
    simp only [Res.map, Res.ok_bind]
    cases mapRes (parseOp lib) l <;> rfl
  cases e with
  | obj m => exact hobj m
  | arr => rfl
  | sc s => cases s <;> rfl

theorem mapRes_map {α β γ : Type} {f : β → Res γ} {g : α → β} : ∀ (l : List α), mapRes f (l.map g) = mapRes (fun x => f (g x)) l
  | [] => rfl
  | x :: l => by simp only [List.map_cons, mapRes, mapRes_map l]

theorem mapRes_res {α β γ : Type} {f : α → Res β} {g : β → γ} : ∀ (l : List α), mapRes (fun x => (f x).map g) l = (mapRes f l).map (List.map g)
  | [] => rfl
  | x :: l => by
    simp only [mapRes, mapRes_res l]
    cases f x <;> try rfl
    cases mapRes f l <;> rfl

theorem parseInstrs_full (lib : Lib) (up : Str) (tr : P) :
    parseInstrs lib (fullTransform up tr) = (parseInstrs lib tr).map fun tis => { tis with «from» := tis.from.map (fullInstr up) } := by
  unfold parseInstrs fullTransform
  rw [asStruct_atKey, Res.map_bind]
  cases hp : asStruct tr with
  | err => rfl
  | panic => rfl
  | ok p =>
    simp only [Res.ok_bind]
    rw [atKey_same, atKey_other (by decide), atKey_other (by decide)]
    have hl : asList ((p.key g!"from").map (eachItem fun e => atKey g!"jsonPath" (fullPath up) (atKey g!"xmlPath" (fullPath up) e))) =
        (asList (p.key g!"from")).map (List.map fun e => atKey g!"jsonPath" (fullPath up) (atKey g!"xmlPath" (fullPath up) e)) := by
      cases p.key g!"from" with
      | none => rfl
      | some q =>
        cases q with
        | arr => rfl
        | obj => rfl
        | sc s => cases s <;> rfl
    rw [hl]
    cases asList (p.key g!"from") with
    | err => rfl
    | panic => rfl
    | ok l =>
      simp only [Res.map, Res.ok_bind]
      rw [mapRes_map]
      simp only [parseInstr_full]
      rw [mapRes_res]
      cases mapRes (parseInstr lib) l with
      | err => rfl
      | panic => rfl
      | ok fr =>
        simp only [Res.map, Res.ok_bind]
        cases asString (p.key g!"method") <;> try rfl
        rename_i ms
        simp only [Res.ok_bind]
        cases asStruct ((p.key g!"methodOptions").getD (.sc .nil)) <;> try rfl
        rename_i opts
        simp only [Res.ok_bind]
        cases asString (opts.key g!"concatenateDelimiter") <;> try rfl
        simp only [Res.ok_bind]
        cases parseMethod ms <;> rfl

theorem replacePrefix_atPath {pp : Str} (hp : pp.head? ≠ some '@') (p : Str) :
    replacePrefix g!"@[" (pp ++ g!"[") (replacePrefix g!"@." (pp ++ g!".") p) = atPath pp p := by
  unfold atPath
  split
  · rename_i q
    have h1 := replacePrefix_eq g!"@." (pp ++ g!".") q
    simp only [List.cons_append, List.nil_append] at h1
    rw [h1, replacePrefix_ne]
    · simp
    · rintro ⟨t, ht⟩
      cases pp with
      | nil => simp at ht
      | cons c pp => simp at ht; exact hp (by simp [← ht.1])
  · rename_i q
    rw [replacePrefix_ne (old := g!"@.")]
    · have h1 := replacePrefix_eq g!"@[" (pp ++ g!"[") q
      simp only [List.cons_append, List.nil_append] at h1
      rw [h1]
      simp
    · rintro ⟨t, ht⟩
      simp at ht
  · rename_i h1 h2
    have e1 : replacePrefix g!"@." (pp ++ g!".") p = p := by
      apply replacePrefix_ne
      rintro ⟨t, ht⟩
      exact h1 t (by simp at ht; exact ht.symm)
    rw [e1]
    apply replacePrefix_ne
    rintro ⟨t, ht⟩
    exact h2 t (by simp at ht; exact ht.symm)

theorem atPath_idem {pp : Str} (hp : pp.head? ≠ some '@') (p : Str) : atPath pp (atPath pp p) = atPath pp p := by
  have key : ∀ c r, atPath pp (pp ++ c :: r) = pp ++ c :: r ∨ c = '@' := by
    intro c r
    cases pp with
    | nil =>
      by_cases hc : c = '@'
      · exact Or.inr hc
      · left
        simp only [List.nil_append]
        unfold atPath
        split
        · simp_all
        · simp_all
        · rfl
    | cons d pp =>
      left
      have hd : d ≠ '@' := fun e => hp (by simp [e])
      simp only [List.cons_append]
      unfold atPath
      split
      · simp_all
      · simp_all
      · rfl
  have e : ∀ q, (∃ r, q = '@' :: '.' :: r ∧ atPath pp q = pp ++ '.' :: r) ∨ (∃ r, q = '@' :: '[' :: r ∧ atPath pp q = pp ++ '[' :: r) ∨ atPath pp q = q := by
    intro q
    unfold atPath
    split
    · exact Or.inl ⟨_, rfl, rfl⟩
    · exact Or.inr (Or.inl ⟨_, rfl, rfl⟩)
    · exact Or.inr (Or.inr rfl)
  rcases e p with ⟨r, _, h⟩ | ⟨r, _, h⟩ | h
  · rw [h]; rcases key '.' r with h | h
    · exact h
    · simp at h
  · rw [h]; rcases key '[' r with h | h
    · exact h
    · simp at h
  · rw [h, h]

theorem replaceBoth {pp : Str} (hp : pp.head? ≠ some '@') (tis : Instrs) :
    replaceJSONPathPrefix g!"@[" (pp ++ g!"[") (replaceJSONPathPrefix g!"@." (pp ++ g!".") tis) = { tis with «from» := tis.from.map (fullInstr pp) } := by
  unfold replaceJSONPathPrefix
  simp only [List.map_map]
  congr 1
  apply List.map_congr_left
  intro ti _
  simp only [Function.comp, fullInstr]
  rw [replacePrefix_atPath hp, replacePrefix_atPath hp]

/-- Extracting the transform is the same when the paths are written out. -/
theorem extractInstrs_full {lib : Lib} {raw raw' : P} {ident path : Str} {kind : Kind} {up : Str} (hup : parentPathOf kind path = up)
    (hh : up.head? ≠ some '@') (hk : raw'.key g!"transform" = (raw.key g!"transform").map (atKey ident (fullTransform up))) :
    extractInstrs lib raw' ident path kind = extractInstrs lib raw ident path kind := by
  unfold extractInstrs
  rw [hk]
  have : ((raw.key g!"transform").map (atKey ident (fullTransform up))).bind (P.key ident) =
      ((raw.key g!"transform").bind (P.key ident)).map (fullTransform up) := by
    cases raw.key g!"transform" with
    | none => rfl
    | some t => exact atKey_same ident _ t
  rw [this]
  generalize (raw.key g!"transform").bind (P.key ident) = o
  have main : ∀ p : P, (do
      let tis ← parseInstrs lib (fullTransform up p)
      let pp := parentPathOf kind path
      return some (replaceJSONPathPrefix g!"@[" (pp ++ g!"[") (replaceJSONPathPrefix g!"@." (pp ++ g!".") tis)) : Res (Option Instrs)) = (do
      let tis ← parseInstrs lib p
      let pp := parentPathOf kind path
      return some (replaceJSONPathPrefix g!"@[" (pp ++ g!"[") (replaceJSONPathPrefix g!"@." (pp ++ g!".") tis))) := by
    intro p
    rw [parseInstrs_full, Res.map_bind]
    cases parseInstrs lib p with
    | err => rfl
    | panic => rfl
    | ok tis =>
      simp only [Res.ok_bind, hup]
      rw [replaceBoth hh, replaceBoth hh]
      simp only [List.map_map]
      have : fullInstr up ∘ fullInstr up = fullInstr up := by
        funext ti
        simp only [Function.comp, fullInstr]
        rw [atPath_idem hh, atPath_idem hh]
      rw [this]
  match o with
  | none => rfl
  | some (.sc (.str [])) => rfl
  | some (.sc (.str (c :: s))) => exact main (.sc (.str (c :: s)))
  | some (.sc .nil) => exact main (.sc .nil)
  | some (.sc (.bool b)) => exact main (.sc (.bool b))
  | some (.sc (.int b)) => exact main (.sc (.int b))
  | some (.sc (.i64 b)) => exact main (.sc (.i64 b))
  | some (.sc (.f64 b)) => exact main (.sc (.f64 b))
  | some (.sc (.time b)) => exact main (.sc (.time b))
  | some (.sc (.node b)) => exact main (.sc (.node b))
  | some (.sc (.nodes b)) => exact main (.sc (.nodes b))
  | some (.arr l) => exact main (.arr l)
  | some (.obj l) => exact main (.obj l)

/-! ### What `@` stands for -/

theorem dropLast_above : ∀ (r : List Seg) (t : Str), (∀ x ∈ r, x.plain) → '.' ∉ t → dropLast (pathOf r.reverse ++ t) = objectAbove r
  | [], t, _, ht => by
    unfold dropLast
    rw [splitC_no]
    · rfl
    · simp [pathOf, segsText, ht]
  | .star :: r, t, hp, ht => by
    rw [List.reverse_cons, pathOf_snoc, List.append_assoc]
    rw [dropLast_above r _ (fun x hx => hp x (by simp [hx])) (by simp [Seg.text, ht])]
    rfl
  | .key k :: r, t, hp, ht => by
    rw [List.reverse_cons, pathOf_snoc, List.append_assoc]
    have hk : PlainName k := hp (.key k) (by simp)
    simp only [Seg.text, List.cons_append]
    unfold dropLast
    rw [dropLast_splitC (by simp [ht, hk.2.1]), join_splitC]
    rfl

theorem objectAbove_head : ∀ (r : List Seg), (objectAbove r).head? ≠ some '@'
  | [] => by simp [objectAbove]
  | .star :: r => objectAbove_head r
  | .key _ :: r => by simp [objectAbove, pathOf]

theorem enclosing_head (l : List Seg) (b : Bool) : (enclosing l b).head? ≠ some '@' := by
  unfold enclosing
  split
  · split
    · simp [pathOf]
    · exact objectAbove_head _
  · exact objectAbove_head _

theorem parentPath_enclosing {l : List Seg} (hl : l ≠ []) (hp : ∀ x ∈ l, x.plain) {kind : Kind} {b : Bool} (hb : b = true ↔ kind = .scalar) :
    parentPathOf kind (pathOf l) = enclosing l b := by
  rcases List.eq_nil_or_concat l with rfl | ⟨l', sg, rfl⟩
  · exact absurd rfl hl
  · simp only [List.concat_eq_append] at *
    have hdrop : dropLast (pathOf (l' ++ [sg])) = objectAbove (l' ++ [sg]).reverse := by
      have := dropLast_above (l' ++ [sg]).reverse [] (fun x hx => hp x (List.mem_reverse.1 hx)) (by simp)
      simpa using this
    unfold enclosing
    cases sg with
    | key k =>
      have hk : PlainName k := hp (.key k) (by simp)
      unfold parentPathOf
      rw [if_neg, hdrop]
      · simp
      · rintro ⟨_, h, _⟩
        rw [pathOf_snoc] at h
        simp only [Seg.text] at h
        rw [suffix_star_key _ hk] at h
        simp at h
    | star =>
      cases b with
      | true =>
        rw [hb.1 rfl, parentPathOf_scalar hp]
        simp [upOf]
      | false =>
        have : kind ≠ .scalar := fun e => by have := hb.2 e; simp at this
        unfold parentPathOf
        rw [if_neg (fun h => this h.1), hdrop]
        simp [objectAbove]

/-! ### Instances -/

theorem get_fullFields (ident : Str) (l : List Seg) (b : Bool) (k : Str) : ∀ (m : List (Str × P)),
    GMap.get k (fullFields ident l b m) = (GMap.get k m).map fun v =>
      if k = g!"transform" then atKey ident (fullTransform (enclosing l b)) v
      else if k = g!"properties" then fullProps ident l v
      else if k = g!"items" then fullInst ident (l ++ [.star]) v else v
  | [] => by simp [fullFields, GMap.get]
  | (k', v) :: m => by
    rw [fullFields]
    have e : ∀ (x : Str × P) (r : List (Str × P)), GMap.get k (x :: r) = if k = x.1 then some x.2 else GMap.get k r := fun x r => rfl
    rw [e, e, get_fullFields ident l b k m]
    have h1 : (if k' = g!"transform" then (k', atKey ident (fullTransform (enclosing l b)) v)
     else if k' = g!"properties" then (k', fullProps ident l v)
     else if k' = g!"items" then (k', fullInst ident (l ++ [.star]) v)
     else (k', v)) = (k', if k' = g!"transform" then atKey ident (fullTransform (enclosing l b)) v
      else if k' = g!"properties" then fullProps ident l v
      else if k' = g!"items" then fullInst ident (l ++ [.star]) v else v) := by
      split
      · rfl
      · split
        · rfl
        · split <;> rfl
    rw [h1]
    simp only
    by_cases h : k = k'
    · subst h; simp
    · rw [if_neg h, if_neg h]

theorem fullInst_key (ident : Str) (l : List Seg) (raw : P) {k : Str} (h1 : k ≠ g!"transform") (h2 : k ≠ g!"properties") (h3 : k ≠ g!"items") :
    (fullInst ident l raw).key k = raw.key k := by
  cases raw with
  | sc => simp [fullInst]
  | arr => simp [fullInst]
  | obj m =>
    simp only [fullInst, P.key]
    rw [get_fullFields]
    simp only [if_neg h1, if_neg h2, if_neg h3]
    simp

theorem fullInst_transform (ident : Str) (l : List Seg) (raw : P) :
    (fullInst ident l raw).key g!"transform" = (raw.key g!"transform").map (atKey ident (fullTransform (enclosing l (leafInst raw)))) := by
  cases raw with
  | sc => simp [fullInst, P.key]
  | arr => simp [fullInst, P.key]
  | obj m =>
    simp only [fullInst, P.key]
    rw [get_fullFields]
    simp

theorem fullInst_properties (ident : Str) (l : List Seg) (raw : P) :
    (fullInst ident l raw).key g!"properties" = (raw.key g!"properties").map (fullProps ident l) := by
  cases raw with
  | sc => simp [fullInst, P.key]
  | arr => simp [fullInst, P.key]
  | obj m =>
    simp only [fullInst, P.key]
    rw [get_fullFields]
    simp

theorem fullInst_items (ident : Str) (l : List Seg) (raw : P) :
    (fullInst ident l raw).key g!"items" = (raw.key g!"items").map (fullInst ident (l ++ [.star])) := by
  cases raw with
  | sc => simp [fullInst, P.key]
  | arr => simp [fullInst, P.key]
  | obj m =>
    simp only [fullInst, P.key]
    rw [get_fullFields]
    simp

theorem fieldType_full (ident : Str) (l : List Seg) (raw : P) : fieldType (fullInst ident l raw) = fieldType raw := by
  unfold fieldType
  rw [fullInst_key _ _ _ (by decide) (by decide) (by decide)]

theorem fullEach_eq (ident : Str) (l : List Seg) : ∀ (m : List (Str × P)), fullEach ident l m = m.map fun kv => (kv.1, fullInst ident (l ++ [.key kv.1]) kv.2)
  | [] => by simp [fullEach]
  | (k, v) :: m => by simp [fullEach, fullEach_eq ident l m]

theorem newInstance_full {lib : Lib} {ident : Str} {l : List Seg} (hl : l ≠ []) (hp : ∀ x ∈ l, x.plain) (raw : P) :
    newInstance lib ident (pathOf l) (fullInst ident l raw) = newInstance lib ident (pathOf l) raw := by
  have hx : ∀ kind, (leafInst raw = true ↔ kind = Kind.scalar) →
      extractInstrs lib (fullInst ident l raw) ident (pathOf l) kind = extractInstrs lib raw ident (pathOf l) kind := by
    intro kind hk
    exact extractInstrs_full (parentPath_enclosing hl hp hk) (enclosing_head _ _) (fullInst_transform ident l raw)
  have hd : schemaDefault (fullInst ident l raw) = schemaDefault raw := by
    unfold schemaDefault
    cases raw with
    | sc s => simp [fullInst]
    | arr => simp [fullInst]
    | obj m =>
      have := fullInst_key ident l (.obj m) (k := g!"default") (by decide) (by decide) (by decide)
      simp only [fullInst, asStruct, Res.ok_bind] at this ⊢
      rw [this]
  unfold newInstance
  rw [fieldType_full]
  cases hf : fieldType raw with
  | err => rfl
  | panic => rfl
  | ok x =>
    obtain ⟨ty, nu⟩ := x
    funext s
    rw [M.bind_apply, M.bind_apply]
    simp only [M.lift]
    have hsc : leafInst raw = true → newScalar lib (pathOf l) ident (fullInst ident l raw) ty = newScalar lib (pathOf l) ident raw ty := by
      intro hb
      unfold newScalar scalarType
      rw [fullInst_key _ _ _ (by decide) (by decide) (by decide), hx .scalar (by simp [hb]), hd]
    have hob : leafInst raw = false → newObject lib (pathOf l) ident (fullInst ident l raw) = newObject lib (pathOf l) ident raw := by
      intro hb
      unfold newObject
      rw [hx .object (by simp [hb]), hd]
    have hlf : leafInst raw = if ty = g!"array" then false
      else if ty = g!"object" then
        match raw.key g!"properties" with
        | some (.obj []) => true
        | _ => false
      else true := by unfold leafInst; rw [hf]; rfl
    by_cases ho : ty = g!"object"
    · rw [if_pos ho, if_pos ho]
      rw [if_neg (by rw [ho]; decide), if_pos ho] at hlf
      rw [fullInst_properties]
      cases hpr : raw.key g!"properties" with
      | none => rfl
      | some v =>
        simp only [Option.map_some]
        rw [hpr] at hlf
        cases v with
        | sc v =>
          have e : fullProps ident l (.sc v) = .sc v := by simp [fullProps]
          rw [e]
          exact congrFun (hob hlf) s
        | arr v =>
          have e : fullProps ident l (.arr v) = .arr v := by simp [fullProps]
          rw [e]
          exact congrFun (hob hlf) s
        | obj v =>
          cases v with
          | nil =>
            have e : fullProps ident l (.obj []) = .obj [] := by simp [fullProps, fullEach]
            rw [e]
            exact congrFun (hsc hlf) s
          | cons kv v =>
            have e : ∃ kv' v', fullProps ident l (.obj (kv :: v)) = .obj (kv' :: v') := by
              obtain ⟨k, v0⟩ := kv
              exact ⟨_, _, by simp [fullProps, fullEach]; exact ⟨rfl, rfl⟩⟩
            obtain ⟨kv', v', e⟩ := e
            rw [e]
            exact congrFun (hob hlf) s
    · rw [if_neg ho, if_neg ho]
      by_cases ha : ty = g!"array"
      · rw [if_pos ha] at hlf
        rw [if_pos ha, if_pos ha]
        unfold newArray
        rw [hx .array (by simp [hlf]), hd]
      · rw [if_neg ha, if_neg ho] at hlf
        rw [if_neg ha, if_neg ha]
        exact congrFun (hsc hlf) s

/-- The names of the properties of all instances of a document are plain. -/
theorem foldRes_map_congr {σ β γ : Type} {f : β → σ → Res σ} {g : γ → σ → Res σ} {h : β → γ} :
    ∀ {l : List β}, (∀ x ∈ l, ∀ s, g (h x) s = f x s) → ∀ s, foldRes g (l.map h) s = foldRes f l s
  | [], _, _ => rfl
  | x :: l, hx, s => by
    simp only [List.map_cons, foldRes]
    rw [hx x (by simp) s]
    split
    · exact foldRes_map_congr (fun y hy => hx y (by simp [hy])) _
    · rfl
    · rfl

theorem walkRaw_full {lib : Lib} {ident : Str} : ∀ (n : Nat) {l : List Seg} {raw : P}, l ≠ [] → (∀ x ∈ l, x.plain) →
    (∀ q, Inst raw q → PlainProps q) → ∀ (s : T × St),
    walkRaw (walker lib ident) n (fullInst ident l raw) (pathOf l) s = walkRaw (walker lib ident) n raw (pathOf l) s
  | 0, _, _, _, _, _, _ => rfl
  | n + 1, l, raw, hl, hp, hn, s => by
    simp only [walkRaw]
    have hw : walker lib ident (pathOf l) (fullInst ident l raw) s = walker lib ident (pathOf l) raw s := by
      unfold walker
      rw [newInstance_full hl hp]
    rw [hw, fieldType_full]
    split
    · rfl
    · rfl
    · rename_i s1 _
      split
      · rfl
      · rfl
      · rename_i ty nu hf
        by_cases ho : ty = g!"object"
        · rw [if_pos ho, if_pos ho, fullInst_properties]
          cases hpr : raw.key g!"properties" with
          | none => rfl
          | some v =>
            simp only [Option.map_some]
            cases v with
            | sc v => simp [fullProps]
            | arr v => simp [fullProps]
            | obj m =>
              simp only [fullProps, fullEach_eq]
              refine foldRes_map_congr ?_ s1
              rintro ⟨k, v⟩ hkv s2
              have hkp : PlainName k := ((hn raw (.self _)) m hpr).2 _ hkv
              rw [prependPath_path l hkp.1]
              refine walkRaw_full n (by simp) ?_ (fun q hq => hn q ?_) s2
              · intro x hx
                rcases List.mem_append.1 hx with h | h
                · exact hp x h
                · simp at h; subst h; exact hkp
              · clear hw
                induction hq with
                | self => exact .prop (.self _) hpr hkv
                | prop _ h1 h2 ih => exact .prop ih h1 h2
                | items _ h1 ih => exact .items ih h1
        · rw [if_neg ho, if_neg ho]
          by_cases ha : ty = g!"array"
          · rw [if_pos ha, if_pos ha, fullInst_items]
            cases hit : raw.key g!"items" with
            | none => rfl
            | some v =>
              simp only [Option.map_some]
              rw [starPath_path]
              refine walkRaw_full n (by simp) ?_ (fun q hq => hn q ?_) s1
              · intro x hx
                rcases List.mem_append.1 hx with h | h
                · exact hp x h
                · simp at h; subst h; trivial
              · clear hw
                induction hq with
                | self => exact .items (.self _) hit
                | prop _ h1 h2 ih => exact .prop ih h1 h2
                | items _ h1 ih => exact .items ih h1
          · rw [if_neg ha, if_neg ha]

theorem depth_eachItem {f : P → P} (hf : ∀ p, (f p).depth = p.depth) (p : P) : (eachItem f p).depth = p.depth := by
  cases p with
  | obj => rfl
  | sc => rfl
  | arr l =>
    simp only [eachItem, P.depth]
    congr 1
    induction l with
    | nil => rfl
    | cons x l ih => simp only [List.map_cons, depthList, hf, ih]

theorem depth_fullPath (up : Str) (p : P) : (fullPath up p).depth = p.depth := by
  cases p with
  | obj => rfl
  | arr => rfl
  | sc s => cases s <;> rfl

theorem depth_fullTransform (up : Str) (p : P) : (fullTransform up p).depth = p.depth :=
  depth_atKey (depth_eachItem fun e => by rw [depth_atKey (depth_fullPath up), depth_atKey (depth_fullPath up)]) p

mutual
theorem depth_fullInst (ident : Str) : ∀ (l : List Seg) (p : P), (fullInst ident l p).depth = p.depth
  | l, .obj m => by simp only [fullInst, P.depth, depth_fullFields ident l (leafInst (.obj m)) m]
  | _, .sc _ => by simp [fullInst]
  | _, .arr _ => by simp [fullInst]
theorem depth_fullFields (ident : Str) (l : List Seg) (b : Bool) : ∀ (m : List (Str × P)), depthFields (fullFields ident l b m) = depthFields m
  | [] => by simp [fullFields]
  | (k, v) :: r => by
    rw [fullFields]
    have h1 := depth_fullFields ident l b r
    split
    · simp only [depthFields, h1, depth_atKey (depth_fullTransform _)]
    · split
      · simp only [depthFields, h1, depth_fullProps ident l v]
      · split
        · simp only [depthFields, h1, depth_fullInst ident (l ++ [.star]) v]
        · simp only [depthFields, h1]
theorem depth_fullProps (ident : Str) : ∀ (l : List Seg) (p : P), (fullProps ident l p).depth = p.depth
  | l, .obj m => by simp only [fullProps, P.depth, depth_fullEach ident l m]
  | _, .sc _ => by simp [fullProps]
  | _, .arr _ => by simp [fullProps]
theorem depth_fullEach (ident : Str) (l : List Seg) : ∀ (m : List (Str × P)), depthFields (fullEach ident l m) = depthFields m
  | [] => by simp [fullEach]
  | (k, v) :: r => by simp only [fullEach, depthFields, depth_fullInst ident (l ++ [.key k]) v, depth_fullEach ident l r]
end

/-- **C20** for plain property names (false for others, `C20_refuted`): a Transformer is the same when every path that starts with `@.` or `@[` is written out, with the path of the enclosing object (for a
scalar array item: of the item) in the place of `@`, and all other paths stay as they are.  The properties are walked in the same order both
times. -/
theorem C20_partial {env : Env} {sc : Schema} {ident : Str} (hp : PlainSchema sc)
    (horder : ∀ (m : List (Str × P)) (f : Str × P → Str × P), env.sched.perm 0 _ (m.map f) = (env.sched.perm 0 _ m).map f) :
    newTransformer env (fullSchema ident sc) ident = newTransformer env sc ident := by
  unfold newTransformer
  simp only
  have h1 : (fullSchema ident sc).properties.isSome = sc.properties.isSome := by simp [fullSchema]
  have h2 : (fullSchema ident sc).items.isSome = sc.items.isSome := by simp [fullSchema]
  rw [h1, h2]
  split
  · rfl
  · rename_i r hr
    congr 1
    unfold walkRawSchema
    have h3 : (fullSchema ident sc).properties.getD [] = (sc.properties.getD []).map fun kv => (kv.1, fullInst ident [.key kv.1] kv.2) := by
      simp only [fullSchema]
      cases sc.properties <;> rfl
    rw [h3, horder]
    have h4 : ∀ st, foldRes (fun kv st => walkRaw (walker env.lib ident) (kv.2.depth + 1) kv.2 (prependPath g!"$" kv.1) st)
        ((env.sched.perm 0 _ (sc.properties.getD [])).map fun kv => (kv.1, fullInst ident [.key kv.1] kv.2)) st =
        foldRes (fun kv st => walkRaw (walker env.lib ident) (kv.2.depth + 1) kv.2 (prependPath g!"$" kv.1) st)
        (env.sched.perm 0 _ (sc.properties.getD [])) st := by
      refine foldRes_map_congr ?_
      rintro ⟨k, v⟩ hkv s2
      have hkv' := (env.sched.isPerm 0 _ _).mem_iff.1 hkv
      cases hpr : sc.properties with
      | none => rw [hpr] at hkv'; simp at hkv'
      | some m =>
        rw [hpr] at hkv'
        simp only [Option.getD_some] at hkv'
        have hkp : PlainName k := (hp.1 m hpr).2 _ hkv'
        have hpath : prependPath g!"$" k = pathOf [.key k] := prependPath_path [] hkp.1
        simp only [depth_fullInst]
        rw [hpath]
        refine walkRaw_full _ (by simp) (by intro x hx; simp at hx; subst hx; exact hkp) (fun q hq => hp.2 q (Or.inl ⟨m, k, v, hpr, hkv', hq⟩)) s2
    rw [h4]
    split
    · rfl
    · rfl
    · rename_i st _
      simp only [fullSchema]
      cases hit : sc.items with
      | none => rfl
      | some v =>
        simp only [Option.map_some]
        have hpath : starPath g!"$" = pathOf [.star] := rfl
        rw [hpath, depth_fullInst]
        exact walkRaw_full _ (by simp) (by simp [Seg.plain]) (fun q hq => hp.2 q (Or.inr ⟨v, hit, hq⟩)) st

namespace C20ex
open Toy
/-- A property with a path relative to its object, in an object within an array. -/
def b : P := o [(g!"type", s g!"string"), (g!"transform", o [(g!"t", o [(g!"from", a [o [(g!"jsonPath", s g!"@.x")]])])])]
def sc : Schema := ⟨some [(g!"a", o [(g!"type", s g!"array"), (g!"items", o [(g!"type", s g!"object"), (g!"properties", o [(g!"b", b)])])])], none⟩
def b' : P := o [(g!"type", s g!"string"), (g!"transform", o [(g!"t", o [(g!"from", a [o [(g!"jsonPath", s g!"$.a[*].x")]])])])]
example : fullSchema g!"t" sc =
    ⟨some [(g!"a", o [(g!"type", s g!"array"), (g!"items", o [(g!"type", s g!"object"), (g!"properties", o [(g!"b", b')])])])], none⟩ := rfl
example (m : List (Str × P)) (f : Str × P → Str × P) : Sched.rev.perm 0 _ (m.map f) = (Sched.rev.perm 0 _ m).map f := List.map_reverse.symm
end C20ex

end JT
