import Verif.Proofs.Project
import Verif.Spec.Full
/- The value of a schema is a pruned full document. -/
namespace JT
open Spec

/-- What the node at a position looks like. -/
def NodeIs (lib : Lib) (ident : Str) (inp : P) (raw : P) (c : Ctx) (f : Full) : Prop :=
  (∀ ty, IsScalar raw ty → ∃ v, f = .leaf v ∧ FirstAvailable lib ident inp raw c ty v) ∧
  (∀ nu, fieldType raw = .ok (g!"array", nu) → ∃ l, f = .arr l ∧ l.length = itemsAt lib c.cp inp) ∧
  (∀ nu m, fieldType raw = .ok (g!"object", nu) → raw.key g!"properties" = some (.obj m) → m ≠ [] →
    ∃ m', f = .obj m' ∧ m'.map Prod.fst = m.map Prod.fst)

theorem pruneList_eq (l : List Full) : pruneList l = l.map prune := by
  induction l with
  | nil => rfl
  | cons f fs ih => simp [pruneList, ih]

theorem pruneFields_eq (m : List (Str × Full)) : pruneFields m = m.map fun kv => (kv.1, prune kv.2) := by
  induction m with
  | nil => rfl
  | cons f fs ih => obtain ⟨k, f⟩ := f; simp [pruneFields, ih]

theorem ne_nilP_of {p : P} (h : ¬ isNilP p = true) : p ≠ nilP := by rintro rfl; exact h rfl

theorem firstAvailable_of {lib : Lib} {ident : Str} {inp raw : P} {c : Ctx} {ty : Str} {tr : Res P} {r : P}
    (h : Transformed lib ident inp raw c.up c.sub ty tr)
    (hr : okP (precedence tr (sameP lib ty c.cp inp) (canon ((raw.key g!"default").getD nilP))) = some r) :
    FirstAvailable lib ident inp raw c ty r := by
  unfold precedence at hr
  cases tr with
  | err => simp [Res.bind, okP] at hr
  | panic => simp [Res.bind, okP] at hr
  | ok p =>
    change okP (if isNilP p = true then _ else _) = _ at hr
    by_cases hp : isNilP p = true
    · rw [if_pos hp] at hr
      have := eq_nilP_of hp
      subst this
      cases hs : sameP lib ty c.cp inp with
      | err => rw [hs] at hr; simp [Res.bind, okP] at hr
      | panic => rw [hs] at hr; simp [Res.bind, okP] at hr
      | ok q =>
        rw [hs] at hr
        change okP (if isNilP q = true then _ else _) = _ at hr
        by_cases hq : isNilP q = true
        · rw [if_pos hq] at hr
          simp only [okP, Option.some.injEq] at hr
          subst hr
          exact .default h (by rw [hs, eq_nilP_of hq])
        · rw [if_neg hq] at hr
          simp only [okP, Option.some.injEq] at hr
          subst hr
          exact .same h hs (ne_nilP_of hq)
    · rw [if_neg hp] at hr
      simp only [okP, Option.some.injEq] at hr
      subst hr
      exact .transform h (ne_nilP_of hp)

theorem optAll_some_mem {α β : Type} {f : α → Option β} : ∀ {l : List α} {r : List β}, optAll f l = some r → ∀ x ∈ l, ∃ y, f x = some y
  | [], _, _, x, hx => by simp at hx
  | a :: l, r, h, x, hx => by
    simp only [optAll] at h
    cases hf : f a with
    | none => rw [hf] at h; simp at h
    | some y =>
      rw [hf] at h
      cases ho : optAll f l with
      | none => rw [ho] at h; simp at h
      | some ys =>
        rcases List.mem_cons.1 hx with rfl | hx
        · exact ⟨y, hf⟩
        · exact optAll_some_mem ho x hx

theorem optAll_of_all {α β : Type} {f : α → Option β} {g : α → β} : ∀ {l : List α}, (∀ x ∈ l, f x = some (g x)) → optAll f l = some (l.map g)
  | [], _ => rfl
  | a :: l, h => by
    simp only [optAll, h a (List.mem_cons_self ..), optAll_of_all fun x hx => h x (List.mem_cons_of_mem _ hx), List.map_cons]

theorem GMap.get_map_nodup {α β : Type} {g : Str → β} : ∀ {m : List (Str × α)} {k : Str} {q : α}, (m.map Prod.fst).Nodup → (k, q) ∈ m →
    GMap.get k (m.map fun kv => (kv.1, g kv.1)) = some (g k)
  | [], _, _, _, h => by simp at h
  | (k', q') :: m, k, q, hn, h => by
    simp only [List.map_cons, GMap.get]
    by_cases he : k = k'
    · subst he; simp
    · rw [if_neg he]
      rcases List.mem_cons.1 h with h | h
      · simp at h; exact absurd h.1 he
      · simp only [List.map_cons, List.nodup_cons] at hn
        exact get_map_nodup hn.2 h

theorem distinctList_iff {l : List Full} : Full.DistinctList l ↔ ∀ f ∈ l, f.Distinct := by
  induction l with
  | nil => simp [Full.DistinctList]
  | cons f fs ih => simp [Full.DistinctList, ih]

theorem distinctFields_iff {l : List (Str × Full)} : Full.DistinctFields l ↔ ∀ f ∈ l, f.2.Distinct := by
  induction l with
  | nil => simp [Full.DistinctFields]
  | cons f fs ih => obtain ⟨k, f⟩ := f; simp [Full.DistinctFields, ih]

theorem distinct_arr {n : Nat} {g : Nat → Full} (h : ∀ i, i < n → (g i).Distinct) : (Full.arr ((List.range n).map g)).Distinct := by
  simp only [Full.Distinct, distinctList_iff, List.mem_map, List.mem_range]
  rintro f ⟨i, hi, rfl⟩
  exact h i hi

theorem distinct_obj {α : Type} {m : List (Str × α)} {g : Str → Full} (hn : (m.map Prod.fst).Nodup) (h : ∀ k q, (k, q) ∈ m → (g k).Distinct) :
    (Full.obj (m.map fun kv => (kv.1, g kv.1))).Distinct := by
  simp only [Full.Distinct, distinctFields_iff, List.mem_map, List.map_map]
  refine ⟨hn, ?_⟩
  rintro f ⟨⟨k, q⟩, hkq, rfl⟩
  exact h k q hkq

/-- Structure of the value of an instance. -/
theorem Val.full {lib : Lib} {ident : Str} {inp raw : P} {up sp cp : Str} {sub : Mod} {o : Option P}
    (h : Val lib ident inp raw up sp cp sub o) : ∀ {r : P}, o = some r → (∀ q, Inst raw q → PlainProps q) →
      ∃ f, prune f = r ∧ f.Distinct ∧ ∀ l raw' c', Pos lib inp raw ⟨up, sp, cp, sub⟩ l raw' c' → ∃ g, f.at l = some g ∧ NodeIs lib ident inp raw' c' g := by
  induction h with
  | @scalar raw up sp cp sub ty0 ty nu tr h1 h2 h3 h4 h5 =>
    intro r ho hpl
    refine ⟨.leaf r, rfl, trivial, ?_⟩
    intro l raw' c' hp
    cases hp with
    | here =>
      refine ⟨_, rfl, ?_, ?_, ?_⟩
      · rintro ty' ⟨ty0', nu', g1, g2, g3, g4⟩
        rw [h1] at g1
        simp at g1
        obtain ⟨rfl, rfl⟩ := g1
        rw [h4] at g4
        simp at g4
        subst g4
        exact ⟨r, rfl, firstAvailable_of (c := ⟨up, sp, cp, sub⟩) h5 ho⟩
      · intro nu' g1
        rw [h1] at g1
        simp at g1
        exact absurd g1.1 h2
      · intro nu' m g1 g2 g3
        rw [h1] at g1
        simp only [Res.ok.injEq, Prod.mk.injEq] at g1
        rw [h3 g1.1] at g2
        simp only [Option.some.injEq, P.obj.injEq] at g2
        exact absurd g2.symm g3
    | prop g1 g2 g3 =>
      rw [h1] at g1
      simp only [Res.ok.injEq, Prod.mk.injEq] at g1
      rw [h3 g1.1] at g2
      simp only [Option.some.injEq, P.obj.injEq] at g2
      subst g2
      simp at g3
    | item g1 =>
      rw [h1] at g1
      simp only [Res.ok.injEq, Prod.mk.injEq] at g1
      exact absurd g1.1 h2
  | @array raw up sp cp sub nu items f h1 h2 h3 ih =>
    intro r ho hpl
    cases hoa : optAll f (List.range (itemsAt lib cp inp)) with
    | none => rw [hoa] at ho; simp at ho
    | some rs =>
      rw [hoa] at ho
      simp only [Option.map_some, Option.some.injEq] at ho
      have hi : ∀ i, ∃ g : Full, i < itemsAt lib cp inp → (f i = some (prune g) ∧ g.Distinct ∧ ∀ l raw' c', Pos lib inp items
          (Ctx.item ⟨up, sp, cp, sub⟩ i) l raw' c' → ∃ g', g.at l = some g' ∧ NodeIs lib ident inp raw' c' g') := by
        intro i
        by_cases hlt : i < itemsAt lib cp inp
        · obtain ⟨y, hy⟩ := optAll_some_mem hoa i (List.mem_range.2 hlt)
          obtain ⟨g, hg1, hg2⟩ := ih i hy (fun q hq => hpl q (Inst.trans (.items (.self _) h2) hq))
          exact ⟨g, fun _ => ⟨by rw [hy, hg1], hg2⟩⟩
        · exact ⟨.leaf nilP, fun h => absurd h hlt⟩
      obtain ⟨g, hg⟩ := Classical.axiomOfChoice hi
      refine ⟨.arr ((List.range (itemsAt lib cp inp)).map g), ?_, distinct_arr fun i hi => (hg i hi).2.1, ?_⟩
      · simp only [prune, pruneList_eq, List.map_map]
        rw [optAll_of_all (g := fun i => prune (g i)) fun i hi => (hg i (List.mem_range.1 hi)).1] at hoa
        simp only [Option.some.injEq] at hoa
        rw [← ho, ← hoa]
        rfl
      · intro l raw' c' hp
        cases hp with
        | here =>
          refine ⟨_, rfl, ?_, ?_, ?_⟩
          · rintro ty' ⟨ty0', nu', g1, g2, g3, g4⟩
            rw [h1] at g1
            simp at g1
            exact absurd g1.1.symm g2
          · intro nu' g1
            exact ⟨_, rfl, by simp⟩
          · intro nu' m g1 g2 g3
            rw [h1] at g1
            simp at g1
        | prop g1 => rw [h1] at g1; simp at g1
        | @item _ _ _ _ l _ items' i g1 g2 g3 g4 =>
          rw [h2] at g2
          simp only [Option.some.injEq] at g2
          subst g2
          obtain ⟨g', e1, e2⟩ := (hg i g3).2.2 l raw' c' g4
          exact ⟨g', by simp only [Full.at, List.getElem?_map]; rw [List.getElem?_range g3]; simpa using e1, e2⟩
  | @object raw up sp cp sub nu m f h1 h2 h3 h4 ih =>
    intro r ho hpl
    have hnd := (hpl raw (.self _) m h2).1
    cases hoa : optAll (fun k => (f k).map fun p => (k, p)) (m.map Prod.fst) with
    | none => rw [hoa] at ho; simp at ho
    | some rs =>
      rw [hoa] at ho
      simp only [Option.map_some, Option.some.injEq] at ho
      have hi : ∀ k, ∃ g : Full, ∀ q, (k, q) ∈ m → (f k = some (prune g) ∧ g.Distinct ∧ ∀ l raw' c', Pos lib inp q
          (Ctx.prop ⟨up, sp, cp, sub⟩ k) l raw' c' → ∃ g', g.at l = some g' ∧ NodeIs lib ident inp raw' c' g') := by
        intro k
        by_cases hex : ∃ q, (k, q) ∈ m
        · obtain ⟨q, hq⟩ := hex
          obtain ⟨y, hy⟩ := optAll_some_mem hoa k (List.mem_map.2 ⟨(k, q), hq, rfl⟩)
          cases hfk : f k with
          | none => rw [hfk] at hy; simp at hy
          | some v =>
            obtain ⟨g, hg1, hg2⟩ := ih k q hq hfk (fun q' hq' => hpl q' (Inst.trans (.prop (.self _) h2 hq) hq'))
            refine ⟨g, fun q' hq' => ?_⟩
            have := nodup_fst_eq hnd hq hq'
            subst this
            exact ⟨by rw [hg1], hg2⟩
        · exact ⟨.leaf nilP, fun q hq => absurd ⟨q, hq⟩ hex⟩
      obtain ⟨g, hg⟩ := Classical.axiomOfChoice hi
      have hmem : ∀ k ∈ m.map Prod.fst, ∃ q, (k, q) ∈ m := by
        intro k hk
        obtain ⟨⟨k', q⟩, hkq, rfl⟩ := List.mem_map.1 hk
        exact ⟨q, hkq⟩
      refine ⟨.obj (m.map fun kv => (kv.1, g kv.1)), ?_, distinct_obj hnd fun k q hq => (hg k q hq).2.1, ?_⟩
      · simp only [prune, pruneFields_eq, List.map_map]
        rw [optAll_of_all (g := fun k => (k, prune (g k))) fun k hk => by
          obtain ⟨q, hq⟩ := hmem k hk
          rw [(hg k q hq).1]; rfl] at hoa
        simp only [Option.some.injEq] at hoa
        rw [← ho, ← hoa, List.map_map]
        rfl
      · intro l raw' c' hp
        cases hp with
        | here =>
          refine ⟨_, rfl, ?_, ?_, ?_⟩
          · rintro ty' ⟨ty0', nu', g1, g2, g3, g4⟩
            rw [h1] at g1
            simp only [Res.ok.injEq, Prod.mk.injEq] at g1
            rw [g3 g1.1.symm] at h2
            simp only [Option.some.injEq, P.obj.injEq] at h2
            exact absurd h2.symm h3
          · intro nu' g1
            rw [h1] at g1
            simp at g1
          · intro nu' m' g1 g2 g3
            rw [h2] at g2
            simp only [Option.some.injEq, P.obj.injEq] at g2
            subst g2
            exact ⟨_, rfl, by simp⟩
        | @prop _ _ _ _ l _ m' k q g1 g2 g3 g4 =>
          rw [h2] at g2
          simp only [Option.some.injEq, P.obj.injEq] at g2
          subst g2
          obtain ⟨g', e1, e2⟩ := (hg k q g3).2.2 l raw' c' g4
          exact ⟨g', by simp only [Full.at]; rw [GMap.get_map_nodup (g := g) hnd g3]; simpa using e1, e2⟩
        | item g1 => rw [h1] at g1; simp at g1

theorem SchemaVal.full {lib : Lib} {ident : Str} {inp : P} {sc : Schema} {r : P}
    (h : SchemaVal lib ident inp sc (some r)) (hpl : PlainSchema sc) :
      ∃ f, prune f = r ∧ f.Distinct ∧ ∀ l raw c, SchemaPos lib inp sc l raw c → ∃ g, f.at l = some g ∧ NodeIs lib ident inp raw c g := by
  generalize ho : some r = o at h
  cases h with
  | @object m f h1 h2 =>
    have hnd := (hpl.1 m h1).1
    cases hoa : optAll (fun k => (f k).map fun p => (k, p)) (m.map Prod.fst) with
    | none => rw [hoa] at ho; simp at ho
    | some rs =>
      rw [hoa] at ho
      simp only [Option.map_some, Option.some.injEq] at ho
      have hi : ∀ k, ∃ g : Full, ∀ q, (k, q) ∈ m → (f k = some (prune g) ∧ g.Distinct ∧ ∀ l raw' c', Pos lib inp q
          ⟨g!"$", g!"$." ++ k, g!"$." ++ k, id⟩ l raw' c' → ∃ g', g.at l = some g' ∧ NodeIs lib ident inp raw' c' g') := by
        intro k
        by_cases hex : ∃ q, (k, q) ∈ m
        · obtain ⟨q, hq⟩ := hex
          obtain ⟨y, hy⟩ := optAll_some_mem hoa k (List.mem_map.2 ⟨(k, q), hq, rfl⟩)
          cases hfk : f k with
          | none => rw [hfk] at hy; simp at hy
          | some v =>
            obtain ⟨g, hg1, hg2⟩ := Val.full (h2 k q hq) hfk (fun q' hq' => hpl.2 q' (Or.inl ⟨m, k, q, h1, hq, hq'⟩))
            refine ⟨g, fun q' hq' => ?_⟩
            have := nodup_fst_eq hnd hq hq'
            subst this
            exact ⟨by rw [hg1], hg2⟩
        · exact ⟨.leaf nilP, fun q hq => absurd ⟨q, hq⟩ hex⟩
      obtain ⟨g, hg⟩ := Classical.axiomOfChoice hi
      have hmem : ∀ k ∈ m.map Prod.fst, ∃ q, (k, q) ∈ m := by
        intro k hk
        obtain ⟨⟨k', q⟩, hkq, rfl⟩ := List.mem_map.1 hk
        exact ⟨q, hkq⟩
      refine ⟨.obj (m.map fun kv => (kv.1, g kv.1)), ?_, distinct_obj hnd fun k q hq => (hg k q hq).2.1, ?_⟩
      · simp only [prune, pruneFields_eq, List.map_map]
        rw [optAll_of_all (g := fun k => (k, prune (g k))) fun k hk => by
          obtain ⟨q, hq⟩ := hmem k hk
          rw [(hg k q hq).1]; rfl] at hoa
        simp only [Option.some.injEq] at hoa
        rw [ho, ← hoa, List.map_map]
        rfl
      · intro l raw' c' hp
        cases hp with
        | @prop m' k q _ l _ g2 g3 g4 =>
          rw [h1] at g2
          simp only [Option.some.injEq] at g2
          subst g2
          obtain ⟨g', e1, e2⟩ := (hg k q g3).2.2 l raw' c' g4
          exact ⟨g', by simp only [Full.at]; rw [GMap.get_map_nodup (g := g) hnd g3]; simpa using e1, e2⟩
        | item g1 => rw [h1] at g1; simp at g1
  | @array items f h1 h2 h3 =>
    cases hoa : optAll f (List.range (itemsAt lib g!"$" inp)) with
    | none => rw [hoa] at ho; simp at ho
    | some rs =>
      rw [hoa] at ho
      simp only [Option.map_some, Option.some.injEq] at ho
      have hi : ∀ i, ∃ g : Full, i < itemsAt lib g!"$" inp → (f i = some (prune g) ∧ g.Distinct ∧ ∀ l raw' c', Pos lib inp items
          ⟨g!"$[*]", g!"$[*]", g!"$[" ++ itoaNat i ++ g!"]", fun p => replace1 p g!"$[*]" (g!"$[" ++ itoaNat i ++ g!"]")⟩ l raw' c' →
          ∃ g', g.at l = some g' ∧ NodeIs lib ident inp raw' c' g') := by
        intro i
        by_cases hlt : i < itemsAt lib g!"$" inp
        · obtain ⟨y, hy⟩ := optAll_some_mem hoa i (List.mem_range.2 hlt)
          obtain ⟨g, hg1, hg2⟩ := Val.full (h3 i) hy (fun q hq => hpl.2 q (Or.inr ⟨items, h2, hq⟩))
          exact ⟨g, fun _ => ⟨by rw [hy, hg1], hg2⟩⟩
        · exact ⟨.leaf nilP, fun h => absurd h hlt⟩
      obtain ⟨g, hg⟩ := Classical.axiomOfChoice hi
      refine ⟨.arr ((List.range (itemsAt lib g!"$" inp)).map g), ?_, distinct_arr fun i hi => (hg i hi).2.1, ?_⟩
      · simp only [prune, pruneList_eq, List.map_map]
        rw [optAll_of_all (g := fun i => prune (g i)) fun i hi => (hg i (List.mem_range.1 hi)).1] at hoa
        simp only [Option.some.injEq] at hoa
        rw [ho, ← hoa]
        rfl
      · intro l raw' c' hp
        cases hp with
        | prop g1 => rw [h1] at g1; simp at g1
        | @item items' _ i l _ g1 g2 g3 g4 =>
          rw [h2] at g2
          simp only [Option.some.injEq] at g2
          subst g2
          obtain ⟨g', e1, e2⟩ := (hg i g3).2.2 l raw' c' g4
          exact ⟨g', by simp only [Full.at, List.getElem?_map]; rw [List.getElem?_range g3]; simpa using e1, e2⟩

theorem get_map_snd {α β : Type} {g : α → β} (k : Str) : ∀ (m : List (Str × α)), GMap.get k (m.map fun kv => (kv.1, g kv.2)) = (GMap.get k m).map g
  | [] => rfl
  | (k', v) :: r => by
    simp only [List.map_cons, GMap.get]
    by_cases h : k = k'
    · simp [h]
    · simp [h, get_map_snd k r]

theorem nodup_filter_fst {α : Type} {f : Str × α → Bool} : ∀ {l : List (Str × α)}, (l.map Prod.fst).Nodup → ((l.filter f).map Prod.fst).Nodup
  | [], _ => by simp
  | kv :: r, h => by
    simp only [List.map_cons, List.nodup_cons] at h
    by_cases hk : f kv = true
    · rw [List.filter_cons_of_pos hk, List.map_cons, List.nodup_cons]
      refine ⟨?_, nodup_filter_fst h.2⟩
      intro hm
      obtain ⟨x, hx, he⟩ := List.mem_map.1 hm
      exact h.1 (List.mem_map.2 ⟨x, (List.mem_filter.1 hx).1, he⟩)
    · rw [List.filter_cons_of_neg hk]
      exact nodup_filter_fst h.2

/-- The fields of a pruned object. -/
theorem prune_obj {m : List (Str × Full)} (h : (m.map Prod.fst).Nodup) :
    (prune (.obj m) = nilP ∧ ∀ k f, GMap.get k m = some f → prune f = nilP) ∨
    ∃ m', prune (.obj m) = .obj m' ∧ m' ≠ [] ∧ GMap.Sorted m' ∧ (∀ kv ∈ m', kv.2 ≠ nilP) ∧
      ∀ k, GMap.get k m' = (GMap.get k m).bind fun f => if isNilP (prune f) = true then none else some (prune f) := by
  have hnd : ((m.map fun kv => (kv.1, prune kv.2)).map Prod.fst).Nodup := by rw [List.map_map]; exact h
  have hget : ∀ k, GMap.get k (GMap.ofList ((m.map fun kv => (kv.1, prune kv.2)).filter fun kv => !isNilP kv.2)) =
      (GMap.get k m).bind fun f => if isNilP (prune f) = true then none else some (prune f) := by
    intro k
    rw [get_ofList_nodup _ _ (nodup_filter_fst hnd), get_filter (f := fun v => !isNilP v) _ _ hnd, get_map_snd]
    cases GMap.get k m with
    | none => rfl
    | some f => cases hn : isNilP (prune f) <;> simp [hn]
  by_cases he : ((m.map fun kv => (kv.1, prune kv.2)).filter fun kv => !isNilP kv.2) = []
  · left
    refine ⟨?_, fun k f hf => ?_⟩
    · simp only [prune, pruneFields_eq, objectOf]
      rw [he]; rfl
    · have := hget k
      rw [he, hf] at this
      by_cases hn : isNilP (prune f) = true
      · exact eq_nilP_of hn
      · simp [hn, GMap.ofList, GMap.get] at this
  · right
    refine ⟨GMap.ofList ((m.map fun kv => (kv.1, prune kv.2)).filter fun kv => !isNilP kv.2), ?_, ?_, GMap.sorted_ofList _, ?_, hget⟩
    · simp only [prune, pruneFields_eq, objectOf]
      rw [if_neg]
      simpa using he
    · intro hnil
      cases hl : ((m.map fun kv => (kv.1, prune kv.2)).filter fun kv => !isNilP kv.2) with
      | nil => exact he hl
      | cons x r =>
        have hg := get_ofList_nodup x.1 _ (nodup_filter_fst (f := fun kv => !isNilP kv.2) hnd)
        rw [hnil, hl] at hg
        simp [GMap.get] at hg
    · rintro ⟨k, v⟩ hkv
      have h1 := GMap.get_of_mem (GMap.sorted_ofList _) hkv
      rw [hget] at h1
      cases hg : GMap.get k m with
      | none => rw [hg] at h1; simp at h1
      | some f =>
        rw [hg] at h1
        simp only [Option.bind_some] at h1
        by_cases hn : isNilP (prune f) = true
        · rw [if_pos hn] at h1; simp at h1
        · rw [if_neg hn] at h1
          simp only [Option.some.injEq] at h1
          rw [← h1]
          exact ne_nilP_of hn

/-- The entries of a pruned array. -/
theorem prune_arr (l : List Full) :
    (prune (.arr l) = nilP ∧ ∀ f ∈ l, prune f = nilP) ∨
    ∃ l', prune (.arr l) = .arr l' ∧ l' ≠ [] ∧ l' = (l.map prune).filter fun p => !isNilP p := by
  by_cases he : ((l.map prune).filter fun p => !isNilP p) = []
  · left
    refine ⟨by simp only [prune, pruneList_eq, arrayOf]; rw [he]; rfl, fun f hf => ?_⟩
    by_cases hn : isNilP (prune f) = true
    · exact eq_nilP_of hn
    · have : prune f ∈ ((l.map prune).filter fun p => !isNilP p) := List.mem_filter.2 ⟨List.mem_map.2 ⟨f, hf, rfl⟩, by simpa using hn⟩
      rw [he] at this
      simp at this
  · right
    refine ⟨_, ?_, he, rfl⟩
    simp only [prune, pruneList_eq, arrayOf]
    rw [if_neg]
    simpa using he

end JT
