import Verif.Props.C65
import Verif.Props.C40
/- Cleaned paths: joining names to them, and taking them apart again. -/
namespace JT.Gen

/-- The elements kept of a path, the last one first: names, and `..` only at the start of a path that is not rooted. -/
inductive Cleaned (b : Bool) : List Str → Prop where
  | nil : Cleaned b []
  | name {x : Str} {out : List Str} : Elem x → Cleaned b out → Cleaned b (x :: out)
  | up {out : List Str} : b = false → (∀ y ∈ out, y = g!"..") → Cleaned b (g!".." :: out)

theorem ups_cleaned : ∀ {out : List Str}, (∀ y ∈ out, y = g!"..") → Cleaned false out
  | [], _ => .nil
  | y :: out, h => by
    obtain rfl := h y List.mem_cons_self
    exact .up rfl fun z hz => h z (List.mem_cons_of_mem _ hz)

theorem Cleaned.tail {b : Bool} {x : Str} {out : List Str} (h : Cleaned b (x :: out)) : Cleaned b out := by
  cases h with
  | name _ h => exact h
  | up hb h => subst hb; exact ups_cleaned h

theorem Cleaned.ups {b : Bool} {out : List Str} (h : Cleaned b (g!".." :: out)) : ∀ y ∈ out, y = g!".." := by
  cases h with
  | name h => exact absurd rfl h.2.2.2
  | up _ h => exact h

theorem Cleaned.noSlash {b : Bool} {out : List Str} (h : Cleaned b out) : ∀ x ∈ out, '/' ∉ x ∧ x ≠ [] ∧ x ≠ g!"." := by
  induction h with
  | nil => intro x hx; cases hx
  | name he _ ih =>
    intro x hx
    rcases List.mem_cons.1 hx with rfl | hx
    · exact ⟨he.1, he.2.1, he.2.2.1⟩
    · exact ih x hx
  | up _ hu =>
    intro x hx
    rcases List.mem_cons.1 hx with rfl | hx
    · decide
    · rw [hu x hx]; decide

theorem cleanStep_cleaned {b : Bool} {out : List Str} {c : Str} (h : Cleaned b out) (hc : '/' ∉ c) : Cleaned b (cleanStep b out c) := by
  unfold cleanStep
  split
  · exact h
  · rename_i h1
    split
    · split
      · split
        · exact .nil
        · rename_i hb; exact .up (by simpa using hb) fun y hy => (nomatch hy)
      · rename_i o t
        split
        · rename_i ho
          subst ho
          cases b with
          | true => cases h with
            | name h => exact absurd rfl h.2.2.2
            | up hb => cases hb
          | false =>
            refine .up rfl fun y hy => ?_
            rcases List.mem_cons.1 hy with rfl | hy
            · rfl
            · exact h.ups y hy
        · exact h.tail
    · rename_i h2
      exact .name ⟨hc, fun e => h1 (.inl e), fun e => h1 (.inr e), h2⟩ h

theorem fold_cleaned {b : Bool} : ∀ {l out : List Str}, Cleaned b out → (∀ x ∈ l, '/' ∉ x) → Cleaned b (l.foldl (cleanStep b) out)
  | [], _, h, _ => h
  | x :: l, out, h, hl => by
    rw [List.foldl_cons]
    exact fold_cleaned (cleanStep_cleaned h (hl x List.mem_cons_self)) fun y hy => hl y (List.mem_cons_of_mem _ hy)

/-- Cleaning what is clean changes nothing. -/
theorem refold {b : Bool} : ∀ {out : List Str}, Cleaned b out → out.reverse.foldl (cleanStep b) [] = out
  | [], _ => rfl
  | x :: out, h => by
    rw [List.reverse_cons, List.foldl_append, refold h.tail]
    simp only [List.foldl_cons, List.foldl_nil]
    cases h with
    | name he _ => exact cleanStep_elem he
    | up hb hu =>
      subst hb
      unfold cleanStep
      rw [if_neg (by decide), if_pos rfl]
      cases out with
      | nil => rfl
      | cons o t => simp only [hu o List.mem_cons_self, if_true]

/-- The text of a path. -/
def render (b : Bool) (l : List Str) : Str := if b then '/' :: join g!"/" l else join g!"/" l

theorem join_head_ne {l : List Str} {x : Str} (h : (∀ y ∈ x :: l, '/' ∉ y ∧ y ≠ [] ∧ y ≠ g!".")) : (join g!"/" (x :: l)).head? ≠ some '/' ∧ join g!"/" (x :: l) ≠ [] := by
  obtain ⟨h1, h2, _⟩ := h x List.mem_cons_self
  obtain ⟨c, t, rfl⟩ := List.exists_cons_of_ne_nil h2
  have hc : c ≠ '/' := fun e => h1 (by simp [e])
  cases l with
  | nil => simp [join, hc]
  | cons y l => simp [join, hc]

theorem join_snoc_eq (x : Str) : ∀ l : List Str, l ≠ [] → join g!"/" (l ++ [x]) = join g!"/" l ++ '/' :: x
  | [], h => absurd rfl h
  | [a], _ => by simp [join]
  | a :: b :: l, _ => by
    have := join_snoc_eq x (b :: l) (by simp)
    simp only [List.cons_append, join] at this ⊢
    rw [this]
    simp

theorem isAbs_render {b : Bool} {l : List Str} (hne : l ≠ []) (h : ∀ y ∈ l, '/' ∉ y ∧ y ≠ [] ∧ y ≠ g!".") : isAbs (render b l) = b := by
  cases b with
  | true => rfl
  | false =>
    obtain ⟨x, l, rfl⟩ := List.exists_cons_of_ne_nil hne
    have := (join_head_ne h).1
    simp [render, isAbs, this]

theorem split_render {b : Bool} {l : List Str} (hne : l ≠ []) (h : ∀ y ∈ l, '/' ∉ y) : splitC '/' (render b l) = (if b then [[]] else []) ++ l := by
  have hj := splitC_join '/' l hne h
  cases b with
  | false => simpa [render] using hj
  | true =>
    have := JT.splitC_append '/' [] (join ['/'] l) (by simp)
    simp only [List.nil_append, hj] at this
    simpa [render] using this

theorem fold_lead {b : Bool} {l : List Str} : ((if b then [[]] else []) ++ l).foldl (cleanStep b) [] = l.foldl (cleanStep b) [] := by
  cases b with
  | false => rfl
  | true => rfl

theorem render_ne {b : Bool} {l : List Str} (hne : l ≠ []) (h : ∀ y ∈ l, '/' ∉ y ∧ y ≠ [] ∧ y ≠ g!".") : render b l ≠ [] := by
  obtain ⟨x, l, rfl⟩ := List.exists_cons_of_ne_nil hne
  have := (join_head_ne h).2
  cases b <;> simp [render, this]

theorem clean_of_fold {p : Str} {b : Bool} {out : List Str} (ha : isAbs p = b) (hf : (splitC '/' p).foldl (cleanStep b) [] = out) (hne : out ≠ []) : clean p = render b out.reverse := by
  unfold clean
  simp only [ha, hf]
  cases b with
  | true => rfl
  | false => simp [render, hne]

/-- A name joined to any directory. -/
theorem joinPath_render (d : Str) : ∃ b out, Cleaned b out ∧ ∀ x, Elem x → joinPath d x = render b (out.reverse ++ [x]) := by
  by_cases hd : d = []
  · subst hd
    refine ⟨false, [], .nil, fun x h => ?_⟩
    unfold joinPath
    rw [if_neg (by simp), if_pos h.2.1]
    have := clean_of_fold (p := x) (b := false) (out := [x]) ?_ ?_ (by simp)
    · simpa using this
    · obtain ⟨c, t, rfl⟩ := List.exists_cons_of_ne_nil h.2.1
      unfold isAbs
      simp only [List.head?_cons, Option.some.injEq, decide_eq_false_iff_not]
      rintro rfl
      exact h.1 (by simp)
    · rw [splitC_no _ _ h.1]
      exact cleanStep_elem h
  · refine ⟨isAbs d, _, fold_cleaned .nil (fun x hx => JT.Ref.splitC_noSep '/' d x hx), fun x h => ?_⟩
    unfold joinPath
    rw [if_pos hd]
    have := clean_of_fold (p := d ++ '/' :: x) (b := isAbs d) (out := x :: (splitC '/' d).foldl (cleanStep (isAbs d)) []) ?_ ?_ (by simp)
    · simpa using this
    · obtain ⟨c, t, rfl⟩ := List.exists_cons_of_ne_nil hd
      rfl
    · rw [splitC_general, List.foldl_append, splitC_no _ _ h.1]
      exact cleanStep_elem h

/-- A name joined to a path. -/
theorem joinPath_again {b : Bool} {out : List Str} {e x : Str} (h : Cleaned b out) (he : Elem e) (hx : Elem x) :
    joinPath (render b (out.reverse ++ [e])) x = render b (out.reverse ++ [e, x]) := by
  have hc : Cleaned b (e :: out) := .name he h
  have hl : ∀ y ∈ out.reverse ++ [e], '/' ∉ y ∧ y ≠ [] ∧ y ≠ g!"." := fun y hy => hc.noSlash y (by simpa [or_comm] using hy)
  unfold joinPath
  rw [if_pos (render_ne (by simp) hl)]
  have := clean_of_fold (p := render b (out.reverse ++ [e]) ++ '/' :: x) (b := b) (out := x :: e :: out) ?_ ?_ (by simp)
  · simpa using this
  · have h1 := isAbs_render (b := b) (by simp) hl
    obtain ⟨c, t, ht⟩ := List.exists_cons_of_ne_nil (render_ne (b := b) (by simp) hl)
    rw [ht] at h1 ⊢
    exact h1
  · rw [splitC_general, split_render (by simp) fun y hy => (hl y hy).1, splitC_no _ _ hx.1, List.foldl_append, fold_lead]
    have := refold hc
    rw [List.reverse_cons] at this
    rw [this]
    exact cleanStep_elem (b := b) hx

/-- The directory of a path, with another name joined to it. -/
theorem joinPath_dir {b : Bool} {out : List Str} {e x : Str} (h : Cleaned b out) (he : Elem e) (hx : Elem x) :
    joinPath (pathDir (render b (out.reverse ++ [e]))) x = render b (out.reverse ++ [x]) := by
  have hc : Cleaned b (e :: out) := .name he h
  have hl : ∀ y ∈ out.reverse ++ [e], '/' ∉ y ∧ y ≠ [] ∧ y ≠ g!"." := fun y hy => hc.noSlash y (by simpa [or_comm] using hy)
  have hdot : joinPath g!"." x = x := by
    unfold joinPath
    rw [if_pos (by decide)]
    have := clean_of_fold (p := g!"." ++ '/' :: x) (b := false) (out := [x]) rfl ?_ (by simp)
    · simpa [render, join] using this
    · rw [splitC_general, splitC_no _ _ hx.1]
      exact cleanStep_elem hx
  have hr : ∀ d, isAbs d = b → d ≠ [] → (splitC '/' d).foldl (cleanStep b) [] = out → joinPath d x = render b (out.reverse ++ [x]) := by
    intro d ha hd hf
    unfold joinPath
    rw [if_pos hd]
    have := clean_of_fold (p := d ++ '/' :: x) (b := b) (out := x :: out) ?_ ?_ (by simp)
    · simpa using this
    · obtain ⟨c, t, rfl⟩ := List.exists_cons_of_ne_nil hd
      exact ha
    · rw [splitC_general, List.foldl_append, hf, splitC_no _ _ hx.1]
      exact cleanStep_elem hx
  unfold pathDir
  cases out with
  | nil =>
    cases b with
    | false =>
      have hn : '/' ∉ render false ([].reverse ++ [e]) := by simpa [render, join] using he.1
      rw [if_neg hn, hdot]
      simp [render, join]
    | true =>
      have hp : '/' ∈ render true ([].reverse ++ [e]) := by simp [render]
      rw [if_pos hp, split_render (by simp) fun y hy => (hl y hy).1]
      have : join g!"/" (((if true = true then [[]] else []) ++ ([].reverse ++ [e])).dropLast) ++ g!"/" = g!"/" := rfl
      rw [this]
      exact hr _ rfl (by decide) (by decide)
  | cons o t =>
    have hlo : ∀ y ∈ (o :: t).reverse, '/' ∉ y ∧ y ≠ [] ∧ y ≠ g!"." := fun y hy => h.noSlash y (by simpa [or_comm] using hy)
    have hp : '/' ∈ render b ((o :: t).reverse ++ [e]) := by
      have := join_snoc_eq e (o :: t).reverse (by simp)
      unfold render
      rw [this]
      split <;> simp
    rw [if_pos hp, split_render (by simp) fun y hy => (hl y hy).1]
    have hd : ((if b = true then [[]] else []) ++ ((o :: t).reverse ++ [e])).dropLast = (if b = true then [[]] else []) ++ (o :: t).reverse := by
      rw [← List.append_assoc, List.dropLast_concat]
    have hj : join g!"/" ((if b = true then [[]] else []) ++ (o :: t).reverse) = render b (o :: t).reverse := by
      cases b with
      | false => rfl
      | true =>
        obtain ⟨y, l, hy⟩ := List.exists_cons_of_ne_nil (show (o :: t).reverse ≠ [] by simp)
        rw [hy]
        simp [render, join]
    rw [hd, hj]
    have hne : (o :: t).reverse ≠ [] := by simp
    have ha := isAbs_render (b := b) hne hlo
    have hclean : clean (render b (o :: t).reverse ++ g!"/") = render b (o :: t).reverse := by
      refine clean_of_fold (out := o :: t) ?_ ?_ (by simp)
      · obtain ⟨c, s, hs⟩ := List.exists_cons_of_ne_nil (render_ne (b := b) hne hlo)
        rw [hs] at ha ⊢
        exact ha
      · have := splitC_general '/' (render b (o :: t).reverse) []
        rw [this, split_render hne fun y hy => (hlo y hy).1, List.foldl_append, fold_lead, refold h]
        simp [splitC, cleanStep]
    rw [hclean]
    refine hr _ ha (render_ne hne hlo) ?_
    rw [split_render hne fun y hy => (hlo y hy).1, fold_lead, refold h]

/-- The file next to a file. -/
theorem joinPath_beside {d e x : Str} (he : Elem e) (hx : Elem x) : joinPath (pathDir (joinPath d e)) x = joinPath d x := by
  obtain ⟨b, out, hc, hj⟩ := joinPath_render d
  rw [hj e he, hj x hx, joinPath_dir hc he hx]

/-- A file in a directory next to a file is not a file of that directory. -/
theorem joinPath_below {d a s f x : Str} (ha : Elem a) (hs : Elem s) (hf : Elem f) (hx : Elem x) : joinPath (joinPath (joinPath d a) s) f ≠ joinPath d x := by
  obtain ⟨b, out, hc, hj⟩ := joinPath_render d
  rw [hj a ha, joinPath_again hc ha hs, hj x hx]
  have := joinPath_again (b := b) (out := a :: out) (e := s) (x := f) (.name ha hc) hs hf
  simp only [List.reverse_cons, List.append_assoc, List.singleton_append] at this
  rw [this]
  intro e
  have h1 : ∀ l : List Str, join g!"/" (l ++ [x]) = join g!"/" (l ++ [a, s, f]) → False := by
    intro l h
    have h2 : ∀ (l : List Str), ∃ p, ∀ z, z ≠ [] → join g!"/" (l ++ z) = p ++ join g!"/" z := by
      intro l
      induction l with
      | nil => exact ⟨[], fun z _ => rfl⟩
      | cons y l ih =>
        obtain ⟨p, hp⟩ := ih
        refine ⟨y ++ '/' :: p, fun z hz => ?_⟩
        have hne : l ++ z ≠ [] := by simp [hz]
        obtain ⟨u, v, huv⟩ := List.exists_cons_of_ne_nil hne
        rw [List.cons_append, huv, join, ← huv, hp z hz]
        simp
    obtain ⟨p, hp⟩ := h2 l
    rw [hp [x] (by simp), hp [a, s, f] (by simp)] at h
    have := List.append_cancel_left h
    simp only [join] at this
    exact hx.1 (by rw [this]; simp)
  cases b with
  | false => exact h1 _ (by simpa [render] using e.symm)
  | true => exact h1 _ (by simpa [render] using e.symm)

theorem joinPath_inj {d x y : Str} (hx : Elem x) (hy : Elem y) (h : joinPath d x = joinPath d y) : x = y := by
  obtain ⟨p, hp⟩ := joinPath_elem d
  rw [hp x hx, hp y hy] at h
  exact List.append_cancel_left h

end JT.Gen
