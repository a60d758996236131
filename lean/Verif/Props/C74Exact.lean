import Verif.Proofs.Paths
/- C74: exactly which file is read for the GraphQL types, for relative paths. -/
namespace JT.Gen

/-- A relative path: so many times `..`, then names. -/
def Spec.RelPath (ups : Nat) (names : List Str) : Str := join g!"/" (List.replicate ups g!".." ++ names)
open JT.Gen.Spec

/-! ### Cleaning -/

theorem fold_ups : ∀ (u : Nat) {A : List Str} {v : Nat}, (∀ x ∈ A, Elem x) →
    (List.replicate u g!"..").foldl (cleanStep false) (A ++ List.replicate v g!"..") = A.drop u ++ List.replicate (v + (u - A.length)) g!".."
  | 0, A, v, _ => by simp
  | u + 1, [], v, _ => by
    rw [List.replicate_succ, List.foldl_cons]
    have h : cleanStep false ([] ++ List.replicate v g!"..") g!".." = [] ++ List.replicate (v + 1) g!".." := by
      unfold cleanStep
      rw [if_neg (by decide), if_pos rfl]
      cases v with
      | zero => rfl
      | succ v => rfl
    rw [h, fold_ups u (A := []) (fun _ h => nomatch h)]
    simp only [List.drop_nil, List.nil_append, List.length_nil]
    congr 1
    omega
  | u + 1, a :: A, v, h => by
    rw [List.replicate_succ, List.foldl_cons]
    have h1 : cleanStep false (a :: A ++ List.replicate v g!"..") g!".." = A ++ List.replicate v g!".." := by
      unfold cleanStep
      rw [if_neg (by decide), if_pos rfl]
      exact if_neg (h a (by simp)).2.2.2
    rw [h1, fold_ups u fun x hx => h x (List.mem_cons_of_mem _ hx)]
    simp only [List.drop_succ_cons, List.length_cons]
    congr 2
    omega

theorem fold_names : ∀ {N : List Str} {out : List Str}, (∀ x ∈ N, Elem x) → N.foldl (cleanStep false) out = N.reverse ++ out
  | [], _, _ => rfl
  | x :: N, out, h => by
    rw [List.foldl_cons, cleanStep_elem (h x (by simp)), fold_names fun y hy => h y (List.mem_cons_of_mem _ hy)]
    simp

theorem cleaned_rel {u : Nat} : ∀ {N : List Str}, (∀ x ∈ N, Elem x) → Cleaned false (N ++ List.replicate u g!"..")
  | [], _ => ups_cleaned fun y hy => (List.mem_replicate.1 hy).2
  | x :: N, h => .name (h x (by simp)) (cleaned_rel fun y hy => h y (List.mem_cons_of_mem _ hy))

theorem rel_parts {u : Nat} {N : List Str} (h : ∀ x ∈ N, Elem x) : ∀ y ∈ List.replicate u g!".." ++ N, '/' ∉ y ∧ y ≠ [] ∧ y ≠ g!"." := by
  intro y hy
  rcases List.mem_append.1 hy with hy | hy
  · rw [(List.mem_replicate.1 hy).2]; decide
  · exact ⟨(h y hy).1, (h y hy).2.1, (h y hy).2.2.1⟩

/-- Where the directory of a path leads. -/
theorem rel_dir {u : Nat} {D : List Str} {x : Str} (hD : ∀ y ∈ D, Elem y) (hx : Elem x) :
    (splitC '/' (pathDir (RelPath u (D ++ [x])))).foldl (cleanStep false) [] = D.reverse ++ List.replicate u g!".." ∧ isAbs (pathDir (RelPath u (D ++ [x]))) = false ∧
      pathDir (RelPath u (D ++ [x])) ≠ [] := by
  have hN : ∀ y ∈ D ++ [x], Elem y := by
    intro y hy
    rcases List.mem_append.1 hy with hy | hy
    · exact hD y hy
    · rw [List.mem_singleton.1 hy]; exact hx
  have hp := rel_parts (u := u) hN
  have hne : List.replicate u g!".." ++ (D ++ [x]) ≠ [] := by simp
  have hs : splitC '/' (RelPath u (D ++ [x])) = List.replicate u g!".." ++ (D ++ [x]) := split_render (b := false) hne fun y hy => (hp y hy).1
  have hc : Cleaned false (D.reverse ++ List.replicate u g!"..") := cleaned_rel fun y hy => hD y (List.mem_reverse.1 hy)
  by_cases he : List.replicate u g!".." ++ D = []
  · obtain ⟨h1, rfl⟩ := List.append_eq_nil_iff.1 he
    have hu : u = 0 := by cases u with
      | zero => rfl
      | succ u => simp at h1
    subst hu
    have : RelPath 0 ([] ++ [x]) = x := rfl
    rw [this]
    unfold pathDir
    rw [if_neg hx.1]
    exact ⟨rfl, rfl, by simp⟩
  · have hj : RelPath u (D ++ [x]) = join g!"/" (List.replicate u g!".." ++ D) ++ '/' :: x := by
      unfold RelPath
      rw [← List.append_assoc, join_snoc_eq x _ he]
    have hd : pathDir (RelPath u (D ++ [x])) = render false (List.replicate u g!".." ++ D) := by
      unfold pathDir
      rw [if_pos (by rw [hj]; simp), hs, ← List.append_assoc, List.dropLast_concat]
      have hp' : ∀ y ∈ List.replicate u g!".." ++ D, '/' ∉ y ∧ y ≠ [] ∧ y ≠ g!"." := fun y hy => hp y (by rw [← List.append_assoc]; exact List.mem_append_left _ hy)
      have ha : isAbs (join g!"/" (List.replicate u g!".." ++ D) ++ g!"/") = false := by
        obtain ⟨y, l, hl⟩ := List.exists_cons_of_ne_nil he
        rw [hl] at hp' ⊢
        obtain ⟨h1, h2⟩ := join_head_ne hp'
        obtain ⟨c, t, hct⟩ := List.exists_cons_of_ne_nil h2
        rw [hct] at h1 ⊢
        simpa [isAbs] using h1
      have hf : (splitC '/' (join g!"/" (List.replicate u g!".." ++ D) ++ g!"/")).foldl (cleanStep false) [] = D.reverse ++ List.replicate u g!".." := by
        rw [show g!"/" = '/' :: [] from rfl, splitC_general, splitC_join '/' _ he fun y hy => (hp' y hy).1]
        rw [List.foldl_append]
        have := refold hc
        rw [List.reverse_append, List.reverse_reverse, List.reverse_replicate] at this
        rw [this]
        rfl
      rw [clean_of_fold ha hf (by
        intro h
        apply he
        have := congrArg List.reverse h
        simpa [List.reverse_append] using this)]
      rw [List.reverse_append, List.reverse_reverse, List.reverse_replicate]
    have hp' : ∀ y ∈ List.replicate u g!".." ++ D, '/' ∉ y ∧ y ≠ [] ∧ y ≠ g!"." := fun y hy => hp y (by rw [← List.append_assoc]; exact List.mem_append_left _ hy)
    rw [hd]
    refine ⟨?_, isAbs_render he hp', render_ne he hp'⟩
    rw [split_render he fun y hy => (hp' y hy).1]
    have := refold hc
    rw [List.reverse_append, List.reverse_reverse, List.reverse_replicate] at this
    simpa using this

/-- **C74**, exactly, for relative paths: the directory of the path is put in front of it, where each `..` of the path takes back one of its directories. -/
theorem C74_exact {args : BuildArgs} {ups : Nat} {dirs : List Str} {file : Str} (hd : ∀ x ∈ dirs, Elem x) (hf : Elem file) (hp : args.schemaPath = RelPath ups (dirs ++ [file])) :
    graphqlSource args = RelPath (ups + (ups - dirs.length)) (dirs.take (dirs.length - ups) ++ (dirs ++ [file])) := by
  have hN : ∀ y ∈ dirs ++ [file], Elem y := by
    intro y hy
    rcases List.mem_append.1 hy with hy | hy
    · exact hd y hy
    · rw [List.mem_singleton.1 hy]; exact hf
  have hparts := rel_parts (u := ups) hN
  have hne : List.replicate ups g!".." ++ (dirs ++ [file]) ≠ [] := by simp
  obtain ⟨h1, h2, h3⟩ := rel_dir (u := ups) hd hf
  have habs : isAbs args.schemaPath = false := by rw [hp]; exact isAbs_render (b := false) hne hparts
  unfold graphqlSource resolve
  rw [if_neg (by rw [habs]; decide), hp]
  unfold joinPath
  rw [if_pos h3]
  have ha : isAbs (pathDir (RelPath ups (dirs ++ [file])) ++ '/' :: RelPath ups (dirs ++ [file])) = false := by
    obtain ⟨c, t, hct⟩ := List.exists_cons_of_ne_nil h3
    rw [hct] at h2 ⊢
    simpa [isAbs] using h2
  have hfold : (splitC '/' (pathDir (RelPath ups (dirs ++ [file])) ++ '/' :: RelPath ups (dirs ++ [file]))).foldl (cleanStep false) [] =
      (dirs ++ [file]).reverse ++ (dirs.reverse.drop ups ++ List.replicate (ups + (ups - dirs.length)) g!"..") := by
    rw [splitC_general, List.foldl_append, h1]
    have hs : splitC '/' (RelPath ups (dirs ++ [file])) = List.replicate ups g!".." ++ (dirs ++ [file]) := split_render (b := false) hne fun y hy => (hparts y hy).1
    rw [hs, List.foldl_append, fold_ups _ (fun x hx => hd x (List.mem_reverse.1 hx)), fold_names hN, List.length_reverse]
  rw [clean_of_fold ha hfold (by simp)]
  unfold RelPath
  simp only [render, Bool.false_eq_true, if_false]
  congr 1
  rw [List.reverse_append, List.reverse_append, List.reverse_reverse, List.reverse_replicate, List.drop_reverse, List.reverse_reverse, List.append_assoc]

/-- The right file is read for a relative path exactly if it has as many directories as `..`. -/
theorem C74_iff {args : BuildArgs} {ups : Nat} {dirs : List Str} {file : Str} (hd : ∀ x ∈ dirs, Elem x) (hf : Elem file) (hp : args.schemaPath = RelPath ups (dirs ++ [file])) :
    graphqlSource args = args.schemaPath ↔ dirs.length = ups := by
  have hN : ∀ y ∈ dirs ++ [file], Elem y := by
    intro y hy
    rcases List.mem_append.1 hy with hy | hy
    · exact hd y hy
    · rw [List.mem_singleton.1 hy]; exact hf
  rw [C74_exact hd hf hp, hp]
  constructor
  · intro h
    unfold RelPath at h
    have hN' : ∀ y ∈ dirs.take (dirs.length - ups) ++ (dirs ++ [file]), Elem y := by
      intro y hy
      rcases List.mem_append.1 hy with hy | hy
      · exact hd y (List.mem_of_mem_take hy)
      · exact hN y hy
    have h' := congrArg (splitC '/') h
    rw [splitC_join '/' _ (by simp) fun y hy => (rel_parts hN' y hy).1, splitC_join '/' _ (by simp) fun y hy => (rel_parts hN y hy).1] at h'
    have hl := congrArg List.length h'
    simp only [List.length_append, List.length_replicate, List.length_take, List.length_singleton] at hl
    omega
  · rintro rfl
    simp

/-- In a subdirectory the wrong file is read; in the parent directory too; but not in a directory beside the current one. -/
example : graphqlSource ⟨⟨false, false, false, false, [], []⟩, g!"a/b/root.json", g!"/out"⟩ = g!"a/b/a/b/root.json" ∧
    graphqlSource ⟨⟨false, false, false, false, [], []⟩, g!"../root.json", g!"/out"⟩ = g!"../../root.json" ∧
    graphqlSource ⟨⟨false, false, false, false, [], []⟩, g!"../a/root.json", g!"/out"⟩ = g!"../a/root.json" := by decide +kernel

/-- The conditions hold for such paths. -/
example : graphqlSource ⟨⟨false, false, false, false, [], []⟩, g!"../a/root.json", g!"/out"⟩ = g!"../a/root.json" :=
  (C74_iff (args := ⟨⟨false, false, false, false, [], []⟩, g!"../a/root.json", g!"/out"⟩) (ups := 1) (dirs := [g!"a"]) (file := g!"root.json")
    (by intro x hx; rw [List.mem_singleton.1 hx]; unfold Elem; decide) (by unfold Elem; decide) rfl).2 rfl

end JT.Gen
