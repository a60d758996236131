import Verif.Model.Struct
import Verif.Proofs.Mirror
/- C66: paths of the walker and the names on them. -/
namespace JT.Spec

/-- The property names on a position. -/
def names : List Seg → List Str
  | [] => []
  | .key k :: l => k :: names l
  | .star :: l => names l

/-- A name that does not interfere with the notation of paths. -/
def QuietName (k : Str) : Prop := '.' ∉ k ∧ k ≠ g!"$" ∧ '*' ∉ k

/-- The names are plain. -/
def QuietPath (l : List Seg) : Prop := ∀ k, Seg.key k ∈ l → QuietName k

/-- No array directly in an array, and none at the root. -/
inductive NoNestedArrays : List Seg → Prop where
  | nil : NoNestedArrays []
  | key {k l} : NoNestedArrays l → NoNestedArrays (.key k :: l)
  | item {k l} : NoNestedArrays l → NoNestedArrays (.key k :: .star :: l)

end JT.Spec

namespace JT.Gen
open Spec

/-- The element of a path. -/
theorem splitC_segs : ∀ {l : List Seg}, NoNestedArrays l → QuietPath l → ∀ a : Str, '.' ∉ a →
    ∃ ps : List (Str × Bool), ps.map Prod.fst = names l ∧ splitC '.' (a ++ segsText l) = a :: ps.map fun p => p.1 ++ if p.2 then g!"[*]" else [] := by
  intro l h
  induction h with
  | nil => intro _ a ha; exact ⟨[], rfl, by simp [segsText, splitC_no '.' a ha]⟩
  | @key k l _ ih =>
    intro hp a ha
    obtain ⟨ps, h1, h2⟩ := ih (fun k' hk' => hp k' (List.mem_cons_of_mem _ hk')) k (hp k List.mem_cons_self).1
    refine ⟨(k, false) :: ps, by simp [names, h1], ?_⟩
    have : a ++ segsText (.key k :: l) = a ++ '.' :: (k ++ segsText l) := by simp [segsText, Seg.text]
    rw [this, splitC_append '.' a _ ha, h2]
    simp
  | @item k l _ ih =>
    intro hp a ha
    have hk := (hp k List.mem_cons_self).1
    obtain ⟨ps, h1, h2⟩ := ih (fun k' hk' => hp k' (List.mem_cons_of_mem _ (List.mem_cons_of_mem _ hk'))) (k ++ g!"[*]") (by simp [hk])
    refine ⟨(k, true) :: ps, by simp [names, h1], ?_⟩
    have : a ++ segsText (.key k :: .star :: l) = a ++ '.' :: (k ++ g!"[*]" ++ segsText l) := by simp [segsText, Seg.text]
    rw [this, splitC_append '.' a _ ha, h2]
    simp

theorem suffix_star (k : Str) : hasSuffix (k ++ g!"[*]") g!"[*]" = true := by
  unfold hasSuffix
  rw [List.isSuffixOf_iff_suffix]
  exact ⟨k, rfl⟩

theorem suffix_no {k : Str} (h : '*' ∉ k) : hasSuffix k g!"[*]" = false := by
  unfold hasSuffix
  rw [Bool.eq_false_iff]
  intro hs
  rw [List.isSuffixOf_iff_suffix] at hs
  obtain ⟨t, rfl⟩ := hs
  simp at h

theorem split_path {l : List Seg} (hn : NoNestedArrays l) (hp : QuietPath l) : splitJSONPath (pathOf l) = names l := by
  obtain ⟨ps, h1, h2⟩ := splitC_segs hn hp g!"$" (by decide)
  have hps : ∀ p ∈ ps, QuietName p.1 := by
    intro p hm
    have : p.1 ∈ names l := by rw [← h1]; exact List.mem_map_of_mem hm
    clear h1 h2 hm hn
    induction l with
    | nil => simp [names] at this
    | cons x l ih =>
      have hp' : QuietPath l := fun k hk => hp k (List.mem_cons_of_mem _ hk)
      cases x with
      | key k =>
        simp only [names, List.mem_cons] at this
        rcases this with h | h
        · rw [h]; exact hp k List.mem_cons_self
        · exact ih hp' h
      | star => exact ih hp' this
  unfold splitJSONPath
  rw [show pathOf l = g!"$" ++ segsText l from rfl, h2, ← h1]
  rw [List.filter_cons_of_neg (by simp)]
  rw [List.filter_eq_self.2]
  · rw [List.map_map, List.map_congr_left]
    intro p hm
    obtain ⟨h3, h4, h5⟩ := hps p hm
    obtain ⟨k, b⟩ := p
    cases b with
    | true =>
      simp only [Function.comp_apply, if_true]
      rw [if_pos (suffix_star k)]
      simp
    | false =>
      simp only [Function.comp_apply, Bool.false_eq_true, if_false, List.append_nil]
      rw [suffix_no h5]
      simp
  · intro x hx
    simp only [List.mem_map] at hx
    obtain ⟨⟨k, b⟩, hm, rfl⟩ := hx
    obtain ⟨h3, h4, h5⟩ := hps _ hm
    simp only [decide_not, Bool.not_eq_eq_eq_not, Bool.not_true, decide_eq_false_iff_not]
    cases b with
    | false => simpa using h4
    | true =>
      intro he
      simp only [if_true] at he
      have := congrArg List.length he
      simp at this

end JT.Gen

namespace JT
open Spec Gen

/-- C66 as one would like it: splitting the path of a position gives the names on it. -/
def C66_statement : Prop := ∀ l, QuietPath l → splitJSONPath (pathOf l) = names l

/-- **C66**, partial: it does if no array is directly in an array or at the root. -/
theorem C66_partial {l : List Seg} (hn : NoNestedArrays l) (hp : QuietPath l) : splitJSONPath (pathOf l) = names l := split_path hn hp

example : NoNestedArrays [.key g!"a", .star, .key g!"b[0]", .key g!"c"] ∧ QuietPath [.key g!"a", .star, .key g!"b[0]", .key g!"c"] ∧
    pathOf [.key g!"a", .star, .key g!"b[0]", .key g!"c"] = g!"$.a[*].b[0].c" := by
  refine ⟨.item (.key (.key .nil)), ?_, by decide⟩
  intro k hk
  simp only [List.mem_cons, Seg.key.injEq, List.not_mem_nil, or_false] at hk
  rcases hk with rfl | hk | rfl | rfl
  · unfold QuietName; decide
  · simp at hk
  · unfold QuietName; decide
  · unfold QuietName; decide

/-- An array in an array: the name of the inner items is `a[*]`. -/
theorem C66_refuted : ¬ C66_statement := by
  intro h
  have := h [.key g!"a", .star, .star] (by
    intro k hk
    simp only [List.mem_cons, Seg.key.injEq, List.not_mem_nil, or_false] at hk
    rcases hk with rfl | hk | hk
    · unfold QuietName; decide
    · simp at hk
    · simp at hk)
  revert this
  decide

/-- An array at the root: its items get the name `$`. -/
theorem C66_refuted_root : splitJSONPath (pathOf [.star, .key g!"a"]) = [g!"$", g!"a"] := by decide

end JT
