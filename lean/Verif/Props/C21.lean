import Verif.Props.C05
import Verif.Props.C20
/- C21: item indices in paths. -/
namespace JT
open Spec

namespace Spec
/-- The text of a place in a document. -/
def placeText : List Step → Str
  | [] => []
  | .key k :: l => '.' :: k ++ placeText l
  | .idx i :: l => g!"[" ++ itoaNat i ++ g!"]" ++ placeText l

/-- The position in the schema of a place in a document. -/
def placeSegs : List Step → List Seg
  | [] => []
  | .key k :: l => .key k :: placeSegs l
  | .idx _ :: l => .star :: placeSegs l

/-- A path with the `[*]` of the arrays that enclose a place replaced by the indices of the place; the other `[*]` stay. -/
def fill : List Step → List Seg → Str
  | .key k :: l, .key k' :: g => if k = k' then '.' :: k ++ fill l g else segsText (.key k' :: g)
  | .idx i :: l, .star :: g => g!"[" ++ itoaNat i ++ g!"]" ++ fill l g
  | _, g => segsText g

/-- A property name for use in paths: plain and without `$`. -/
def PathName (k : Str) : Prop := PlainName k ∧ '$' ∉ k

def Seg.pathOk : Seg → Prop
  | .key k => PathName k
  | .star => True

/-- What may follow the plain part of a path: nothing, or a bracket with something other than `*` or an index, like `[?(@.x > 1)]` or `['x']`. -/
def TailOk (rest : Str) : Prop := '$' ∉ rest ∧ (rest = [] ∨ ∃ c r, rest = '[' :: c :: r ∧ c ≠ '*' ∧ isDigit c = false)
end Spec

theorem itoaNat_digits (n : Nat) : ∀ c ∈ itoaNat n, isDigit c = true := by
  intro c hc
  exact List.all_eq_true.1 (itoaNat_spec n).2.1 c hc

/-- Where a name ends. -/
theorem name_end {k k' t t' : Str} (hk : ∀ c ∈ k, c ≠ '.' ∧ c ≠ '[') (hk' : ∀ c ∈ k', c ≠ '.' ∧ c ≠ '[')
    (ht : t = [] ∨ ∃ r, t = '.' :: r ∨ t = '[' :: r) (ht' : t' = [] ∨ ∃ r, t' = '.' :: r ∨ t' = '[' :: r) (h : k ++ t = k' ++ t') : k = k' ∧ t = t' := by
  induction k generalizing k' with
  | nil =>
    cases k' with
    | nil => exact ⟨rfl, by simpa using h⟩
    | cons c k' =>
      exfalso
      have hc := hk' c (by simp)
      simp only [List.nil_append, List.cons_append] at h
      rcases ht with rfl | ⟨r, rfl | rfl⟩
      · simp at h
      · simp only [List.cons.injEq] at h; exact hc.1 h.1.symm
      · simp only [List.cons.injEq] at h; exact hc.2 h.1.symm
  | cons c k ih =>
    cases k' with
    | nil =>
      exfalso
      have hc := hk c (by simp)
      simp only [List.nil_append, List.cons_append] at h
      rcases ht' with rfl | ⟨r, rfl | rfl⟩
      · simp at h
      · simp only [List.cons.injEq] at h; exact hc.1 h.1
      · simp only [List.cons.injEq] at h; exact hc.2 h.1
    | cons c' k' =>
      simp only [List.cons_append, List.cons.injEq] at h
      obtain ⟨rfl, h⟩ := h
      obtain ⟨e1, e2⟩ := ih (fun x hx => hk x (by simp [hx])) (fun x hx => hk' x (by simp [hx])) h
      exact ⟨by rw [e1], e2⟩

theorem PlainName.chars {k : Str} (h : PlainName k) : ∀ c ∈ k, c ≠ '.' ∧ c ≠ '[' :=
  fun _ hc => ⟨by rintro rfl; exact h.2.1 hc, by rintro rfl; exact h.2.2 hc⟩

theorem segsText_start (g : List Seg) {rest : Str} (hr : rest = [] ∨ ∃ r, rest = '.' :: r ∨ rest = '[' :: r) :
    segsText g ++ rest = [] ∨ ∃ r, segsText g ++ rest = '.' :: r ∨ segsText g ++ rest = '[' :: r := by
  cases g with
  | nil => simpa [segsText] using hr
  | cons sg g =>
    right
    cases sg with
    | key k => exact ⟨k ++ segsText g ++ rest, Or.inl (by simp [segsText, Seg.text])⟩
    | star => exact ⟨g!"*]" ++ segsText g ++ rest, Or.inr (by simp [segsText, Seg.text])⟩

theorem placeText_start (l : List Step) (t : Str) : ∃ r, placeText l ++ g!"[*]" ++ t = '.' :: r ∨ placeText l ++ g!"[*]" ++ t = '[' :: r := by
  cases l with
  | nil => exact ⟨_, Or.inr rfl⟩
  | cons st l =>
    cases st with
    | key k => exact ⟨k ++ placeText l ++ g!"[*]" ++ t, Or.inl (by simp [placeText])⟩
    | idx i => exact ⟨itoaNat i ++ g!"]" ++ placeText l ++ g!"[*]" ++ t, Or.inr (by simp [placeText])⟩

theorem fill_nil (g : List Seg) : fill [] g = segsText g := by simp [fill]
theorem fill_nil_right (l : List Step) : fill l [] = [] := by cases l with
  | nil => rfl
  | cons st l => cases st <;> rfl

/-- A path with the indices of a place filled in starts with the text of the place and `[*]` only if it was the path of that array. -/
theorem fill_match : ∀ (l : List Step) (g : List Seg) (rest t : Str), (∀ st ∈ l, ∀ k, st = .key k → PlainName k) → (∀ sg ∈ g, Seg.pathOk sg) →
    TailOk rest → fill l g ++ rest = placeText l ++ g!"[*]" ++ t → ∃ g', g = placeSegs l ++ .star :: g'
  | [], g, rest, t, _, _, hr, h => by
    rw [fill_nil] at h
    simp only [placeText, List.nil_append] at h
    cases g with
    | nil =>
      exfalso
      simp only [segsText, List.flatMap_nil, List.nil_append] at h
      rcases hr.2 with rfl | ⟨c, r, rfl, hc, _⟩
      · simp at h
      · simp at h; exact hc h.1
    | cons sg g =>
      cases sg with
      | key k => simp [segsText, Seg.text] at h
      | star => exact ⟨g, rfl⟩
  | .key k :: l, g, rest, t, hl, hg, hr, h => by
    have hk : PlainName k := hl (.key k) (by simp) k rfl
    cases g with
    | nil =>
      exfalso
      rw [fill_nil_right] at h
      simp only [List.nil_append, placeText] at h
      rcases hr.2 with rfl | ⟨c, r, rfl, hc, _⟩
      · simp at h
      · simp at h
    | cons sg g =>
      cases sg with
      | star => simp [fill, segsText, Seg.text, placeText] at h
      | key k' =>
        have hk' : PlainName k' := (hg (.key k') (by simp)).1
        by_cases hkk : k = k'
        · subst hkk
          simp only [fill, if_true, placeText, List.cons_append, List.append_assoc, List.cons.injEq, true_and, List.append_cancel_left_eq] at h
          obtain ⟨g', rfl⟩ := fill_match l g rest t (fun st hst => hl st (by simp [hst])) (fun sg hsg => hg sg (by simp [hsg])) hr
            (by simpa using h)
          exact ⟨g', rfl⟩
        · exfalso
          simp only [fill, if_neg hkk] at h
          have h' : k' ++ (segsText g ++ rest) = k ++ (placeText l ++ g!"[*]" ++ t) := by
            simpa [segsText, Seg.text, placeText] using h
          refine hkk (name_end (PlainName.chars hk') (PlainName.chars hk) (segsText_start g ?_) (Or.inr (placeText_start l t)) h').1.symm
          rcases hr.2 with rfl | ⟨c, r, rfl, _⟩
          · exact Or.inl rfl
          · exact Or.inr ⟨_, Or.inr rfl⟩
  | .idx i :: l, g, rest, t, hl, hg, hr, h => by
    cases g with
    | nil =>
      exfalso
      rw [fill_nil_right] at h
      simp only [List.nil_append, placeText] at h
      rcases hr.2 with rfl | ⟨c, r, rfl, hc, hd⟩
      · simp at h
      · obtain ⟨h1, h2, _⟩ := itoaNat_spec i
        have hdig := itoaNat_digits i
        generalize itoaNat i = ds at *
        cases ds with
        | nil => exact h1 rfl
        | cons d ds =>
          simp only [List.cons_append, List.nil_append, List.append_assoc, List.cons.injEq, true_and] at h
          rw [h.1, hdig d (by simp)] at hd
          simp at hd
    | cons sg g =>
      cases sg with
      | key k => simp [fill, segsText, Seg.text, placeText] at h
      | star =>
        simp only [fill, placeText, List.append_assoc, List.append_cancel_left_eq] at h
        obtain ⟨g', rfl⟩ := fill_match l g rest t (fun st hst => hl st (by simp [hst])) (fun sg hsg => hg sg (by simp [hsg])) hr
            (by simpa using h)
        exact ⟨g', rfl⟩

theorem fill_self : ∀ (l : List Step) (g : List Seg), fill l (placeSegs l ++ g) = placeText l ++ segsText g
  | [], g => by simp [placeSegs, placeText, fill_nil]
  | .key k :: l, g => by simp [placeSegs, placeText, fill, fill_self l g]
  | .idx i :: l, g => by simp [placeSegs, placeText, fill, fill_self l g]

theorem fill_append_key (k : Str) : ∀ (l : List Step) (g : List Seg), fill (l ++ [.key k]) g = fill l g
  | [], [] => rfl
  | [], .star :: g => rfl
  | [], .key k' :: g => by
    simp only [List.nil_append, fill]
    split
    · rename_i h; subst h; simp [segsText, Seg.text, fill_nil]
    · rfl
  | .key k1 :: l, [] => rfl
  | .key k1 :: l, .star :: g => rfl
  | .key k1 :: l, .key k' :: g => by simp only [List.cons_append, fill, fill_append_key k l g]
  | .idx i :: l, [] => rfl
  | .idx i :: l, .key k' :: g => rfl
  | .idx i :: l, .star :: g => by simp only [List.cons_append, fill, fill_append_key k l g]

theorem fill_append_idx (i : Nat) : ∀ (l : List Step) (g : List Seg), (∀ g', g ≠ placeSegs l ++ .star :: g') → fill (l ++ [.idx i]) g = fill l g
  | [], [], _ => rfl
  | [], .star :: g, h => absurd rfl (h g)
  | [], .key k' :: g, _ => by simp [fill]
  | .key k1 :: l, [], _ => rfl
  | .key k1 :: l, .star :: g, _ => rfl
  | .key k1 :: l, .key k' :: g, h => by
    simp only [List.cons_append, fill]
    split
    · rename_i hk
      subst hk
      rw [fill_append_idx i l g fun g' e => h g' (by rw [e]; rfl)]
    · rfl
  | .idx j :: l, [], _ => rfl
  | .idx j :: l, .key k' :: g, _ => rfl
  | .idx j :: l, .star :: g, h => by
    simp only [List.cons_append, fill]
    rw [fill_append_idx i l g fun g' e => h g' (by rw [e]; rfl)]

theorem segsText_noDollar : ∀ {g : List Seg}, (∀ sg ∈ g, Seg.pathOk sg) → '$' ∉ segsText g
  | [], _ => by simp [segsText]
  | sg :: g, h => by
    have ih := segsText_noDollar (g := g) fun x hx => h x (by simp [hx])
    simp only [segsText, List.flatMap_cons, List.mem_append, not_or] at ih ⊢
    refine ⟨?_, ih⟩
    cases sg with
    | star => simp [Seg.text]
    | key k => have := (h (.key k) (by simp)).2; simpa [Seg.text] using this

theorem fill_noDollar : ∀ (l : List Step) {g : List Seg}, (∀ sg ∈ g, Seg.pathOk sg) → '$' ∉ fill l g
  | [], g, h => by rw [fill_nil]; exact segsText_noDollar h
  | .key k :: l, [], h => by simp [fill, segsText]
  | .key k :: l, .star :: g, h => by simp only [fill]; exact segsText_noDollar h
  | .key k :: l, .key k' :: g, h => by
    simp only [fill]
    split
    · rename_i hk
      subst hk
      have h1 := (h (.key k) (by simp)).2
      have h2 := fill_noDollar l (g := g) fun x hx => h x (by simp [hx])
      simp [h1, h2]
    · exact segsText_noDollar h
  | .idx i :: l, [], h => by simp [fill, segsText]
  | .idx i :: l, .key k' :: g, h => by simp only [fill]; exact segsText_noDollar h
  | .idx i :: l, .star :: g, h => by
    simp only [fill]
    have h2 := fill_noDollar l (g := g) fun x hx => h x (by simp [hx])
    have h3 : '$' ∉ itoaNat i := fun hc => by have := itoaNat_digits i _ hc; simp [isDigit] at this
    simp [h2, h3]

/-- A pattern that starts with `$` occurs in a text that has `$` only at its start only there. -/
theorem cut_dollar {pat s : Str} (hs : '$' ∉ s) (h : ¬ ∃ t, s = pat ++ t) : cut ('$' :: pat) ('$' :: s) = none := by
  rw [cut_none_iff]
  intro a b hab
  cases a with
  | nil => simp at hab; exact h ⟨b, hab⟩
  | cons c a =>
    simp only [List.cons_append, List.cons.injEq, List.append_assoc] at hab
    exact hs (by rw [hab.2]; simp)

/-- The rules for indices at a place. -/
def FillsIn (mod : Mod) (l : List Step) : Prop := ∀ g rest, (∀ sg ∈ g, Seg.pathOk sg) → TailOk rest → mod (pathOf g ++ rest) = '$' :: fill l g ++ rest

theorem FillsIn.item {mod : Mod} {l : List Step} (h : FillsIn mod l) (hl : ∀ st ∈ l, ∀ k, st = .key k → PlainName k) (i : Nat) {cp : Str} (hcp : cp = '$' :: placeText l) :
    FillsIn (fun p => replace1 (mod p) (cp ++ g!"[*]") (cp ++ g!"[" ++ itoaNat i ++ g!"]")) (l ++ [.idx i]) := by
  intro g rest hg hr
  simp only
  rw [h g rest hg hr, hcp]
  by_cases hm : ∃ g', g = placeSegs l ++ .star :: g'
  · obtain ⟨g', rfl⟩ := hm
    have e1 : fill (l ++ [.idx i]) (placeSegs l ++ .star :: g') = placeText l ++ (g!"[" ++ itoaNat i ++ g!"]" ++ segsText g') := by
      have hseg : placeSegs l ++ .star :: g' = placeSegs (l ++ [.idx i]) ++ g' := by
        clear hl hg h hcp
        induction l with
        | nil => rfl
        | cons st l ih => cases st <;> simp [placeSegs] at ih ⊢ <;> exact ih
      have ht : placeText (l ++ [.idx i]) = placeText l ++ (g!"[" ++ itoaNat i ++ g!"]") := by
        clear hl hg h hcp hseg
        induction l with
        | nil => simp [placeText]
        | cons st l ih => cases st <;> simp [placeText] at ih ⊢ <;> exact ih
      rw [hseg, fill_self, ht]
      simp
    have e2 : '$' :: fill l (placeSegs l ++ .star :: g') ++ rest = ('$' :: placeText l ++ g!"[*]") ++ (segsText g' ++ rest) := by
      rw [fill_self]
      simp [segsText, Seg.text]
    rw [e1, e2]
    unfold replace1
    rw [cut_append_of_prefix _ _ (by simp)]
    simp
  · have hm' : ∀ g', g ≠ placeSegs l ++ .star :: g' := fun g' e => hm ⟨g', e⟩
    rw [fill_append_idx i l g hm']
    unfold replace1
    rw [List.cons_append, List.cons_append, cut_dollar]
    · simp [fill_noDollar l hg, hr.1]
    · rintro ⟨t, ht⟩
      exact hm (fill_match l g rest t hl hg hr ht)

theorem FillsIn.key {mod : Mod} {l : List Step} (h : FillsIn mod l) (k : Str) : FillsIn mod (l ++ [.key k]) := by
  intro g rest hg hr
  rw [fill_append_key]
  exact h g rest hg hr

theorem placeText_append (l l' : List Step) : placeText (l ++ l') = placeText l ++ placeText l' := by
  induction l with
  | nil => simp [placeText]
  | cons st l ih => cases st <;> simp [placeText, ih]

theorem placeSegs_append (l l' : List Step) : placeSegs (l ++ l') = placeSegs l ++ placeSegs l' := by
  induction l with
  | nil => rfl
  | cons st l ih => cases st <;> simp [placeSegs, ih]

theorem segsText_append (l l' : List Seg) : segsText (l ++ l') = segsText l ++ segsText l' := by simp [segsText]

/-- What holds for the context of an instance at a place. -/
structure CtxAt (c : Ctx) (l : List Step) : Prop where
  names : ∀ st ∈ l, ∀ k, st = .key k → PlainName k
  sp : c.sp = pathOf (placeSegs l)
  cp : c.cp = '$' :: placeText l
  sub : FillsIn c.sub l

theorem CtxAt.prop {c : Ctx} {l : List Step} (h : CtxAt c l) {k : Str} (hk : PlainName k) : CtxAt (c.prop k) (l ++ [.key k]) := by
  refine ⟨?_, ?_, ?_, h.sub.key k⟩
  · intro st hst k' e
    rcases List.mem_append.1 hst with hst | hst
    · exact h.names st hst k' e
    · simp at hst; subst hst; simp at e; subst e; exact hk
  · simp only [Ctx.prop, h.sp, placeSegs_append, pathOf, segsText_append]
    simp [placeSegs, segsText, Seg.text]
  · simp only [Ctx.prop, h.cp, placeText_append]
    simp [placeText]

theorem CtxAt.item {c : Ctx} {l : List Step} (h : CtxAt c l) (i : Nat) : CtxAt (c.item i) (l ++ [.idx i]) := by
  refine ⟨?_, ?_, ?_, ?_⟩
  · intro st hst k' e
    rcases List.mem_append.1 hst with hst | hst
    · exact h.names st hst k' e
    · simp at hst; subst hst; simp at e
  · simp only [Ctx.item, h.sp, placeSegs_append, pathOf, segsText_append]
    simp [placeSegs, segsText, Seg.text]
  · simp only [Ctx.item, h.cp, placeText_append]
    simp [placeText]
  · exact h.sub.item h.names i h.cp

theorem Pos.ctx {lib : Lib} {inp raw raw' : P} {c c' : Ctx} {l : List Step} (h : Pos lib inp raw c l raw' c') :
    ∀ {l0 : List Step}, (∀ q, Inst raw q → PlainProps q) → CtxAt c l0 → CtxAt c' (l0 ++ l) := by
  have sub : ∀ {raw q r : P}, Inst raw q → Inst q r → Inst raw r := by
    intro raw q r h1 h2
    induction h2 with
    | self => exact h1
    | prop _ h2 h3 ih => exact .prop ih h2 h3
    | items _ h2 ih => exact .items ih h2
  induction h with
  | here => intro l0 _ h; simpa using h
  | @prop raw raw' c c' l nu m k q h1 h2 h3 h4 ih =>
    intro l0 hn h
    have := ih (l0 := l0 ++ [.key k]) (fun r hr => hn r (sub (.prop (.self _) h2 h3) hr)) (h.prop ((hn raw (.self _)) m h2 |>.2 _ h3))
    simpa using this
  | @item raw raw' c c' l nu items i h1 h2 h3 h4 ih =>
    intro l0 hn h
    have := ih (l0 := l0 ++ [.idx i]) (fun r hr => hn r (sub (.items (.self _) h2) hr)) (h.item i)
    simpa using this

/-- The context at a place of the output: the path of the instance is that of the place, and in every path the `[*]` of the arrays around the place
are replaced by the indices of the place, all others stay. -/
theorem C21_ctx {lib : Lib} {inp : P} {sc : Schema} (hp : PlainSchema sc) {l : List Step} {raw : P} {c : Ctx} (h : SchemaPos lib inp sc l raw c) : CtxAt c l := by
  have root : CtxAt ⟨g!"$", g!"$", g!"$", id⟩ [] := ⟨by simp, rfl, rfl, fun g rest _ _ => by simp [fill_nil, pathOf]⟩
  cases h with
  | @prop m k q raw l c h1 h2 h3 =>
    have hk := (hp.1 m h1).2 _ h2
    exact Pos.ctx h3 (l0 := [.key k]) (fun r hr => hp.2 r (Or.inl ⟨m, k, q, h1, h2, hr⟩)) (root.prop hk)
  | @item items raw i l c h1 h2 h3 h4 =>
    exact Pos.ctx h4 (l0 := [.idx i]) (fun r hr => hp.2 r (Or.inr ⟨items, h2, hr⟩)) (root.item i)

/-- `Runs t mod l t' mod'`: when the node `t` is evaluated with the path modifier `mod`, the node `t'` is evaluated for the place `l` with `mod'`
(`childrenLoop` and `itemsLoop`, `itemsLoopXML`). -/
inductive Runs : T → Mod → List Step → T → Mod → Prop
  | here {t : T} {mod : Mod} : Runs t mod [] t mod
  | prop {p : Str} {d : Option Addr} {tid : Option Nat} {cs : List (Str × T)} {k : Str} {c t : T} {mod mod' : Mod} {l : List Step} : (k, c) ∈ cs →
      Runs c mod l t mod' → Runs (.object p d tid cs) mod (.key k :: l) t mod'
  | item {p : Str} {d : Option Addr} {tid : Option Nat} {c t : T} {mod mod' : Mod} {l : List Step} {i : Nat} :
      Runs c (pathReplace (mod p ++ g!"[*]") (mod p ++ g!"[" ++ itoaNat i ++ g!"]") mod) l t mod' → Runs (.array p d tid (some c)) mod (.idx i :: l) t mod'

/-- The items of an array are evaluated with these modifiers only: the result of the loop does not depend on anything else about the item node. -/
theorem itemsLoop_congr {f g : TF} {inp : V} {path : Str} {mod : Mod} (h : ∀ i, f inp (pathReplace (path ++ g!"[*]") (path ++ g!"[" ++ itoaNat i ++ g!"]") mod) =
    g inp (pathReplace (path ++ g!"[*]") (path ++ g!"[" ++ itoaNat i ++ g!"]") mod)) : ∀ (n i : Nat) (acc : List V), itemsLoop f inp path mod n i acc = itemsLoop g inp path mod n i acc
  | 0, _, _ => rfl
  | n + 1, i, acc => by
    simp only [itemsLoop]
    rw [h i]
    funext s
    rw [M.bind_apply, M.bind_apply]
    split
    · rw [itemsLoop_congr h n]
    · rfl
    · rfl

theorem plainSeg_of {l : List Step} (h : ∀ st ∈ l, ∀ k, st = .key k → PlainName k) : ∀ sg ∈ placeSegs l, sg.plain := by
  induction l with
  | nil => simp [placeSegs]
  | cons st l ih =>
    have ih := ih fun st hst => h st (by simp [hst])
    cases st with
    | key k =>
      intro sg hsg
      simp only [placeSegs, List.mem_cons] at hsg
      rcases hsg with rfl | hsg
      · exact h (.key k) (by simp) k rfl
      · exact ih sg hsg
    | idx i =>
      intro sg hsg
      simp only [placeSegs, List.mem_cons] at hsg
      rcases hsg with rfl | hsg
      · trivial
      · exact ih sg hsg

theorem pathOk_of {l : List Step} (h : ∀ st ∈ l, ∀ k, st = .key k → PathName k) : ∀ sg ∈ placeSegs l, Seg.pathOk sg := by
  induction l with
  | nil => simp [placeSegs]
  | cons st l ih =>
    have ih := ih fun st hst => h st (by simp [hst])
    cases st with
    | key k =>
      intro sg hsg
      simp only [placeSegs, List.mem_cons] at hsg
      rcases hsg with rfl | hsg
      · exact h (.key k) (by simp) k rfl
      · exact ih sg hsg
    | idx i =>
      intro sg hsg
      simp only [placeSegs, List.mem_cons] at hsg
      rcases hsg with rfl | hsg
      · trivial
      · exact ih sg hsg

/-- Names in the schema that can be used in paths. -/
def PathSchema (sc : Schema) : Prop :=
  (∀ m, sc.properties = some m → ∀ kv ∈ m, PathName kv.1) ∧ ∀ q, SchemaInst sc q → ∀ m, q.key g!"properties" = some (.obj m) → ∀ kv ∈ m, PathName kv.1

theorem Runs.at {lib : Lib} {ident : Str} {s : St} {t t' : T} {mod mod' : Mod} {l : List Step} (h : Runs t mod l t' mod') :
    ∀ {raw : P} {l0 : List Step}, (∀ q, Inst raw q → ∀ m, q.key g!"properties" = some (.obj m) → ∀ kv ∈ m, PathName kv.1) →
    Mirrors lib ident s t (pathOf (placeSegs l0)) raw → (∀ st ∈ l0, ∀ k, st = .key k → PathName k) → FillsIn mod l0 →
    t'.path = pathOf (placeSegs (l0 ++ l)) ∧ (∀ st ∈ l0 ++ l, ∀ k, st = .key k → PathName k) ∧ FillsIn mod' (l0 ++ l) := by
  have sub : ∀ {raw q r : P}, Inst raw q → Inst q r → Inst raw r := by
    intro raw q r h1 h2
    induction h2 with
    | self => exact h1
    | prop _ h2 h3 ih => exact .prop ih h2 h3
    | items _ h2 ih => exact .items ih h2
  induction h with
  | here => intro raw l0 _ hm hn hf; exact ⟨by simpa using Mirrors.path_eq hm, by simpa using hn, by simpa using hf⟩
  | @prop p d tid cs k c t mod mod' l hk _ ih =>
    intro raw l0 hraw hm hn hf
    simp only [Mirrors] at hm
    obtain ⟨rfl, _, _, _, m, hpr, _, _, _, hkids⟩ := hm
    obtain ⟨q, hq, hmq⟩ := MirrorsKids_iff.1 hkids (k, c) hk
    have hkn : PathName k := hraw raw (.self _) m hpr _ hq
    have e : pathOf (placeSegs l0) ++ '.' :: k = pathOf (placeSegs (l0 ++ [.key k])) := by
      rw [placeSegs_append]; simp [pathOf, segsText, placeSegs, Seg.text]
    rw [e] at hmq
    have := ih (l0 := l0 ++ [.key k]) (fun r hr => hraw r (sub (.prop (.self _) hpr hq) hr)) hmq (by
      intro st hst k' e'
      rcases List.mem_append.1 hst with hst | hst
      · exact hn st hst k' e'
      · simp at hst; subst hst; simp at e'; subst e'; exact hkn) (hf.key k)
    simpa using this
  | @item p d tid c t mod mod' l i _ ih =>
    intro raw l0 hraw hm hn hf
    simp only [Mirrors] at hm
    obtain ⟨rfl, _, _, _, items, hit, hmi⟩ := hm
    have e : pathOf (placeSegs l0) ++ g!"[*]" = pathOf (placeSegs (l0 ++ [.idx i])) := by
      rw [placeSegs_append]; simp [pathOf, segsText, placeSegs, Seg.text]
    rw [e] at hmi
    have hok := pathOk_of hn
    have hcp : mod (pathOf (placeSegs l0)) = '$' :: placeText l0 := by
      have h1 := hf (placeSegs l0) [] hok ⟨by simp, Or.inl rfl⟩
      have h2 := fill_self l0 []
      simp only [List.append_nil, segsText, List.flatMap_nil] at h1 h2
      rw [h1, h2]
    have hfi : FillsIn (pathReplace (mod (pathOf (placeSegs l0)) ++ g!"[*]") (mod (pathOf (placeSegs l0)) ++ g!"[" ++ itoaNat i ++ g!"]") mod) (l0 ++ [Step.idx i]) :=
      FillsIn.item hf (fun st hst k e => (hn st hst k e).1) i hcp
    have := ih (l0 := l0 ++ [.idx i]) (fun r hr => hraw r (sub (.items (.self _) hit) hr)) hmi (by
      intro st hst k' e'
      rcases List.mem_append.1 hst with hst | hst
      · exact hn st hst k' e'
      · simp at hst; subst hst; simp at e') hfi
    simpa using this

/-- **C21**: in a Transformer made from any schema with plain names, the node evaluated for a place is the one at that place in the schema, and in every path
it uses the `[*]` of the arrays around the place are replaced by the indices of the place, at every level, while any other `[*]` stays.  Paths
consist of property names, `[*]` and possibly a final bracket that is not an index. -/
theorem C21_partial {env : Env} {sc : Schema} {ident : Str} {t : T} {s0 : St} (hb : newTransformer env sc ident = .ok (t, s0)) (hp : PlainSchema sc) (hn : PathSchema sc)
    {l : List Step} {t' : T} {mod' : Mod} (h : Runs t id l t' mod') : t'.path = pathOf (placeSegs l) ∧ mod' t'.path = '$' :: placeText l ∧ FillsIn mod' l := by
  have root : FillsIn id [] := fun g rest _ _ => by simp [fill_nil, pathOf]
  have done : (t'.path = pathOf (placeSegs l) ∧ (∀ st ∈ l, ∀ k, st = .key k → PathName k) ∧ FillsIn mod' l) →
      t'.path = pathOf (placeSegs l) ∧ mod' t'.path = '$' :: placeText l ∧ FillsIn mod' l := by
    rintro ⟨h1, h2, h3⟩
    refine ⟨h1, ?_, h3⟩
    have h4 := h3 (placeSegs l) [] (pathOk_of h2) ⟨by simp, Or.inl rfl⟩
    have h5 := fill_self l []
    simp only [List.append_nil, segsText, List.flatMap_nil] at h4 h5
    rw [h1, h4, h5]
  apply done
  rcases C24 hb hp with ⟨m, cs, hpr, _, rfl, _, _, hkids⟩ | ⟨q, c, _, hit, rfl, hmi⟩
  · cases h with
    | here => exact ⟨rfl, by simp, root⟩
    | @prop _ _ _ _ k c _ _ _ l hk hr =>
      obtain ⟨q, hq, hmq⟩ := MirrorsKids_iff.1 hkids (k, c) hk
      have hkn : PathName k := hn.1 m hpr _ hq
      have e : g!"$" ++ '.' :: k = pathOf (placeSegs [.key k]) := by simp [pathOf, segsText, placeSegs, Seg.text]
      rw [e] at hmq
      exact Runs.at hr (l0 := [.key k]) (fun r hr => hn.2 r (Or.inl ⟨m, k, q, hpr, hq, hr⟩)) hmq
        (by intro st hst k' e'; simp at hst; subst hst; simp at e'; subst e'; exact hkn) (root.key k)
  · cases h with
    | here => exact ⟨rfl, by simp, root⟩
    | @item _ _ _ _ _ _ _ l i hr =>
      have e : g!"$[*]" = pathOf (placeSegs [.idx i]) := by simp [pathOf, segsText, placeSegs, Seg.text]
      rw [e] at hmi
      have hfi : FillsIn (pathReplace (id g!"$" ++ g!"[*]") (id g!"$" ++ g!"[" ++ itoaNat i ++ g!"]") id) ([] ++ [Step.idx i]) :=
        FillsIn.item root (by simp) i (by simp [placeText])
      exact Runs.at hr (l0 := [.idx i]) (fun r hr => hn.2 r (Or.inr ⟨q, hit, hr⟩)) hmi
        (by intro st hst k' e'; simp at hst; subst hst; simp at e') hfi

namespace C21ex
open Toy
/-- Strings in an array in the objects of an array. -/
def str : P := o [(g!"type", s g!"string")]
def sc : Schema := ⟨some [(g!"a", o [(g!"type", s g!"array"), (g!"items", o [(g!"type", s g!"object"),
  (g!"properties", o [(g!"b", o [(g!"type", s g!"array"), (g!"items", str)])])])])], none⟩
def place : List Step := [.key g!"a", .idx 3, .key g!"b", .idx 12]
example : '$' :: placeText place = g!"$.a[3].b[12]" := by decide +kernel
example : '$' :: fill place [.key g!"a", .star, .key g!"b", .star, .key g!"c", .star] = g!"$.a[3].b[12].c[*]" := by decide +kernel
example : '$' :: fill place [.key g!"a", .star, .key g!"c", .star] = g!"$.a[3].c[*]" := by decide +kernel
example : '$' :: fill place [.key g!"ab", .star, .key g!"b", .star] = g!"$.ab[*].b[*]" := by decide +kernel
def nodeAt : T → List Step → Mod → Option (T × Mod)
  | t, [], mod => some (t, mod)
  | .object _ _ _ cs, .key k :: l, mod => (find k l mod cs)
  | .array p _ _ (some c), .idx i :: l, mod => nodeAt c l (pathReplace (mod p ++ g!"[*]") (mod p ++ g!"[" ++ itoaNat i ++ g!"]") mod)
  | _, _, _ => none
where find (k : Str) (l : List Step) (mod : Mod) : List (Str × T) → Option (T × Mod)
  | [] => none
  | (k', c) :: cs => if k' = k then nodeAt c l mod else find k l mod cs
/-- The node and its modifier for that place, in the Transformer of the schema. -/
example : ((newTransformer (Toy.env []) sc g!"t").toOption.bind fun x => (nodeAt x.1 place id).map fun y =>
    (y.2 y.1.path, y.2 g!"$.a[*].b[*].c[*]", y.2 g!"$.z[*]")) = some (g!"$.a[3].b[12]", g!"$.a[3].b[12].c[*]", g!"$.z[*]") := by decide +kernel
end C21ex

/-- C21 for all paths: in no path that is used for a place is there a `[*]` of an array around the place. -/
def C21_statement : Prop := ∀ (env : Env) (sc : Schema) (ident : Str) (t : T) (s0 : St), newTransformer env sc ident = .ok (t, s0) →
  ∀ (l : List Step) (t' : T) (mod' : Mod), Runs t id l t' mod' → ∀ l1 i l2, l = l1 ++ .idx i :: l2 →
    ∀ path, ¬ (pathOf (placeSegs l1) ++ g!"[*]") <:+: mod' path

namespace C21ex
open Toy
def list : Schema := ⟨some [(g!"a", o [(g!"type", s g!"array"), (g!"items", str)])], none⟩
theorem list_node : ((newTransformer (Toy.env []) list g!"t").toOption.map fun x => match x.1 with
    | .object _ _ _ [(k, .array p _ _ (some _))] => (k, p)
    | _ => ([], [])) = some (g!"a", g!"$.a") := by decide +kernel
end C21ex

/-- C21 fails for a path that names the array twice, as in a filter: only the first `[*]` is replaced. -/
theorem C21_refuted : ¬ C21_statement := by
  intro h
  have hl := C21ex.list_node
  cases hb : newTransformer (Toy.env []) C21ex.list g!"t" with
  | err => rw [hb] at hl; cases hl
  | panic => rw [hb] at hl; cases hl
  | ok x =>
    obtain ⟨t, s0⟩ := x
    rw [hb] at hl
    simp only [Res.toOption, Option.map_some, Option.some.injEq] at hl
    split at hl
    · rename_i p0 d0 tid0 k p d tid c
      simp only [Prod.mk.injEq] at hl
      obtain ⟨rfl, rfl⟩ := hl
      refine h _ _ _ _ _ hb [.key g!"a", .idx 3] c _ (.prop (List.mem_singleton.2 rfl) (.item .here)) [.key g!"a"] 3 [] rfl g!"$.a[*].b[?(@.c==$.a[*].d)]" ?_
      exact ⟨g!"$.a[3].b[?(@.c==", g!".d)]", by decide +kernel⟩
    · simp at hl

end JT
