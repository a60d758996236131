import Verif.Model.SchemaFile
import Verif.Props.C31
/- C34 (merging properties), C35 (flattening), C36 (no flattening), C37 (oneOf selection), C50 (SchemaTypes). -/
namespace JT
open Spec

/-! ### C34 -/

/-- **C34**: merging keeps every property of the parent and adds exactly the properties of the child with other names, whatever the iteration
order over the child's map; `none` as parent is the nil map. -/
theorem C34 (parent : Option (GMap P)) (child : GMap P) (hc : GMap.Sorted child) (order : List (Str × P)) (ho : order.Perm child) (k : Str) :
    GMap.get k (mergeProps parent order) = match GMap.get k (parent.getD []) with
      | some q => some q
      | none => GMap.get k child := by
  have hn : (child.map Prod.fst).Nodup := hc.nodup
  have hn' : (order.map Prod.fst).Nodup := (ho.map Prod.fst).nodup_iff.2 hn
  rw [← GMap.get_perm ho hn]
  cases parent with
  | none =>
    show GMap.get k (GMap.ofList order) = _
    rw [GMap.get_ofList hn']
    rfl
  | some p =>
    show GMap.get k (GMap.fill p order) = _
    rw [GMap.get_fill]
    simp only [Option.getD_some]
    cases GMap.get k p <;> rfl

/-- The merged map is a map again and has nothing else. -/
theorem C34_sorted {parent : Option (GMap P)} {order : List (Str × P)} (hp : ∀ p, parent = some p → GMap.Sorted p) : GMap.Sorted (mergeProps parent order) := by
  cases parent with
  | none => exact GMap.sorted_ofList order
  | some p => exact GMap.sorted_fill (hp p rfl)

open Toy in
example : mergeProps (some [(g!"a", i 1)]) [(g!"b", i 3), (g!"a", i 2)] = [(g!"a", i 1), (g!"b", i 3)] := rfl

/-! ### C35, C36 -/

/-- Go maps. -/
def PropsSorted (i : Instance) : Prop := ∀ m, i.properties = some m → GMap.Sorted m

/-- An instance and its entries. -/
structure InstOk (i : Instance) : Prop where
  root : PropsSorted i
  allOf : ∀ e ∈ i.allOf, PropsSorted e
  oneOf : ∀ e ∈ i.oneOf, PropsSorted e

/-- The definition of a property in an instance. -/
def Instance.prop (k : Str) (i : Instance) : Option P := GMap.get k (i.properties.getD [])

/-- `k` is defined as `q` by the first of the sources that define it. -/
def FirstDef (k : Str) (sources : List Instance) (q : P) : Prop :=
  ∃ a i b, sources = a ++ i :: b ∧ i.prop k = some q ∧ ∀ j ∈ a, j.prop k = none

/-- The items of the first source with items. -/
def FirstItems (sources : List Instance) (o : Option P) : Prop :=
  (o = none ∧ ∀ j ∈ sources, j.items = none) ∨ ∃ a i b q, sources = a ++ i :: b ∧ i.items = some q ∧ o = some q ∧ ∀ j ∈ a, j.items = none

/-- `r` has the properties, required names and items of `sources`, the earliest first, and everything else from `root`. -/
structure MergeOf (root : Instance) (sources : List Instance) (r : Instance) : Prop where
  prop : ∀ k q, r.prop k = some q ↔ FirstDef k sources q
  required : r.required = sources.flatMap Instance.required
  items : FirstItems sources r.items
  rest : r = { root with properties := r.properties, required := r.required, items := r.items }

theorem firstDef_snoc {k : Str} {l : List Instance} {e : Instance} {q : P} :
    FirstDef k (l ++ [e]) q ↔ FirstDef k l q ∨ ((∀ q, ¬ FirstDef k l q) ∧ e.prop k = some q) := by
  constructor
  · rintro ⟨a, i, b, h, hi, ha⟩
    rcases List.eq_nil_or_concat b with rfl | ⟨b', x, rfl⟩
    · have : l = a ∧ e = i := by
        rw [show a ++ [i] = a ++ [i] from rfl] at h
        have := List.append_inj' h rfl
        simpa using this
      obtain ⟨rfl, rfl⟩ := this
      refine Or.inr ⟨?_, hi⟩
      rintro q' ⟨a', i', b', rfl, h', _⟩
      rw [ha i' (by simp)] at h'
      contradiction
    · left
      have : l = a ++ i :: b' := by
        have h2 : l ++ [e] = (a ++ i :: b') ++ [x] := by rw [h]; simp
        exact (List.append_inj' h2 rfl).1
      exact ⟨a, i, b', this, hi, ha⟩
  · rintro (⟨a, i, b, rfl, hi, ha⟩ | ⟨hno, he⟩)
    · exact ⟨a, i, b ++ [e], by simp, hi, ha⟩
    · refine ⟨l, e, [], rfl, he, ?_⟩
      -- no source defines it
      have : ∀ l : List Instance, (∀ q, ¬ FirstDef k l q) → ∀ j ∈ l, j.prop k = none := by
        intro l
        induction l with
        | nil => simp
        | cons x xs ih =>
          intro hno j hj
          have hx : x.prop k = none := by
            rcases hx : x.prop k with _ | q
            · rfl
            · exact absurd ⟨[], x, xs, rfl, hx, by simp⟩ (hno q)
          simp only [List.mem_cons] at hj
          rcases hj with rfl | hj
          · exact hx
          · refine ih (fun q ⟨a, i, b, h, hi, ha⟩ => hno q ⟨x :: a, i, b, by simp [h], hi, ?_⟩) j hj
            intro j hj
            simp only [List.mem_cons] at hj
            rcases hj with rfl | hj
            · exact hx
            · exact ha j hj
      exact this l hno

theorem firstItems_snoc {l : List Instance} {e : Instance} {o : Option P} (h : FirstItems l o) :
    FirstItems (l ++ [e]) (if o.isNone then e.items else o) := by
  rcases h with ⟨rfl, h⟩ | ⟨a, i, b, q, rfl, hi, rfl, ha⟩
  · simp only [Option.isNone_none, if_true]
    rcases he : e.items with _ | q
    · left
      refine ⟨rfl, fun j hj => ?_⟩
      simp only [List.mem_append, List.mem_singleton] at hj
      rcases hj with hj | rfl
      · exact h j hj
      · exact he
    · exact Or.inr ⟨l, e, [], q, rfl, he, rfl, h⟩
  · exact Or.inr ⟨a, i, b ++ [e], q, by simp, hi, by simp, ha⟩

theorem mergeEntry_mergeOf {sched : Sched} {tick : Nat} {root s e : Instance} {l : List Instance} (h : MergeOf root l s) (he : PropsSorted e) :
    MergeOf root (l ++ [e]) (mergeEntry sched tick s e) := by
  have hse : GMap.Sorted (e.properties.getD []) := by
    rcases hp : e.properties with _ | m
    · trivial
    · exact he m hp
  have hprop : ∀ k, (mergeEntry sched tick s e).prop k = match s.prop k with
      | some q => some q
      | none => e.prop k := fun k => C34 s.properties (e.properties.getD []) hse _ (sched.isPerm _ _ _) k
  constructor
  · intro k q
    rw [hprop k, firstDef_snoc]
    rcases hs : s.prop k with _ | q'
    · have hno : ∀ q, ¬ FirstDef k l q := fun q hq => by rw [← h.prop k q, hs] at hq; contradiction
      simp only
      constructor
      · intro h'; exact Or.inr ⟨hno, h'⟩
      · rintro (h' | ⟨_, h'⟩)
        · exact absurd h' (hno q)
        · exact h'
    · have hd := (h.prop k q').1 hs
      constructor
      · intro h'
        simp only [Option.some.injEq] at h'
        subst h'
        exact Or.inl hd
      · rintro (h' | ⟨h', _⟩)
        · rw [← h.prop k q, hs] at h'; exact h'
        · exact absurd hd (h' q')
  · show s.required ++ e.required = _
    rw [h.required]
    simp
  · exact firstItems_snoc h.items
  · have := h.rest
    unfold mergeEntry
    simp only
    rw [this]

theorem mergeOf_self (root : Instance) : MergeOf root [root] root := by
  constructor
  · intro k q
    constructor
    · intro h; exact ⟨[], root, [], rfl, h, by simp⟩
    · rintro ⟨a, i, b, h, hi, _⟩
      rcases a with _ | ⟨x, a⟩
      · simp only [List.nil_append, List.cons.injEq] at h; rw [h.1]; exact hi
      · simp at h
  · simp
  · rcases h : root.items with _ | q
    · exact Or.inl ⟨rfl, by simp [h]⟩
    · exact Or.inr ⟨[], root, [], q, rfl, h, rfl, by simp⟩
  · cases root; rfl

theorem mergeAllOf_flatten {sched : Sched} {root : Instance} : ∀ (es : List Instance) (tick : Nat) (l : List Instance) (s : Instance), MergeOf root l s →
    (∀ e ∈ es, PropsSorted e) → MergeOf root (l ++ es) (mergeAllOf sched true es tick s)
  | [], _, l, s, h, _ => by simpa [mergeAllOf] using h
  | e :: es, tick, l, s, h, hs => by
    simp only [mergeAllOf, Bool.true_eq_false, false_and, if_false]
    have := mergeAllOf_flatten (sched := sched) es (tick + 1) (l ++ [e]) _ (mergeEntry_mergeOf (sched := sched) (tick := tick) h (hs e (by simp))) fun e' h' => hs e' (by simp [h'])
    simpa using this

theorem mergeOneOf_sel {sched : Sched} {oneOfType : Str} {root : Instance} : ∀ (es : List Instance) (tick : Nat) (l : List Instance) (s : Instance), MergeOf root l s →
    (∀ e ∈ es, PropsSorted e) → MergeOf root (l ++ es.filter fun e => decide (subName e.fromRef = oneOfType)) (mergeOneOf sched oneOfType es tick s)
  | [], _, l, s, h, _ => by simpa [mergeOneOf] using h
  | e :: es, tick, l, s, h, hs => by
    have hs' : ∀ e' ∈ es, PropsSorted e' := fun e' h' => hs e' (by simp [h'])
    by_cases he : subName e.fromRef = oneOfType
    · simp only [mergeOneOf, he, ne_eq, not_true_eq_false, if_false, List.filter_cons, decide_true, if_true]
      have := mergeOneOf_sel (sched := sched) (oneOfType := oneOfType) es (tick + 1) (l ++ [e]) _ (mergeEntry_mergeOf (sched := sched) (tick := tick) h (hs e (by simp))) hs'
      simpa using this
    · simp only [mergeOneOf, he, ne_eq, not_false_eq_true, if_true, List.filter_cons, decide_false, Bool.false_eq_true, if_false]
      exact mergeOneOf_sel es (tick + 1) l s h hs'

/-! ### C37 -/

namespace Spec
/-- `n` is the base name of the reference `r` up to its first dot. -/
inductive BaseName : Str → Str → Prop where
  /-- The last element of the path, `n` or `n.ext`, maybe followed by slashes. -/
  | elem (dir n ext : Str) (slashes : Nat) : (dir = [] ∨ dir.getLast? = some '/') → '/' ∉ n → '.' ∉ n → '/' ∉ ext → (ext = [] ∨ ext.head? = some '.') → n ++ ext ≠ [] →
      BaseName (dir ++ (n ++ ext) ++ List.replicate slashes '/') n
  /-- No reference at all. -/
  | empty : BaseName [] []
  /-- Nothing but slashes. -/
  | slashes (k : Nat) : BaseName (List.replicate (k + 1) '/') g!"/"
end Spec

theorem trimRight_replicate (c : Char) (k : Nat) (s : Str) (h : s.getLast? ≠ some c) : trimRight [c] (s ++ List.replicate k c) = s := by
  unfold trimRight trimLeft
  rw [List.reverse_append, List.reverse_replicate]
  have : ∀ k, List.dropWhile (fun x => [c].contains x) (List.replicate k c ++ s.reverse) = s.reverse := by
    intro k
    induction k with
    | zero =>
      simp only [List.replicate_zero, List.nil_append]
      rcases hr : s.reverse with _ | ⟨x, xs⟩
      · rfl
      · have : s.getLast? = some x := by rw [← List.head?_reverse, hr]; rfl
        rw [List.dropWhile_cons_of_neg]
        simp only [List.contains_cons, List.contains_nil, Bool.or_false, beq_iff_eq]
        rintro rfl
        exact h this
    | succ k ih =>
      rw [List.replicate_succ, List.cons_append, List.dropWhile_cons_of_pos (by simp)]
      exact ih
  rw [this, List.reverse_reverse]

theorem subName_baseName {r n : Str} (h : Spec.BaseName r n) : subName r = n := by
  cases h with
  | elem dir n ext k hd h1 h2 h3 h4 h5 =>
    have hlast : (dir ++ (n ++ ext)).getLast? ≠ some '/' := by
      rw [List.getLast?_append]
      rcases hx : (n ++ ext).getLast? with _ | x
      · rw [List.getLast?_eq_none_iff] at hx; exact absurd hx h5
      · simp only [Option.some_or, ne_eq, Option.some.injEq]
        rintro rfl
        have := List.mem_of_getLast? hx
        simp only [List.mem_append] at this
        rcases this with h | h
        · exact h1 h
        · exact h3 h
    have hbase : pathBase (dir ++ (n ++ ext) ++ List.replicate k '/') = n ++ ext := by
      unfold pathBase
      rw [if_neg (by simp only [List.append_eq_nil_iff, not_and]; intro h; exact absurd (List.append_eq_nil_iff.2 h.2) h5), trimRight_replicate _ _ _ hlast]
      have hs : '/' ∉ n ++ ext := by simp only [List.mem_append, not_or]; exact ⟨h1, h3⟩
      have : (splitC '/' (dir ++ (n ++ ext))).getLastD [] = n ++ ext := by
        rcases hd with rfl | hd
        · rw [List.nil_append, splitC_no _ _ hs]; rfl
        · obtain ⟨d, rfl⟩ : ∃ d, dir = d ++ ['/'] := by
            rcases List.eq_nil_or_concat dir with rfl | ⟨d, x, rfl⟩
            · simp at hd
            · simp at hd; exact ⟨d, by simp [hd]⟩
          rw [List.append_assoc, List.singleton_append]
          rw [splitC_general, splitC_no _ _ hs]
          simp [List.getLastD_eq_getLast?]
      simp only [this]
      rw [if_neg h5]
    unfold subName
    rw [hbase]
    rcases h4 with rfl | h4
    · rw [List.append_nil, splitC_no _ _ h2]; rfl
    · obtain ⟨e, rfl⟩ : ∃ e, ext = '.' :: e := by
        rcases ext with _ | ⟨x, e⟩
        · simp at h4
        · simp at h4; exact ⟨e, by rw [h4]⟩
      rw [splitC_append _ _ _ h2]
      rfl
  | empty => rfl
  | slashes k =>
    unfold subName pathBase
    rw [if_neg (by simp [List.replicate_succ])]
    have := trimRight_replicate '/' (k + 1) [] (by simp)
    simp only [List.nil_append] at this
    rw [this]
    rfl

theorem drop_while_split (p : Char → Bool) (s : Str) : ∃ k : Str, s = k ++ s.dropWhile p ∧ ∀ c ∈ k, p c = true := by
  induction s with
  | nil => exact ⟨[], rfl, by simp⟩
  | cons x xs ih =>
    by_cases hx : p x = true
    · obtain ⟨k, h1, h2⟩ := ih
      rw [List.dropWhile_cons_of_pos hx]
      refine ⟨x :: k, by rw [List.cons_append, ← h1], ?_⟩
      intro c hc
      simp only [List.mem_cons] at hc
      rcases hc with rfl | hc
      · exact hx
      · exact h2 c hc
    · rw [List.dropWhile_cons_of_neg hx]
      exact ⟨[], rfl, by simp⟩

/-- Split at the last occurrence of a character. -/
theorem split_last (c : Char) : ∀ (s : Str), c ∉ s ∨ ∃ a b, s = a ++ c :: b ∧ c ∉ b := by
  intro s
  induction s with
  | nil => left; simp
  | cons x xs ih =>
    rcases ih with h | ⟨a, b, rfl, h⟩
    · by_cases hx : x = c
      · subst hx; exact Or.inr ⟨[], xs, rfl, h⟩
      · left
        simp only [List.mem_cons, not_or]
        exact ⟨fun e => hx e.symm, h⟩
    · exact Or.inr ⟨x :: a, b, rfl, h⟩

theorem split_first (c : Char) : ∀ (s : Str), c ∉ s ∨ ∃ a b, s = a ++ c :: b ∧ c ∉ a := by
  intro s
  induction s with
  | nil => left; simp
  | cons x xs ih =>
    by_cases hx : x = c
    · subst hx; exact Or.inr ⟨[], xs, rfl, by simp⟩
    · rcases ih with h | ⟨a, b, rfl, h⟩
      · left
        simp only [List.mem_cons, not_or]
        exact ⟨fun e => hx e.symm, h⟩
      · refine Or.inr ⟨x :: a, b, rfl, ?_⟩
        simp only [List.mem_cons, not_or]
        exact ⟨fun e => hx e.symm, h⟩

/-- Every reference has a base name. -/
theorem baseName_total (r : Str) : ∃ n, Spec.BaseName r n := by
  -- the trailing slashes
  obtain ⟨p, k, rfl, hp⟩ : ∃ (p : Str) (k : Nat), r = p ++ List.replicate k '/' ∧ p.getLast? ≠ some '/' := by
    obtain ⟨k, h1, h2⟩ := drop_while_split (fun c => decide (c = '/')) r.reverse
    refine ⟨(r.reverse.dropWhile fun c => decide (c = '/')).reverse, k.length, ?_, ?_⟩
    · have hk : k = List.replicate k.length '/' := List.eq_replicate_iff.2 ⟨rfl, fun b hb => by simpa using h2 b hb⟩
      have := congrArg List.reverse h1
      rw [List.reverse_reverse, List.reverse_append] at this
      rw [hk, List.reverse_replicate] at this
      exact this
    · rw [List.getLast?_reverse]
      intro he
      rcases hd : r.reverse.dropWhile fun c => decide (c = '/') with _ | ⟨x, xs⟩
      · rw [hd] at he; simp at he
      · rw [hd] at he
        simp only [List.head?_cons, Option.some.injEq] at he
        have h3 : decide (x = '/') = false := by
          have h4 : ∀ (l : Str), l.dropWhile (fun c => decide (c = '/')) = x :: xs → decide (x = '/') = false := by
            intro l
            induction l with
            | nil => intro h; simp at h
            | cons y ys ih =>
              intro h
              by_cases hy : decide (y = '/') = true
              · rw [List.dropWhile_cons, if_pos hy] at h; exact ih h
              · rw [List.dropWhile_cons, if_neg hy] at h
                simp only [List.cons.injEq] at h
                rw [← h.1]
                simpa using hy
          exact h4 _ hd
        rw [he] at h3
        simp at h3
  by_cases hp0 : p = []
  · subst hp0
    rcases k with _ | k
    · exact ⟨[], .empty⟩
    · exact ⟨g!"/", .slashes k⟩
  · -- the last element
    obtain ⟨dir, b, rfl, hb, hd⟩ : ∃ dir b, p = dir ++ b ∧ '/' ∉ b ∧ (dir = [] ∨ dir.getLast? = some '/') := by
      rcases split_last '/' p with h | ⟨a, b, rfl, h⟩
      · exact ⟨[], p, rfl, h, Or.inl rfl⟩
      · exact ⟨a ++ ['/'], b, by simp, h, Or.inr (by simp)⟩
    have hb0 : b ≠ [] := by
      rintro rfl
      rcases hd with rfl | hd
      · simp at hp0
      · rw [List.append_nil] at hp; exact hp hd
    rcases split_first '.' b with h | ⟨n, e, rfl, h⟩
    · refine ⟨b, ?_⟩
      have := Spec.BaseName.elem dir b [] k hd hb h (by simp) (Or.inl rfl) (by simpa using hb0)
      simpa using this
    · refine ⟨n, Spec.BaseName.elem dir n ('.' :: e) k hd ?_ h ?_ (Or.inr rfl) (by simp)⟩
      · intro hm; exact hb (by simp [hm])
      · intro hm; exact hb (by simp only [List.mem_append]; exact Or.inr hm)

/-- Every reference has exactly one base name. -/
theorem baseName_unique {r a b : Str} (h1 : Spec.BaseName r a) (h2 : Spec.BaseName r b) : a = b := by
  rw [← subName_baseName h1, ← subName_baseName h2]

/-- An entry is selected: the base name of its reference is the type wanted. -/
def Selected (oneOfType : Str) (e : Instance) : Prop := Spec.BaseName e.fromRef oneOfType

theorem selected_iff {oneOfType : Str} {e : Instance} : Selected oneOfType e ↔ subName e.fromRef = oneOfType := by
  constructor
  · exact subName_baseName
  · rintro rfl
    obtain ⟨n, hn⟩ := baseName_total e.fromRef
    rw [subName_baseName hn]
    exact hn

open Classical in
/-- The sources of a schema that is flattened: the document, its allOf entries in order, and the oneOf entries of the type wanted in order. -/
noncomputable def sourcesOf (oneOfType : Str) (sj : Instance) : List Instance := sj :: sj.allOf ++ sj.oneOf.filter fun e => decide (Selected oneOfType e)

/-- **C35**: the schema made of a document with flattening has, for every name, the definition in the earliest source that has the name (so it has every property
of the document and of every allOf entry); the required names are those of the sources in order, the items those of the first source with items; all other
fields are those of the document. -/
theorem C35 (sched : Sched) (oneOfType : Str) (sj : Instance) (h : InstOk sj) :
    MergeOf sj (sourcesOf oneOfType sj) (mergeOf sched oneOfType true sj) := by
  have h1 := mergeAllOf_flatten (sched := sched) (root := sj) sj.allOf 0 [sj] sj (mergeOf_self sj) h.allOf
  have h2 := mergeOneOf_sel (sched := sched) (oneOfType := oneOfType) sj.oneOf sj.allOf.length _ _ h1 h.oneOf
  have he : (sj.oneOf.filter fun e => decide (subName e.fromRef = oneOfType)) = sj.oneOf.filter fun e => @decide (Selected oneOfType e) (Classical.propDecidable _) := by
    apply List.filter_congr
    intro e _
    rw [decide_eq_decide]
    exact selected_iff.symm
  unfold sourcesOf mergeOf
  rw [← he]
  exact h2

/-- **C37**: a oneOf entry contributes to the schema if and only if the base name of its reference, up to the first dot, is the type wanted: the schema is that of
the document with the other entries removed, and the entries with that base name are among its sources (`C35`). -/
theorem C37 (sched : Sched) (oneOfType : Str) (flatten : Bool) (sj e : Instance) (a b : List Instance) (h : sj.oneOf = a ++ e :: b) (hi : InstOk sj) :
    (¬ Spec.BaseName e.fromRef oneOfType → ∀ k, (mergeOf sched oneOfType flatten sj).prop k =
        (mergeOf sched oneOfType flatten { sj with oneOf := a ++ b }).prop k) ∧
      (Spec.BaseName e.fromRef oneOfType → ∀ k, ((mergeOf sched oneOfType flatten sj).prop k).isSome = true ∨ e.prop k = none) := by
  -- the schema without oneOf
  let s0 := mergeAllOf sched flatten sj.allOf 0 sj
  have base : ∀ (es : List Instance) (tick : Nat), (∀ x ∈ es, PropsSorted x) →
      MergeOf s0 ([s0] ++ es.filter fun x => decide (subName x.fromRef = oneOfType)) (mergeOneOf sched oneOfType es tick s0) :=
    fun es tick hs => mergeOneOf_sel es tick [s0] s0 (mergeOf_self s0) hs
  have m1 := base sj.oneOf sj.allOf.length hi.oneOf
  constructor
  · intro hn k
    have hn' : subName e.fromRef ≠ oneOfType := fun he => hn (selected_iff.2 he)
    have hf : (sj.oneOf.filter fun x => decide (subName x.fromRef = oneOfType)) = (a ++ b).filter fun x => decide (subName x.fromRef = oneOfType) := by
      rw [h]
      simp [List.filter_append, hn']
    have m2 := base (a ++ b) sj.allOf.length (fun x hx => hi.oneOf x (by rw [h]; simp only [List.mem_append, List.mem_cons] at hx ⊢; tauto))
    rw [hf] at m1
    -- the same merge with another `oneOf` field
    have step : ∀ (es : List Instance) (tick : Nat) (s : Instance) (o : List Instance),
        (mergeOneOf sched oneOfType es tick { s with oneOf := o }).properties = (mergeOneOf sched oneOfType es tick s).properties := by
      intro es
      induction es with
      | nil => intros; rfl
      | cons x xs ih =>
        intro tick s o
        simp only [mergeOneOf]
        split
        · exact ih _ _ _
        · exact ih _ (mergeEntry sched tick s x) o
    have step2 : ∀ (es : List Instance) (tick : Nat) (s : Instance) (o : List Instance),
        mergeAllOf sched flatten es tick { s with oneOf := o } = { mergeAllOf sched flatten es tick s with oneOf := o } := by
      intro es
      induction es with
      | nil => intros; rfl
      | cons x xs ih =>
        intro tick s o
        simp only [mergeAllOf]
        split
        · exact ih _ _ _
        · exact ih _ (mergeEntry sched tick s x) o
    have e2 : (mergeOf sched oneOfType flatten { sj with oneOf := a ++ b }).properties = (mergeOneOf sched oneOfType (a ++ b) sj.allOf.length s0).properties := by
      unfold mergeOf
      simp only
      rw [step2, step]
    have p1 : (mergeOf sched oneOfType flatten sj).prop k = (mergeOneOf sched oneOfType sj.oneOf sj.allOf.length s0).prop k := rfl
    have p2 : (mergeOf sched oneOfType flatten { sj with oneOf := a ++ b }).prop k = (mergeOneOf sched oneOfType (a ++ b) sj.allOf.length s0).prop k := by
      unfold Instance.prop; rw [e2]
    rw [p1, p2]
    rcases hx : (mergeOneOf sched oneOfType (a ++ b) sj.allOf.length s0).prop k with _ | q
    · rcases hy : (mergeOneOf sched oneOfType sj.oneOf sj.allOf.length s0).prop k with _ | q
      · rfl
      · rw [m1.prop, ← m2.prop, hx] at hy; contradiction
    · rw [m1.prop, ← m2.prop, hx]
  · intro hs k
    have hs' := selected_iff.1 hs
    rcases he : e.prop k with _ | q
    · exact Or.inr rfl
    · left
      show ((mergeOneOf sched oneOfType sj.oneOf sj.allOf.length s0).prop k).isSome = true
      rcases hx : (mergeOneOf sched oneOfType sj.oneOf sj.allOf.length s0).prop k with _ | q'
      · exfalso
        -- some source defines `k`, so a first one does
        have : ∀ (l : List Instance), e ∈ l → ∃ q, FirstDef k l q := by
          intro l
          induction l with
          | nil => simp
          | cons x xs ih =>
            intro hm
            rcases hxk : x.prop k with _ | qx
            · simp only [List.mem_cons] at hm
              rcases hm with rfl | hm
              · rw [he] at hxk; contradiction
              · obtain ⟨q, a, i, b, rfl, hi, ha⟩ := ih hm
                refine ⟨q, x :: a, i, b, rfl, hi, ?_⟩
                intro j hj
                simp only [List.mem_cons] at hj
                rcases hj with rfl | hj
                · exact hxk
                · exact ha j hj
            · exact ⟨qx, [], x, xs, rfl, hxk, by simp⟩
        obtain ⟨q', hq'⟩ := this ([s0] ++ sj.oneOf.filter fun x => decide (subName x.fromRef = oneOfType)) (by
          rw [List.mem_append]
          right
          rw [List.mem_filter, h]
          exact ⟨by simp, by simp [hs']⟩)
        rw [← m1.prop, hx] at hq'
        contradiction
      · rfl

/-- **C36, full statement**: without flattening, a document with own properties keeps them as they are up to the oneOf entries of the type wanted, and one
without gets the properties of all its allOf entries. -/
def C36_statement : Prop := ∀ (sched : Sched) (sj : Instance), InstOk sj → sj.oneOf = [] →
  (sj.properties.isSome = true → (mergeOf sched [] false sj).properties = sj.properties) ∧
    (sj.properties = none → ∀ e ∈ sj.allOf, ∀ k, (e.prop k).isSome = true → ((mergeOf sched [] false sj).prop k).isSome = true)

theorem mergeAllOf_skip {sched : Sched} : ∀ (es : List Instance) (tick : Nat) (s : Instance), s.properties.isSome = true → mergeAllOf sched false es tick s = s
  | [], _, _, _ => rfl
  | e :: es, tick, s, h => by
    simp only [mergeAllOf, h, and_self, if_true]
    exact mergeAllOf_skip es (tick + 1) s h

/-- C36 without its second half: with own properties, no allOf entry contributes to anything; the schema is the document with the oneOf entries of the type
wanted.  Without own properties, exactly the first allOf entry contributes.
Missing: the other allOf entries, which the code ignores (`C36_refuted`). -/
theorem C36_partial (sched : Sched) (oneOfType : Str) (sj : Instance) (h : InstOk sj) :
    (sj.properties.isSome = true → MergeOf sj ([sj] ++ sj.oneOf.filter fun e => decide (subName e.fromRef = oneOfType)) (mergeOf sched oneOfType false sj)) ∧
      (∀ e es, sj.properties = none → sj.allOf = e :: es →
        MergeOf sj ([sj, e] ++ sj.oneOf.filter fun e => decide (subName e.fromRef = oneOfType)) (mergeOf sched oneOfType false sj)) := by
  constructor
  · intro hp
    unfold mergeOf
    rw [mergeAllOf_skip _ _ _ hp]
    exact mergeOneOf_sel sj.oneOf _ [sj] sj (mergeOf_self sj) h.oneOf
  · intro e es hp he
    unfold mergeOf
    rw [he]
    simp only [mergeAllOf, hp, Option.isSome_none, Bool.false_eq_true, and_false, if_false]
    rw [mergeAllOf_skip _ _ _ (by rfl)]
    exact mergeOneOf_sel sj.oneOf _ [sj, e] _ (mergeEntry_mergeOf (l := [sj]) (mergeOf_self sj) (h.allOf e (by rw [he]; simp))) h.oneOf

namespace C34ex
open Toy

def entry (ref k : Str) (n : Int) : Instance := { Instance.zero with fromRef := ref, properties := some [(k, i n)] }

/-- A document with two allOf entries and no properties of its own. -/
def two : Instance := { Instance.zero with allOf := [entry g!"x.json" g!"x" 1, entry g!"y.json" g!"y" 2] }

theorem two_ok : InstOk two := by
  refine ⟨by intro m h; simp [two, Instance.zero] at h, ?_, by simp [two, Instance.zero]⟩
  intro e he
  simp only [two, List.mem_cons, List.not_mem_nil, or_false] at he
  rcases he with rfl | rfl <;> (intro m h; simp only [entry, Option.some.injEq] at h; subst h; exact ⟨by simp, trivial⟩)

/-- Root, allOf and oneOf with the same names. -/
def doc : Instance := { Instance.zero with
  properties := some [(g!"a", i 1)]
  allOf := [{ Instance.zero with properties := some [(g!"a", i 2), (g!"b", i 3)] }]
  oneOf := [entry g!"types/image.v1.json" g!"b" 4, entry g!"types/video.json" g!"c" 5] }

example : (mergeOf Sched.rev g!"video" true doc).properties = some [(g!"a", i 1), (g!"b", i 3), (g!"c", i 5)] := rfl
example : (mergeOf Sched.rev g!"image" true doc).properties = some [(g!"a", i 1), (g!"b", i 3)] := rfl
example : (mergeOf Sched.rev g!"image" false doc).properties = some [(g!"a", i 1), (g!"b", i 4)] := rfl
example : Spec.BaseName g!"types/image.v1.json" g!"image" := Spec.BaseName.elem g!"types/" g!"image" g!".v1.json" 0 (by decide) (by decide) (by decide) (by decide) (by decide) (by decide)

theorem doc_ok : InstOk doc := by
  refine ⟨?_, ?_, ?_⟩
  · intro m h; simp only [doc, Option.some.injEq] at h; subst h; exact ⟨by simp, trivial⟩
  · intro e he
    simp only [doc, List.mem_cons, List.not_mem_nil, or_false] at he
    subst he
    intro m h; simp only [Option.some.injEq] at h; subst h; exact ⟨by simp; decide, by simp, trivial⟩
  · intro e he
    simp only [doc, List.mem_cons, List.not_mem_nil, or_false] at he
    rcases he with rfl | rfl <;> (intro m h; simp only [entry, Option.some.injEq] at h; subst h; exact ⟨by simp, trivial⟩)
end C34ex

/-- C36 is false: of two allOf entries only the first contributes. -/
theorem C36_refuted : ¬ C36_statement := by
  intro h
  have := (h Sched.id C34ex.two C34ex.two_ok rfl).2 rfl (C34ex.entry g!"y.json" g!"y" 2) (by simp [C34ex.two]) g!"y" rfl
  revert this
  decide +kernel

/-! ### Decoded documents have sorted property maps -/

theorem mapRes_forall {α β : Type} {f : α → Res β} {Q : β → Prop} (hf : ∀ x y, f x = .ok y → Q y) : ∀ {l : List α} {r : List β}, mapRes f l = .ok r → ∀ y ∈ r, Q y := by
  intro l r h y hy
  obtain ⟨x, _, hx⟩ := mapRes_mem h y hy
  exact hf x y hx

theorem decodeInst_props {n : Nat} {ap : Bool} {p : P} {i : Instance} (h : decodeInst n ap p = .ok i) : PropsSorted i := by
  cases n with
  | zero => simp [decodeInst] at h
  | succ n =>
    simp only [decodeInst, Res.bind_eq_ok, Res.pure_eq_ok] at h
    obtain ⟨q, hq, _, _, _, _, _, _, _, _, _, _, _, _, _, _, _, _, _, _, _, _, _, _, _, _, props, hp, _, _, _, _, _, _, _, _, ty, ht, rfl⟩ := h
    intro m hm
    simp only at hm
    subst hm
    obtain ⟨l, _, rfl⟩ := asRawMap_some hp
    exact GMap.sorted_ofList l

/-- Every document that can be decoded meets the hypothesis of C35, C36 and C37. -/
theorem decodeInstance_ok {ap : Bool} {p : P} {i : Instance} (h : decodeInstance ap p = .ok i) : InstOk i := by
  refine ⟨decodeInst_props h, ?_, ?_⟩
  · unfold decodeInstance at h
    simp only [decodeInst, Res.bind_eq_ok, Res.pure_eq_ok] at h
    obtain ⟨q, hq, _, _, _, _, allOf, ha, _, _, _, _, _, _, _, _, _, _, _, _, _, _, _, _, _, _, props, hp, _, _, _, _, _, _, _, _, ty, ht, rfl⟩ := h
    exact mapRes_forall (fun x y => decodeInst_props) ha
  · unfold decodeInstance at h
    simp only [decodeInst, Res.bind_eq_ok, Res.pure_eq_ok] at h
    obtain ⟨q, hq, _, _, _, _, allOf, ha, _, _, _, _, _, _, _, _, _, _, _, _, _, _, _, _, oneOf, ho, props, hp, _, _, _, _, _, _, _, _, ty, ht, rfl⟩ := h
    exact mapRes_forall (fun x y => decodeInst_props) ho

/-- C35 from the document. -/
theorem C35_doc (sched : Sched) (oneOfType : Str) (data : P) (sj r : Instance) (hd : decodeInstance true data = .ok sj)
    (h : schemaOfDoc sched oneOfType true data = .ok r) : MergeOf sj (sourcesOf oneOfType sj) r := by
  unfold schemaOfDoc at h
  rw [hd] at h
  simp only [Res.map, Res.ok.injEq] at h
  subst h
  exact C35 sched oneOfType sj (decodeInstance_ok hd)

/-! ### C50 -/

namespace Spec
/-- The references of the entries of a list in a document, in document order. -/
def refsIn (data : P) (k : Str) : List Str :=
  match data.key k with
  | some (.arr l) => l.map fun e => match e.key g!"$ref" with
    | some (.sc (.str r)) => r
    | _ => []
  | _ => []

/-- Strictly increasing. -/
def Increasing : List Str → Prop
  | [] => True
  | x :: xs => (∀ y ∈ xs, strLt x y = true) ∧ Increasing xs

/-- The name of a property of the document. -/
def PropName (data : P) (k : Str) : Prop := ∃ m q, data.key g!"properties" = some (.obj m) ∧ (k, q) ∈ m
end Spec

theorem mem_insertStr {x y : Str} {l : List Str} : y ∈ insertStr x l ↔ y = x ∨ y ∈ l := by
  induction l with
  | nil => simp [insertStr]
  | cons z zs ih =>
    simp only [insertStr]
    split
    · simp only [List.mem_cons, ih]; tauto
    · simp only [List.mem_cons]

theorem mem_sortStrings {y : Str} {l : List Str} : y ∈ sortStrings l ↔ y ∈ l := by
  induction l with
  | nil => simp [sortStrings]
  | cons x xs ih => simp only [sortStrings, mem_insertStr, ih, List.mem_cons]

theorem insertStr_increasing {x : Str} : ∀ {l : List Str}, x ∉ l → Spec.Increasing l → Spec.Increasing (insertStr x l)
  | [], _, _ => ⟨by simp, trivial⟩
  | y :: ys, hx, h => by
    simp only [insertStr]
    simp only [List.mem_cons, not_or] at hx
    split
    · rename_i hlt
      refine ⟨?_, insertStr_increasing hx.2 h.2⟩
      intro z hz
      rw [mem_insertStr] at hz
      rcases hz with rfl | hz
      · exact hlt
      · exact h.1 z hz
    · rename_i hlt
      have hlt' : strLt x y = true := by
        rcases strLt_total x y with h1 | h1 | h1
        · exact h1
        · exact absurd h1 hx.1
        · exact absurd h1 hlt
      refine ⟨?_, h⟩
      intro z hz
      simp only [List.mem_cons] at hz
      rcases hz with rfl | hz
      · exact hlt'
      · exact strLt_trans hlt' (h.1 z hz)

theorem sortStrings_increasing : ∀ {l : List Str}, l.Nodup → Spec.Increasing (sortStrings l)
  | [], _ => trivial
  | x :: xs, h => by
    rw [List.nodup_cons] at h
    exact insertStr_increasing (by rw [mem_sortStrings]; exact h.1) (sortStrings_increasing h.2)

theorem decodeInst_ref {n : Nat} {ap : Bool} {p : P} {i : Instance} (h : decodeInst n ap p = .ok i) : i.ref = match p.key g!"$ref" with
    | some (.sc (.str r)) => r
    | _ => [] := by
  cases n with
  | zero => simp [decodeInst] at h
  | succ n =>
    simp only [decodeInst, Res.bind_eq_ok, Res.pure_eq_ok] at h
    obtain ⟨q, hq, _, _, _, _, _, _, _, _, _, _, _, _, _, _, _, _, _, _, _, _, _, _, _, _, props, hp, ref, hr, _, _, _, _, _, _, ty, ht, rfl⟩ := h
    rw [asStruct_key hq] at hr
    show ref = _
    unfold asString at hr
    split at hr <;> simp only [Res.ok.injEq, reduceCtorEq] at hr <;> rename_i he <;> simp_all

theorem mapRes_map_eq {α β γ : Type} {f : α → Res β} {g : β → γ} {g' : α → γ} (hf : ∀ x y, f x = .ok y → g y = g' x) : ∀ {l : List α} {r : List β}, mapRes f l = .ok r →
    r.map g = l.map g'
  | [], r, h => by simp only [mapRes, Res.ok.injEq] at h; subst h; rfl
  | x :: xs, r, h => by
    simp only [mapRes, Res.bind_eq_ok, Res.pure_eq_ok] at h
    obtain ⟨y, hy, ys, hys, rfl⟩ := h
    simp only [List.map_cons, hf x y hy, mapRes_map_eq hf hys]

theorem refs_decoded {n : Nat} {p : P} {k : Str} {l : List P} {r : List Instance} (hl : asList (p.key k) = .ok l) (h : mapRes (decodeInst n false) l = .ok r) :
    r.map Instance.ref = Spec.refsIn p k := by
  rw [mapRes_map_eq (g' := fun e => match e.key g!"$ref" with
    | some (.sc (.str r)) => r
    | _ => []) (fun x y h => decodeInst_ref h) h]
  unfold Spec.refsIn
  unfold asList at hl
  split at hl <;> simp only [Res.ok.injEq, reduceCtorEq] at hl <;> rename_i he <;> subst hl <;> rw [he] <;> rfl

/-- **C50**: whatever the iteration order over the properties, `SchemaTypes` returns the references of the allOf and oneOf entries in document order and the
names of the properties in increasing order, each once. -/
theorem C50 (sched : Sched) (data : P) {a o ps : List Str} (h : schemaTypes sched data = .ok (a, o, ps)) :
    a = Spec.refsIn data g!"allOf" ∧ o = Spec.refsIn data g!"oneOf" ∧ Spec.Increasing ps ∧ ∀ k, k ∈ ps ↔ Spec.PropName data k := by
  unfold schemaTypes at h
  rw [Res.map_eq_ok] at h
  obtain ⟨sj, hd, h⟩ := h
  simp only [Prod.mk.injEq] at h
  obtain ⟨rfl, rfl, rfl⟩ := h
  have hps := decodeInst_props hd
  have hfields := decodeInstance_fields hd
  unfold decodeInstance at hd
  simp only [decodeInst, Res.bind_eq_ok, Res.pure_eq_ok] at hd
  obtain ⟨q, hq, _, _, aj, haj, allOf, ha, _, _, _, _, _, _, _, _, _, _, _, _, _, _, oj, hoj, oneOf, ho, props, hp, _, _, _, _, _, _, _, _, ty, ht, rfl⟩ := hd
  rw [asStruct_key hq] at haj hoj
  refine ⟨refs_decoded haj ha, refs_decoded hoj ho, ?_, ?_⟩
  · apply sortStrings_increasing
    have := (sched.isPerm 0 _ (props.getD [])).map Prod.fst
    rw [this.nodup_iff]
    rcases hpr : props with _ | m
    · exact List.nodup_nil
    · exact (hps m hpr).nodup
  · intro k
    have h1 := hfields.1
    simp only at h1
    rw [mem_sortStrings, ((sched.isPerm 0 _ (props.getD [])).map Prod.fst).mem_iff]
    unfold Spec.PropName
    rcases hpr : props with _ | m
    · simp only [Option.getD_none, List.map_nil, List.not_mem_nil, false_iff]
      rintro ⟨m, q, hm, _⟩
      rw [hm, hpr] at h1
      simp [asRawMap] at h1
    · rw [hpr] at h1
      obtain ⟨l, hl, rfl⟩ := asRawMap_some h1
      rw [hl]
      simp only [Option.getD_some, Option.some.injEq, P.obj.injEq, List.mem_map, Prod.exists, exists_and_right, exists_eq_right]
      constructor
      · rintro ⟨q, hq⟩; exact ⟨l, q, rfl, GMap.mem_ofList hq⟩
      · rintro ⟨m, q, rfl, hq⟩
        have := (GMap.mem_ofList_key (l := l) (k := k)).2 ⟨q, hq⟩
        exact this

open Toy in
example : schemaTypes Sched.rev (o [(g!"allOf", a [o [(g!"$ref", s g!"x.json")], o []]), (g!"properties", o [(g!"b", o []), (g!"a", o [])])]) =
    .ok ([g!"x.json", []], [], [g!"a", g!"b"]) := by decide +kernel

end JT
