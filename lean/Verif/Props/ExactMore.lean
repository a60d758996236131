import Verif.Props.C11
import Verif.Props.C16
import Verif.Props.C53
import Verif.Props.C66
/- Exact conditions for C13, C16, C54, C57 and C66: when what the code does is what one would like it to do, and what it does otherwise. -/
namespace JT
open Spec Gen

/-! ### C16 -/

/-- **C16**, exactly: a clock string gives its number of seconds iff that is below 2^63. -/
theorem C16_iff {str h m s : Str} (hc : Clock str h m s) :
    durationStr str = .ok (3600 * decimal h + 60 * decimal m + decimal s) ↔ 3600 * decimal h + 60 * decimal m + decimal s < 2 ^ 63 := by
  constructor
  · intro he
    rw [durationStr_clock hc] at he
    split at he
    · simp only [Res.ok.injEq] at he
      have : wrap64 (3600 * decimal h + 60 * decimal m + decimal s) < 2 ^ 63 := by unfold wrap64; omega
      omega
    · contradiction
  · intro hl
    exact C16_partial.1 _ _ _ _ hc hl

/-! ### C66 -/

/-- `n` times the suffix that stands for the items of an array. -/
def starsText (n : Nat) : Str := (List.replicate n g!"[*]").flatten

/-- The number of arrays at the root, and the names on a position, each with the number of arrays directly in each other there. -/
def groups : List Seg → Nat × List (Str × Nat)
  | [] => (0, [])
  | .star :: l => ((groups l).1 + 1, (groups l).2)
  | .key k :: l => (0, (k, (groups l).1) :: (groups l).2)

theorem starsText_succ (n : Nat) : starsText (n + 1) = g!"[*]" ++ starsText n := by simp [starsText, List.replicate_succ]

theorem starsText_snoc (n : Nat) : starsText (n + 1) = starsText n ++ g!"[*]" := by
  simp [starsText, List.replicate_succ']

theorem starsText_length (n : Nat) : (starsText n).length = 3 * n := by
  induction n with
  | zero => rfl
  | succ n ih => rw [starsText_succ, List.length_append, ih]; simp; omega

theorem starsText_dot (n : Nat) : '.' ∉ starsText n := by
  simp [starsText]

theorem splitC_groups : ∀ {l : List Seg}, QuietPath l → ∀ a : Str, '.' ∉ a →
    splitC '.' (a ++ segsText l) = (a ++ starsText (groups l).1) :: (groups l).2.map fun p => p.1 ++ starsText p.2
  | [], _, a, ha => by simp [segsText, splitC_no '.' a ha, groups, starsText]
  | .star :: l, hp, a, ha => by
    have h := splitC_groups (l := l) (fun k hk => hp k (List.mem_cons_of_mem _ hk)) (a ++ g!"[*]") (by simp [ha])
    have e : a ++ segsText (.star :: l) = a ++ g!"[*]" ++ segsText l := by simp [segsText, Seg.text]
    rw [e, h, groups]
    simp only [starsText_succ, List.append_assoc]
  | .key k :: l, hp, a, ha => by
    have h := splitC_groups (l := l) (fun k' hk => hp k' (List.mem_cons_of_mem _ hk)) k (hp k List.mem_cons_self).1
    have e : a ++ segsText (.key k :: l) = a ++ '.' :: (k ++ segsText l) := by simp [segsText, Seg.text]
    rw [e, splitC_append '.' a _ ha, h, groups]
    simp [starsText]

theorem groups_names : ∀ l : List Seg, (groups l).2.map Prod.fst = names l
  | [] => rfl
  | .star :: l => by simp only [groups, names]; exact groups_names l
  | .key k :: l => by simp only [groups, names, List.map_cons, groups_names l]

theorem groups_quiet {l : List Seg} (hp : QuietPath l) : ∀ p ∈ (groups l).2, QuietName p.1 := by
  induction l with
  | nil => simp [groups]
  | cons x l ih =>
    have hp' : QuietPath l := fun k hk => hp k (List.mem_cons_of_mem _ hk)
    cases x with
    | star => exact ih hp'
    | key k =>
      intro p hm
      simp only [groups, List.mem_cons] at hm
      rcases hm with rfl | hm
      · exact hp k List.mem_cons_self
      · exact ih hp' p hm

theorem trim_stars {k : Str} (h : '*' ∉ k) (n : Nat) :
    (if hasSuffix (k ++ starsText n) g!"[*]" then (k ++ starsText n).take ((k ++ starsText n).length - 3) else k ++ starsText n) = k ++ starsText (n - 1) := by
  cases n with
  | zero => simp [starsText, suffix_no h]
  | succ n =>
    rw [starsText_snoc, ← List.append_assoc, if_pos (suffix_star _), Nat.add_sub_cancel, List.length_append, show (g!"[*]").length = 3 from rfl, Nat.add_sub_cancel]
    exact List.take_left

/-- **C66**, exactly: the names that come out.  Of the arrays directly in each other all but one stay in the name, and arrays at the root give a name `$`. -/
theorem C66_exact {l : List Seg} (hp : QuietPath l) : splitJSONPath (pathOf l) =
    (if (groups l).1 = 0 then [] else [g!"$" ++ starsText ((groups l).1 - 1)]) ++ (groups l).2.map fun p => p.1 ++ starsText (p.2 - 1) := by
  have hg := groups_quiet hp
  unfold splitJSONPath
  rw [show pathOf l = g!"$" ++ segsText l from rfl, splitC_groups hp g!"$" (by decide)]
  have h1 : (((groups l).2.map fun p => p.1 ++ starsText p.2).filter fun s => s ≠ g!"$") = (groups l).2.map fun p => p.1 ++ starsText p.2 := by
    refine List.filter_eq_self.2 ?_
    intro s hs
    obtain ⟨p, hm, rfl⟩ := List.mem_map.1 hs
    obtain ⟨-, h2, h3⟩ := hg p hm
    simp only [ne_eq, decide_not, Bool.not_eq_eq_eq_not, Bool.not_true, decide_eq_false_iff_not]
    intro he
    cases hn : p.2 with
    | zero => rw [hn] at he; simp [starsText] at he; exact h2 he
    | succ n =>
      have := congrArg List.length he
      rw [hn, List.length_append, starsText_length] at this
      simp at this
      omega
  have h2 : ((groups l).2.map fun p => p.1 ++ starsText p.2).map (fun s => if hasSuffix s g!"[*]" then s.take (s.length - 3) else s) =
      (groups l).2.map fun p => p.1 ++ starsText (p.2 - 1) := by
    rw [List.map_map]
    refine List.map_congr_left fun p hm => ?_
    exact trim_stars (hg p hm).2.2 p.2
  by_cases h0 : (groups l).1 = 0
  · rw [List.filter_cons_of_neg (by simp [h0, starsText]), h1, h2, if_pos h0, List.nil_append]
  · rw [List.filter_cons_of_pos, List.map_cons, h1, h2, if_neg h0, trim_stars (by decide)]
    · rfl
    · simp only [ne_eq, decide_not, Bool.not_eq_eq_eq_not, Bool.not_true, decide_eq_false_iff_not]
      intro he
      have := congrArg List.length he
      rw [List.length_append, starsText_length] at this
      simp at this
      omega

theorem noNested_iff : ∀ l : List Seg, (NoNestedArrays l ↔ (groups l).1 = 0 ∧ ∀ p ∈ (groups l).2, p.2 ≤ 1)
  | [] => ⟨(fun _ => by simp [groups]), (fun _ => .nil)⟩
  | .star :: l => ⟨(fun h => by cases h), (fun h => by simp [groups] at h)⟩
  | [.key k] => ⟨(fun _ => by simp [groups]), (fun _ => .key .nil)⟩
  | .key k :: .key k' :: l => by
    have ih := noNested_iff (.key k' :: l)
    constructor
    · intro h
      cases h with
      | key h =>
        have := ih.1 h
        refine ⟨rfl, fun p hm => ?_⟩
        simp only [groups] at this hm
        rcases List.mem_cons.1 hm with rfl | hm
        · simp
        · exact this.2 p hm
    · intro h
      exact .key (ih.2 ⟨rfl, fun p hm => h.2 p (by simp only [groups] at hm ⊢; exact List.mem_cons_of_mem _ hm)⟩)
  | .key k :: .star :: l => by
    have ih := noNested_iff l
    constructor
    · intro h
      cases h with
      | key h => cases h
      | item h =>
        have := ih.1 h
        refine ⟨rfl, fun p hm => ?_⟩
        simp only [groups] at hm
        rcases List.mem_cons.1 hm with rfl | hm
        · simp [this.1]
        · exact this.2 p hm
    · intro h
      simp only [groups] at h
      have h0 := h.2 _ List.mem_cons_self
      exact .item (ih.2 ⟨by simp at h0; exact h0, fun p hm => h.2 p (List.mem_cons_of_mem _ hm)⟩)

/-- **C66**, exactly: splitting a path gives the names on it iff no array is directly in an array or at the root. -/
theorem C66_iff {l : List Seg} (hp : QuietPath l) : splitJSONPath (pathOf l) = names l ↔ NoNestedArrays l := by
  refine ⟨fun h => ?_, fun h => C66_partial h hp⟩
  rw [C66_exact hp, ← groups_names l] at h
  have h0 : (groups l).1 = 0 := by
    refine Classical.byContradiction fun hn => ?_
    rw [if_neg hn] at h
    have := congrArg List.length h
    simp at this
  rw [if_pos h0, List.nil_append] at h
  refine (noNested_iff l).2 ⟨h0, fun p hm => ?_⟩
  have := List.map_inj_left.1 h p hm
  have := congrArg List.length this
  rw [List.length_append, starsText_length] at this
  omega

example : splitJSONPath (pathOf [.key g!"a", .star, .star, .key g!"b"]) = [g!"a[*]", g!"b"] := by decide

/-! ### C57 -/

/-- **C57**, exactly: the options are the right ones iff the field is not an optional time without pointer. -/
theorem C57_iff {ef : EField} {required pointers : Bool} {t : GoT} (h : FieldType ef required pointers t) (hf : ef.fields.getD [] ≠ [] → ef.jsonType = g!"object") :
    ((omitOption ef required [] = [] ↔ required = true) ∧ (omitOption ef required [] = g!",omitzero" ↔ required = false ∧ (t = .struct ∨ t = .plain .time))) ↔
      ¬ (required = false ∧ t = .plain .time) := by
  obtain ⟨h1, h2, h3⟩ := C57_partial h hf
  rw [h2]
  constructor
  · rintro ⟨-, h4⟩ ⟨h5, h6⟩
    have := (h4.2 ⟨h5, Or.inr h6⟩).2
    rw [h6] at this
    cases this
  · intro hn
    refine ⟨h1, ⟨fun h => ⟨h.1, Or.inl h.2⟩, fun h => ⟨h.1, h.2.resolve_right fun h6 => hn ⟨h.1, h6⟩⟩⟩⟩

/-! ### C54 -/

theorem filterMap_all {α β : Type} {f : α → Option β} : ∀ {l : List α}, (∀ a ∈ l, ∃ b, f a = some b) → ∃ r, l.map f = r.map some ∧ l.filterMap f = r
  | [], _ => ⟨[], rfl, rfl⟩
  | a :: l, h => by
    obtain ⟨b, hb⟩ := h a List.mem_cons_self
    obtain ⟨r, h1, h2⟩ := filterMap_all (fun x hx => h x (List.mem_cons_of_mem _ hx))
    exact ⟨b :: r, by simp [hb, h1], by simp [hb, h2]⟩

/-- **C54**, exactly: different things are all written, each once, iff their names differ; then they are in the order of the names. -/
theorem C54_iff {α : Type} {l : List (Str × α)} (hd : (l.map Prod.snd).Nodup) :
    (∃ l' : List (Str × α), l'.Perm l ∧ sortedByName l = l'.map Prod.snd) ↔ (l.map Prod.fst).Nodup := by
  constructor
  · rintro ⟨l', hp, he⟩
    have hall : ∀ n ∈ sortStrings (l.map Prod.fst), ∃ v, GMap.get n l.reverse = some v := by
      intro n hn
      have hn := (sortStrings_perm _).mem_iff.1 hn
      cases hg : GMap.get n l.reverse with
      | some v => exact ⟨v, rfl⟩
      | none =>
        rw [GMap.get_none_iff] at hg
        rw [List.map_reverse] at hg
        exact absurd (List.mem_reverse.2 hn) hg
    obtain ⟨r, h1, h2⟩ := filterMap_all hall
    have hr : r.Nodup := by
      have : r = l'.map Prod.snd := by rw [← he, ← h2]; rfl
      rw [this]
      exact (hp.map Prod.snd).nodup_iff.2 hd
    have : ((sortStrings (l.map Prod.fst)).map fun n => GMap.get n l.reverse).Nodup := by
      rw [h1]
      rw [List.Nodup, List.pairwise_map]
      exact hr.imp fun hne he => hne (Option.some.inj he)
    exact (sortStrings_perm _).nodup_iff.1 (nodup_of_map this)
  · intro h
    obtain ⟨l', h1, -, h3⟩ := sorted_spec h
    exact ⟨l', h1, h3⟩

example : ([(g!"B", 1), (g!"A", 2)].map Prod.snd).Nodup ∧ sortedByName [(g!"B", 1), (g!"A", 2)] = [2, 1] := by decide

/-! ### C13 -/

/-- Going into first entries as long as there are arrays: after how many arrays one gets to an empty one (`none`) or to another value. -/
inductive LeafAt {α : Type} (vw : View α) : α → Nat → Option α → Prop
  | leaf {x : α} : (∀ l, vw.shape x ≠ .arr l) → LeafAt vw x 0 (some x)
  | empty {x : α} : vw.shape x = .arr [] → LeafAt vw x 0 none
  | cons {x y : α} {l : List α} {d : Nat} {r : Option α} : vw.shape x = .arr (y :: l) → LeafAt vw y d r → LeafAt vw x (d + 1) r

theorem convertTo_arr {α : Type} {lib : Lib} {vw : View α} {ty : Str} (hty : ScalarType ty) {raw : α} {l : List α} (hs : vw.shape raw = .arr l) :
    convertTo lib vw ty raw = ⟨.sc .nil, true⟩ := by
  rcases hty with rfl | rfl | rfl | rfl | rfl <;> simp [convertTo, hs, convertBoolean, convertNumber, convertString, convertDateTime]

/-- **C13**, exactly, for scalar types: the result is the conversion of the first leaf, except that a null leaf inside an even number of arrays is never an error;
if there is no leaf the value is null, with an error iff the empty array is inside an odd number of arrays. -/
theorem C13_exact {α : Type} {lib : Lib} {vw : View α} {ty : Str} (hty : ScalarType ty) : ∀ {n : Nat} {raw : α} {c : Conv α} {d : Nat} {r : Option α},
    convert lib vw ty n raw = .ok c → LeafAt vw raw d r →
    (r = none → c = ⟨.sc .nil, decide (d % 2 = 1)⟩) ∧
    ∀ x, r = some x → (d % 2 = 0 → vw.shape x = .sc .nil → c = ⟨.sc .nil, false⟩) ∧ (¬ (d % 2 = 0 ∧ vw.shape x = .sc .nil) → c = convertTo lib vw ty x)
  | 0, _, _, _, _, h, _ => by simp [convert] at h
  | n + 1, raw, c, d, r, h, hl => by
    rw [convert] at h
    cases hl with
    | leaf hl =>
      refine ⟨nofun, ?_⟩
      intro x hx
      simp only [Option.some.injEq] at hx
      subst hx
      refine ⟨?_, ?_⟩
      · intro _ hs
        rw [hs] at h
        simpa using h.symm
      · intro hn
        have hn : vw.shape raw ≠ .sc .nil := fun h => hn ⟨rfl, h⟩
        split at h
        · exact absurd ‹_› hn
        · exact absurd ‹_› (hl _)
        · exact absurd ‹_› (hl _)
        · simpa using h.symm
    | empty hs =>
      rw [hs] at h
      exact ⟨fun _ => by simpa using h.symm, nofun⟩
    | @cons _ y l d r hs hl =>
      rw [hs] at h
      simp only [ScalarType.ne_array hty, ne_eq, not_false_eq_true, or_true, if_true] at h
      cases hl with
      | leaf hl =>
        refine ⟨nofun, ?_⟩
        intro x hx
        simp only [Option.some.injEq] at hx
        subst hx
        refine ⟨fun h0 => by simp at h0, fun _ => ?_⟩
        split at h
        · exact absurd ‹_› (hl _)
        · simpa using h.symm
      | empty he =>
        rw [he] at h
        simp only [Res.ok.injEq] at h
        rw [convertTo_arr hty he] at h
        exact ⟨fun _ => h.symm, nofun⟩
      | @cons _ z l' d r he hl =>
        rw [he] at h
        have := C13_exact hty h hl
        have hd : (d + 1 + 1) % 2 = d % 2 := by omega
        rw [hd]
        exact this

/-- For type array: what comes out is what went in or a part of it. -/
theorem convert_array_size {lib : Lib} : ∀ {n : Nat} {raw q : P} {e : Bool}, convert lib P.view g!"array" n raw = .ok ⟨.val q, e⟩ → sizeOf q ≤ sizeOf raw
  | 0, _, _, _, h => by simp [convert] at h
  | n + 1, raw, q, e, h => by
    have ht : ∀ y : P, convertTo lib P.view g!"array" y = ⟨.val y, false⟩ := fun y => by simp [convertTo]
    rw [convert] at h
    split at h
    · simp at h
    · simp at h
    · rename_i x rest hs
      have hraw : raw = .arr (x :: rest) := by
        cases raw with
        | sc s => simp [P.view, P.shape] at hs
        | obj m => simp [P.view, P.shape] at hs
        | arr l => simp only [P.view, P.shape, Shape.arr.injEq] at hs; rw [hs]
      split at h
      · split at h
        · rename_i y l hx
          have := convert_array_size h
          have hxe : x = .arr (y :: l) := by
            cases x with
            | sc s => simp [P.view, P.shape] at hx
            | obj m => simp [P.view, P.shape] at hx
            | arr l => simp only [P.view, P.shape, Shape.arr.injEq] at hx; rw [hx]
          rw [hraw, hxe]
          simp only [P.arr.sizeOf_spec, List.cons.sizeOf_spec]
          omega
        · rw [ht] at h
          simp only [Res.ok.injEq, Conv.mk.injEq, Out.val.injEq] at h
          rw [hraw, ← h.1]
          simp only [P.arr.sizeOf_spec, List.cons.sizeOf_spec]
          omega
      · rw [ht] at h
        simp only [Res.ok.injEq, Conv.mk.injEq, Out.val.injEq] at h
        rw [h.1]
        exact Nat.le_refl _
    · rw [ht] at h
      simp only [Res.ok.injEq, Conv.mk.injEq, Out.val.injEq] at h
      rw [h.1]
      exact Nat.le_refl _

/-- **C13**, exactly, for type array: an array stays as it is iff it has at least two entries. -/
theorem C13_array_iff {lib : Lib} {l : List P} {n : Nat} {c : Conv P} (h : convert lib P.view g!"array" n (.arr l) = .ok c) :
    c = ⟨.val (.arr l), false⟩ ↔ 2 ≤ l.length := by
  have ht : ∀ y : P, convertTo lib P.view g!"array" y = ⟨.val y, false⟩ := fun y => by simp [convertTo]
  constructor
  · rintro rfl
    cases n with
    | zero => simp [convert] at h
    | succ n =>
      rw [convert] at h
      match l, h with
      | [], h => simp [P.view, P.shape] at h
      | [x], h =>
        exfalso
        simp only [P.view, P.shape, true_or, if_true] at h
        split at h
        · rename_i y l hx
          have := convert_array_size (lib := lib) (n := n) (raw := y) h
          have hxe : x = .arr (y :: l) := by
            cases x with
            | sc s => simp [P.shape] at hx
            | obj m => simp [P.shape] at hx
            | arr l => simp only [P.shape, Shape.arr.injEq] at hx; rw [hx]
          rw [hxe] at this
          simp only [P.arr.sizeOf_spec, List.cons.sizeOf_spec] at this
          omega
        · have h' := (congrArg Res.ok (ht x)).symm.trans h
          simp only [Res.ok.injEq, Conv.mk.injEq, Out.val.injEq] at h'
          have := congrArg sizeOf h'.1
          simp only [P.arr.sizeOf_spec, List.cons.sizeOf_spec] at this
          omega
      | x :: y :: l, _ => simp
  · intro h2
    match l, h2 with
    | x :: y :: l, _ => exact (C13_array_partial (vw := P.view) (x := x) (l := y :: l) rfl h).1 (by simp)

example : LeafAt P.view (.arr [.arr []]) 1 none ∧ convert (Toy.lib []) P.view g!"number" 5 (.arr [.arr []]) = .ok ⟨.sc .nil, true⟩ ∧
    convert (Toy.lib []) P.view g!"number" 5 (.arr [.arr [.arr []]]) = .ok ⟨.sc .nil, false⟩ := ⟨.cons rfl (.empty rfl), rfl, rfl⟩
example : convert (Toy.lib []) P.view g!"array" 5 (.arr [.sc (.int 1), .sc (.int 2)]) = .ok ⟨.val (.arr [.sc (.int 1), .sc (.int 2)]), false⟩ := rfl

end JT
