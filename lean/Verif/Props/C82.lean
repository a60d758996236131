import Verif.Spec.Command
/- C82: the command line. -/
namespace JT.Gen
open Spec

theorem kinds_unique {n : Str} {k k' : Kind} (h : (n, k) ∈ kinds) (h' : (n, k') ∈ kinds) : k = k' :=
  (by decide : ∀ a ∈ kinds, ∀ b ∈ kinds, a.1 = b.1 → a.2 = b.2) _ h _ h' rfl

theorem kinds_name {n : Str} {k : Kind} (h : (n, k) ∈ kinds) :
    n ≠ [] ∧ n.head? ≠ some '-' ∧ n.head? ≠ some '=' ∧ '=' ∉ n ∧ n ≠ g!"h" ∧ n ≠ g!"help" :=
  (by decide : ∀ a ∈ kinds, a.1 ≠ [] ∧ a.1.head? ≠ some '-' ∧ a.1.head? ≠ some '=' ∧ '=' ∉ a.1 ∧ a.1 ≠ g!"h" ∧ a.1 ≠ g!"help") _ h

/-- The options that exist are those of the command. -/
def Registered (s : Flags) : Prop :=
  ∀ n, ((GMap.get n s.bools).isSome = true ↔ (n, .switch) ∈ kinds) ∧ ((GMap.get n s.texts).isSome = true ↔ (n, .text) ∈ kinds) ∧
    ((GMap.get n s.pairs).isSome = true ↔ (n, .pairs) ∈ kinds)

theorem get_isSome {α : Type} (n : Str) : ∀ m : GMap α, (GMap.get n m).isSome = true ↔ ∃ v, (n, v) ∈ m
  | [] => by simp
  | (k, v) :: m => by
    rw [GMap.get]
    by_cases h : n = k
    · simp [h]
    · rw [if_neg h, get_isSome n m]
      simp [h]

theorem registered_init : Registered Flags.init := by
  intro n
  simp only [get_isSome, Flags.init, kinds]
  refine ⟨?_, ?_, ?_⟩ <;> simp <;> grind

theorem parseBool_iff {v : Str} {b : Bool} : parseBool v = some b ↔ Truth v b := by
  unfold parseBool Truth
  constructor
  · intro h
    split at h
    · rename_i h1; simp only [Option.some.injEq] at h; exact Or.inl ⟨h.symm, h1⟩
    · split at h
      · rename_i h1; simp only [Option.some.injEq] at h; exact Or.inr ⟨h.symm, h1⟩
      · cases h
  · rintro (⟨rfl, h⟩ | ⟨rfl, h⟩)
    · rw [if_pos h]
    · rw [if_neg, if_pos h]
      exact (by decide : ∀ v ∈ [g!"0", g!"f", g!"F", g!"false", g!"FALSE", g!"False"], v ∉ [g!"1", g!"t", g!"T", g!"true", g!"TRUE", g!"True"]) v h

theorem truth_unique {v : Str} {b b' : Bool} (h : Truth v b) (h' : Truth v b') : b = b' :=
  Option.some.inj ((parseBool_iff.2 h).symm.trans (parseBool_iff.2 h'))

/-- What setting an option does. -/
theorem setFlag_switch {s : Flags} (hs : Registered s) {n v : Str} (hn : (n, .switch) ∈ kinds) :
    setFlag n v s = (parseBool v).map fun b => { s with bools := GMap.set n b s.bools } := by
  obtain ⟨b, hb⟩ := Option.isSome_iff_exists.1 ((hs n).1.2 hn)
  simp only [setFlag, hb]

theorem get_none {α : Type} {m : GMap α} {n : Str} (h : ¬ (GMap.get n m).isSome = true) : GMap.get n m = none := by
  cases hg : GMap.get n m with
  | none => rfl
  | some _ => rw [hg] at h; exact absurd rfl h

theorem setFlag_text {s : Flags} (hs : Registered s) {n v : Str} (hn : (n, .text) ∈ kinds) :
    setFlag n v s = some { s with texts := GMap.set n v s.texts } := by
  obtain ⟨b, hb⟩ := Option.isSome_iff_exists.1 ((hs n).2.1.2 hn)
  have h1 := get_none fun h => by cases kinds_unique hn ((hs n).1.1 h)
  simp only [setFlag, hb, h1]

theorem setFlag_pairs {s : Flags} (hs : Registered s) {n v : Str} (hn : (n, .pairs) ∈ kinds) : ∃ m, GMap.get n s.pairs = some m ∧
    setFlag n v s = if (flagSet v m).2 = true then some { s with pairs := GMap.set n (flagSet v m).1 s.pairs } else none := by
  obtain ⟨b, hb⟩ := Option.isSome_iff_exists.1 ((hs n).2.2.2 hn)
  have h1 := get_none fun h => by cases kinds_unique hn ((hs n).1.1 h)
  have h2 := get_none fun h => by cases kinds_unique hn ((hs n).2.1.1 h)
  exact ⟨b, hb, by simp only [setFlag, hb, h1, h2]⟩

theorem isSome_set {α : Type} {m : GMap α} {n : Str} (v : α) (h : (GMap.get n m).isSome = true) (k : Str) :
    (GMap.get k (GMap.set n v m)).isSome = true ↔ (GMap.get k m).isSome = true := by
  by_cases hk : k = n
  · rw [hk, GMap.get_set_self]; simp [h]
  · rw [GMap.get_set_ne hk]

theorem flagSet_ok (v : Str) (m : GMap Str) :
    ((flagSet v m).2 = true ↔ ∀ p ∈ splitC ',' v, '=' ∈ p) ∧ ((flagSet v m).2 = true → SetAll (splitC ',' v) m (flagSet v m).1) := by
  have h := C64 (splitC ',' v) m (splitC_ne_nil _ _) (fun p hp => not_mem_of_mem_splitC ',' v p hp)
  rw [join_splitC] at h
  exact ⟨h.1, fun h1 => h.2 (h.1.1 h1)⟩

theorem setFlag_none {s : Flags} (hs : Registered s) {n v : Str} {k : Kind} (hn : (n, k) ∈ kinds) : setFlag n v s = none ↔ ¬ Suits (n, v) := by
  unfold Suits
  cases k with
  | switch =>
    rw [setFlag_switch hs hn]
    have : (n, Kind.pairs) ∉ kinds := fun h => by cases kinds_unique hn h
    cases hb : parseBool v with
    | none =>
      simp only [Option.map_none, true_iff]
      intro h
      obtain ⟨b, h⟩ := h.1 hn
      rw [parseBool_iff.2 h] at hb
      cases hb
    | some b =>
      simp only [Option.map_some, reduceCtorEq, false_iff, Classical.not_not]
      exact ⟨fun _ => ⟨b, parseBool_iff.1 hb⟩, fun h => absurd h this⟩
  | text =>
    rw [setFlag_text hs hn]
    simp only [reduceCtorEq, false_iff, Classical.not_not]
    exact ⟨(fun h => by cases kinds_unique hn h), (fun h => by cases kinds_unique hn h)⟩
  | pairs =>
    obtain ⟨m, _, he⟩ := setFlag_pairs (v := v) hs hn
    rw [he]
    have hk : (n, Kind.switch) ∉ kinds := fun h => by cases kinds_unique hn h
    by_cases hf : (flagSet v m).2 = true
    · rw [if_pos hf]
      simp only [reduceCtorEq, false_iff, Classical.not_not]
      exact ⟨fun h => absurd h hk, fun _ => (flagSet_ok v m).1.1 hf⟩
    · rw [if_neg hf]
      simp only [true_iff]
      exact fun h => hf ((flagSet_ok v m).1.2 (h.2 hn))

/-- Setting one option keeps the others. -/
theorem setFlag_registered {s s' : Flags} (hs : Registered s) {n v : Str} {k : Kind} (hn : (n, k) ∈ kinds) (h : setFlag n v s = some s') : Registered s' := by
  intro x
  obtain ⟨h1, h2, h3⟩ := hs x
  cases k with
  | switch =>
    rw [setFlag_switch hs hn] at h
    obtain ⟨b, _, rfl⟩ := Option.map_eq_some_iff.1 h
    exact ⟨(isSome_set b ((hs n).1.2 hn) x).trans h1, h2, h3⟩
  | text =>
    rw [setFlag_text hs hn] at h
    cases h
    exact ⟨h1, (isSome_set v ((hs n).2.1.2 hn) x).trans h2, h3⟩
  | pairs =>
    obtain ⟨m, hm, he⟩ := setFlag_pairs (v := v) hs hn
    rw [he] at h
    split at h
    · cases h
      exact ⟨h1, h2, (isSome_set _ ((hs n).2.2.2 hn) x).trans h3⟩
    · cases h

/-- All options in turn. -/
def applyAll : List (Str × Str) → Flags → Option Flags
  | [], s => some s
  | o :: os, s => match setFlag o.1 o.2 s with
    | some s' => applyAll os s'
    | none => none

def Known (os : List (Str × Str)) : Prop := ∀ o ∈ os, ∃ k, (o.1, k) ∈ kinds

theorem opts_known {argv : List Str} {os : List (Str × Str)} {r : List Str} (h : Opts argv os r) : Known os := by
  induction h with
  | none => intro o ho; cases ho
  | switch _ hn _ ih =>
    intro o ho
    rcases List.mem_cons.1 ho with rfl | ho
    · exact ⟨_, hn⟩
    · exact ih o ho
  | equals _ hn _ ih =>
    intro o ho
    rcases List.mem_cons.1 ho with rfl | ho
    · exact ⟨_, hn⟩
    · exact ih o ho
  | next _ hn _ _ ih =>
    intro o ho
    rcases List.mem_cons.1 ho with rfl | ho
    · exact ⟨_, hn⟩
    · exact ih o ho

theorem applyAll_known {os : List (Str × Str)} : ∀ {s : Flags}, Registered s → Known os → (applyAll os s = none ↔ ¬ ∀ o ∈ os, Suits o) := by
  induction os with
  | nil => intro s _ _; simp [applyAll]
  | cons o os ih =>
    intro s hs hk
    obtain ⟨k, hn⟩ := hk o List.mem_cons_self
    have hk' : Known os := fun x hx => hk x (List.mem_cons_of_mem _ hx)
    rw [applyAll]
    cases h : setFlag o.1 o.2 s with
    | none =>
      simp only [true_iff]
      exact fun ha => (setFlag_none hs hn).1 h (ha o List.mem_cons_self)
    | some s1 =>
      simp only
      rw [ih (setFlag_registered hs hn h) hk']
      have ho : Suits o := Classical.not_not.1 fun h' => by
        rw [(setFlag_none hs hn).2 h'] at h
        cases h
      simp [ho]

theorem lastValue_cons {o : Str × Str} {os : List (Str × Str)} {n v : Str} :
    LastValue (o :: os) n v ↔ LastValue os n v ∨ (o = (n, v) ∧ ∀ x ∈ os, x.1 ≠ n) := by
  constructor
  · rintro ⟨a, b, h, hb⟩
    cases a with
    | nil => simp only [List.nil_append, List.cons.injEq] at h; obtain ⟨rfl, rfl⟩ := h; exact Or.inr ⟨rfl, hb⟩
    | cons x a => simp only [List.cons_append, List.cons.injEq] at h; exact Or.inl ⟨a, b, h.2, hb⟩
  · rintro (⟨a, b, h, hb⟩ | ⟨rfl, hb⟩)
    · exact ⟨o :: a, b, by rw [h]; rfl, hb⟩
    · exact ⟨[], os, rfl, hb⟩

theorem lastValue_mem {os : List (Str × Str)} {n v : Str} (h : LastValue os n v) : (n, v) ∈ os := by
  obtain ⟨a, b, rfl, _⟩ := h
  simp

theorem lastValue_unique {n v v' : Str} : ∀ {os : List (Str × Str)}, LastValue os n v → LastValue os n v' → v = v'
  | [], h, _ => by simpa using lastValue_mem h
  | o :: os, h, h' => by
    rcases lastValue_cons.1 h with h1 | ⟨rfl, h1⟩
    · rcases lastValue_cons.1 h' with h2 | ⟨_, h2⟩
      · exact lastValue_unique h1 h2
      · exact absurd rfl (h2 _ (lastValue_mem h1))
    · rcases lastValue_cons.1 h' with h2 | ⟨h2, _⟩
      · exact absurd rfl (h1 _ (lastValue_mem h2))
      · simpa using h2

theorem setFlag_bools {s s' : Flags} (hs : Registered s) {m v : Str} {k : Kind} (hm : (m, k) ∈ kinds) (h : setFlag m v s = some s') {n : Str}
    (hn : (n, .switch) ∈ kinds) : (m = n → ∃ b, Truth v b ∧ GMap.get n s'.bools = some b) ∧ (m ≠ n → GMap.get n s'.bools = GMap.get n s.bools) := by
  cases k with
  | switch =>
    rw [setFlag_switch hs hm] at h
    obtain ⟨b, hb, rfl⟩ := Option.map_eq_some_iff.1 h
    refine ⟨fun e => ⟨b, parseBool_iff.1 hb, ?_⟩, fun e => GMap.get_set_ne (Ne.symm e) _ _⟩
    rw [e]
    exact GMap.get_set_self _ _ _
  | text =>
    rw [setFlag_text hs hm] at h
    cases h
    exact ⟨(fun e => by subst e; cases kinds_unique hm hn), fun _ => rfl⟩
  | pairs =>
    obtain ⟨mm, _, he⟩ := setFlag_pairs (v := v) hs hm
    rw [he] at h
    split at h
    · cases h
      exact ⟨(fun e => by subst e; cases kinds_unique hm hn), fun _ => rfl⟩
    · cases h

theorem setFlag_texts {s s' : Flags} (hs : Registered s) {m v : Str} {k : Kind} (hm : (m, k) ∈ kinds) (h : setFlag m v s = some s') {n : Str}
    (hn : (n, .text) ∈ kinds) : (m = n → GMap.get n s'.texts = some v) ∧ (m ≠ n → GMap.get n s'.texts = GMap.get n s.texts) := by
  cases k with
  | switch =>
    rw [setFlag_switch hs hm] at h
    obtain ⟨b, hb, rfl⟩ := Option.map_eq_some_iff.1 h
    exact ⟨(fun e => by subst e; cases kinds_unique hm hn), fun _ => rfl⟩
  | text =>
    rw [setFlag_text hs hm] at h
    cases h
    refine ⟨fun e => ?_, fun e => GMap.get_set_ne (Ne.symm e) _ _⟩
    rw [e]
    exact GMap.get_set_self _ _ _
  | pairs =>
    obtain ⟨mm, _, he⟩ := setFlag_pairs (v := v) hs hm
    rw [he] at h
    split at h
    · cases h
      exact ⟨(fun e => by subst e; cases kinds_unique hm hn), fun _ => rfl⟩
    · cases h

theorem setFlag_maps {s s' : Flags} (hs : Registered s) {m v : Str} {k : Kind} (hm : (m, k) ∈ kinds) (h : setFlag m v s = some s') {n : Str}
    (hn : (n, .pairs) ∈ kinds) : (m = n → ∀ x, GMap.get n s.pairs = some x → ∃ y, GMap.get n s'.pairs = some y ∧ SetAll (splitC ',' v) x y) ∧
      (m ≠ n → GMap.get n s'.pairs = GMap.get n s.pairs) := by
  cases k with
  | switch =>
    rw [setFlag_switch hs hm] at h
    obtain ⟨b, hb, rfl⟩ := Option.map_eq_some_iff.1 h
    exact ⟨(fun e => by subst e; cases kinds_unique hm hn), fun _ => rfl⟩
  | text =>
    rw [setFlag_text hs hm] at h
    cases h
    exact ⟨(fun e => by subst e; cases kinds_unique hm hn), fun _ => rfl⟩
  | pairs =>
    obtain ⟨mm, hmm, he⟩ := setFlag_pairs (v := v) hs hm
    rw [he] at h
    split at h
    · rename_i hf
      cases h
      refine ⟨fun e x hx => ?_, fun e => GMap.get_set_ne (Ne.symm e) _ _⟩
      subst e
      rw [hmm] at hx
      cases hx
      exact ⟨_, GMap.get_set_self _ _ _, (flagSet_ok v mm).2 hf⟩
    · cases h

theorem setAll_nil (m : GMap Str) : SetAll [] m m :=
  fun _ => ⟨by rintro v ⟨a, s, b, h, _⟩; simp at h, fun _ => rfl⟩

theorem setAll_append {a b : List Str} {m m1 m2 : GMap Str} (h1 : SetAll a m m1) (h2 : SetAll b m1 m2) : SetAll (a ++ b) m m2 := by
  intro k
  constructor
  · rintro v ⟨x, s, y, he, hp, hy⟩
    rcases List.append_eq_append_iff.1 he with ⟨c, e1, e2⟩ | ⟨c, e1, e2⟩
    · exact (h2 k).1 v ⟨c, s, y, e2, hp, hy⟩
    · cases c with
      | nil =>
        exact (h2 k).1 v ⟨[], s, y, e2.symm, hp, hy⟩
      | cons z c =>
        simp only [List.cons_append, List.cons.injEq] at e2
        obtain ⟨rfl, rfl⟩ := e2
        rw [(h2 k).2 fun s' hs' => hy s' (List.mem_append_right _ hs')]
        exact (h1 k).1 v ⟨x, s, c, e1, hp, fun s' hs' => hy s' (List.mem_append_left _ hs')⟩
  · intro hn
    rw [(h2 k).2 fun s hs => hn s (List.mem_append_right _ hs), (h1 k).2 fun s hs => hn s (List.mem_append_left _ hs)]

theorem lastPair_or (k : Str) : ∀ l : List Str, (∃ v, LastPair l k v) ∨ ∀ s ∈ l, ∀ v, ¬ IsPair s k v
  | [] => Or.inr (by simp)
  | s :: l => by
    rcases lastPair_or k l with ⟨v, h⟩ | h
    · exact Or.inl ⟨v, lastPair_cons.2 (Or.inl h)⟩
    · by_cases hs : ∃ v, IsPair s k v
      · obtain ⟨v, hv⟩ := hs
        exact Or.inl ⟨v, lastPair_cons.2 (Or.inr ⟨hv, h⟩)⟩
      · refine Or.inr fun s' hs' v hv => ?_
        rcases List.mem_cons.1 hs' with rfl | hs'
        · exact hs ⟨v, hv⟩
        · exact h s' hs' v hv

theorem setAll_unique {l : List Str} {m m1 m2 : GMap Str} (h1 : SetAll l m m1) (h2 : SetAll l m m2) (k : Str) : GMap.get k m1 = GMap.get k m2 := by
  rcases lastPair_or k l with ⟨v, h⟩ | h
  · rw [(h1 k).1 v h, (h2 k).1 v h]
  · rw [(h1 k).2 h, (h2 k).2 h]

/-- The values after all options. -/
theorem applyAll_bools {n : Str} (hn : (n, .switch) ∈ kinds) : ∀ {os : List (Str × Str)} {s s' : Flags}, Registered s → Known os → applyAll os s = some s' →
    (∃ v b, LastValue os n v ∧ Truth v b ∧ GMap.get n s'.bools = some b) ∨ (∀ o ∈ os, o.1 ≠ n) ∧ GMap.get n s'.bools = GMap.get n s.bools
  | [], s, s', _, _, h => by cases h; exact Or.inr ⟨by simp, rfl⟩
  | o :: os, s, s', hs, hk, h => by
    obtain ⟨k, ho⟩ := hk o List.mem_cons_self
    rw [applyAll] at h
    split at h
    · rename_i s1 h1
      rcases applyAll_bools hn (setFlag_registered hs ho h1) (fun x hx => hk x (List.mem_cons_of_mem _ hx)) h with ⟨v, b, h2, h3, h4⟩ | ⟨h2, h3⟩
      · exact Or.inl ⟨v, b, lastValue_cons.2 (Or.inl h2), h3, h4⟩
      · obtain ⟨h4, h5⟩ := setFlag_bools hs ho h1 hn
        by_cases e : o.1 = n
        · obtain ⟨b, h6, h7⟩ := h4 e
          exact Or.inl ⟨o.2, b, lastValue_cons.2 (Or.inr ⟨by rw [← e], h2⟩), h6, h3.trans h7⟩
        · refine Or.inr ⟨fun x hx => ?_, h3.trans (h5 e)⟩
          rcases List.mem_cons.1 hx with rfl | hx
          · exact e
          · exact h2 x hx
    · cases h

theorem applyAll_texts {n : Str} (hn : (n, .text) ∈ kinds) : ∀ {os : List (Str × Str)} {s s' : Flags}, Registered s → Known os → applyAll os s = some s' →
    (∃ v, LastValue os n v ∧ GMap.get n s'.texts = some v) ∨ (∀ o ∈ os, o.1 ≠ n) ∧ GMap.get n s'.texts = GMap.get n s.texts
  | [], s, s', _, _, h => by cases h; exact Or.inr ⟨by simp, rfl⟩
  | o :: os, s, s', hs, hk, h => by
    obtain ⟨k, ho⟩ := hk o List.mem_cons_self
    rw [applyAll] at h
    split at h
    · rename_i s1 h1
      rcases applyAll_texts hn (setFlag_registered hs ho h1) (fun x hx => hk x (List.mem_cons_of_mem _ hx)) h with ⟨v, h2, h4⟩ | ⟨h2, h3⟩
      · exact Or.inl ⟨v, lastValue_cons.2 (Or.inl h2), h4⟩
      · obtain ⟨h4, h5⟩ := setFlag_texts hs ho h1 hn
        by_cases e : o.1 = n
        · exact Or.inl ⟨o.2, lastValue_cons.2 (Or.inr ⟨by rw [← e], h2⟩), h3.trans (h4 e)⟩
        · refine Or.inr ⟨fun x hx => ?_, h3.trans (h5 e)⟩
          rcases List.mem_cons.1 hx with rfl | hx
          · exact e
          · exact h2 x hx
    · cases h

theorem applyAll_maps {n : Str} (hn : (n, .pairs) ∈ kinds) : ∀ {os : List (Str × Str)} {s s' : Flags}, Registered s → Known os → applyAll os s = some s' →
    ∀ m, GMap.get n s.pairs = some m → ∃ m', GMap.get n s'.pairs = some m' ∧
      SetAll ((os.filter fun o => o.1 = n).flatMap fun o => splitC ',' o.2) m m'
  | [], s, s', _, _, h => by cases h; exact fun m hm => ⟨m, hm, setAll_nil m⟩
  | o :: os, s, s', hs, hk, h => by
    intro m hm
    obtain ⟨k, ho⟩ := hk o List.mem_cons_self
    rw [applyAll] at h
    split at h
    · rename_i s1 h1
      have ih := applyAll_maps hn (setFlag_registered hs ho h1) (fun x hx => hk x (List.mem_cons_of_mem _ hx)) h
      obtain ⟨h4, h5⟩ := setFlag_maps hs ho h1 hn
      by_cases e : o.1 = n
      · obtain ⟨m1, h6, h7⟩ := h4 e m hm
        obtain ⟨m', h8, h9⟩ := ih m1 h6
        refine ⟨m', h8, ?_⟩
        rw [List.filter_cons_of_pos (by simpa using e), List.flatMap_cons]
        exact setAll_append h7 h9
      · obtain ⟨m', h8, h9⟩ := ih m ((h5 e).trans hm)
        refine ⟨m', h8, ?_⟩
        rw [List.filter_cons_of_neg (by simpa using e)]
        exact h9
    · cases h

/-! ### The syntax of arguments -/

theorem dash_cases {d : Str} (h : Dashes d) : d = ['-'] ∨ d = ['-', '-'] := h

theorem flagWord_long {t : Str} (h : t ≠ []) : flagWord ('-' :: '-' :: t) = flagBody t := by
  cases t with
  | nil => exact absurd rfl h
  | cons c t => rfl

theorem flagWord_short {c : Char} {t : Str} (h : c ≠ '-') : flagWord ('-' :: c :: t) = flagBody (c :: t) := by
  unfold flagWord
  split
  · rename_i h1
    simp only [List.cons.injEq] at h1
    exact absurd h1.2.1 h
  · rename_i h1
    simp only [List.cons.injEq, true_and] at h1
    obtain ⟨rfl, rfl⟩ := h1
    rw [if_neg h]
  · rename_i h1
    exact absurd rfl (h1 c t)

/-- An argument with dashes and something after them. -/
theorem flagWord_dashes {d t : Str} (hd : Dashes d) (h1 : t ≠ []) (h2 : t.head? ≠ some '-') : flagWord (d ++ t) = flagBody t := by
  rcases dash_cases hd with rfl | rfl
  · cases t with
    | nil => exact absurd rfl h1
    | cons c t => exact flagWord_short fun e => h2 (by rw [e]; rfl)
  · exact flagWord_long h1

theorem flagBody_name {n : Str} (h2 : n.head? ≠ some '-') (h3 : '=' ∉ n) : flagBody n = .named n none := by
  unfold flagBody
  rw [if_neg, cut_char_none '=' n h3]
  simp only [not_or]
  exact ⟨h2, fun e => h3 (List.mem_of_mem_head? (by rw [e]; rfl))⟩

theorem flagBody_value {n v : Str} (h1 : n ≠ []) (h2 : n.head? ≠ some '-') (h3 : '=' ∉ n) : flagBody (n ++ '=' :: v) = .named n (some v) := by
  have hh : (n ++ '=' :: v).head? = n.head? := by
    cases n with
    | nil => exact absurd rfl h1
    | cons c n => rfl
  unfold flagBody
  rw [if_neg, cut_char '=' n v h3]
  simp only [not_or, hh]
  exact ⟨h2, fun e => h3 (List.mem_of_mem_head? (by rw [e]; rfl))⟩

theorem flagWord_name {d n : Str} (hd : Dashes d) (h1 : n ≠ []) (h2 : n.head? ≠ some '-') (h3 : '=' ∉ n) : flagWord (d ++ n) = .named n none := by
  rw [flagWord_dashes hd h1 h2, flagBody_name h2 h3]

theorem flagWord_value {d n v : Str} (hd : Dashes d) (h1 : n ≠ []) (h2 : n.head? ≠ some '-') (h3 : '=' ∉ n) :
    flagWord (d ++ n ++ '=' :: v) = .named n (some v) := by
  rw [List.append_assoc, flagWord_dashes hd (by simp), flagBody_value h1 h2 h3]
  cases n with
  | nil => exact absurd rfl h1
  | cons c n => exact h2

/-- The text of an option without its dashes. -/
def optText (n : Str) : Option Str → Str
  | some v => n ++ '=' :: v
  | none => n

theorem flagBody_named {t n : Str} {v : Option Str} (h : flagBody t = .named n v) : t = optText n v := by
  unfold flagBody at h
  split at h
  · cases h
  · split at h
    · rename_i n' v' hc
      cases h
      simpa [optText] using cut_some hc
    · cases h
      rfl

theorem flagBody_kind {t : Str} : flagBody t = .bad ∨ ∃ n v, flagBody t = .named n v := by
  unfold flagBody
  split
  · exact Or.inl rfl
  · split
    · exact Or.inr ⟨_, _, rfl⟩
    · exact Or.inr ⟨_, _, rfl⟩

theorem flagWord_named {w n : Str} {v : Option Str} (h : flagWord w = .named n v) : ∃ d, Dashes d ∧ w = d ++ optText n v := by
  unfold flagWord at h
  split at h
  · cases h
  · rename_i c t hne
    have := flagBody_named h
    split at this
    · rename_i hc
      exact ⟨_, Or.inr rfl, by rw [hc, this]; rfl⟩
    · exact ⟨_, Or.inl rfl, by rw [← this]; rfl⟩
  · cases h

theorem flagWord_positional {w : Str} : flagWord w = .positional ↔ ∀ t, w = '-' :: t → t = [] := by
  constructor
  · rintro h t rfl
    cases t with
    | nil => rfl
    | cons c t =>
      exfalso
      unfold flagWord at h
      split at h
      · cases h
      · rcases @flagBody_kind _ with h2 | ⟨_, _, h2⟩ <;> rw [h2] at h <;> cases h
      · rename_i h1
        exact h1 c t rfl
  · intro h
    unfold flagWord
    split
    · exact absurd (h _ rfl) (by simp)
    · exact absurd (h _ rfl) (by simp)
    · rfl

theorem flagWord_terminator {w : Str} (h : flagWord w = .terminator) : w = g!"--" := by
  unfold flagWord at h
  split at h
  · rfl
  · rcases @flagBody_kind _ with h2 | ⟨_, _, h2⟩ <;> rw [h2] at h <;> cases h
  · cases h

/-- How a command line goes on after its options. -/
def Ends (argv : List Str) (s : Flags) : Parsed → Prop
  | .ok s' ps => ∃ os, Options argv os ps ∧ applyAll os s = some s'
  | .help => ∃ os r, Opts argv os r ∧ (applyAll os s).isSome = true ∧
      ∃ d n w, Dashes d ∧ (n = g!"h" ∨ n = g!"help") ∧ r.head? = some w ∧ (w = d ++ n ∨ ∃ v, w = d ++ n ++ '=' :: v)
  | .bad => True

theorem ends_cons {argv r : List Str} {s s1 : Flags} {o : Str × Str} (ho : ∀ {os ps}, Opts r os ps → Opts argv (o :: os) ps)
    (h : setFlag o.1 o.2 s = some s1) : ∀ {p : Parsed}, Ends r s1 p → Ends argv s p
  | .ok s' ps, ⟨os, ⟨q, h1, h2⟩, h3⟩ => ⟨o :: os, ⟨q, ho h1, h2⟩, by rw [applyAll, h]; exact h3⟩
  | .help, ⟨os, q, h1, h2, h3⟩ => ⟨o :: os, q, ho h1, by rw [applyAll, h]; exact h2, h3⟩
  | .bad, _ => trivial

/-- Soundness of the parser. -/
theorem parse_ends : ∀ (argv : List Str) (s : Flags), Registered s → Ends argv s (parseFlags argv s)
  | [], s, _ => by
    rw [parseFlags]
    exact ⟨[], ⟨[], .none, Or.inr ⟨rfl, by simp⟩⟩, rfl⟩
  | w :: rest, s, hs => by
    rw [parseFlags]
    split
    · rename_i hw
      refine ⟨[], ⟨_, .none, Or.inr ⟨rfl, ?_⟩⟩, rfl⟩
      intro x hx
      cases hx
      exact flagWord_positional.1 hw
    · rename_i hw
      exact ⟨[], ⟨_, .none, Or.inl (by rw [flagWord_terminator hw])⟩, rfl⟩
    · trivial
    · rename_i n v hw
      obtain ⟨d, hd, rfl⟩ := flagWord_named hw
      split
      · rename_i hb
        have hn := (hs n).1.1 hb
        split
        · rename_i s1 h1
          refine ends_cons (o := (n, v.getD g!"true")) ?_ h1 (parse_ends rest s1 (setFlag_registered hs hn h1))
          intro os ps h
          cases v with
          | none => exact .switch hd hn h
          | some v =>
            have := Opts.equals (v := v) hd hn h
            rwa [List.append_assoc] at this
        · trivial
      · rename_i hb
        split
        · rename_i ht
          have hn : ∃ k, (n, k) ∈ kinds ∧ k ≠ .switch := ht.elim (fun h => ⟨_, (hs n).2.1.1 h, by simp⟩) (fun h => ⟨_, (hs n).2.2.1 h, by simp⟩)
          obtain ⟨k, hn, hk⟩ := hn
          cases v with
          | some v =>
            simp only
            split
            · rename_i s1 h1
              refine ends_cons (o := (n, v)) ?_ h1 (parse_ends rest s1 (setFlag_registered hs hn h1))
              intro os ps h
              have := Opts.equals (v := v) hd hn h
              rwa [List.append_assoc] at this
            · trivial
          | none =>
            match rest with
            | [] => trivial
            | v :: rest =>
              simp only
              split
              · rename_i s1 h1
                refine ends_cons (o := (n, v)) ?_ h1 (parse_ends rest s1 (setFlag_registered hs hn h1))
                intro os ps h
                exact .next hd hn hk h
              · trivial
        · split
          · rename_i hh
            refine ⟨[], _, .none, rfl, d, n, _, hd, hh.symm, rfl, ?_⟩
            cases v with
            | none => exact Or.inl rfl
            | some v => exact Or.inr ⟨v, by rw [List.append_assoc]; rfl⟩
          · trivial
termination_by argv => argv.length
decreasing_by all_goals simp only [List.length_cons] <;> omega

/-- Completeness: options are taken one by one. -/
theorem parse_opts {argv r : List Str} {os : List (Str × Str)} (h : Opts argv os r) : ∀ (s : Flags), Registered s →
    parseFlags argv s = match applyAll os s with | some s' => parseFlags r s' | none => .bad := by
  induction h with
  | none => intro s _; rfl
  | @switch d n r ps os hd hn _ ih =>
    intro s hs
    obtain ⟨h1, h2, _, h3, _⟩ := kinds_name hn
    rw [parseFlags, flagWord_name hd h1 h2 h3, applyAll]
    simp only [if_pos ((hs n).1.2 hn), Option.getD_none]
    cases h : setFlag n g!"true" s with
    | none => rfl
    | some s1 => exact ih s1 (setFlag_registered hs hn h)
  | @equals d n v k r ps os hd hn _ ih =>
    intro s hs
    obtain ⟨h1, h2, _, h3, _⟩ := kinds_name hn
    rw [parseFlags, flagWord_value hd h1 h2 h3, applyAll]
    simp only [Option.getD_some]
    by_cases hb : (GMap.get n s.bools).isSome = true
    · rw [if_pos hb]
      cases h : setFlag n v s with
      | none => rfl
      | some s1 => exact ih s1 (setFlag_registered hs hn h)
    · have : (GMap.get n s.texts).isSome = true ∨ (GMap.get n s.pairs).isSome = true := by
        cases k with
        | switch => exact absurd ((hs n).1.2 hn) hb
        | text => exact Or.inl ((hs n).2.1.2 hn)
        | pairs => exact Or.inr ((hs n).2.2.2 hn)
      rw [if_neg hb, if_pos this]
      cases h : setFlag n v s with
      | none => rfl
      | some s1 => exact ih s1 (setFlag_registered hs hn h)
  | @next d n v k r ps os hd hn hk _ ih =>
    intro s hs
    obtain ⟨h1, h2, _, h3, _⟩ := kinds_name hn
    rw [parseFlags, flagWord_name hd h1 h2 h3, applyAll]
    have hb : ¬ (GMap.get n s.bools).isSome = true := fun h => hk (kinds_unique hn ((hs n).1.1 h))
    have : (GMap.get n s.texts).isSome = true ∨ (GMap.get n s.pairs).isSome = true := by
      cases k with
      | switch => exact absurd rfl hk
      | text => exact Or.inl ((hs n).2.1.2 hn)
      | pairs => exact Or.inr ((hs n).2.2.2 hn)
    simp only [if_neg hb, if_pos this]
    cases h : setFlag n v s with
    | none => rfl
    | some s1 => exact ih s1 (setFlag_registered hs hn h)

theorem parse_options {argv ps : List Str} {os : List (Str × Str)} (h : Options argv os ps) {s : Flags} (hs : Registered s) :
    parseFlags argv s = match applyAll os s with | some s' => .ok s' ps | none => .bad := by
  obtain ⟨r, h1, h2⟩ := h
  rw [parse_opts h1 s hs]
  cases applyAll os s with
  | none => rfl
  | some s' =>
    rcases h2 with rfl | ⟨rfl, h2⟩
    · simp only
      rw [parseFlags]
      rfl
    · cases r with
      | nil => simp only; rw [parseFlags]
      | cons w r =>
        simp only
        rw [parseFlags, flagWord_positional.2 (h2 w rfl)]

/-! ### What is asked for -/

theorem switchIs_unique {os : List (Str × Str)} {n : Str} {d b b' : Bool} (h : SwitchIs os n d b) (h' : SwitchIs os n d b') : b = b' := by
  rcases h with ⟨v, h1, h2⟩ | ⟨h1, h2⟩
  · rcases h' with ⟨v', h3, h4⟩ | ⟨h3, _⟩
    · rw [lastValue_unique h3 h1] at h4
      exact truth_unique h2 h4
    · exact absurd rfl (h3 _ (lastValue_mem h1))
  · rcases h' with ⟨v', h3, h4⟩ | ⟨_, h4⟩
    · exact absurd rfl (h1 _ (lastValue_mem h3))
    · rw [h2, h4]

theorem textIs_unique {os : List (Str × Str)} {n v v' : Str} (h : TextIs os n v) (h' : TextIs os n v') : v = v' := by
  rcases h with h1 | ⟨h1, h2⟩
  · rcases h' with h3 | ⟨h3, _⟩
    · exact lastValue_unique h1 h3
    · exact absurd rfl (h3 _ (lastValue_mem h1))
  · rcases h' with h3 | ⟨_, h4⟩
    · exact absurd rfl (h1 _ (lastValue_mem h3))
    · rw [h2, h4]

theorem bool_is {os : List (Str × Str)} {s : Flags} (hk : Known os) (h : applyAll os Flags.init = some s) {n : Str} {d : Bool} (hn : (n, .switch) ∈ kinds)
    (hd : GMap.get n Flags.init.bools = some d) : SwitchIs os n d (s.bool n) := by
  rcases applyAll_bools hn registered_init hk h with ⟨v, b, h1, h2, h3⟩ | ⟨h1, h2⟩
  · exact Or.inl ⟨v, h1, by rw [Flags.bool, h3]; exact h2⟩
  · exact Or.inr ⟨h1, by rw [Flags.bool, h2, hd]; rfl⟩

theorem text_is {os : List (Str × Str)} {s : Flags} (hk : Known os) (h : applyAll os Flags.init = some s) {n : Str} (hn : (n, .text) ∈ kinds)
    (hd : GMap.get n Flags.init.texts = some []) : TextIs os n (s.text n) := by
  rcases applyAll_texts hn registered_init hk h with ⟨v, h1, h3⟩ | ⟨h1, h2⟩
  · exact Or.inl (by rw [Flags.text, h3]; exact h1)
  · exact Or.inr ⟨h1, by rw [Flags.text, h2, hd]; rfl⟩

theorem map_is {os : List (Str × Str)} {s : Flags} (hk : Known os) (h : applyAll os Flags.init = some s) {n : Str} (hn : (n, .pairs) ∈ kinds)
    (hd : GMap.get n Flags.init.pairs = some []) : PairsAre os n (s.map n) := by
  obtain ⟨m, h1, h2⟩ := applyAll_maps hn registered_init hk h [] hd
  rw [Flags.map, h1]
  exact h2

/-- The rest of the command, after the options. -/
def afterFlags (abs : Str → Option Str) (build : Command → Bool) (s : Flags) (ps : List Str) : Nat × Option Command :=
  match ps with
  | [] => (1, none)
  | input :: rest =>
    if s.bool g!"avro" = true ∧ s.text g!"importPath" = [] then (1, none)
    else if s.bool g!"graphql" = true ∧ s.text g!"importPath" = [] then (1, none)
    else match abs input with
      | none => (2, none)
      | some input =>
        match (match rest with | [] => some [] | output :: _ => abs output) with
        | none => (3, none)
        | some output => (if build (commandOf s input output) = true then 0 else 4, some (commandOf s input output))

theorem runMain_eq (abs : Str → Option Str) (build : Command → Bool) (argv : List Str) : runMain abs build argv =
    match parseFlags argv Flags.init with
    | .help => (0, none)
    | .bad => (2, none)
    | .ok s ps => afterFlags abs build s ps := by
  unfold runMain
  cases parseFlags argv Flags.init with
  | help => rfl
  | bad => rfl
  | ok s ps => cases ps <;> rfl

/-- What the paths must be. -/
def PathsOk (abs : Str → Option Str) (ps : List Str) (i o : Str) : Prop :=
  (∃ p, ps.head? = some p ∧ abs p = some i) ∧ ((ps.tail = [] ∧ o = []) ∨ ∃ p, ps.tail.head? = some p ∧ abs p = some o)

theorem afterFlags_iff {abs : Str → Option Str} {build : Command → Bool} {s : Flags} {ps : List Str} {c : Command} :
    (afterFlags abs build s ps).2 = some c ↔ (s.bool g!"avro" = true ∨ s.bool g!"graphql" = true → s.text g!"importPath" ≠ []) ∧
      ∃ i o, PathsOk abs ps i o ∧ c = commandOf s i o := by
  unfold afterFlags PathsOk
  cases ps with
  | nil => simp
  | cons p ps =>
    simp only
    split
    · rename_i h
      simp [h.1, h.2]
    · rename_i h
      split
      · rename_i h'
        simp [h'.1, h'.2]
      · rename_i h'
        have hi : s.bool g!"avro" = true ∨ s.bool g!"graphql" = true → s.text g!"importPath" ≠ [] := by
          rintro (h1 | h1) h2
          · exact h ⟨h1, h2⟩
          · exact h' ⟨h1, h2⟩
        rw [and_iff_right hi]
        cases hp : abs p with
        | none => simp [hp]
        | some i =>
          cases ps with
          | nil =>
            simp only [Option.some.injEq, List.head?_cons, exists_eq_left', hp, List.tail_cons, true_and, List.head?_nil, reduceCtorEq, false_and, exists_false,
              or_false]
            constructor
            · rintro rfl
              exact ⟨_, _, ⟨rfl, rfl⟩, rfl⟩
            · rintro ⟨_, _, ⟨rfl, rfl⟩, rfl⟩
              rfl
          | cons q ps =>
            simp only [List.head?_cons, Option.some.injEq, exists_eq_left', hp, List.tail_cons, reduceCtorEq, false_and, false_or]
            cases hq : abs q with
            | none => simp
            | some o =>
              simp only [Option.some.injEq]
              constructor
              · rintro rfl
                exact ⟨_, _, ⟨rfl, rfl⟩, rfl⟩
              · rintro ⟨_, _, ⟨rfl, rfl⟩, rfl⟩
                rfl

theorem afterFlags_code {abs : Str → Option Str} {build : Command → Bool} {s : Flags} {ps : List Str} :
    (afterFlags abs build s ps).1 = 0 ↔ ∃ c, (afterFlags abs build s ps).2 = some c ∧ build c = true := by
  unfold afterFlags
  repeat' split
  all_goals simp_all

theorem asked_command {abs : Str → Option Str} {os : List (Str × Str)} {ps : List Str} {s : Flags} {i o : Str} (hk : Known os)
    (h : applyAll os Flags.init = some s) (hi : s.bool g!"avro" = true ∨ s.bool g!"graphql" = true → s.text g!"importPath" ≠ []) (hp : PathsOk abs ps i o) :
    Asked abs os ps (commandOf s i o) where
  avro := bool_is hk h (by decide) (by decide)
  msgp := bool_is hk h (by decide) (by decide)
  graphql := bool_is hk h (by decide) (by decide)
  descTag := bool_is hk h (by decide) (by decide)
  nested := by
    simp only [commandOf, Bool.not_not]
    exact bool_is hk h (by decide) (by decide)
  pointers := bool_is hk h (by decide) (by decide)
  interfaceFiles := bool_is hk h (by decide) (by decide)
  embedAllOf := bool_is hk h (by decide) (by decide)
  scalarAny := bool_is hk h (by decide) (by decide)
  importPath := text_is hk h (by decide) (by decide)
  outputDirGraphQL := text_is hk h (by decide) (by decide)
  structNames := map_is hk h (by decide) (by decide)
  fieldNames := map_is hk h (by decide) (by decide)
  graphqlNames := map_is hk h (by decide) (by decide)
  import' := hi
  schema := hp.1
  output := hp.2

theorem pathsOk_unique {abs : Str → Option Str} {ps : List Str} {i o i' o' : Str} (h : PathsOk abs ps i o) (h' : PathsOk abs ps i' o') : i = i' ∧ o = o' := by
  obtain ⟨⟨p, h1, h2⟩, h3⟩ := h
  obtain ⟨⟨p', h1', h2'⟩, h3'⟩ := h'
  cases ps with
  | nil => cases h1
  | cons q ps =>
    simp only [List.head?_cons, Option.some.injEq] at h1 h1'
    subst h1 h1'
    rw [h2] at h2'
    refine ⟨Option.some.inj h2', ?_⟩
    simp only [List.tail_cons] at h3 h3'
    cases ps with
    | nil =>
      simp only [true_and, List.head?_nil, reduceCtorEq, false_and, exists_false, or_false] at h3 h3'
      rw [h3, h3']
    | cons q ps =>
      simp only [reduceCtorEq, false_and, List.head?_cons, Option.some.injEq, exists_eq_left', false_or] at h3 h3'
      rw [h3] at h3'
      exact Option.some.inj h3'

theorem asked_same {abs : Str → Option Str} {os : List (Str × Str)} {ps : List Str} {s : Flags} {c : Command} (hk : Known os)
    (h : applyAll os Flags.init = some s) (hc : Asked abs os ps c) : PathsOk abs ps c.schemaPath c.outputDir ∧ SameCall (commandOf s c.schemaPath c.outputDir) c ∧
      (s.bool g!"avro" = true ∨ s.bool g!"graphql" = true → s.text g!"importPath" ≠ []) := by
  have e1 := switchIs_unique (bool_is hk h (by decide) (by decide)) hc.avro
  have e2 := switchIs_unique (bool_is hk h (by decide) (by decide)) hc.msgp
  have e3 := switchIs_unique (bool_is hk h (by decide) (by decide)) hc.graphql
  have e4 := switchIs_unique (bool_is hk h (by decide) (by decide)) hc.descTag
  have e5 := switchIs_unique (bool_is hk h (by decide) (by decide)) hc.nested
  have e6 := switchIs_unique (bool_is hk h (by decide) (by decide)) hc.pointers
  have e7 := switchIs_unique (bool_is hk h (by decide) (by decide)) hc.interfaceFiles
  have e8 := switchIs_unique (bool_is hk h (by decide) (by decide)) hc.embedAllOf
  have e9 := switchIs_unique (bool_is hk h (by decide) (by decide)) hc.scalarAny
  have t1 := textIs_unique (text_is hk h (by decide) (by decide)) hc.importPath
  have t2 := textIs_unique (text_is hk h (by decide) (by decide)) hc.outputDirGraphQL
  refine ⟨⟨hc.schema, hc.output⟩, ⟨?_, ?_, ?_, ?_⟩, ?_⟩
  · simp only [commandOf, e1, e2, e3, e4, e5, e6, e7, e8, e9, t1, t2, Bool.not_not]
  · exact setAll_unique (map_is hk h (by decide) (by decide)) hc.structNames
  · exact setAll_unique (map_is hk h (by decide) (by decide)) hc.fieldNames
  · exact setAll_unique (map_is hk h (by decide) (by decide)) hc.graphqlNames
  · rw [e1, e3, t1]
    exact hc.import'

theorem sameCall_trans {a b c : Command} (h : SameCall a b) (h' : SameCall a c) : SameCall b c :=
  ⟨h.same.symm.trans h'.same, fun k => (h.structNames k).symm.trans (h'.structNames k), fun k => (h.fieldNames k).symm.trans (h'.fieldNames k),
    fun k => (h.graphqlNames k).symm.trans (h'.graphqlNames k)⟩

theorem applies {argv ps : List Str} {os : List (Str × Str)} (h : Options argv os ps) (hs : ∀ o ∈ os, Suits o) :
    Known os ∧ ∃ s, applyAll os Flags.init = some s ∧ parseFlags argv Flags.init = .ok s ps := by
  obtain ⟨r, h1, _⟩ := id h
  have hk := opts_known h1
  refine ⟨hk, ?_⟩
  have hp := parse_options h registered_init
  cases ha : applyAll os Flags.init with
  | none => exact absurd hs ((applyAll_known registered_init hk).1 ha)
  | some s =>
    rw [ha] at hp
    exact ⟨s, rfl, hp⟩

theorem help_iff {argv : List Str} : parseFlags argv Flags.init = .help ↔ Help argv := by
  constructor
  · intro h
    have he := parse_ends argv Flags.init registered_init
    rw [h] at he
    obtain ⟨os, r, h1, h2, h3⟩ := he
    refine ⟨os, r, h1, Classical.not_not.1 fun hn => ?_, h3⟩
    rw [(applyAll_known registered_init (opts_known h1)).2 hn] at h2
    cases h2
  · rintro ⟨os, r, h1, h2, d, n, w, hd, hn, hw, he⟩
    have hk := opts_known h1
    rw [parse_opts h1 _ registered_init]
    cases ha : applyAll os Flags.init with
    | none => exact absurd h2 ((applyAll_known registered_init hk).1 ha)
    | some s =>
      have hs : Registered s := by
        clear h1 h2
        revert ha
        have := registered_init
        generalize Flags.init = s0 at this ⊢
        induction os generalizing s0 with
        | nil => intro h; cases h; exact this
        | cons o os ih =>
          intro h
          obtain ⟨k, ho⟩ := hk o List.mem_cons_self
          rw [applyAll] at h
          split at h
          · rename_i s1 h1
            exact ih (fun x hx => hk x (List.mem_cons_of_mem _ hx)) s1 (setFlag_registered this ho h1) h
          · cases h
      have hnk : ∀ k, (n, k) ∉ kinds := fun k hk => by
        obtain ⟨_, _, _, _, h5, h6⟩ := kinds_name hk
        exact hn.elim h5 h6
      have hn' : n ≠ [] ∧ n.head? ≠ some '-' ∧ '=' ∉ n := by rcases hn with rfl | rfl <;> decide
      have hword : ∃ v, flagWord w = .named n v := by
        rcases he with rfl | ⟨v, rfl⟩
        · exact ⟨_, flagWord_name hd hn'.1 hn'.2.1 hn'.2.2⟩
        · exact ⟨_, flagWord_value hd hn'.1 hn'.2.1 hn'.2.2⟩
      obtain ⟨v, hword⟩ := hword
      cases r with
      | nil => cases hw
      | cons w' r =>
        cases hw
        simp only
        rw [parseFlags, hword]
        simp only
        rw [if_neg fun h => hnk _ ((hs n).1.1 h), if_neg fun h => h.elim (fun h => hnk _ ((hs n).2.1.1 h)) (fun h => hnk _ ((hs n).2.2.1 h)), if_pos hn.symm]

end JT.Gen

namespace JT
open Spec Gen

/-- **C82**: the generator is called only as the command line asks, exactly once at most (the result is one call or none). -/
theorem C82 {abs : Str → Option Str} {build : Command → Bool} {argv : List Str} {c : Command} (h : (runMain abs build argv).2 = some c) :
    ∃ os ps, Options argv os ps ∧ (∀ o ∈ os, Suits o) ∧ Asked abs os ps c := by
  rw [runMain_eq] at h
  have he := parse_ends argv Flags.init registered_init
  cases hp : parseFlags argv Flags.init with
  | help => rw [hp] at h; cases h
  | bad => rw [hp] at h; cases h
  | ok s ps =>
    rw [hp] at h he
    obtain ⟨os, h1, h2⟩ := he
    obtain ⟨h3, i, o, h4, rfl⟩ := afterFlags_iff.1 h
    obtain ⟨r, h5, _⟩ := id h1
    have hk := opts_known h5
    refine ⟨os, ps, h1, Classical.not_not.1 fun hn => ?_, asked_command hk h2 h3 h4⟩
    rw [(applyAll_known registered_init hk).2 hn] at h2
    cases h2

/-- A command line asks for one thing at most. -/
theorem C82_unique {abs : Str → Option Str} {argv : List Str} {os os' : List (Str × Str)} {ps ps' : List Str} {c c' : Command}
    (h : Options argv os ps) (h' : Options argv os' ps') (hs : ∀ o ∈ os, Suits o) (hs' : ∀ o ∈ os', Suits o)
    (hc : Asked abs os ps c) (hc' : Asked abs os' ps' c') : SameCall c c' := by
  obtain ⟨hk, s, h1, h2⟩ := applies h hs
  obtain ⟨hk', s', h1', h2'⟩ := applies h' hs'
  rw [h2] at h2'
  cases h2'
  obtain ⟨h3, h4, _⟩ := asked_same hk h1 hc
  obtain ⟨h3', h4', _⟩ := asked_same hk' h1' hc'
  obtain ⟨e1, e2⟩ := pathsOk_unique h3 h3'
  rw [← e1, ← e2] at h4'
  exact sameCall_trans h4 h4'

/-- **C82**: whenever the command line asks for a call, that call is made. -/
theorem C82_runs {abs : Str → Option Str} (build : Command → Bool) {argv : List Str} {os : List (Str × Str)} {ps : List Str} {c : Command}
    (h : Options argv os ps) (hs : ∀ o ∈ os, Suits o) (hc : Asked abs os ps c) : ∃ c', (runMain abs build argv).2 = some c' ∧ SameCall c' c := by
  obtain ⟨hk, s, h1, h2⟩ := applies h hs
  obtain ⟨h3, h4, h5⟩ := asked_same hk h1 hc
  refine ⟨_, ?_, h4⟩
  rw [runMain_eq, h2]
  exact afterFlags_iff.2 ⟨h5, _, _, h3, rfl⟩

/-- **C82**: the exit code is 0 iff the generator was called and succeeded, or help was asked for. -/
theorem C82_code (abs : Str → Option Str) (build : Command → Bool) (argv : List Str) :
    (runMain abs build argv).1 = 0 ↔ (∃ c, (runMain abs build argv).2 = some c ∧ build c = true) ∨ Help argv := by
  rw [← help_iff, runMain_eq]
  cases hp : parseFlags argv Flags.init with
  | help => simp
  | bad => simp
  | ok s ps => simp [afterFlags_code]

/-- The claim without the rule that options come first: an option anywhere among the arguments is an option. -/
def C82_anywhere : Prop :=
  ∀ (abs : Str → Option Str) (build : Command → Bool) (p : Str) (c : Command), p.head? ≠ some '-' →
    (runMain abs build [p, g!"-msgp"]).2 = some c → c.messagePack = true

/-- **C82**: it does not hold; the option is taken as the output directory. -/
theorem C82_refuted : ¬ C82_anywhere := by
  intro h
  have := h some (fun _ => true) g!"schema.json" _ (by decide) rfl
  exact absurd this (by decide)

/-- Options in all their forms, repeated and with pairs; the last value counts. -/
example : (runMain some (fun _ => true) [g!"-avro", g!"--msgp=T", g!"-importPath", g!"a/b", g!"-avro=0", g!"-rename=a=b,c=d", g!"-rename", g!"a=e", g!"s.json", g!"out", g!"-x"]) =
    (0, some {
      schemaPath := g!"s.json", outputDir := g!"out", outputDirGraphQL := [], descTag := true, noNested := false, pointers := false, interfaceFiles := false,
      avro := false, messagePack := true, graphql := false, importPath := g!"a/b", structNames := [(g!"a", g!"e"), (g!"c", g!"d")], fieldNames := [], graphqlNames := [],
      embedAllOf := true, scalarAny := false }) := by rfl

/-- The hypotheses of C82_runs hold for a command line. -/
example : Options [g!"-pointers", g!"--", g!"-s.json"] [(g!"pointers", g!"true")] [g!"-s.json"] ∧ (∀ o ∈ [(g!"pointers", g!"true")], Suits o) ∧
    Asked some [(g!"pointers", g!"true")] [g!"-s.json"] {
      schemaPath := g!"-s.json", outputDir := [], outputDirGraphQL := [], descTag := true, noNested := false,
      pointers := true, interfaceFiles := false, avro := false, messagePack := false, graphql := false, importPath := [], structNames := [], fieldNames := [],
      graphqlNames := [], embedAllOf := true, scalarAny := false } := by
  have h : Options [g!"-pointers", g!"--", g!"-s.json"] [(g!"pointers", g!"true")] [g!"-s.json"] :=
    ⟨_, .switch (d := g!"-") (Or.inl rfl) (by decide) .none, Or.inl rfl⟩
  have hs : ∀ o ∈ [(g!"pointers", g!"true")], Suits o := by
    intro o ho
    simp only [List.mem_singleton] at ho
    subst ho
    exact ⟨fun _ => ⟨true, Or.inl ⟨rfl, by decide⟩⟩, fun h => absurd h (by decide)⟩
  obtain ⟨hk, s, e1, e2⟩ := applies h hs
  refine ⟨h, hs, ?_⟩
  have := asked_command (abs := some) (ps := [g!"-s.json"]) (i := g!"-s.json") (o := []) hk e1
  cases e1
  exact this (by decide) ⟨⟨_, rfl, rfl⟩, Or.inl ⟨rfl, rfl⟩⟩

/-- Help, errors, no schema, no import path. -/
example : runMain some (fun _ => true) [g!"-msgp", g!"--help"] = (0, none) ∧ runMain some (fun _ => true) [g!"-bogus", g!"s"] = (2, none) ∧
    runMain some (fun _ => true) [g!"-msgp=maybe", g!"s"] = (2, none) ∧ runMain some (fun _ => true) [] = (1, none) ∧
    runMain some (fun _ => true) [g!"-avro", g!"s"] = (1, none) ∧ (runMain some (fun _ => false) [g!"s"]).1 = 4 :=
  ⟨rfl, rfl, rfl, rfl, rfl, rfl⟩

end JT
