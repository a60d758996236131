import Verif.Model.Flags
import Verif.Proofs.Strings
import Verif.Proofs.Map
/- C64: rename flags. -/
namespace JT.Spec

/-- A pair `k=v`; the value may contain `=`. -/
def IsPair (s k v : Str) : Prop := s = k ++ '=' :: v ∧ '=' ∉ k

/-- The last pair with the key has the value. -/
def LastPair (l : List Str) (k v : Str) : Prop := ∃ a s b, l = a ++ s :: b ∧ IsPair s k v ∧ ∀ s' ∈ b, ∀ v', ¬ IsPair s' k v'

/-- What the map is after setting the pairs of a list. -/
def SetAll (l : List Str) (m m' : GMap Str) : Prop :=
  ∀ k, (∀ v, LastPair l k v → GMap.get k m' = some v) ∧ ((∀ s ∈ l, ∀ v, ¬ IsPair s k v) → GMap.get k m' = GMap.get k m)

end JT.Spec

namespace JT.Gen
open Spec

theorem isPair_unique {s k v k' v' : Str} (h : IsPair s k v) (h' : IsPair s k' v') : k = k' ∧ v = v' := by
  obtain ⟨rfl, h1⟩ := h
  obtain ⟨h2, h3⟩ := h'
  have := cut_char '=' k v h1
  rw [h2, cut_char '=' k' v' h3] at this
  simp only [Option.some.injEq, Prod.mk.injEq] at this
  exact ⟨this.1.symm, this.2.symm⟩

theorem splitN2_pair {s k v : Str} (h : IsPair s k v) : splitN2 '=' s = [k, v] := by
  obtain ⟨rfl, h1⟩ := h
  simp only [splitN2, cut_char '=' k v h1]

theorem splitN2_no {s : Str} (h : '=' ∉ s) : splitN2 '=' s = [s] := by
  simp only [splitN2, cut_char_none '=' s h]

theorem pair_or_not : ∀ s : Str, (∃ k v, IsPair s k v) ∨ '=' ∉ s
  | [] => Or.inr (by simp)
  | c :: t => by
    by_cases hc : c = '='
    · exact Or.inl ⟨[], t, by rw [hc]; rfl, by simp⟩
    · rcases pair_or_not t with ⟨k, v, h1, h2⟩ | h
      · refine Or.inl ⟨c :: k, v, by rw [h1]; rfl, ?_⟩
        simp only [List.mem_cons, not_or]
        exact ⟨fun e => hc e.symm, h2⟩
      · refine Or.inr ?_
        simp only [List.mem_cons, not_or]
        exact ⟨fun e => hc e.symm, h⟩

theorem lastPair_cons {s : Str} {l : List Str} {k v : Str} : LastPair (s :: l) k v ↔ LastPair l k v ∨ (IsPair s k v ∧ ∀ s' ∈ l, ∀ v', ¬ IsPair s' k v') := by
  constructor
  · rintro ⟨a, s', b, h1, h2, h3⟩
    cases a with
    | nil => simp only [List.nil_append, List.cons.injEq] at h1; obtain ⟨rfl, rfl⟩ := h1; exact Or.inr ⟨h2, h3⟩
    | cons x a => simp only [List.cons_append, List.cons.injEq] at h1; exact Or.inl ⟨a, s', b, h1.2, h2, h3⟩
  · rintro (⟨a, s', b, h1, h2, h3⟩ | ⟨h2, h3⟩)
    · exact ⟨s :: a, s', b, by rw [h1]; rfl, h2, h3⟩
    · exact ⟨[], s, l, rfl, h2, h3⟩

theorem setPairs_spec : ∀ (l : List Str) (m : GMap Str), ∃ a b, l = a ++ b ∧ (∀ s ∈ a, ∃ k v, IsPair s k v) ∧ SetAll a m (setPairs l m).1 ∧
    (((setPairs l m).2 = true ∧ b = []) ∨ ((setPairs l m).2 = false ∧ ∃ s t, b = s :: t ∧ '=' ∉ s))
  | [], m => ⟨[], [], rfl, by simp, fun k => ⟨by rintro v ⟨a, s, b, h, _⟩; simp at h, fun _ => rfl⟩, Or.inl ⟨rfl, rfl⟩⟩
  | s :: l, m => by
    rcases pair_or_not s with ⟨k, v, hp⟩ | hno
    · obtain ⟨a, b, h1, h2, h3, h4⟩ := setPairs_spec l (GMap.set k v m)
      have he : setPairs (s :: l) m = setPairs l (GMap.set k v m) := by simp only [setPairs, splitN2_pair hp]
      rw [he]
      refine ⟨s :: a, b, by rw [h1]; rfl, ?_, ?_, h4⟩
      · intro s' hs'
        rcases List.mem_cons.1 hs' with rfl | hs'
        · exact ⟨k, v, hp⟩
        · exact h2 s' hs'
      · intro k'
        obtain ⟨h5, h6⟩ := h3 k'
        constructor
        · intro v' hl
          rcases lastPair_cons.1 hl with hl | ⟨hl1, hl2⟩
          · exact h5 v' hl
          · obtain ⟨rfl, rfl⟩ := isPair_unique hp hl1
            rw [h6 hl2, GMap.get_set_self]
        · intro hn
          rw [h6 fun s' hs' v' => hn s' (List.mem_cons_of_mem _ hs') v', GMap.get_set_ne]
          rintro rfl
          exact hn s List.mem_cons_self v hp
    · refine ⟨[], s :: l, rfl, by simp, ?_, Or.inr ⟨?_, s, l, rfl, hno⟩⟩
      · have : (setPairs (s :: l) m).1 = m := by simp only [setPairs, splitN2_no hno]
        rw [this]
        exact fun k => ⟨by rintro v ⟨a, s, b, h, _⟩; simp at h, fun _ => rfl⟩
      · simp only [setPairs, splitN2_no hno]

end JT.Gen

namespace JT
open Spec Gen

/-- **C64**: setting a flag to a list of pairs succeeds iff each of them has an `=`, and then every key has the value of its last pair, or what it had if there is none. -/
theorem C64 (l : List Str) (m : GMap Str) (hl : l ≠ []) (hc : ∀ s ∈ l, ',' ∉ s) :
    ((flagSet (join [','] l) m).2 = true ↔ ∀ s ∈ l, '=' ∈ s) ∧ ((∀ s ∈ l, '=' ∈ s) → SetAll l m (flagSet (join [','] l) m).1) := by
  unfold flagSet
  rw [splitC_join ',' l hl hc]
  obtain ⟨a, b, h1, h2, h3, h4⟩ := setPairs_spec l m
  have hmem : ∀ s ∈ a, '=' ∈ s := by
    intro s hs
    obtain ⟨k, v, rfl, _⟩ := h2 s hs
    simp
  rcases h4 with ⟨h4, rfl⟩ | ⟨h4, s, t, rfl, h5⟩
  · rw [List.append_nil] at h1
    subst h1
    exact ⟨⟨fun _ => hmem, fun _ => h4⟩, fun _ => h3⟩
  · have hn : ¬ ∀ s ∈ l, '=' ∈ s := fun h => h5 (h s (by rw [h1]; simp))
    exact ⟨⟨fun h => absurd (h4.symm.trans h) (by simp), fun h => absurd h hn⟩, fun h => absurd h hn⟩

/-- Every flag value is such a list. -/
theorem C64_total (value : Str) : ∃ l, l ≠ [] ∧ (∀ s ∈ l, ',' ∉ s) ∧ value = join [','] l :=
  ⟨splitC ',' value, splitC_ne_nil _ _, fun s hs => not_mem_of_mem_splitC ',' value s hs, (join_splitC ',' value).symm⟩

/-- **C64**: after an error the pairs before the malformed one have been set. -/
theorem C64_error (a b : List Str) (s : Str) (m : GMap Str) (hc : ∀ x ∈ a ++ s :: b, ',' ∉ x) (ha : ∀ x ∈ a, '=' ∈ x) (hs : '=' ∉ s) :
    (flagSet (join [','] (a ++ s :: b)) m).2 = false ∧ SetAll a m (flagSet (join [','] (a ++ s :: b)) m).1 := by
  unfold flagSet
  rw [splitC_join ',' _ (by simp) hc]
  obtain ⟨a', b', h1, h2, h3, h4⟩ := setPairs_spec (a ++ s :: b) m
  have hmem : ∀ s ∈ a', '=' ∈ s := by
    intro s hs
    obtain ⟨k, v, rfl, _⟩ := h2 s hs
    simp
  rcases h4 with ⟨h4, rfl⟩ | ⟨h4, s', t, rfl, h5⟩
  · rw [List.append_nil] at h1
    exact absurd (hmem s (by rw [← h1]; simp)) hs
  · have : a = a' := by
      rcases List.append_eq_append_iff.1 h1 with ⟨c, e1, e2⟩ | ⟨c, e1, e2⟩
      · cases c with
        | nil => simpa using e1.symm
        | cons x c =>
          simp only [List.cons_append, List.cons.injEq] at e2
          exact absurd (hmem s (by rw [e1, e2.1]; simp)) hs
      · cases c with
        | nil => simpa using e1
        | cons x c =>
          simp only [List.cons_append, List.cons.injEq] at e2
          exact absurd (ha s' (by rw [e1, e2.1]; simp)) h5
    subst this
    exact ⟨h4, h3⟩

example : flagSet g!"a=1,b=2=3,a=4" [] = ([(g!"a", g!"4"), (g!"b", g!"2=3")], true) ∧ flagSet g!"a=1,b,c=2" [] = ([(g!"a", g!"1")], false) := by decide

end JT
