import Verif.Spec.Save
import Verif.Proofs.MapMore
import Verif.Proofs.Strings
/- Documents in memory without sharing. -/
namespace JT
open Spec

mutual
theorem Own.mono {h h' : Heap} {A A' : Nat → Prop} (hA : ∀ a, A a → A' a) (hh : ∀ a, A a → ∀ c, h[a]? = some c → h'[a]? = some c) :
    ∀ {p : P} {v : V}, Own h p v A → Own h' p v A'
  | .sc s, v, ho => by simpa [Own] using ho
  | .arr ps, v, ho => by
    simp only [Own] at ho ⊢
    obtain ⟨a, vs, B, rfl, hc, ha, hn, hB, hl⟩ := ho
    exact ⟨a, vs, B, rfl, hh a ha _ hc, hA a ha, hn, fun x hx => hA x (hB x hx), OwnL.mono (fun _ => id) (fun x hx => hh x (hB x hx)) hl⟩
  | .obj m, v, ho => by
    simp only [Own] at ho ⊢
    obtain ⟨a, vs, B, rfl, hc, hs, ha, hn, hB, hl⟩ := ho
    exact ⟨a, vs, B, rfl, hh a ha _ hc, hs, hA a ha, hn, fun x hx => hA x (hB x hx), OwnM.mono (fun _ => id) (fun x hx => hh x (hB x hx)) hl⟩
theorem OwnL.mono {h h' : Heap} {A A' : Nat → Prop} (hA : ∀ a, A a → A' a) (hh : ∀ a, A a → ∀ c, h[a]? = some c → h'[a]? = some c) :
    ∀ {ps : List P} {vs : List V}, OwnL h ps vs A → OwnL h' ps vs A'
  | [], vs, ho => by simpa [OwnL] using ho
  | p :: ps, vs, ho => by
    simp only [OwnL] at ho ⊢
    obtain ⟨v, vs', B, C, rfl, h1, h2, hB, hC, hd⟩ := ho
    exact ⟨v, vs', B, C, rfl, Own.mono (fun _ => id) (fun x hx => hh x (hB x hx)) h1, OwnL.mono (fun _ => id) (fun x hx => hh x (hC x hx)) h2,
      fun x hx => hA x (hB x hx), fun x hx => hA x (hC x hx), hd⟩
theorem OwnM.mono {h h' : Heap} {A A' : Nat → Prop} (hA : ∀ a, A a → A' a) (hh : ∀ a, A a → ∀ c, h[a]? = some c → h'[a]? = some c) :
    ∀ {ps : List (Str × P)} {vs : GMap V}, OwnM h ps vs A → OwnM h' ps vs A'
  | [], vs, ho => by simpa [OwnM] using ho
  | (k, p) :: ps, vs, ho => by
    simp only [OwnM] at ho ⊢
    obtain ⟨v, vs', B, C, rfl, h1, h2, hB, hC, hd⟩ := ho
    exact ⟨v, vs', B, C, rfl, Own.mono (fun _ => id) (fun x hx => hh x (hB x hx)) h1, OwnM.mono (fun _ => id) (fun x hx => hh x (hC x hx)) h2,
      fun x hx => hA x (hB x hx), fun x hx => hA x (hC x hx), hd⟩
end

theorem OwnL.length {h : Heap} : ∀ {ps : List P} {vs : List V} {A : Nat → Prop}, OwnL h ps vs A → vs.length = ps.length
  | [], vs, _, ho => by simp only [OwnL] at ho; simp [ho]
  | p :: ps, vs, A, ho => by
    simp only [OwnL] at ho
    obtain ⟨v, vs', B, C, rfl, _, h2, _⟩ := ho
    simp [OwnL.length h2]

theorem OwnL.pad {h : Heap} (n : Nat) : ∀ {ps : List P} {vs : List V} {A : Nat → Prop}, OwnL h ps vs A →
    OwnL h (ps ++ List.replicate n (.sc .nil)) (vs ++ List.replicate n V.nil) A
  | [], vs, A, ho => by
    simp only [OwnL] at ho
    subst ho
    simp only [List.nil_append]
    induction n with
    | zero => simp [OwnL]
    | succ n ih =>
      simp only [List.replicate_succ, OwnL]
      exact ⟨_, _, fun _ => False, A, rfl, by simp [Own, V.nil], ih, by simp, fun _ => id, by simp⟩
  | p :: ps, vs, A, ho => by
    simp only [OwnL] at ho
    obtain ⟨v, vs', B, C, rfl, h1, h2, hB, hC, hd⟩ := ho
    simp only [List.cons_append, OwnL]
    exact ⟨v, _, B, C, rfl, h1, OwnL.pad n h2, hB, hC, hd⟩

/-- One element of a list, and what remains if it is replaced. -/
theorem OwnL.focus {h : Heap} : ∀ {ps : List P} {vs : List V} {A : Nat → Prop} (i : Nat) (hi : i < ps.length), OwnL h ps vs A →
    ∃ (v : V) (B C : Nat → Prop), vs[i]? = some v ∧ Own h ps[i] v B ∧ (∀ x, B x → A x) ∧ (∀ x, C x → A x) ∧ (∀ x, B x → ¬ C x) ∧
      ∀ (h' : Heap) (p' : P) (v' : V) (D E : Nat → Prop), (∀ x, C x → ∀ c, h[x]? = some c → h'[x]? = some c) → Own h' p' v' D → (∀ x, D x → ¬ C x) →
        (∀ x, D x → E x) → (∀ x, C x → E x) → OwnL h' (ps.set i p') (vs.set i v') E
  | p :: ps, vs, A, 0, hi, ho => by
    simp only [OwnL] at ho
    obtain ⟨v, vs', B, C, rfl, h1, h2, hB, hC, hd⟩ := ho
    refine ⟨v, B, C, rfl, h1, hB, hC, hd, ?_⟩
    intro h' p' v' D E hh ho' hd' hDE hCE
    simp only [List.set_cons_zero, OwnL]
    exact ⟨v', vs', D, C, rfl, ho', OwnL.mono (fun _ => id) hh h2, hDE, hCE, hd'⟩
  | p :: ps, vs, A, i + 1, hi, ho => by
    simp only [OwnL] at ho
    obtain ⟨v, vs', B, C, rfl, h1, h2, hB, hC, hd⟩ := ho
    obtain ⟨w, B1, C1, e, o1, hB1, hC1, hd1, f⟩ := OwnL.focus i (by simpa using hi) h2
    refine ⟨w, B1, fun x => B x ∨ C1 x, by simpa using e, by simpa using o1, fun x hx => hC x (hB1 x hx), ?_, ?_, ?_⟩
    · rintro x (hx | hx)
      · exact hB x hx
      · exact hC x (hC1 x hx)
    · rintro x hx (hx' | hx')
      · exact hd x hx' (hB1 x hx)
      · exact hd1 x hx hx'
    · intro h' p' v' D E hh ho' hd' hDE hCE
      simp only [List.set_cons_succ, OwnL]
      refine ⟨v, _, B, fun x => D x ∨ C1 x, rfl, Own.mono (fun _ => id) (fun x hx => hh x (Or.inl hx)) h1,
        f h' p' v' D (fun x => D x ∨ C1 x) (fun x hx => hh x (Or.inr hx)) ho' (fun x hx hx' => hd' x hx (Or.inr hx')) (fun x => Or.inl) (fun x => Or.inr),
        fun x hx => hCE x (Or.inl hx), ?_, ?_⟩
      · rintro x (hx | hx)
        · exact hDE x hx
        · exact hCE x (Or.inr hx)
      · rintro x hx (hx' | hx')
        · exact hd' x hx' (Or.inl hx)
        · exact hd x hx (hC1 x hx')

theorem OwnM.get {h : Heap} (k : Str) : ∀ {ps : List (Str × P)} {m : GMap V} {A : Nat → Prop}, OwnM h ps m A → GMap.get k ps = none → GMap.get k m = none
  | [], m, _, ho, _ => by simp only [OwnM] at ho; simp [ho, GMap.get]
  | (k', p) :: ps, m, A, ho, hg => by
    simp only [OwnM] at ho
    obtain ⟨v, m', B, C, rfl, h1, h2, hB, hC, hd⟩ := ho
    simp only [GMap.get] at hg ⊢
    split
    · simp_all
    · rename_i hne
      rw [if_neg hne] at hg
      exact OwnM.get k h2 hg

/-- A new entry. -/
theorem OwnM.insert {h : Heap} {k : Str} {p : P} {v : V} {D : Nat → Prop} (hp : Own h p v D) : ∀ {ps : List (Str × P)} {m : GMap V} {A : Nat → Prop},
    OwnM h ps m A → GMap.get k ps = none → (∀ x, D x → ¬ A x) → OwnM h (GMap.set k p ps) (GMap.set k v m) (fun x => A x ∨ D x)
  | [], m, A, ho, _, hd => by
    simp only [OwnM] at ho
    subst ho
    simp only [GMap.set, OwnM]
    exact ⟨v, [], D, A, rfl, hp, rfl, fun x => Or.inr, fun x => Or.inl, hd⟩
  | (k', p') :: ps, m, A, ho, hg, hd => by
    simp only [OwnM] at ho
    obtain ⟨w, m', B, C, rfl, h1, h2, hB, hC, hd1⟩ := ho
    simp only [GMap.get] at hg
    by_cases hk : k = k'
    · simp [hk] at hg
    · rw [if_neg hk] at hg
      simp only [GMap.set, if_neg hk]
      by_cases hlt : strLt k k' = true
      · rw [if_pos hlt, if_pos hlt]
        simp only [OwnM]
        exact ⟨v, _, D, A, rfl, hp, ⟨w, m', B, C, rfl, h1, h2, hB, hC, hd1⟩, fun x => Or.inr, fun x => Or.inl, hd⟩
      · rw [if_neg hlt, if_neg hlt]
        simp only [OwnM]
        refine ⟨w, _, B, fun x => C x ∨ D x, rfl, h1, OwnM.insert hp h2 hg (fun x hx hx' => hd x hx (hC x hx')), fun x hx => Or.inl (hB x hx), ?_, ?_⟩
        · rintro x (hx | hx)
          · exact Or.inl (hC x hx)
          · exact Or.inr hx
        · rintro x hx (hx' | hx')
          · exact hd1 x hx hx'
          · exact hd x hx' (hB x hx)

/-- An entry, and what remains if it is replaced. -/
theorem OwnM.focus {h : Heap} (k : Str) : ∀ {ps : List (Str × P)} {m : GMap V} {A : Nat → Prop} {p : P}, OwnM h ps m A → GMap.Sorted ps → GMap.get k ps = some p →
    ∃ (v : V) (B C : Nat → Prop), GMap.get k m = some v ∧ Own h p v B ∧ (∀ x, B x → A x) ∧ (∀ x, C x → A x) ∧ (∀ x, B x → ¬ C x) ∧
      ∀ (h' : Heap) (p' : P) (v' : V) (D E : Nat → Prop), (∀ x, C x → ∀ c, h[x]? = some c → h'[x]? = some c) → Own h' p' v' D → (∀ x, D x → ¬ C x) →
        (∀ x, D x → E x) → (∀ x, C x → E x) → OwnM h' (GMap.set k p' ps) (GMap.set k v' m) E
  | [], m, A, p, ho, _, hg => by simp [GMap.get] at hg
  | (k', p0) :: ps, m, A, p, ho, hs, hg => by
    simp only [OwnM] at ho
    obtain ⟨v, m', B, C, rfl, h1, h2, hB, hC, hd⟩ := ho
    simp only [GMap.get] at hg ⊢
    by_cases hk : k = k'
    · subst hk
      simp only [if_true, Option.some.injEq] at hg ⊢
      subst hg
      refine ⟨v, B, C, rfl, h1, hB, hC, hd, ?_⟩
      intro h' p' v' D E hh ho' hd' hDE hCE
      simp only [GMap.set, if_true, OwnM]
      exact ⟨v', m', D, C, rfl, ho', OwnM.mono (fun _ => id) hh h2, hDE, hCE, hd'⟩
    · rw [if_neg hk] at hg
      simp only [if_neg hk]
      have hlt : ¬ strLt k k' = true := by
        intro hlt
        have := strLt_asymm (hs.1 _ (GMap.get_some_mem hg))
        simp only at this
        rw [hlt] at this
        contradiction
      obtain ⟨w, B1, C1, e, o1, hB1, hC1, hd1, f⟩ := OwnM.focus k h2 hs.2 hg
      refine ⟨w, B1, fun x => B x ∨ C1 x, e, o1, fun x hx => hC x (hB1 x hx), ?_, ?_, ?_⟩
      · rintro x (hx | hx)
        · exact hB x hx
        · exact hC x (hC1 x hx)
      · rintro x hx (hx' | hx')
        · exact hd x hx' (hB1 x hx)
        · exact hd1 x hx hx'
      · intro h' p' v' D E hh ho' hd' hDE hCE
        simp only [GMap.set, if_neg hk, if_neg hlt, OwnM]
        refine ⟨v, _, B, fun x => D x ∨ C1 x, rfl, Own.mono (fun _ => id) (fun x hx => hh x (Or.inl hx)) h1,
          f h' p' v' D (fun x => D x ∨ C1 x) (fun x hx => hh x (Or.inr hx)) ho' (fun x hx hx' => hd' x hx (Or.inr hx')) (fun x => Or.inl) (fun x => Or.inr),
          fun x hx => hCE x (Or.inl hx), ?_, ?_⟩
        · rintro x (hx | hx)
          · exact hDE x hx
          · exact hCE x (Or.inr hx)
        · rintro x hx (hx' | hx')
          · exact hd' x hx' (Or.inl hx)
          · exact hd x hx (hC1 x hx')

theorem OwnM.isSome {h : Heap} (k : Str) : ∀ {ps : List (Str × P)} {m : GMap V} {A : Nat → Prop}, OwnM h ps m A → (GMap.get k m).isSome = (GMap.get k ps).isSome
  | [], m, _, ho => by simp only [OwnM] at ho; simp [ho, GMap.get]
  | (k', p) :: ps, m, A, ho => by
    simp only [OwnM] at ho
    obtain ⟨v, m', B, C, rfl, h1, h2, hB, hC, hd⟩ := ho
    simp only [GMap.get]
    split
    · rfl
    · exact OwnM.isSome k h2

/-- The entries of another map that are missing. -/
theorem OwnM.fill {h : Heap} : ∀ {po : List (Str × P)} {o : GMap V} {B : Nat → Prop} {pn : List (Str × P)} {n : GMap V} {A : Nat → Prop},
    OwnM h po o B → OwnM h pn n A → (∀ x, A x → ¬ B x) → OwnM h (GMap.fill pn po) (GMap.fill n o) (fun x => A x ∨ B x)
  | [], o, B, pn, n, A, hb, ha, _ => by
    simp only [OwnM] at hb
    subst hb
    exact OwnM.mono (fun _ => Or.inl) (fun _ _ _ => id) ha
  | (k, p) :: po, o, B, pn, n, A, hb, ha, hd => by
    simp only [OwnM] at hb
    obtain ⟨v, o', B1, C1, rfl, h1, h2, hB, hC, hd1⟩ := hb
    simp only [GMap.fill, List.foldl_cons]
    by_cases hk : (GMap.get k pn).isSome = true
    · rw [if_pos hk, if_pos (by rw [OwnM.isSome k ha]; exact hk)]
      have := OwnM.fill h2 ha fun x hx hx' => hd x hx (hC x hx')
      refine OwnM.mono ?_ (fun _ _ _ => id) this
      rintro x (hx | hx)
      · exact Or.inl hx
      · exact Or.inr (hC x hx)
    · rw [if_neg hk, if_neg (by rw [OwnM.isSome k ha]; exact hk)]
      have hn : GMap.get k pn = none := by simpa using hk
      have h3 := OwnM.insert h1 ha hn fun x hx hx' => hd x hx' (hB x hx)
      have := OwnM.fill h2 h3 (by
        rintro x (hx | hx) hx'
        · exact hd x hx (hC x hx')
        · exact hd1 x hx hx')
      refine OwnM.mono ?_ (fun _ _ _ => id) this
      rintro x ((hx | hx) | hx)
      · exact Or.inl hx
      · exact Or.inr (hB x hx)
      · exact Or.inr (hC x hx)

end JT
