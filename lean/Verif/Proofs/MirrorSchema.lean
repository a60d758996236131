import Verif.Proofs.Mirror
/- NewTransformer builds a tree that mirrors the schema: the top level. -/
namespace JT
open Spec

/-- Adding the top-level properties. -/
theorem root_add {lib : Lib} {ident : Str} : ∀ (m : List (Str × P)), (∀ kv ∈ m, PlainName kv.1 ∧ ∀ q, Inst kv.2 q → PlainProps q) →
    ∀ (fin : List (Str × P)) (cs : List (Str × T)) (root2 : T) (s1 s2 : St), KidsOk lib ident s1 g!"$" fin cs →
      foldRes (fun kv st => walkRaw (walker lib ident) (kv.2.depth + 1) kv.2 (prependPath g!"$" kv.1) st) m (.object g!"$" none none cs, s1) = .ok (root2, s2) →
      ∃ cs', BExt s1 s2 ∧ KidsOk lib ident s2 g!"$" (fin ++ m) cs' ∧ root2 = .object g!"$" none none cs'
  | [], _, fin, cs, root2, s1, s2, hk, h => by
    simp [foldRes] at h
    obtain ⟨rfl, rfl⟩ := h
    exact ⟨cs, BExt.refl _, by simpa using hk, rfl⟩
  | (k, q) :: r, hpm, fin, cs, root2, s1, s2, hk, h => by
    have hkq := hpm (k, q) (by simp)
    simp only [foldRes] at h
    have hp : prependPath g!"$" k = pathOf ([] ++ [.key k]) := prependPath_path [] hkq.1.1
    rw [hp] at h
    rcases hw : walkRaw (walker lib ident) (q.depth + 1) q (pathOf ([] ++ [.key k])) (.object g!"$" none none cs, s1) with ⟨root3, s3⟩ | _ | _
    · rw [hw] at h
      simp only at h
      obtain ⟨node, e1, hm, hu⟩ := walkRaw_adds lib ident _ q [] (.key k) _ root3 s1 s3
        (by intro x hx; simp at hx; subst hx; exact hkq.1) hkq.2 hw
      have hpath : node.path = g!"$" ++ '.' :: k := by
        rw [Mirrors.path_eq hm, pathOf_snoc]; rfl
      have hb' := addChild_object hkq.1 hpath hu
      subst hb'
      have hm' : Mirrors lib ident s3 node (g!"$" ++ '.' :: k) q := by
        rw [pathOf_snoc] at hm; exact hm
      obtain ⟨cs', e2, hk2, hu4⟩ := root_add r (fun kv hkv => hpm kv (by simp [hkv])) (fin ++ [(k, q)]) _ root2 s3 s2
        (hk.add e1 hm') h
      exact ⟨cs', e1.trans e2, by simpa using hk2, hu4⟩
    all_goals rw [hw] at h; simp at h

theorem KidsOk.of_mem {lib : Lib} {ident : Str} {s : St} {path : Str} {fin m : List (Str × P)} {cs : List (Str × T)} (h : KidsOk lib ident s path fin cs)
    (hm : ∀ x, x ∈ fin ↔ x ∈ m) : KidsOk lib ident s path m cs :=
  ⟨h.sorted, fun kq hkq => h.all kq ((hm kq).2 hkq), fun kt hkt => let ⟨q, h1, h2⟩ := h.mirror kt hkt; ⟨q, (hm _).1 h1, h2⟩⟩

theorem newTransformer_mirrors {env : Env} {sc : Schema} {ident : Str} {t : T} {s0 : St} (hb : newTransformer env sc ident = .ok (t, s0))
    (hpl : PlainSchema sc) : MirrorsSchema env.lib ident s0 t sc := by
  unfold newTransformer at hb
  simp only at hb
  rcases hp : sc.properties with _ | m
  · rcases hi : sc.items with _ | q
    · rw [hp, hi] at hb; simp at hb
    · rw [hp, hi] at hb
      simp only [Option.isSome_none, Option.isSome_some, if_true, Bool.false_eq_true, if_false] at hb
      rw [Res.map_eq_ok] at hb
      obtain ⟨⟨t1, s1⟩, hw, he⟩ := hb
      simp only [Prod.mk.injEq] at he
      obtain ⟨rfl, rfl⟩ := he
      unfold walkRawSchema at hw
      rw [hp, hi] at hw
      have hnil : (env.sched.perm 0 (Str × P) []) = [] := (env.sched.isPerm 0 _ []).eq_nil
      simp only [Option.getD_none, hnil, foldRes] at hw
      have hs : starPath g!"$" = pathOf ([] ++ [.star]) := rfl
      rw [hs] at hw
      obtain ⟨node, e1, hm, hu⟩ := walkRaw_adds env.lib ident _ q [] .star _ t1 _ s1
        (by intro x hx; simp at hx; subst hx; trivial) (fun r hr => hpl.2 r (Or.inr ⟨q, hi, hr⟩)) hw
      simp [T.updateAt, T.addChild] at hu
      subst hu
      exact Or.inr ⟨q, node, hp, hi, rfl, Mirrors.mono (s := s1) (s' := { s1 with shared := s1.heap.length }) ⟨fun _ _ h => h, fun _ _ h => h⟩ hm⟩
  · rw [hp] at hb
    simp only [Option.isSome_some, if_true] at hb
    rw [Res.map_eq_ok] at hb
    obtain ⟨⟨t1, s1⟩, hw, he⟩ := hb
    simp only [Prod.mk.injEq] at he
    obtain ⟨rfl, rfl⟩ := he
    unfold walkRawSchema at hw
    rw [hp] at hw
    simp only [Option.getD_some] at hw
    have hperm := env.sched.isPerm 0 (Str × P) m
    rcases hf : foldRes (fun kv st => walkRaw (walker env.lib ident) (kv.2.depth + 1) kv.2 (prependPath g!"$" kv.1) st)
      (env.sched.perm 0 (Str × P) m) (.object g!"$" none none [], St.empty) with ⟨t2, s2⟩ | _ | _
    · rw [hf] at hw
      simp only at hw
      obtain ⟨cs', e1, hk, rfl⟩ := root_add _ (fun kv hkv => ⟨(hpl.1 m hp).2 kv (hperm.mem_iff.1 hkv), fun q hq => hpl.2 q
        (Or.inl ⟨m, kv.1, kv.2, hp, hperm.mem_iff.1 hkv, hq⟩)⟩) [] [] t2 _ s2 ⟨by simp [GMap.Sorted], by simp, by simp⟩ hf
      have hk : KidsOk env.lib ident s2 g!"$" m cs' := (by simpa using hk : KidsOk _ _ _ _ _ _).of_mem fun x => hperm.mem_iff
      rcases hi : sc.items with _ | q
      · rw [hi] at hw
        simp only [Res.ok.injEq, Prod.mk.injEq] at hw
        obtain ⟨rfl, rfl⟩ := hw
        have hk := hk.mono (s' := { s2 with shared := s2.heap.length }) ⟨fun _ _ h => h, fun _ _ h => h⟩
        refine Or.inl ⟨m, cs', hp, hi, rfl, hk.sorted, ?_, MirrorsKids_iff.2 hk.mirror⟩
        rintro k ⟨q, hq⟩
        exact hk.all (k, q) hq
      · rw [hi] at hw
        simp only at hw
        have hs : starPath g!"$" = pathOf ([] ++ [.star]) := rfl
        rw [hs] at hw
        obtain ⟨node, e1, hm, hu⟩ := walkRaw_adds env.lib ident _ q [] .star _ t1 _ s1
          (by intro x hx; simp at hx; subst hx; trivial) (fun r hr => hpl.2 r (Or.inr ⟨q, hi, hr⟩)) hw
        have hpath : node.path = g!"$[*]" := Mirrors.path_eq hm
        simp only [List.map_nil, T.updateAt, T.addChild, hpath] at hu
        rw [if_neg (by decide)] at hu
        contradiction
    all_goals rw [hf] at hw; simp at hw

end JT
