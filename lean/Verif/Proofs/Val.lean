import Verif.Proofs.Semantics
/- The direct semantics of a mirroring transformer is the meaning of the schema. -/
namespace JT
open Spec

theorem optAll_none {α β : Type} {f : α → Option β} : ∀ {l : List α}, (∃ x ∈ l, f x = none) → optAll f l = none
  | [], h => by obtain ⟨x, h, _⟩ := h; simp at h
  | y :: ys, h => by
    obtain ⟨x, h1, h2⟩ := h
    simp only [List.mem_cons] at h1
    simp only [optAll]
    rcases h1 with rfl | h1
    · rw [h2]
    · rw [optAll_none ⟨x, h1, h2⟩]
      cases f y <;> rfl

theorem optAll_some {α β : Type} {f : α → Option β} {g : α → β} : ∀ {l : List α}, (∀ x ∈ l, f x = some (g x)) → optAll f l = some (l.map g)
  | [], _ => rfl
  | y :: ys, h => by
    simp only [optAll, List.map_cons]
    rw [h y (by simp), optAll_some (l := ys) fun x hx => h x (by simp [hx])]

theorem get_ofList_nodup {α : Type} (k : Str) : ∀ (l : List (Str × α)), (l.map Prod.fst).Nodup → GMap.get k (GMap.ofList l) = GMap.get k l := by
  intro l
  unfold GMap.ofList
  suffices ∀ (m : GMap α), (l.map Prod.fst).Nodup →
      GMap.get k (l.foldl (fun m kv => GMap.set kv.1 kv.2 m) m) = (GMap.get k l).or (GMap.get k m) by
    intro h
    rw [this [] h]
    cases GMap.get k l <;> rfl
  induction l with
  | nil => intro m _; rfl
  | cons x r ih =>
    intro m h
    obtain ⟨k', v⟩ := x
    simp only [List.map_cons, List.nodup_cons] at h
    simp only [List.foldl_cons, GMap.get]
    rw [ih _ h.2]
    by_cases hk : k = k'
    · subst hk
      rw [if_pos rfl, GMap.get_set_self]
      have : GMap.get k r = none := by
        cases hg : GMap.get k r with
        | none => rfl
        | some w => exact absurd (List.mem_map.2 ⟨_, GMap.get_some_mem hg, rfl⟩) h.1
      rw [this]; rfl
    · rw [if_neg hk, GMap.get_set_ne hk]

theorem get_filter {α : Type} {f : α → Bool} (k : Str) : ∀ (l : List (Str × α)), (l.map Prod.fst).Nodup →
    GMap.get k (l.filter fun kv => f kv.2) = (GMap.get k l).bind fun v => if f v then some v else none
  | [], _ => rfl
  | (k', v) :: r, h => by
    simp only [List.map_cons, List.nodup_cons] at h
    have ih := get_filter (f := f) k r h.2
    by_cases hk : k = k'
    · subst hk
      have hn : GMap.get k r = none := by
        cases hg : GMap.get k r with
        | none => rfl
        | some w => exact absurd (List.mem_map.2 ⟨_, GMap.get_some_mem hg, rfl⟩) h.1
      rw [hn] at ih
      simp only [List.filter_cons, GMap.get, if_true, Option.bind_some]
      split
      · simp [GMap.get]
      · exact ih
    · simp only [List.filter_cons, GMap.get, if_neg hk]
      split
      · simp only [GMap.get, if_neg hk]; exact ih
      · exact ih

theorem ofList_eq_nil {α : Type} {l : List (Str × α)} : GMap.ofList l = [] ↔ l = [] := by
  constructor
  · intro h
    rcases List.eq_nil_or_concat l with rfl | ⟨l', x, rfl⟩
    · rfl
    · unfold GMap.ofList at h
      rw [List.concat_eq_append, List.foldl_append] at h
      simp only [List.foldl_cons, List.foldl_nil] at h
      exact absurd h (GMap.set_ne_nil _ _ _)
  · rintro rfl; rfl

/-- The children of an object, evaluated, give the object of the values of its properties. -/
theorem evalKids_objectOf {lib : Lib} {ins : List Instrs} {dv : V → P} {inp : P} {mod : Mod} {cs : List (Str × T)} {m : List (Str × P)} (hs : GMap.Sorted cs)
    (hnd : (m.map Prod.fst).Nodup) (hall : ∀ k, (∃ q, (k, q) ∈ m) → ∃ t, (k, t) ∈ cs) (hsub : ∀ kt ∈ cs, ∃ q, (kt.1, q) ∈ m) :
    ((evalKids lib ins dv cs inp mod).map fun l => if l.isEmpty then nilP else .obj l) =
      (optAll (fun k => ((GMap.get k cs).bind fun t => eval lib ins dv t inp mod).map fun p => (k, p)) (m.map Prod.fst)).map objectOf := by
  by_cases hn : ∃ kt ∈ cs, eval lib ins dv kt.2 inp mod = none
  · rw [evalKids_none hn]
    obtain ⟨⟨k, t⟩, h1, h2⟩ := hn
    obtain ⟨q, hq⟩ := hsub _ h1
    rw [optAll_none ⟨k, List.mem_map.2 ⟨_, hq, rfl⟩, by rw [GMap.get_of_mem hs h1]; simp only [Option.bind_some, h2, Option.map_none]⟩]
    rfl
  · have hsome : ∀ kt ∈ cs, ∃ q, eval lib ins dv kt.2 inp mod = some q := by
      intro kt hkt
      cases he : eval lib ins dv kt.2 inp mod with
      | none => exact absurd ⟨kt, hkt, he⟩ hn
      | some q => exact ⟨q, rfl⟩
    obtain ⟨pm, h1, h2, h3, h4⟩ := evalKids_some hs hsome
    rw [h1]
    let g : Str → P := fun k => (((GMap.get k cs).bind fun t => eval lib ins dv t inp mod)).getD nilP
    have hg : ∀ k ∈ m.map Prod.fst, ((GMap.get k cs).bind fun t => eval lib ins dv t inp mod) = some (g k) := by
      intro k hk
      obtain ⟨⟨k', q⟩, hkq, rfl⟩ := List.mem_map.1 hk
      obtain ⟨t, ht⟩ := hall k' ⟨q, hkq⟩
      obtain ⟨r, hr⟩ := hsome _ ht
      simp only at hr
      simp only [g, GMap.get_of_mem hs ht, Option.bind_some, hr, Option.getD_some]
    rw [optAll_some (g := fun k => (k, g k)) (fun k hk => by rw [hg k hk]; rfl)]
    simp only [Option.map_some, Option.some.injEq]
    unfold objectOf
    simp only
    have hkeys : (((m.map Prod.fst).map fun k => (k, g k)).map Prod.fst) = m.map Prod.fst := by
      rw [List.map_map]
      exact List.map_id' _
    have hnd1 : (((m.map Prod.fst).map fun k => (k, g k)).map Prod.fst).Nodup := by rw [hkeys]; exact hnd
    have hnd2 : ((((m.map Prod.fst).map fun k => (k, g k)).filter fun kv => !isNilP kv.2).map Prod.fst).Nodup :=
      List.Nodup.sublist (List.Sublist.map _ List.filter_sublist) hnd1
    have hpm : pm = GMap.ofList (((m.map Prod.fst).map fun k => (k, g k)).filter fun kv => !isNilP kv.2) := by
      refine GMap.Sorted.ext h2 (GMap.sorted_ofList _) fun k => ?_
      rw [h4, get_ofList_nodup _ _ hnd2, get_filter (f := fun v => !isNilP v) _ _ hnd1]
      have hgetmap : ∀ (l : List Str), GMap.get k (l.map fun k => (k, g k)) = if k ∈ l then some (g k) else none := by
        intro l
        induction l with
        | nil => rfl
        | cons x r ih =>
          simp only [List.map_cons, GMap.get]
          by_cases hk : k = x
          · subst hk; simp
          · simp [ih, hk]
      rw [hgetmap]
      by_cases hk : k ∈ m.map Prod.fst
      · rw [if_pos hk]
        have hgk := hg k hk
        cases hgc : GMap.get k cs with
        | none => rw [hgc] at hgk; simp at hgk
        | some t =>
          rw [hgc] at hgk
          simp only [Option.bind_some] at hgk ⊢
          rw [hgk]
          simp only [Option.bind_some]
          cases isNilP (g k) <;> rfl
      · rw [if_neg hk]
        cases hgc : GMap.get k cs with
        | none => rfl
        | some t =>
          obtain ⟨q, hq⟩ := hsub _ (GMap.get_some_mem hgc)
          exact absurd (List.mem_map.2 ⟨_, hq, rfl⟩) hk
    rw [hpm]
    simp only [List.isEmpty_iff, ofList_eq_nil]

theorem itemsAt_eq (lib : Lib) (path : Str) (inp : P) : itemsAt lib path inp = (match jpGet lib P.view path inp with
      | none => 0
      | some o => match outP o with
        | .sc .nil => 0
        | .arr l => l.length
        | _ => 1) := rfl

theorem transformed_of {lib : Lib} {ident : Str} {s : St} {tid : Option Nat} {l : List Seg} {sg : Seg} (hpl : ∀ x ∈ l ++ [sg], x.plain) {raw : P}
    (h : InstrsAre lib ident s tid (pathOf (l ++ [sg])) .scalar raw) (inp : P) (mod : Mod) (ty : Str) :
    Transformed lib ident inp raw (upOf l sg) mod ty (optInstrsP lib s.instrs ty mod inp tid) := by
  obtain ⟨o, h1, h2⟩ := h
  rcases extractInstrs_cases h1 with ⟨rfl, hn⟩ | ⟨tr, tis, h3, h4, h5, rfl⟩
  · cases tid with
    | some i => simp at h2
    | none =>
      simp only [optInstrsP]
      rcases hn with hn | hn
      · exact .none hn
      · exact .empty hn
  · cases tid with
    | none => simp at h2
    | some i =>
      simp only at h2
      simp only [optInstrsP, h2]
      rw [parentPathOf_scalar hpl, instrsP_replace]
      · exact .some h3 h4 h5
      · cases sg with
        | key k => exact ⟨_, rfl⟩
        | star => exact ⟨_, rfl⟩


theorem nodup_fst_eq {α : Type} : ∀ {m : List (Str × α)} {k : Str} {q q' : α}, (m.map Prod.fst).Nodup → (k, q) ∈ m → (k, q') ∈ m → q = q'
  | [], _, _, _, _, h, _ => by simp at h
  | (k', x) :: r, k, q, q', hnd, h, h' => by
    simp only [List.map_cons, List.nodup_cons] at hnd
    simp only [List.mem_cons, Prod.mk.injEq] at h h'
    rcases h with ⟨rfl, rfl⟩ | h
    · rcases h' with ⟨_, rfl⟩ | h'
      · rfl
      · exact absurd (List.mem_map.2 ⟨_, h', rfl⟩) hnd.1
    · rcases h' with ⟨rfl, rfl⟩ | h'
      · exact absurd (List.mem_map.2 ⟨_, h, rfl⟩) hnd.1
      · exact nodup_fst_eq hnd.2 h h'

mutual
theorem val_of_mirrors {lib : Lib} {ident : Str} {s : St} {dv : V → P} {inp : P} : ∀ (t : T) {l : List Seg} {sg : Seg} {raw : P} {cp : Str} {mod : Mod},
    (∀ x ∈ l ++ [sg], x.plain) → Mirrors lib ident s t (pathOf (l ++ [sg])) raw → (∀ q, Inst raw q → PlainProps q) →
    (∀ d ∈ t.defaults, s.heap.toP d = some (dv d)) → (∀ rest, mod (pathOf (l ++ [sg]) ++ rest) = cp ++ rest) →
    Val lib ident inp raw (upOf l sg) (pathOf (l ++ [sg])) cp mod (eval lib s.instrs dv t inp mod)
  | .scalar p ty d tid, l, sg, raw, cp, mod, hpl, h, hpp, hd, hm => by
    simp only [Mirrors] at h
    obtain ⟨rfl, ⟨ty0, nu, h1, h2, h3, h4⟩, h5, h6⟩ := h
    have hm0 := hm []
    simp only [List.append_nil] at hm0
    simp only [eval, hm0]
    have hdv : dv d = canon ((raw.key g!"default").getD nilP) := by
      have := hd d (by simp [T.defaults])
      rw [h5] at this
      simpa using this.symm
    rw [hdv]
    have ht := transformed_of hpl h6 inp mod ty
    unfold optInstrsP at ht
    exact .scalar h1 h2 h3 h4 ht
  | .array p d tid none, l, sg, raw, cp, mod, hpl, h, hpp, hd, hm => by simp [Mirrors] at h
  | .array p d tid (some c), l, sg, raw, cp, mod, hpl, h, hpp, hd, hm => by
    simp only [Mirrors] at h
    obtain ⟨rfl, ⟨nu, h2⟩, h3, h4, items, h5, h6⟩ := h
    have hm0 := hm []
    simp only [List.append_nil] at hm0
    simp only [eval, hm0]
    have hpl' : ∀ x ∈ l ++ [sg] ++ [.star], x.plain := by
      intro x hx
      rcases List.mem_append.1 hx with h1 | h1
      · exact hpl x h1
      · simp only [List.mem_singleton] at h1
        subst h1
        trivial
    have hps : pathOf (l ++ [sg] ++ [.star]) = pathOf (l ++ [sg]) ++ g!"[*]" := by rw [pathOf_snoc (l ++ [sg])]; rfl
    have := Val.array (up := upOf l sg) (sp := pathOf (l ++ [sg])) (cp := cp) (sub := mod) (lib := lib) (ident := ident) (inp := inp)
      (f := fun i => eval lib s.instrs dv c inp
        (pathReplace (cp ++ g!"[*]") (cp ++ g!"[" ++ itoaNat i ++ g!"]") mod)) h2 h5 (fun i => by
      have ih := val_of_mirrors (inp := inp) c (l := l ++ [sg]) (sg := .star) (raw := items) (cp := cp ++ g!"[" ++ itoaNat i ++ g!"]")
        (mod := pathReplace (cp ++ g!"[*]") (cp ++ g!"[" ++ itoaNat i ++ g!"]") mod) hpl' (by rw [hps]; exact h6)
        (fun q hq => hpp q (Inst.trans (.items (.self raw) h5) hq)) (fun d hd' => hd d (by simpa [T.defaults] using hd')) (by
          intro rest
          unfold pathReplace
          rw [hps, List.append_assoc, hm, ← List.append_assoc, replace1_prefix])
      simp only [upOf, hps] at ih
      exact ih)
    unfold itemsAt at this
    exact this
  | .object p d tid cs, l, sg, raw, cp, mod, hpl, h, hpp, hd, hm => by
    simp only [Mirrors] at h
    obtain ⟨rfl, ⟨nu, h2⟩, h3, h4, m, h5, hne, h6, h7, h8⟩ := h
    have hnames := hpp raw (.self raw) m h5
    have hsub : ∀ kt ∈ cs, ∃ q, (kt.1, q) ∈ m := fun kt hkt => let ⟨q, h1, _⟩ := MirrorsKids_iff.1 h8 kt hkt; ⟨q, h1⟩
    simp only [eval]
    rw [evalKids_objectOf h6 hnames.1 h7 hsub]
    refine Val.object h2 h5 hne ?_
    intro k q hkq
    obtain ⟨t, ht⟩ := h7 k ⟨q, hkq⟩
    rw [GMap.get_of_mem h6 ht]
    simp only [Option.bind_some]
    have hk : PlainName k := hnames.2 (k, q) hkq
    have := valKids_of_mirrors (inp := inp) cs (l := l ++ [sg]) (cp := cp) (mod := mod) hpl h8 hnames.1 (fun k q hkq => hnames.2 (k, q) hkq)
      (fun k q hq r hr => hpp r (Inst.trans (.prop (.self raw) h5 hq) hr))
      (fun d hd' => hd d (by simpa [T.defaults] using hd')) hm k t q ht hkq
    exact this
theorem valKids_of_mirrors {lib : Lib} {ident : Str} {s : St} {dv : V → P} {inp : P} : ∀ (cs : List (Str × T)) {l : List Seg} {m : List (Str × P)} {cp : Str} {mod : Mod},
    (∀ x ∈ l, x.plain) → MirrorsKids lib ident s cs (pathOf l) m → (m.map Prod.fst).Nodup → (∀ k q, (k, q) ∈ m → PlainName k) →
    (∀ k q, (k, q) ∈ m → ∀ r, Inst q r → PlainProps r) →
    (∀ d ∈ T.defaultsKids cs, s.heap.toP d = some (dv d)) → (∀ rest, mod (pathOf l ++ rest) = cp ++ rest) →
    ∀ k t q, (k, t) ∈ cs → (k, q) ∈ m →
      Val lib ident inp q (pathOf l) (pathOf l ++ '.' :: k) (cp ++ '.' :: k) mod (eval lib s.instrs dv t inp mod)
  | [], _, _, _, _, _, _, _, _, _, _, _, k, t, q, h, _ => by simp at h
  | (k', t') :: r, l, m, cp, mod, hpl, h, hnd, hp, hpp, hd, hm, k, t, q, hk, hq => by
    simp only [MirrorsKids] at h
    obtain ⟨⟨q', h1, h2⟩, h3⟩ := h
    simp only [T.defaultsKids, List.mem_append] at hd
    simp only [List.mem_cons, Prod.mk.injEq] at hk
    rcases hk with ⟨rfl, rfl⟩ | hk
    · have hqq : q = q' := nodup_fst_eq hnd hq h1
      subst hqq
      have hps : pathOf (l ++ [.key k]) = pathOf l ++ '.' :: k := pathOf_snoc l (.key k)
      have ih := val_of_mirrors (inp := inp) t (l := l) (sg := .key k) (raw := q) (cp := cp ++ '.' :: k) (mod := mod)
        (by
          intro x hx
          rcases List.mem_append.1 hx with h1 | h1
          · exact hpl x h1
          · simp only [List.mem_singleton] at h1
            subst h1
            exact hp k q hq) (by rw [hps]; exact h2) (hpp k q hq) (fun d hd' => hd d (Or.inl hd')) (by
          intro rest
          rw [hps, List.append_assoc, hm, ← List.append_assoc])
      simp only [upOf, hps] at ih
      exact ih
    · exact valKids_of_mirrors r hpl h3 hnd hp hpp (fun d hd' => hd d (Or.inr hd')) hm k t q hk hq
end

end JT
