import Verif.Proofs.TopArray
/- From schemas to the hypotheses on top level properties. -/
namespace JT
open Spec

/-! ### Rooted paths -/

theorem isAlpha_ne {c : Char} (h : isAlpha c = true) : c ≠ '.' ∧ c ≠ '[' ∧ c ≠ '$' := by
  refine ⟨?_, ?_, ?_⟩ <;> rintro rfl <;> revert h <;> decide

theorem isNameChar_ne {c : Char} (h : isNameChar c = true) : c ≠ '.' ∧ c ≠ '[' ∧ c ≠ '$' := by
  refine ⟨?_, ?_, ?_⟩ <;> rintro rfl <;> revert h <;> decide

theorem isName_chars {k : Str} (h : isName k = true) : ∀ c ∈ k, c ≠ '.' ∧ c ≠ '[' ∧ c ≠ '$' := by
  cases k with
  | nil => simp [isName] at h
  | cons x xs =>
    simp only [isName, Bool.and_eq_true, List.all_eq_true] at h
    intro c hc
    rcases List.mem_cons.1 hc with rfl | hc
    · exact isAlpha_ne h.1
    · exact isNameChar_ne (h.2 c hc)

theorem isName_plain {k : Str} (h : isName k = true) : PlainName k :=
  ⟨by rintro rfl; simp [isName] at h, fun hc => (isName_chars h _ hc).1 rfl, fun hc => (isName_chars h _ hc).2.1 rfl⟩

/-- The rest of a path after a name. -/
def Tail (rest : Str) : Prop := rest = [] ∨ ∃ r, rest = '.' :: r ∨ rest = '[' :: r

theorem name_unique : ∀ {n n' rest rest' : Str}, (∀ c ∈ n, c ≠ '.' ∧ c ≠ '[' ∧ c ≠ '$') → (∀ c ∈ n', c ≠ '.' ∧ c ≠ '[' ∧ c ≠ '$') → Tail rest → Tail rest' →
    n ++ rest = n' ++ rest' → n = n' := by
  intro n
  induction n with
  | nil =>
    intro n' rest rest' _ h' ht _ he
    cases n' with
    | nil => rfl
    | cons c cs =>
      have hc := h' c (by simp)
      simp only [List.nil_append, List.cons_append] at he
      subst he
      rcases ht with h | ⟨r, h | h⟩ <;> simp at h
      · exact absurd h.1 hc.1
      · exact absurd h.1 hc.2.1
  | cons x xs ih =>
    intro n' rest rest' h h' ht ht' he
    cases n' with
    | nil =>
      have hc := h x (by simp)
      simp only [List.nil_append, List.cons_append] at he
      subst he
      rcases ht' with h | ⟨r, h | h⟩ <;> simp at h
      · exact absurd h.1 hc.1
      · exact absurd h.1 hc.2.1
    | cons y ys =>
      simp only [List.cons_append, List.cons.injEq] at he
      rw [he.1, ih (fun c hc => h c (by simp [hc])) (fun c hc => h' c (by simp [hc])) ht ht' he.2]

theorem Spec.Rooted.unique {n n' p : Str} (h : Rooted n p) (h' : Rooted n' p) : n = n' := by
  obtain ⟨h1, rest, rfl, h2, h3⟩ := h
  obtain ⟨g1, rest', he, g2, g3⟩ := h'
  refine name_unique (isName_chars h1) (isName_chars g1) h3 g3 ?_
  simpa using he

theorem Spec.Rooted.head {n p : Str} (h : Rooted n p) : ∃ t, p = '$' :: t ∧ '$' ∉ t := by
  obtain ⟨h1, rest, rfl, h2, _⟩ := h
  refine ⟨'.' :: (n ++ rest), by simp, ?_⟩
  simp only [List.mem_cons, List.mem_append, not_or]
  exact ⟨by decide, fun h => (isName_chars h1 _ h).2.2 rfl, h2⟩

theorem Spec.Rooted.append {n p r : Str} (h : Rooted n p) (hr : '$' ∉ r) (ht : Tail r) : Rooted n (p ++ r) := by
  obtain ⟨h1, rest, rfl, h2, h3⟩ := h
  refine ⟨h1, rest ++ r, by simp, by simp [h2, hr], ?_⟩
  rcases h3 with rfl | ⟨r', rfl | rfl⟩
  · exact ht
  · exact Or.inr ⟨r' ++ r, Or.inl rfl⟩
  · exact Or.inr ⟨r' ++ r, Or.inr rfl⟩

theorem rooted_name {k : Str} (h : isName k = true) : Rooted k (g!"$." ++ k) := ⟨h, [], by simp, by simp, Or.inl rfl⟩

theorem no_dollar_itoa (i : Nat) : '$' ∉ itoaNat i := by
  intro h
  exact itoaNat_no_char i _ (by decide) h

/-- Modifiers that keep the top level name of a path. -/
def KeepsRooted (mod : Mod) : Prop := ∀ name path, Rooted name path → Rooted name (mod path)

theorem keepsRooted_id : KeepsRooted id := fun _ _ h => h

theorem keepsRooted_item {k x : Str} (hx : Rooted k x) (i : Nat) {mod : Mod} (hm : KeepsRooted mod) :
    KeepsRooted (pathReplace (x ++ g!"[*]") (x ++ g!"[" ++ itoaNat i ++ g!"]") mod) := by
  intro name path h
  have h := hm name path h
  unfold pathReplace
  generalize mod path = p at h
  unfold replace1
  cases hc : cut (x ++ g!"[*]") p with
  | none => exact h
  | some ab =>
    obtain ⟨a, b⟩ := ab
    simp only
    have hp := cut_some hc
    obtain ⟨t, ht, hd⟩ := h.head
    obtain ⟨tx, htx, _⟩ := hx.head
    rw [ht] at hp
    cases a with
    | cons c a =>
      simp only [List.cons_append, List.cons.injEq] at hp
      exfalso
      apply hd
      rw [hp.2, htx]
      simp
    | nil =>
      have hb : '$' ∉ b := by
        intro hb
        apply hd
        rw [htx] at hp
        simp only [List.nil_append, List.cons_append, List.cons.injEq, true_and] at hp
        rw [hp]
        simp [hb]
      have hpe : p = x ++ (g!"[*]" ++ b) := by rw [ht, hp]; simp
      have hk : Rooted k p := by
        rw [hpe]
        exact hx.append (by simp [hb]) (Or.inr ⟨_, Or.inr rfl⟩)
      rw [h.unique hk]
      have : ([] : Str) ++ (x ++ g!"[" ++ itoaNat i ++ g!"]") ++ b = x ++ ('[' :: (itoaNat i ++ g!"]" ++ b)) := by simp
      rw [this]
      refine hx.append ?_ (Or.inr ⟨_, Or.inr rfl⟩)
      simp [no_dollar_itoa i, hb]

/-- Paths in an inner instance: what `@` stands for is below the same property. -/
theorem rooted_at {k up j name : Str} (hup : Rooted k up) (hk : isName k = true) (h : Rooted name (atPath (g!"$." ++ k) j)) : Rooted name (atPath up j) := by
  unfold atPath at h ⊢
  split at h
  · rename_i r
    obtain ⟨t, ht, hd⟩ := h.head
    have hr : '$' ∉ r := by
      intro hr
      apply hd
      simp only [List.cons_append, List.cons.injEq, true_and] at ht
      rw [← ht]
      simp [hr]
    rw [h.unique ((rooted_name hk).append (r := '.' :: r) (by simp [hr]) (Or.inr ⟨_, Or.inl rfl⟩))]
    exact hup.append (by simp [hr]) (Or.inr ⟨_, Or.inl rfl⟩)
  · rename_i r
    obtain ⟨t, ht, hd⟩ := h.head
    have hr : '$' ∉ r := by
      intro hr
      apply hd
      simp only [List.cons_append, List.cons.injEq, true_and] at ht
      rw [← ht]
      simp [hr]
    rw [h.unique ((rooted_name hk).append (r := '[' :: r) (by simp [hr]) (Or.inr ⟨_, Or.inr rfl⟩))]
    exact hup.append (by simp [hr]) (Or.inr ⟨_, Or.inr rfl⟩)
  · exact h

/-! ### Paths read -/

theorem parseInstrs_paths {lib : Lib} {tr : P} {tis : Instrs} (h : parseInstrs lib tr = .ok tis) :
    ∀ ti ∈ tis.from, ∃ l e, tr.key g!"from" = some (.arr l) ∧ e ∈ l ∧ entryPath e = ti.jsonPath := by
  unfold parseInstrs at h
  simp only [Res.bind_eq_ok, Res.pure_eq_ok] at h
  obtain ⟨p, hp, fromJ, hfr, fr, hmap, _, _, _, _, _, _, m, _, rfl⟩ := h
  intro ti hti
  simp only at hti
  obtain ⟨e, he, hpe⟩ := mapRes_mem hmap ti hti
  have hfr' := asList_mem hfr he
  rw [asStruct_key hp] at hfr'
  refine ⟨fromJ, e, hfr', he, ?_⟩
  unfold parseInstr at hpe
  split at hpe
  · contradiction
  · simp only [Res.bind_eq_ok, Res.pure_eq_ok] at hpe
    obtain ⟨p2, h2, jp, hj, _, _, opsJ, h3, ops, h4, rfl⟩ := hpe
    rw [asStruct_key h2] at hj
    simp only
    unfold entryPath
    unfold asString at hj
    split at hj <;> simp_all

theorem tidReads_of {lib : Lib} {ident : Str} {s : St} {tid : Option Nat} {path up : Str} {kind : Kind} {raw : P} (hup : parentPathOf kind path = up)
    (hh : ∃ r, up = '$' :: r) (h : InstrsAre lib ident s tid path kind raw) {mod : Mod} (hm : KeepsRooted mod) {ok : Str → Prop}
    {good : Str → Prop} (hg : ∀ name path, Rooted name path → good name → ok path)
    (hr : ∀ j, ReadsPath ident raw j → ∃ name, Rooted name (atPath up j) ∧ good name) : TidReads ok s.instrs mod tid := by
  obtain ⟨o, h1, h2⟩ := h
  intro i tis hi hti ti hmem
  subst hi
  cases o with
  | none => simp at h2
  | some tis' =>
    simp only at h2
    rw [hti] at h2
    cases h2
    rcases extractInstrs_cases h1 with ⟨h3, _⟩ | ⟨tr, tis0, h3, h4, h5, h6⟩
    · simp at h3
    · simp only [Option.some.injEq] at h6
      subst h6
      rw [hup] at hmem
      simp only [replaceJSONPathPrefix, List.map_map, List.mem_map] at hmem
      obtain ⟨ti0, hti0, rfl⟩ := hmem
      obtain ⟨l, e, g1, g2, g3⟩ := parseInstrs_paths h5 ti0 hti0
      obtain ⟨name, k1, k2⟩ := hr _ ⟨tr, l, e, h3, g1, g2, g3⟩
      simp only [Function.comp]
      rw [replacePrefix_at hh]
      exact hg name _ (hm name _ k1) k2

theorem below_trans_items {q items r : P} (h : q.key g!"items" = some items) (hr : Inst items r) : Below q r := Or.inl ⟨items, h, hr⟩

theorem below_inst {q r : P} (h : Below q r) : Inst q r := by
  rcases h with ⟨items, h1, h2⟩ | ⟨m, k, x, h1, h2, h3⟩
  · exact Inst.trans (.items (.self q) h1) h2
  · exact Inst.trans (.prop (.self q) h1 h2) h3

mutual
/-- What a transformer reads. -/
theorem reads_of_mirrors {lib : Lib} {ident : Str} {s : St} {k : Str} {ok : Str → Prop} {good : Str → Prop}
    (hg : ∀ name path, Rooted name path → good name → ok path) (hgk : good k) :
    ∀ (t : T) {l : List Seg} {sg : Seg} {raw : P} {mod : Mod}, (∀ x ∈ l ++ [sg], x.plain) → Mirrors lib ident s t (pathOf (l ++ [sg])) raw →
    Rooted k (pathOf (l ++ [sg])) → (∀ q, Inst raw q → ∀ m, q.key g!"properties" = some (.obj m) → ∀ kv ∈ m, isName kv.1 = true) → KeepsRooted mod →
    (∀ j, ReadsPath ident raw j → ∃ name, Rooted name (atPath (upOf l sg) j) ∧ good name) →
    (∀ r j up, Below raw r → ReadsPath ident r j → Rooted k up → ∃ name, Rooted name (atPath up j) ∧ good name) →
    t.reads ok s.instrs mod
  | .scalar p ty d tid, l, sg, raw, mod, hpl, h, hroot, hnm, hm, hr, hb => by
    simp only [Mirrors] at h
    obtain ⟨rfl, _, _, h6⟩ := h
    simp only [T.reads]
    refine ⟨hg k _ (hm k _ hroot) hgk, tidReads_of (parentPathOf_scalar hpl) ?_ h6 hm hg hr⟩
    cases sg with
    | key k => exact ⟨_, rfl⟩
    | star => exact ⟨_, rfl⟩
  | .array p d tid none, l, sg, raw, mod, hpl, h, hroot, hnm, hm, hr, hb => by simp [Mirrors] at h
  | .array p d tid (some c), l, sg, raw, mod, hpl, h, hroot, hnm, hm, hr, hb => by
    simp only [Mirrors] at h
    obtain ⟨rfl, ⟨nu, h2⟩, h3, h4, items, h5, h6⟩ := h
    simp only [T.reads]
    refine ⟨hg k _ (hm k _ hroot) hgk, fun i => ?_⟩
    have hpl' : ∀ x ∈ l ++ [sg] ++ [.star], x.plain := by
      intro x hx
      rcases List.mem_append.1 hx with h1 | h1
      · exact hpl x h1
      · simp only [List.mem_singleton] at h1
        subst h1
        trivial
    have hps : pathOf (l ++ [sg] ++ [.star]) = pathOf (l ++ [sg]) ++ g!"[*]" := by rw [pathOf_snoc (l ++ [sg])]; rfl
    have hroot' : Rooted k (pathOf (l ++ [sg] ++ [.star])) := by
      rw [hps]
      exact hroot.append (by decide) (Or.inr ⟨_, Or.inr rfl⟩)
    refine reads_of_mirrors hg hgk c (l := l ++ [sg]) (sg := .star) (raw := items) hpl' (by rw [hps]; exact h6) hroot' 
      (fun q hq => hnm q (Inst.trans (.items (.self raw) h5) hq)) (keepsRooted_item (hm k _ hroot) i hm) ?_ ?_
    · intro j hj
      exact hb items j _ (Or.inl ⟨items, h5, .self _⟩) hj hroot'
    · intro r j up hbr
      exact hb r j up (Or.inl ⟨items, h5, below_inst hbr⟩)
  | .object p d tid cs, l, sg, raw, mod, hpl, h, hroot, hnm, hm, hr, hb => by
    simp only [Mirrors] at h
    obtain ⟨rfl, ⟨nu, h2⟩, h3, h4, m, h5, hne, h6, h7, h8⟩ := h
    simp only [T.reads]
    exact readsKids_of_mirrors hg hgk cs (l := l ++ [sg]) hpl h8 hroot (fun k' q hq => hnm raw (.self raw) m h5 (k', q) hq)
      (fun k' q hq r hr => hnm r (Inst.trans (.prop (.self raw) h5 hq) hr)) hm
      (fun k' q hq r j up hi => hb r j up (Or.inr ⟨m, k', q, h5, hq, hi⟩))
theorem readsKids_of_mirrors {lib : Lib} {ident : Str} {s : St} {k : Str} {ok : Str → Prop} {good : Str → Prop}
    (hg : ∀ name path, Rooted name path → good name → ok path) (hgk : good k) :
    ∀ (cs : List (Str × T)) {l : List Seg} {m : List (Str × P)} {mod : Mod}, (∀ x ∈ l, x.plain) → MirrorsKids lib ident s cs (pathOf l) m →
    Rooted k (pathOf l) → (∀ k' q, (k', q) ∈ m → isName k' = true) →
    (∀ k' q, (k', q) ∈ m → ∀ r, Inst q r → ∀ m, r.key g!"properties" = some (.obj m) → ∀ kv ∈ m, isName kv.1 = true) → KeepsRooted mod →
    (∀ k' q, (k', q) ∈ m → ∀ r j up, Inst q r → ReadsPath ident r j → Rooted k up → ∃ name, Rooted name (atPath up j) ∧ good name) →
    T.readsKids ok s.instrs cs mod
  | [], _, _, _, _, _, _, _, _, _, _ => by simp only [T.readsKids]
  | (k', t) :: r, l, m, mod, hpl, h, hroot, hn, hnm, hm, hb => by
    simp only [MirrorsKids] at h
    obtain ⟨⟨q, h1, h2⟩, h3⟩ := h
    simp only [T.readsKids]
    refine ⟨?_, readsKids_of_mirrors hg hgk r hpl h3 hroot hn hnm hm hb⟩
    have hps : pathOf (l ++ [.key k']) = pathOf l ++ '.' :: k' := pathOf_snoc l (.key k')
    have hk' := hn k' q h1
    refine reads_of_mirrors hg hgk t (l := l) (sg := .key k') (raw := q) ?_ (by rw [hps]; exact h2) ?_ (hnm k' q h1) hm ?_ ?_
    · intro x hx
      rcases List.mem_append.1 hx with h1 | h1
      · exact hpl x h1
      · simp only [List.mem_singleton] at h1
        subst h1
        exact isName_plain hk'
    · rw [hps]
      refine hroot.append ?_ (Or.inr ⟨_, Or.inl rfl⟩)
      simp only [List.mem_cons, not_or]
      exact ⟨by decide, fun h => (isName_chars hk' _ h).2.2 rfl⟩
    · intro j hj
      exact hb k' q h1 q j _ (.self q) hj hroot
    · intro r j up hbr
      exact hb k' q h1 r j up (below_inst hbr)
end

/-! ### Top level properties of a schema -/

theorem inst_cases {q r : P} (h : Inst q r) : r = q ∨ Below q r := by
  induction h with
  | self => exact Or.inl rfl
  | @prop q m k r h1 h2 h3 ih =>
    rcases ih with rfl | ⟨items, g1, g2⟩ | ⟨m', k', x, g1, g2, g3⟩
    · exact Or.inr (Or.inr ⟨m, k, r, h2, h3, .self r⟩)
    · exact Or.inr (Or.inl ⟨items, g1, .prop g2 h2 h3⟩)
    · exact Or.inr (Or.inr ⟨m', k', x, g1, g2, .prop g3 h2 h3⟩)
  | @items q r h1 h2 ih =>
    rcases ih with rfl | ⟨items, g1, g2⟩ | ⟨m', k', x, g1, g2, g3⟩
    · exact Or.inr (Or.inl ⟨r, h2, .self r⟩)
    · exact Or.inr (Or.inl ⟨items, g1, .items g2 h2⟩)
    · exact Or.inr (Or.inr ⟨m', k', x, g1, g2, .items g3 h2⟩)

theorem parentPathOf_array {k : Str} (hk : PlainName k) : parentPathOf .array (g!"$" ++ '.' :: k) = g!"$" := by
  unfold parentPathOf
  rw [if_neg (by simp)]
  unfold dropLast
  rw [dropLast_splitC hk.2.1]
  exact join_splitC '.' _

theorem transformed_of' {lib : Lib} {ident : Str} {s : St} {tid : Option Nat} {path up : Str} {kind : Kind} (hup : parentPathOf kind path = up)
    (hh : ∃ r, up = '$' :: r) {raw : P} (h : InstrsAre lib ident s tid path kind raw) (inp : P) (mod : Mod) (ty : Str) :
    Transformed lib ident inp raw up mod ty (optInstrsP lib s.instrs ty mod inp tid) := by
  obtain ⟨o, h1, h2⟩ := h
  rcases extractInstrs_cases h1 with ⟨rfl, hn⟩ | ⟨tr, tis, h3, h4, h5, rfl⟩
  · cases tid with
    | some i => simp at h2
    | none =>
      simp only [optInstrsP]
      rcases hn with hn | hn
      · exact .none hn
      · exact .empty hn
  · cases tid with
    | none => simp at h2
    | some i =>
      simp only at h2
      simp only [optInstrsP, h2]
      rw [hup, instrsP_replace lib ty mod tis inp hh]
      exact .some h3 h4 h5

theorem top_of_mirrors {lib : Lib} {ident : Str} {s : St} {t : T} {k : Str} {q : P} {m : GMap P} {sc : Schema} (hl : Local lib)
    (hi : IsolatedSchema ident sc m) (hkq : (k, q) ∈ m) (hm : Mirrors lib ident s t (g!"$" ++ '.' :: k) q) :
    TopChild lib (Stored ident m) s.instrs k t ∧ (∀ d ∈ topDefaults t, s.heap.toP d = some (dvOf s d)) ∧
      ∀ inp, TopVal lib ident inp k q (evalTop lib s.instrs (dvOf s) k t inp) := by
  have hname := hi.names k q hkq
  have hpn := isName_plain hname
  have hroot : Rooted k (g!"$." ++ k) := rooted_name hname
  have hinst : ∀ r, Inst q r → SchemaInst sc r := fun r hr => Or.inl ⟨m, k, q, hi.props, hkq, hr⟩
  have hg : ∀ name path, Rooted name path → ¬ (Stored ident m name ∧ name ≠ k) → Avoids lib (fun j => Stored ident m j ∧ j ≠ k) path :=
    fun name path h1 h2 => hl name path h1 _ h2
  have hgk : ¬ (Stored ident m k ∧ k ≠ k) := fun h => h.2 rfl
  have hplain : ∀ r, Inst q r → PlainProps r := fun r hr m' hm' =>
    ⟨(hi.inNames r (hinst r hr) m' hm').1, fun kv hkv => isName_plain ((hi.inNames r (hinst r hr) m' hm').2 kv hkv)⟩
  have hown : ∀ j, ReadsPath ident q j → ∃ name, Rooted name (atPath g!"$" j) ∧ ¬ (Stored ident m name ∧ name ≠ k) := by
    intro j hj
    obtain ⟨name, h1, h2⟩ := hi.reads k q j hkq hj
    exact ⟨name, h1, fun h => h2 h.2 h.1⟩
  have hbelow : ∀ r j up, Below q r → ReadsPath ident r j → Rooted k up → ∃ name, Rooted name (atPath up j) ∧ ¬ (Stored ident m name ∧ name ≠ k) := by
    intro r j up hbr hj hup
    obtain ⟨name, h1, h2⟩ := hi.readsIn k q r j hkq hbr hj
    exact ⟨name, rooted_at hup hname h1, fun h => h2 h.2 h.1⟩
  have hsimpleBelow : ∀ r, Below q r → SimpleInst ident r := fun r hr =>
    ⟨fun hc => (hi.inner k q r hkq hr hc).1, fun hc => (hi.inner k q r hkq hr hc).2, hi.notLast r (hinst r (below_inst hr)),
      hi.noClock r (hinst r (below_inst hr)), hplain r (below_inst hr)⟩
  have hpath : t.path = g!"$" ++ '.' :: k := Mirrors.path_eq hm
  have hsegs : ∀ x ∈ ([] : List Seg) ++ [.key k], x.plain := by
    intro x hx
    simp only [List.nil_append, List.mem_singleton] at hx
    subst hx
    exact hpn
  have hps : pathOf ([] ++ [.key k]) = g!"$" ++ '.' :: k := by simp [pathOf, segsText, Seg.text]
  -- properties that are not arrays
  have simple : ¬ ArrayDef q → (∀ d ∈ t.defaults, ∃ p, s.heap.toP d = some p) →
      TopFrag (Avoids lib fun j => Stored ident m j ∧ j ≠ k) s.instrs k t = (t.frag s.instrs ∧ t.reads (Avoids lib fun j => Stored ident m j ∧ j ≠ k) s.instrs id) →
      ¬ Stores t → topDefaults t = t.defaults → (∀ inp, evalTop lib s.instrs (dvOf s) k t inp = eval lib s.instrs (dvOf s) t inp id) →
      TopChild lib (Stored ident m) s.instrs k t ∧ (∀ d ∈ topDefaults t, s.heap.toP d = some (dvOf s d)) ∧
        ∀ inp, TopVal lib ident inp k q (evalTop lib s.instrs (dvOf s) k t inp) := by
    intro hna hdp e1 e2 e3 e4
    have hsimple : ∀ r, Inst q r → SimpleInst ident r := by
      intro r hr
      rcases inst_cases hr with rfl | hb
      · have h0 : Container r → NoDefault r ∧ NoTransform ident r := fun hc => (hi.top k r hkq hc).resolve_left hna
        exact ⟨fun hc => (h0 hc).1, fun hc => (h0 hc).2, hi.notLast r (hinst r hr), hi.noClock r (hinst r hr), hplain r hr⟩
      · exact hsimpleBelow r hb
    have hd : ∀ d ∈ t.defaults, s.heap.toP d = some (dvOf s d) := by
      intro d hd
      obtain ⟨p, hp⟩ := hdp d hd
      rw [dvOf, hp]; rfl
    refine ⟨⟨hpath, hpn.2.1, hpn.2.2, ?_, fun h => absurd h e2⟩, by rw [e3]; exact hd, fun inp => ?_⟩
    · rw [e1]
      refine ⟨frag_of_mirrors t hm hsimple, ?_⟩
      exact reads_of_mirrors hg hgk t (l := []) (sg := .key k) (raw := q) hsegs (by rw [hps]; exact hm) (by rw [hps]; exact hroot)
        (fun r hr m' hm' => (hi.inNames r (hinst r hr) m' hm').2) keepsRooted_id hown hbelow
    · rw [e4]
      refine .other (fun nu h => hna ⟨nu, h⟩) ?_
      have := val_of_mirrors (inp := inp) (dv := dvOf s) t (l := []) (sg := .key k) (raw := q) (cp := g!"$." ++ k) (mod := id) hsegs
        (by rw [hps]; exact hm) hplain hd (by intro rest; rw [hps]; rfl)
      rw [hps] at this
      exact this
  match t, hm, hpath, simple with
  | .scalar p ty d tid, hm, hpath, simple =>
    refine simple ?_ (defaults_toP _ hm) rfl (fun h => h) rfl (fun _ => rfl)
    simp only [Mirrors] at hm
    obtain ⟨rfl, ⟨ty0, nu, h1, h2, _⟩, _⟩ := hm
    rintro ⟨nu', h⟩
    rw [h1] at h
    simp at h
    exact h2 h.1
  | .object p d tid cs, hm, hpath, simple =>
    refine simple ?_ (defaults_toP _ hm) rfl (fun h => h) rfl (fun _ => rfl)
    simp only [Mirrors] at hm
    obtain ⟨rfl, ⟨nu, h1⟩, _⟩ := hm
    rintro ⟨nu', h⟩
    rw [h1] at h
    simp at h
  | .array p d tid none, hm, hpath, simple => simp [Mirrors] at hm
  | .array p d tid (some c), hm, hpath, _ =>
    simp only [Mirrors] at hm
    obtain ⟨rfl, ⟨nu, h2⟩, h3, h4, items, h5, h6⟩ := hm
    have hup : parentPathOf .array (g!"$" ++ '.' :: k) = g!"$" := parentPathOf_array hpn
    have hdc : ∀ d ∈ c.defaults, s.heap.toP d = some (dvOf s d) := by
      intro d hd
      obtain ⟨p, hp⟩ := defaults_toP c h6 d hd
      rw [dvOf, hp]; rfl
    have hd0 : s.heap.toP (arrD d) = some (dvOf s (arrD d)) := by
      unfold DefaultIs at h3
      rw [dvOf, h3]; rfl
    have hdv : dvOf s (arrD d) = canon ((q.key g!"default").getD nilP) := by
      unfold DefaultIs at h3
      rw [dvOf, h3]; rfl
    have hpl' : ∀ x ∈ ([] : List Seg) ++ [.key k] ++ [.star], x.plain := by
      intro x hx
      rcases List.mem_append.1 hx with h1 | h1
      · exact hsegs x h1
      · simp only [List.mem_singleton] at h1
        subst h1
        trivial
    have hps' : pathOf ([] ++ [.key k] ++ [.star]) = g!"$" ++ '.' :: k ++ g!"[*]" := by simp [pathOf, segsText, Seg.text]
    have hroot' : Rooted k (g!"$" ++ '.' :: k ++ g!"[*]") := hroot.append (by decide) (Or.inr ⟨_, Or.inr rfl⟩)
    have hitems : ∀ r, Inst items r → Below q r := fun r hr => Or.inl ⟨items, h5, hr⟩
    refine ⟨⟨rfl, hpn.2.1, hpn.2.2, ?_, ?_⟩, ?_, ?_⟩
    · simp only [TopFrag]
      refine ⟨rfl, hpn.2.1, hpn.2.2, frag_of_mirrors c h6 fun r hr => hsimpleBelow r (hitems r hr),
        instrsAre_good h4 (hi.notLast q (hinst q (.self q))) (hi.noClock q (hinst q (.self q))),
        tidReads_of hup ⟨_, rfl⟩ h4 keepsRooted_id hg hown, hg k _ hroot hgk, fun i => ?_⟩
      refine reads_of_mirrors hg hgk c (l := [] ++ [.key k]) (sg := .star) (raw := items) hpl' (by rw [hps']; exact h6) (by rw [hps']; exact hroot')
        (fun r hr m' hm' => (hi.inNames r (hinst r (below_inst (hitems r hr))) m' hm').2) (keepsRooted_item hroot i keepsRooted_id) ?_ ?_
      · intro j hj
        refine hbelow items j _ (hitems items (.self _)) hj ?_
        simp only [upOf]
        rw [hps']
        exact hroot'
      · intro r j up hbr
        exact hbelow r j up (hitems r (below_inst hbr))
    · intro hst
      refine ⟨q, hkq, ⟨nu, h2⟩, fun hno => hst ⟨?_, instrsAre_none h4 hno.2⟩⟩
      cases d with
      | none => rfl
      | some a =>
        unfold DefaultIs at h3
        rw [noDefault_canon hno.1] at h3
        exact absurd h3 toP_arr_ne
    · simp only [topDefaults, List.mem_cons, forall_eq_or_imp]
      exact ⟨hd0, hdc⟩
    · intro inp
      simp only [evalTop]
      have htr := transformed_of' hup ⟨_, rfl⟩ h4 inp id g!"array"
      rw [hdv]
      rcases hb : (arrayBase (optInstrsP lib s.instrs g!"array" id inp tid) ((jpGet lib P.view (g!"$" ++ '.' :: k) inp).map outP)
        (canon ((q.key g!"default").getD nilP))) with _ | b
      · exact .fails h2 htr (by rw [show (g!"$." ++ k) = g!"$" ++ '.' :: k from rfl, hb]; rfl)
      · simp only [Option.bind_some]
        rcases hw : inputWith k b inp with _ | inp'
        · exact .fails h2 htr (by rw [show (g!"$." ++ k) = g!"$" ++ '.' :: k from rfl, hb]; exact hw)
        · simp only [Option.bind_some]
          refine .array (f := fun i => eval lib s.instrs (dvOf s) c inp'
            (pathReplace (g!"$" ++ '.' :: k ++ g!"[*]") (g!"$" ++ '.' :: k ++ g!"[" ++ itoaNat i ++ g!"]") id)) h2 h5 htr hb hw (fun i => ?_)
          have := val_of_mirrors (inp := inp') (dv := dvOf s) c (l := [] ++ [.key k]) (sg := .star) (raw := items)
            (cp := g!"$" ++ '.' :: k ++ g!"[" ++ itoaNat i ++ g!"]")
            (mod := pathReplace (g!"$" ++ '.' :: k ++ g!"[*]") (g!"$" ++ '.' :: k ++ g!"[" ++ itoaNat i ++ g!"]") id) hpl'
            (by rw [hps']; exact h6) (fun r hr => hplain r (below_inst (hitems r hr))) hdc (by
              intro rest
              unfold pathReplace
              rw [hps']
              exact replace1_prefix _ _ _)
          simp only [upOf] at this
          rw [hps'] at this
          exact this

/-! ### Uniqueness -/

theorem TopVal.unique {lib : Lib} {ident : Str} {inp q : P} {k : Str} {r r' : Option P} (h : TopVal lib ident inp k q r)
    (h' : TopVal lib ident inp k q r') : r = r' := by
  cases h with
  | other h1 h2 =>
    cases h' with
    | other _ g2 => exact Val.unique h2 g2
    | array g1 => exact absurd g1 (h1 _)
    | fails g1 => exact absurd g1 (h1 _)
  | @array nu items inp' tr b f h1 h2 h3 h4 h5 h6 =>
    cases h' with
    | other g1 _ => exact absurd h1 (g1 _)
    | @array nu' items' inp'' tr' b' f' g1 g2 g3 g4 g5 g6 =>
      have e1 := Transformed.unique h3 g3
      subst e1
      rw [h4] at g4
      cases g4
      rw [h5] at g5
      cases g5
      rw [h2] at g2
      cases g2
      rw [optAll_congr fun i _ => Val.unique (h6 i) (g6 i)]
    | fails g1 g2 g3 =>
      have e1 := Transformed.unique h3 g2
      subst e1
      rw [h4] at g3
      simp only [Option.bind_some] at g3
      rw [h5] at g3
      cases g3
  | fails h1 h2 h3 =>
    cases h' with
    | other g1 _ => exact absurd h1 (g1 _)
    | array g1 g2 g3 g4 g5 g6 =>
      have e1 := Transformed.unique h2 g3
      subst e1
      rw [g4] at h3
      simp only [Option.bind_some] at h3
      rw [g5] at h3
      cases h3
    | fails => rfl

theorem TopSchemaVal.unique {lib : Lib} {ident : Str} {inp : P} {sc : Schema} {r r' : Option P} (h : TopSchemaVal lib ident inp sc r)
    (h' : TopSchemaVal lib ident inp sc r') : r = r' := by
  cases h with
  | @mk m f h1 h2 =>
    cases h' with
    | @mk m' f' g1 g2 =>
      rw [h1] at g1
      cases g1
      have : ∀ k ∈ m.map Prod.fst, f k = f' k := by
        intro k hk
        obtain ⟨⟨k', q⟩, hq, rfl⟩ := List.mem_map.1 hk
        exact TopVal.unique (h2 k' q hq) (g2 k' q hq)
      rw [optAll_congr fun k hk => by rw [this k hk]]

/-- A call on a Transformer for such a schema, JSON input: the value of the schema, rendered. -/
theorem transform_topVal {env0 env : Env} {sc : Schema} {ident : Str} {t : T} {s0 : St} {m : GMap P} (hb : newTransformer env0 sc ident = .ok (t, s0))
    (hl : Local env.lib) (hi : IsolatedSchema ident sc m) (hf : env.fmt = .json) (hlib : env.lib = env0.lib) {raw : Str} {p : P}
    (hp : env.lib.parseJSON raw = some p) :
    ∃ r, TopSchemaVal env.lib ident (canon p) sc r ∧ (baseTransform env t raw s0).1.toOption = r.bind env.lib.marshal := by
  have hplain : PlainSchema sc := by
    refine ⟨?_, ?_⟩
    · intro m' hm'
      rw [hi.props] at hm'
      cases hm'
      exact ⟨hi.nodup, fun kv hkv => isName_plain (hi.names kv.1 kv.2 hkv)⟩
    · intro q hq m' hm'
      exact ⟨(hi.inNames q hq m' hm').1, fun kv hkv => isName_plain ((hi.inNames q hq m' hm').2 kv hkv)⟩
  have hm := newTransformer_mirrors hb hplain
  rw [← hlib] at hm
  rcases hm with ⟨m', cs, h1, h2, rfl, h3, h4, h5⟩ | ⟨q, c, h1, _⟩
  · rw [hi.props] at h1
    cases h1
    have htop : ∀ k t, (k, t) ∈ cs → ∃ q, (k, q) ∈ m ∧ Mirrors env.lib ident s0 t (g!"$" ++ '.' :: k) q := fun k t hkt =>
      MirrorsKids_iff.1 h5 (k, t) hkt
    have hcall := baseTransform_top hf (W := Stored ident m) (dv := dvOf s0) h3 (fun kt hkt => by
        obtain ⟨q, g1, g2⟩ := htop kt.1 kt.2 hkt
        exact (top_of_mirrors hl hi g1 g2).1) (fun kt hkt d hd => by
        obtain ⟨q, g1, g2⟩ := htop kt.1 kt.2 hkt
        exact rep_of_toP ((top_of_mirrors hl hi g1 g2).2.1 d hd)) (keys := m.map Prod.fst) hi.nodup (fun k => by
        constructor
        · intro hk
          obtain ⟨⟨k', q⟩, hq, rfl⟩ := List.mem_map.1 hk
          exact h4 k' ⟨q, hq⟩
        · rintro ⟨t, ht⟩
          obtain ⟨q, g1, _⟩ := htop k t ht
          exact List.mem_map.2 ⟨_, g1, rfl⟩) raw
    rw [hp] at hcall
    refine ⟨_, ?_, hcall⟩
    refine TopSchemaVal.mk hi.props ?_
    intro k q hkq
    obtain ⟨t, ht⟩ := h4 k ⟨q, hkq⟩
    rw [GMap.get_of_mem h3 ht]
    simp only [Option.bind_some]
    obtain ⟨q', g1, g2⟩ := htop k t ht
    have : q = q' := nodup_fst_eq hi.nodup hkq g1
    subst this
    exact (top_of_mirrors hl hi g1 g2).2.2 _
  · rw [hi.props] at h1
    cases h1

end JT
