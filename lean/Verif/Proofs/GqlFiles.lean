import Verif.Spec.GqlFiles
import Verif.Props.C70
import Verif.Props.C89
/- The types of schemas with allOf and oneOf entries are put together from those of the entries. -/
namespace JT.Gql
open Spec
open Flat (keyOf)

/-! ### Schemas with fewer properties -/

theorem at_eq {q r r' : P} {l : List Seg} (hn : ∀ l q' m, At instNode q l q' → instNode q' = some (.object m) → (m.map Prod.fst).Nodup)
    (h : At instNode q l r) (h' : At instNode q l r') : r = r' := by
  induction h with
  | here => cases h'; rfl
  | @prop raw q r m k l h1 h2 h3 ih =>
    cases h' with
    | prop g1 g2 g3 =>
      rw [h1] at g1
      cases g1
      have e := GMap.get_mem_nodup (hn _ _ _ .here h1) h2
      rw [GMap.get_mem_nodup (hn _ _ _ .here h1) g2] at e
      cases e
      exact ih (fun l q' m' ha => hn _ _ _ (.prop h1 h2 ha)) g3
  | @item raw q r l h1 h2 ih =>
    cases h' with
    | item g1 g2 =>
      rw [h1] at g1
      cases g1
      exact ih (fun l q' m' ha => hn _ _ _ (.item h1 ha)) g2

theorem schemaAt_eq {sc : Schema} (hn : SchemaNames instNode sc) {l : List Seg} {q q' : P} (h : SchemaAt instNode sc l q) (h' : SchemaAt instNode sc l q') : q = q' := by
  cases h with
  | prop h1 h2 h3 =>
    cases h' with
    | prop g1 g2 g3 =>
      rw [h1] at g1
      cases g1
      have e := GMap.get_mem_nodup (hn.1 _ h1).1 h2
      rw [GMap.get_mem_nodup (hn.1 _ h1).1 g2] at e
      cases e
      exact at_eq (fun l q' m' ha hv => (hn.2 _ _ _ (.prop h1 h2 ha) hv).1) h3 g3
  | item h1 h3 =>
    cases h' with
    | item g1 g3 =>
      rw [h1] at g1
      cases g1
      exact at_eq (fun l q' m' ha hv => (hn.2 _ _ _ (.item h1 ha) hv).1) h3 g3

theorem at_sub {m M : GMap P} (hs : ∀ k q, (k, q) ∈ m → (k, q) ∈ M) {l : List Seg} {q : P} (h : SchemaAt instNode ⟨some m, none⟩ l q) :
    SchemaAt instNode ⟨some M, none⟩ l q := by
  cases h with
  | prop h1 h2 h3 => cases h1; exact .prop rfl (hs _ _ h2) h3
  | item h1 _ => cases h1

/-- What is below one of the properties is also there with fewer properties. -/
theorem at_less {m M : GMap P} (hs : ∀ k q, (k, q) ∈ m → (k, q) ∈ M) (hn : (M.map Prod.fst).Nodup) {k : Str} {q0 : P} (hk : (k, q0) ∈ m) {l : List Seg} {q : P}
    (h : SchemaAt instNode ⟨some M, none⟩ (.key k :: l) q) : SchemaAt instNode ⟨some m, none⟩ (.key k :: l) q := by
  cases h with
  | prop h1 h2 h3 =>
    cases h1
    have e := GMap.get_mem_nodup hn h2
    rw [GMap.get_mem_nodup hn (hs _ _ hk)] at e
    cases e
    exact .prop rfl hk h3

theorem written_sub {m M : GMap P} (hs : ∀ k q, (k, q) ∈ m → (k, q) ∈ M) {l : List Seg} (h : Written ⟨some m, none⟩ l) : Written ⟨some M, none⟩ l := by
  induction h with
  | root => exact .root
  | inner _ h2 h3 h4 h5 h6 h7 ih => exact .inner ih h2 (at_sub hs h3) h4 h5 h6 h7

theorem written_less {m M : GMap P} (hs : ∀ k q, (k, q) ∈ m → (k, q) ∈ M) (hn : (M.map Prod.fst).Nodup) {l : List Seg} (h : Written ⟨some M, none⟩ l) :
    (∀ k r, l = .key k :: r → ∃ q, (k, q) ∈ m) → Written ⟨some m, none⟩ l := by
  induction h with
  | root => exact fun _ => .root
  | @inner l s k q i h1 h2 h3 h4 h5 h6 h7 ih =>
    intro hk
    cases l with
    | nil =>
      obtain ⟨q0, hq0⟩ := hk k s rfl
      exact .inner .root h2 (at_less hs hn hq0 h3) h4 h5 h6 h7
    | cons x l =>
      cases x with
      | star => cases h3 with | item e _ => cases e
      | key k0 =>
        obtain ⟨q0, hq0⟩ := hk k0 _ rfl
        exact .inner (ih fun k r e => by cases e; exact ⟨q0, hq0⟩) h2 (at_less hs hn hq0 h3) h4 h5 h6 h7

theorem conditions_sub {title : Str → Str} {args : Args} {rn gn : Str} {m M : GMap P} (hs : ∀ k q, (k, q) ∈ m → (k, q) ∈ M) (hn : (m.map Prod.fst).Nodup)
    (h : Conditions title args rn gn ⟨some M, none⟩) : Conditions title args rn gn ⟨some m, none⟩ := by
  have hM := h.plain.names.1 M rfl
  refine ⟨⟨⟨?_, fun l q m' ha => h.plain.names.2 l q m' (at_sub hs ha)⟩, fun l q ha => h.plain.quiet l q (at_sub hs ha), fun l q ha => h.plain.arrays l q (at_sub hs ha),
    fun l q l' q' ha ha' => h.plain.apart l q l' q' (at_sub hs ha) (at_sub hs ha'), fun l q ha => h.plain.root l q (at_sub hs ha)⟩,
    fun l q ha => h.one l q (at_sub hs ha), fun l q ha => h.items l q (at_sub hs ha), fun l q ha => h.free l q (at_sub hs ha), ?_⟩
  · intro m' e
    cases e
    refine ⟨hn, fun hm => hM.2 ?_⟩
    obtain ⟨x, hx, e⟩ := List.mem_map.1 hm
    exact List.mem_map.2 ⟨x, hs _ _ hx, e⟩
  · intro l m' hp k q hk ha
    cases hp with
    | root e =>
      cases e
      obtain ⟨h1, h2⟩ := h.totals [] M (.root rfl) k q (hs _ _ hk) ha
      exact ⟨fun q' hq' => h1 q' (hs _ _ hq'), fun k' q' hk' => h2 k' q' (hs _ _ hk')⟩
    | inner e1 e2 => exact h.totals l m' (.inner (at_sub hs e1) e2) k q hk ha

/-! ### Maps with the entries of several -/

theorem setAll_get {α : Type} {k : Str} : ∀ (m n : GMap α), (m.map Prod.fst).Nodup → GMap.get k (setAll m n) = (GMap.get k m).or (GMap.get k n)
  | [], _, _ => rfl
  | (k', v) :: m, n, h => by
    rw [List.map_cons, List.nodup_cons] at h
    change GMap.get k (setAll m (GMap.set k' v n)) = _
    rw [setAll_get m _ h.2]
    by_cases hk : k = k'
    · subst hk
      have : GMap.get k m = none := GMap.get_none_iff.2 h.1
      rw [this, GMap.get_set_self]
      simp [GMap.get]
    · rw [GMap.get_set_ne hk]
      simp [GMap.get, hk]

theorem setAll_sorted {α : Type} : ∀ (m n : GMap α), n.Sorted → (setAll m n).Sorted
  | [], _, h => h
  | (_, _) :: m, _, h => setAll_sorted m _ (GMap.sorted_set h)

variable {β : Type} {f : GFile → GMap β}

theorem union_sorted (common : List GFile) {n : GMap β} (hn : n.Sorted) : (common.foldl (fun acc c => setAll (f c) acc) n).Sorted := by
  induction common generalizing n with
  | nil => exact hn
  | cons c cs ih => exact ih (setAll_sorted _ _ hn)

theorem union_from (common : List GFile) {n : GMap β} (hc : ∀ c ∈ common, (f c).Sorted) {k : Str} {v : β}
    (h : GMap.get k (common.foldl (fun acc c => setAll (f c) acc) n) = some v) : (∃ c ∈ common, GMap.get k (f c) = some v) ∨ GMap.get k n = some v := by
  induction common generalizing n with
  | nil => exact .inr h
  | cons c cs ih =>
    rcases ih (fun c hc' => hc c (by simp [hc'])) h with ⟨c', h1, h2⟩ | h1
    · exact .inl ⟨c', by simp [h1], h2⟩
    · rw [setAll_get _ _ (hc c (by simp)).nodup] at h1
      cases hg : GMap.get k (f c) with
      | none => rw [hg] at h1; exact .inr h1
      | some w => rw [hg] at h1; cases h1; exact .inl ⟨c, by simp, hg⟩

theorem union_some (common : List GFile) {n : GMap β} {k : Str} (h : (∃ c ∈ common, (GMap.get k (f c)).isSome = true) ∨ (GMap.get k n).isSome = true) :
    (GMap.get k (common.foldl (fun acc c => setAll (f c) acc) n)).isSome = true := by
  induction common generalizing n with
  | nil => exact h.resolve_left fun ⟨c, hc, _⟩ => nomatch hc
  | cons c cs ih =>
    refine ih ?_
    rcases h with ⟨c', h1, h2⟩ | h1
    · rcases List.mem_cons.1 h1 with rfl | h1
      · refine .inr (setAll_some _ _ (.inl ?_))
        obtain ⟨v, hv⟩ := Option.isSome_iff_exists.1 h2
        exact List.mem_map.2 ⟨_, GMap.get_some_mem hv, rfl⟩
      · exact .inl ⟨c', h1, h2⟩
    · exact .inr (setAll_some _ _ (.inr h1))

/-! ### One entry -/

/-- The types of an entry by itself. -/
theorem entry_types {sched : Sched} {title lower : Str → Str} {args : Args} {s : Instance} {name : Str} {implements : Bool} {m : GMap P} (hm : s.properties = some m)
    (hc : Conditions title args (rootNames title lower args name implements).1 (rootNames title lower args name implements).2 ⟨s.properties, s.items⟩) :
    ∃ g, newFile sched title lower args s name implements = .ok g ∧
      TypesOf title args (rootNames title lower args name implements).1 (rootNames title lower args name implements).2 s
        ⟨(rootNames title lower args name implements).1, (rootNames title lower args name implements).2, s.description, decide (s.oneOf ≠ []), []⟩ m s.required
        (fun k => gqlName title args.typeNames (rootNames title lower args name implements).2 [k]) g := by
  obtain ⟨g, hg, h1, h2⟩ := C69_partial hc sched
  refine ⟨g, hg, ?_⟩
  have hs := newFile_sorted hg
  generalize (rootNames title lower args name implements).1 = rn at *
  generalize (rootNames title lower args name implements).2 = gn at *
  obtain ⟨o, a1, a2, a3, a4, a5⟩ := h1 [] m _ (.root hm)
  unfold typeAt at a1
  rw [if_pos rfl] at a1
  cases a1
  refine ⟨?_, a4, fun l m' rq' hl ho => ?_, fun κ o ho => ?_, hs⟩
  · cases a5 with
    | root e1 e2 e3 e4 =>
      refine ⟨e1, a2, e2, ?_, e4, (a3.2 .root).1⟩
      rw [e3]
      by_cases h : s.oneOf = [] <;> simp [h]
    | inner e1 => cases e1
  · obtain ⟨o, b1, b2, b3, b4, b5⟩ := h1 l m' rq' ho
    unfold typeAt at b1
    rw [if_neg hl] at b1
    unfold nameAt at b2
    rw [if_neg hl] at b2
    exact ⟨o, b1, b2, b3, b4, b5⟩
  · obtain ⟨l, m', rq', b1, b2, b3, b4⟩ := h2 κ o ho
    exact ⟨l, m', rq', b1, b2, b4⟩

/-! ### The allOf entries -/

theorem object_sub {a : Instance} {m M : GMap P} {RQ : List Str} (ha : a.properties = some m ∧ a.items = none) (hs : ∀ k q, (k, q) ∈ m → (k, q) ∈ M) {l : List Seg} {m' : GMap P}
    {rq' : List Str} (hl : l ≠ []) (h : ObjectAt a l m' rq') : ObjectAt (allTogether M RQ) l m' rq' := by
  cases h with
  | root _ => exact absurd rfl hl
  | inner h1 h2 h3 h4 =>
    rw [ha.1, ha.2] at h1
    exact .inner (at_sub hs h1) h2 h3 h4

theorem object_less {a : Instance} {m M : GMap P} {RQ : List Str} (ha : a.properties = some m ∧ a.items = none) (hs : ∀ k q, (k, q) ∈ m → (k, q) ∈ M)
    (hn : (M.map Prod.fst).Nodup) {k : Str} {q0 : P} (hk : (k, q0) ∈ m) {l : List Seg} {m' : GMap P} {rq' : List Str}
    (h : ObjectAt (allTogether M RQ) (.key k :: l) m' rq') : ObjectAt a (.key k :: l) m' rq' := by
  cases h with
  | inner h1 h2 h3 h4 =>
    refine .inner ?_ h2 h3 h4
    rw [ha.1, ha.2]
    exact at_less hs hn hk h1

theorem object_key {M : GMap P} {RQ : List Str} {l : List Seg} {m' : GMap P} {rq' : List Str} (hl : l ≠ []) (h : ObjectAt (allTogether M RQ) l m' rq') :
    ∃ k r q, l = .key k :: r ∧ (k, q) ∈ M := by
  cases h with
  | root _ => exact absurd rfl hl
  | inner h1 h2 h3 h4 =>
    cases h1 with
    | prop e1 e2 e3 => cases e1; exact ⟨_, _, _, rfl, e2⟩
    | item e1 _ => cases e1

theorem object_eq {title : Str → Str} {args : Args} {rn gn : Str} {S : Instance} (hc : Conditions title args rn gn ⟨S.properties, S.items⟩) {l l' : List Seg} {m m' : GMap P}
    {rq rq' : List Str} (hl : l ≠ []) (hl' : l' ≠ []) (h : ObjectAt S l m rq) (h' : ObjectAt S l' m' rq') (he : keyOf title rn l = keyOf title rn l') :
    l = l' ∧ m = m' ∧ rq = rq' := by
  cases h with
  | root _ => exact absurd rfl hl
  | inner a1 a2 a3 a4 =>
    cases h' with
    | root _ => exact absurd rfl hl'
    | inner b1 b2 b3 b4 =>
      have := hc.plain.apart _ _ _ _ a1 b1 (Gen.node_object a2 a3 (by rw [a4]; simp)) (Gen.node_object b2 b3 (by rw [b4]; simp)) he
      subst this
      have := schemaAt_eq hc.plain.names a1 b1
      subst this
      rw [a2] at b2
      cases b2
      rw [a4] at b4
      cases b4
      exact ⟨rfl, rfl, rfl⟩

/-- The type with the fields of all allOf entries, and the types of the objects in them. -/
theorem together_types {title : Str → Str} {args : Args} {rn gn packageName ref : Str} {as oneOf : List Instance} {M : GMap P} {RQ : List Str} (ht : Together as M RQ)
    (hc : Conditions title args rn gn ⟨some M, none⟩) {common : List GFile} {hd : TypeHead}
    (hcs : Each (fun a c => ∃ hd m, a.properties = some m ∧ TypesOf title args rn gn a hd m a.required (fun k => gqlName title args.typeNames gn [k]) c) as common)
    (hhd : CommonHead title args packageName rn oneOf hd) (hrn : NameOf args.structNames title ref rn) :
    TypesOf title args rn gn (allTogether M RQ) hd M RQ (fun k => gqlName title args.typeNames gn [k])
      (interfaceFile title args packageName ref (decide (oneOf.length ≠ 0)) common) := by
  have hM := hc.plain.names.1 M rfl
  have hsub : ∀ a ∈ as, ∀ m, a.properties = some m → ∀ k q, (k, q) ∈ m → (k, q) ∈ M := fun a ha m hm k q hk => (ht.props k q).2 ⟨a, ha, m, hm, hk⟩
  have hto : ∀ a ∈ as, ∃ c ∈ common, ∃ hd m, a.properties = some m ∧ a.items = none ∧ (m.map Prod.fst).Nodup ∧
      TypesOf title args rn gn a hd m a.required (fun k => gqlName title args.typeNames gn [k]) c := by
    intro a ha
    obtain ⟨c, hc1, hd, m, h1, h2⟩ := GqlText.each_mem' hcs a ha
    obtain ⟨m', e1, e2, e3⟩ := ht.each a ha
    rw [h1] at e1
    cases e1
    exact ⟨c, hc1, hd, m, h1, e2, e3, h2⟩
  have hfrom : ∀ c ∈ common, ∃ a ∈ as, ∃ hd m, a.properties = some m ∧ a.items = none ∧ (m.map Prod.fst).Nodup ∧
      TypesOf title args rn gn a hd m a.required (fun k => gqlName title args.typeNames gn [k]) c := by
    intro c hc1
    obtain ⟨a, ha, hd, m, h1, h2⟩ := GqlText.each_mem hcs c hc1
    obtain ⟨m', e1, e2, e3⟩ := ht.each a ha
    rw [h1] at e1
    cases e1
    exact ⟨a, ha, hd, m, h1, e2, e3, h2⟩
  have hsort : ∀ c ∈ common, GMap.Sorted c.root.fields := fun c hc1 => by
    obtain ⟨_, _, _, _, _, _, _, h⟩ := hfrom c hc1
    exact h.root.sorted
  have hsort' : ∀ c ∈ common, GMap.Sorted c.nested := fun c hc1 => by
    obtain ⟨_, _, _, _, _, _, _, h⟩ := hfrom c hc1
    exact h.sorted
  have hroot : (interfaceFile title args packageName ref (decide (oneOf.length ≠ 0)) common).root.fields = common.foldl (fun acc c => setAll c.root.fields acc) [] := rfl
  have hnest : (interfaceFile title args packageName ref (decide (oneOf.length ≠ 0)) common).nested = common.foldl (fun acc c => setAll c.nested acc) [] := rfl
  have htot := hc.totals [] M (.root rfl)
  have hget : ∀ {k q}, GMap.get k M = some q ↔ (k, q) ∈ M := fun {k q} => ⟨GMap.get_some_mem, GMap.get_mem_nodup hM.1⟩
  refine ⟨?_, ⟨?_, ?_, ?_, ?_, ?_⟩, ?_, ?_, ?_⟩
  · cases hhd with
    | @interface n h1 h2 =>
      have h3 : oneOf.length ≠ 0 := fun h => h1 (List.length_eq_zero_iff.1 h)
      have h4 : (GMap.get packageName args.typeNames).getD (title packageName) = n := by
        rcases h2 with h2 | ⟨h2, rfl⟩ <;> rw [h2] <;> rfl
      refine ⟨?_, ?_, rfl, ?_, rfl, rfl⟩ <;> simp [interfaceFile, h3, h4]
    | type h1 =>
      subst h1
      refine ⟨?_, rfl, rfl, rfl, rfl, rfl⟩
      rw [Gen.nameOf_eq hrn]
      rfl
  · rw [hroot]
    exact union_sorted _ trivial
  · intro k q hk
    obtain ⟨a, ha, m, hm, hka⟩ := (ht.props k q).1 (hget.1 hk)
    obtain ⟨c, hc1, _, m', hm', _, hn, hT⟩ := hto a ha
    rw [hm] at hm'
    cases hm'
    obtain ⟨f0, hf0, _⟩ := hT.root.each k q (GMap.get_mem_nodup hn hka)
    rw [hroot]
    obtain ⟨f, hf⟩ := Option.isSome_iff_exists.1 (union_some (f := fun c => c.root.fields) common (n := []) (.inl ⟨c, hc1, by rw [hf0]; rfl⟩))
    refine ⟨f, hf, ?_⟩
    obtain ⟨c', hc', hf'⟩ := (union_from (f := fun c => c.root.fields) common hsort hf).resolve_right (by simp [GMap.get])
    obtain ⟨b, hb, _, mb, hmb, _, hnb, hTb⟩ := hfrom c' hc'
    rcases hTb.root.only k f hf' with ⟨q', hq'⟩ | ⟨k', q', h1, h2, rfl⟩
    · have : q' = q := by
        have := hget.2 (hsub b hb mb hmb k q' (GMap.get_some_mem hq'))
        rw [hk] at this
        exact (Option.some.inj this).symm
      subst this
      obtain ⟨f', hf'', hg⟩ := hTb.root.each k q' hq'
      rw [hf'] at hf''
      cases hf''
      have hr : decide (k ∈ RQ) = decide (k ∈ b.required) :=
        decide_eq_decide.2 ⟨ht.own b hb mb hmb k q' (GMap.get_some_mem hq'), fun h => (ht.required k).2 ⟨b, hb, h⟩⟩
      rw [hr]
      exact hg
    · exact absurd (hget.1 hk) ((htot k' q' (hsub b hb mb hmb _ _ (GMap.get_some_mem h1)) h2).1 q)
  · intro k q hk harr
    obtain ⟨a, ha, m, hm, hka⟩ := (ht.props k q).1 (hget.1 hk)
    obtain ⟨c, hc1, _, m', hm', _, hn, hT⟩ := hto a ha
    rw [hm] at hm'
    cases hm'
    obtain ⟨_, f0, _, hf0, _⟩ := hT.root.total k q (GMap.get_mem_nodup hn hka) harr
    rw [hroot]
    obtain ⟨f, hf⟩ := Option.isSome_iff_exists.1 (union_some (f := fun c => c.root.fields) common (n := []) (.inl ⟨c, hc1, by rw [hf0]; rfl⟩))
    obtain ⟨c', hc', hf'⟩ := (union_from (f := fun c => c.root.fields) common hsort hf).resolve_right (by simp [GMap.get])
    obtain ⟨b, hb, _, mb, hmb, _, hnb, hTb⟩ := hfrom c' hc'
    have ht' := htot k q (hget.1 hk) harr
    rcases hTb.root.only _ f hf' with ⟨q', hq'⟩ | ⟨k', q', h1, h2, h3⟩
    · exact absurd (hsub b hb mb hmb _ _ (GMap.get_some_mem hq')) (ht'.1 q')
    · have := ht'.2 k' q' (hsub b hb mb hmb _ _ (GMap.get_some_mem h1)) h2 h3.symm
      subst this
      have : q' = q := by
        have := hget.2 (hsub b hb mb hmb k' q' (GMap.get_some_mem h1))
        rw [hk] at this
        exact (Option.some.inj this).symm
      subst this
      obtain ⟨i, f', e1, e2, e3⟩ := hTb.root.total k' q' h1 h2
      rw [hf'] at e2
      cases e2
      exact ⟨i, f, e1, hf, e3⟩
  · intro κ f hf
    rw [hroot] at hf
    obtain ⟨c', hc', hf'⟩ := (union_from (f := fun c => c.root.fields) common hsort hf).resolve_right (by simp [GMap.get])
    obtain ⟨b, hb, _, mb, hmb, _, hnb, hTb⟩ := hfrom c' hc'
    rcases hTb.root.only κ f hf' with ⟨q', hq'⟩ | ⟨k', q', h1, h2, h3⟩
    · exact .inl ⟨q', hget.2 (hsub b hb mb hmb κ q' (GMap.get_some_mem hq'))⟩
    · exact .inr ⟨k', q', hget.2 (hsub b hb mb hmb k' q' (GMap.get_some_mem h1)), h2, h3⟩
  · intro κ
    change κ ∈ (common.map fun c => c.root.required).flatten ↔ _
    rw [List.mem_flatten]
    constructor
    · rintro ⟨rq, hrq, hκ⟩
      obtain ⟨c, hc1, rfl⟩ := List.mem_map.1 hrq
      obtain ⟨b, hb, _, mb, hmb, _, hnb, hTb⟩ := hfrom c hc1
      rcases (hTb.root.required κ).1 hκ with h | ⟨k, q, h1, h2, h3⟩
      · exact .inl ((ht.required κ).2 ⟨b, hb, h⟩)
      · exact .inr ⟨k, q, hget.2 (hsub b hb mb hmb k q (GMap.get_some_mem h1)), h2, h3⟩
    · rintro (h | ⟨k, q, h1, h2, h3⟩)
      · obtain ⟨a, ha, h⟩ := (ht.required κ).1 h
        obtain ⟨c, hc1, _, m, _, _, _, hT⟩ := hto a ha
        exact ⟨_, List.mem_map.2 ⟨c, hc1, rfl⟩, (hT.root.required κ).2 (.inl h)⟩
      · obtain ⟨a, ha, m, hm, hka⟩ := (ht.props k q).1 (hget.1 h1)
        obtain ⟨c, hc1, _, m', hm', _, hn, hT⟩ := hto a ha
        rw [hm] at hm'
        cases hm'
        exact ⟨_, List.mem_map.2 ⟨c, hc1, rfl⟩, (hT.root.required κ).2 (.inr ⟨k, q, GMap.get_mem_nodup hn hka, h2, h3⟩)⟩
  · intro l m' rq' hl ho
    obtain ⟨k0, r, q0, rfl, hk0⟩ := object_key hl ho
    obtain ⟨a, ha, m, hm, hka⟩ := (ht.props k0 q0).1 hk0
    obtain ⟨c, hc1, _, ma, hma, hia, hn, hT⟩ := hto a ha
    rw [hm] at hma
    cases hma
    obtain ⟨o0, ho0, _⟩ := hT.each _ m' rq' hl (object_less ⟨hm, hia⟩ (hsub a ha m hm) hM.1 hka ho)
    rw [hnest]
    obtain ⟨o, hoo⟩ := Option.isSome_iff_exists.1 (union_some (f := fun c => c.nested) common (n := []) (.inl ⟨c, hc1, by rw [ho0]; rfl⟩))
    obtain ⟨c', hc', hf'⟩ := (union_from (f := fun c => c.nested) common hsort' hoo).resolve_right (by simp [GMap.get])
    obtain ⟨b, hb, _, mb, hmb, hib, hnb, hTb⟩ := hfrom c' hc'
    obtain ⟨l', m'', rq'', e1, e2, e3⟩ := hTb.only _ o hf'
    obtain ⟨rfl, rfl, rfl⟩ := object_eq (S := allTogether M RQ) hc hl e1 ho (object_sub ⟨hmb, hib⟩ (hsub b hb mb hmb) e1 e2) e3
    obtain ⟨o', b1, b2, b3, b4, b5⟩ := hTb.each _ _ _ e1 e2
    rw [hf'] at b1
    cases b1
    refine ⟨o, hoo, b2, ?_, b4, ?_⟩
    · rw [b3, hmb, hib]
      refine ⟨written_sub (hsub b hb mb hmb), fun h => written_less (hsub b hb mb hmb) hM.1 h fun k r' e => ?_⟩
      cases e
      cases e2 with
      | inner g1 _ _ _ =>
        rw [hmb, hib] at g1
        cases g1 with
        | prop g1 g2 _ => cases g1; exact ⟨_, g2⟩
    · cases b5 with
      | inner g1 g2 g3 g4 g5 g6 =>
        rw [hmb, hib] at g1
        exact .inner (at_sub (hsub b hb mb hmb) g1) g2 g3 g4 g5 g6
  · intro κ o ho
    rw [hnest] at ho
    obtain ⟨c', hc', hf'⟩ := (union_from (f := fun c => c.nested) common hsort' ho).resolve_right (by simp [GMap.get])
    obtain ⟨b, hb, _, mb, hmb, hib, hnb, hTb⟩ := hfrom c' hc'
    obtain ⟨l, m', rq', e1, e2, e3⟩ := hTb.only κ o hf'
    exact ⟨l, m', rq', e1, object_sub ⟨hmb, hib⟩ (hsub b hb mb hmb) e1 e2, e3⟩
  · rw [hnest]
    exact union_sorted _ trivial

/-! ### The oneOf entries -/

/-- The type of an entry has the fields of the allOf entries and its own. -/
theorem over_types {title : Str → Str} {args : Args} {rn gn gn0 : Str} {s : Instance} {hd : TypeHead} {m M M' : GMap P} {RQ RQ' : List Str} {o0 : GObject} {common : List GFile} {g : GFile}
    {implements : Str} (h0 : GqlFields title args.fieldNames args.pointers RQ (fun k => gqlName title args.typeNames gn0 [k]) M o0)
    (hf0 : o0.fields = common.foldl (fun acc c => setAll c.root.fields acc) []) (hr0 : o0.required = (common.map fun c => c.root.required).flatten)
    (hg : TypesOf title args rn gn s hd m s.required (fun k => gqlName title args.typeNames gn [k]) g) (ho : Over title args.fieldNames m s.required M RQ M' RQ') :
    TypesOf title args rn gn s { hd with implements := implements } M' RQ'
      (fun k => if (GMap.get k m).isSome = true then gqlName title args.typeNames gn [k] else gqlName title args.typeNames gn0 [k]) (mergeCommon common implements g) := by
  have hfields : (mergeCommon common implements g).root.fields = setAll g.root.fields o0.fields := by rw [hf0]; rfl
  have hreq : (mergeCommon common implements g).root.required = o0.required ++ g.root.required := by rw [hr0]; rfl
  have hget : ∀ κ, GMap.get κ (mergeCommon common implements g).root.fields = (GMap.get κ g.root.fields).or (GMap.get κ o0.fields) := by
    intro κ
    rw [hfields]
    exact setAll_get _ _ hg.root.sorted.nodup
  have hown : ∀ k q, GMap.get k m = some q → GMap.get k M' = some q := fun k q h => (ho.props k q).2 (.inl h)
  -- a list of the allOf entries is a list
  have hlist : ∀ k q, GMap.get k M = some q → IsArray q → ∃ q', GMap.get k M' = some q' ∧ IsArray q' := by
    intro k q hk ha
    cases hm : GMap.get k m with
    | none => exact ⟨q, (ho.props k q).2 (.inr ⟨hm, hk⟩), ha⟩
    | some q' => exact ⟨q', hown k q' hm, ho.lists k q' q hm hk ha⟩
  have hprop : ∀ k q, GMap.get k M = some q → ∃ q', GMap.get k M' = some q' := by
    intro k q hk
    cases hm : GMap.get k m with
    | none => exact ⟨q, (ho.props k q).2 (.inr ⟨hm, hk⟩)⟩
    | some q' => exact ⟨q', hown k q' hm⟩
  refine ⟨⟨hg.head.goName, hg.head.name, hg.head.description, hg.head.kind, rfl, hg.head.target⟩, ⟨?_, ?_, ?_, ?_, ?_⟩, hg.each, hg.only, hg.sorted⟩
  · rw [hfields]
    exact setAll_sorted _ _ h0.sorted
  · intro k q hk
    rw [hget]
    cases hm : GMap.get k m with
    | some q' =>
      have := hown k q' hm
      rw [hk] at this
      cases this
      obtain ⟨f, hf, hgf⟩ := hg.root.each k q hm
      refine ⟨f, by rw [hf]; rfl, ?_⟩
      have hr : decide (k ∈ RQ') = decide (k ∈ s.required) := decide_eq_decide.2 ⟨fun h => ((ho.required k).1 h).elim (ho.own k q hm) id, fun h => (ho.required k).2 (.inr h)⟩
      simp only [Option.isSome_some, if_true]
      rw [hr]
      exact hgf
    | none =>
      have hM : GMap.get k M = some q := by
        rcases (ho.props k q).1 hk with h | h
        · rw [hm] at h; cases h
        · exact h.2
      have hng : GMap.get k g.root.fields = none := by
        cases hx : GMap.get k g.root.fields with
        | none => rfl
        | some f =>
          rcases hg.root.only k f hx with ⟨q', hq'⟩ | ⟨k', q', h1, h2, rfl⟩
          · rw [hm] at hq'; cases hq'
          · have := (ho.totals k' q' (hown _ _ h1) h2).1
            rw [hk] at this
            cases this
      obtain ⟨f, hf, hgf⟩ := h0.each k q hM
      refine ⟨f, by rw [hng, hf]; rfl, ?_⟩
      have hr : decide (k ∈ RQ') = decide (k ∈ RQ) := decide_eq_decide.2 ⟨fun h => ((ho.required k).1 h).elim id (ho.common k q hm hM), fun h => (ho.required k).2 (.inl h)⟩
      simp only [Option.isSome_none, Bool.false_eq_true, if_false]
      rw [hr]
      exact hgf
  · intro k q hk ha
    rw [hget]
    have ht := ho.totals k q hk ha
    cases hx : GMap.get (totalOf title args.fieldNames k) g.root.fields with
    | some f =>
      rcases hg.root.only _ f hx with ⟨q', hq'⟩ | ⟨k', q', h1, h2, h3⟩
      · have := hown _ _ hq'
        rw [ht.1] at this
        cases this
      · have := ht.2 k' q' (hown _ _ h1) h2 h3.symm
        subst this
        have := hown _ _ h1
        rw [hk] at this
        cases this
        obtain ⟨i, f', e1, e2, e3⟩ := hg.root.total k' q h1 h2
        exact ⟨i, f', e1, by rw [← hx, e2]; rfl, e3⟩
    | none =>
      have hmn : GMap.get k m = none := by
        cases hm : GMap.get k m with
        | none => rfl
        | some q' =>
          have := hown k q' hm
          rw [hk] at this
          cases this
          obtain ⟨_, f', _, e2, _⟩ := hg.root.total k q hm ha
          rw [hx] at e2
          cases e2
      have hM : GMap.get k M = some q := by
        rcases (ho.props k q).1 hk with h | h
        · rw [hmn] at h; cases h
        · exact h.2
      obtain ⟨i, f, e1, e2, e3⟩ := h0.total k q hM ha
      exact ⟨i, f, e1, by rw [e2]; rfl, e3⟩
  · intro κ f hf
    rw [hget] at hf
    cases hx : GMap.get κ g.root.fields with
    | some f' =>
      rcases hg.root.only κ f' hx with ⟨q', hq'⟩ | ⟨k', q', h1, h2, h3⟩
      · exact .inl ⟨q', hown _ _ hq'⟩
      · exact .inr ⟨k', q', hown _ _ h1, h2, h3⟩
    | none =>
      rw [hx] at hf
      rcases h0.only κ f hf with ⟨q', hq'⟩ | ⟨k', q', h1, h2, h3⟩
      · exact .inl (hprop κ q' hq')
      · obtain ⟨q'', e1, e2⟩ := hlist k' q' h1 h2
        exact .inr ⟨k', q'', e1, e2, h3⟩
  · intro κ
    rw [hreq, List.mem_append, h0.required, hg.root.required, ho.required]
    constructor
    · rintro ((h | ⟨k, q, h1, h2, h3⟩) | (h | ⟨k, q, h1, h2, h3⟩))
      · exact .inl (.inl h)
      · obtain ⟨q'', e1, e2⟩ := hlist k q h1 h2
        exact .inr ⟨k, q'', e1, e2, h3⟩
      · exact .inl (.inr h)
      · exact .inr ⟨k, q, hown _ _ h1, h2, h3⟩
    · rintro ((h | h) | ⟨k, q, h1, h2, h3⟩)
      · exact .inl (.inl h)
      · exact .inr (.inl h)
      · rcases (ho.props k q).1 h1 with h | h
        · exact .inr (.inr ⟨k, q, h, h2, h3⟩)
        · exact .inl (.inr ⟨k, q, h.2, h2, h3⟩)

end JT.Gql
