import Verif.Spec.Fields
import Verif.Props.C31
import Verif.Props.C66
/- The fields that are added while walking. -/
namespace JT.Gen
open Spec

/-! ### A place in the tree of fields -/

/-- The tree with other fields at a place. -/
def put : List Str → GMap EField → GMap EField → GMap EField
  | [], _, L => L
  | k :: pre, F, L => match GMap.get k F with
    | some f => GMap.set k { f with fields := some (put pre (f.fields.getD []) L) } F
    | none => F

/-- The place exists. -/
inductive Chain : List Str → GMap EField → Prop where
  | nil {F} : Chain [] F
  | cons {k pre F f fs} : GMap.get k F = some f → f.fields = some fs → Chain pre fs → Chain (k :: pre) F

theorem addTree_put (title : Str → Str) (rename : GMap Str) (inst : Instance) {k : Str} : ∀ {pre : List Str} {F : GMap EField} (L : GMap EField),
    Chain pre F → addTree title rename inst (pre ++ [k]) (put pre F L) = (addLeaf title rename inst k L).map (put pre F) := by
  intro pre F L h
  induction h with
  | nil =>
    simp only [List.nil_append, put, addTree]
    cases addLeaf title rename inst k L <;> rfl
  | @cons k0 pre F f fs h1 h2 hc ih =>
    have hne : ∃ a t, pre ++ [k] = a :: t := by cases pre <;> simp
    obtain ⟨a, t, ht⟩ := hne
    simp only [put, h1, h2, Option.getD_some, List.cons_append]
    rw [ht]
    simp only [addTree, GMap.get_set_self]
    rw [← ht, ih]
    cases addLeaf title rename inst k L with
    | err => rfl
    | panic => rfl
    | ok x => simp only [Res.map, GMap.set_set]

theorem chain_put {pre : List Str} {F : GMap EField} (h : Chain pre F) {k : Str} {f : EField} {fs : GMap EField} (L : GMap EField)
    (hf : GMap.get k L = some f) (hfs : f.fields = some fs) : Chain (pre ++ [k]) (put pre F L) := by
  induction h with
  | nil => exact .cons hf hfs .nil
  | cons h1 h2 hc ih =>
    simp only [put, h1, h2, Option.getD_some, List.cons_append]
    exact .cons (GMap.get_set_self _ _ _) rfl ih

theorem put_put {pre : List Str} {F : GMap EField} (h : Chain pre F) {k : Str} {f : EField} {fs : GMap EField} (L M : GMap EField)
    (hf : GMap.get k L = some f) (hfs : f.fields = some fs) : put (pre ++ [k]) (put pre F L) M = put pre F (GMap.set k { f with fields := some M } L) := by
  induction h with
  | nil => simp [put, hf]
  | cons h1 h2 hc ih =>
    simp only [put, h1, h2, Option.getD_some, List.cons_append, GMap.get_set_self, ih, GMap.set_set]

/-! ### The types -/

theorem oneType_none : ∀ {l : List Str} {t : Str}, l.filter (fun x => x ≠ g!"null") = [] → oneType l t = .ok t
  | [], t, _ => rfl
  | x :: l, t, h => by
    by_cases hx : x = g!"null"
    · simp only [oneType, if_pos hx]
      rw [List.filter_cons_of_neg (by simp [hx])] at h
      exact oneType_none h
    · rw [List.filter_cons_of_pos (by simp [hx])] at h
      contradiction

theorem oneType_is : ∀ {l : List Str} {t : Str}, l.filter (fun x => x ≠ g!"null") = [t] → oneType l [] = .ok t
  | [], t, h => by simp at h
  | x :: l, t, h => by
    by_cases hx : x = g!"null"
    · simp only [oneType, if_pos hx]
      rw [List.filter_cons_of_neg (by simp [hx])] at h
      exact oneType_is h
    · rw [List.filter_cons_of_pos (by simp [hx])] at h
      injection h with h1 h2
      subst h1
      simp only [oneType, if_neg hx]
      exact oneType_none h2

theorem mem_type {i : Instance} {t x : Str} (h : TypeIs i t) (hx : x ≠ g!"null") : x ∈ i.type ↔ x = t := by
  unfold TypeIs at h
  have : x ∈ i.type.filter (fun x => x ≠ g!"null") ↔ x ∈ i.type := by
    rw [List.mem_filter]
    simp [hx]
  rw [← this, h]
  simp

/-! ### Filling the map of fields -/

/-- Take over the fields with these keys. -/
def fill (fs : GMap EField) (kvs : List (Str × P)) (L : GMap EField) : GMap EField :=
  kvs.foldl (fun L kv => match GMap.get kv.1 fs with | some f => GMap.set kv.1 f L | none => L) L

theorem fill_sorted (fs : GMap EField) : ∀ (kvs : List (Str × P)) (L : GMap EField), L.Sorted → (fill fs kvs L).Sorted
  | [], L, h => h
  | kv :: kvs, L, h => by
    unfold fill
    rw [List.foldl_cons]
    refine fill_sorted fs kvs _ ?_
    cases GMap.get kv.1 fs with
    | none => exact h
    | some f => exact GMap.sorted_set h

theorem fill_get (fs : GMap EField) (k : Str) : ∀ (kvs : List (Str × P)) (L : GMap EField), (∀ kv ∈ kvs, GMap.get kv.1 fs = none → GMap.get kv.1 L = none) →
    GMap.get k (fill fs kvs L) = if k ∈ kvs.map Prod.fst then GMap.get k fs else GMap.get k L
  | [], L, _ => by simp [fill]
  | kv :: kvs, L, h => by
    have hstep : ∀ x : Str, (∀ (_ : GMap.get x fs = none), GMap.get x L = none) →
        ∀ (_ : GMap.get x fs = none), GMap.get x (match GMap.get kv.1 fs with | some f => GMap.set kv.1 f L | none => L) = none := by
      intro x hx hn
      cases hf : GMap.get kv.1 fs with
      | none => exact hx hn
      | some f =>
        simp only []
        rw [GMap.get_set_ne (by intro he; rw [he, hf] at hn; contradiction)]
        exact hx hn
    unfold fill
    rw [List.foldl_cons]
    have ih := fill_get fs k kvs (match GMap.get kv.1 fs with | some f => GMap.set kv.1 f L | none => L)
      (fun kv' hkv' => hstep kv'.1 (h kv' (List.mem_cons_of_mem _ hkv')))
    unfold fill at ih
    rw [ih]
    by_cases hk : k ∈ kvs.map Prod.fst
    · rw [if_pos hk, if_pos (by simp only [List.map_cons]; exact List.mem_cons_of_mem _ hk)]
    · rw [if_neg hk]
      by_cases he : k = kv.1
      · rw [if_pos (by simp [he]), he]
        cases hf : GMap.get kv.1 fs with
        | none => exact h kv List.mem_cons_self hf
        | some f => simp [GMap.get_set_self]
      · rw [if_neg (by simp only [List.map_cons, List.mem_cons, not_or]; exact ⟨he, hk⟩)]
        cases hf : GMap.get kv.1 fs with
        | none => rfl
        | some f => simp only []; rw [GMap.get_set_ne he]

theorem fill_all {fs : GMap EField} {kvs : List (Str × P)} (hs : fs.Sorted) (h : ∀ k, k ∉ kvs.map Prod.fst → GMap.get k fs = none) :
    fill fs kvs [] = fs := by
  refine GMap.Sorted.ext (fill_sorted fs kvs [] trivial) hs fun k => ?_
  rw [fill_get fs k kvs [] (fun _ _ _ => rfl)]
  split
  · rfl
  · rename_i hk
    rw [h k hk]
    rfl

/-! ### Positions -/

theorem names_append : ∀ (a b : List Seg), names (a ++ b) = names a ++ names b
  | [], b => rfl
  | .key k :: a, b => by simp [names, names_append a b]
  | .star :: a, b => by simp [names, names_append a b]

theorem nna_append {a b : List Seg} (ha : NoNestedArrays a) (hb : NoNestedArrays b) : NoNestedArrays (a ++ b) := by
  induction ha with
  | nil => exact hb
  | key _ ih => exact .key ih
  | item _ ih => exact .item ih

/-! ### One call -/

/-- The file with other fields in the root struct. -/
def GoFile.withFields (g : GoFile) (fs : GMap EField) : GoFile := { g with root := { g.root with fields := fs } }

variable {title : Str → Str} {args : Args}

theorem walkFunc_at (ha : args.noNested = false) {i : Instance} (hi : g!"graphql-hydration" ∉ i.type) {path : Str} {pre : List Str} {k : Str}
    (hp : splitJSONPath path = pre ++ [k]) {F : GMap EField} (hc : Chain pre F) (L : GMap EField) (g : GoFile) :
    walkFunc title args path i (g.withFields (put pre F L)) =
      (addLeaf title args.fieldNames i k L).map fun L' => g.withFields (put pre F L') := by
  unfold walkFunc walkInline addField
  rw [if_pos ha, if_neg hi, hp]
  simp only [GoFile.withFields]
  rw [addTree_put title args.fieldNames i L hc]
  cases addLeaf title args.fieldNames i k L <;> rfl

theorem walkFunc_hydrated (ha : args.noNested = false) {i : Instance} (hi : g!"graphql-hydration" ∈ i.type) (path : Str) (g : GoFile) :
    walkFunc title args path i g = .ok g := by
  unfold walkFunc walkInline addField
  rw [if_pos ha, if_pos hi]
  rfl

theorem addLeaf_new {i : Instance} {t : Str} (ht : TypeIs i t) {rename : GMap Str} {k : Str} {L : GMap EField} (hL : GMap.get k L = none) :
    addLeaf title rename i k L = .ok (GMap.set k (finishField i (newField title rename i k t)) L) := by
  unfold addLeaf
  rw [oneType_is ht]
  simp only [hL]

theorem addLeaf_items {i : Instance} {t : Str} (ht : TypeIs i t) {rename : GMap Str} {k : Str} {L : GMap EField} {f : EField}
    (hL : GMap.get k L = some f) (h1 : f.array = true) (h2 : f.jsonType = []) :
    addLeaf title rename i k L = .ok (GMap.set k (finishField i { f with jsonType := t }) L) := by
  unfold addLeaf
  rw [oneType_is ht]
  simp only [hL, h1, h2, and_self, if_true]

theorem finish_time {i : Instance} (h : g!"string" ∈ i.type ∧ i.format = g!"date-time") (f : EField) : finishField i f = { f with jsonType := g!"date-time" } := by
  simp only [finishField, if_pos h]
  rfl

theorem finish_other {i : Instance} (h : ¬ (g!"string" ∈ i.type ∧ i.format = g!"date-time")) (f : EField) :
    finishField i f = if f.jsonType = g!"array" then { f with jsonType := [], array := true }
      else if f.jsonType = g!"object" then { f with required := i.required, fields := some [] } else f := by
  simp only [finishField, if_neg h]

theorem finish_leaf {i : Instance} {t : Str} (ht : TypeIs i t) (hl : LeafType t) (f : EField) (hf : f.jsonType = t) :
    finishField i f = { f with jsonType := leafType i t } := by
  have hm := mem_type ht (by decide : g!"string" ≠ g!"null")
  unfold leafType
  by_cases h : t = g!"string" ∧ i.format = g!"date-time"
  · rw [if_pos h, finish_time ⟨hm.2 h.1.symm, h.2⟩]
  · rw [if_neg h, finish_other (fun h' => h ⟨(hm.1 h'.1).symm, h'.2⟩), hf, if_neg hl.2.1, if_neg hl.1]
    subst hf
    cases f
    rfl

theorem finish_object {i : Instance} (ht : TypeIs i g!"object") (f : EField) (hf : f.jsonType = g!"object") :
    finishField i f = { f with required := i.required, fields := some [] } := by
  have hm := mem_type ht (by decide : g!"string" ≠ g!"null")
  rw [finish_other (fun h => absurd (hm.1 h.1) (by decide)), if_neg (by rw [hf]; decide), if_pos hf]

theorem finish_array {i : Instance} (ht : TypeIs i g!"array") (f : EField) (hf : f.jsonType = g!"array") :
    finishField i f = { f with jsonType := [], array := true } := by
  have hm := mem_type ht (by decide : g!"string" ≠ g!"null")
  rw [finish_other (fun h => absurd (hm.1 h.1) (by decide)), if_pos hf]

/-! ### The walk -/

variable {sched : Sched}

/-- Walking the instance at a property adds the field. -/
def Adds (sched : Sched) (title : Str → Str) (args : Args) (segs : List Seg) (k : Str) (raw : P) (f : EField) (n : Nat) : Prop :=
  ∀ (g : GoFile) (F L : GMap EField) (tk : Nat), Chain (names segs) F → GMap.get k L = none →
    ∃ tk', walkInst sched (walkFunc title args) n raw (pathOf (segs ++ [.key k])) (tk, g.withFields (put (names segs) F L)) =
      .ok (tk', g.withFields (put (names segs) F (GMap.set k f L)))

theorem walk_kids (ha : args.noNested = false) {segs : List Seg} {nf : Str × P → Nat} {fs : GMap EField} (g : GoFile) {F : GMap EField} (hc : Chain (names segs) F) :
    ∀ (kvs : List (Str × P)) (L : GMap EField) (tk : Nat), (∀ kv ∈ kvs, kv.2.depth < nf kv) → (kvs.map Prod.fst).Nodup → (∀ kv ∈ kvs, kv.1 ≠ []) →
    (∀ kv ∈ kvs, GMap.get kv.1 fs = none → Hydrated kv.2) →
    (∀ kv ∈ kvs, ∀ f, GMap.get kv.1 fs = some f → Adds sched title args segs kv.1 kv.2 f (nf kv)) →
    (∀ kv ∈ kvs, GMap.get kv.1 L = none) →
    ∃ tk', foldRes (fun kv s => walkInst sched (walkFunc title args) (nf kv) kv.2 (prependPath (pathOf segs) kv.1) s) kvs
      (tk, g.withFields (put (names segs) F L)) = .ok (tk', g.withFields (put (names segs) F (fill fs kvs L)))
  | [], L, tk, _, _, _, _, _, _ => ⟨tk, rfl⟩
  | kv :: kvs, L, tk, hn, hnd, hne, hh, hA, hL => by
    have hkv := List.mem_cons_self (a := kv) (l := kvs)
    rw [List.map_cons, List.nodup_cons] at hnd
    simp only [foldRes, fill, List.foldl_cons]
    rw [prependPath_path segs (hne kv hkv)]
    cases hf : GMap.get kv.1 fs with
    | none =>
      obtain ⟨i, h1, h2, h3, h4⟩ := hh kv hkv hf
      obtain ⟨n', hn'⟩ := Nat.exists_eq_succ_of_ne_zero (show nf kv ≠ 0 by have := hn kv hkv; omega)
      rw [hn']
      simp only [walkInst, h1, walkFunc_hydrated ha h2]
      rw [if_neg h3, if_neg h4]
      exact walk_kids ha g hc kvs L tk (fun x hx => hn x (List.mem_cons_of_mem _ hx)) hnd.2 (fun x hx => hne x (List.mem_cons_of_mem _ hx)) (fun x hx => hh x (List.mem_cons_of_mem _ hx))
        (fun x hx => hA x (List.mem_cons_of_mem _ hx)) (fun x hx => hL x (List.mem_cons_of_mem _ hx))
    | some f =>
      obtain ⟨tk', h1⟩ := hA kv hkv f hf g F L tk hc (hL kv hkv)
      rw [h1]
      refine walk_kids ha g hc kvs (GMap.set kv.1 f L) tk' (fun x hx => hn x (List.mem_cons_of_mem _ hx)) hnd.2 (fun x hx => hne x (List.mem_cons_of_mem _ hx)) (fun x hx => hh x (List.mem_cons_of_mem _ hx))
        (fun x hx => hA x (List.mem_cons_of_mem _ hx)) ?_
      intro x hx
      rw [GMap.get_set_ne]
      · exact hL x (List.mem_cons_of_mem _ hx)
      · intro he
        exact hnd.1 (he ▸ List.mem_map_of_mem hx)

theorem properties_nodup {ap : Bool} {p : P} {i : Instance} {m : GMap P} (h : decodeInstance ap p = .ok i) (hm : i.properties = some m) : (m.map Prod.fst).Nodup := by
  have h1 := (decodeInstance_fields h).1
  rw [hm] at h1
  obtain ⟨l, _, rfl⟩ := asRawMap_some h1
  exact GMap.Sorted.nodup (GMap.sorted_ofList l)

/-- The names below an instance cause no confusion. -/
def QuietBelow (raw : P) : Prop := ∀ l q, At instNode raw l q → ∀ k, Seg.key k ∈ l → k ≠ [] ∧ QuietName k

theorem walk_object (ha : args.noNested = false) {segs : List Seg} {nf : Str × P → Nat} {fs : GMap EField} {m : GMap P} (hn : ∀ kv ∈ m, kv.2.depth < nf kv) (hs : fs.Sorted)
    (hnames : ∀ k', GMap.get k' fs = none ↔ ∀ q, GMap.get k' m = some q → Hydrated q) (hmn : (m.map Prod.fst).Nodup)
    (hne : ∀ kv ∈ m, kv.1 ≠ []) (hA : ∀ kv ∈ m, ∀ f, GMap.get kv.1 fs = some f → Adds sched title args segs kv.1 kv.2 f (nf kv))
    (g : GoFile) {F : GMap EField} (hc : Chain (names segs) F) (t tk : Nat) :
    ∃ tk', foldRes (fun kv s => walkInst sched (walkFunc title args) (nf kv) kv.2 (prependPath (pathOf segs) kv.1) s) (sched.perm t _ m)
      (tk, g.withFields (put (names segs) F [])) = .ok (tk', g.withFields (put (names segs) F fs)) := by
  have hperm := sched.isPerm t _ m
  have hmem : ∀ kv, kv ∈ sched.perm t _ m → kv ∈ m := fun kv h => hperm.mem_iff.1 h
  obtain ⟨tk', h⟩ := walk_kids (title := title) (args := args) (sched := sched) (fs := fs) ha g hc (sched.perm t _ m) [] tk (fun kv h => hn kv (hmem kv h))
    ((hperm.map Prod.fst).nodup_iff.2 hmn) (fun kv h => hne kv (hmem kv h))
    (fun kv h hf => (hnames kv.1).1 hf kv.2 (GMap.get_mem_nodup hmn (hmem kv h)))
    (fun kv h => hA kv (hmem kv h)) (fun _ _ => rfl)
  refine ⟨tk', ?_⟩
  rw [h, fill_all hs]
  intro k hk
  rw [hnames]
  intro q hq
  exact absurd ((hperm.map Prod.fst).mem_iff.2 (List.mem_map_of_mem (GMap.get_some_mem hq))) hk

theorem walk_field (ha : args.noNested = false) {k : Str} {raw : P} {f : EField} (h : FieldOf title args.fieldNames k raw f) :
    ∀ (n : Nat) (segs : List Seg), raw.depth < n → NoNestedArrays segs → QuietPath (segs ++ [.key k]) → QuietBelow raw →
      Adds sched title args segs k raw f n := by
  induction h with
  | @leaf k raw i t h1 h2 h3 =>
    intro n segs hn hna hqp hqb g F L tk hc hL
    obtain ⟨n', rfl⟩ := Nat.exists_eq_succ_of_ne_zero (show n ≠ 0 by omega)
    have hp : splitJSONPath (pathOf (segs ++ [.key k])) = names segs ++ [k] := by
      rw [split_path (nna_append hna (.key .nil)) hqp, names_append]; rfl
    refine ⟨tk, ?_⟩
    simp only [walkInst, h1]
    rw [walkFunc_at ha (by rw [mem_type h2 (by decide)]; exact fun h => h3.2.2 h.symm) hp hc, addLeaf_new h2 hL, finish_leaf h2 h3 _ rfl]
    simp only [Res.map]
    rw [if_neg (fun h => h3.1 ((mem_type h2 (by decide)).1 h).symm), if_neg (fun h => h3.2.1 ((mem_type h2 (by decide)).1 h).symm)]
    rfl
  | @object k raw i m fs h1 h2 h3 h4 h5 h6 ih =>
    intro n segs hn hna hqp hqb g F L tk hc hL
    obtain ⟨n', rfl⟩ := Nat.exists_eq_succ_of_ne_zero (show n ≠ 0 by omega)
    have hp : splitJSONPath (pathOf (segs ++ [.key k])) = names segs ++ [k] := by
      rw [split_path (nna_append hna (.key .nil)) hqp, names_append]; rfl
    have hobj : g!"object" ∈ i.type := (mem_type h2 (by decide)).2 rfl
    have hnode : instNode raw = some (.object m) := by simp [instNode, h1, hobj, h3]
    have hdep := instNode_shrinks.1 raw m hnode
    have hmn := properties_nodup h1 h3
    have hcw := fun L => chain_put (k := k) (f := ⟨false, i.description, some [], k, g!"object", goName title args.fieldNames k, decide (g!"null" ∈ i.type), i.required⟩) hc
      (GMap.set k _ L) (GMap.get_set_self _ _ _) rfl
    have hnm : names (segs ++ [.key k]) = names segs ++ [k] := by rw [names_append]; rfl
    obtain ⟨tk', hw⟩ := walk_object (title := title) (args := args) (sched := sched) (segs := segs ++ [.key k]) (nf := fun _ => n') ha
      (fun kv hkv => by have := hdep kv hkv; omega) h4 h5 hmn
      (fun kv hkv => (hqb [.key kv.1] kv.2 (.prop hnode hkv .here) kv.1 (by simp)).1)
      (fun kv hkv f hf => ih kv.1 kv.2 f (GMap.get_mem_nodup hmn hkv) hf n' _ (by have := hdep kv hkv; omega) (nna_append hna (.key .nil))
        (by
          intro k' hk'
          rw [List.mem_append] at hk'
          rcases hk' with hk' | hk'
          · exact hqp k' hk'
          · simp only [List.mem_singleton, Seg.key.injEq] at hk'
            exact hk' ▸ (hqb [.key kv.1] kv.2 (.prop hnode hkv .here) kv.1 (by simp)).2)
        (fun l q hat k' hk' => hqb (.key kv.1 :: l) q (.prop hnode hkv hat) k' (List.mem_cons_of_mem _ hk')))
      g (hnm ▸ hcw L) tk (tk + 1)
    refine ⟨tk', ?_⟩
    simp only [walkInst, h1]
    rw [walkFunc_at ha (by rw [mem_type h2 (by decide)]; decide) hp hc, addLeaf_new h2 hL, finish_object h2 _ rfl]
    simp only [Res.map]
    rw [if_pos hobj]
    simp only [h3]
    rw [hnm, put_put hc _ _ (GMap.get_set_self _ _ _) rfl, put_put hc _ _ (GMap.get_set_self _ _ _) rfl] at hw
    simp only [GMap.set_set] at hw
    exact hw
  | @leaves k raw items i j t h1 h2 h3 h4 h5 h6 =>
    intro n segs hn hna hqp hqb g F L tk hc hL
    obtain ⟨n', rfl⟩ := Nat.exists_eq_succ_of_ne_zero (show n ≠ 0 by omega)
    have hp : splitJSONPath (pathOf (segs ++ [.key k])) = names segs ++ [k] := by
      rw [split_path (nna_append hna (.key .nil)) hqp, names_append]; rfl
    have hp' : splitJSONPath (pathOf (segs ++ [.key k] ++ [.star])) = names segs ++ [k] := by
      have hna' : NoNestedArrays (segs ++ [.key k] ++ [.star]) := by rw [List.append_assoc]; exact nna_append hna (.item .nil)
      rw [split_path hna' (by simpa [QuietPath] using hqp), List.append_assoc, names_append]; rfl
    have hobj : g!"object" ∉ i.type := fun h => absurd ((mem_type h2 (by decide)).1 h) (by decide)
    have harr : g!"array" ∈ i.type := (mem_type h2 (by decide)).2 rfl
    have hnode : instNode raw = some (.array items) := by simp [instNode, h1, hobj, harr, h3]
    have hdep := instNode_shrinks.2 raw items hnode
    obtain ⟨n'', rfl⟩ := Nat.exists_eq_succ_of_ne_zero (show n' ≠ 0 by omega)
    refine ⟨tk, ?_⟩
    simp only [walkInst, h1]
    rw [walkFunc_at ha (by rw [mem_type h2 (by decide)]; decide) hp hc, addLeaf_new h2 hL, finish_array h2 _ rfl]
    simp only [Res.map]
    rw [if_neg hobj, if_pos harr]
    simp only [h3, h4]
    rw [starPath_path, walkFunc_at ha (by rw [mem_type h5 (by decide)]; exact fun h => h6.2.2 h.symm) hp' hc,
      addLeaf_items h5 (GMap.get_set_self _ _ _) rfl rfl, finish_leaf h5 h6 _ rfl]
    simp only [Res.map]
    rw [if_neg (fun h => h6.1 ((mem_type h5 (by decide)).1 h).symm), if_neg (fun h => h6.2.1 ((mem_type h5 (by decide)).1 h).symm), GMap.set_set]
    rfl
  | @objects k raw items i j m fs h1 h2 h3 h4 h5 h6 h7 h8 h9 ih =>
    intro n segs hn hna hqp hqb g F L tk hc hL
    obtain ⟨n', rfl⟩ := Nat.exists_eq_succ_of_ne_zero (show n ≠ 0 by omega)
    have hp : splitJSONPath (pathOf (segs ++ [.key k])) = names segs ++ [k] := by
      rw [split_path (nna_append hna (.key .nil)) hqp, names_append]; rfl
    have hqp' : QuietPath (segs ++ [.key k] ++ [.star]) := by simpa [QuietPath] using hqp
    have hna' : NoNestedArrays (segs ++ [.key k] ++ [.star]) := by rw [List.append_assoc]; exact nna_append hna (.item .nil)
    have hnm : names (segs ++ [.key k] ++ [.star]) = names segs ++ [k] := by rw [List.append_assoc, names_append]; rfl
    have hp' : splitJSONPath (pathOf (segs ++ [.key k] ++ [.star])) = names segs ++ [k] := by rw [split_path hna' hqp', hnm]
    have hnobj : g!"object" ∉ i.type := fun h => absurd ((mem_type h2 (by decide)).1 h) (by decide)
    have harr : g!"array" ∈ i.type := (mem_type h2 (by decide)).2 rfl
    have hnode' : instNode raw = some (.array items) := by simp [instNode, h1, hnobj, harr, h3]
    have hdep' := instNode_shrinks.2 raw items hnode'
    obtain ⟨n'', rfl⟩ := Nat.exists_eq_succ_of_ne_zero (show n' ≠ 0 by omega)
    have hobj : g!"object" ∈ j.type := (mem_type h5 (by decide)).2 rfl
    have hnode : instNode items = some (.object m) := by simp [instNode, h4, hobj, h6]
    have hdep := instNode_shrinks.1 items m hnode
    have hmn := properties_nodup h4 h6
    have hcw := fun L => chain_put (k := k) (f := ⟨true, i.description, some [], k, g!"object", goName title args.fieldNames k, decide (g!"null" ∈ i.type), j.required⟩) hc
      (GMap.set k _ L) (GMap.get_set_self _ _ _) rfl
    obtain ⟨tk', hw⟩ := walk_object (title := title) (args := args) (sched := sched) (segs := segs ++ [.key k] ++ [.star]) (nf := fun _ => n'') ha
      (fun kv hkv => by have := hdep kv hkv; omega) h7 h8 hmn
      (fun kv hkv => (hqb [.star, .key kv.1] kv.2 (.item hnode' (.prop hnode hkv .here)) kv.1 (by simp)).1)
      (fun kv hkv f hf => ih kv.1 kv.2 f (GMap.get_mem_nodup hmn hkv) hf n'' _ (by have := hdep kv hkv; omega) hna'
        (by
          intro k' hk'
          rw [List.mem_append] at hk'
          rcases hk' with hk' | hk'
          · exact hqp' k' hk'
          · simp only [List.mem_singleton, Seg.key.injEq] at hk'
            exact hk' ▸ (hqb [.star, .key kv.1] kv.2 (.item hnode' (.prop hnode hkv .here)) kv.1 (by simp)).2)
        (fun l q hat k' hk' => hqb (.star :: .key kv.1 :: l) q (.item hnode' (.prop hnode hkv hat)) k'
          (List.mem_cons_of_mem _ (List.mem_cons_of_mem _ hk'))))
      g (hnm ▸ hcw L) tk (tk + 1)
    refine ⟨tk', ?_⟩
    simp only [walkInst, h1]
    rw [walkFunc_at ha (by rw [mem_type h2 (by decide)]; decide) hp hc, addLeaf_new h2 hL, finish_array h2 _ rfl]
    simp only [Res.map]
    rw [if_neg hnobj, if_pos harr]
    simp only [h3, h4]
    rw [starPath_path, walkFunc_at ha (by rw [mem_type h5 (by decide)]; decide) hp' hc,
      addLeaf_items h5 (GMap.get_set_self _ _ _) rfl rfl, finish_object h5 _ rfl]
    simp only [Res.map]
    rw [if_pos hobj]
    simp only [h6]
    rw [hnm, put_put hc _ _ (GMap.get_set_self _ _ _) rfl, put_put hc _ _ (GMap.get_set_self _ _ _) rfl] at hw
    simp only [GMap.set_set] at hw ⊢
    exact hw

end JT.Gen
