import Verif.Proofs.Accept
import Verif.Proofs.Flat
import Verif.Proofs.Val
import Verif.Props.C24
import Verif.Props.C31
import Verif.Props.C03
/- C91: NewTransformer accepts exactly the schemas it can handle and rejects the others with an error. -/
namespace JT
open Spec

/-! ### Nodes of the tree under construction -/

/-- Whether a node is for a scalar, an array or an object, and its path. -/
def T.form : T → Kind × Str
  | .scalar p _ _ _ => (.scalar, p)
  | .array p _ _ _ => (.array, p)
  | .object p _ _ _ => (.object, p)

/-- The node at a position. -/
def T.nodeFor : List Seg → T → Option T
  | [], t => some t
  | .star :: r, .array _ _ _ (some c) => T.nodeFor r c
  | .key k :: r, .object _ _ _ cs => (GMap.get k cs).bind (T.nodeFor r)
  | _ :: _, _ => none

theorem plain_ne_star {k : Str} (h : PlainName k) : k ≠ g!"[*]" := by
  rintro rfl
  exact h.2.2 (by simp)

/-- Changing the node at a position. -/
theorem updateAt_node {f : T → Res T} : ∀ {l : List Seg}, (∀ x ∈ l, x.plain) → ∀ {root t : T}, T.nodeFor l root = some t →
    (f t = .err → T.updateAt f (l.map Seg.str) root = .err) ∧
    ∀ t', f t = .ok t' → ∃ root', T.updateAt f (l.map Seg.str) root = .ok root' ∧ ∀ r, T.nodeFor (l ++ r) root' = T.nodeFor r t'
  | [], _, root, t, h => by
    cases h
    exact ⟨id, fun t' ht => ⟨t', ht, fun r => rfl⟩⟩
  | .star :: l, hp, root, t, h => by
    cases root with
    | scalar => cases h
    | object => cases h
    | array p d i c =>
      cases c with
      | none => cases h
      | some c =>
        obtain ⟨h1, h2⟩ := updateAt_node (l := l) (fun x hx => hp x (by simp [hx])) (root := c) h
        simp only [List.map_cons, Seg.str, T.updateAt, if_true]
        refine ⟨fun he => by rw [h1 he]; rfl, fun t' ht => ?_⟩
        obtain ⟨c', hc, hr⟩ := h2 t' ht
        refine ⟨_, by rw [hc]; rfl, fun r => ?_⟩
        exact hr r
  | .key k :: l, hp, root, t, h => by
    have hk : PlainName k := hp (.key k) (by simp)
    cases root with
    | scalar => cases h
    | array => cases h
    | object p d i cs =>
      simp only [T.nodeFor] at h
      cases hg : GMap.get k cs with
      | none => rw [hg] at h; cases h
      | some c =>
        rw [hg] at h
        obtain ⟨h1, h2⟩ := updateAt_node (l := l) (fun x hx => hp x (by simp [hx])) (root := c) h
        simp only [List.map_cons, Seg.str, T.updateAt, if_neg (plain_ne_star hk), hg]
        refine ⟨fun he => by rw [h1 he]; rfl, fun t' ht => ?_⟩
        obtain ⟨c', hc, hr⟩ := h2 t' ht
        refine ⟨_, by rw [hc]; rfl, fun r => ?_⟩
        simp only [List.cons_append, T.nodeFor, GMap.get_set_self, Option.bind_some]
        exact hr r

/-- Other nodes keep their form. -/
theorem updateAt_other {f : T → Res T} : ∀ {l : List Seg}, (∀ x ∈ l, x.plain) → ∀ {root root' : T}, T.updateAt f (l.map Seg.str) root = .ok root' →
    ∀ {p : List Seg}, (∀ r t t', p = l ++ r → T.nodeFor l root = some t → f t = .ok t' → (T.nodeFor r t').map T.form = (T.nodeFor r t).map T.form) →
    ∀ {u}, (T.nodeFor p root).map T.form = some u → (∀ t t', f t = .ok t' → t'.form = t.form) → (T.nodeFor p root').map T.form = some u
  | [], _, root, root', h, p, hr, u, hu, _ => by
    rw [hr p root root' rfl rfl h]; exact hu
  | .star :: l, hp, root, root', h, p, hr, u, hu, hf => by
    simp only [List.map_cons, Seg.str, T.updateAt, if_true] at h
    split at h
    · rename_i q d i c
      obtain ⟨c', hc, rfl⟩ := Res.map_eq_ok.1 h
      cases p with
      | nil => exact hu
      | cons g p =>
        cases g with
        | key k => cases hu
        | star =>
          refine updateAt_other (l := l) (fun x hx => hp x (by simp [hx])) hc (p := p) (fun r t t' he ht htt => ?_) hu hf
          exact hr r t t' (by rw [he]; rfl) ht htt
    · cases h
  | .key k :: l, hp, root, root', h, p, hr, u, hu, hf => by
    have hk : PlainName k := hp (.key k) (by simp)
    simp only [List.map_cons, Seg.str, T.updateAt, if_neg (plain_ne_star hk)] at h
    split at h
    · rename_i q d i cs
      split at h
      · rename_i c hg
        obtain ⟨c', hc, rfl⟩ := Res.map_eq_ok.1 h
        cases p with
        | nil => exact hu
        | cons g p =>
          cases g with
          | star => cases hu
          | key k' =>
            simp only [T.nodeFor] at hu ⊢
            by_cases hkk : k' = k
            · subst hkk
              rw [hg] at hu
              rw [GMap.get_set_self]
              refine updateAt_other (l := l) (fun x hx => hp x (by simp [hx])) hc (p := p) (fun r t t' he ht htt => ?_) hu hf
              exact hr r t t' (by rw [he]; rfl) (by simp only [T.nodeFor, hg]; exact ht) htt
            · rw [GMap.get_set_ne hkk]
              exact hu
      · cases h
    · cases h


theorem addChild_form {node t t' : T} (h : T.addChild node t = .ok t') : t'.form = t.form := by
  cases t with
  | scalar => cases h; rfl
  | array => cases h; rfl
  | object =>
    simp only [T.addChild] at h
    split at h
    · cases h; rfl
    · cases h

/-- The parent of a node can take it. -/
def Takes (κ : Kind) : Seg → Prop
  | .key _ => κ = .object
  | .star => κ = .array

theorem addChild_takes {l : List Seg} {g : Seg} (hg : g.plain) {node t : T} {κ : Kind} (hn : node.path = pathOf (l ++ [g])) (ht : t.form = (κ, pathOf l)) (hk : Takes κ g) :
    ∃ t', T.addChild node t = .ok t' ∧ (∀ r, T.nodeFor (g :: r) t' = T.nodeFor r node) ∧
      ∀ g' r, g' ≠ g → T.nodeFor (g' :: r) t' = T.nodeFor (g' :: r) t := by
  rw [pathOf_snoc] at hn
  cases g with
  | star =>
    cases hk
    cases t with
    | scalar => cases ht
    | object => cases ht
    | array p d i c =>
      refine ⟨_, rfl, fun r => rfl, fun g' r hne => ?_⟩
      cases g' with
      | star => exact absurd rfl hne
      | key k => rfl
  | key k =>
    cases hk
    cases t with
    | scalar => cases ht
    | array => cases ht
    | object p d i cs =>
      cases ht
      simp only [T.addChild, hn, Seg.text, dropLast_splitC hg.2.1, getLastD_splitC hg.2.1, join_splitC, if_true]
      refine ⟨_, rfl, fun r => by simp only [T.nodeFor, GMap.get_set_self, Option.bind_some], fun g' r hne => ?_⟩
      cases g' with
      | star => rfl
      | key k' =>
        have : k' ≠ k := fun e => hne (by rw [e])
        simp only [T.nodeFor, GMap.get_set_ne this]

/-- The root object does not take items. -/
theorem addChild_mixed {node t : T} (hn : node.path = pathOf [.star]) (ht : t.form = (.object, g!"$")) : T.addChild node t = .err := by
  cases t with
  | scalar => cases ht
  | array => cases ht
  | object p d i cs =>
    cases ht
    simp only [T.addChild, hn]
    rw [if_neg (by decide +kernel)]

/-- A node that is made for an instance. -/
def NodeMade (q : P) (κ : Kind) : Prop :=
  (∀ m, rawNode q = some (.object m) → m ≠ [] → κ = .object) ∧ ∀ i, rawNode q = some (.array i) → κ = .array

theorem newInstance_form {lib : Lib} {path ident : Str} {q : P} {s s' : St} {t : T} (h : newInstance lib ident path q s = (.ok t, s')) :
    ∃ κ, t.form = (κ, path) ∧ NodeMade q κ := by
  obtain ⟨_, hb⟩ := newInstance_bare h
  rcases hb with ⟨ty, d, tid, rfl, hm⟩ | ⟨d, tid, rfl, ⟨nu, hf⟩, _⟩ | ⟨d, tid, rfl, ⟨nu, hf⟩, _⟩
  · simp only [Mirrors] at hm
    obtain ⟨_, ⟨ty0, nu, hf, ha, ho, _⟩, _⟩ := hm
    refine ⟨.scalar, rfl, fun m hq hne => ?_, fun i hq => ?_⟩
    · unfold rawNode at hq
      rw [hf] at hq
      simp only at hq
      split at hq
      · rename_i h0
        rw [ho h0] at hq
        cases hq
        exact absurd rfl hne
      · cases hq
    · unfold rawNode at hq
      rw [hf] at hq
      simp only at hq
      split at hq
      · rename_i h0
        rw [ho h0] at hq
        cases hq
      · cases hq
  · refine ⟨.array, rfl, fun m hq hne => ?_, fun i hq => rfl⟩
    unfold rawNode at hq
    rw [hf] at hq
    simp only at hq
    rw [if_neg (by decide), if_pos trivial] at hq
    cases hk : q.key g!"items" <;> rw [hk] at hq <;> cases hq
  · refine ⟨.object, rfl, fun m hq hne => rfl, fun i hq => ?_⟩
    unfold rawNode at hq
    rw [hf] at hq
    simp only at hq
    rw [if_pos trivial] at hq
    split at hq <;> cases hq

/-- The tree has a node for every instance visited so far. -/
def TreeFor (top : Kind) (vs : List (List Seg × P)) (root : T) : Prop :=
  root.form = (top, g!"$") ∧ ∀ x ∈ vs, ∃ κ, (T.nodeFor x.1 root).map T.form = some (κ, pathOf x.1) ∧ NodeMade x.2 κ

/-- What is called before comes with everything above it. -/
theorem above_called {view : P → Option Node} {sc : Schema} {vs : List (List Seg × P)} {done : Bool} (hv : Visits view sc vs done) {a b : List (List Seg × P)} (he : vs = a ++ b)
    (l : List Seg) (hl : l ≠ []) : ∀ (r : List Seg) (q : P), (l ++ r, q) ∈ a → ∃ q', (l, q') ∈ a := by
  intro r
  induction hn : r.length generalizing r with
  | zero =>
    intro q h
    rw [List.length_eq_zero_iff.1 hn, List.append_nil] at h
    exact ⟨q, h⟩
  | succ n ih =>
    intro q h
    obtain ⟨r', g, rfl⟩ : ∃ r' g, r = r' ++ [g] := ⟨r.dropLast, r.getLast (by intro h; rw [h] at hn; cases hn), (List.dropLast_append_getLast _).symm⟩
    obtain ⟨a1, a2, rfl⟩ := List.append_of_mem h
    rcases hv.parents a1 (l ++ r') g q (a2 ++ b) (by rw [he]; simp) with h0 | ⟨q', h0⟩
    · exact absurd (List.append_eq_nil_iff.1 h0).1 hl
    · obtain ⟨q'', h1⟩ := ih r' (by simp at hn; omega) q' (List.mem_append_left _ h0)
      exact ⟨q'', h1⟩

theorem At.single {view : P → Option Node} {q r : P} {g : Seg} (h : At view q [g] r) :
    (∃ m k, g = .key k ∧ view q = some (.object m) ∧ (k, r) ∈ m) ∨ (g = .star ∧ view q = some (.array r)) := by
  cases h with
  | prop h1 h2 h3 => cases h3; exact .inl ⟨_, _, rfl, h1, h2⟩
  | item h1 h2 => cases h2; exact .inr ⟨rfl, h1⟩

theorem at_one {view : P → Option Node} : ∀ {l : List Seg} {raw q q' : P}, (∀ l q m, At view raw l q → view q = some (.object m) → NamesOK m) →
    At view raw l q → At view raw l q' → q = q'
  | [], raw, q, q', _, h, h' => by cases h; cases h'; rfl
  | .key k :: l, raw, q, q', hn, h, h' => by
    cases h with
    | prop h1 h2 h3 =>
      cases h' with
      | prop h1' h2' h3' =>
        rw [h1] at h1'
        cases h1'
        have := nodup_fst_eq (hn [] raw _ .here h1).1 h2 h2'
        subst this
        exact at_one (fun l r m hl hm => hn _ r m (.prop h1 h2 hl) hm) h3 h3'
  | .star :: l, raw, q, q', hn, h, h' => by
    cases h with
    | item h1 h3 =>
      cases h' with
      | item h1' h3' =>
        rw [h1] at h1'
        cases h1'
        exact at_one (fun l r m hl hm => hn _ r m (.item h1 hl) hm) h3 h3'

/-- There is one instance at a position. -/
theorem schemaAt_one {view : P → Option Node} {sc : Schema} (hn : SchemaNames view sc) {l : List Seg} {q q' : P} (h : SchemaAt view sc l q) (h' : SchemaAt view sc l q') :
    q = q' := by
  cases h with
  | prop h1 h2 h3 =>
    cases h' with
    | prop h1' h2' h3' =>
      rw [h1] at h1'
      cases h1'
      have := nodup_fst_eq (hn.1 _ h1).1 h2 h2'
      subst this
      exact at_one (fun l r m hl hm => hn.2 _ r m (.prop h1 h2 hl) hm) h3 h3'
  | item h1 h3 =>
    cases h' with
    | item h1' h3' =>
      rw [h1] at h1'
      cases h1'
      exact at_one (fun l r m hl hm => hn.2 _ r m (.item h1 hl) hm) h3 h3'


/-- Whether the root is an object or an array. -/
def topKind (sc : Schema) : Kind := if sc.properties.isSome then .object else .array

/-- One call of the walk function, in its place among the calls. -/
theorem walker_step {lib : Lib} {ident : Str} {sc : Schema} {vs : List (List Seg × P)} {done : Bool} (hv : Visits rawNode sc vs done) (hsn : SchemaNames rawNode sc)
    {a b : List (List Seg × P)} {l : List Seg} {g : Seg} {q : P} (he : vs = a ++ (l ++ [g], q) :: b) (hpl : ∀ x ∈ l ++ [g], x.plain)
    {root : T} (hT : TreeFor (topKind sc) a root) {s s' : St} {node : T} (hni : newInstance lib ident (pathOf (l ++ [g])) q s = (.ok node, s')) :
    (Takes (topKind sc) g ∨ l ≠ [] → ∃ root', walker lib ident (pathOf (l ++ [g])) q (root, s) = .ok (root', s') ∧ TreeFor (topKind sc) (a ++ [(l ++ [g], q)]) root') ∧
    (¬ Takes (topKind sc) g ∧ l = [] → walker lib ident (pathOf (l ++ [g])) q (root, s) = .err) := by
  have hpath : node.path = pathOf (l ++ [g]) := (newInstance_bare hni).2.path_eq
  obtain ⟨κ', hform', hmade'⟩ := newInstance_form hni
  have hsat : SchemaAt rawNode sc (l ++ [g]) q := hv.sound (l ++ [g], q) (by rw [he]; simp)
  have hw : walker lib ident (pathOf (l ++ [g])) q (root, s) = (T.updateAt (T.addChild node) (l.map Seg.str) root).map fun r => (r, s') := by
    unfold walker
    simp only [hni, parentParts_path hpl]
  have hl : ∀ x ∈ l, x.plain := fun x hx => hpl x (by simp [hx])
  have hnot : ∀ x ∈ a, ∀ r, x.1 ≠ l ++ [g] ++ r := by
    intro x hx r hxr
    obtain ⟨x1, x2⟩ := x
    simp only at hxr
    subst hxr
    obtain ⟨q', h'⟩ := above_called hv he (l ++ [g]) (by simp) r x2 hx
    have hnd := hv.once
    rw [he, List.map_append, List.map_cons, List.nodup_append] at hnd
    exact hnd.2.2 _ (List.mem_map_of_mem h') _ (by simp) rfl
  constructor
  · intro hor
    have hpar : ∃ κ t, T.nodeFor l root = some t ∧ t.form = (κ, pathOf l) ∧ Takes κ g := by
      by_cases h0 : l = []
      · subst h0
        rcases hor with h | h
        · exact ⟨topKind sc, root, rfl, hT.1, h⟩
        · exact absurd rfl h
      · rcases hv.parents a l g q b he with h | ⟨q', hq'⟩
        · exact absurd h h0
        · obtain ⟨κ, h1, h2⟩ := hT.2 _ hq'
          obtain ⟨q'', h3, h4⟩ := hsat.above h0
          have : q' = q'' := schemaAt_one hsn (hv.sound (l, q') (by rw [he]; simp [hq'])) h3
          subst this
          obtain ⟨t, h5, h6⟩ := Option.map_eq_some_iff.1 h1
          refine ⟨κ, t, h5, h6, ?_⟩
          rcases At.single h4 with ⟨m, k, rfl, h7, h8⟩ | ⟨rfl, h7⟩
          · exact h2.1 m h7 (List.ne_nil_of_mem h8)
          · exact h2.2 _ h7
    obtain ⟨κ, t, ht, hf, htk⟩ := hpar
    obtain ⟨t', h1, h2, h3⟩ := addChild_takes (hpl g (by simp)) hpath hf htk
    obtain ⟨root', h4, h5⟩ := (updateAt_node hl ht).2 t' h1
    refine ⟨root', by rw [hw, h4]; rfl, ?_, ?_⟩
    · have := updateAt_other hl h4 (p := []) (u := (topKind sc, g!"$")) (fun r t1 t1' hr ht1 hft => ?_) (by rw [T.nodeFor, Option.map_some, hT.1]) (fun t t' h => addChild_form h)
      · simpa [T.nodeFor] using this
      · have := (List.append_eq_nil_iff.1 hr.symm).2
        subst this
        simp only [T.nodeFor, Option.map_some, addChild_form hft]
    · intro x hx
      rcases List.mem_append.1 hx with hxa | hx
      · obtain ⟨κ1, h6, h7⟩ := hT.2 x hxa
        refine ⟨κ1, updateAt_other hl h4 (fun r t1 t1' hr ht1 hft => ?_) h6 (fun t t' h => addChild_form h), h7⟩
        rw [ht] at ht1
        cases ht1
        rw [h1] at hft
        cases hft
        cases r with
        | nil => simp only [T.nodeFor, Option.map_some, addChild_form h1]
        | cons g' r =>
          by_cases hgg : g' = g
          · subst hgg
            exact absurd (by rw [hr]; simp) (hnot x hxa r)
          · rw [h3 g' r hgg]
      · simp only [List.mem_singleton] at hx
        subst hx
        refine ⟨κ', ?_, hmade'⟩
        simp only
        rw [h5 [g], h2 []]
        simp only [T.nodeFor, Option.map_some, hform']
  · rintro ⟨hnt, rfl⟩
    rw [hw, (updateAt_node (l := []) (fun x h => nomatch h) rfl).1]
    · rfl
    · have hk : g = .star ∧ topKind sc = .object := by
        cases g with
        | star =>
          refine ⟨rfl, ?_⟩
          unfold topKind
          unfold Takes topKind at hnt
          split
          · rfl
          · rename_i h
            simp only [if_neg h] at hnt
            exact absurd trivial hnt
        | key k =>
          cases hsat with
          | prop h1 h2 h3 =>
            refine absurd ?_ hnt
            unfold Takes topKind
            rw [h1]
            rfl
      obtain ⟨rfl, hk⟩ := hk
      exact addChild_mixed hpath (by rw [hT.1, hk])


theorem rawNode_props {q : P} {m : List (Str × P)} (h : rawNode q = some (.object m)) : q.key g!"properties" = some (.obj m) := by
  unfold rawNode at h
  split at h
  · split at h
    · split at h
      · cases h; assumption
      · cases h
    · split at h
      · obtain ⟨_, _, h⟩ := Option.map_eq_some_iff.1 h; cases h
      · cases h
  · cases h

theorem rawNode_items {q i : P} (h : rawNode q = some (.array i)) : q.key g!"items" = some i := by
  unfold rawNode at h
  split at h
  · split at h
    · split at h <;> cases h
    · split at h
      · obtain ⟨i, hi, h⟩ := Option.map_eq_some_iff.1 h; cases h; exact hi
      · cases h
  · cases h

theorem at_inst {p q : P} {l : List Seg} (h : At rawNode p l q) : Inst p q := by
  induction h with
  | here => exact .self _
  | prop h1 h2 _ ih => exact inst_trans (.prop (.self _) (rawNode_props h1) h2) ih
  | item h1 _ ih => exact inst_trans (.items (.self _) (rawNode_items h1)) ih

theorem schemaAt_inst {sc : Schema} {q : P} {l : List Seg} (h : SchemaAt rawNode sc l q) : SchemaInst sc q := by
  cases h with
  | prop h1 h2 h3 => exact .inl ⟨_, _, _, h1, h2, at_inst h3⟩
  | item h1 h3 => exact .inr ⟨_, h1, at_inst h3⟩

theorem plainSchema_names {sc : Schema} (h : PlainSchema sc) : SchemaNames rawNode sc :=
  ⟨fun m hm => ⟨(h.1 m hm).1, fun he => by
      obtain ⟨kv, h1, h2⟩ := List.mem_map.1 he
      exact ((h.1 m hm).2 kv h1).1 h2⟩,
    fun l q m hq hm => ⟨(h.2 q (schemaAt_inst hq) m (rawNode_props hm)).1, fun he => by
      obtain ⟨kv, h1, h2⟩ := List.mem_map.1 he
      exact ((h.2 q (schemaAt_inst hq) m (rawNode_props hm)).2 kv h1).1 h2⟩⟩

theorem at_plain {p q : P} {l : List Seg} (hp : ∀ q, Inst p q → PlainProps q) (h : At rawNode p l q) : ∀ x ∈ l, x.plain := by
  induction h with
  | here => exact fun x h => nomatch h
  | prop h1 h2 _ ih =>
    have hk := (hp _ (.self _) _ (rawNode_props h1)).2 _ h2
    have := ih (fun q hq => hp q (inst_trans (.prop (.self _) (rawNode_props h1) h2) hq))
    intro x hx
    rcases List.mem_cons.1 hx with rfl | hx
    · exact hk
    · exact this x hx
  | item h1 h3 ih =>
    have hi := at_inst (.item h1 .here)
    have := ih (fun q hq => hp q (inst_trans hi hq))
    intro x hx
    rcases List.mem_cons.1 hx with rfl | hx
    · trivial
    · exact this x hx

theorem plainSchema_segs {sc : Schema} (h : PlainSchema sc) {l : List Seg} {q : P} (hq : SchemaAt rawNode sc l q) : ∀ x ∈ l, x.plain := by
  cases hq with
  | prop h1 h2 h3 =>
    intro x hx
    rcases List.mem_cons.1 hx with rfl | hx
    · exact (h.1 _ h1).2 _ h2
    · exact at_plain (fun q hq => h.2 q (.inl ⟨_, _, _, h1, h2, hq⟩)) h3 x hx
  | item h1 h3 =>
    intro x hx
    rcases List.mem_cons.1 hx with rfl | hx
    · trivial
    · exact at_plain (fun q hq => h.2 q (.inr ⟨_, h1, hq⟩)) h3 x hx

theorem fnAt_walker (lib : Lib) (ident : Str) (l : List Seg) (q : P) (st : T × St) :
    fnAt (walker lib ident) g!"$" (l, q) st = walker lib ident (pathOf l) q st := rfl

/-- An instance that goes under the root. -/
def TopFits (sc : Schema) (l : List Seg) : Prop := ∀ g, l = [g] → Takes (topKind sc) g

/-- All the calls: they succeed if and only if every instance gets its node and goes under its parent. -/
theorem walker_fold {lib : Lib} {ident : Str} {sc : Schema} (hp : PlainSchema sc) {vs : List (List Seg × P)} {done : Bool} (hv : Visits rawNode sc vs done) :
    ∀ (b a : List (List Seg × P)), vs = a ++ b → ∀ {root : T} {s : St}, TreeFor (topKind sc) a root →
      ((∃ r, foldRes (fnAt (walker lib ident) g!"$") b (root, s) = .ok r) →
        ∀ x ∈ b, (∃ t s s', newInstance lib ident (pathOf x.1) x.2 s = (.ok t, s')) ∧ TopFits sc x.1) ∧
      ((∀ x ∈ b, (∀ s, ∃ t s', newInstance lib ident (pathOf x.1) x.2 s = (.ok t, s')) ∧ TopFits sc x.1) →
        ∃ r, foldRes (fnAt (walker lib ident) g!"$") b (root, s) = .ok r) ∧
      ((∀ x ∈ b, ∀ s, (newInstance lib ident (pathOf x.1) x.2 s).1 ≠ .panic) → foldRes (fnAt (walker lib ident) g!"$") b (root, s) ≠ .panic)
  | [], a, _, root, s, _ => ⟨fun _ _ h => (nomatch h), fun _ => ⟨_, rfl⟩, fun _ h => (nomatch h)⟩
  | (l0, q) :: b, a, he, root, s, hT => by
    have hsat := hv.sound (l0, q) (by rw [he]; simp)
    obtain ⟨l, g, rfl⟩ : ∃ l g, l0 = l ++ [g] := by
      have : l0 ≠ [] := by rintro rfl; cases hsat
      exact ⟨l0.dropLast, l0.getLast this, (List.dropLast_append_getLast this).symm⟩
    have hpl := plainSchema_segs hp hsat
    have hsn := plainSchema_names hp
    simp only [foldRes, fnAt_walker]
    have hfit : TopFits sc (l ++ [g]) ↔ Takes (topKind sc) g ∨ l ≠ [] := by
      constructor
      · intro h
        by_cases h0 : l = []
        · subst h0; exact .inl (h g rfl)
        · exact .inr h0
      · rintro (h | h) g' hg
        · have : l = [] ∧ g = g' := by
            cases l with
            | nil => simpa using hg
            | cons => simp at hg
          rw [← this.2]; exact h
        · cases l with
          | nil => exact absurd rfl h
          | cons => simp at hg
    rcases hni : newInstance lib ident (pathOf (l ++ [g])) q s with ⟨t | _ | _, s'⟩
    · obtain ⟨h1, h2⟩ := walker_step hv hsn he hpl hT hni
      by_cases hf : TopFits sc (l ++ [g])
      · obtain ⟨root', h3, h4⟩ := h1 (hfit.1 hf)
        obtain ⟨i1, i2, i3⟩ := walker_fold (lib := lib) (ident := ident) hp hv b (a ++ [(l ++ [g], q)]) (by rw [he]; simp) (s := s') h4
        rw [h3]
        refine ⟨fun h x hx => ?_, fun h => i2 fun x hx => h x (List.mem_cons_of_mem _ hx), fun h => i3 fun x hx => h x (List.mem_cons_of_mem _ hx)⟩
        rcases List.mem_cons.1 hx with rfl | hx
        · exact ⟨⟨t, s, s', hni⟩, hf⟩
        · exact i1 h x hx
      · have hm := h2 (by
          have : ¬ (Takes (topKind sc) g ∨ l ≠ []) := fun h => hf (hfit.2 h)
          refine ⟨fun h => this (.inl h), Classical.byContradiction fun h => this (.inr h)⟩)
        rw [hm]
        refine ⟨fun ⟨r, h⟩ => (nomatch h), fun h => absurd (h _ (List.mem_cons_self ..)).2 hf, fun _ h => (nomatch h)⟩
    · have hm : walker lib ident (pathOf (l ++ [g])) q (root, s) = .err := by unfold walker; simp only [hni]
      rw [hm]
      refine ⟨fun ⟨r, h⟩ => (nomatch h), fun h => ?_, fun _ h => (nomatch h)⟩
      obtain ⟨t, s'', h⟩ := (h _ (List.mem_cons_self ..)).1 s
      simp only at h
      rw [hni] at h
      cases h
    · have hm : walker lib ident (pathOf (l ++ [g])) q (root, s) = .panic := by unfold walker; simp only [hni]
      rw [hm]
      refine ⟨fun ⟨r, h⟩ => (nomatch h), fun h => ?_, fun h => ?_⟩
      · obtain ⟨t, s'', h⟩ := (h _ (List.mem_cons_self ..)).1 s
        simp only at h
        rw [hni] at h
        cases h
      · exact absurd (by simp only [hni]) (h _ (List.mem_cons_self ..) s)


theorem topFits_iff {sc : Schema} {vs : List (List Seg × P)} (hv : Visits rawNode sc vs true) (ht : sc.properties.isSome = true ∨ sc.items.isSome = true) :
    (∀ x ∈ vs, TopFits sc x.1) ↔ (sc.properties.isSome = true ↔ sc.items = none) := by
  constructor
  · intro h
    constructor
    · intro hp
      cases hi : sc.items with
      | none => rfl
      | some q =>
        have := h _ (hv.complete rfl [.star] q (.item hi .here)) .star rfl
        unfold Takes topKind at this
        simp [hp] at this
    · intro hi
      rw [hi] at ht
      simpa using ht
  · intro h x hx g hg
    have hs := hv.sound x hx
    rw [hg] at hs
    unfold topKind
    cases hs with
    | prop h1 h2 h3 => unfold Takes; rw [h1]; rfl
    | item h1 h3 =>
      unfold Takes
      have : ¬ sc.properties.isSome = true := fun hp => by rw [h.1 hp] at h1; cases h1
      simp only [if_neg this]

/-- The calls made by NewTransformer. -/
theorem newTransformer_calls (env : Env) {sc : Schema} (hp : PlainSchema sc) (ident : Str) (ht : sc.properties.isSome = true ∨ sc.items.isSome = true) :
    ∃ vs done tk root, Visits rawNode sc vs done ∧ TreeFor (topKind sc) [] root ∧
      newTransformer env sc ident = ((outcome done tk (foldRes (fnAt (walker env.lib ident) g!"$") vs (root, St.empty))).map Prod.snd).map
        fun x => (x.1, { x.2 with shared := x.2.heap.length }) := by
  obtain ⟨vs, done, tk, hv, hc⟩ := gwalkSchema_visits (order := rawOrder env.sched 0) rawNode_shrinks (fun n m => by unfold rawOrder; split; exacts [env.sched.isPerm _ _ _, List.Perm.refl _]) sc 0 (plainSchema_names hp)
  unfold newTransformer
  by_cases h : sc.properties.isSome = true
  · refine ⟨vs, done, tk, .object g!"$" none none [], hv, ⟨?_, fun x h => (nomatch h)⟩, ?_⟩
    · unfold topKind; rw [if_pos h]; rfl
    · simp only [if_pos h]
      rw [walkRawSchema_gwalk, hc]
  · have hi : sc.items.isSome = true := ht.resolve_left h
    refine ⟨vs, done, tk, .array g!"$" none none none, hv, ⟨?_, fun x h => (nomatch h)⟩, ?_⟩
    · unfold topKind; rw [if_neg h]; rfl
    · simp only [if_neg h, if_pos hi]
      rw [walkRawSchema_gwalk, hc]

/-- With plain property names, NewTransformer succeeds exactly for the schemas that can be handled. -/
theorem C91_accepts_partial (env : Env) (sc : Schema) (ident : Str) (hp : PlainSchema sc) :
    (∃ r, newTransformer env sc ident = .ok r) ↔ SchemaAccepted env.lib ident sc := by
  by_cases ht : sc.properties.isSome = true ∨ sc.items.isSome = true
  · obtain ⟨vs, done, tk, root, hv, hT, he⟩ := newTransformer_calls env hp ident ht
    obtain ⟨h1, h2, _⟩ := walker_fold (lib := env.lib) (ident := ident) hp hv vs [] rfl (s := St.empty) hT
    rw [he]
    constructor
    · rintro ⟨r, hr⟩
      rcases hf : foldRes (fnAt (walker env.lib ident) g!"$") vs (root, St.empty) with x | _ | _
      · rw [hf] at hr
        cases hd : done with
        | false => rw [hd] at hr; cases hr
        | true =>
          subst hd
          have hx := h1 ⟨x, hf⟩
          have hw := hv.ends.1 rfl
          refine ⟨(topFits_iff hv ht).1 fun x h => (hx x h).2, hw, fun l q hq => ?_⟩
          obtain ⟨⟨t, s, s', h⟩, _⟩ := hx _ (hv.complete rfl l q hq)
          exact (newInstance_fine (hw l q hq) s).1 ⟨t, s', h⟩
      · rw [hf] at hr; cases hr
      · rw [hf] at hr; cases hr
    · intro ha
      have hd := hv.ends.2 ha.read
      subst hd
      obtain ⟨r, hr⟩ := h2 fun x hx => ⟨fun s => (newInstance_fine (ha.read _ _ (hv.sound x hx)) s).2 (ha.each _ _ (hv.sound x hx)), (topFits_iff hv ht).2 ha.top x hx⟩
      rw [hr]
      exact ⟨_, rfl⟩
  · have h1 : ¬ sc.properties.isSome = true := fun h => ht (.inl h)
    have h2 : ¬ sc.items.isSome = true := fun h => ht (.inr h)
    constructor
    · rintro ⟨r, hr⟩
      unfold newTransformer at hr
      simp only [if_neg h1, if_neg h2] at hr
      cases hr
    · intro ha
      exact absurd (ha.top.2 (by simpa using h2)) h1

/-- If no instruction is null either, NewTransformer returns an error for all the others. -/
theorem C91_partial (env : Env) (sc : Schema) (ident : Str) (hp : PlainSchema sc) (hn : NoNullInstr ident sc) :
    (SchemaAccepted env.lib ident sc ∧ ∃ r, newTransformer env sc ident = .ok r) ∨ (¬ SchemaAccepted env.lib ident sc ∧ newTransformer env sc ident = .err) := by
  have hcalm : newTransformer env sc ident ≠ .panic := by
    by_cases ht : sc.properties.isSome = true ∨ sc.items.isSome = true
    · obtain ⟨vs, done, tk, root, hv, hT, he⟩ := newTransformer_calls env hp ident ht
      have h3 := (walker_fold (lib := env.lib) (ident := ident) hp hv vs [] rfl (s := St.empty) hT).2.2
        fun x hx s => newInstance_calm (pathOf x.1) (hn x.1 x.2 (hv.sound x hx)) s
      rw [he]
      rcases hf : foldRes (fnAt (walker env.lib ident) g!"$") vs (root, St.empty) with x | _ | _
      · cases done <;> exact fun h => nomatch h
      · exact fun h => nomatch h
      · exact absurd hf h3
    · have h1 : ¬ sc.properties.isSome = true := fun h => ht (.inl h)
      have h2 : ¬ sc.items.isSome = true := fun h => ht (.inr h)
      unfold newTransformer
      simp only [if_neg h1, if_neg h2]
      exact fun h => nomatch h
  have ha := C91_accepts_partial env sc ident hp
  rcases h : newTransformer env sc ident with r | _ | _
  · exact .inl ⟨ha.1 ⟨r, h⟩, r, rfl⟩
  · refine .inr ⟨fun h' => ?_, rfl⟩
    obtain ⟨r, hr⟩ := ha.2 h'
    rw [h] at hr
    cases hr
  · exact absurd h hcalm

/-- The property for all schemas. -/
def C91_statement : Prop := ∀ (env : Env) (sc : Schema) (ident : Str), SchemaNames rawNode sc →
  (SchemaAccepted env.lib ident sc ∧ ∃ r, newTransformer env sc ident = .ok r) ∨ (¬ SchemaAccepted env.lib ident sc ∧ newTransformer env sc ident = .err)

theorem Res.of_shape {α : Type} {r : Res α} : (r.map (fun _ => ()) = .panic → r = .panic) ∧ (r.map (fun _ => ()) = .err → r = .err) := by
  cases r <;> exact ⟨fun h => (by cases h <;> rfl), fun h => (by cases h <;> rfl)⟩

namespace C91ex
open Toy

/-- The schema of C03 is accepted, and has a name, an array and transforms. -/
example : PlainSchema C03ex.sc ∧ SchemaAccepted (lib []) g!"t" C03ex.sc := by
  refine ⟨C03ex.simple.plain, ?_⟩
  rw [← C91_accepts_partial ⟨lib [], Sched.id, .json⟩ C03ex.sc g!"t" C03ex.simple.plain]
  have h : (newTransformer ⟨lib [], Sched.id, .json⟩ C03ex.sc g!"t").isOk = true := by decide +kernel
  revert h
  cases newTransformer ⟨lib [], Sched.id, .json⟩ C03ex.sc g!"t" with
  | ok r => exact fun _ => ⟨r, rfl⟩
  | err => exact fun h => nomatch h
  | panic => exact fun h => nomatch h

/-- A schema with an unknown method. -/
def unknown : Schema := ⟨some [(g!"x", strFrom g!"middle" [g!"$.p"])], none⟩

/-- A property below one with a dot in its name. -/
def dotted : Schema := ⟨some [(g!"a.b", o [(g!"type", s g!"object"), (g!"properties", o [(g!"c", o [(g!"type", s g!"string")])])])], none⟩

/-- Null in place of an instruction. -/
def nullInstr : Schema := ⟨some [(g!"x", o [(g!"type", s g!"string"), (g!"transform", o [(g!"t", o [(g!"from", a [.sc .nil])])])])], none⟩

/-- An unknown method is an error. -/
example : PlainSchema unknown ∧ newTransformer ⟨lib [], Sched.id, .json⟩ unknown g!"t" = .err :=
  ⟨(simpleSchemaB_sound (ident := g!"t") (n := 6) (by decide +kernel)).plain, Res.of_shape.2 (by decide +kernel)⟩

theorem nullInstr_plain : PlainSchema nullInstr := (simpleSchemaB_sound (ident := g!"t") (n := 6) (by decide +kernel)).plain

theorem nullInstr_panics : newTransformer ⟨lib [], Sched.id, .json⟩ nullInstr g!"t" = .panic := Res.of_shape.1 (by decide +kernel)

theorem dotted_names : SchemaNames rawNode dotted := by
  have hin : rawNode (o [(g!"type", s g!"string")]) = some .leaf := rfl
  have hob : rawNode (o [(g!"type", s g!"object"), (g!"properties", o [(g!"c", o [(g!"type", s g!"string")])])]) = some (.object [(g!"c", o [(g!"type", s g!"string")])]) := rfl
  refine ⟨fun m hm => ?_, fun l q m hq hm => ?_⟩
  · cases hm
    exact ⟨by decide, by decide⟩
  · cases hq with
    | item h => cases h
    | prop h1 h2 h3 =>
      cases h1
      simp only [List.mem_singleton, Prod.mk.injEq] at h2
      obtain ⟨rfl, rfl⟩ := h2
      cases h3 with
      | here =>
        rw [hob] at hm
        cases hm
        exact ⟨by decide, by decide⟩
      | item h => rw [hob] at h; cases h
      | prop h4 h5 h6 =>
        rw [hob] at h4
        cases h4
        simp only [List.mem_singleton, Prod.mk.injEq] at h5
        obtain ⟨rfl, rfl⟩ := h5
        cases h6 with
        | here => rw [hin] at hm; cases hm
        | item h => rw [hin] at h; cases h
        | prop h => rw [hin] at h; cases h

theorem dotted_panics : newTransformer ⟨lib [], Sched.id, .json⟩ dotted g!"t" = .panic := Res.of_shape.1 (by decide +kernel)

end C91ex

/-- A property name with a dot makes NewTransformer panic, and so does null in place of an instruction. -/
theorem C91_refuted : ¬ C91_statement ∧ ∃ (env : Env) (sc : Schema) (ident : Str), PlainSchema sc ∧ newTransformer env sc ident = .panic := by
  refine ⟨fun h => ?_, _, _, _, C91ex.nullInstr_plain, C91ex.nullInstr_panics⟩
  rcases h _ _ g!"t" C91ex.dotted_names with ⟨_, r, h⟩ | ⟨_, h⟩
  · rw [C91ex.dotted_panics] at h; cases h
  · rw [C91ex.dotted_panics] at h; cases h

end JT
