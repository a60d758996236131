import Verif.Props.C66
import Verif.Props.C31
/- Walking a schema with one object for each object of the schema (generate/struct.go:205-241 and generate/graphql.go:423-494 have the same form): each object
of the result is built by the properties it has, and by nothing else. -/
deriving instance DecidableEq for JT.Seg

namespace JT.Spec

/-- `childOf l p`: the property of the object at `l` that position `p` belongs to, and whether `p` is that of its items. -/
def childOf : List Seg → List Seg → Option (Str × Bool)
  | [], [.key k] => some (k, false)
  | [], [.key k, .star] => some (k, true)
  | [], _ => none
  | g :: l, g' :: p => if g = g' then childOf l p else none
  | _ :: _, [] => none

/-- The instances that belong to the object at `l`, in the order of `vs`. -/
def children (l : List Seg) (vs : List (List Seg × P)) : List ((Str × Bool) × P) :=
  vs.filterMap fun x => (childOf l x.1).map fun c => (c, x.2)

theorem childOf_key (l : List Seg) (k : Str) : childOf l (l ++ [.key k]) = some (k, false) := by
  induction l with
  | nil => rfl
  | cons g l ih => simp [childOf, ih]

theorem childOf_item (l : List Seg) (k : Str) : childOf l (l ++ [.key k, .star]) = some (k, true) := by
  induction l with
  | nil => rfl
  | cons g l ih => simp [childOf, ih]

theorem childOf_some : ∀ {l p : List Seg} {c : Str × Bool}, childOf l p = some c → p = l ++ .key c.1 :: (if c.2 then [.star] else [])
  | [], [.key k], c, h => by simp [childOf] at h; subst h; rfl
  | [], [.key k, .star], c, h => by simp [childOf] at h; subst h; rfl
  | [], [], c, h => by simp [childOf] at h
  | [], [.star], c, h => by simp [childOf] at h
  | [], .star :: _ :: _, c, h => by simp [childOf] at h
  | [], .key _ :: .key _ :: _, c, h => by simp [childOf] at h
  | [], .key _ :: .star :: _ :: _, c, h => by simp [childOf] at h
  | g :: l, [], c, h => by simp [childOf] at h
  | g :: l, g' :: p, c, h => by
    simp only [childOf] at h
    split at h
    · rename_i hg
      rw [childOf_some h, hg]; rfl
    · simp at h

theorem children_append (l : List Seg) (a b : List (List Seg × P)) : children l (a ++ b) = children l a ++ children l b := by
  simp [children, List.filterMap_append]

/-- What is at the positions above. -/
theorem At.parent {view : P → Option Node} {raw r : P} {l : List Seg} {k : Str} : ∀ {p : List Seg}, At view raw p r → p = l ++ [.key k] →
    ∃ q m, At view raw l q ∧ view q = some (.object m) ∧ (k, r) ∈ m := by
  intro p h
  induction h generalizing l with
  | here => intro he; simp at he
  | @prop raw q r m k' l' hv hm hq ih =>
    intro he
    cases l with
    | nil =>
      simp only [List.nil_append, List.cons.injEq, Seg.key.injEq] at he
      obtain ⟨rfl, rfl⟩ := he
      cases hq with
      | here => exact ⟨raw, m, .here, hv, hm⟩
    | cons g l =>
      simp only [List.cons_append, List.cons.injEq] at he
      obtain ⟨rfl, rfl⟩ := he
      obtain ⟨q', m', h1, h2, h3⟩ := ih rfl
      exact ⟨q', m', .prop hv hm h1, h2, h3⟩
  | @item raw q r l' hv hq ih =>
    intro he
    cases l with
    | nil => simp at he
    | cons g l =>
      simp only [List.cons_append, List.cons.injEq] at he
      obtain ⟨rfl, rfl⟩ := he
      obtain ⟨q', m', h1, h2, h3⟩ := ih rfl
      exact ⟨q', m', .item hv h1, h2, h3⟩

theorem At.above {view : P → Option Node} {raw r : P} {l : List Seg} {g : Seg} : ∀ {p : List Seg}, At view raw p r → p = l ++ [g] →
    ∃ q, At view raw l q ∧ At view q [g] r := by
  intro p h
  induction h generalizing l with
  | here => intro he; simp at he
  | @prop raw q r m k' l' hv hm hq ih =>
    intro he
    cases l with
    | nil =>
      simp only [List.nil_append, List.cons.injEq] at he
      obtain ⟨rfl, rfl⟩ := he
      exact ⟨raw, .here, .prop hv hm hq⟩
    | cons g l =>
      simp only [List.cons_append, List.cons.injEq] at he
      obtain ⟨rfl, rfl⟩ := he
      obtain ⟨q', h1, h2⟩ := ih rfl
      exact ⟨q', .prop hv hm h1, h2⟩
  | @item raw q r l' hv hq ih =>
    intro he
    cases l with
    | nil =>
      simp only [List.nil_append, List.cons.injEq] at he
      obtain ⟨rfl, rfl⟩ := he
      exact ⟨raw, .here, .item hv hq⟩
    | cons g l =>
      simp only [List.cons_append, List.cons.injEq] at he
      obtain ⟨rfl, rfl⟩ := he
      obtain ⟨q', h1, h2⟩ := ih rfl
      exact ⟨q', .item hv h1, h2⟩

/-- The instance that has the one at the end of a position. -/
theorem SchemaAt.above {view : P → Option Node} {sc : Schema} {r : P} {l : List Seg} {g : Seg} (h : SchemaAt view sc (l ++ [g]) r) (hl : l ≠ []) :
    ∃ q, SchemaAt view sc l q ∧ At view q [g] r := by
  cases l with
  | nil => exact absurd rfl hl
  | cons g0 l =>
    cases h with
    | prop hm hk ha =>
      obtain ⟨q, h1, h2⟩ := ha.above rfl
      exact ⟨q, .prop hm hk h1, h2⟩
    | item hi ha =>
      obtain ⟨q, h1, h2⟩ := ha.above rfl
      exact ⟨q, .item hi h1, h2⟩

end JT.Spec

namespace JT.Flat
open Spec Gen

/-- What differs between the two: objects have a name; `new` makes the object of a property and `add` adds a property to an object.  Both get whether the object is
the root, the object with the property, its name, the name of the new object, and the instance. -/
structure Kind (O : Type) where
  name : O → Str
  new : Bool → O → Str → Str → Instance → O
  add : Bool → O → Str → Str → Instance → Res O

variable {O : Type} (title : Str → Str) (K : Kind O)

/-- The walk function that both have. -/
def walk (path : Str) (i : Instance) (g : O × GMap O) : Res (O × GMap O) :=
  match (splitJSONPath path).getLast? with
  | none => .panic
  | some name =>
    let parts := title (K.name g.1) :: (splitJSONPath path).map title
    let parentKey := parts.dropLast.flatten
    let key := parts.flatten
    let top := (GMap.get parentKey g.2).isNone
    let parent := (GMap.get parentKey g.2).getD g.1
    let nested := if g!"object" ∈ i.type then GMap.set key (K.new top parent name key i) g.2 else g.2
    (K.add top parent name key i).map fun o =>
      if top then (o, nested) else if g!"object" ∈ i.type ∧ parentKey = key then (g.1, nested) else (g.1, GMap.set parentKey o nested)

/-- The name of the object at a position, below a root with a name. -/
def keyOf (root : Str) (l : List Seg) : Str := (title root :: (names l).map title).flatten

/-- What walking changes does not matter for names and new objects. -/
structure Stable : Prop where
  name : ∀ {t o n k i o'}, K.add t o n k i = .ok o' → K.name o' = K.name o
  new : ∀ {t o n k i o'}, K.add t o n k i = .ok o' → ∀ t' n' k' i', K.new t' o' n' k' i' = K.new t' o n' k' i'

/-- `Start sc root l o`: the object at position `l` is `o` when it is made. -/
inductive Start (sc : Schema) (root : O) : List Seg → O → Prop where
  | root : Start sc root [] root
  | child {l s : List Seg} {k : Str} {q : P} {i : Instance} {o : O} : Start sc root l o → s = [] ∨ s = [.star] → SchemaAt instNode sc (l ++ .key k :: s) q →
      decodeInstance false q = .ok i → g!"object" ∈ i.type →
      Start sc root (l ++ .key k :: s) (K.new (l == []) o k (keyOf title (K.name root) (l ++ [.key k])) i)

/-- The object at a position of the result. -/
def objAt (root : Str) (g : O × GMap O) (l : List Seg) : Option O := if l = [] then some g.1 else GMap.get (keyOf title root l) g.2

/-- A property is added to the object at `l`. -/
def childStep (root : Str) (l : List Seg) (c : (Str × Bool) × P) (o : O) : Res O :=
  match decodeInstance false c.2 with
  | .ok i => K.add (l == []) o c.1.1 (keyOf title root (l ++ [.key c.1.1])) i
  | .err => .err
  | .panic => .panic

/-- An object with its properties. -/
def IsObject (q : P) : Prop := ∃ m, instNode q = some (.object m)

/-- Positions have plain names, arrays are not directly in arrays, and no two objects get the same name. -/
structure Plain (root : Str) (sc : Schema) : Prop where
  names : SchemaNames instNode sc
  quiet : ∀ l q, SchemaAt instNode sc l q → QuietPath l
  arrays : ∀ l q, SchemaAt instNode sc l q → NoNestedArrays l
  apart : ∀ l q l' q', SchemaAt instNode sc l q → SchemaAt instNode sc l' q' → IsObject q → IsObject q' →
    keyOf title root l = keyOf title root l' → l = l'
  root : ∀ l q, SchemaAt instNode sc l q → IsObject q → keyOf title root l ≠ title root

theorem names_append (a b : List Seg) : Spec.names (a ++ b) = Spec.names a ++ Spec.names b := by
  induction a with
  | nil => rfl
  | cons g a ih => cases g <;> simp [Spec.names, ih]

theorem keyOf_star (root : Str) (l : List Seg) : keyOf title root (l ++ [.star]) = keyOf title root l := by
  simp [keyOf, names_append, Spec.names]

theorem noNested_last {p : List Seg} (h : NoNestedArrays p) : p = [] ∨ ∃ l k, p = l ++ [.key k] ∨ p = l ++ [.key k, .star] := by
  induction h with
  | nil => exact .inl rfl
  | @key k l h ih =>
    rcases ih with rfl | ⟨l', k', h'⟩
    · exact .inr ⟨[], k, .inl rfl⟩
    · exact .inr ⟨.key k :: l', k', by rcases h' with rfl | rfl <;> simp⟩
  | @item k l h ih =>
    rcases ih with rfl | ⟨l', k', h'⟩
    · exact .inr ⟨[], k, .inr rfl⟩
    · exact .inr ⟨.key k :: .star :: l', k', by rcases h' with rfl | rfl <;> simp⟩

/-- The walk function at a position of the schema. -/
theorem walk_at {root : Str} {sc : Schema} (hp : Plain title root sc) {l : List Seg} {k : Str} {s : List Seg} (hs : s = [] ∨ s = [.star]) {q : P}
    (ha : SchemaAt instNode sc (l ++ .key k :: s) q) (i : Instance) (g : O × GMap O) (hr : K.name g.1 = root) :
    walk title K (pathOf (l ++ .key k :: s)) i g =
      (let top := (GMap.get (keyOf title root l) g.2).isNone
       let parent := (GMap.get (keyOf title root l) g.2).getD g.1
       let key := keyOf title root (l ++ [.key k])
       let nested := if g!"object" ∈ i.type then GMap.set key (K.new top parent k key i) g.2 else g.2
       (K.add top parent k key i).map fun o =>
         if top then (o, nested) else if g!"object" ∈ i.type ∧ keyOf title root l = key then (g.1, nested) else (g.1, GMap.set (keyOf title root l) o nested)) := by
  have hn : splitJSONPath (pathOf (l ++ .key k :: s)) = Spec.names l ++ [k] := by
    rw [split_path (hp.arrays _ _ ha) (hp.quiet _ _ ha), names_append]
    rcases hs with rfl | rfl <;> rfl
  have h1 : (title root :: (Spec.names l ++ [k]).map title).dropLast.flatten = keyOf title root l := by
    rw [List.map_append, List.map_singleton, ← List.cons_append, List.dropLast_concat]; rfl
  have h2 : (title root :: (Spec.names l ++ [k]).map title).flatten = keyOf title root (l ++ [.key k]) := by
    simp [keyOf, names_append, Spec.names]
  unfold walk
  rw [hn, List.getLast?_concat]
  simp only [hr, h1, h2]

/-- Above a position of a visit are the objects that have been visited. -/
theorem instNode_object_iff {q : P} {i : Instance} (hd : decodeInstance false q = .ok i) : IsObject q ↔ g!"object" ∈ i.type ∧ i.properties ≠ none := by
  unfold IsObject instNode
  rw [hd]
  simp only
  split
  · cases i.properties <;> simp [*]
  · split
    · cases i.items <;> simp [*]
    · simp [*]

theorem keyOf_tail (root : Str) (l : List Seg) (k : Str) {s : List Seg} (hs : s = [] ∨ s = [.star]) :
    keyOf title root (l ++ .key k :: s) = keyOf title root (l ++ [.key k]) := by
  rcases hs with rfl | rfl
  · rfl
  · rw [show l ++ [Seg.key k, .star] = (l ++ [.key k]) ++ [.star] by simp, keyOf_star]

theorem tail_unique {l l' s s' : List Seg} {k k' : Str} (hs : s = [] ∨ s = [.star]) (hs' : s' = [] ∨ s' = [.star])
    (h : l ++ .key k :: s = l' ++ .key k' :: s') : l = l' ∧ k = k' ∧ s = s' := by
  rcases hs with rfl | rfl <;> rcases hs' with rfl | rfl
  · have := List.append_inj' h rfl
    simp at this; simp [this]
  · have := congrArg List.getLast? h
    simp at this
  · have := congrArg List.getLast? h
    simp at this
  · have := List.append_inj' h rfl
    simp at this; simp [this]

theorem childOf_tail (l : List Seg) (k : Str) {s : List Seg} (hs : s = [] ∨ s = [.star]) : childOf l (l ++ .key k :: s) = some (k, s == [.star]) := by
  rcases hs with rfl | rfl
  · rw [childOf_key]; rfl
  · rw [childOf_item]; rfl

theorem childOf_other {l l' : List Seg} {k : Str} {s : List Seg} (hs : s = [] ∨ s = [.star]) (h : l' ≠ l) : childOf l' (l ++ .key k :: s) = none := by
  cases hc : childOf l' (l ++ .key k :: s) with
  | none => rfl
  | some c =>
    exact absurd (tail_unique (by cases c.2 <;> simp) hs (childOf_some hc).symm).1 h

theorem childOf_self (p : List Seg) : childOf p p = none := by
  cases hc : childOf p p with
  | none => rfl
  | some c =>
    have := congrArg List.length (childOf_some hc)
    simp at this

theorem nodup_fst {α β : Type} {l : List (α × β)} (h : (l.map Prod.fst).Nodup) {x : α} {b c : β} (hb : (x, b) ∈ l) (hc : (x, c) ∈ l) : b = c := by
  induction l with
  | nil => simp at hb
  | cons y l ih =>
    simp only [List.map_cons, List.nodup_cons, List.mem_map, not_exists, not_and] at h
    simp only [List.mem_cons] at hb hc
    rcases hb with hb | hb <;> rcases hc with hc | hc
    · exact (Prod.mk.inj (hb.trans hc.symm)).2
    · exact absurd (congrArg Prod.fst hb) (h.1 (x, c) hc)
    · exact absurd (congrArg Prod.fst hc) (h.1 (x, b) hb)
    · exact ih h.2 hb hc

/-- Objects above a visited position have been visited. -/
theorem above_visited {sc : Schema} {vs : List (List Seg × P)} (hv : Visits instNode sc vs true) {a b : List (List Seg × P)} {l s : List Seg} {k : Str} {q : P}
    (hs : s = [] ∨ s = [.star]) (h : vs = a ++ (l ++ .key k :: s, q) :: b) : l = [] ∨ ∃ q', (l, q') ∈ a ∧ IsObject q' := by
  by_cases hl : l = []
  · exact .inl hl
  · refine .inr ?_
    have hsub : ∀ y ∈ a, y ∈ vs := fun y hy => by rw [h]; exact List.mem_append_left _ hy
    have huniq : ∀ {l q q'}, (l, q) ∈ a → SchemaAt instNode sc l q' → (l, q') ∈ a := by
      intro l q q' h1 h2
      rwa [← nodup_fst hv.once (hsub _ h1) (hv.complete rfl _ _ h2)]
    have hone : ∀ {a b : List (List Seg × P)} {q : P}, vs = a ++ (l ++ [.key k], q) :: b → ∃ q', (l, q') ∈ a ∧ IsObject q' := by
      intro a b q h
      have hsub : ∀ y ∈ a, y ∈ vs := fun y hy => by rw [h]; exact List.mem_append_left _ hy
      obtain ⟨q', h1⟩ := (hv.parents a l _ q b h).resolve_left hl
      obtain ⟨q2, h2, h3⟩ := (hv.sound (l ++ [.key k], q) (by rw [h]; simp)).above hl
      have : q' = q2 := nodup_fst hv.once (hsub _ h1) (hv.complete rfl _ _ h2)
      subst this
      refine ⟨q', h1, ?_⟩
      cases h3 with
      | prop hv' _ _ => exact ⟨_, hv'⟩
    rcases hs with rfl | rfl
    · exact hone h
    · have h' : vs = a ++ ((l ++ [.key k]) ++ [.star], q) :: b := by rw [h]; simp
      obtain ⟨q1, h1⟩ := (hv.parents a _ _ q b h').resolve_left (by simp)
      obtain ⟨a1, a2, rfl⟩ := List.append_of_mem h1
      obtain ⟨q', h2, h3⟩ := hone (a := a1) (b := a2 ++ (l ++ [.key k, .star], q) :: b) (q := q1) (by rw [h]; simp)
      exact ⟨q', List.mem_append_left _ h2, h3⟩

/-- Nothing below a position is visited before it. -/
theorem children_before {sc : Schema} {vs : List (List Seg × P)} (hv : Visits instNode sc vs true) {a b : List (List Seg × P)} {p : List Seg} {q : P}
    (hp : p ≠ []) (h : vs = a ++ (p, q) :: b) : children p a = [] := by
  unfold children
  rw [List.filterMap_eq_nil_iff]
  intro x hx
  cases hc : childOf p x.1 with
  | none => rfl
  | some c =>
    exfalso
    obtain ⟨a1, a2, rfl⟩ := List.append_of_mem hx
    have hx' : x = (p ++ .key c.1 :: (if c.2 then [.star] else []), x.2) := by rw [← childOf_some hc]
    have hm : ∃ q', (p, q') ∈ a1 := by
      rcases above_visited hv (a := a1) (l := p) (k := c.1) (s := if c.2 then [.star] else []) (q := x.2) (b := a2 ++ (p, q) :: b) (by cases c.2 <;> simp)
        (by rw [h, ← hx']; simp) with h1 | ⟨q', h1, _⟩
      · exact absurd h1 hp
      · exact ⟨q', h1⟩
    obtain ⟨q', hq'⟩ := hm
    have hn := hv.once
    rw [h] at hn
    simp only [List.map_append, List.map_cons, List.nodup_append, List.nodup_cons] at hn
    exact hn.2.2 p (by simp only [List.mem_append, List.mem_map]; exact .inl ⟨_, hq', rfl⟩) p (by simp) rfl

/-- The state after some of the calls. -/
structure Inv (sc : Schema) (root : O) (a : List (List Seg × P)) (g : O × GMap O) : Prop where
  name : K.name g.1 = K.name root
  objs : ∀ l, (l = [] ∨ ∃ q, (l, q) ∈ a ∧ IsObject q) →
    ∃ o0 o, Start title K sc root l o0 ∧ objAt title (K.name root) g l = some o ∧ Calls (childStep title K (K.name root) l) (children l a) o0 o
  only : ∀ κ o, GMap.get κ g.2 = some o → ∃ l q, (l, q) ∈ a ∧ IsObject q ∧ κ = keyOf title (K.name root) l

theorem Calls.append {σ β : Type} {f : β → σ → Res σ} {a b : List β} {s t u : σ} (h : Calls f a s t) (h' : Calls f b t u) : Calls f (a ++ b) s u := by
  induction h with
  | nil => exact h'
  | cons h1 _ ih => exact .cons h1 (ih h')

theorem new_calls (hst : Stable K) {l : List Seg} {root : Str} {cs : List ((Str × Bool) × P)} {o0 o : O} (h : Calls (childStep title K root l) cs o0 o)
    (t : Bool) (n k : Str) (i : Instance) : K.new t o n k i = K.new t o0 n k i := by
  induction h with
  | nil => rfl
  | @cons x xs s s1 s2 h1 _ ih =>
    rw [ih]
    unfold childStep at h1
    split at h1
    · exact hst.new h1 _ _ _ _
    · cases h1
    · cases h1

/-- Each call adds a property to one of the objects. -/
theorem call_eq {sc : Schema} {root : O} (hp : Plain title (K.name root) sc) {vs : List (List Seg × P)} (hv : Visits instNode sc vs true)
    {a b : List (List Seg × P)} {l s : List Seg} {k : Str} {q : P} (hs : s = [] ∨ s = [.star]) (h : vs = a ++ (l ++ .key k :: s, q) :: b) {g : O × GMap O}
    (hi : Inv title K sc root a g) : ∃ o0 o, Start title K sc root l o0 ∧ objAt title (K.name root) g l = some o ∧
      Calls (childStep title K (K.name root) l) (children l a) o0 o ∧
      ((GMap.get (keyOf title (K.name root) l) g.2).isNone = (l == []) ∧ (GMap.get (keyOf title (K.name root) l) g.2).getD g.1 = o) ∧
      ∃ F, onInst (walk title K) (pathOf (l ++ .key k :: s)) q g = (childStep title K (K.name root) l ((k, s == [.star]), q) o).map F := by
  have hsub : ∀ y ∈ a, SchemaAt instNode sc y.1 y.2 := fun y hy => hv.sound y (by rw [h]; exact List.mem_append_left _ hy)
  have hat : SchemaAt instNode sc (l ++ .key k :: s) q := hv.sound (_, q) (by rw [h]; simp)
  have hl := above_visited hv hs h
  obtain ⟨o0, o, hstart, hobj, hcalls⟩ := hi.objs l hl
  have hpar : (GMap.get (keyOf title (K.name root) l) g.2).isNone = (l == []) ∧ (GMap.get (keyOf title (K.name root) l) g.2).getD g.1 = o := by
    have hobj := hobj
    unfold objAt at hobj
    by_cases he : l = []
    · rw [if_pos he] at hobj
      have : GMap.get (keyOf title (K.name root) l) g.2 = none := by
        cases hg : GMap.get (keyOf title (K.name root) l) g.2 with
        | none => rfl
        | some o' =>
          obtain ⟨l', q', h1, h2, h3⟩ := hi.only _ _ hg
          refine absurd h3.symm ?_
          subst he
          have := hp.root l' q' (hsub _ h1) h2
          simpa [keyOf, Spec.names] using this
      rw [this]
      simp [he, Option.some.inj hobj]
    · rw [if_neg he] at hobj
      rw [hobj]
      have : (l == []) = false := by simpa using he
      simp [this]
  refine ⟨o0, o, hstart, hobj, hcalls, hpar, ?_⟩
  unfold onInst childStep
  cases hd : decodeInstance false q with
  | err => exact ⟨fun _ => g, rfl⟩
  | panic => exact ⟨fun _ => g, rfl⟩
  | ok i =>
    simp only
    rw [walk_at title K hp hs hat i g hi.name]
    simp only [hpar.1, hpar.2]
    exact ⟨_, rfl⟩

theorem step (hst : Stable K) {sc : Schema} {root : O} (hp : Plain title (K.name root) sc) {vs : List (List Seg × P)} (hv : Visits instNode sc vs true)
    {a b : List (List Seg × P)} {p : List Seg} {q : P} (h : vs = a ++ (p, q) :: b) {g g' : O × GMap O} (hi : Inv title K sc root a g)
    (hc : onInst (walk title K) (pathOf p) q g = .ok g') : Inv title K sc root (a ++ [(p, q)]) g' := by
  have hsub : ∀ y ∈ a, SchemaAt instNode sc y.1 y.2 := fun y hy => hv.sound y (by rw [h]; exact List.mem_append_left _ hy)
  have hat : SchemaAt instNode sc p q := hv.sound (p, q) (by rw [h]; simp)
  have hpa : ∀ q', (p, q') ∉ a := by
    intro q' hq'
    have hn := hv.once
    rw [h] at hn
    simp only [List.map_append, List.map_cons, List.nodup_append, List.nodup_cons] at hn
    exact hn.2.2 p (List.mem_map.2 ⟨_, hq', rfl⟩) p (by simp) rfl
  have hp0 : p ≠ [] := by intro he; subst he; cases hat
  obtain ⟨l, k, s, hs, rfl⟩ : ∃ l k s, (s = [] ∨ s = [Seg.star]) ∧ p = l ++ .key k :: s := by
    obtain ⟨l, k, h1⟩ := (noNested_last (hp.arrays _ _ hat)).resolve_left hp0
    rcases h1 with h1 | h1
    · exact ⟨l, k, [], .inl rfl, h1⟩
    · exact ⟨l, k, [.star], .inr rfl, h1⟩
  have hl := above_visited hv hs h
  have hl' : l = [] ∨ ∃ q', SchemaAt instNode sc l q' ∧ IsObject q' := by
    rcases hl with hl | ⟨q', h1, h2⟩
    · exact .inl hl
    · exact .inr ⟨q', hsub _ h1, h2⟩
  obtain ⟨o0, o, hstart, hobj, hcalls, hpar, _⟩ := call_eq title K hp hv hs h hi
  -- the call
  unfold onInst at hc
  obtain ⟨i, hd⟩ : ∃ i, decodeInstance false q = .ok i := by
    cases hd : decodeInstance false q with
    | ok i => exact ⟨i, rfl⟩
    | err => rw [hd] at hc; cases hc
    | panic => rw [hd] at hc; cases hc
  rw [hd] at hc
  simp only at hc
  rw [walk_at title K hp hs hat i g hi.name] at hc
  simp only [hpar.1, hpar.2] at hc
  have hobjq : g!"object" ∈ i.type ↔ IsObject q := by
    rw [instNode_object_iff hd]
    refine ⟨fun ht => ⟨ht, fun hn => ?_⟩, fun ht => ht.1⟩
    have := (hv.ends.1 rfl) _ _ hat
    unfold instNode at this
    rw [hd] at this
    simp [ht, hn] at this
  have hkey := keyOf_tail title (K.name root) l k hs
  have hne : l ≠ [] → g!"object" ∈ i.type → keyOf title (K.name root) l ≠ keyOf title (K.name root) (l ++ [.key k]) := by
    intro h1 h2 h3
    obtain ⟨q', h4, h5⟩ := hl'.resolve_left h1
    have := hp.apart _ _ _ _ h4 hat h5 (hobjq.1 h2) (by rw [hkey, h3])
    have := congrArg List.length this
    simp at this
  obtain ⟨o', hadd, hg'⟩ := Res.map_eq_ok.1 hc
  have hstep : childStep title K (K.name root) l ((k, s == [.star]), q) o = .ok o' := by
    unfold childStep
    rw [hd]
    exact hadd
  have hnew : K.new (l == []) o k (keyOf title (K.name root) (l ++ [.key k])) i = K.new (l == []) o0 k (keyOf title (K.name root) (l ++ [.key k])) i :=
    new_calls title K hst hcalls _ _ _ _
  have F1 : g'.1 = if l = [] then o' else g.1 := by
    rw [← hg']
    by_cases he : l = []
    · simp [he]
    · have : (l == []) = false := by simpa using he
      simp only [this, Bool.false_eq_true, if_false, he]
      split <;> rfl
  have F2 : ∀ κ, GMap.get κ g'.2 = if l ≠ [] ∧ κ = keyOf title (K.name root) l then some o'
      else if g!"object" ∈ i.type ∧ κ = keyOf title (K.name root) (l ++ [.key k]) then some (K.new (l == []) o k (keyOf title (K.name root) (l ++ [.key k])) i)
      else GMap.get κ g.2 := by
    intro κ
    have hset : GMap.get κ (if g!"object" ∈ i.type then
        GMap.set (keyOf title (K.name root) (l ++ [.key k])) (K.new (l == []) o k (keyOf title (K.name root) (l ++ [.key k])) i) g.2 else g.2) =
        if g!"object" ∈ i.type ∧ κ = keyOf title (K.name root) (l ++ [.key k]) then some (K.new (l == []) o k (keyOf title (K.name root) (l ++ [.key k])) i)
        else GMap.get κ g.2 := by
      by_cases ht : g!"object" ∈ i.type
      · simp only [ht, if_true, true_and]
        rw [GMap.get_set]
      · simp only [ht, if_false, false_and]
    rw [← hg']
    by_cases he : l = []
    · simp only [he, BEq.rfl, if_true]
      subst he
      simpa using hset
    · have hl0 : (l == []) = false := by simpa using he
      simp only [hl0, Bool.false_eq_true, if_false] at hset ⊢
      rw [if_neg (fun hh => hne he hh.1 hh.2)]
      rw [GMap.get_set, hset]
      simp [he]
  have hkids : ∀ l', l' ≠ l → children l' (a ++ [(l ++ .key k :: s, q)]) = children l' a := by
    intro l' hl'
    rw [children_append]
    simp [children, childOf_other hs hl']
  have hkid : children l (a ++ [(l ++ .key k :: s, q)]) = children l a ++ [((k, s == [.star]), q)] := by
    rw [children_append]
    simp [children, childOf_tail l k hs]
  have hsame : ∀ {l' q'}, l' ≠ [] → SchemaAt instNode sc l' q' → IsObject q' → l' ≠ l → l' ≠ l ++ .key k :: s →
      objAt title (K.name root) g' l' = objAt title (K.name root) g l' := by
    intro l' q' h0 h1 h2 h3 h4
    unfold objAt
    rw [if_neg h0, if_neg h0, F2, if_neg, if_neg]
    · rintro ⟨h5, h6⟩
      exact h4 (hp.apart _ _ _ _ h1 hat h2 (hobjq.1 h5) (by rw [hkey, h6]))
    · rintro ⟨h5, h6⟩
      obtain ⟨q2, h7, h8⟩ := hl'.resolve_left h5
      exact h3 (hp.apart _ _ _ _ h1 h7 h2 h8 h6)
  have hlp : l ≠ l ++ .key k :: s := by
    intro he
    have := congrArg List.length he
    simp at this
  refine ⟨?_, ?_, ?_⟩
  · rw [F1]
    split
    · rename_i he
      have : o = g.1 := by rw [objAt, if_pos he] at hobj; exact (Option.some.inj hobj).symm
      rw [hst.name hadd, this, hi.name]
    · exact hi.name
  · intro l' hl2
    by_cases hll : l' = l
    · subst hll
      refine ⟨o0, o', hstart, ?_, ?_⟩
      · unfold objAt
        by_cases he : l' = []
        · rw [if_pos he, F1, if_pos he]
        · rw [if_neg he, F2, if_pos ⟨he, rfl⟩]
      · rw [hkid]
        exact Calls.append hcalls (.cons hstep .nil)
    · by_cases hlp' : l' = l ++ .key k :: s
      · have hq' : IsObject q := by
          rcases hl2 with h1 | ⟨q', h1, h2⟩
          · exact absurd (h1 ▸ hlp').symm hp0
          · rw [List.mem_append] at h1
            rcases h1 with h1 | h1
            · exact absurd (hlp' ▸ h1) (hpa q')
            · simp only [List.mem_singleton, Prod.mk.injEq] at h1
              exact h1.2 ▸ h2
        refine ⟨_, K.new (l == []) o0 k (keyOf title (K.name root) (l ++ [.key k])) i, by rw [hlp']; exact Start.child hstart hs hat hd (hobjq.2 hq'), ?_, ?_⟩
        · unfold objAt
          rw [if_neg (hlp' ▸ hp0), F2, hlp', hkey, if_neg, if_pos ⟨hobjq.2 hq', rfl⟩, hnew]
          rintro ⟨h5, h6⟩
          exact hne h5 (hobjq.2 hq') h6.symm
        · rw [hkids _ hll, hlp', children_before hv hp0 h]
          exact .nil
      · have hl3 : l' = [] ∨ ∃ q', (l', q') ∈ a ∧ IsObject q' := by
          rcases hl2 with h1 | ⟨q', h1, h2⟩
          · exact .inl h1
          · rw [List.mem_append] at h1
            rcases h1 with h1 | h1
            · exact .inr ⟨q', h1, h2⟩
            · simp only [List.mem_singleton, Prod.mk.injEq] at h1
              exact absurd h1.1 hlp'
        obtain ⟨o2, o3, h1, h2, h3⟩ := hi.objs l' hl3
        refine ⟨o2, o3, h1, ?_, by rw [hkids _ hll]; exact h3⟩
        by_cases he : l' = []
        · unfold objAt at h2 ⊢
          rw [if_pos he] at h2 ⊢
          rw [F1, if_neg (fun hh => hll (he.trans hh.symm)), h2]
        · obtain ⟨q', h4, h5⟩ := hl3.resolve_left he
          rw [hsame he (hsub _ h4) h5 hll hlp', h2]
  · intro κ o2 hg
    rw [F2] at hg
    split at hg
    · rename_i hh
      obtain ⟨q', h1, h2⟩ := hl.resolve_left hh.1
      exact ⟨l, q', List.mem_append_left _ h1, h2, hh.2⟩
    · split at hg
      · rename_i hh
        exact ⟨l ++ .key k :: s, q, List.mem_append_right _ List.mem_cons_self, hobjq.1 hh.1, by rw [hkey]; exact hh.2⟩
      · obtain ⟨l2, q2, h1, h2, h3⟩ := hi.only _ _ hg
        exact ⟨l2, q2, List.mem_append_left _ h1, h2, h3⟩

theorem inv_calls (hst : Stable K) {sc : Schema} {root : O} (hp : Plain title (K.name root) sc) {vs : List (List Seg × P)} (hv : Visits instNode sc vs true) :
    ∀ {b a : List (List Seg × P)} {g g' : O × GMap O}, vs = a ++ b → Inv title K sc root a g →
      Calls (fun x => onInst (walk title K) (pathOf x.1) x.2) b g g' → Inv title K sc root vs g'
  | [], a, g, g', h, hi, hc => by cases hc; rw [h, List.append_nil]; exact hi
  | (p, q) :: b, a, g, g', h, hi, hc => by
    cases hc with
    | cons h1 h2 => exact inv_calls hst hp hv (a := a ++ [(p, q)]) (by rw [h]; simp) (step title K hst hp hv h hi h1) h2

/-- The objects that are built: one for the root and one for each object of the schema, each from its own properties. -/
theorem flat (hst : Stable K) {sc : Schema} {root : O} (hp : Plain title (K.name root) sc) {sched : Sched} {tick tick' : Nat} {g : O × GMap O}
    (hw : walkSchema sched tick (walk title K) sc (root, []) = .ok (tick', g)) :
    ∃ vs, Visits instNode sc vs true ∧
      (∀ l, (l = [] ∨ ∃ q, SchemaAt instNode sc l q ∧ IsObject q) → ∃ o0 o, Start title K sc root l o0 ∧ objAt title (K.name root) g l = some o ∧
        Calls (childStep title K (K.name root) l) (children l vs) o0 o) ∧
      ∀ κ o, GMap.get κ g.2 = some o → ∃ l q, SchemaAt instNode sc l q ∧ IsObject q ∧ κ = keyOf title (K.name root) l := by
  obtain ⟨vs, done, tk, h1, h2⟩ := gwalkSchema_visits instNode_shrinks (order := fun n m => sched.perm n _ m)
    (fun n m => sched.isPerm _ _ _) sc tick hp.names
  rw [walkSchema_gwalk, h2 _ (onInst (walk title K)) (root, [])] at hw
  have he : fnAt (onInst (walk title K)) g!"$" = fun (x : List Seg × P) => onInst (walk title K) (pathOf x.1) x.2 := by
    funext x s; simp [fnAt, pathOf]
  rw [he] at hw
  cases hf : foldRes (fun (x : List Seg × P) => onInst (walk title K) (pathOf x.1) x.2) vs (root, []) with
  | err => rw [hf] at hw; cases hw
  | panic => rw [hf] at hw; cases hw
  | ok t =>
    rw [hf] at hw
    cases done with
    | false => cases hw
    | true =>
      simp only [outcome, if_true, Res.ok.injEq, Prod.mk.injEq] at hw
      obtain ⟨_, rfl⟩ := hw
      have hi0 : Inv title K sc root [] (root, []) := by
        refine ⟨rfl, fun l hl => ?_, fun κ o h => ?_⟩
        · rcases hl with rfl | ⟨q, h, _⟩
          · exact ⟨root, root, .root, rfl, .nil⟩
          · simp at h
        · simp [GMap.get] at h
      have hi := inv_calls title K hst hp h1 (a := []) rfl hi0 (foldRes_calls.1 hf)
      refine ⟨vs, h1, fun l hl => hi.objs l ?_, fun κ o h => ?_⟩
      · rcases hl with h | ⟨q, h, h'⟩
        · exact .inl h
        · exact .inr ⟨q, h1.complete rfl _ _ h, h'⟩
      · obtain ⟨l, q, h3, h4, h5⟩ := hi.only κ o h
        exact ⟨l, q, h1.sound _ h3, h4, h5⟩

/-- The walk succeeds if each property can be added to its object. -/
theorem flat_ok (hst : Stable K) {sc : Schema} {root : O} (hp : Plain title (K.name root) sc) (hw : WellFormed instNode sc) (sched : Sched) (tick : Nat)
    (hadd : ∀ vs, Visits instNode sc vs true → ∀ l o0, Start title K sc root l o0 → ∀ cs c ds, children l vs = cs ++ c :: ds → ∀ o,
      Calls (childStep title K (K.name root) l) cs o0 o → ∃ o', childStep title K (K.name root) l c o = .ok o') :
    ∃ r, walkSchema sched tick (walk title K) sc (root, []) = .ok r := by
  obtain ⟨vs, done, tk, h1, h2⟩ := gwalkSchema_visits instNode_shrinks (order := fun n m => sched.perm n _ m)
    (fun n m => sched.isPerm _ _ _) sc tick hp.names
  have hdone := h1.ends.2 hw
  subst hdone
  rw [walkSchema_gwalk, h2 _ (onInst (walk title K)) (root, [])]
  have he : fnAt (onInst (walk title K)) g!"$" = fun (x : List Seg × P) => onInst (walk title K) (pathOf x.1) x.2 := by
    funext x s; simp [fnAt, pathOf]
  rw [he]
  have hi0 : Inv title K sc root [] (root, []) := by
    refine ⟨rfl, fun l hl => ?_, fun κ o h => ?_⟩
    · rcases hl with rfl | ⟨q, h, _⟩
      · exact ⟨root, root, .root, rfl, .nil⟩
      · simp at h
    · simp [GMap.get] at h
  have key : ∀ b a g, vs = a ++ b → Inv title K sc root a g → ∃ g', foldRes (fun (x : List Seg × P) => onInst (walk title K) (pathOf x.1) x.2) b g = .ok g' := by
    intro b
    induction b with
    | nil => intro a g _ _; exact ⟨g, rfl⟩
    | cons x b ih =>
      obtain ⟨p, q⟩ := x
      intro a g h hi
      have hat : SchemaAt instNode sc p q := h1.sound (p, q) (by rw [h]; simp)
      have hp0 : p ≠ [] := by intro he; subst he; cases hat
      obtain ⟨l, k, s, hs, rfl⟩ : ∃ l k s, (s = [] ∨ s = [Seg.star]) ∧ p = l ++ .key k :: s := by
        obtain ⟨l, k, h1⟩ := (noNested_last (hp.arrays _ _ hat)).resolve_left hp0
        rcases h1 with h1 | h1
        · exact ⟨l, k, [], .inl rfl, h1⟩
        · exact ⟨l, k, [.star], .inr rfl, h1⟩
      obtain ⟨o0, o, hstart, hobj, hcalls, hpar, F, hF⟩ := call_eq title K hp h1 hs h hi
      obtain ⟨o', ho'⟩ := hadd vs h1 l o0 hstart (children l a) ((k, s == [.star]), q) (children l b) (by
        rw [h, children_append, ← List.singleton_append, children_append]
        simp [children, childOf_tail l k hs]) o hcalls
      rw [ho'] at hF
      simp only [foldRes, hF, Res.map]
      exact ih (a ++ [(l ++ .key k :: s, q)]) _ (by rw [h]; simp) (step title K hst hp h1 h hi hF)
  obtain ⟨g', hg'⟩ := key vs [] (root, []) rfl hi0
  rw [hg']
  exact ⟨(tk, g'), rfl⟩

/-! ### The instances of one property -/

theorem eq_single {α : Type} {l : List α} {x : α} (hn : l.Nodup) (hx : x ∈ l) (h : ∀ y ∈ l, y = x) : l = [x] := by
  cases l with
  | nil => simp at hx
  | cons a t =>
    have := h a (by simp)
    subst this
    cases t with
    | nil => rfl
    | cons b t =>
      have := h b (by simp)
      subst this
      simp at hn

theorem mem_children {l : List Seg} {vs : List (List Seg × P)} {c : (Str × Bool) × P} :
    c ∈ children l vs ↔ (l ++ .key c.1.1 :: (if c.1.2 then [.star] else []), c.2) ∈ vs := by
  unfold children
  rw [List.mem_filterMap]
  constructor
  · rintro ⟨x, hx, h⟩
    cases hc : childOf l x.1 with
    | none => rw [hc] at h; simp at h
    | some c' =>
      rw [hc] at h
      simp only [Option.map_some, Option.some.injEq] at h
      subst h
      rw [← childOf_some hc]
      exact hx
  · intro h
    refine ⟨_, h, ?_⟩
    obtain ⟨⟨k, b⟩, q⟩ := c
    cases b
    · simp [childOf_key]
    · simp [childOf_item]

theorem children_nodup {l : List Seg} {vs : List (List Seg × P)} (h : (vs.map Prod.fst).Nodup) : (children l vs).Nodup := by
  induction vs with
  | nil => simp [children]
  | cons x vs ih =>
    simp only [List.map_cons, List.nodup_cons] at h
    unfold children at ih ⊢
    rw [List.filterMap_cons]
    cases hc : childOf l x.1 with
    | none => simpa [hc] using ih h.2
    | some c =>
      simp only [Option.map_some, List.nodup_cons]
      refine ⟨fun hm => h.1 ?_, ih h.2⟩
      have := mem_children.1 (show (c, x.2) ∈ children l vs from hm)
      rw [← childOf_some hc] at this
      exact List.mem_map.2 ⟨_, this, rfl⟩

/-- The instances of one property. -/
def kidsOf (k : Str) (cs : List ((Str × Bool) × P)) : List ((Str × Bool) × P) := cs.filter fun c => decide (c.1.1 = k)

theorem mem_kidsOf {sc : Schema} {vs : List (List Seg × P)} (hv : Visits instNode sc vs true) {l : List Seg} {k : Str} {c : (Str × Bool) × P} :
    c ∈ kidsOf k (children l vs) ↔ c.1.1 = k ∧ SchemaAt instNode sc (l ++ .key k :: (if c.1.2 then [.star] else [])) c.2 := by
  unfold kidsOf
  rw [List.mem_filter, mem_children, decide_eq_true_iff]
  constructor
  · rintro ⟨h, rfl⟩; exact ⟨rfl, hv.sound _ h⟩
  · rintro ⟨rfl, h⟩; exact ⟨hv.complete rfl _ _ h, rfl⟩

theorem at_unique {sc : Schema} {vs : List (List Seg × P)} (hv : Visits instNode sc vs true) {l : List Seg} {q q' : P}
    (h : SchemaAt instNode sc l q) (h' : SchemaAt instNode sc l q') : q = q' := nodup_fst hv.once (hv.complete rfl _ _ h) (hv.complete rfl _ _ h')

theorem kids_none {sc : Schema} {vs : List (List Seg × P)} (hv : Visits instNode sc vs true) {l : List Seg} {k : Str}
    (h : ∀ q, ¬ SchemaAt instNode sc (l ++ [.key k]) q) : kidsOf k (children l vs) = [] := by
  rw [List.eq_nil_iff_forall_not_mem]
  intro c hc
  obtain ⟨_, h2⟩ := (mem_kidsOf hv).1 hc
  cases hb : c.1.2 with
  | false => rw [hb] at h2; exact h _ h2
  | true =>
    rw [hb] at h2
    simp only [if_true] at h2
    rw [show l ++ [Seg.key k, .star] = (l ++ [.key k]) ++ [.star] by simp] at h2
    obtain ⟨q, h3, _⟩ := h2.above (by simp)
    exact h q h3

theorem kids_one {sc : Schema} {vs : List (List Seg × P)} (hv : Visits instNode sc vs true) {l : List Seg} {k : Str} {q : P}
    (hq : SchemaAt instNode sc (l ++ [.key k]) q) (h : ∀ r, ¬ SchemaAt instNode sc (l ++ [.key k, .star]) r) :
    kidsOf k (children l vs) = [((k, false), q)] := by
  refine eq_single ((children_nodup hv.once).filter _) ((mem_kidsOf hv).2 ⟨rfl, hq⟩) ?_
  rintro ⟨⟨k', b⟩, r⟩ hr
  obtain ⟨h1, h2⟩ := (mem_kidsOf hv).1 hr
  cases b with
  | true => exact absurd h2 (h r)
  | false =>
    have := at_unique hv h2 hq
    simp only at h1 this
    rw [h1, this]

theorem kids_two {sc : Schema} {vs : List (List Seg × P)} (hv : Visits instNode sc vs true) {l : List Seg} {k : Str} {q r : P}
    (hq : SchemaAt instNode sc (l ++ [.key k]) q) (hr : SchemaAt instNode sc (l ++ [.key k, .star]) r) :
    kidsOf k (children l vs) = [((k, false), q), ((k, true), r)] := by
  have hmem : ∀ c ∈ kidsOf k (children l vs), c = ((k, false), q) ∨ c = ((k, true), r) := by
    rintro ⟨⟨k', b⟩, x⟩ hx
    obtain ⟨h1, h2⟩ := (mem_kidsOf hv).1 hx
    simp only at h1 h2
    subst h1
    cases b with
    | true => have := at_unique hv h2 hr; subst this; exact .inr rfl
    | false => have := at_unique hv h2 hq; subst this; exact .inl rfl
  have hnd : (kidsOf k (children l vs)).Nodup := (children_nodup hv.once).filter _
  obtain ⟨a, b, hab⟩ := List.append_of_mem (hv.complete rfl _ _ hr)
  obtain ⟨q', hq'⟩ := (hv.parents a (l ++ [.key k]) .star r b (by rw [hab]; simp)).resolve_left (by simp)
  have hqq : q' = q := at_unique hv (hv.sound _ (by rw [hab]; exact List.mem_append_left _ hq')) hq
  subst hqq
  have hsplit : kidsOf k (children l vs) = kidsOf k (children l a) ++ ((k, true), r) :: kidsOf k (children l b) := by
    rw [hab, children_append, ← List.singleton_append, children_append]
    unfold kidsOf
    simp [children, childOf_item, List.filter_append]
  have hin : ((k, false), q') ∈ kidsOf k (children l a) := by
    unfold kidsOf
    rw [List.mem_filter]
    exact ⟨mem_children.2 hq', by simp⟩
  rw [hsplit] at hmem hnd ⊢
  rw [List.nodup_append] at hnd
  obtain ⟨n1, n2, n3⟩ := hnd
  rw [List.nodup_cons] at n2
  rw [eq_single n1 hin]
  · have : kidsOf k (children l b) = [] := by
      rw [List.eq_nil_iff_forall_not_mem]
      intro c hc
      rcases hmem c (by simp [hc]) with rfl | rfl
      · exact n3 _ hin _ (by simp [hc]) rfl
      · exact n2.1 hc
    rw [this]; rfl
  · intro c hc
    rcases hmem c (by simp [hc]) with rfl | rfl
    · rfl
    · exact absurd rfl (n3 _ hc _ (by simp))

/-- What is below a position. -/
theorem At.snoc {view : P → Option Node} {raw q r : P} {l : List Seg} {g : Seg} (h : At view raw l q) (h' : At view q [g] r) : At view raw (l ++ [g]) r := by
  induction h with
  | here => exact h'
  | prop a b _ ih => exact .prop a b (ih h')
  | item a _ ih => exact .item a (ih h')

theorem SchemaAt.snoc {view : P → Option Node} {sc : Schema} {q r : P} {l : List Seg} {g : Seg} (h : SchemaAt view sc l q) (h' : At view q [g] r) :
    SchemaAt view sc (l ++ [g]) r := by
  cases h with
  | prop a b c => exact .prop a b (At.snoc c h')
  | item a c => exact .item a (At.snoc c h')

/-- The properties of the object at a position, or of the schema. -/
inductive PropsAt (sc : Schema) : List Seg → List (Str × P) → Prop where
  | root {m : List (Str × P)} : sc.properties = some m → PropsAt sc [] m
  | inner {l : List Seg} {q : P} {m : List (Str × P)} : SchemaAt instNode sc l q → instNode q = some (.object m) → PropsAt sc l m

theorem prop_at {sc : Schema} {vs : List (List Seg × P)} (hv : Visits instNode sc vs true) {l : List Seg} {m : List (Str × P)} (h : PropsAt sc l m) {k : Str} {r : P} :
    SchemaAt instNode sc (l ++ [.key k]) r ↔ (k, r) ∈ m := by
  cases h with
  | root hm =>
    constructor
    · intro ha
      cases ha with
      | prop hm' hk ha =>
        rw [hm] at hm'
        cases hm'
        cases ha
        exact hk
    · intro hk
      exact .prop hm hk .here
  | inner ha hn =>
    constructor
    · intro hr
      obtain ⟨q', h1, h2⟩ := hr.above (by intro he; subst he; cases ha)
      have := at_unique hv h1 ha
      subst this
      cases h2 with
      | prop hn' hk hh =>
        rw [hn] at hn'
        cases hn'
        cases hh
        exact hk
    · intro hk
      exact SchemaAt.snoc ha (.prop hn hk .here)

theorem item_at {sc : Schema} {vs : List (List Seg × P)} (hv : Visits instNode sc vs true) {l : List Seg} {q : P} (h : SchemaAt instNode sc l q) {r : P} :
    SchemaAt instNode sc (l ++ [.star]) r ↔ instNode q = some (.array r) := by
  constructor
  · intro hr
    obtain ⟨q', h1, h2⟩ := hr.above (by intro he; subst he; cases h)
    have := at_unique hv h1 h
    subst this
    cases h2 with
    | item hn hh => cases hh; exact hn
  · intro hn
    exact SchemaAt.snoc h (.item hn .here)

theorem kids_at {sc : Schema} {vs : List (List Seg × P)} (hv : Visits instNode sc vs true) {l : List Seg} {m : List (Str × P)} (h : PropsAt sc l m) {k : Str} :
    ((∀ q, (k, q) ∉ m) ∧ kidsOf k (children l vs) = []) ∨
    (∃ q, (k, q) ∈ m ∧ SchemaAt instNode sc (l ++ [.key k]) q ∧ (∀ r, instNode q ≠ some (.array r)) ∧ kidsOf k (children l vs) = [((k, false), q)]) ∨
    (∃ q r, (k, q) ∈ m ∧ SchemaAt instNode sc (l ++ [.key k]) q ∧ instNode q = some (.array r) ∧ SchemaAt instNode sc (l ++ [.key k] ++ [.star]) r ∧
      kidsOf k (children l vs) = [((k, false), q), ((k, true), r)]) := by
  by_cases hk : ∃ q, (k, q) ∈ m
  · obtain ⟨q, hq⟩ := hk
    have ha := (prop_at hv h).2 hq
    have hsp : l ++ [Seg.key k, .star] = (l ++ [.key k]) ++ [.star] := by simp
    by_cases hr : ∃ r, instNode q = some (.array r)
    · obtain ⟨r, hr⟩ := hr
      have ha' := (item_at hv ha).2 hr
      exact .inr (.inr ⟨q, r, hq, ha, hr, ha', kids_two hv ha (hsp ▸ ha')⟩)
    · refine .inr (.inl ⟨q, hq, ha, fun r h' => hr ⟨r, h'⟩, kids_one hv ha fun r h' => hr ⟨r, ?_⟩⟩)
      rw [hsp] at h'
      exact (item_at hv ha).1 h'
  · refine .inl ⟨fun q hq => hk ⟨q, hq⟩, kids_none hv fun q hq => hk ⟨q, (prop_at hv h).1 hq⟩⟩

/-- The values something takes while steps are made. -/
inductive Trace {C α : Type} (R : C → α → α → Prop) : List C → α → α → Prop where
  | nil {x : α} : Trace R [] x x
  | cons {c : C} {cs : List C} {x y z : α} : R c x y → Trace R cs y z → Trace R (c :: cs) x z

/-- If only some of the steps change something, only those matter. -/
theorem trace {C α : Type} {f : C → O → Res O} (val : O → α) (H : O → Prop) (R : C → α → α → Prop) (sel : C → Bool) {cs : List C} {o o' : O}
    (hc : Calls f cs o o') (h : ∀ c ∈ cs, ∀ s t, H s → f c s = .ok t → H t ∧ if sel c then R c (val s) (val t) else val t = val s) (h0 : H o) :
    H o' ∧ Trace R (cs.filter sel) (val o) (val o') := by
  induction hc with
  | nil => exact ⟨h0, .nil⟩
  | @cons x xs s s1 s2 h1 h2 ih =>
    obtain ⟨a1, a2⟩ := h x (by simp) s s1 h0 h1
    obtain ⟨b1, b2⟩ := ih (fun c hc => h c (by simp [hc])) a1
    refine ⟨b1, ?_⟩
    cases hx : sel x with
    | false =>
      rw [hx] at a2
      simp only [Bool.false_eq_true, if_false] at a2
      rw [List.filter_cons_of_neg (by simp [hx]), ← a2]
      exact b2
    | true =>
      rw [hx] at a2
      rw [List.filter_cons_of_pos (by simp [hx])]
      exact .cons a2 b2

end JT.Flat
