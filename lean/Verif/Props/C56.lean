import Verif.Proofs.Fields
import Verif.Proofs.Positions
import Verif.Spec.Toy
import Verif.Spec.Embeds
/- C56: the fields of the struct for a schema. -/
namespace JT.Spec
open Gen

/-- Names at the positions of the schema are not empty and do not interfere with the notation of paths. -/
def QuietSchema (sc : Schema) : Prop := ∀ l q, SchemaAt instNode sc l q → ∀ k, Seg.key k ∈ l → k ≠ [] ∧ QuietName k

/-- Every instance has one type besides null, objects have properties and arrays have items. -/
def OneTypeEach (sc : Schema) : Prop := ∀ l q, SchemaAt instNode sc l q → ∃ i t, decodeInstance false q = .ok i ∧ TypeIs i t ∧
  (t = g!"object" → i.properties ≠ none) ∧ (t = g!"array" → i.items ≠ none)

/-- The items of arrays are neither arrays nor only for GraphQL. -/
def PlainItems (sc : Schema) : Prop := ∀ l q, SchemaAt instNode sc (l ++ [.star]) q → ∀ j, decodeInstance false q = .ok j →
  g!"array" ∉ j.type ∧ g!"graphql-hydration" ∉ j.type

end JT.Spec

namespace JT.Gen
open Spec
variable {title : Str → Str} {rename : GMap Str}

/-! ### There is one tree of fields -/

theorem typeIs_unique {i : Instance} {s t : Str} (h : TypeIs i s) (h' : TypeIs i t) : s = t := by
  unfold TypeIs at h h'
  rw [h] at h'
  simpa using h'

theorem not_hydrated {k : Str} {raw : P} {f : EField} (h : FieldOf title rename k raw f) : ¬ Hydrated raw := by
  rintro ⟨i', hd, hh, _, _⟩
  have : ∃ i t, decodeInstance false raw = .ok i ∧ TypeIs i t ∧ t ≠ g!"graphql-hydration" := by
    cases h with
    | leaf h1 h2 h3 => exact ⟨_, _, h1, h2, h3.2.2⟩
    | object h1 h2 => exact ⟨_, _, h1, h2, by decide⟩
    | leaves h1 h2 => exact ⟨_, _, h1, h2, by decide⟩
    | objects h1 h2 => exact ⟨_, _, h1, h2, by decide⟩
  obtain ⟨i, t, h1, h2, h3⟩ := this
  rw [h1] at hd
  cases hd
  exact h3 ((mem_type h2 (by decide)).1 hh).symm

theorem fields_unique {m : GMap P} {fs fs' : GMap EField} (hs : fs.Sorted) (hs' : fs'.Sorted)
    (hn : ∀ k', GMap.get k' fs = none ↔ ∀ q, GMap.get k' m = some q → Hydrated q)
    (hn' : ∀ k', GMap.get k' fs' = none ↔ ∀ q, GMap.get k' m = some q → Hydrated q)
    (ih : ∀ k q f, GMap.get k m = some q → GMap.get k fs = some f → ∀ f', FieldOf title rename k q f' → f = f')
    (he : ∀ k q f, GMap.get k m = some q → GMap.get k fs' = some f → FieldOf title rename k q f) : fs = fs' := by
  refine GMap.Sorted.ext hs hs' fun k => ?_
  cases h : GMap.get k fs with
  | none => exact ((hn' k).2 ((hn k).1 h)).symm
  | some f =>
    cases h' : GMap.get k fs' with
    | none => rw [(hn k).2 ((hn' k).1 h')] at h; contradiction
    | some f' =>
      cases hm : GMap.get k m with
      | none => rw [(hn k).2 (by intro q hq; rw [hm] at hq; contradiction)] at h; contradiction
      | some q => rw [ih k q f hm h f' (he k q f' hm h')]

theorem field_unique {k : Str} {raw : P} {f : EField} (h : FieldOf title rename k raw f) : ∀ {f'}, FieldOf title rename k raw f' → f = f' := by
  induction h with
  | leaf h1 h2 h3 =>
    intro f' h'
    cases h' with
    | leaf g1 g2 g3 =>
      rw [h1] at g1; cases g1
      rw [typeIs_unique h2 g2]
    | object g1 g2 => rw [h1] at g1; cases g1; exact absurd (typeIs_unique h2 g2) h3.1
    | leaves g1 g2 => rw [h1] at g1; cases g1; exact absurd (typeIs_unique h2 g2) h3.2.1
    | objects g1 g2 => rw [h1] at g1; cases g1; exact absurd (typeIs_unique h2 g2) h3.2.1
  | object h1 h2 h3 h4 h5 h6 ih =>
    intro f' h'
    cases h' with
    | leaf g1 g2 g3 => rw [h1] at g1; cases g1; exact absurd (typeIs_unique g2 h2) g3.1
    | object g1 g2 g3 g4 g5 g6 =>
      rw [h1] at g1; cases g1
      rw [h3] at g3; cases g3
      rw [fields_unique h4 g4 h5 g5 (fun k q f a b f' c => ih k q f a b c) g6]
    | leaves g1 g2 => rw [h1] at g1; cases g1; exact absurd (typeIs_unique h2 g2) (by decide)
    | objects g1 g2 => rw [h1] at g1; cases g1; exact absurd (typeIs_unique h2 g2) (by decide)
  | leaves h1 h2 h3 h4 h5 h6 =>
    intro f' h'
    cases h' with
    | leaf g1 g2 g3 => rw [h1] at g1; cases g1; exact absurd (typeIs_unique g2 h2) g3.2.1
    | object g1 g2 => rw [h1] at g1; cases g1; exact absurd (typeIs_unique h2 g2) (by decide)
    | leaves g1 g2 g3 g4 g5 g6 =>
      rw [h1] at g1; cases g1
      rw [h3] at g3; cases g3
      rw [h4] at g4; cases g4
      rw [typeIs_unique h5 g5]
    | objects g1 g2 g3 g4 g5 =>
      rw [h1] at g1; cases g1
      rw [h3] at g3; cases g3
      rw [h4] at g4; cases g4
      exact absurd (typeIs_unique h5 g5) h6.1
  | objects h1 h2 h3 h4 h5 h6 h7 h8 h9 ih =>
    intro f' h'
    cases h' with
    | leaf g1 g2 g3 => rw [h1] at g1; cases g1; exact absurd (typeIs_unique g2 h2) g3.2.1
    | object g1 g2 => rw [h1] at g1; cases g1; exact absurd (typeIs_unique h2 g2) (by decide)
    | leaves g1 g2 g3 g4 g5 g6 =>
      rw [h1] at g1; cases g1
      rw [h3] at g3; cases g3
      rw [h4] at g4; cases g4
      exact absurd (typeIs_unique g5 h5) g6.1
    | objects g1 g2 g3 g4 g5 g6 g7 g8 g9 =>
      rw [h1] at g1; cases g1
      rw [h3] at g3; cases g3
      rw [h4] at g4; cases g4
      rw [h6] at g6; cases g6
      rw [fields_unique h7 g7 h8 g8 (fun k q f a b f' c => ih k q f a b c) g9]

/-- Collect fields in a map. -/
theorem collect (R : Str → P → EField → Prop) : ∀ (m : GMap P), (m.map Prod.fst).Nodup →
    (∀ k q, GMap.get k m = some q → Hydrated q ∨ ∃ f, R k q f) → (∀ k q f, R k q f → ¬ Hydrated q) →
    ∃ fs : GMap EField, fs.Sorted ∧ (∀ k, GMap.get k fs = none ↔ ∀ q, GMap.get k m = some q → Hydrated q) ∧
      ∀ k q f, GMap.get k m = some q → GMap.get k fs = some f → R k q f
  | [], _, _, _ => ⟨[], trivial, by simp, by simp⟩
  | (k0, q0) :: m, hnd, h, hx => by
    rw [List.map_cons, List.nodup_cons] at hnd
    have hk0 : GMap.get k0 m = none := GMap.get_none_iff.2 hnd.1
    have hne : ∀ k q, GMap.get k m = some q → k ≠ k0 := by
      intro k q hk he
      rw [he, hk0] at hk
      contradiction
    obtain ⟨fs, h1, h2, h3⟩ := collect R m hnd.2 (fun k q hk => h k q (by simp [GMap.get, hne k q hk, hk])) hx
    have hfs0 : GMap.get k0 fs = none := (h2 k0).2 (by intro q hq; rw [hk0] at hq; contradiction)
    rcases h k0 q0 (by simp [GMap.get]) with hh | ⟨f, hf⟩
    · refine ⟨fs, h1, ?_, ?_⟩
      · intro k
        rw [h2]
        by_cases he : k = k0
        · subst he
          simp [GMap.get, hk0, hh]
        · simp [GMap.get, he]
      · intro k q f hk hf
        by_cases he : k = k0
        · rw [he, hfs0] at hf; contradiction
        · simp only [GMap.get, if_neg he] at hk
          exact h3 k q f hk hf
    · refine ⟨GMap.set k0 f fs, GMap.sorted_set h1, ?_, ?_⟩
      · intro k
        by_cases he : k = k0
        · subst he
          simp [GMap.get, GMap.get_set_self, hx _ _ _ hf]
        · rw [GMap.get_set_ne he, h2]
          simp [GMap.get, he]
      · intro k q f' hk hf'
        by_cases he : k = k0
        · subst he
          rw [GMap.get_set_self] at hf'
          simp only [GMap.get, if_true, Option.some.injEq] at hk hf'
          rw [← hk, ← hf']
          exact hf
        · rw [GMap.get_set_ne he] at hf'
          simp only [GMap.get, if_neg he] at hk
          exact h3 k q f' hk hf'

/-- What is required of the instances below one. -/
def GoodBelow (raw : P) : Prop := ∀ l q, At instNode raw l q → ∃ i t, decodeInstance false q = .ok i ∧ TypeIs i t ∧
  (t = g!"object" → i.properties ≠ none) ∧
  (t = g!"array" → ∃ items j, i.items = some items ∧ decodeInstance false items = .ok j ∧ g!"array" ∉ j.type ∧ g!"graphql-hydration" ∉ j.type)

theorem field_exists : ∀ (n : Nat) (k : Str) (raw : P), raw.depth < n → GoodBelow raw → Hydrated raw ∨ ∃ f, FieldOf title rename k raw f
  | 0, _, _, h, _ => by omega
  | n + 1, k, raw, hd, hg => by
    obtain ⟨i, t, h1, h2, h3, h4⟩ := hg [] raw .here
    have kids : ∀ (q : P) (m : GMap P) (i : Instance), q.depth ≤ raw.depth → decodeInstance false q = .ok i → i.properties = some m → instNode q = some (.object m) → GoodBelow q →
        ∃ fs : GMap EField, fs.Sorted ∧ (∀ k, GMap.get k fs = none ↔ ∀ q, GMap.get k m = some q → Hydrated q) ∧
          ∀ k q f, GMap.get k m = some q → GMap.get k fs = some f → FieldOf title rename k q f := by
      intro q m i hqd hqi hqm hnode hq
      refine collect (fun k q f => FieldOf title rename k q f) m (properties_nodup hqi hqm) ?_ (fun k q f h => not_hydrated h)
      intro k' q' hk'
      have := instNode_shrinks.1 q m hnode (k', q') (GMap.get_some_mem hk')
      exact field_exists n k' q' (by simp only at this; omega) fun l r hr => hq (.key k' :: l) r (.prop hnode (GMap.get_some_mem hk') hr)
    by_cases ho : t = g!"object"
    · subst ho
      obtain ⟨m, hm⟩ := Option.ne_none_iff_exists'.1 (h3 rfl)
      have hobj : g!"object" ∈ i.type := (mem_type h2 (by decide)).2 rfl
      have hnode : instNode raw = some (.object m) := by simp [instNode, h1, hobj, hm]
      obtain ⟨fs, f1, f2, f3⟩ := kids raw m i (Nat.le_refl _) h1 hm hnode hg
      exact Or.inr ⟨_, .object h1 h2 hm f1 f2 f3⟩
    · by_cases ha : t = g!"array"
      · subst ha
        obtain ⟨items, j, a1, a2, a3, a4⟩ := h4 rfl
        have hobj : g!"object" ∉ i.type := fun h => absurd ((mem_type h2 (by decide)).1 h) (by decide)
        have harr : g!"array" ∈ i.type := (mem_type h2 (by decide)).2 rfl
        have hnode : instNode raw = some (.array items) := by simp [instNode, h1, hobj, harr, a1]
        have hgi : GoodBelow items := fun l r hr => hg (.star :: l) r (.item hnode hr)
        obtain ⟨j', t', b1, b2, b3, b4⟩ := hgi [] items .here
        rw [a2] at b1
        cases b1
        by_cases ho' : t' = g!"object"
        · subst ho'
          obtain ⟨m, hm⟩ := Option.ne_none_iff_exists'.1 (b3 rfl)
          have hobj' : g!"object" ∈ j.type := (mem_type b2 (by decide)).2 rfl
          have hnode' : instNode items = some (.object m) := by simp [instNode, a2, hobj', hm]
          obtain ⟨fs, f1, f2, f3⟩ := kids items m j (Nat.le_of_lt (instNode_shrinks.2 raw items hnode)) a2 hm hnode' hgi
          exact Or.inr ⟨_, .objects h1 h2 a1 a2 b2 hm f1 f2 f3⟩
        · refine Or.inr ⟨_, .leaves h1 h2 a1 a2 b2 ⟨ho', ?_, ?_⟩⟩
          · intro h; exact a3 ((mem_type b2 (by decide)).2 h.symm)
          · intro h; exact a4 ((mem_type b2 (by decide)).2 h.symm)
      · by_cases hh : t = g!"graphql-hydration"
        · refine Or.inl ⟨i, h1, (mem_type h2 (by decide)).2 hh.symm, ?_, ?_⟩
          · exact fun h => ho ((mem_type h2 (by decide)).1 h).symm
          · exact fun h => ha ((mem_type h2 (by decide)).1 h).symm
        · exact Or.inr ⟨_, .leaf h1 h2 ⟨ho, ha, hh⟩⟩

end JT.Gen

namespace JT
open Spec Gen

variable {title : Str → Str} {rename : GMap Str}

/-- C56 as one would like it: the struct for a schema has one field for each property, in any order of walking. -/
def C56_statement (title : Str → Str) : Prop := ∀ (args : Args) (schema : Instance) (m : GMap P) (name : Str) (embeds : List Str), args.noNested = false →
  schema.properties = some m → schema.items = none → (m.map Prod.fst).Nodup →
  QuietSchema ⟨schema.properties, schema.items⟩ → OneTypeEach ⟨schema.properties, schema.items⟩ →
  ∃ fs, FieldsOf title args.fieldNames m fs ∧ ∀ sched, ∃ g, newGoFile sched title args schema name embeds = .ok g ∧ g.root.fields = fs

/-- There is at most one tree of fields for a schema. -/
theorem C56_unique {m : GMap P} {fs fs' : GMap EField} (h : FieldsOf title rename m fs) (h' : FieldsOf title rename m fs') : fs = fs' :=
  fields_unique h.sorted h'.sorted h.names h'.names (fun _ _ _ hq hf _ => field_unique (h.each _ _ _ hq hf)) h'.each

theorem inline_file {args : Args} {schema : Instance} {m : GMap P} (name : Str) (embeds : List Str) (ha : args.noNested = false)
    (hm : schema.properties = some m) (hi : schema.items = none) (hnd : (m.map Prod.fst).Nodup)
    (hq : QuietSchema ⟨schema.properties, schema.items⟩) (ho : OneTypeEach ⟨schema.properties, schema.items⟩)
    (hp : PlainItems ⟨schema.properties, schema.items⟩) :
    ∃ fs, FieldsOf title args.fieldNames m fs ∧ ∀ sched, newGoFile sched title args schema name embeds =
      .ok ⟨⟨name, fs, schema.required, embeds ++ embedNames title args schema.allOf⟩, []⟩ := by
  have hgood : ∀ k q, (k, q) ∈ m → GoodBelow q := by
    intro k q hk l r hr
    obtain ⟨i, t, h1, h2, h3, h4⟩ := ho _ r (.prop hm hk hr)
    refine ⟨i, t, h1, h2, h3, ?_⟩
    rintro rfl
    obtain ⟨items, hit⟩ := Option.ne_none_iff_exists'.1 (h4 rfl)
    have hobj : g!"object" ∉ i.type := fun h => absurd ((mem_type h2 (by decide)).1 h) (by decide)
    have harr : g!"array" ∈ i.type := (mem_type h2 (by decide)).2 rfl
    have hnode : instNode r = some (.array items) := by simp [instNode, h1, hobj, harr, hit]
    have snoc : ∀ {raw l r q}, At instNode raw l r → instNode r = some (.array q) → At instNode raw (l ++ [.star]) q := by
      intro raw l r q h
      induction h with
      | here => intro hn; exact .item hn .here
      | prop a b _ ih => intro hn; exact .prop a b (ih hn)
      | item a _ ih => intro hn; exact .item a (ih hn)
    have hat := snoc hr hnode
    obtain ⟨j, t', b1, b2, _, _⟩ := ho _ items (.prop hm hk hat)
    exact ⟨items, j, hit, b1, hp (.key k :: l) items (.prop hm hk hat) j b1⟩
  obtain ⟨fs, f1, f2, f3⟩ := collect (fun k q f => FieldOf title args.fieldNames k q f) m hnd
    (fun k q hk => field_exists (q.depth + 1) k q (by omega) (hgood k q (GMap.get_some_mem hk))) (fun k q f h => not_hydrated h)
  refine ⟨fs, ⟨f1, f2, f3⟩, fun sched => ?_⟩
  have key : ∀ kv ∈ m, kv.1 ≠ [] ∧ QuietName kv.1 := fun kv hkv => hq [.key kv.1] kv.2 (.prop hm hkv .here) kv.1 (by simp)
  have hA : ∀ kv ∈ m, ∀ f, GMap.get kv.1 fs = some f → Adds sched title args [] kv.1 kv.2 f (kv.2.depth + 1) := by
    intro kv hkv f hf
    refine walk_field ha (f3 kv.1 kv.2 f (GMap.get_mem_nodup hnd hkv) hf) _ [] (by omega) .nil ?_ ?_
    · intro k hk
      simp only [List.nil_append, List.mem_singleton, Seg.key.injEq] at hk
      exact hk ▸ (key kv hkv).2
    · intro l q hat k hk
      exact hq (.key kv.1 :: l) q (.prop hm hkv hat) k (List.mem_cons_of_mem _ hk)
  obtain ⟨tk', hw⟩ := walk_object (sched := sched) (title := title) (args := args) (segs := []) (nf := fun kv => kv.2.depth + 1) ha (fun _ _ => by omega) f1 f2 hnd
    (fun kv hkv => (key kv hkv).1) hA ⟨⟨name, [], schema.required, embeds ++ embedNames title args schema.allOf⟩, []⟩ (F := []) .nil 0 1
  unfold newGoFile walkSchema
  rw [hi]
  simp only [hm, Option.getD_some]
  simp only [GoFile.withFields, names, put, show pathOf [] = g!"$" from rfl] at hw
  rw [hw]
  rfl

/-- **C56**, partial: the struct (with inline structs) for a schema has one field for each property, in any order of walking, and embeds the given structs and those for
the allOf entries if asked to, if the items of arrays are not arrays again and not only for GraphQL. -/
theorem C56_partial {args : Args} {schema : Instance} {m : GMap P} (name : Str) (embeds : List Str) (ha : args.noNested = false)
    (hm : schema.properties = some m) (hi : schema.items = none) (hnd : (m.map Prod.fst).Nodup)
    (hq : QuietSchema ⟨schema.properties, schema.items⟩) (ho : OneTypeEach ⟨schema.properties, schema.items⟩)
    (hp : PlainItems ⟨schema.properties, schema.items⟩) :
    ∃ fs es, FieldsOf title args.fieldNames m fs ∧ JT.Spec.Embeds title args embeds schema.allOf es ∧
      ∀ sched, newGoFile sched title args schema name embeds = .ok ⟨⟨name, fs, schema.required, es⟩, []⟩ :=
  have ⟨fs, h1, h2⟩ := inline_file name embeds ha hm hi hnd hq ho hp
  ⟨fs, _, h1, embeds_iff.2 rfl, h2⟩

namespace C56ex
open Toy

/-- Checks for concrete schemas. -/
def quietB (l : List Seg) (_ : P) : Bool := l.all fun
  | .key k => decide (k ≠ [] ∧ '.' ∉ k ∧ k ≠ g!"$" ∧ '*' ∉ k)
  | .star => true

theorem quiet {sc : Schema} (h : ((schemaPositions instNode sc).all fun x => quietB x.1 x.2) = true) : QuietSchema sc := by
  intro l q hat k hk
  have := List.all_eq_true.1 (check_positions instNode_shrinks h hat) _ hk
  have := of_decide_eq_true this
  exact ⟨this.1, this.2⟩

def oneB (_ : List Seg) (q : P) : Bool := match decodeInstance false q with
  | .ok i => match i.type.filter (fun x => x ≠ g!"null") with
    | [t] => decide (t = g!"object" → i.properties.isSome) && decide (t = g!"array" → i.items.isSome)
    | _ => false
  | _ => false

theorem one {sc : Schema} (h : ((schemaPositions instNode sc).all fun x => oneB x.1 x.2) = true) : OneTypeEach sc := by
  intro l q hat
  have := check_positions instNode_shrinks h hat
  unfold oneB at this
  split at this
  · rename_i i hi
    split at this
    · rename_i t ht
      rw [Bool.and_eq_true, decide_eq_true_eq, decide_eq_true_eq] at this
      refine ⟨i, t, hi, ht, fun h => ?_, fun h => ?_⟩
      · have := this.1 h; intro hn; rw [hn] at this; contradiction
      · have := this.2 h; intro hn; rw [hn] at this; contradiction
    · contradiction
  · contradiction

def plainB (l : List Seg) (q : P) : Bool := match l.getLast? with
  | some .star => (match decodeInstance false q with
    | .ok j => decide (g!"array" ∉ j.type ∧ g!"graphql-hydration" ∉ j.type)
    | _ => true)
  | _ => true

theorem plain {sc : Schema} (h : ((schemaPositions instNode sc).all fun x => plainB x.1 x.2) = true) : PlainItems sc := by
  intro l q hat j hj
  have := check_positions instNode_shrinks h hat
  unfold plainB at this
  rw [List.getLast?_concat] at this
  simp only [hj] at this
  exact of_decide_eq_true this

def args : Args := ⟨false, false, false, false, [], [(g!"c", g!"kind")]⟩

/-- Objects in an array, a nullable string, a time and a hydrated property. -/
def good : GMap P := [
  (g!"a", o [(g!"type", s g!"array"), (g!"items", o [(g!"type", s g!"object"), (g!"properties", o [(g!"b", o [(g!"type", s g!"integer")])])])]),
  (g!"c", o [(g!"type", a [s g!"string", s g!"null"])]),
  (g!"h", o [(g!"type", s g!"graphql-hydration")]),
  (g!"t", o [(g!"type", s g!"string"), (g!"format", s g!"date-time")])]

def schema (m : GMap P) : Instance := { Instance.zero with properties := some m, required := [g!"c"] }

/-- The conditions of `C56_partial` hold for it. -/
example : (good.map Prod.fst).Nodup ∧ QuietSchema ⟨some good, none⟩ ∧ OneTypeEach ⟨some good, none⟩ ∧ PlainItems ⟨some good, none⟩ :=
  ⟨by decide, quiet (by decide +kernel), one (by decide +kernel), plain (by decide +kernel)⟩

def shown (sched : Sched) : List Str := match newGoFile sched id args (schema good) g!"T" [] with
  | .ok g => g.root.fields.flatMap fun kf => [kf.1, kf.2.name, kf.2.jsonType, if kf.2.array then g!"array" else [], if kf.2.nullable then g!"null" else []] ++
      (kf.2.fields.getD []).map Prod.fst
  | _ => []

example : shown Sched.rev = [g!"a", g!"a", g!"object", g!"array", g!"", g!"b", g!"c", g!"kind", g!"string", g!"", g!"null", g!"t", g!"t", g!"date-time", g!"", g!""] := by
  decide +kernel

/-- An array of arrays of strings. -/
def nested : GMap P := [
  (g!"a", o [(g!"type", s g!"array"), (g!"items", o [(g!"type", s g!"array"), (g!"items", o [(g!"type", s g!"string")])])])]

theorem nested_fields : ∃ g, newGoFile Sched.id id args (schema nested) g!"T" [] = .ok g ∧ (GMap.get g!"a[*]" g.root.fields).isSome = true := by
  cases h : newGoFile Sched.id id args (schema nested) g!"T" [] with
  | ok g =>
    refine ⟨g, rfl, ?_⟩
    have : (match newGoFile Sched.id id args (schema nested) g!"T" [] with | .ok g => (GMap.get g!"a[*]" g.root.fields).isSome | _ => false) = true := by decide +kernel
    rw [h] at this
    exact this
  | err =>
    have : (match newGoFile Sched.id id args (schema nested) g!"T" [] with | .ok _ => true | _ => false) = true := by decide +kernel
    rw [h] at this
    contradiction
  | panic =>
    have : (match newGoFile Sched.id id args (schema nested) g!"T" [] with | .ok _ => true | _ => false) = true := by decide +kernel
    rw [h] at this
    contradiction
end C56ex

/-- An array of arrays gets two fields, one with the name `a[*]` that is not a property. -/
theorem C56_refuted : ¬ C56_statement id := by
  intro h
  obtain ⟨fs, hf, hg⟩ := h C56ex.args (C56ex.schema C56ex.nested) C56ex.nested g!"T" [] rfl rfl rfl (by decide) (C56ex.quiet (by decide +kernel)) (C56ex.one (by decide +kernel))
  obtain ⟨g, h1, h2⟩ := hg Sched.id
  obtain ⟨g', h3, h4⟩ := C56ex.nested_fields
  rw [h1] at h3
  cases h3
  rw [h2, (hf.names g!"a[*]").2 (by intro q hq; revert hq; simp [C56ex.nested, GMap.get])] at h4
  contradiction

namespace C56ex
open Toy
/-- The first letter in upper case. -/
def capital : Str → Str
  | c :: t => c.toUpper :: t
  | [] => []

def flat : Args := ⟨false, true, false, false, [], []⟩

/-- Two objects whose structs get the name `TAB`. -/
def clash : GMap P := [
  (g!"a", o [(g!"type", s g!"object"), (g!"properties", o [(g!"b", o [(g!"type", s g!"object"), (g!"properties", o [(g!"x", o [(g!"type", s g!"string")])])])])]),
  (g!"aB", o [(g!"type", s g!"object"), (g!"properties", o [(g!"y", o [(g!"type", s g!"string")])])])]

/-- The fields of the struct `TAB`. -/
def tab (sched : Sched) : List Str := match newGoFile sched capital flat (schema clash) g!"T" [] with
  | .ok g => match GMap.get g!"TAB" g.nested with
    | some st => st.fields.map Prod.fst
    | none => []
  | _ => []
end C56ex

/-- With structs of their own for nested objects: names of structs can clash, and which fields are lost depends on the order of walking. -/
theorem C56_flat_refuted : C56ex.tab Sched.id = [g!"y"] ∧ C56ex.tab Sched.rev = [g!"x"] := ⟨by decide +kernel, by decide +kernel⟩

end JT

namespace JT.C56ex
open Gen

/-- The struct for an allOf entry is embedded under the name made of its file's. -/
example : JT.Spec.Embeds capital ⟨false, false, false, true, [(g!"more", g!"Extra")], []⟩ [g!"Given"]
    [{ Instance.zero with fromRef := g!"parts/base.json" }, { Instance.zero with fromRef := g!"more.json" }] [g!"Given", g!"Base", g!"Extra"] :=
  embeds_iff.2 (by decide +kernel)
end JT.C56ex
