import Verif.Proofs.Flat
import Verif.Props.C56
/- C56 with structs of their own for nested objects: what the fields of each struct are. -/
namespace JT.Spec
open Gen

/-- The type of a field for an object: a pointer if it may be missing. -/
def structType (args : Args) (required : List Str) (k key : Str) (i : Instance) : Str :=
  if (args.pointers = true ∧ k ∉ required) ∨ g!"null" ∈ i.type then '*' :: key else key

/-- `FlatField title args required key k raw f`: the field for the property `k` with schema `raw` is `f`, when objects have structs of their own.  `required` are the
required names of the object and `key` the name of the struct for the property. -/
inductive FlatField (title : Str → Str) (args : Args) (required : List Str) (key k : Str) : P → EField → Prop where
  | leaf {raw : P} {i : Instance} {t : Str} : decodeInstance false raw = .ok i → TypeIs i t → LeafType t →
      FlatField title args required key k raw ⟨false, i.description, none, k, leafType i t, goName title args.fieldNames k, decide (g!"null" ∈ i.type), []⟩
  | object {raw : P} {i : Instance} : decodeInstance false raw = .ok i → TypeIs i g!"object" →
      FlatField title args required key k raw ⟨false, i.description, none, k, structType args required k key i, goName title args.fieldNames k, false, []⟩
  | leaves {raw items : P} {i j : Instance} {t : Str} : decodeInstance false raw = .ok i → TypeIs i g!"array" → i.items = some items →
      decodeInstance false items = .ok j → TypeIs j t → LeafType t →
      FlatField title args required key k raw ⟨true, i.description, none, k, leafType j t, goName title args.fieldNames k, decide (g!"null" ∈ i.type), []⟩
  | objects {raw items : P} {i j : Instance} : decodeInstance false raw = .ok i → TypeIs i g!"array" → i.items = some items →
      decodeInstance false items = .ok j → TypeIs j g!"object" →
      FlatField title args required key k raw ⟨true, i.description, none, k, structType args required k key j, goName title args.fieldNames k, decide (g!"null" ∈ i.type), []⟩

/-- The properties of the object at a position of a schema, and its required names. -/
inductive ObjectAt (schema : Instance) : List Seg → GMap P → List Str → Prop where
  | root {m : GMap P} : schema.properties = some m → ObjectAt schema [] m schema.required
  | inner {l : List Seg} {q : P} {i : Instance} {m : GMap P} : SchemaAt instNode ⟨schema.properties, schema.items⟩ l q → decodeInstance false q = .ok i →
      TypeIs i g!"object" → i.properties = some m → ObjectAt schema l m i.required

end JT.Spec

namespace JT.Gen
open Spec Flat

variable {O : Type}

/-- Walking with another notation for the states. -/
theorem walk_iso {σ τ : Type} {sc : Schema} (hn : SchemaNames instNode sc) (sched : Sched) (tick : Nat) (f : σ → τ) (fn : Str → Instance → σ → Res σ)
    (fn' : Str → Instance → τ → Res τ) (h : ∀ p i s, fn' p i (f s) = (fn p i s).map f) (s : σ) :
    walkSchema sched tick fn' sc (f s) = (walkSchema sched tick fn sc s).map fun r => (r.1, f r.2) := by
  obtain ⟨vs, done, tk, h1, h2⟩ := gwalkSchema_visits instNode_shrinks (order := fun n m => sched.perm n _ m) (fun n m => sched.isPerm _ _ _) sc tick hn
  rw [walkSchema_gwalk, walkSchema_gwalk, h2 σ (onInst fn) s, h2 τ (onInst fn') (f s)]
  have hf : ∀ (l : List (List Seg × P)) (s : σ), foldRes (fnAt (onInst fn') g!"$") l (f s) = (foldRes (fnAt (onInst fn) g!"$") l s).map f := by
    intro l
    induction l with
    | nil => intro s; rfl
    | cons x l ih =>
      intro s
      simp only [foldRes]
      have hx : fnAt (onInst fn') g!"$" x (f s) = (fnAt (onInst fn) g!"$" x s).map f := by
        unfold fnAt onInst
        cases decodeInstance false x.2 with
        | ok i => exact h _ _ _
        | err => rfl
        | panic => rfl
      rw [hx]
      cases fnAt (onInst fn) g!"$" x s with
      | ok t => exact ih t
      | err => rfl
      | panic => rfl
  rw [hf]
  cases foldRes (fnAt (onInst fn) g!"$") vs s <;> cases done <;> rfl

/-- The instance that is added for a property. -/
def flatInst (args : Args) (required : List Str) (k key : Str) (i : Instance) : Instance :=
  if g!"object" ∈ i.type then { Instance.zero with description := i.description, type := [structType args required k key i] } else i

/-- Structs, as they are built by walking. -/
def kind (title : Str → Str) (args : Args) : Flat.Kind GStruct :=
  ⟨GStruct.name, fun _ _ _ key i => ⟨key, [], i.required, []⟩,
    fun _ s k key i => (addField title args.fieldNames (flatInst args s.required k key i) [k] s.fields).map fun fs => { s with fields := fs }⟩

theorem walkFlat_eq (title : Str → Str) (args : Args) (path : Str) (i : Instance) (g : GStruct × GMap GStruct) :
    walkFlat title args path i ⟨g.1, g.2⟩ = (walk title (kind title args) path i g).map fun r => ⟨r.1, r.2⟩ := by
  unfold walkFlat walk kind
  simp only
  cases (splitJSONPath path).getLast? with
  | none => rfl
  | some name =>
    simp only
    cases GMap.get (title g.1.name :: (splitJSONPath path).map title).dropLast.flatten g.2 with
    | none =>
      simp only [Option.getD_none, Option.isNone_none, if_true]
      unfold flatInst structType
      cases addField title args.fieldNames _ [name] g.1.fields <;> rfl
    | some s =>
      simp only [Option.getD_some, Option.isNone_some, Bool.false_eq_true, if_false]
      unfold flatInst structType
      cases addField title args.fieldNames _ [name] s.fields with
      | ok fs => simp only [Res.map]; split <;> rfl
      | err => rfl
      | panic => rfl

theorem kind_stable (title : Str → Str) (args : Args) : Stable (kind title args) where
  name := by
    intro t o n k i o' h
    obtain ⟨fs, _, rfl⟩ := Res.map_eq_ok.1 h
    rfl
  new := fun _ _ _ _ _ => rfl

/-! ### One property -/

theorem addField_get {title : Str → Str} {rename : GMap Str} {inst : Instance} {k : Str} {fs fs' : GMap EField} (h : addField title rename inst [k] fs = .ok fs') :
    (∀ k', k' ≠ k → GMap.get k' fs' = GMap.get k' fs) ∧ (fs.Sorted → fs'.Sorted) := by
  unfold addField at h
  split at h
  · cases h; exact ⟨fun _ _ => rfl, id⟩
  · unfold addTree addLeaf at h
    split at h
    · cases h
    · cases h
    · split at h
      · cases h
        exact ⟨fun k' hk => GMap.get_set_ne hk _ _, fun hs => GMap.sorted_set hs⟩
      · split at h
        · cases h
          exact ⟨fun k' hk => GMap.get_set_ne hk _ _, fun hs => GMap.sorted_set hs⟩
        · cases h

/-- What adding a field does to the field of that name. -/
def addOne (title : Str → Str) (rename : GMap Str) (inst : Instance) (k : Str) (x : Option EField) : Res (Option EField) :=
  if g!"graphql-hydration" ∈ inst.type then .ok x
  else match oneType inst.type [] with
    | .err => .err
    | .panic => .panic
    | .ok t => match x with
      | none => .ok (some (finishField inst (newField title rename inst k t)))
      | some f => if f.array = true ∧ f.jsonType = [] then .ok (some (finishField inst { f with jsonType := t })) else .err

theorem addField_one (title : Str → Str) (rename : GMap Str) (inst : Instance) (k : Str) (fs : GMap EField) :
    (addField title rename inst [k] fs).map (GMap.get k) = addOne title rename inst k (GMap.get k fs) := by
  unfold addField addOne
  split
  · rfl
  · unfold addTree addLeaf
    cases oneType inst.type [] with
    | err => rfl
    | panic => rfl
    | ok t =>
      simp only
      cases GMap.get k fs with
      | none => simp only [Res.map, GMap.get_set_self]
      | some f =>
        simp only
        split
        · simp only [Res.map, GMap.get_set_self]
        · rfl

variable {title : Str → Str} {args : Args}

/-- A name that is not taken for a type. -/
def Free (key : Str) : Prop := key ∉ [g!"null", g!"array", g!"object", g!"graphql-hydration"]

theorem addOne_new {rename : GMap Str} {inst : Instance} {k t : Str} (ht : TypeIs inst t) (hh : t ≠ g!"graphql-hydration") :
    addOne title rename inst k none = .ok (some (finishField inst (newField title rename inst k t))) := by
  unfold addOne
  rw [if_neg (fun h => hh ((mem_type ht (by decide)).1 h).symm), oneType_is ht]

theorem addOne_item {rename : GMap Str} {inst : Instance} {k t : Str} (ht : TypeIs inst t) (hh : t ≠ g!"graphql-hydration") {f : EField} (h1 : f.array = true)
    (h2 : f.jsonType = []) : addOne title rename inst k (some f) = .ok (some (finishField inst { f with jsonType := t })) := by
  unfold addOne
  rw [if_neg (fun h => hh ((mem_type ht (by decide)).1 h).symm), oneType_is ht]
  simp only [h1, h2, and_self, if_true]

theorem structType_free {rq : List Str} {k key : Str} {i : Instance} (h : Free key) : Free (structType args rq k key i) := by
  unfold structType Free at *
  split
  · simp
  · exact h

theorem flat_object {rq : List Str} {k key : Str} {i : Instance} (h : Free key) (ho : g!"object" ∈ i.type) :
    TypeIs (flatInst args rq k key i) (structType args rq k key i) ∧ structType args rq k key i ≠ g!"graphql-hydration" ∧
    ∀ f : EField, f.jsonType = structType args rq k key i → finishField (flatInst args rq k key i) f = f := by
  have hf := structType_free (args := args) (rq := rq) (k := k) (i := i) h
  unfold Free at hf
  simp only [List.mem_cons, List.not_mem_nil, or_false, not_or] at hf
  obtain ⟨f1, f2, f3, f4⟩ := hf
  unfold flatInst
  rw [if_pos ho]
  refine ⟨?_, f4, fun f hfj => ?_⟩
  · unfold TypeIs
    rw [List.filter_cons_of_pos (by simpa using f1)]
    rfl
  · rw [finish_other (by simp [Instance.zero])]
    rw [hfj, if_neg f2, if_neg f3]

/-- The field for the items of an array comes after that for the array. -/
def pending (title : Str → Str) (args : Args) (k : Str) (i : Instance) : EField :=
  ⟨true, i.description, none, k, [], goName title args.fieldNames k, decide (g!"null" ∈ i.type), []⟩

/-- Which fields the first call for a property gives. -/
theorem first_call {rq : List Str} {k key : Str} {i : Instance} {t : Str} (ht : TypeIs i t) (hf : t = g!"object" → Free key) :
    addOne title args.fieldNames (flatInst args rq k key i) k none =
      .ok (if t = g!"graphql-hydration" then none
        else if t = g!"array" then some (pending title args k i)
        else if t = g!"object" then some ⟨false, i.description, none, k, structType args rq k key i, goName title args.fieldNames k, false, []⟩
        else some ⟨false, i.description, none, k, leafType i t, goName title args.fieldNames k, decide (g!"null" ∈ i.type), []⟩) := by
  by_cases h1 : t = g!"object"
  · subst h1
    have ho : g!"object" ∈ i.type := (mem_type ht (by decide)).2 rfl
    obtain ⟨a1, a2, a3⟩ := flat_object (args := args) (rq := rq) (k := k) (i := i) (hf rfl) ho
    rw [addOne_new a1 a2, a3 _ rfl]
    have hn : g!"null" ∉ (flatInst args rq k key i).type := by
      have := structType_free (args := args) (rq := rq) (k := k) (i := i) (hf rfl)
      unfold Free at this
      simp only [List.mem_cons, List.not_mem_nil, or_false, not_or] at this
      unfold flatInst
      rw [if_pos ho]
      simp only [List.mem_cons, List.not_mem_nil, or_false]
      exact fun h => this.1 h.symm
    have hd : (flatInst args rq k key i).description = i.description := by unfold flatInst; rw [if_pos ho]
    simp only [newField, hd, hn, decide_false, goName]
    simp
  · have ho : g!"object" ∉ i.type := fun h => h1 ((mem_type ht (by decide)).1 h).symm
    have hfi : flatInst args rq k key i = i := by unfold flatInst; rw [if_neg ho]
    rw [hfi]
    by_cases h2 : t = g!"graphql-hydration"
    · subst h2
      unfold addOne
      rw [if_pos ((mem_type ht (by decide)).2 rfl), if_pos rfl]
    · rw [if_neg h2, addOne_new ht h2]
      by_cases h3 : t = g!"array"
      · subst h3
        rw [if_pos rfl, finish_array ht _ rfl]
        rfl
      · rw [if_neg h3, if_neg h1, finish_leaf ht ⟨h1, h3, h2⟩ _ rfl]
        rfl

/-- Which field the second call for a property gives. -/
theorem second_call {rq : List Str} {k key : Str} {i j : Instance} {t : Str} (ht : TypeIs j t) (hf : t = g!"object" → Free key)
    (h2 : t ≠ g!"graphql-hydration") (h3 : t ≠ g!"array") :
    addOne title args.fieldNames (flatInst args rq k key j) k (some (pending title args k i)) =
      .ok (some { pending title args k i with jsonType := if t = g!"object" then structType args rq k key j else leafType j t }) := by
  by_cases h1 : t = g!"object"
  · subst h1
    have ho : g!"object" ∈ j.type := (mem_type ht (by decide)).2 rfl
    obtain ⟨a1, a2, a3⟩ := flat_object (args := args) (rq := rq) (k := k) (i := j) (hf rfl) ho
    rw [addOne_item a1 a2 rfl rfl, a3 _ rfl]
    simp
  · have ho : g!"object" ∉ j.type := fun h => h1 ((mem_type ht (by decide)).1 h).symm
    have hfi : flatInst args rq k key j = j := by unfold flatInst; rw [if_neg ho]
    rw [hfi, addOne_item ht h2 rfl rfl, finish_leaf ht ⟨h1, h3, h2⟩ _ rfl, if_neg h1]

/-! ### One struct -/

/-- `FlatFields title args rq key m fs`: there is one field for each property besides those for GraphQL, and no others. -/
structure _root_.JT.Spec.FlatFields (title : Str → Str) (args : Args) (rq : List Str) (key : Str → Str) (m : GMap P) (fs : GMap EField) : Prop where
  sorted : GMap.Sorted fs
  names : ∀ k, GMap.get k fs = none ↔ ∀ q, GMap.get k m = some q → Hydrated q
  each : ∀ k q f, GMap.get k m = some q → GMap.get k fs = some f → FlatField title args rq (key k) k q f

/-- Objects have names that are not taken for types. -/
def FreeNames (title : Str → Str) (name : Str) (sc : Schema) : Prop := ∀ l q, SchemaAt instNode sc l q → IsObject q → Free (keyOf title name l)

/-- One call for a property. -/
def OneCall (title : Str → Str) (args : Args) (rq : List Str) (k key : Str) (c : (Str × Bool) × P) (x y : Option EField) : Prop :=
  ∃ i, decodeInstance false c.2 = .ok i ∧ addOne title args.fieldNames (flatInst args rq k key i) k x = .ok y

theorem struct_trace {name : Str} {l : List Seg} {cs : List ((Str × Bool) × P)} {o0 o : GStruct} (hs : o0.fields.Sorted)
    (hc : Calls (childStep title (kind title args) name l) cs o0 o) (k : Str) :
    (o.required = o0.required ∧ o.name = o0.name ∧ o.embeds = o0.embeds ∧ o.fields.Sorted) ∧
    Trace (OneCall title args o0.required k (keyOf title name (l ++ [.key k]))) (kidsOf k cs) (GMap.get k o0.fields) (GMap.get k o.fields) := by
  refine trace (fun o => GMap.get k o.fields) (fun o => o.required = o0.required ∧ o.name = o0.name ∧ o.embeds = o0.embeds ∧ o.fields.Sorted)
    (OneCall title args o0.required k (keyOf title name (l ++ [.key k]))) (fun c => decide (c.1.1 = k)) hc ?_ ⟨rfl, rfl, rfl, hs⟩
  intro c _ s t hh h
  unfold childStep at h
  split at h
  · rename_i i hd
    obtain ⟨fs, h1, rfl⟩ := Res.map_eq_ok.1 h
    have h2 := addField_get h1
    refine ⟨⟨hh.1, hh.2.1, hh.2.2.1, h2.2 hh.2.2.2⟩, ?_⟩
    by_cases hk : c.1.1 = k
    · simp only [hk, decide_true, if_true]
      rw [hk] at h1
      refine ⟨i, hd, ?_⟩
      rw [← hh.1, ← addField_one, h1]
      rfl
    · simp only [hk, decide_false, Bool.false_eq_true, if_false]
      exact h2.1 k (fun h => hk h.symm)
  · cases h
  · cases h

theorem trace_nil {C α : Type} {R : C → α → α → Prop} {x y : α} (h : Trace R [] x y) : y = x := by cases h; rfl

theorem trace_one {C α : Type} {R : C → α → α → Prop} {c : C} {x y : α} (h : Trace R [c] x y) : R c x y := by
  cases h with
  | cons h1 h2 => cases h2; exact h1

theorem trace_two {C α : Type} {R : C → α → α → Prop} {c d : C} {x z : α} (h : Trace R [c, d] x z) : ∃ y, R c x y ∧ R d y z := by
  cases h with
  | cons h1 h2 => exact ⟨_, h1, trace_one h2⟩

theorem node_array {q r : P} (h : instNode q = some (.array r)) {i : Instance} {t : Str} (hd : decodeInstance false q = .ok i) (ht : TypeIs i t) :
    t = g!"array" ∧ i.items = some r := by
  unfold instNode at h
  rw [hd] at h
  simp only at h
  split at h
  · cases hp : i.properties with
    | none => rw [hp] at h; cases h
    | some m => rw [hp] at h; cases h
  · split at h
    · rename_i h1 h2
      refine ⟨((mem_type ht (by decide)).1 h2).symm, ?_⟩
      cases hp : i.items with
      | none => rw [hp] at h; cases h
      | some m => rw [hp] at h; cases h; rfl
    · cases h

theorem node_not_array {q : P} (h : ∀ r, instNode q ≠ some (.array r)) {i : Instance} {t : Str} (hd : decodeInstance false q = .ok i) (ht : TypeIs i t)
    (hit : t = g!"array" → i.items ≠ none) : t ≠ g!"array" := by
  rintro rfl
  obtain ⟨items, hi⟩ := Option.ne_none_iff_exists'.1 (hit rfl)
  apply h items
  unfold instNode
  rw [hd]
  have h1 : g!"object" ∉ i.type := fun h => absurd ((mem_type ht (by decide)).1 h) (by decide)
  have h2 : g!"array" ∈ i.type := (mem_type ht (by decide)).2 rfl
  simp only [h1, h2, if_true, if_false, hi, Option.map_some]

theorem node_object {q : P} {i : Instance} (hd : decodeInstance false q = .ok i) (ht : TypeIs i g!"object") (hp : i.properties ≠ none) : IsObject q :=
  (instNode_object_iff hd).2 ⟨(mem_type ht (by decide)).2 rfl, hp⟩

theorem hydrated_iff {q : P} {i : Instance} {t : Str} (hd : decodeInstance false q = .ok i) (ht : TypeIs i t) : Hydrated q ↔ t = g!"graphql-hydration" := by
  constructor
  · rintro ⟨i', h1, h2, _⟩
    rw [hd] at h1
    cases h1
    exact ((mem_type ht (by decide)).1 h2).symm
  · rintro rfl
    exact ⟨i, hd, (mem_type ht (by decide)).2 rfl, fun h => absurd ((mem_type ht (by decide)).1 h) (by decide),
      fun h => absurd ((mem_type ht (by decide)).1 h) (by decide)⟩

/-- The conditions on a schema. -/
structure Conditions (title : Str → Str) (name : Str) (sc : Schema) : Prop where
  plain : Plain title name sc
  one : OneTypeEach sc
  items : PlainItems sc
  free : FreeNames title name sc

variable {name : Str} {sc : Schema}

theorem free_key (hc : Conditions title name sc) {l : List Seg} {k : Str} {s : List Seg} (hs : s = [] ∨ s = [.star]) {q : P} {i : Instance} {t : Str}
    (ha : SchemaAt instNode sc (l ++ .key k :: s) q) (hd : decodeInstance false q = .ok i) (ht : TypeIs i t) (hp : t = g!"object" → i.properties ≠ none) :
    t = g!"object" → Free (keyOf title name (l ++ [.key k])) := by
  rintro rfl
  rw [← keyOf_tail title name l k hs]
  exact hc.free _ _ ha (node_object hd ht (hp rfl))

theorem mem_get {m : GMap P} (hn : (m.map Prod.fst).Nodup) {k : Str} {q : P} : GMap.get k m = some q ↔ (k, q) ∈ m :=
  ⟨GMap.get_some_mem, GMap.get_mem_nodup hn⟩

theorem struct_fields (hc : Conditions title name sc) {vs : List (List Seg × P)} (hv : Visits instNode sc vs true) {l : List Seg} {m : GMap P}
    (hm : PropsAt sc l m) (hn : (m.map Prod.fst).Nodup) {o0 o : GStruct} (h0 : o0.fields = [])
    (hcalls : Calls (childStep title (kind title args) name l) (children l vs) o0 o) :
    FlatFields title args o0.required (fun k => keyOf title name (l ++ [.key k])) m o.fields := by
  have hs0 : o0.fields.Sorted := by rw [h0]; exact trivial
  have hk : ∀ k, (GMap.get k o.fields = none ↔ ∀ q, GMap.get k m = some q → Hydrated q) ∧
      ∀ q f, GMap.get k m = some q → GMap.get k o.fields = some f → FlatField title args o0.required (keyOf title name (l ++ [.key k])) k q f := by
    intro k
    have htr := (struct_trace hs0 hcalls k).2
    rw [h0, show GMap.get k ([] : GMap EField) = none from rfl] at htr
    rcases kids_at hv hm (k := k) with ⟨h1, h2⟩ | ⟨q, h1, h2, h3, h4⟩ | ⟨q, r, h1, h2, h3, h4, h5⟩
    · rw [h2] at htr
      have := trace_nil htr
      rw [this]
      refine ⟨⟨fun _ q hq => absurd (GMap.get_some_mem hq) (h1 q), fun _ => rfl⟩, fun q f _ h => by cases h⟩
    · rw [h4] at htr
      obtain ⟨i, hd, hone⟩ := trace_one htr
      obtain ⟨i', t, hd', ht, hp1, hp2⟩ := hc.one _ _ h2
      simp only at hd
      rw [hd] at hd'
      cases hd'
      have hna := node_not_array h3 hd ht hp2
      rw [first_call ht (free_key hc (.inl rfl) h2 hd ht hp1), if_neg hna] at hone
      have hy := (Res.ok.inj hone).symm
      have hg := (mem_get hn).2 h1
      rw [hy]
      by_cases hh : t = g!"graphql-hydration"
      · rw [if_pos hh]
        refine ⟨⟨fun _ q' hq' => ?_, fun _ => rfl⟩, fun q f _ h => by cases h⟩
        rw [hg] at hq'
        cases hq'
        exact (hydrated_iff hd ht).2 hh
      · rw [if_neg hh]
        refine ⟨⟨fun h => ?_, fun h => absurd ((hydrated_iff hd ht).1 (h q hg)) hh⟩, fun q' f hq' hf => ?_⟩
        · split at h <;> cases h
        · rw [hg] at hq'
          cases hq'
          split at hf
          · rename_i ho
            subst ho
            cases hf
            exact .object hd ht
          · rename_i ho
            cases hf
            exact .leaf hd ht ⟨ho, hna, hh⟩
    · rw [h5] at htr
      obtain ⟨y, ⟨i, hd, hone⟩, ⟨j, hdj, htwo⟩⟩ := trace_two htr
      obtain ⟨i', t, hd', ht, hp1, hp2⟩ := hc.one _ _ h2
      simp only at hd hdj
      rw [hd] at hd'
      cases hd'
      obtain ⟨rfl, hit⟩ := node_array h3 hd ht
      rw [first_call ht (free_key hc (.inl rfl) h2 hd ht hp1), if_neg (by decide), if_pos rfl] at hone
      have hy := (Res.ok.inj hone).symm
      subst hy
      obtain ⟨j', t', hd2, ht', hp1', hp2'⟩ := hc.one _ _ h4
      rw [hdj] at hd2
      cases hd2
      obtain ⟨n1, n2⟩ := hc.items _ _ h4 j hdj
      have m1 : t' ≠ g!"array" := fun h => n1 ((mem_type ht' (by decide)).2 h.symm)
      have m2 : t' ≠ g!"graphql-hydration" := fun h => n2 ((mem_type ht' (by decide)).2 h.symm)
      rw [second_call ht' (free_key hc (.inr rfl) (by simpa using h4) hdj ht' hp1') m2 m1] at htwo
      have hy := (Res.ok.inj htwo).symm
      have hg := (mem_get hn).2 h1
      rw [hy]
      refine ⟨⟨fun h => (by cases h), fun h => absurd ((hydrated_iff hd ht).1 (h q hg)) (by decide)⟩, fun q' f hq' hf => ?_⟩
      rw [hg] at hq'
      cases hq'
      cases hf
      by_cases ho : t' = g!"object"
      · subst ho
        exact .objects hd ht hit hdj ht'
      · rw [if_neg ho]
        exact .leaves hd ht hit hdj ht' ⟨ho, m1, m2⟩
  exact ⟨(struct_trace hs0 hcalls []).1.2.2.2, fun k => (hk k).1, fun k => (hk k).2⟩

/-- Each property can be added. -/
theorem struct_ok (hc : Conditions title name sc) {vs : List (List Seg × P)} (hv : Visits instNode sc vs true) {l : List Seg} {m : GMap P}
    (hm : PropsAt sc l m) {o0 o : GStruct} (h0 : o0.fields = []) {cs ds : List ((Str × Bool) × P)} {c : (Str × Bool) × P} (hcs : children l vs = cs ++ c :: ds)
    (hcalls : Calls (childStep title (kind title args) name l) cs o0 o) : ∃ o', childStep title (kind title args) name l c o = .ok o' := by
  have hs0 : o0.fields.Sorted := by rw [h0]; exact trivial
  obtain ⟨⟨hr, _⟩, htr⟩ := struct_trace hs0 hcalls c.1.1
  rw [h0, show GMap.get c.1.1 ([] : GMap EField) = none from rfl] at htr
  have hsp : kidsOf c.1.1 (children l vs) = kidsOf c.1.1 cs ++ c :: kidsOf c.1.1 ds := by
    rw [hcs]
    unfold kidsOf
    rw [List.filter_append, List.filter_cons_of_pos (by simp)]
  suffices hx : ∃ i y, decodeInstance false c.2 = .ok i ∧
      addOne title args.fieldNames (flatInst args o0.required c.1.1 (keyOf title name (l ++ [.key c.1.1])) i) c.1.1 (GMap.get c.1.1 o.fields) = .ok y by
    obtain ⟨i, y, hd, hy⟩ := hx
    rw [← addField_one, ← hr] at hy
    obtain ⟨fs, h1, _⟩ := Res.map_eq_ok.1 hy
    unfold childStep
    rw [hd]
    exact ⟨{ o with fields := fs }, Res.map_eq_ok.2 ⟨fs, h1, rfl⟩⟩
  rcases kids_at hv hm (k := c.1.1) with ⟨h1, h2⟩ | ⟨q, h1, h2, h3, h4⟩ | ⟨q, r, h1, h2, h3, h4, h5⟩
  · rw [hsp] at h2
    simp at h2
  · rw [hsp] at h4
    obtain ⟨hnil, hcq⟩ : kidsOf c.1.1 cs = [] ∧ c = ((c.1.1, false), q) := by
      cases hk : kidsOf c.1.1 cs with
      | nil => rw [hk] at h4; simp only [List.nil_append, List.cons.injEq] at h4; exact ⟨rfl, h4.1⟩
      | cons a b => rw [hk] at h4; simp at h4
    rw [hnil] at htr
    rw [trace_nil htr]
    obtain ⟨i, t, hd, ht, hp1, hp2⟩ := hc.one _ _ h2
    rw [hcq]
    exact ⟨i, _, hd, first_call ht (free_key hc (.inl rfl) h2 hd ht hp1)⟩
  · rw [hsp] at h5
    obtain ⟨i, t, hd, ht, hp1, hp2⟩ := hc.one _ _ h2
    cases hk : kidsOf c.1.1 cs with
    | nil =>
      rw [hk] at h5 htr
      simp only [List.nil_append, List.cons.injEq] at h5
      rw [trace_nil htr, h5.1]
      exact ⟨i, _, hd, first_call ht (free_key hc (.inl rfl) h2 hd ht hp1)⟩
    | cons a b =>
      rw [hk] at h5 htr
      cases b with
      | cons a' b' => have := congrArg List.length h5; simp at this
      | nil =>
        simp only [List.cons_append, List.nil_append, List.cons.injEq] at h5
        obtain ⟨rfl, hcr, _⟩ := h5
        obtain ⟨i', hd', hone⟩ := trace_one htr
        simp only at hd'
        rw [hd] at hd'
        cases hd'
        obtain ⟨rfl, hit⟩ := node_array h3 hd ht
        rw [first_call ht (free_key hc (.inl rfl) h2 hd ht hp1), if_neg (by decide), if_pos rfl] at hone
        rw [← Res.ok.inj hone, hcr]
        obtain ⟨j, t', hdj, ht', hp1', hp2'⟩ := hc.one _ _ h4
        obtain ⟨n1, n2⟩ := hc.items _ _ h4 j hdj
        have m1 : t' ≠ g!"array" := fun h => n1 ((mem_type ht' (by decide)).2 h.symm)
        have m2 : t' ≠ g!"graphql-hydration" := fun h => n2 ((mem_type ht' (by decide)).2 h.symm)
        exact ⟨j, _, hdj, second_call ht' (free_key hc (.inr rfl) (by simpa using h4) hdj ht' hp1') m2 m1⟩

/-- All instances can be read. -/
theorem Conditions.wellFormed (hc : Conditions title name sc) : WellFormed instNode sc := by
  intro l q ha hn
  obtain ⟨i, t, hd, ht, h1, h2⟩ := hc.one _ _ ha
  unfold instNode at hn
  rw [hd] at hn
  simp only at hn
  split at hn
  · rename_i ho
    have := h1 ((mem_type ht (by decide)).1 ho).symm
    cases hp : i.properties with
    | none => exact this hp
    | some m => rw [hp] at hn; cases hn
  · split at hn
    · rename_i ho
      have := h2 ((mem_type ht (by decide)).1 ho).symm
      cases hp : i.items with
      | none => exact this hp
      | some m => rw [hp] at hn; cases hn
    · cases hn

/-- The positions can be listed. -/
theorem Conditions.visits (hc : Conditions title name sc) : ∃ vs, Visits instNode sc vs true := by
  obtain ⟨vs, done, _, h1, _⟩ := gwalkSchema_visits instNode_shrinks (order := fun n m => Sched.id.perm n _ m) (fun n m => Sched.id.isPerm _ _ _) sc 0 hc.plain.names
  exact ⟨vs, (h1.ends.2 hc.wellFormed) ▸ h1⟩

theorem start_object {root : GStruct} {l : List Seg} {o : GStruct} (hr : root.fields = []) (h : Start title (kind title args) sc root l o) : o.fields = [] ∧
    ((l = [] ∧ o = root) ∨ ∃ q i, SchemaAt instNode sc l q ∧ decodeInstance false q = .ok i ∧ g!"object" ∈ i.type ∧
      o = ⟨keyOf title root.name l, [], i.required, []⟩) := by
  cases h with
  | root => exact ⟨hr, .inl ⟨rfl, rfl⟩⟩
  | @child l s k q i o h1 h2 h3 h4 h5 => exact ⟨rfl, .inr ⟨q, i, h3, h4, h5, by rw [keyOf_tail title root.name l k h2]; rfl⟩⟩

theorem start_props (hc : Conditions title name sc) {root : GStruct} {l : List Seg} {o : GStruct} (hr : root.fields = [])
    (h : Start title (kind title args) sc root l o) {k : Str} {q : P} (hk : SchemaAt instNode sc (l ++ [.key k]) q) : ∃ m, PropsAt sc l m := by
  rcases (start_object hr h).2 with ⟨rfl, _⟩ | ⟨q', i, h1, h2, h3, _⟩
  · cases hk with
    | prop hm _ _ => exact ⟨_, .root hm⟩
  · obtain ⟨i', t, hd, ht, hp, _⟩ := hc.one _ _ h1
    rw [h2] at hd
    cases hd
    have : t = g!"object" := ((mem_type ht (by decide)).1 h3).symm
    obtain ⟨m, hm⟩ := node_object h2 (this ▸ ht) (hp this)
    exact ⟨m, .inner h1 hm⟩

end JT.Gen

namespace JT
open Spec Gen Flat

/-- The struct for the object at a position. -/
def Gen.structAt (title : Str → Str) (name : Str) (g : GoFile) (l : List Seg) : Option GStruct :=
  if l = [] then some g.root else GMap.get (keyOf title name l) g.nested

/-- **C56**, partial, with structs of their own for nested objects: generation succeeds and there is one struct for each object of the schema and no other, in whatever
order the schema is walked; the one for the schema itself embeds the given structs and those for the allOf entries if asked to; each has the required names of its object, and one field for each property besides those for GraphQL.  The conditions are that names do not
interfere with the notation of paths, that each instance has one type besides null, that the items of arrays are not arrays again and not only for GraphQL, and that no
two objects get the same name nor one of the names of types. -/
theorem C56_flat_partial {title : Str → Str} {args : Args} {schema : Instance} {name : Str} (embeds : List Str) (ha : args.noNested = true)
    (hc : Conditions title name ⟨schema.properties, schema.items⟩) (sched : Sched) :
    ∃ g, newGoFile sched title args schema name embeds = .ok g ∧ g.root.name = name ∧ JT.Spec.Embeds title args embeds schema.allOf g.root.embeds ∧
      (∀ l m rq, ObjectAt schema l m rq → ∃ st, structAt title name g l = some st ∧ (l ≠ [] → st.name = keyOf title name l ∧ st.embeds = []) ∧ st.required = rq ∧
        FlatFields title args rq (fun k => keyOf title name (l ++ [.key k])) m st.fields) ∧
      ∀ κ st, GMap.get κ g.nested = some st → ∃ l m, l ≠ [] ∧ κ = keyOf title name l ∧ ObjectAt schema l m st.required ∧ structAt title name g l = some st := by
  have hst := kind_stable title args
  have hwf := hc.wellFormed
  let root : GStruct := ⟨name, [], schema.required, embeds ++ embedNames title args schema.allOf⟩
  have hok := flat_ok title (kind title args) hst (root := root) hc.plain hwf sched 0 (by
    intro vs hv l o0 hs cs c ds hcs o hcalls
    have hk : ∃ q, SchemaAt instNode ⟨schema.properties, schema.items⟩ (l ++ [.key c.1.1]) q := by
      have hm : c ∈ children l vs := by rw [hcs]; simp
      have := hv.sound _ (mem_children.1 hm)
      cases hb : c.1.2 with
      | false => rw [hb] at this; exact ⟨_, this⟩
      | true =>
        rw [hb] at this
        simp only [if_true] at this
        rw [show l ++ [Seg.key c.1.1, .star] = (l ++ [.key c.1.1]) ++ [.star] by simp] at this
        obtain ⟨q, h3, _⟩ := this.above (by simp)
        exact ⟨q, h3⟩
    obtain ⟨q, hk⟩ := hk
    obtain ⟨m, hm⟩ := start_props hc rfl hs hk
    exact struct_ok hc hv hm (start_object rfl hs).1 hcs hcalls)
  obtain ⟨⟨tk, g⟩, hg⟩ := hok
  obtain ⟨vs, hv, hobjs, honly⟩ := flat title (kind title args) hst (root := root) hc.plain hg
  have hat : ∀ l, structAt title name ⟨g.1, g.2⟩ l = objAt title name g l := fun l => rfl
  have heach : ∀ l m rq, ObjectAt schema l m rq → ∃ st, structAt title name ⟨g.1, g.2⟩ l = some st ∧ (l = [] → st.name = name) ∧ (l ≠ [] → st.name = keyOf title name l ∧ st.embeds = []) ∧
      st.required = rq ∧ FlatFields title args rq (fun k => keyOf title name (l ++ [.key k])) m st.fields := by
    intro l m rq ho
    have hl : l = [] ∨ ∃ q, SchemaAt instNode ⟨schema.properties, schema.items⟩ l q ∧ IsObject q := by
      cases ho with
      | root => exact .inl rfl
      | inner h1 h2 h3 h4 => exact .inr ⟨_, h1, node_object h2 h3 (by rw [h4]; simp)⟩
    obtain ⟨o0, o, h1, h2, h3⟩ := hobjs l hl
    obtain ⟨e0, e1⟩ := start_object (root := root) rfl h1
    have htr := (struct_trace (by rw [e0]; exact trivial) h3 []).1
    have hP : PropsAt ⟨schema.properties, schema.items⟩ l m ∧ o0.required = rq ∧ (l = [] → o0.name = name) ∧ (l ≠ [] → o0.name = keyOf title name l ∧ o0.embeds = []) := by
      cases ho with
      | root hm =>
        rcases e1 with ⟨_, rfl⟩ | ⟨q, i, h4, _⟩
        · exact ⟨.root hm, rfl, fun _ => rfl, fun h => absurd rfl h⟩
        · cases h4
      | @inner _ q i m h4 h5 h6 h7 =>
        rcases e1 with ⟨rfl, _⟩ | ⟨q', i', h8, h9, h10, h11⟩
        · cases h4
        · have := at_unique hv h8 h4
          subst this
          rw [h5] at h9
          cases h9
          refine ⟨.inner h4 ?_, by rw [h11], ?_, fun _ => by rw [h11]; exact ⟨rfl, rfl⟩⟩
          · have h12 : g!"object" ∈ i.type := h10
            unfold instNode
            rw [h5]
            simp only [h12, if_true, h7, Option.map_some]
          · rintro rfl; cases h4
    have hn : (m.map Prod.fst).Nodup := by
      cases hP.1 with
      | root hm => exact (hc.plain.names.1 m hm).1
      | inner h4 h5 => exact (hc.plain.names.2 _ _ _ h4 h5).1
    refine ⟨o, h2, ?_, ?_, by rw [htr.1, hP.2.1], ?_⟩
    · intro h; rw [htr.2.1, hP.2.2.1 h]
    · intro h; rw [htr.2.1, htr.2.2.1]; exact hP.2.2.2 h
    · rw [← hP.2.1]
      exact struct_fields hc hv hP.1 hn e0 h3
  have hroot : g.1.name = name ∧ g.1.embeds = embeds ++ embedNames title args schema.allOf := by
    obtain ⟨o0, o, h1, h2, h3⟩ := hobjs [] (.inl rfl)
    obtain ⟨e0, e1⟩ := start_object (root := root) rfl h1
    have htr := (struct_trace (by rw [e0]; exact trivial) h3 []).1
    rcases e1 with ⟨_, rfl⟩ | ⟨q, i, h4, _⟩
    · unfold objAt at h2
      simp only [if_true, Option.some.injEq] at h2
      rw [h2]
      exact ⟨htr.2.1, htr.2.2.1⟩
    · cases h4
  refine ⟨⟨g.1, g.2⟩, ?_, hroot.1, embeds_iff.2 hroot.2, ?_, ?_⟩
  · unfold newGoFile
    have := walk_iso hc.plain.names sched 0 (fun g : GStruct × GMap GStruct => (⟨g.1, g.2⟩ : GoFile)) (walk title (kind title args)) (walkFunc title args) (by
      intro p i s
      rw [← walkFlat_eq]
      unfold walkFunc
      rw [if_neg (by simp [ha])]) (root, [])
    rw [hg] at this
    rw [this]
    rfl
  · intro l m rq ho
    obtain ⟨st, h1, _, h2⟩ := heach l m rq ho
    exact ⟨st, h1, h2⟩
  · intro κ st hk
    obtain ⟨l, q, h1, h2, rfl⟩ := honly κ st hk
    have hl0 : l ≠ [] := by rintro rfl; cases h1
    obtain ⟨i, t, hd, ht, hp, _⟩ := hc.one _ _ h1
    have ho := (instNode_object_iff hd).1 h2
    have ht0 : t = g!"object" := ((mem_type ht (by decide)).1 ho.1).symm
    obtain ⟨m, hm⟩ := Option.ne_none_iff_exists'.1 ho.2
    have hobj : ObjectAt schema l m i.required := .inner h1 hd (ht0 ▸ ht) hm
    have hs : structAt title name ⟨g.1, g.2⟩ l = some st := by
      unfold structAt
      rw [if_neg hl0]
      exact hk
    obtain ⟨st', h3, _, _, h4, _⟩ := heach l m _ hobj
    rw [hs] at h3
    cases h3
    exact ⟨l, m, hl0, rfl, by rw [h4]; exact hobj, hs⟩

end JT

namespace JT.C56flatex
open Spec Gen Flat Toy

/-- Checks for concrete schemas. -/
def objectB (q : P) : Bool := match instNode q with | some (.object _) => true | _ => false

theorem objectB_of {q : P} (h : IsObject q) : objectB q = true := by
  obtain ⟨m, hm⟩ := h
  unfold objectB
  rw [hm]

def namesB (m : GMap P) : Bool := decide ((m.map Prod.fst).Nodup ∧ [] ∉ m.map Prod.fst)

def arraysB : List Seg → Bool
  | [] => true
  | .star :: _ => false
  | .key _ :: .star :: l => arraysB l
  | .key _ :: l => arraysB l

theorem arraysB_of : ∀ {l : List Seg}, arraysB l = true → NoNestedArrays l
  | [], _ => .nil
  | .star :: _, h => by cases h
  | .key _ :: .star :: l, h => .item (arraysB_of (by simpa [arraysB] using h))
  | [.key _], _ => .key .nil
  | .key _ :: .key k :: l, h => .key (arraysB_of (l := .key k :: l) (by simpa [arraysB] using h))

def freeB (key : Str) : Bool := decide (key ∉ [g!"null", g!"array", g!"object", g!"graphql-hydration"])

def checkB (title : Str → Str) (name : Str) (l : List Seg) (q : P) : Bool :=
  C56ex.quietB l q && C56ex.oneB l q && C56ex.plainB l q && arraysB l &&
  (match instNode q with
    | some (.object m) => namesB m && (decide (keyOf title name l ≠ title name) && freeB (keyOf title name l))
    | _ => true)

def apartB (title : Str → Str) (name : Str) (ps : List (List Seg × P)) : Bool :=
  ps.all fun x => ps.all fun y => !(objectB x.2 && objectB y.2 && decide (keyOf title name x.1 = keyOf title name y.1)) || decide (x.1 = y.1)

theorem conditions {title : Str → Str} {name : Str} {sc : Schema}
    (hr : (match sc.properties with | some m => namesB m | none => true) = true)
    (h : ((schemaPositions instNode sc).all fun x => checkB title name x.1 x.2) = true) (ha : apartB title name (schemaPositions instNode sc) = true) :
    Conditions title name sc := by
  have hall : ∀ f : List Seg → P → Bool, (∀ l q, checkB title name l q = true → f l q = true) → ((schemaPositions instNode sc).all fun x => f x.1 x.2) = true :=
    fun f hf => List.all_eq_true.2 fun x hx => hf _ _ (List.all_eq_true.1 h x hx)
  have hparts : ∀ l q, checkB title name l q = true → C56ex.quietB l q = true ∧ C56ex.oneB l q = true ∧ C56ex.plainB l q = true ∧ arraysB l = true := by
    intro l q hb
    unfold checkB at hb
    simp only [Bool.and_eq_true] at hb
    exact ⟨hb.1.1.1.1, hb.1.1.1.2, hb.1.1.2, hb.1.2⟩
  have hobj : ∀ l q m, SchemaAt instNode sc l q → instNode q = some (.object m) → NamesOK m ∧ keyOf title name l ≠ title name ∧ Free (keyOf title name l) := by
    intro l q m hat hm
    have hb := check_positions instNode_shrinks h hat
    unfold checkB at hb
    simp only [Bool.and_eq_true, hm] at hb
    exact ⟨(decide_eq_true_iff.1 hb.2.1 : (m.map Prod.fst).Nodup ∧ [] ∉ m.map Prod.fst), decide_eq_true_iff.1 hb.2.2.1, (decide_eq_true_iff.1 hb.2.2.2 :
      keyOf title name l ∉ [g!"null", g!"array", g!"object", g!"graphql-hydration"])⟩
  have hq := C56ex.quiet (hall _ fun l q hb => (hparts l q hb).1)
  refine ⟨⟨⟨?_, fun l q m hat hm => (hobj l q m hat hm).1⟩, fun l q hat k hk => (hq l q hat k hk).2, ?_, ?_, ?_⟩, C56ex.one (hall _ fun l q hb => (hparts l q hb).2.1),
    C56ex.plain (hall _ fun l q hb => (hparts l q hb).2.2.1), fun l q hat ⟨m, hm⟩ => (hobj l q m hat hm).2.2⟩
  · intro m hm
    rw [hm] at hr
    exact (decide_eq_true_iff.1 hr : (m.map Prod.fst).Nodup ∧ [] ∉ m.map Prod.fst)
  · intro l q hat
    exact arraysB_of (hparts l q (check_positions instNode_shrinks h hat)).2.2.2
  · intro l q l' q' hat hat' ho ho' hk
    have h1 := List.all_eq_true.1 ha _ (mem_schemaPositions instNode_shrinks hat)
    have h2 := List.all_eq_true.1 h1 _ (mem_schemaPositions instNode_shrinks hat')
    simp only [objectB_of ho, objectB_of ho', hk, decide_true, Bool.and_self, Bool.not_true, Bool.false_or] at h2
    exact of_decide_eq_true h2
  · intro l q hat ⟨m, hm⟩
    exact (hobj l q m hat hm).2.1

/-- Objects in an array, in an object, and leaves. -/
def good : GMap P := [
  (g!"a", o [(g!"type", s g!"array"), (g!"items", o [(g!"type", s g!"object"), (g!"required", a [s g!"b"]), (g!"properties", o [(g!"b", o [(g!"type", s g!"integer")]),
    (g!"d", o [(g!"type", s g!"object"), (g!"properties", o [(g!"e", o [(g!"type", s g!"array"), (g!"items", o [(g!"type", s g!"number")])])])])])])]),
  (g!"c", o [(g!"type", a [s g!"string", s g!"null"])]),
  (g!"f", o [(g!"type", s g!"object"), (g!"properties", o [(g!"g", o [(g!"type", s g!"boolean")])])]),
  (g!"h", o [(g!"type", s g!"graphql-hydration")]),
  (g!"t", o [(g!"type", s g!"string"), (g!"format", s g!"date-time")])]

/-- The conditions of `C56_flat_partial` hold for it, with a title function that changes names. -/
example : Conditions (fun s => '_' :: s) g!"T" ⟨some good, none⟩ := conditions (by decide +kernel) (by decide +kernel) (by decide +kernel)

def args : Args := ⟨false, true, true, false, [], []⟩

def shown (sched : Sched) : List Str := match newGoFile sched (fun s => '_' :: s) args (C56ex.schema good) g!"T" [] with
  | .ok g => g.nested.flatMap fun kf => kf.2.name :: (kf.2.fields.flatMap fun f => [f.1, f.2.jsonType])
  | _ => []

example : shown Sched.rev = [g!"_T_a", g!"b", g!"integer", g!"d", g!"*_T_a_d", g!"_T_a_d", g!"e", g!"number", g!"_T_f", g!"g", g!"boolean"] := by
  decide +kernel

end JT.C56flatex
