import Verif.Model.InstanceKeys
import Verif.Props.C31
import Verif.Props.C132
/- C133: the letter case of the keys of a schema: for which schemas `Walk` and `WalkRaw` agree. -/
namespace JT
namespace Spec

/-- To the depth `n`: the keys of an instance that stand for a field are spelled as the field is, and so are those of the instances in it. -/
def SpelledInst (fold : Str → Str) : Nat → P → Prop
  | 0, _ => True
  | n + 1, p => SpelledObject fold instNames (fun k v =>
      ((k = g!"allOf" ∨ k = g!"anyOf" ∨ k = g!"oneOf") → ∀ l, v = .arr l → ∀ x ∈ l, SpelledInst fold n x) ∧
      (k = g!"properties" → ∀ m, v = .obj m → ∀ e ∈ m, SpelledInst fold n e.2) ∧
      (k = g!"items" → SpelledInst fold n v)) p

/-- All instances of the schema have their keys spelled as the fields are.  Names of properties are free. -/
def SpelledSchema (fold : Str → Str) (sc : Schema) : Prop :=
  (∀ m, sc.properties = some m → ∀ e ∈ m, ∀ n, SpelledInst fold n e.2) ∧ ∀ q, sc.items = some q → ∀ n, SpelledInst fold n q
end Spec

open Spec

variable {fold : Str → Str}

theorem bind_same {α β : Type} {x : Res α} {f g : α → Res β} (h : ∀ a, x = .ok a → f a = g a) : (x >>= f) = (x >>= g) := by
  cases x with
  | ok a => exact h a rfl
  | err => rfl
  | panic => rfl

theorem typeEntry_key (kv : Str × P) : (typeEntry kv).1 = kv.1 := by
  unfold typeEntry
  split
  · split <;> rfl
  · rfl

theorem get_typed : ∀ (m : List (Str × P)) (n : Str), GMap.get n (m.map typeEntry) = if n = g!"type" then typeField (GMap.get n m) else GMap.get n m
  | [], n => by
    simp only [List.map_nil, GMap.get]
    split <;> rfl
  | (k, v) :: m, n => by
    have ih := get_typed m n
    have hk := typeEntry_key (k, v)
    simp only [List.map_cons]
    rw [show typeEntry (k, v) = (k, (typeEntry (k, v)).2) from Prod.ext hk rfl]
    simp only [GMap.get]
    by_cases h : n = k
    · subst h
      simp only [if_true]
      unfold typeEntry
      by_cases ht : n = g!"type"
      · subst ht
        simp only [if_true]
        unfold typeField
        cases v with
        | sc s => cases s <;> rfl
        | arr l => rfl
        | obj m => rfl
      · simp only [if_neg ht]
    · rw [if_neg h, ih, if_neg h]

theorem instFields_spelled {R : Str → P → Prop} {p : P} (h : SpelledObject fold instNames R p) :
    (instFields fold p = .err ∧ asStruct p = .err) ∨ ∃ q q', instFields fold p = .ok q ∧ asStruct p = .ok q' ∧
      (∀ n ∈ instNames, n ≠ g!"type" → q.key n = q'.key n) ∧ q.key g!"type" = typeField (q'.key g!"type") ∧ ∀ n v, q'.key n = some v → R n v := by
  cases p with
  | obj m =>
    have hs : ∀ kv ∈ m.map typeEntry, ∀ n ∈ instNames, fold kv.1 = fold n → kv.1 = n := by
      intro kv hm
      obtain ⟨e, he, rfl⟩ := List.mem_map.1 hm
      rw [typeEntry_key]
      exact (h m rfl e he).1
    refine .inr ⟨_, _, rfl, rfl, fun n hn ht => ?_, ?_, fun n v hv => (h m rfl _ (GMap.get_some_mem hv)).2⟩
    · exact (get_fields hn hs).trans ((get_typed m n).trans (if_neg ht))
    · exact (get_fields (by simp [instNames]) hs).trans ((get_typed m _).trans (if_pos rfl))
  | arr l => exact .inl ⟨rfl, rfl⟩
  | sc s =>
    cases s with
    | nil => exact .inr ⟨_, _, rfl, rfl, fun _ _ _ => rfl, rfl, fun n v hv => by cases hv⟩
    | _ => exact .inl ⟨rfl, rfl⟩

theorem asList_arr {o : Option P} {l : List P} (h : asList o = .ok l) : l = [] ∨ o = some (.arr l) := by
  unfold asList at h
  split at h
  · cases h; exact .inl rfl
  · cases h; exact .inl rfl
  · cases h; exact .inr rfl
  · cases h

/-- Documents with keys spelled as the fields are read as in `Model/Instance`. -/
theorem inst_spelled : ∀ (n : Nat) (ap : Bool) (p : P), (∀ k, SpelledInst fold k p) → unmarshalInst fold n ap p = decodeInst n ap p
  | 0, _, _, _ => rfl
  | n + 1, ap, p, h => by
    have hsub : ∀ (q' : P) (k : Str), asStruct p = .ok q' → (k = g!"allOf" ∨ k = g!"anyOf" ∨ k = g!"oneOf") → ∀ l, asList (q'.key k) = .ok l →
        mapRes (unmarshalInst fold n false) l = mapRes (decodeInst n false) l := by
      intro q' k hq hk l hl
      refine mapRes_eq fun x hx => inst_spelled n false x fun j => ?_
      rcases asList_arr hl with rfl | hl
      · cases hx
      · rcases instFields_spelled (h (j + 1)) with ⟨_, h2⟩ | ⟨_, _, _, h2, _, _, hr⟩
        · rw [h2] at hq; cases hq
        · rw [h2] at hq
          cases hq
          exact (hr _ _ hl).1 hk l rfl x hx
    unfold unmarshalInst decodeInst
    rcases instFields_spelled (h 1) with ⟨h1, h2⟩ | ⟨q, q', h1, h2, hk, ht, _⟩
    · rw [h1, h2, err_then, err_then]
    · have hs := hsub q'
      rw [h2] at hs
      rw [h1, h2, ok_then, ok_then, ht]
      rw [hk g!"additionalProperties" (by simp [instNames]) (by decide), hk g!"allOf" (by simp [instNames]) (by decide), hk g!"anyOf" (by simp [instNames]) (by decide),
        hk g!"description" (by simp [instNames]) (by decide), hk g!"definitions" (by simp [instNames]) (by decide), hk g!"embed" (by simp [instNames]) (by decide),
        hk g!"format" (by simp [instNames]) (by decide), hk g!"fromRef" (by simp [instNames]) (by decide), hk g!"graphql-arguments" (by simp [instNames]) (by decide),
        hk g!"items" (by simp [instNames]) (by decide), hk g!"oneOf" (by simp [instNames]) (by decide), hk g!"properties" (by simp [instNames]) (by decide),
        hk g!"$ref" (by simp [instNames]) (by decide), hk g!"required" (by simp [instNames]) (by decide), hk g!"$schema" (by simp [instNames]) (by decide),
        hk g!"target" (by simp [instNames]) (by decide)]
      refine bind_same fun _ _ => bind_same fun l hl => ?_
      rw [hs g!"allOf" rfl (by simp) l hl]
      refine bind_same fun _ _ => bind_same fun l hl => ?_
      rw [hs g!"anyOf" rfl (by simp) l hl]
      refine bind_same fun _ _ => bind_same fun _ _ => bind_same fun _ _ => bind_same fun _ _ => bind_same fun _ _ => bind_same fun _ _ => bind_same fun l hl => ?_
      rw [hs g!"oneOf" rfl (by simp) l hl]

theorem foldRes_same {σ β : Type} {f g : β → σ → Res σ} : ∀ {l : List β} {s : σ}, (∀ x ∈ l, ∀ s, f x s = g x s) → foldRes f l s = foldRes g l s
  | [], _, _ => rfl
  | x :: l, s, h => by
    simp only [foldRes, h x (List.mem_cons_self ..)]
    split
    · exact foldRes_same fun y hy => h y (List.mem_cons_of_mem _ hy)
    · rfl
    · rfl

theorem walkInst_spelled {σ : Type} (sched : Sched) (fn : Str → Instance → σ → Res σ) : ∀ (n : Nat) (raw : P) (path : Str) (s : Nat × σ),
    (∀ k, SpelledInst fold k raw) → walkInstKeys fold sched fn n raw path s = walkInst sched fn n raw path s
  | 0, _, _, _, _ => rfl
  | n + 1, raw, path, s, h => by
    unfold walkInstKeys walkInst
    have hd : unmarshalInstance fold false raw = decodeInstance false raw := inst_spelled _ _ _ h
    rw [hd]
    cases hi : decodeInstance false raw with
    | err => rfl
    | panic => rfl
    | ok i =>
      dsimp only
      obtain ⟨hp, hit, _⟩ := decodeInstance_fields hi
      cases fn path i s.2 with
      | err => rfl
      | panic => rfl
      | ok s' =>
        dsimp only
        split
        · cases hm : i.properties with
          | none => rfl
          | some m =>
            dsimp only
            rw [hm] at hp
            obtain ⟨l, hl, rfl⟩ := asRawMap_some hp
            refine foldRes_same fun kv hkv s => walkInst_spelled sched fn n _ _ _ fun k => ?_
            have hkv := GMap.mem_ofList ((sched.isPerm _ _ _).mem_iff.1 hkv)
            cases raw with
            | obj r => exact ((h (k + 1) r rfl _ (GMap.get_some_mem hl)).2.2.1) rfl l rfl kv hkv
            | arr _ => cases hl
            | sc _ => cases hl
        · split
          · cases hm : i.items with
            | none => rfl
            | some q =>
              dsimp only
              rw [hm] at hit
              refine walkInst_spelled sched fn n _ _ _ fun k => ?_
              cases raw with
              | obj r => exact ((h (k + 1) r rfl _ (GMap.get_some_mem hit.symm)).2.2.2) rfl
              | arr _ => cases hit
              | sc _ => cases hit
          · rfl

/-- **C133**: on schemas whose keys are spelled as the fields, `Walk` with keys matched as encoding/json does is `Walk` of `Model/Instance`. -/
theorem C133_model {σ : Type} (sched : Sched) (tick : Nat) (fn : Str → Instance → σ → Res σ) {sc : Schema} (h : SpelledSchema fold sc) (st : σ) :
    walkKeys fold sched tick fn sc st = walkSchema sched tick fn sc st := by
  unfold walkKeys walkSchema
  have h1 : foldRes (fun kv st => walkInstKeys fold sched fn (kv.2.depth + 1) kv.2 (prependPath g!"$" kv.1) st)
      (sched.perm tick _ (sc.properties.getD [])) (tick + 1, st) = foldRes (fun kv st => walkInst sched fn (kv.2.depth + 1) kv.2 (prependPath g!"$" kv.1) st)
      (sched.perm tick _ (sc.properties.getD [])) (tick + 1, st) := by
    refine foldRes_same fun kv hkv s => walkInst_spelled sched fn _ _ _ _ ?_
    have hkv := (sched.isPerm _ _ _).mem_iff.1 hkv
    cases hp : sc.properties with
    | none => rw [hp] at hkv; cases hkv
    | some m => rw [hp] at hkv; exact h.1 m hp kv hkv
  rw [h1]
  generalize foldRes _ _ _ = r
  cases r with
  | err => rfl
  | panic => rfl
  | ok st =>
    dsimp only
    cases hq : sc.items with
    | none => rfl
    | some q => exact walkInst_spelled sched fn _ _ _ _ (h.2 q hq)

/-- **C133**: on schemas whose keys are spelled as the fields, and in which every instance decodes and has a type with at most one name besides
`null`, `Walk` and `WalkRaw` visit the same instances at the same paths, and one gets to its end iff the other does. -/
theorem C133_partial (sched sched' : Sched) (tick tick' : Nat) {sc : Schema} (h : SpelledSchema fold sc)
    (hone : ∀ l q, SchemaAt rawNode sc l q → ∃ i, OneType q i) (hr : SchemaNames rawNode sc) (hi : SchemaNames instNode sc) :
    ∃ vs vs' done tick2, Visits rawNode sc vs done ∧ Visits instNode sc vs' done ∧
      (∀ (σ : Type) (fn : Str → P → σ → Res σ) (s s' : σ),
        walkRawSchema sched tick fn sc s = .ok s' ↔ done = true ∧ Calls (fun x => fn (pathOf x.1) x.2) vs s s') ∧
      (∀ (σ : Type) (fn : Str → Instance → σ → Res σ) (s s' : σ),
        walkKeys fold sched' tick' fn sc s = .ok (tick2, s') ↔ done = true ∧ Calls (fun x => onInst fn (pathOf x.1) x.2) vs' s s') ∧
      (done = true → ∀ x, x ∈ vs ↔ x ∈ vs') := by
  obtain ⟨vs, vs', d, t2, h1, h2, h3, h4, h5⟩ := C33_walks sched sched' tick tick' hone hr hi
  refine ⟨vs, vs', d, t2, h1, h2, h3, fun σ fn s s' => ?_, h5⟩
  rw [C133_model sched' tick' fn h]
  exact h4 σ fn s s'

/-! ### Keys in any spelling -/

namespace Spec
/-- The contents of an instance as `Walk` sees it when keys are matched without regard to letter case. -/
def keysNode (fold : Str → Str) (p : P) : Option Node :=
  match unmarshalInstance fold false p with
  | .ok i =>
    if g!"object" ∈ i.type then i.properties.map .object
    else if g!"array" ∈ i.type then i.items.map .array
    else some .leaf
  | _ => none

/-- The entry of an object that stands for the field `n`: the only one whose key is `n` up to letter case. -/
def Stands (fold : Str → Str) (m : List (Str × P)) (n k : Str) (v : P) : Prop :=
  ∃ a b, m = a ++ (k, v) :: b ∧ fold k = fold n ∧ ∀ kv ∈ a ++ b, fold kv.1 ≠ fold n
end Spec

theorem fieldKey_apart {names : List Str} {n k : Str} (h : fold k ≠ fold n) : fieldKey fold names k ≠ some n := by
  unfold fieldKey
  split
  · intro e
    cases e
    exact h rfl
  · intro e
    have := List.find?_some e
    simp only [decide_eq_true_eq] at this
    exact h this.symm

theorem get_none_fields {names : List Str} {n : Str} : ∀ {m : List (Str × P)}, (∀ kv ∈ m, fold kv.1 ≠ fold n) → GMap.get n (fieldsOf fold names m) = none
  | [], _ => rfl
  | (k, v) :: m, h => by
    have ih := get_none_fields (names := names) (m := m) fun kv hm => h kv (List.mem_cons_of_mem _ hm)
    have hk := fieldKey_apart (names := names) (h (k, v) (List.mem_cons_self ..))
    unfold fieldsOf at ih ⊢
    rw [List.filterMap_cons]
    cases hf : fieldKey fold names k with
    | none => simpa using ih
    | some a =>
      have hne : n ≠ a := fun e => hk (by rw [hf, e])
      simp only [Option.map_some, GMap.get, if_neg hne, ih]

theorem get_some_fields {names : List Str} {n k : Str} {v : P} (hap : NamesApart fold names) (hn : n ∈ names) (hk : fold k = fold n) : ∀ {a b : List (Str × P)},
    (∀ kv ∈ a, fold kv.1 ≠ fold n) → GMap.get n (fieldsOf fold names (a ++ (k, v) :: b)) = some v
  | [], b, _ => by
    unfold fieldsOf
    rw [List.nil_append, List.filterMap_cons, fieldKey_some hap hn hk]
    simp [GMap.get]
  | (k', v') :: a, b, h => by
    have ih := get_some_fields (v := v) hap hn hk (a := a) (b := b) fun kv hm => h kv (List.mem_cons_of_mem _ hm)
    have hk' := fieldKey_apart (names := names) (h (k', v') (List.mem_cons_self ..))
    unfold fieldsOf at ih ⊢
    rw [List.cons_append, List.filterMap_cons]
    cases hf : fieldKey fold names k' with
    | none => simpa using ih
    | some c =>
      have hne : n ≠ c := fun e => hk' (by rw [hf, e])
      simp only [Option.map_some, GMap.get, if_neg hne, ih]

theorem key_stands {n k : Str} {v q : P} {m : List (Str × P)} (hap : NamesApart fold instNames) (hn : n ∈ instNames) (h : Stands fold m n k v)
    (hq : instFields fold (.obj m) = .ok q) : q.key n = some (typeEntry (k, v)).2 := by
  obtain ⟨a, b, rfl, hk, hab⟩ := h
  cases hq
  simp only [P.key, List.map_append, List.map_cons]
  rw [show typeEntry (k, v) = (k, (typeEntry (k, v)).2) from Prod.ext (typeEntry_key _) rfl]
  refine get_some_fields hap hn hk fun kv hm => ?_
  obtain ⟨e, he, rfl⟩ := List.mem_map.1 hm
  rw [typeEntry_key]
  exact hab e (List.mem_append_left _ he)

theorem key_missing {n : Str} {q : P} {m : List (Str × P)} (h : ∀ kv ∈ m, fold kv.1 ≠ fold n) (hq : instFields fold (.obj m) = .ok q) : q.key n = none := by
  cases hq
  refine get_none_fields fun kv hm => ?_
  obtain ⟨e, he, rfl⟩ := List.mem_map.1 hm
  rw [typeEntry_key]
  exact h e he

/-- The fields of an instance that matter for walking. -/
theorem unmarshalInstance_fields {ap : Bool} {p : P} {i : Instance} (h : unmarshalInstance fold ap p = .ok i) :
    ∃ q, instFields fold p = .ok q ∧ asRawMap (q.key g!"properties") = .ok i.properties ∧ i.items = q.key g!"items" ∧ asStrings (q.key g!"type") = .ok i.type := by
  unfold unmarshalInstance at h
  simp only [unmarshalInst, Res.bind_eq_ok, Res.pure_eq_ok] at h
  obtain ⟨q, hq, h⟩ := h
  obtain ⟨_, _, _, _, _, _, _, _, _, _, _, _, _, _, _, _, _, _, _, _, _, _, _, _, props, hp, _, _, _, _, _, _, _, _, ty, ht, rfl⟩ := h
  exact ⟨q, hq, hp, rfl, ht⟩

/-- **C133**: what `Walk` reads from an instance, whichever letter case its keys have: the properties and items under the key that stands for them, and
the type, which may be a text only under the key `type` itself. -/
theorem C133_reads {m : List (Str × P)} {i : Instance} (hap : NamesApart fold instNames) (h : unmarshalInstance fold false (.obj m) = .ok i) :
    (∀ k v, Stands fold m g!"properties" k v → (v = .sc .nil ∧ i.properties = none) ∨ ∃ ps, v = .obj ps ∧ i.properties = some (GMap.ofList ps)) ∧
    ((∀ kv ∈ m, fold kv.1 ≠ fold g!"properties") → i.properties = none) ∧
    (∀ k v, Stands fold m g!"items" k v → i.items = some v) ∧
    ((∀ kv ∈ m, fold kv.1 ≠ fold g!"items") → i.items = none) ∧
    (∀ k t, Stands fold m g!"type" k (.sc (.str t)) → k = g!"type" ∧ i.type = [t]) ∧
    (∀ k ts, Stands fold m g!"type" k (.arr (ts.map fun t => .sc (.str t))) → i.type = ts) ∧
    ((∀ kv ∈ m, fold kv.1 ≠ fold g!"type") → i.type = []) := by
  obtain ⟨q, hq, hp, hi, ht⟩ := unmarshalInstance_fields h
  have hplain : ∀ {n k : Str} {v : P}, n ∈ instNames → fold g!"type" ≠ fold n → fold k = fold n → (typeEntry (k, v)).2 = v := by
    intro n k v _ hne hk
    unfold typeEntry
    rw [if_neg]
    intro e
    dsimp only at e
    rw [e] at hk
    exact hne hk
  have hnt : ∀ n ∈ instNames, n ≠ g!"type" → fold g!"type" ≠ fold n := fun n hn hne e => hne (hap _ hn _ (by simp [instNames]) e.symm)
  refine ⟨fun k v hs => ?_, fun hs => ?_, fun k v hs => ?_, fun hs => ?_, fun k t hs => ?_, fun k ts hs => ?_, fun hs => ?_⟩
  · have hk := key_stands hap (by simp [instNames]) hs hq
    obtain ⟨_, _, _, hf, _⟩ := hs
    rw [hplain (by simp [instNames]) (hnt g!"properties" (by simp [instNames]) (by decide)) hf] at hk
    rw [hk] at hp
    cases v with
    | obj ps => exact .inr ⟨ps, rfl, (Res.ok.inj hp).symm⟩
    | arr l => cases hp
    | sc s => cases s <;> first | exact .inl ⟨rfl, (Res.ok.inj hp).symm⟩ | cases hp
  · rw [key_missing hs hq] at hp
    exact (Res.ok.inj hp).symm
  · have hk := key_stands hap (by simp [instNames]) hs hq
    obtain ⟨_, _, _, hf, _⟩ := hs
    rw [hplain (by simp [instNames]) (hnt g!"items" (by simp [instNames]) (by decide)) hf] at hk
    rw [hi, hk]
  · rw [hi, key_missing hs hq]
  · have hk := key_stands hap (by simp [instNames]) hs hq
    rw [hk] at ht
    unfold typeEntry at ht
    by_cases hkt : k = g!"type"
    · rw [if_pos hkt] at ht
      exact ⟨hkt, (Res.ok.inj ht).symm⟩
    · rw [if_neg hkt] at ht
      cases ht
  · have hk := key_stands hap (by simp [instNames]) hs hq
    have he : (typeEntry (k, .arr (ts.map fun t => .sc (.str t)))).2 = .arr (ts.map fun t => .sc (.str t)) := by
      unfold typeEntry
      split <;> rfl
    rw [hk, he] at ht
    have : ∀ ts : List Str, mapRes (fun p => asString (some p)) (ts.map fun t => P.sc (.str t)) = .ok ts := by
      intro ts
      induction ts with
      | nil => rfl
      | cons t ts ih => rw [List.map_cons, mapRes, ih]; rfl
    have h2 : asStrings (some (.arr (ts.map fun t => P.sc (.str t)))) = .ok ts := this ts
    rw [h2] at ht
    exact (Res.ok.inj ht).symm
  · rw [key_missing hs hq] at ht
    exact (Res.ok.inj ht).symm

theorem depth_typed (kv : Str × P) (h : kv.1 ≠ g!"type") : typeEntry kv = kv := if_neg h

/-- What is under a field other than the type is inside of the instance. -/
theorem field_depth {n : Str} {p q v : P} (hap : NamesApart fold instNames) (ht : n ≠ g!"type") (hq : instFields fold p = .ok q)
    (hv : q.key n = some v) : v.depth < p.depth := by
  cases p with
  | obj m =>
    cases hq
    have hm : (n, v) ∈ fieldsOf fold instNames (m.map typeEntry) := GMap.get_some_mem hv
    unfold fieldsOf at hm
    obtain ⟨e, he, h⟩ := List.mem_filterMap.1 hm
    obtain ⟨c, hc, h⟩ := Option.map_eq_some_iff.1 h
    cases h
    obtain ⟨kv, hkv, rfl⟩ := List.mem_map.1 he
    have hne : kv.1 ≠ g!"type" := by
      intro e
      rw [typeEntry_key, e, fieldKey_some hap (by simp [instNames]) rfl] at hc
      exact ht (Option.some.inj hc).symm
    rw [depth_typed _ hne]
    have := depthFields_mem hkv
    simp only [P.depth]
    omega
  | arr l => cases hq
  | sc s =>
    cases s with
    | nil => cases hq; cases hv
    | _ => cases hq

theorem keysNode_object {p : P} {m : List (Str × P)} (h : keysNode fold p = some (.object m)) :
    ∃ q l, instFields fold p = .ok q ∧ q.key g!"properties" = some (.obj l) ∧ m = GMap.ofList l := by
  unfold keysNode at h
  split at h
  · rename_i i hi
    obtain ⟨q, hq, h1, h2, h3⟩ := unmarshalInstance_fields hi
    split at h
    · simp only [Option.map_eq_some_iff] at h
      obtain ⟨m', hm, h⟩ := h
      injection h with h
      subst h
      rw [hm] at h1
      obtain ⟨l, hl, rfl⟩ := asRawMap_some h1
      exact ⟨q, l, hq, hl, rfl⟩
    · split at h
      · simp only [Option.map_eq_some_iff] at h
        obtain ⟨_, _, h⟩ := h
        contradiction
      · simp at h
  · contradiction

theorem keysNode_array {p r : P} (h : keysNode fold p = some (.array r)) : ∃ q, instFields fold p = .ok q ∧ q.key g!"items" = some r := by
  unfold keysNode at h
  split at h
  · rename_i i hi
    obtain ⟨q, hq, h1, h2, h3⟩ := unmarshalInstance_fields hi
    split at h
    · simp only [Option.map_eq_some_iff] at h
      obtain ⟨_, _, h⟩ := h
      contradiction
    · split at h
      · simp only [Option.map_eq_some_iff] at h
        obtain ⟨_, hr, h⟩ := h
        injection h with h
        exact ⟨q, hq, by rw [← h2, hr, h]⟩
      · simp at h
  · contradiction

theorem keysNode_shrinks (hap : NamesApart fold instNames) : Shrinks (keysNode fold) := by
  constructor
  · intro raw m h kv hkv
    obtain ⟨q, l, hq, hl, rfl⟩ := keysNode_object h
    have := field_depth hap (by decide) hq hl
    have := depthFields_mem (GMap.mem_ofList hkv)
    simp only [P.depth] at *
    omega
  · intro raw r h
    obtain ⟨q, hq, hr⟩ := keysNode_array h
    exact field_depth hap (by decide) hq hr

/-- The function of `Walk` on raw instances. -/
def onKeys {σ : Type} (fold : Str → Str) (fn : Str → Instance → σ → Res σ) (path : Str) (p : P) (s : σ) : Res σ :=
  match unmarshalInstance fold false p with
  | .ok i => fn path i s
  | .err => .err
  | .panic => .panic

theorem walkInstKeys_gwalk {σ : Type} (sched : Sched) (fn : Str → Instance → σ → Res σ) : ∀ (n : Nat) (raw : P) (path : Str) (s : Nat × σ),
    walkInstKeys fold sched fn n raw path s = gwalk (keysNode fold) (fun n m => sched.perm n _ m) (onKeys fold fn) n raw path s := by
  intro n
  induction n with
  | zero => intro raw path s; rfl
  | succ n ih =>
    intro raw path s
    simp only [walkInstKeys, gwalk, onKeys]
    cases hd : unmarshalInstance fold false raw with
    | err => rfl
    | panic => rfl
    | ok i =>
      simp only
      cases fn path i s.2 with
      | err => rfl
      | panic => rfl
      | ok s' =>
        simp only [keysNode, hd]
        by_cases h1 : g!"object" ∈ i.type
        · rw [if_pos h1, if_pos h1]
          cases i.properties with
          | none => rfl
          | some m =>
            simp only [Option.map_some]
            exact foldRes_congr _ _ fun kv _ s => ih kv.2 _ s
        · rw [if_neg h1, if_neg h1]
          by_cases h2 : g!"array" ∈ i.type
          · rw [if_pos h2, if_pos h2]
            cases i.items with
            | none => rfl
            | some q => simp only [Option.map_some]; exact ih q _ _
          · rw [if_neg h2, if_neg h2]

theorem walkKeys_gwalk {σ : Type} (sched : Sched) (tick : Nat) (fn : Str → Instance → σ → Res σ) (sc : Schema) (s : σ) :
    walkKeys fold sched tick fn sc s = gwalkSchema (keysNode fold) (fun n m => sched.perm n _ m) tick (onKeys fold fn) sc s := by
  unfold walkKeys gwalkSchema
  rw [foldRes_congr _ _ fun kv _ s => walkInstKeys_gwalk sched fn (kv.2.depth + 1) kv.2 _ s]
  generalize foldRes _ _ _ = r
  cases r with
  | err => rfl
  | panic => rfl
  | ok st =>
    simp only
    cases sc.items with
    | none => rfl
    | some q => simp only; rw [walkInstKeys_gwalk]

/-- **C133**: whichever letter case keys have, `Walk` calls the function exactly once for every instance of the schema as it reads it, each object or
array before what it contains; it succeeds iff all calls succeed and every instance can be read. -/
theorem C133_visits (hap : NamesApart fold instNames) (sched : Sched) (tick : Nat) {sc : Schema} (hn : ∀ m, sc.properties = some m → (m.map Prod.fst).Nodup) :
    ∃ vs done tick', Visits (keysNode fold) sc vs done ∧ ∀ (σ : Type) (fn : Str → Instance → σ → Res σ) (s s' : σ),
      walkKeys fold sched tick fn sc s = .ok (tick', s') ↔ done = true ∧ Calls (fun x => onKeys fold fn (shownPath x.1) x.2) vs s s' := by
  obtain ⟨vs, done, tk, h1, h2⟩ := gwalkSchema_shown (keysNode_shrinks hap) (order := fun n m => sched.perm n _ m)
    (fun n m => sched.isPerm _ _ _) sc tick ⟨hn, fun l q m _ hv => by
      obtain ⟨_, _, _, _, rfl⟩ := keysNode_object hv
      exact (GMap.sorted_ofList _).nodup⟩
  refine ⟨vs, done, tk, h1, fun σ fn s s' => ?_⟩
  rw [walkKeys_gwalk, h2 σ (onKeys fold fn) s, ← foldRes_calls]
  have he : (fun (x : List Seg × P) => onKeys fold fn (shownPath x.1) x.2) = fnShown (onKeys fold fn) g!"$" := by
    funext x s; simp [fnShown, shownPath_eq]
  rw [he]
  cases foldRes (fnShown (onKeys fold fn) g!"$") vs s with
  | ok t => cases done <;> simp [outcome]
  | err => simp [outcome]
  | panic => simp [outcome]

/-- `Walk` gets to its end with a function that always succeeds and only meets instances with one type; then `WalkRaw` gets to its end. -/
def C133_statement : Prop :=
  ∀ (fold : Str → Str) (sched : Sched) (sc : Schema) (r : Nat × Unit), NamesApart fold instNames →
    walkKeys fold sched 0 (fun _ i (_ : Unit) => if i.type ≠ [] ∧ (i.type.filter (· ≠ g!"null")).length ≤ 1 then .ok () else .err) sc () = .ok r →
    walkRawSchema sched 0 (fun _ _ (_ : Unit) => .ok ()) sc () = .ok ()

namespace C133ex
open C132ex Toy
/-- An object with its properties under `Properties`. -/
def sc : Schema := ⟨some [(g!"a", o [(g!"type", s g!"object"), (g!"Properties", o [(g!"b", o [(g!"type", s g!"string")])])])], none⟩

/-- `Walk` visits the object and its property, `WalkRaw` fails. -/
example : (match walkKeys lower Sched.id 0 (fun p _ (l : List Str) => .ok (l ++ [p])) sc [] with | .ok l => l.2 | _ => []) = [g!"$.a", g!"$.a.b"] := by decide +kernel
example : walkRawSchema Sched.id 0 (fun _ _ (_ : Unit) => .ok ()) sc () = .err := by rfl

/-- A type under `Type` has to be an array. -/
example : (match unmarshalInstance lower false (o [(g!"Type", s g!"string")]) with | .ok _ => true | _ => false) = false := by decide +kernel
example : (match unmarshalInstance lower false (o [(g!"Type", a [s g!"string"])]) with | .ok i => i.type | _ => []) = [g!"string"] := by decide +kernel

theorem leaf_spelled (t : P) : ∀ n, SpelledInst lower n (o [(g!"type", t)])
  | 0 => trivial
  | n + 1 => by
    intro m e kv hm
    cases e
    cases List.mem_singleton.1 hm
    dsimp only
    exact ⟨by decide, fun h => absurd h (by decide), fun h => absurd h (by decide), fun h => absurd h (by decide)⟩

/-- The schema of `C31ex` meets the hypotheses of `C133_partial`. -/
theorem spelled : SpelledSchema lower C31ex.sc := by
  refine ⟨fun m e kv hm n => ?_, fun q h => by cases h⟩
  cases e
  simp only [List.mem_cons, List.not_mem_nil, or_false] at hm
  cases n with
  | zero => trivial
  | succ n =>
    rcases hm with rfl | rfl
    · intro m e kv hm
      cases e
      simp only [List.mem_cons, List.not_mem_nil, or_false] at hm
      rcases hm with rfl | rfl
      · exact ⟨by decide, fun h => absurd h (by decide), fun h => absurd h (by decide), fun h => absurd h (by decide)⟩
      · refine ⟨by decide, fun h => absurd h (by decide), fun _ m e x hx => ?_, fun h => absurd h (by decide)⟩
        cases e
        cases List.mem_singleton.1 hx
        exact leaf_spelled _ n
    · intro m e kv hm
      cases e
      simp only [List.mem_cons, List.not_mem_nil, or_false] at hm
      rcases hm with rfl | rfl
      · exact ⟨by decide, fun h => absurd h (by decide), fun h => absurd h (by decide), fun h => absurd h (by decide)⟩
      · exact ⟨by decide, fun h => absurd h (by decide), fun h => absurd h (by decide), fun _ => leaf_spelled _ n⟩

example (sched sched' : Sched) (tick tick' : Nat) := C133_partial sched sched' tick tick' spelled C31ex.one C31ex.namesRaw C31ex.namesInst

theorem names_apart : NamesApart lower instNames := by
  unfold NamesApart
  decide

example (sched : Sched) := C133_visits names_apart sched 0 (sc := sc) fun m e => by cases e; decide

/-- The object of `sc` as `Walk` reads it. -/
def obj : List (Str × P) := [(g!"type", s g!"object"), (g!"Properties", o [(g!"b", o [(g!"type", s g!"string")])])]
theorem obj_props : Stands lower obj g!"properties" g!"Properties" (o [(g!"b", o [(g!"type", s g!"string")])]) :=
  ⟨[(g!"type", s g!"object")], [], rfl, by decide, fun kv hm => by cases List.mem_singleton.1 hm; decide⟩
example {i : Instance} (h : unmarshalInstance lower false (.obj obj) = .ok i) : ∃ ps, i.properties = some ps ∧ i.type = [g!"object"] := by
  obtain ⟨h1, _, _, _, h5, _⟩ := C133_reads names_apart h
  rcases h1 _ _ obj_props with ⟨e, _⟩ | ⟨ps, _, e⟩
  · cases e
  · refine ⟨_, e, (h5 g!"type" _ ⟨[], _, rfl, rfl, fun kv hm => ?_⟩).2⟩
    cases List.mem_singleton.1 hm
    decide
example : (match unmarshalInstance lower false (.obj obj) with | .ok _ => true | _ => false) = true := by decide +kernel
end C133ex

open C133ex C132ex in
/-- Keys in another letter case are seen by `Walk` only. -/
theorem C133_refuted : ¬ C133_statement := by
  intro h
  have := h lower Sched.id sc (2, ()) names_apart (by decide +kernel)
  cases this

end JT
