import Verif.Spec.Document
import Verif.Props.C34
import Verif.Proofs.Loading
/- C97: reading a schema document. -/
namespace JT.Document
open JT.Spec

/-! ### One key -/

theorem asString_iff {o : Option P} {s : Str} : asString o = .ok s ↔ TextKey o s := by
  constructor
  · intro h
    unfold asString at h
    split at h <;> simp only [Res.ok.injEq, reduceCtorEq] at h <;> subst h <;> constructor
  · intro h; cases h <;> rfl

theorem asBool_iff {d : Bool} {o : Option P} {b : Bool} : asBool d o = .ok b ↔ BoolKey d o b := by
  constructor
  · intro h
    unfold asBool at h
    split at h <;> simp only [Res.ok.injEq, reduceCtorEq] at h <;> subst h <;> constructor
  · intro h; cases h <;> rfl

theorem mapRes_iff {α : Type} {f : P → Res α} {R : P → α → Prop} : ∀ {l : List P} {r : List α}, (∀ p ∈ l, ∀ i, f p = .ok i ↔ R p i) → (mapRes f l = .ok r ↔ All2 R l r)
  | [], r, _ => by
    simp only [mapRes, Res.ok.injEq]
    constructor
    · rintro rfl; exact .nil
    · intro h; cases h; rfl
  | p :: l, r, h => by
    simp only [mapRes, Res.bind_eq_ok, Res.pure_eq_ok]
    constructor
    · rintro ⟨y, hy, ys, hys, rfl⟩
      exact .cons ((h p List.mem_cons_self y).1 hy) ((mapRes_iff fun q hq => h q (List.mem_cons_of_mem _ hq)).1 hys)
    · intro hr
      cases hr with
      | cons ha hl => exact ⟨_, (h p List.mem_cons_self _).2 ha, _, (mapRes_iff fun q hq => h q (List.mem_cons_of_mem _ hq)).2 hl, rfl⟩

theorem list_iff {α : Type} {f : P → Res α} {R : P → α → Prop} {o : Option P} {r : List α} (h : ∀ l, o = some (.arr l) → ∀ p ∈ l, ∀ i, f p = .ok i ↔ R p i) :
    (∃ l, asList o = .ok l ∧ mapRes f l = .ok r) ↔ ListKey R o r := by
  constructor
  · rintro ⟨l, hl, hr⟩
    unfold asList at hl
    split at hl <;> simp only [Res.ok.injEq, reduceCtorEq] at hl <;> subst hl
    · simp only [mapRes, Res.ok.injEq] at hr; subst hr; exact .missing
    · simp only [mapRes, Res.ok.injEq] at hr; subst hr; exact .null
    · exact .list ((mapRes_iff (h _ rfl)).1 hr)
  · intro hk
    cases hk with
    | missing => exact ⟨[], rfl, rfl⟩
    | null => exact ⟨[], rfl, rfl⟩
    | list hl => exact ⟨_, rfl, (mapRes_iff (h _ rfl)).2 hl⟩

theorem asStrings_iff {o : Option P} {r : List Str} : asStrings o = .ok r ↔ TextsKey o r := by
  unfold asStrings
  rw [Res.bind_eq_ok]
  exact list_iff fun _ _ _ _ _ => asString_iff

theorem typeField_iff {o : Option P} {r : List Str} : asStrings (typeField o) = .ok r ↔ TypeKey o r := by
  rw [asStrings_iff]
  constructor
  · intro h
    unfold typeField at h
    split at h
    · cases h with
      | list h =>
        cases h with
        | cons h1 h2 => cases h1; cases h2; exact .one _
    · exact .list h
  · intro h
    cases h with
    | one t => exact .list (.cons (.text t) .nil)
    | list h =>
      unfold typeField
      split
      · cases h
      · exact h

theorem get_ofList_last (k : Str) (l : List (Str × P)) : GMap.get k (GMap.ofList l) = lastOf k l := by
  unfold GMap.ofList lastOf
  rw [show l.foldl (fun m kv => GMap.set kv.1 kv.2 m) [] = l.reverse.foldr (fun kv m => GMap.set kv.1 kv.2 m) [] from (List.foldr_reverse ..).symm]
  induction l.reverse with
  | nil => rfl
  | cons e t ih =>
    simp only [List.foldr_cons, List.find?_cons, GMap.get_set]
    by_cases h : e.1 = k
    · simp [h]
    · have : ¬ k = e.1 := fun h' => h h'.symm
      simp only [h, this, decide_false, if_false, ih]

theorem asRawMap_iff {o : Option P} {m : Option (GMap P)} : asRawMap o = .ok m ↔ MapKey o m := by
  constructor
  · intro h
    unfold asRawMap at h
    split at h <;> simp only [Res.ok.injEq, reduceCtorEq] at h <;> subst h
    · exact .missing
    · exact .null
    · exact .object (GMap.sorted_ofList _) fun k => get_ofList_last k _
  · intro h
    cases h with
    | missing => rfl
    | null => rfl
    | object h1 h2 =>
      simp only [asRawMap, Res.ok.injEq, Option.some.injEq]
      exact GMap.Sorted.ext (GMap.sorted_ofList _) h1 fun k => (get_ofList_last k _).trans (h2 k).symm

theorem asStruct_iff {p q : P} : asStruct p = .ok q → HasKeys p := by
  intro h
  unfold asStruct at h
  split at h <;> simp only [Res.ok.injEq, reduceCtorEq] at h
  · exact .object _
  · exact .null

theorem hasKeys_struct {p : P} (h : HasKeys p) : ∃ q, asStruct p = .ok q := by cases h <;> exact ⟨_, rfl⟩

/-! ### A document -/

theorem decodeInst_iff : ∀ (n : Nat) (a : Bool) (p : P) (i : Instance), p.depth < n → (decodeInst n a p = .ok i ↔ Reads a p i)
  | 0, _, _, _, h => by omega
  | n + 1, a, p, i, hn => by
    have hsub : ∀ k l, p.key k = some (.arr l) → ∀ q ∈ l, ∀ j, decodeInst n false q = .ok j ↔ Reads false q j := fun k l hk q hq j => by
      refine decodeInst_iff n false q j ?_
      have h1 := key_depth hk
      have h2 := depthList_mem hq
      simp only [P.depth] at h1
      omega
    simp only [decodeInst, Res.bind_eq_ok, Res.pure_eq_ok]
    constructor
    · rintro ⟨q, hq, ap, hap, aj, haj, al, hal, nj, hnj, an, han, d, hd, e, he, f, hf, fr, hfr, g, hg, oj, hoj, on, hon, ps, hps, r, hr, rq, hrq, sc, hsc, t, ht, ty, hty, rfl⟩
      have hk := asStruct_key hq
      simp only [hk] at *
      exact ⟨asStruct_iff hq, asBool_iff.1 hap, (list_iff (hsub _)).1 ⟨_, haj, hal⟩, (list_iff (hsub _)).1 ⟨_, hnj, han⟩, asString_iff.1 hd, rfl, asBool_iff.1 he,
        asString_iff.1 hf, asString_iff.1 hfr, asStrings_iff.1 hg, rfl, (list_iff (hsub _)).1 ⟨_, hoj, hon⟩, asRawMap_iff.1 hps, asString_iff.1 hr, asStrings_iff.1 hrq,
        asString_iff.1 hsc, asString_iff.1 ht, typeField_iff.1 hty⟩
    · rintro ⟨hkeys, hap, hal, han, hd, hdef, he, hf, hfr, hg, hit, hon, hps, hr, hrq, hsc, ht, hty⟩
      obtain ⟨q, hq⟩ := hasKeys_struct hkeys
      obtain ⟨aj, haj, hal⟩ := (list_iff (hsub _)).2 hal
      obtain ⟨nj, hnj, han⟩ := (list_iff (hsub _)).2 han
      obtain ⟨oj, hoj, hon⟩ := (list_iff (hsub _)).2 hon
      refine ⟨q, hq, ?_⟩
      simp only [asStruct_key hq]
      refine ⟨_, asBool_iff.2 hap, aj, haj, _, hal, nj, hnj, _, han, _, asString_iff.2 hd, _, asBool_iff.2 he, _, asString_iff.2 hf, _, asString_iff.2 hfr, _, asStrings_iff.2 hg,
        oj, hoj, _, hon, _, asRawMap_iff.2 hps, _, asString_iff.2 hr, _, asStrings_iff.2 hrq, _, asString_iff.2 hsc, _, asString_iff.2 ht, _, typeField_iff.2 hty, ?_⟩
      rw [← hdef, ← hit]
      cases i
      rfl

/-- **C97**: a document is read as a schema exactly if its keys hold what they should, and then key by key. -/
theorem C97 (a : Bool) (p : P) (i : Instance) : decodeInstance a p = .ok i ↔ Reads a p i := decodeInst_iff _ _ _ _ (Nat.lt_succ_self _)

/-- `SchemaTypes` works on exactly these documents. -/
theorem C97_types (sched : Sched) (p : P) : (∃ r, schemaTypes sched p = .ok r) ↔ ∃ i, Reads false p i := by
  constructor
  · rintro ⟨r, h⟩
    obtain ⟨i, hi, _⟩ := Res.map_eq_ok.1 h
    exact ⟨i, (C97 _ _ _).1 hi⟩
  · rintro ⟨i, hi⟩
    exact ⟨_, Res.map_eq_ok.2 ⟨i, (C97 _ _ _).2 hi, rfl⟩⟩

/-! ### Loading -/

/-- Two schemas that differ only in properties, required names and items. -/
def SameRest (s r : Instance) : Prop :=
  r.additionalProperties = s.additionalProperties ∧ r.allOf = s.allOf ∧ r.anyOf = s.anyOf ∧ r.description = s.description ∧ r.definitions = s.definitions ∧ r.embed = s.embed ∧
  r.format = s.format ∧ r.fromRef = s.fromRef ∧ r.graphQLArguments = s.graphQLArguments ∧ r.oneOf = s.oneOf ∧ r.ref = s.ref ∧ r.schema = s.schema ∧ r.target = s.target ∧ r.type = s.type

theorem sameRest_refl (s : Instance) : SameRest s s := ⟨rfl, rfl, rfl, rfl, rfl, rfl, rfl, rfl, rfl, rfl, rfl, rfl, rfl, rfl⟩

theorem mergeAllOf_rest (sched : Sched) (flatten : Bool) : ∀ (es : List Instance) (tick : Nat) (s : Instance), SameRest s (mergeAllOf sched flatten es tick s)
  | [], _, s => sameRest_refl s
  | e :: es, tick, s => by
    rw [mergeAllOf]
    split
    · exact mergeAllOf_rest sched flatten es _ s
    · exact mergeAllOf_rest sched flatten es _ (mergeEntry sched tick s e)

theorem mergeOneOf_rest (sched : Sched) (t : Str) : ∀ (es : List Instance) (tick : Nat) (s : Instance), SameRest s (mergeOneOf sched t es tick s)
  | [], _, s => sameRest_refl s
  | e :: es, tick, s => by
    rw [mergeOneOf]
    split
    · exact mergeOneOf_rest sched t es _ s
    · exact mergeOneOf_rest sched t es _ (mergeEntry sched tick s e)

/-- A document without references loads exactly if its keys hold what they should.  What is loaded says the same as the document, but for the properties, the required names and
the items, which also come from allOf and oneOf entries (C35, C37); `additionalProperties` is true if it is missing. -/
theorem C97_load (sched : Sched) (t : Str) (flatten : Bool) (p : P) :
    ((∃ s, schemaOfDoc sched t flatten p = .ok s) ↔ ∃ i, Reads true p i) ∧
    ∀ s, schemaOfDoc sched t flatten p = .ok s → ∃ i, Reads true p i ∧ SameRest i s := by
  refine ⟨⟨?_, ?_⟩, ?_⟩
  · rintro ⟨s, h⟩
    obtain ⟨i, hi, _⟩ := Res.map_eq_ok.1 h
    exact ⟨i, (C97 _ _ _).1 hi⟩
  · rintro ⟨i, hi⟩
    exact ⟨_, Res.map_eq_ok.2 ⟨i, (C97 _ _ _).2 hi, rfl⟩⟩
  · intro s h
    obtain ⟨i, hi, rfl⟩ := Res.map_eq_ok.1 h
    refine ⟨i, (C97 _ _ _).1 hi, ?_⟩
    have h1 := mergeAllOf_rest sched flatten i.allOf 0 i
    have h2 := mergeOneOf_rest sched t i.oneOf i.allOf.length (mergeAllOf sched flatten i.allOf 0 i)
    unfold SameRest at h1 h2 ⊢
    unfold mergeOf
    simp only [h1, h2, and_self]

/-! ### Writing a schema into the document that refers to it -/

theorem get_app {k : Str} : ∀ {a b : List (Str × P)}, GMap.get k (a ++ b) = (GMap.get k a).or (GMap.get k b)
  | [], _ => rfl
  | e :: a, b => by
    rw [List.cons_append, GMap.get, GMap.get]
    split
    · rfl
    · exact get_app

theorem get_str {k k' s : Str} : GMap.get k (strField k' s) = if k = k' then (if s = [] then none else some (.sc (.str s))) else none := by
  unfold strField
  by_cases h : s = [] <;> simp [h, GMap.get]

theorem get_bool {k k' : Str} {b : Bool} : GMap.get k (boolField k' b) = if k = k' then (if b then some (.sc (.bool true)) else none) else none := by
  unfold boolField
  cases b <;> simp [GMap.get]

theorem get_strs {k k' : Str} {l : List Str} : GMap.get k (strsField k' l) = if k = k' then (if l = [] then none else some (.arr (l.map fun s => .sc (.str s)))) else none := by
  unfold strsField
  by_cases h : l = [] <;> simp [h, GMap.get]

theorem get_raw {k k' : Str} {o : Option P} : GMap.get k (rawField k' o) = if k = k' then o else none := by
  cases o <;> simp [rawField, GMap.get]

theorem get_list {k k' : Str} {l : List P} : GMap.get k (listField k' l) = if k = k' then (if l = [] then none else some (.arr l)) else none := by
  cases l <;> simp [listField, GMap.get]

theorem get_map {k k' : Str} {o : Option (GMap P)} : GMap.get k (mapField k' o) = if k = k' then (match o with
    | none => none
    | some m => if m = [] then none else some (.obj m)) else none := by
  rcases o with _ | _ | _ <;> simp [mapField, GMap.get]

theorem all2_same {l : List Str} : All2 (fun p s => TextKey (some p) s) (l.map fun s => P.sc (.str s)) l := by
  induction l with
  | nil => exact .nil
  | cons s l ih => exact .cons (.text s) ih

theorem text_kept (s : Str) : TextKey (if s = [] then none else some (.sc (.str s))) s := by
  split
  · rename_i h; subst h; exact .missing
  · exact .text s

theorem bool_kept (b : Bool) : BoolKey false (if b then some (.sc (.bool true)) else none) b := by
  cases b
  · exact .missing
  · exact .bool true

theorem texts_kept (l : List Str) : TextsKey (if l = [] then none else some (.arr (l.map fun s => .sc (.str s)))) l := by
  split
  · rename_i h; subst h; exact .missing
  · exact .list all2_same

theorem type_kept (l : List Str) : TypeKey (some (typeList l)) l := by
  cases l with
  | nil => exact .list .null
  | cons t l => exact .list (.list (all2_same (l := t :: l)))

theorem lastOf_sorted {m : GMap P} (h : GMap.Sorted m) (k : Str) : GMap.get k m = lastOf k m := by
  rw [← get_ofList_last, GMap.get_ofList h.nodup]

theorem encodeInsts_eq : ∀ l : List Instance, encodeInsts l = l.map encodeInst
  | [] => rfl
  | i :: l => by rw [encodeInsts, encodeInsts_eq l]; rfl

theorem list_kept {l : List Instance} (h : ∀ i ∈ l, ∃ j, Reads false (encodeInst i) j ∧ SameSchema i j) :
    ∃ r, ListKey (Reads false) (if encodeInsts l = [] then none else some (.arr (encodeInsts l))) r ∧ All2 SameSchema l r := by
  have : ∃ r, All2 (Reads false) (encodeInsts l) r ∧ All2 SameSchema l r := by
    clear * - h
    induction l with
    | nil => exact ⟨[], .nil, .nil⟩
    | cons i l ih =>
      obtain ⟨j, h1, h2⟩ := h i List.mem_cons_self
      obtain ⟨r, h3, h4⟩ := ih fun i hi => h i (List.mem_cons_of_mem _ hi)
      exact ⟨j :: r, .cons h1 h3, .cons h2 h4⟩
  obtain ⟨r, h1, h2⟩ := this
  refine ⟨r, ?_, h2⟩
  split
  · rename_i he
    rw [he] at h1
    cases h1
    exact .missing
  · exact .list h1

theorem kept_of_reads : ∀ (n : Nat) (a : Bool) (p : P) (i : Instance), p.depth < n → Reads a p i → ∃ j, Reads false (encodeInst i) j ∧ SameSchema i j
  | 0, _, _, _, h, _ => by omega
  | n + 1, a, p, i, hn, h => by
    obtain ⟨hkeys, hap, hal, han, hd, hdef, he, hf, hfr, hg, hit, hon, hps, hr, hrq, hsc, ht, hty⟩ := h
    have sub : ∀ {k l}, ListKey (Reads false) (p.key k) l → ∃ r, ListKey (Reads false) (if encodeInsts l = [] then none else some (.arr (encodeInsts l))) r ∧ All2 SameSchema l r := by
      intro k l hl
      refine list_kept fun i hi => ?_
      generalize hk : p.key k = o at hl
      cases hl with
      | missing => cases hi
      | null => cases hi
      | @list l' _ hl =>
        have hsm : ∀ q ∈ l', q.depth < n := fun q hq => by
          have h1 := key_depth hk
          have h2 := depthList_mem hq
          simp only [P.depth] at h1
          omega
        clear hk
        induction hl with
        | nil => cases hi
        | cons h1 h2 ih =>
          rcases List.mem_cons.1 hi with rfl | hi
          · exact kept_of_reads n _ _ _ (hsm _ List.mem_cons_self) h1
          · exact ih hi fun q hq => hsm q (List.mem_cons_of_mem _ hq)
    obtain ⟨al, h1, h2⟩ := sub hal
    obtain ⟨an, h3, h4⟩ := sub han
    obtain ⟨on, h5, h6⟩ := sub hon
    obtain ⟨ap, allOf, anyOf, desc, defs, embed, format, fromRef, gargs, items, oneOf, props, ref, req, schema, target, type⟩ := i
    dsimp only at *
    obtain ⟨ps, hp1, hp2⟩ : ∃ ps, MapKey (match props with
        | none => none
        | some m => if m = [] then none else some (.obj m)) ps ∧ (ps = props ∨ (props = some [] ∧ ps = none)) := by
      generalize p.key g!"properties" = o at hps
      cases hps with
      | missing => exact ⟨none, .missing, .inl rfl⟩
      | null => exact ⟨none, .missing, .inl rfl⟩
      | @object l m hm1 hm2 =>
        by_cases hm : m = []
        · subst hm; exact ⟨none, by simpa using MapKey.missing, .inr ⟨rfl, rfl⟩⟩
        · exact ⟨some m, by simpa [hm] using MapKey.object hm1 (lastOf_sorted hm1), .inl rfl⟩
    refine ⟨⟨ap, al, an, desc, defs, embed, format, fromRef, gargs, items, on, ps, ref, req, schema, target, type⟩, ?_,
      ⟨rfl, h2, h4, rfl, rfl, rfl, rfl, rfl, rfl, rfl, h6, hp2, rfl, rfl, rfl, rfl, rfl⟩⟩
    have none_or : ∀ o : Option P, (none : Option P).or o = o := fun _ => rfl
    have or_none : ∀ o : Option P, o.or none = o := fun o => by cases o <;> rfl
    have hty' : ∀ k, GMap.get k [(g!"type", typeList type)] = if k = g!"type" then some (typeList type) else none := fun k => by
      rw [GMap.get]; rfl
    constructor <;> simp +decide only [encodeInst, P.key, get_app, get_str, get_bool, get_strs, get_raw, get_list, get_map, hty', if_true, if_false, none_or, or_none]
    · exact .object _
    · exact bool_kept _
    · exact h1
    · exact h3
    · exact text_kept _
    · exact bool_kept _
    · exact text_kept _
    · exact text_kept _
    · exact texts_kept _
    · exact h5
    · exact hp1
    · exact text_kept _
    · exact texts_kept _
    · exact text_kept _
    · exact text_kept _
    · exact type_kept _

/-- A schema that is written into a document that refers to it is read there as the same schema, but that empty properties are gone. -/
theorem C97_same {a : Bool} {p : P} {i : Instance} (h : decodeInstance a p = .ok i) : ∃ j, decodeInstance false (encodeInst i) = .ok j ∧ SameSchema i j := by
  obtain ⟨j, h1, h2⟩ := kept_of_reads _ a p i (Nat.lt_succ_self _) ((C97 _ _ _).1 h)
  exact ⟨j, (C97 _ _ _).2 h1, h2⟩

/-- At the top of a file this need not be so: a schema without further properties is read as one that has them, since `false` is not written and missing counts as true. -/
theorem C97_refuted_top : ¬ ∀ (p : P) (i : Instance), decodeInstance true p = .ok i → ∃ j, decodeInstance true (encodeInst i) = .ok j ∧ j.additionalProperties = i.additionalProperties := by
  intro h
  obtain ⟨j, h1, h2⟩ := h (.obj [(g!"additionalProperties", .sc (.bool false))]) { Instance.zero with additionalProperties := false } (by rfl)
  have : decodeInstance true (encodeInst { Instance.zero with additionalProperties := false }) = .ok { Instance.zero with additionalProperties := true } := by rfl
  rw [this] at h1
  injection h1 with h1
  subst h1
  exact absurd h2 (by decide)

/-! ### Examples -/

namespace C97ex
open Toy

/-- A schema with a key of each kind. -/
def doc : P := o [(g!"type", s g!"object"), (g!"description", s g!"d"), (g!"required", a [s g!"b"]), (g!"allOf", a [o [(g!"$ref", s g!"x.json")]]),
  (g!"properties", o [(g!"b", o [(g!"type", s g!"string")]), (g!"a", o [])])]

def read : Instance := { Instance.zero with
  additionalProperties := true, type := [g!"object"], description := g!"d", required := [g!"b"], allOf := [{ Instance.zero with ref := g!"x.json" }],
  properties := some [(g!"a", o []), (g!"b", o [(g!"type", s g!"string")])] }

example : Reads true doc read := (C97 _ _ _).1 (by rfl)

example : ∃ j, decodeInstance false (encodeInst read) = .ok j ∧ SameSchema read j := C97_same (a := true) (p := doc) (by rfl)

/-- A schema whose description is a truth value is refused. -/
example : ¬ ∃ s, schemaOfDoc Sched.id [] true (o [(g!"description", .sc (.bool true))]) = .ok s := by
  rw [(C97_load _ _ _ _).1]
  rintro ⟨i, h⟩
  have := (C97 _ _ _).2 h
  have he : decodeInstance true (o [(g!"description", .sc (.bool true))]) = .err := by rfl
  rw [he] at this
  cases this
end C97ex

end JT.Document
