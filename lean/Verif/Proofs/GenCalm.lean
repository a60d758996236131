import Verif.Spec.GenCalm
import Verif.Proofs.Accept
import Verif.Proofs.Walk
import Verif.Model.Graphql
import Verif.Model.BuildAll
import Verif.Model.Reference
/- Where a panic cannot come from. -/
namespace JT
open Spec

/-! ### Decoding -/

theorem asBool_calm (d : Bool) (o : Option P) : asBool d o ≠ .panic := by
  unfold asBool; split <;> exact fun h => nomatch h

theorem asStrings_calm (o : Option P) : asStrings o ≠ .panic :=
  Res.calm_bind (asList_calm _) fun _ _ => mapRes_calm fun _ _ => asString_calm _

theorem asRawMap_calm (o : Option P) : asRawMap o ≠ .panic := by
  unfold asRawMap; split <;> exact fun h => nomatch h

theorem decodeInst_calm : ∀ (n : Nat) (ap : Bool) (p : P), decodeInst n ap p ≠ .panic
  | 0, _, _ => fun h => nomatch h
  | n + 1, ap, p =>
    have hm : ∀ l, mapRes (decodeInst n false) l ≠ .panic := fun l => mapRes_calm fun x _ => decodeInst_calm n false x
    Res.calm_bind (asStruct_calm _) fun _ _ => Res.calm_bind (asBool_calm _ _) fun _ _ => Res.calm_bind (asList_calm _) fun _ _ => Res.calm_bind (hm _) fun _ _ =>
    Res.calm_bind (asList_calm _) fun _ _ => Res.calm_bind (hm _) fun _ _ => Res.calm_bind (asString_calm _) fun _ _ => Res.calm_bind (asBool_calm _ _) fun _ _ =>
    Res.calm_bind (asString_calm _) fun _ _ => Res.calm_bind (asString_calm _) fun _ _ => Res.calm_bind (asStrings_calm _) fun _ _ =>
    Res.calm_bind (asList_calm _) fun _ _ => Res.calm_bind (hm _) fun _ _ => Res.calm_bind (asRawMap_calm _) fun _ _ => Res.calm_bind (asString_calm _) fun _ _ =>
    Res.calm_bind (asStrings_calm _) fun _ _ => Res.calm_bind (asString_calm _) fun _ _ => Res.calm_bind (asString_calm _) fun _ _ =>
    Res.calm_bind (asStrings_calm _) fun _ _ => Res.calm_pure _

theorem decodeInstance_calm (ap : Bool) (p : P) : decodeInstance ap p ≠ .panic := decodeInst_calm _ _ _

theorem schemaOfDoc_calm (sched : Sched) (ty : Str) (flatten : Bool) (p : P) : schemaOfDoc sched ty flatten p ≠ .panic := Res.calm_map (decodeInstance_calm _ _)

theorem schemaTypes_calm (sched : Sched) (p : P) : schemaTypes sched p ≠ .panic := Res.calm_map (decodeInstance_calm _ _)

/-! ### Walking -/

theorem foldRes_safe {σ β : Type} {f : β → σ → Res σ} (ord : σ → σ → Prop) (hr : ∀ s, ord s s) (ht : ∀ a b c, ord a b → ord b c → ord a c) : ∀ {l : List β} {s : σ},
    (∀ x ∈ l, ∀ s', ord s s' → f x s' ≠ .panic ∧ ∀ s'', f x s' = .ok s'' → ord s' s'') → foldRes f l s ≠ .panic ∧ ∀ s', foldRes f l s = .ok s' → ord s s'
  | [], s, _ => ⟨fun h => (nomatch h), fun s' h => by cases h; exact hr _⟩
  | x :: l, s, h => by
    obtain ⟨h1, h2⟩ := h x (by simp) s (hr s)
    simp only [foldRes]
    rcases hf : f x s with s1 | _ | _
    · have h3 := h2 s1 hf
      obtain ⟨h4, h5⟩ := foldRes_safe ord hr ht (l := l) (s := s1) fun y hy s' hs => h y (by simp [hy]) s' (ht _ _ _ h3 hs)
      exact ⟨h4, fun s' hs => ht _ _ _ h3 (h5 s' hs)⟩
    · exact ⟨fun h => (nomatch h), fun _ h => (nomatch h)⟩
    · exact absurd hf h1

/-- A walk function that does not panic where it is called. -/
structure SafeFn {σ : Type} (fn : Str → Instance → σ → Res σ) (ord : σ → σ → Prop) (pre : Str → σ → Prop) (good : Instance → Prop) (name : Str → Prop) : Prop where
  refl : ∀ s, ord s s
  trans : ∀ a b c, ord a b → ord b c → ord a c
  mono : ∀ p s s', ord s s' → pre p s → pre p s'
  calm : ∀ p i s, pre p s → good i → fn p i s ≠ .panic
  step : ∀ p i s s', pre p s → good i → fn p i s = .ok s' → ord s s' ∧ pre (starPath p) s' ∧ (g!"object" ∈ i.type → ∀ k, name k → pre (prependPath p k) s')

theorem walkInst_safe {σ : Type} {fn : Str → Instance → σ → Res σ} {ord : σ → σ → Prop} {pre : Str → σ → Prop} {good : Instance → Prop} {name : Str → Prop}
    (hs : SafeFn fn ord pre good name) (sched : Sched) : ∀ (n : Nat) {raw : P} {path : Str} {tk : Nat} {s : σ}, pre path s →
      (∀ l q i, At instNode raw l q → decodeInstance false q = .ok i → good i ∧ (g!"object" ∈ i.type → ∀ m, i.properties = some m → ∀ kv ∈ m, name kv.1)) →
      walkInst sched fn n raw path (tk, s) ≠ .panic ∧ ∀ r, walkInst sched fn n raw path (tk, s) = .ok r → ord s r.2
  | 0, _, _, _, _, _, _ => ⟨fun h => (nomatch h), fun _ h => (nomatch h)⟩
  | n + 1, raw, path, tk, s, hp, hg => by
    simp only [walkInst]
    rcases hd : decodeInstance false raw with i | _ | _
    · obtain ⟨hgood, hnames⟩ := hg [] raw i .here hd
      simp only
      have hcalm := hs.calm path i s hp hgood
      have hstep := fun s' => hs.step path i s s' hp hgood
      rcases hf : fn path i s with s1 | _ | _
      · obtain ⟨h1, h2, h3⟩ := hstep s1 hf
        simp only
        by_cases ho : g!"object" ∈ i.type
        · rw [if_pos ho]
          cases hm : i.properties with
          | none => exact ⟨fun h => (nomatch h), fun _ h => (nomatch h)⟩
          | some m =>
            simp only
            have hview : instNode raw = some (.object m) := by unfold instNode; rw [hd]; simp only [if_pos ho, hm]; rfl
            obtain ⟨h4, h5⟩ := foldRes_safe (fun (a b : Nat × σ) => ord a.2 b.2) (fun a => hs.refl a.2) (fun a b c => hs.trans a.2 b.2 c.2)
              (f := fun kv s => walkInst sched fn n kv.2 (prependPath path kv.1) s) (l := sched.perm tk _ m) (s := (tk + 1, s1)) (by
                intro kv hkv s' hs'
                have hmem : kv ∈ m := (sched.isPerm _ _ _).mem_iff.1 hkv
                obtain ⟨t', s2⟩ := s'
                exact walkInst_safe hs sched n (hs.mono _ _ _ hs' (h3 ho kv.1 (hnames ho m hm kv hmem)))
                  fun l q j hq hj => hg (.key kv.1 :: l) q j (.prop hview hmem hq) hj)
            exact ⟨h4, fun r hr => hs.trans _ _ _ h1 (h5 r hr)⟩
        · rw [if_neg ho]
          by_cases ha : g!"array" ∈ i.type
          · rw [if_pos ha]
            cases hi : i.items with
            | none => exact ⟨fun h => (nomatch h), fun _ h => (nomatch h)⟩
            | some items =>
              simp only
              have hview : instNode raw = some (.array items) := by unfold instNode; rw [hd]; simp only [if_neg ho, if_pos ha, hi]; rfl
              obtain ⟨h4, h5⟩ := walkInst_safe hs sched n (raw := items) (path := starPath path) (tk := tk) h2 fun l q j hq hj => hg (.star :: l) q j (.item hview hq) hj
              exact ⟨h4, fun r hr => hs.trans _ _ _ h1 (h5 r hr)⟩
          · rw [if_neg ha]
            exact ⟨fun h => (nomatch h), fun r h => by cases h; exact h1⟩
      · exact ⟨fun h => (nomatch h), fun _ h => (nomatch h)⟩
      · exact absurd hf hcalm
    · exact ⟨fun h => (nomatch h), fun _ h => (nomatch h)⟩
    · exact absurd hd (decodeInstance_calm _ _)

/-- A walk with such a function does not panic. -/
theorem walkSchema_safe {σ : Type} {fn : Str → Instance → σ → Res σ} {ord : σ → σ → Prop} {pre : Str → σ → Prop} {good : Instance → Prop} {name : Str → Prop}
    (hs : SafeFn fn ord pre good name) (sched : Sched) (tick : Nat) {sc : Schema} {s : σ} (hroot : ∀ m, sc.properties = some m → ∀ kv ∈ m, pre (prependPath g!"$" kv.1) s)
    (hitems : sc.items.isSome = true → pre (starPath g!"$") s)
    (hg : ∀ l q i, SchemaAt instNode sc l q → decodeInstance false q = .ok i → good i ∧ (g!"object" ∈ i.type → ∀ m, i.properties = some m → ∀ kv ∈ m, name kv.1)) :
    walkSchema sched tick fn sc s ≠ .panic := by
  unfold walkSchema
  obtain ⟨h4, h5⟩ := foldRes_safe (fun (a b : Nat × σ) => ord a.2 b.2) (fun a => hs.refl a.2) (fun a b c => hs.trans a.2 b.2 c.2)
    (f := fun kv st => walkInst sched fn (kv.2.depth + 1) kv.2 (prependPath g!"$" kv.1) st) (l := sched.perm tick _ (sc.properties.getD [])) (s := (tick + 1, s)) (by
      intro kv hkv s' hs'
      have hmem := (sched.isPerm _ _ _).mem_iff.1 hkv
      obtain ⟨t', s2⟩ := s'
      cases hp : sc.properties with
      | none => rw [hp] at hmem; cases hmem
      | some m =>
        rw [hp] at hmem
        exact walkInst_safe hs sched _ (hs.mono _ _ _ hs' (hroot m hp kv hmem)) fun l q j hq hj => hg (.key kv.1 :: l) q j (.prop hp hmem hq) hj)
  split
  · exact fun h => nomatch h
  · exact absurd ‹_› h4
  · rename_i st hst
    obtain ⟨t, s1⟩ := st
    cases hi : sc.items with
    | none => exact fun h => nomatch h
    | some items =>
      exact (walkInst_safe hs sched _ (hs.mono _ _ _ (h5 _ hst) (hitems (by rw [hi]; rfl))) fun l q j hq hj => hg (.star :: l) q j (.item hi hq) hj).1

/-! ### Paths -/

namespace Gen

/-- The names before the last part of a path. -/
def parentNames (path : Str) : List Str :=
  ((splitC '.' path).dropLast.filter fun s => s ≠ g!"$").map fun s => if hasSuffix s g!"[*]" then s.take (s.length - 3) else s

theorem splitJSONPath_last (path : Str) : splitJSONPath path = parentNames path ∨ ∃ k, splitJSONPath path = parentNames path ++ [k] := by
  unfold splitJSONPath parentNames
  rw [← List.dropLast_append_getLast (splitC_ne_nil '.' path)]
  rw [List.filter_append, List.map_append, List.dropLast_concat]
  by_cases h : (splitC '.' path).getLast (splitC_ne_nil '.' path) = g!"$"
  · left
    rw [h]
    simp
  · right
    rw [List.filter_cons_of_pos (by simpa using h)]
    exact ⟨_, rfl⟩

theorem parentNames_key {path k : Str} (hk : '.' ∉ k) (hne : k ≠ []) (hp : path ≠ []) : parentNames (prependPath path k) = splitJSONPath path := by
  unfold parentNames splitJSONPath prependPath
  rw [if_neg hp, if_neg hne]
  have : path ++ g!"." ++ k = path ++ '.' :: k := by simp
  rw [this, dropLast_splitC hk]

theorem splitC_snoc (c : Char) : ∀ (a b : Str), c ∉ b → (splitC c (a ++ b)).dropLast = (splitC c a).dropLast
  | [], b, h => by
    rw [List.nil_append, splitC_no c b h]
    rfl
  | x :: a, b, h => by
    have ih := splitC_snoc c a b h
    simp only [List.cons_append, splitC]
    have h1 := splitC_ne_nil c a
    have h2 := splitC_ne_nil c (a ++ b)
    split
    · rw [List.dropLast_cons_of_ne_nil h1, List.dropLast_cons_of_ne_nil h2, ih]
    · cases e1 : splitC c a with
      | nil => exact absurd e1 h1
      | cons p ps =>
        cases e2 : splitC c (a ++ b) with
        | nil => exact absurd e2 h2
        | cons r rs =>
          rw [e1, e2] at ih
          cases ps with
          | nil =>
            cases rs with
            | nil => rfl
            | cons => simp at ih
          | cons =>
            cases rs with
            | nil => simp at ih
            | cons => simpa using ih

theorem parentNames_star (path : Str) : parentNames (starPath path) = parentNames path := by
  unfold parentNames starPath
  rw [splitC_snoc '.' path g!"[*]" (by decide)]

/-! ### Inline structs -/

/-- There are objects with fields along these names. -/
def Has : List Str → GMap EField → Prop
  | [], _ => True
  | k :: t, fs => ∃ f fs', GMap.get k fs = some f ∧ f.fields = some fs' ∧ f.jsonType ≠ [] ∧ Has t fs'

theorem Has.front : ∀ {t u : List Str} {fs : GMap EField}, Has (t ++ u) fs → Has t fs
  | [], _, _, _ => trivial
  | _ :: _, _, _, ⟨f, fs', h1, h2, h3, h4⟩ => ⟨f, fs', h1, h2, h3, h4.front⟩

theorem oneType_calm : ∀ (l : List Str) (t : Str), oneType l t ≠ .panic
  | [], _ => fun h => nomatch h
  | x :: l, t => by
    unfold oneType
    split
    · exact oneType_calm l t
    · split
      · exact fun h => nomatch h
      · exact oneType_calm l x

theorem oneType_given : ∀ {l : List Str} {t r : Str}, oneType l t = .ok r → t ≠ [] → r = t
  | [], t, r, h, _ => by cases h; rfl
  | x :: l, t, r, h, ht => by
    unfold oneType at h
    split at h
    · exact oneType_given h ht
    · first | (rw [if_pos ht] at h; cases h) | cases h

theorem oneType_mem : ∀ {l : List Str} {t r x : Str}, oneType l t = .ok r → x ∈ l → x ≠ g!"null" → x ≠ [] → r = x
  | [], _, _, _, _, h, _, _ => nomatch h
  | y :: l, t, r, x, h, hx, h1, h2 => by
    unfold oneType at h
    split at h
    · rename_i hy
      rcases List.mem_cons.1 hx with rfl | hx
      · exact absurd hy h1
      · exact oneType_mem h hx h1 h2
    · split at h
      · cases h
      · rcases List.mem_cons.1 hx with rfl | hx
        · exact oneType_given h h2
        · exact oneType_mem h hx h1 h2

theorem addLeaf_calm (title : Str → Str) (rename : GMap Str) (inst : Instance) (k : Str) (fields : GMap EField) : addLeaf title rename inst k fields ≠ .panic := by
  unfold addLeaf
  have := oneType_calm inst.type []
  split
  · exact fun h => nomatch h
  · exact absurd ‹_› this
  · split
    · exact fun h => nomatch h
    · split <;> exact fun h => nomatch h

theorem finishField_object {inst : Instance} {f : EField} (h : f.jsonType = g!"object") (hs : g!"string" ∉ inst.type) :
    (finishField inst f).fields = some [] ∧ (finishField inst f).jsonType = g!"object" := by
  have hc : ¬ (g!"string" ∈ inst.type ∧ inst.format = g!"date-time") := fun hc => hs hc.1
  have ha : ¬ f.jsonType = g!"array" := by rw [h]; decide
  unfold finishField
  simp only [if_neg hc, if_neg ha, if_pos h]
  exact ⟨trivial, h⟩

theorem addLeaf_object {title : Str → Str} {rename : GMap Str} {inst : Instance} {k : Str} {fields fields' : GMap EField} (ho : g!"object" ∈ inst.type)
    (h : addLeaf title rename inst k fields = .ok fields') : Has [k] fields' := by
  unfold addLeaf at h
  split at h
  · cases h
  · cases h
  · rename_i jt hj
    have hjt : jt = g!"object" := oneType_mem hj ho (by decide) (by decide)
    have hs : g!"string" ∉ inst.type := fun hs => by
      have := oneType_mem hj hs (by decide) (by decide)
      rw [hjt] at this
      exact absurd this (by decide)
    split at h
    · cases h
      obtain ⟨h1, h2⟩ := finishField_object (inst := inst) (f := newField title rename inst k jt) hjt hs
      exact ⟨_, [], GMap.get_set_self .., h1, by rw [h2]; decide, trivial⟩
    · rename_i f _
      split at h
      · cases h
        obtain ⟨h1, h2⟩ := finishField_object (inst := inst) (f := { f with jsonType := jt }) hjt hs
        exact ⟨_, [], GMap.get_set_self .., h1, by rw [h2]; decide, trivial⟩
      · cases h

theorem addLeaf_keeps {title : Str → Str} {rename : GMap Str} {inst : Instance} {k : Str} {fields fields' : GMap EField}
    (h : addLeaf title rename inst k fields = .ok fields') : ∀ {t : List Str}, Has t fields → Has t fields'
  | [], _ => trivial
  | x :: t, ⟨f, fs', h1, h2, h3, h4⟩ => by
    unfold addLeaf at h
    have hset : ∀ v, x ≠ k → Has (x :: t) (GMap.set k v fields) := fun v hne => ⟨f, fs', by rw [GMap.get_set_ne hne]; exact h1, h2, h3, h4⟩
    split at h
    · cases h
    · cases h
    · split at h
      · rename_i hk
        cases h
        exact hset _ (by rintro rfl; rw [h1] at hk; cases hk)
      · rename_i hk
        split at h
        · rename_i hc
          cases h
          refine hset _ ?_
          rintro rfl
          rw [h1] at hk
          cases hk
          exact h3 hc.2
        · cases h

theorem addNil_fails (inst : Instance) : ∀ {t : List Str}, t ≠ [] → ∀ x, addNil inst t ≠ .ok x
  | [], h, _ => absurd rfl h
  | [_], _, _ => by
    simp only [addNil]
    split
    · exact fun h => nomatch h
    · exact fun h => nomatch h
  | _ :: _ :: _, _, _ => fun h => nomatch h

theorem addTree_keeps {title : Str → Str} {rename : GMap Str} {inst : Instance} : ∀ {tree : List Str} {fields fields' : GMap EField},
    addTree title rename inst tree fields = .ok fields' → ∀ {t : List Str}, Has t fields → Has t fields'
  | [], _, _, h, _, ht => by cases h; exact ht
  | [_], _, _, h, _, ht => addLeaf_keeps h ht
  | k :: k' :: tree, fields, fields', h, t, ht => by
    cases t with
    | nil => trivial
    | cons x t =>
      obtain ⟨f, fs', h1, h2, h3, h4⟩ := ht
      have hset : ∀ v, x ≠ k → Has (x :: t) (GMap.set k v fields) := fun v hne => ⟨f, fs', by rw [GMap.get_set_ne hne]; exact h1, h2, h3, h4⟩
      simp only [addTree] at h
      split at h
      · rename_i g hg
        split at h
        · rename_i fs hfs
          obtain ⟨fs2, h5, rfl⟩ := Res.map_eq_ok.1 h
          by_cases hx : x = k
          · subst hx
            rw [h1] at hg
            cases hg
            rw [h2] at hfs
            cases hfs
            exact ⟨_, fs2, GMap.get_set_self .., rfl, h3, addTree_keeps h5 h4⟩
          · exact hset _ hx
        · obtain ⟨y, h5, _⟩ := Res.map_eq_ok.1 h
          exact absurd h5 (addNil_fails inst (by simp) y)
      · rename_i hk
        obtain ⟨fs2, h5, rfl⟩ := Res.map_eq_ok.1 h
        exact hset _ (by rintro rfl; rw [h1] at hk; cases hk)

theorem addTree_calm {title : Str → Str} {rename : GMap Str} {inst : Instance} : ∀ {t u : List Str} {fields : GMap EField}, Has t fields → u.length ≤ 1 →
    addTree title rename inst (t ++ u) fields ≠ .panic ∧
      (g!"object" ∈ inst.type → ∀ fields', addTree title rename inst (t ++ u) fields = .ok fields' → Has (t ++ u) fields')
  | [], [], fields, _, _ => ⟨fun h => (nomatch h), fun _ _ _ => trivial⟩
  | [], [k], fields, _, _ => ⟨addLeaf_calm _ _ _ _ _, fun ho _ h => addLeaf_object ho h⟩
  | [], _ :: _ :: _, _, _, h => absurd h (by simp)
  | [k], [], fields, ⟨f, fs', h1, h2, h3, _⟩, _ => ⟨addLeaf_calm _ _ _ _ _, fun ho _ h => addLeaf_object ho h⟩
  | [k], x :: u, fields, ⟨f, fs', h1, h2, h3, h4⟩, hu => by
    obtain ⟨i1, i2⟩ := addTree_calm (title := title) (rename := rename) (inst := inst) (t := []) (u := x :: u) (fields := fs') trivial hu
    simp only [List.cons_append, List.nil_append, addTree, h1, h2]
    refine ⟨Res.calm_map i1, fun ho fields' h => ?_⟩
    obtain ⟨fs2, h5, rfl⟩ := Res.map_eq_ok.1 h
    exact ⟨_, fs2, GMap.get_set_self .., rfl, h3, i2 ho fs2 h5⟩
  | k :: k' :: t, u, fields, ⟨f, fs', h1, h2, h3, h4⟩, hu => by
    obtain ⟨i1, i2⟩ := addTree_calm (title := title) (rename := rename) (inst := inst) (t := k' :: t) (u := u) (fields := fs') h4 hu
    simp only [List.cons_append, addTree, h1, h2] at i1 i2 ⊢
    refine ⟨Res.calm_map i1, fun ho fields' h => ?_⟩
    obtain ⟨fs2, h5, rfl⟩ := Res.map_eq_ok.1 h
    exact ⟨_, fs2, GMap.get_set_self .., rfl, h3, i2 ho fs2 h5⟩

/-- Inline structs. -/
theorem walkInline_safe (title : Str → Str) (args : Args) : SafeFn (walkInline title args) (fun a b => ∀ t, Has t a → Has t b)
    (fun p fs => p ≠ [] ∧ Has (parentNames p) fs) (fun i => g!"object" ∈ i.type → g!"graphql-hydration" ∉ i.type) (fun k => '.' ∉ k) where
  refl _ _ h := h
  trans _ _ _ h1 h2 t h := h2 t (h1 t h)
  mono p s s' h hp := ⟨hp.1, h _ hp.2⟩
  calm p i s hp hg := by
    unfold walkInline addField
    split
    · exact fun h => nomatch h
    · rcases splitJSONPath_last p with h | ⟨k, h⟩
      · rw [h, ← List.append_nil (parentNames p)]
        exact (addTree_calm hp.2 (by simp)).1
      · rw [h]
        exact (addTree_calm hp.2 (by simp)).1
  step p i s s' hp hg h := by
    unfold walkInline addField at h
    split at h
    · rename_i hh
      cases h
      refine ⟨fun _ h => h, ⟨by simp [starPath], by rw [parentNames_star]; exact hp.2⟩, fun ho => absurd hh (hg ho)⟩
    · have hk := fun t (ht : Has t s) => addTree_keeps h ht
      refine ⟨hk, ⟨by simp [starPath], by rw [parentNames_star]; exact hk _ hp.2⟩, fun ho k hkn => ?_⟩
      by_cases hne : k = []
      · subst hne
        have : prependPath p [] = p := by unfold prependPath; rw [if_neg hp.1, if_pos rfl]
        rw [this]
        exact ⟨hp.1, hk _ hp.2⟩
      · rw [parentNames_key hkn hne hp.1]
        refine ⟨by unfold prependPath; rw [if_neg hp.1, if_neg hne]; simp, ?_⟩
        rcases splitJSONPath_last p with h' | ⟨k', h'⟩
        · rw [h', ← List.append_nil (parentNames p)] at h ⊢
          exact (addTree_calm hp.2 (by simp)).2 ho _ h
        · rw [h'] at h ⊢
          exact (addTree_calm hp.2 (by simp)).2 ho _ h

end Gen

end JT
