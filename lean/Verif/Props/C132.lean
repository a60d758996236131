import Verif.Model.TransformKeys
import Verif.Proofs.Build
import Verif.Spec.Decode
import Verif.Spec.Toy
/- C132: how the letter case of keys, null entries and texts in place of transforms are treated when a transform is read. -/
namespace JT
namespace Spec

/-- Two objects as lists of entries that are the same, as far as fields with these names are read, except for the letter case of keys; `R` relates
the values of a field. -/
inductive Respelled (fold : Str → Str) (names : List Str) (R : Str → P → P → Prop) : List (Str × P) → List (Str × P) → Prop where
  | nil : Respelled fold names R [] []
  | field {n k k' : Str} {v v' : P} {m m' : List (Str × P)} : n ∈ names → fold k = fold n → fold k' = fold n → R n v v' → Respelled fold names R m m' →
      Respelled fold names R ((k, v) :: m) ((k', v') :: m')
  | left {k : Str} {v : P} {m m' : List (Str × P)} : (∀ n ∈ names, fold k ≠ fold n) → Respelled fold names R m m' → Respelled fold names R ((k, v) :: m) m'
  | right {k : Str} {v : P} {m m' : List (Str × P)} : (∀ n ∈ names, fold k ≠ fold n) → Respelled fold names R m m' → Respelled fold names R m ((k, v) :: m')

/-- The same value, or two objects that are the same in this sense. -/
def SameObject (fold : Str → Str) (names : List Str) (R : Str → P → P → Prop) (p p' : P) : Prop :=
  p = p' ∨ ∃ m m', p = .obj m ∧ p' = .obj m' ∧ Respelled fold names R m m'

/-- The same value, or two lists of related values. -/
def SameList (R : P → P → Prop) (p p' : P) : Prop := p = p' ∨ ∃ l l', p = .arr l ∧ p' = .arr l' ∧ Each R l l'

/-- Operations: the arguments and all values are the same. -/
def SameOp (fold : Str → Str) : P → P → Prop := SameObject fold [g!"type", g!"args"] fun _ v v' => v = v'

/-- Instructions. -/
def SameInstr (fold : Str → Str) : P → P → Prop :=
  SameObject fold [g!"jsonPath", g!"xmlPath", g!"operations"] fun n v v' => if n = g!"operations" then SameList (SameOp fold) v v' else v = v'

/-- Transforms. -/
def SameTransform (fold : Str → Str) : P → P → Prop :=
  SameObject fold [g!"from", g!"method", g!"methodOptions"] fun n v v' =>
    if n = g!"from" then SameList (SameInstr fold) v v'
    else if n = g!"methodOptions" then SameObject fold [g!"concatenateDelimiter"] (fun _ v v' => v = v') v v'
    else v = v'

/-- The keys of an object that stand for a field are spelled as the field is; `R` says the same for the values. -/
def SpelledObject (fold : Str → Str) (names : List Str) (R : Str → P → Prop) (p : P) : Prop :=
  ∀ m, p = .obj m → ∀ kv ∈ m, (∀ n ∈ names, fold kv.1 = fold n → kv.1 = n) ∧ R kv.1 kv.2

/-- Operations with their keys as documented. -/
def SpelledOp (fold : Str → Str) : P → Prop := SpelledObject fold [g!"type", g!"args"] fun _ _ => True

/-- Instructions with their keys as documented. -/
def SpelledInstr (fold : Str → Str) : P → Prop :=
  SpelledObject fold [g!"jsonPath", g!"xmlPath", g!"operations"] fun n v => n = g!"operations" → ∀ l, v = .arr l → ∀ o ∈ l, SpelledOp fold o

/-- Transforms with their keys as documented. -/
def SpelledTransform (fold : Str → Str) : P → Prop :=
  SpelledObject fold [g!"from", g!"method", g!"methodOptions"] fun n v =>
    (n = g!"from" → ∀ l, v = .arr l → ∀ i ∈ l, SpelledInstr fold i) ∧
    (n = g!"methodOptions" → SpelledObject fold [g!"concatenateDelimiter"] (fun _ _ => True) v)

/-- An entry of the instructions is null. -/
def HasNull (p : P) : Prop := ∃ l, p.key g!"from" = some (.arr l) ∧ P.sc .nil ∈ l

/-- The names of the fields differ in more than letter case. -/
structure FoldApart (fold : Str → Str) : Prop where
  op : fold g!"type" ≠ fold g!"args"
  json_xml : fold g!"jsonPath" ≠ fold g!"xmlPath"
  json_ops : fold g!"jsonPath" ≠ fold g!"operations"
  xml_ops : fold g!"xmlPath" ≠ fold g!"operations"
  from_method : fold g!"from" ≠ fold g!"method"
  from_opts : fold g!"from" ≠ fold g!"methodOptions"
  method_opts : fold g!"method" ≠ fold g!"methodOptions"
end Spec
open Spec

variable {fold : Str → Str} {lib : Lib}

/-- Names that are apart. -/
def NamesApart (fold : Str → Str) (names : List Str) : Prop := ∀ a ∈ names, ∀ b ∈ names, fold a = fold b → a = b

theorem fieldKey_some {names : List Str} {k n : Str} (hap : NamesApart fold names) (hn : n ∈ names) (h : fold k = fold n) : fieldKey fold names k = some n := by
  unfold fieldKey
  split
  · rename_i hk; rw [hap k hk n hn h]
  · cases hf : names.find? (fun a => decide (fold a = fold k)) with
    | none => exact absurd h.symm (by simpa using List.find?_eq_none.1 hf n hn)
    | some a =>
      have h1 := List.find?_some hf
      simp only [decide_eq_true_eq] at h1
      rw [hap a (List.mem_of_find?_eq_some hf) n hn (h1.trans h)]

theorem fieldKey_none {names : List Str} {k : Str} (h : ∀ n ∈ names, fold k ≠ fold n) : fieldKey fold names k = none := by
  unfold fieldKey
  rw [if_neg fun hk => h k hk rfl, List.find?_eq_none]
  intro n hn
  simpa using fun e : fold n = fold k => h n hn e.symm

/-- Entries with the same keys and related values. -/
theorem fields_each {names : List Str} {R : Str → P → P → Prop} (hap : NamesApart fold names) {m m' : List (Str × P)} (h : Respelled fold names R m m') :
    Each (fun a b => a.1 = b.1 ∧ R a.1 a.2 b.2) (fieldsOf fold names m) (fieldsOf fold names m') := by
  induction h with
  | nil => exact .nil
  | field hn h1 h2 hr _ ih =>
    unfold fieldsOf at ih ⊢
    rw [List.filterMap_cons, List.filterMap_cons]
    simp only [fieldKey_some hap hn h1, fieldKey_some hap hn h2, Option.map_some]
    exact .cons ⟨rfl, hr⟩ ih
  | left hk _ ih =>
    unfold fieldsOf at ih ⊢
    rw [List.filterMap_cons]
    simpa only [fieldKey_none hk, Option.map_none] using ih
  | right hk _ ih =>
    unfold fieldsOf at ih ⊢
    rw [List.filterMap_cons (a := (_, _))]
    simpa only [fieldKey_none hk, Option.map_none] using ih

theorem get_each {R : Str → P → P → Prop} (k : Str) {l l' : List (Str × P)} (h : Each (fun a b => a.1 = b.1 ∧ R a.1 a.2 b.2) l l') :
    (GMap.get k l = none ∧ GMap.get k l' = none) ∨ ∃ v v', GMap.get k l = some v ∧ GMap.get k l' = some v' ∧ R k v v' := by
  induction h with
  | nil => exact .inl ⟨rfl, rfl⟩
  | @cons a b as bs hab _ ih =>
    obtain ⟨ka, va⟩ := a
    obtain ⟨kb, vb⟩ := b
    obtain ⟨rfl, hr⟩ := hab
    simp only [GMap.get]
    by_cases e : k = ka
    · subst e
      exact .inr ⟨va, vb, by simp, by simp, hr⟩
    · simp only [e, if_false]
      exact ih

/-- What a struct is read from, for related documents. -/
theorem asFields_same {names : List Str} {R : Str → P → P → Prop} (hrefl : ∀ n v, R n v v) (hap : NamesApart fold names) {p p' : P} (h : SameObject fold names R p p') :
    (asFields fold names p = .err ∧ asFields fold names p' = .err) ∨ ∃ q q', asFields fold names p = .ok q ∧ asFields fold names p' = .ok q' ∧
      ∀ k, (q.key k = none ∧ q'.key k = none) ∨ ∃ v v', q.key k = some v ∧ q'.key k = some v' ∧ R k v v' := by
  rcases h with rfl | ⟨m, m', rfl, rfl, h⟩
  · cases hq : asFields fold names p with
    | ok q =>
      refine .inr ⟨q, q, rfl, rfl, fun k => ?_⟩
      cases q.key k with
      | none => exact .inl ⟨rfl, rfl⟩
      | some v => exact .inr ⟨v, v, rfl, rfl, hrefl k v⟩
    | err => exact .inl ⟨rfl, rfl⟩
    | panic => unfold asFields at hq; split at hq <;> cases hq
  · exact .inr ⟨_, _, rfl, rfl, fun k => get_each k (fields_each hap h)⟩

theorem key_eq {q q' : P} {k : Str} {R : P → P → Prop} (h : (q.key k = none ∧ q'.key k = none) ∨ ∃ v v', q.key k = some v ∧ q'.key k = some v' ∧ R v v')
    (he : ∀ {v v'}, R v v' → v = v') : q.key k = q'.key k := by
  rcases h with ⟨h1, h2⟩ | ⟨v, v', h1, h2, hr⟩
  · rw [h1, h2]
  · rw [h1, h2, he hr]

theorem mapRes_same {α : Type} {R : P → P → Prop} {f : P → Res α} (hf : ∀ {p p'}, R p p' → f p = f p') {l l' : List P} (h : Each R l l') : mapRes f l = mapRes f l' := by
  induction h with
  | nil => rfl
  | cons h _ ih => simp only [mapRes, hf h, ih]

/-- Lists of related values are read alike. -/
theorem list_same {α : Type} {R : P → P → Prop} {f : P → Res α} (hf : ∀ {p p'}, R p p' → f p = f p') {q q' : P} {k : Str}
    (h : (q.key k = none ∧ q'.key k = none) ∨ ∃ v v', q.key k = some v ∧ q'.key k = some v' ∧ SameList R v v') :
    (asList (q.key k) >>= mapRes f) = (asList (q'.key k) >>= mapRes f) := by
  rcases h with ⟨h1, h2⟩ | ⟨v, v', h1, h2, hr⟩
  · rw [h1, h2]
  · rw [h1, h2]
    rcases hr with rfl | ⟨l, l', rfl, rfl, h⟩
    · rfl
    · exact mapRes_same (R := R) (f := f) hf h

theorem apart_one (a : Str) : NamesApart fold [a] := by
  intro x hx y hy _
  rw [List.mem_singleton.1 hx, List.mem_singleton.1 hy]

theorem apart_two {a b : Str} (h : fold a ≠ fold b) : NamesApart fold [a, b] := by
  intro x hx y hy e
  simp only [List.mem_cons, List.not_mem_nil, or_false] at hx hy
  rcases hx with rfl | rfl <;> rcases hy with rfl | rfl <;> first | rfl | exact absurd e h | exact absurd e.symm h

theorem apart_three {a b c : Str} (h1 : fold a ≠ fold b) (h2 : fold a ≠ fold c) (h3 : fold b ≠ fold c) : NamesApart fold [a, b, c] := by
  intro x hx y hy e
  simp only [List.mem_cons, List.not_mem_nil, or_false] at hx hy
  rcases hx with rfl | rfl | rfl <;> rcases hy with rfl | rfl | rfl <;>
    first | rfl | exact absurd e h1 | exact absurd e.symm h1 | exact absurd e h2 | exact absurd e.symm h2 | exact absurd e h3 | exact absurd e.symm h3

theorem op_same (hf : FoldApart fold) {p p' : P} (h : SameOp fold p p') : unmarshalOp fold lib p = unmarshalOp fold lib p' := by
  unfold unmarshalOp
  rcases asFields_same (fun _ _ => rfl) (apart_two hf.op) h with ⟨h1, h2⟩ | ⟨q, q', h1, h2, hk⟩
  · rw [h1, h2]
  · rw [h1, h2]
    show (asString (q.key _) >>= _) = (asString (q'.key _) >>= _)
    rw [key_eq (hk _) id, key_eq (hk g!"args") id]

theorem instr_same (hf : FoldApart fold) {p p' : P} (h : SameInstr fold p p') : unmarshalInstr fold lib p = unmarshalInstr fold lib p' := by
  rcases h with rfl | h
  · rfl
  have hs := asFields_same (fold := fold) (names := [g!"jsonPath", g!"xmlPath", g!"operations"]) (R := fun n v v' => if n = g!"operations" then SameList (SameOp fold) v v' else v = v')
    (fun n v => by split; exacts [.inl rfl, rfl]) (apart_three hf.json_xml hf.json_ops hf.xml_ops) (.inr h)
  obtain ⟨m, m', rfl, rfl, h⟩ := h
  unfold unmarshalInstr
  dsimp only
  rcases hs with ⟨h1, h2⟩ | ⟨q, q', h1, h2, hk⟩
  · rw [h1, h2]
  · rw [h1, h2]
    show (asString (q.key _) >>= _) = (asString (q'.key _) >>= _)
    have e1 : q.key g!"jsonPath" = q'.key g!"jsonPath" := key_eq (hk _) fun h => by rwa [if_neg (by decide)] at h
    have e2 : q.key g!"xmlPath" = q'.key g!"xmlPath" := key_eq (hk _) fun h => by rwa [if_neg (by decide)] at h
    have e3 := list_same (f := unmarshalOp fold lib) (R := SameOp fold) (op_same hf) (by simpa using hk g!"operations")
    rw [e1, e2]
    have assoc : ∀ {β : Type} (x : Res (List P)) (g : List Op → Res β), (do let opsJ ← x; let ops ← mapRes (unmarshalOp fold lib) opsJ; g ops) = (x >>= mapRes (unmarshalOp fold lib)) >>= g := by
      intro β x g
      cases x <;> rfl
    simp only [assoc, e3]

theorem transform_same (hf : FoldApart fold) {p p' : P} (h : SameTransform fold p p') : unmarshalInstrs fold lib p = unmarshalInstrs fold lib p' := by
  unfold unmarshalInstrs
  have hs := asFields_same (fold := fold) (names := [g!"from", g!"method", g!"methodOptions"]) (R := fun n v v' =>
      if n = g!"from" then SameList (SameInstr fold) v v'
      else if n = g!"methodOptions" then SameObject fold [g!"concatenateDelimiter"] (fun _ v v' => v = v') v v'
      else v = v')
    (fun n v => by split; exacts [.inl rfl, by split; exacts [.inl rfl, rfl]]) (apart_three hf.from_method hf.from_opts hf.method_opts) h
  rcases hs with ⟨h1, h2⟩ | ⟨q, q', h1, h2, hk⟩
  · rw [h1, h2]
  · rw [h1, h2]
    have e1 : q.key g!"method" = q'.key g!"method" := key_eq (hk _) fun h => by rwa [if_neg (by decide), if_neg (by decide)] at h
    have e2 := list_same (f := unmarshalInstr fold lib) (R := SameInstr fold) (instr_same hf) (by simpa using hk g!"from")
    have e3 : SameObject fold [g!"concatenateDelimiter"] (fun _ v v' => v = v') ((q.key g!"methodOptions").getD (.sc .nil)) ((q'.key g!"methodOptions").getD (.sc .nil)) := by
      rcases hk g!"methodOptions" with ⟨h1, h2⟩ | ⟨v, v', h1, h2, hr⟩
      · rw [h1, h2]; exact .inl rfl
      · rw [h1, h2]
        rwa [if_neg (by decide), if_pos rfl] at hr
    have assoc : ∀ {β : Type} (x : Res (List P)) (g : List (Option Instr) → Res β),
        (do let fromJ ← x; let fr ← mapRes (unmarshalInstr fold lib) fromJ; g fr) = (x >>= mapRes (unmarshalInstr fold lib)) >>= g := by
      intro β x g
      cases x <;> rfl
    have okb : ∀ {α β : Type} (a : α) (f : α → Res β), (Res.ok a >>= f) = f a := fun _ _ => rfl
    simp only [okb, assoc, e2, e1]
    rcases asFields_same (fun _ _ => rfl) (apart_one _) e3 with ⟨h1, h2⟩ | ⟨o, o', h1, h2, ho⟩
    · rw [h1, h2]
    · rw [h1, h2]
      simp only [okb, key_eq (ho g!"concatenateDelimiter") id]

/-- **C132**: documents that differ in the letter case of the keys that transforms, instructions, operations and method options have, or in keys that these
do not have, are read alike. -/
theorem C132 (hf : FoldApart fold) {raw raw' : P} {ident : Str} {p p' : P} (h : (raw.key g!"transform").bind (P.key ident) = some p)
    (h' : (raw'.key g!"transform").bind (P.key ident) = some p') (hs : SameTransform fold p p') (path : Str) (kind : Kind) :
    extractGo fold lib raw ident path kind = extractGo fold lib raw' ident path kind := by
  rcases hs with rfl | ⟨m, m', rfl, rfl, hr⟩
  · unfold extractGo
    rw [h, h']
  · unfold extractGo
    rw [h, h']
    dsimp only
    rw [transform_same hf (.inr ⟨m, m', rfl, rfl, hr⟩)]

theorem get_fields {names : List Str} {n : Str} (hn : n ∈ names) : ∀ {m : List (Str × P)}, (∀ kv ∈ m, ∀ n ∈ names, fold kv.1 = fold n → kv.1 = n) →
    GMap.get n (fieldsOf fold names m) = GMap.get n m
  | [], _ => rfl
  | (k, v) :: m, h => by
    have ih := get_fields hn (m := m) fun kv hm => h kv (List.mem_cons_of_mem _ hm)
    have hk := h (k, v) (List.mem_cons_self ..)
    unfold fieldsOf at ih ⊢
    rw [List.filterMap_cons]
    cases hf : fieldKey fold names k with
    | none =>
      have hne : n ≠ k := by
        rintro rfl
        unfold fieldKey at hf
        rw [if_pos hn] at hf
        cases hf
      simp only [Option.map_none, ih, GMap.get, if_neg hne]
    | some a =>
      have ha : a = k := by
        unfold fieldKey at hf
        split at hf
        · exact (Option.some.inj hf).symm
        · have h1 := List.find?_some hf
          simp only [decide_eq_true_eq] at h1
          exact (hk a (List.mem_of_find?_eq_some hf) h1.symm).symm
      subst ha
      simp only [Option.map_some, GMap.get, ih]

/-- Keys that are spelled as the fields are read as in `Model/Build`. -/
theorem asFields_spelled {names : List Str} {R : Str → P → Prop} {p : P} (h : SpelledObject fold names R p) :
    (asFields fold names p = .err ∧ asStruct p = .err) ∨ ∃ q q', asFields fold names p = .ok q ∧ asStruct p = .ok q' ∧
      (∀ n ∈ names, q.key n = q'.key n) ∧ ∀ n v, q'.key n = some v → R n v := by
  cases p with
  | obj m => exact .inr ⟨_, _, rfl, rfl, fun n hn => get_fields hn fun kv hm => (h m rfl kv hm).1, fun n v hv => (h m rfl _ (GMap.get_some_mem hv)).2⟩
  | arr l => exact .inl ⟨rfl, rfl⟩
  | sc s =>
    cases s with
    | nil => exact .inr ⟨_, _, rfl, rfl, fun _ _ => rfl, fun n v hv => by cases hv⟩
    | _ => exact .inl ⟨rfl, rfl⟩

theorem ok_then {α β : Type} (a : α) (f : α → Res β) : (Res.ok a >>= f) = f a := rfl
theorem err_then {α β : Type} (f : α → Res β) : ((Res.err : Res α) >>= f) = .err := rfl
theorem panic_then {α β : Type} (f : α → Res β) : ((Res.panic : Res α) >>= f) = .panic := rfl

theorem op_spelled {p : P} (h : SpelledOp fold p) : unmarshalOp fold lib p = parseOp lib p := by
  unfold unmarshalOp parseOp
  rcases asFields_spelled h with ⟨h1, h2⟩ | ⟨q, q', h1, h2, hk, _⟩
  · rw [h1, h2]; rfl
  · rw [h1, h2]
    simp only [ok_then, hk g!"type" (by simp), hk g!"args" (by simp)]
    rfl

theorem mapRes_eq {α β : Type} {f g : α → Res β} : ∀ {l : List α}, (∀ x ∈ l, f x = g x) → mapRes f l = mapRes g l
  | [], _ => rfl
  | x :: l, h => by simp only [mapRes, h x (List.mem_cons_self ..), mapRes_eq fun y hy => h y (List.mem_cons_of_mem _ hy)]

theorem asList_entries {o : Option P} {l : List P} (h : asList o = .ok l) : l = [] ∨ o = some (.arr l) := by
  unfold asList at h
  split at h <;> cases h
  · exact .inl rfl
  · exact .inl rfl
  · exact .inr rfl

theorem instr_spelled {p : P} (h : SpelledInstr fold p) (hn : p ≠ .sc .nil) : unmarshalInstr fold lib p = (parseInstr lib p).map some := by
  have e1 : unmarshalInstr fold lib p = (do
    let p ← asFields fold [g!"jsonPath", g!"xmlPath", g!"operations"] p
    let jp ← asString (p.key g!"jsonPath")
    let xp ← asString (p.key g!"xmlPath")
    let opsJ ← asList (p.key g!"operations")
    let ops ← mapRes (unmarshalOp fold lib) opsJ
    return some ⟨jp, xp, ops⟩) := by
    unfold unmarshalInstr
    split
    · exact absurd rfl hn
    · rfl
  have e2 : parseInstr lib p = (do
    let p ← asStruct p
    let jp ← asString (p.key g!"jsonPath")
    let xp ← asString (p.key g!"xmlPath")
    let opsJ ← asList (p.key g!"operations")
    let ops ← mapRes (parseOp lib) opsJ
    return ⟨jp, xp, ops⟩) := by
    unfold parseInstr
    split
    · exact absurd rfl hn
    · rfl
  rw [e1, e2]
  rcases asFields_spelled h with ⟨h1, h2⟩ | ⟨q, q', h1, h2, hk, hr⟩
  · rw [h1, h2]; rfl
  · rw [h1, h2]
    simp only [ok_then, hk g!"jsonPath" (by simp), hk g!"xmlPath" (by simp), hk g!"operations" (by simp)]
    cases asString (q'.key g!"jsonPath") with
    | err => rfl
    | panic => rfl
    | ok jp =>
      cases asString (q'.key g!"xmlPath") with
      | err => rfl
      | panic => rfl
      | ok xp =>
        simp only [ok_then]
        cases hl : asList (q'.key g!"operations") with
        | err => rfl
        | panic => rfl
        | ok l =>
          have : mapRes (unmarshalOp fold lib) l = mapRes (parseOp lib) l := by
            refine mapRes_eq fun o ho => op_spelled ?_
            rcases asList_entries hl with rfl | hq
            · cases ho
            · exact hr _ _ hq rfl l rfl o ho
          simp only [ok_then, this]
          cases mapRes (parseOp lib) l <;> rfl

theorem instrs_spelled : ∀ {l : List P}, (∀ i ∈ l, SpelledInstr fold i) → P.sc .nil ∉ l →
    mapRes (unmarshalInstr fold lib) l = (mapRes (parseInstr lib) l).map fun fr => fr.map some
  | [], _, _ => rfl
  | i :: l, h, hn => by
    have ih := instrs_spelled (l := l) (fun j hj => h j (List.mem_cons_of_mem _ hj)) fun hm => hn (List.mem_cons_of_mem _ hm)
    have hi := instr_spelled (lib := lib) (h i (List.mem_cons_self ..)) fun e => hn (e ▸ List.mem_cons_self ..)
    simp only [mapRes, hi, ih]
    cases parseInstr lib i with
    | err => rfl
    | panic => rfl
    | ok a => cases mapRes (parseInstr lib) l <;> rfl

theorem followed_some : ∀ fr : List Instr, followed (fr.map some) = .ok fr
  | [] => rfl
  | i :: fr => by simp only [List.map_cons, followed, followed_some fr]; rfl

theorem followed_none : ∀ {l : List (Option Instr)}, none ∈ l → followed l = .panic
  | none :: _, _ => rfl
  | some i :: l, h => by
    simp only [followed, followed_none (l := l) (by simpa using h)]
    rfl

theorem mapRes_reads {α β : Type} {f : α → Res β} : ∀ {l : List α} {r : List β}, mapRes f l = .ok r → ∀ x ∈ l, ∃ y ∈ r, f x = .ok y
  | x :: l, r, h, z, hz => by
    rw [mapRes, Res.bind_eq_ok] at h
    obtain ⟨y, hy, h⟩ := h
    rw [Res.bind_eq_ok] at h
    obtain ⟨ys, hys, h⟩ := h
    cases h
    rcases List.mem_cons.1 hz with rfl | hz
    · exact ⟨y, List.mem_cons_self .., hy⟩
    · obtain ⟨y', h1, h2⟩ := mapRes_reads hys z hz
      exact ⟨y', List.mem_cons_of_mem _ h1, h2⟩

/-- Without null entries. -/
theorem parse_spelled {p : P} (h : SpelledTransform fold p) (hn : ¬ HasNull p) :
    unmarshalInstrs fold lib p = (parseInstrs lib p).map fun t => (t.from.map some, t.method, t.delim) := by
  unfold unmarshalInstrs parseInstrs
  rcases asFields_spelled h with ⟨h1, h2⟩ | ⟨q, q', h1, h2, hk, hr⟩
  · rw [h1, h2]; rfl
  · rw [h1, h2]
    have hq' : ∀ k v, q'.key k = some v → p.key k = some v := by
      intro k v hv
      unfold asStruct at h2
      split at h2 <;> cases h2
      · exact hv
      · cases hv
    simp only [ok_then, hk g!"from" (by simp), hk g!"method" (by simp), hk g!"methodOptions" (by simp)]
    cases hl : asList (q'.key g!"from") with
    | err => rfl
    | panic => rfl
    | ok l =>
      have hm : mapRes (unmarshalInstr fold lib) l = (mapRes (parseInstr lib) l).map fun fr => fr.map some := by
        rcases asList_entries hl with rfl | hq
        · rfl
        · exact instrs_spelled ((hr _ _ hq).1 rfl l rfl) fun hm => hn ⟨l, hq' _ _ hq, hm⟩
      simp only [ok_then, hm]
      cases mapRes (parseInstr lib) l with
      | err => rfl
      | panic => rfl
      | ok fr =>
        have e : ((Res.ok fr).map fun fr => fr.map some) = Res.ok (fr.map some) := rfl
        simp only [ok_then, e]
        cases asString (q'.key g!"method") with
        | err => rfl
        | panic => rfl
        | ok ms =>
          simp only [ok_then]
          have hopt : SpelledObject fold [g!"concatenateDelimiter"] (fun _ _ => True) ((q'.key g!"methodOptions").getD (.sc .nil)) := by
            cases ho : q'.key g!"methodOptions" with
            | none => intro m e; cases e
            | some v => exact (hr _ _ ho).2 rfl
          rcases asFields_spelled hopt with ⟨h1, h2⟩ | ⟨o, o', h1, h2, ho, _⟩
          · rw [h1, h2]; rfl
          · rw [h1, h2]
            simp only [ok_then, ho g!"concatenateDelimiter" (by simp)]
            cases asString (o'.key g!"concatenateDelimiter") with
            | err => rfl
            | panic => rfl
            | ok d =>
              simp only [ok_then]
              cases parseMethod ms <;> rfl

/-- With a null entry nothing is read. -/
theorem parse_null {p : P} (hn : HasNull p) : ∀ t, parseInstrs lib p ≠ .ok t := by
  intro t ht
  obtain ⟨l, hl, hm⟩ := hn
  unfold parseInstrs at ht
  rw [Res.bind_eq_ok] at ht
  obtain ⟨q, hq, ht⟩ := ht
  have hp : q = p := by
    unfold asStruct at hq
    split at hq <;> cases hq
    · rfl
    · cases hl
  subst hp
  rw [Res.bind_eq_ok] at ht
  obtain ⟨l', hl', ht⟩ := ht
  rw [hl] at hl'
  cases hl'
  rw [Res.bind_eq_ok] at ht
  obtain ⟨fr, hfr, _⟩ := ht
  obtain ⟨_, _, h⟩ := mapRes_reads hfr _ hm
  cases h

theorem go_null {p : P} (h : SpelledTransform fold p) (hn : HasNull p) {l : List (Option Instr)} {m : Method} {d : Str} (hr : unmarshalInstrs fold lib p = .ok (l, m, d)) :
    none ∈ l := by
  obtain ⟨fr, hl, hm⟩ := hn
  unfold unmarshalInstrs at hr
  rw [Res.bind_eq_ok] at hr
  obtain ⟨q, hq, hr⟩ := hr
  rcases asFields_spelled h with ⟨h1, _⟩ | ⟨q1, q', h1, h2, hk, _⟩
  · rw [h1] at hq; cases hq
  · rw [h1] at hq
    cases hq
    have hp : q' = p := by
      unfold asStruct at h2
      split at h2 <;> cases h2
      · rfl
      · cases hl
    subst hp
    rw [Res.bind_eq_ok] at hr
    obtain ⟨l', hl', hr⟩ := hr
    rw [hk g!"from" (by simp), hl] at hl'
    cases hl'
    rw [Res.bind_eq_ok] at hr
    obtain ⟨ptrs, hptrs, hr⟩ := hr
    obtain ⟨y, hy, e⟩ := mapRes_reads hptrs _ hm
    cases e
    simp only [Res.bind_eq_ok] at hr
    obtain ⟨_, _, _, _, _, _, _, _, hr⟩ := hr
    cases hr
    exact hy

/-- The paths of the instructions with `@` replaced. -/
def placed (path : Str) (kind : Kind) (t : Instrs) : Instrs :=
  replaceJSONPathPrefix g!"@[" (parentPathOf kind path ++ g!"[") (replaceJSONPathPrefix g!"@." (parentPathOf kind path ++ g!".") t)

theorem go_eq {raw p : P} {ident path : Str} {kind : Kind} (ht : (raw.key g!"transform").bind (P.key ident) = some p) (hnot : ∀ s, p ≠ .sc (.str s)) :
    extractGo fold lib raw ident path kind =
      (unmarshalInstrs fold lib p >>= fun x => followed x.1 >>= fun fr => .ok (some (placed path kind ⟨fr, x.2.1, x.2.2⟩))) := by
  unfold extractGo
  rw [ht]
  cases p with
  | sc s => cases s with
    | str t => exact absurd rfl (hnot t)
    | _ => rfl
  | _ => rfl

theorem build_eq {raw p : P} {ident path : Str} {kind : Kind} (ht : (raw.key g!"transform").bind (P.key ident) = some p) (hnot : ∀ s, p ≠ .sc (.str s)) :
    extractInstrs lib raw ident path kind = (parseInstrs lib p >>= fun t => .ok (some (placed path kind t))) := by
  unfold extractInstrs
  rw [ht]
  cases p with
  | sc s => cases s with
    | str t => exact absurd rfl (hnot t)
    | _ => rfl
  | _ => rfl

/-- **C132**: for documents whose keys are spelled as documented (and that are no texts), reading a transform is what `Model/Build` says: it gives the
same instructions, and fails in the same way unless an entry of the instructions is null. -/
theorem C132_model {raw : P} {ident : Str} (path : Str) (kind : Kind)
    (h : ∀ p, (raw.key g!"transform").bind (P.key ident) = some p → SpelledTransform fold p ∧ ∀ s, s ≠ [] → p ≠ .sc (.str s)) :
    (∀ r, extractGo fold lib raw ident path kind = .ok r ↔ extractInstrs lib raw ident path kind = .ok r) ∧
    ((∀ p, (raw.key g!"transform").bind (P.key ident) = some p → ¬ HasNull p) → extractGo fold lib raw ident path kind = extractInstrs lib raw ident path kind) := by
  cases ht : (raw.key g!"transform").bind (P.key ident) with
  | none =>
    unfold extractGo extractInstrs
    rw [ht]
    exact ⟨fun _ => Iff.rfl, fun _ => rfl⟩
  | some p =>
    obtain ⟨hs, hx⟩ := h p ht
    by_cases he : p = .sc (.str [])
    · subst he
      unfold extractGo extractInstrs
      rw [ht]
      exact ⟨fun _ => Iff.rfl, fun _ => rfl⟩
    have hnot : ∀ s, p ≠ .sc (.str s) := fun s e => by
      by_cases h0 : s = []
      · exact he (h0 ▸ e)
      · exact hx s h0 e
    rw [go_eq ht hnot, build_eq ht hnot]
    by_cases hn : HasNull p
    · refine ⟨fun r => ⟨fun hr => ?_, fun hr => ?_⟩, fun hall => absurd hn (hall p rfl)⟩
      · rw [Res.bind_eq_ok] at hr
        obtain ⟨⟨l, m, d⟩, h1, h2⟩ := hr
        rw [Res.bind_eq_ok] at h2
        obtain ⟨fr, h2, _⟩ := h2
        rw [followed_none (go_null hs hn h1)] at h2
        cases h2
      · rw [Res.bind_eq_ok] at hr
        obtain ⟨t, h1, _⟩ := hr
        exact absurd h1 (parse_null hn t)
    · have e : (unmarshalInstrs fold lib p >>= fun x => followed x.1 >>= fun fr => .ok (some (placed path kind ⟨fr, x.2.1, x.2.2⟩))) =
          (parseInstrs lib p >>= fun t => .ok (some (placed path kind t))) := by
        rw [parse_spelled hs hn]
        cases parseInstrs lib p with
        | err => rfl
        | panic => rfl
        | ok t =>
          show (followed (t.from.map some) >>= _) = _
          rw [followed_some]
          rfl
      rw [e]
      exact ⟨fun _ => Iff.rfl, fun _ => rfl⟩

/-- **C132**: a text in place of a transform is never one with instructions. -/
theorem C132_text {raw : P} {ident s : Str} (path : Str) (kind : Kind) (h : (raw.key g!"transform").bind (P.key ident) = some (.sc (.str s))) (t : Instrs)
    (ht : extractGo fold lib raw ident path kind = .ok (some t)) : t.from = [] ∧ t.method = .first ∧ t.delim = [] := by
  unfold extractGo at ht
  rw [h] at ht
  cases s with
  | nil => cases ht
  | cons c s =>
    dsimp only at ht
    rw [Res.bind_eq_ok] at ht
    obtain ⟨x, hx, ht⟩ := ht
    unfold unmarshalText at hx
    dsimp only at hx
    split at hx
    · cases hx
      cases ht
      exact ⟨rfl, rfl, rfl⟩
    · cases hx

namespace Spec
/-- Two documents that differ in the letter case of keys only, of any objects in them. -/
inductive CaseOnly (fold : Str → Str) : P → P → Prop where
  | same {p : P} : CaseOnly fold p p
  | entry {p p' : P} {l l' : List P} : CaseOnly fold p p' → CaseOnly fold (.arr l) (.arr l') → CaseOnly fold (.arr (p :: l)) (.arr (p' :: l'))
  | key {k k' : Str} {v v' : P} {m m' : List (Str × P)} : fold k = fold k' → CaseOnly fold v v' → CaseOnly fold (.obj m) (.obj m') →
      CaseOnly fold (.obj ((k, v) :: m)) (.obj ((k', v') :: m'))
end Spec

/-- The letter case of keys does not matter in transforms. -/
def C132_statement : Prop := ∀ (fold : Str → Str) (lib : Lib) (p p' : P) (ident path : Str) (kind : Kind), FoldApart fold → CaseOnly fold p p' →
  extractGo fold lib (.obj [(g!"transform", .obj [(ident, p)])]) ident path kind = extractGo fold lib (.obj [(g!"transform", .obj [(ident, p')])]) ident path kind

namespace C132ex
/-- Letter case is ignored. -/
def lower (s : Str) : Str := s.map Char.toLower

theorem lower_apart : FoldApart lower := ⟨by decide, by decide, by decide, by decide, by decide, by decide, by decide⟩

/-- A transform with given names for its keys. -/
def doc (fr jp ops ty ar name : Str) : P :=
  .obj [(fr, .arr [.obj [(jp, .sc (.str g!"@.a")), (ops, .arr [.obj [(ar, .obj [(name, .sc (.str g!"upper"))]), (ty, .sc (.str g!"changeCase"))]])]])]

/-- The usual spelling. -/
def plain : P := doc g!"from" g!"jsonPath" g!"operations" g!"type" g!"args" g!"to"
/-- Another spelling, with a key that is not read. -/
def odd : P := .obj [(g!"From", .arr [.obj [(g!"JSONpath", .sc (.str g!"@.a")), (g!"note", .sc (.str g!"x")),
  (g!"OPERATIONS", .arr [.obj [(g!"Args", .obj [(g!"to", .sc (.str g!"upper"))]), (g!"Type", .sc (.str g!"changeCase"))]])]])]
/-- The argument in another spelling. -/
def arg : P := doc g!"from" g!"jsonPath" g!"operations" g!"type" g!"args" g!"To"

theorem plain_odd : SameTransform lower plain odd := by
  refine .inr ⟨_, _, rfl, rfl, ?_⟩
  refine .field (n := g!"from") (by simp) (by decide) (by decide) ?_ .nil
  rw [if_pos rfl]
  refine .inr ⟨_, _, rfl, rfl, .cons (.inr ⟨_, _, rfl, rfl, ?_⟩) .nil⟩
  refine .field (n := g!"jsonPath") (by simp) (by decide) (by decide) (by rw [if_neg (by decide)]) (.right (by decide) ?_)
  refine .field (n := g!"operations") (by simp) (by decide) (by decide) ?_ .nil
  rw [if_pos rfl]
  refine .inr ⟨_, _, rfl, rfl, .cons (.inr ⟨_, _, rfl, rfl, ?_⟩) .nil⟩
  exact .field (n := g!"args") (by simp) (by decide) (by decide) rfl (.field (n := g!"type") (by simp) (by decide) (by decide) rfl .nil)

/-- Both are read as the same instructions, with `@` replaced. -/
example (path : Str) (kind : Kind) : extractGo lower (Toy.lib []) (.obj [(g!"transform", .obj [(g!"web", plain)])]) g!"web" path kind =
    extractGo lower (Toy.lib []) (.obj [(g!"transform", .obj [(g!"web", odd)])]) g!"web" path kind := C132 lower_apart rfl rfl plain_odd path kind

example : extractGo lower (Toy.lib []) (.obj [(g!"transform", .obj [(g!"web", odd)])]) g!"web" g!"$.x.y" .scalar =
    .ok (some ⟨[⟨g!"$.x.a", [], [.changeCase true]⟩], .first, []⟩) := by rfl

/-- The usual spelling meets the hypotheses of `C132_model`. -/
theorem plain_spelled : SpelledTransform lower plain := by
  intro m e kv hm
  cases e
  cases List.mem_singleton.1 hm
  refine ⟨by decide, fun _ l e i hi => ?_, fun h => absurd h (by decide)⟩
  cases e
  cases List.mem_singleton.1 hi
  intro m e kv hm
  cases e
  simp only [List.mem_cons, List.not_mem_nil, or_false] at hm
  rcases hm with rfl | rfl
  · exact ⟨by decide, fun h => absurd h (by decide)⟩
  · refine ⟨by decide, fun _ l e o ho => ?_⟩
    cases e
    cases List.mem_singleton.1 ho
    intro m e kv hm
    cases e
    simp only [List.mem_cons, List.not_mem_nil, or_false] at hm
    rcases hm with rfl | rfl
    · exact ⟨by decide, trivial⟩
    · exact ⟨by decide, trivial⟩

example (path : Str) (kind : Kind) (lib : Lib) : extractGo lower lib (.obj [(g!"transform", .obj [(g!"web", plain)])]) g!"web" path kind =
    extractInstrs lib (.obj [(g!"transform", .obj [(g!"web", plain)])]) g!"web" path kind := by
  refine (C132_model path kind fun p hp => ?_).2 fun p hp => ?_
  · cases hp
    exact ⟨plain_spelled, fun s _ e => by cases e⟩
  · cases hp
    rintro ⟨l, e, hm⟩
    have e' : P.key g!"from" plain = some (.arr [_]) := rfl
    rw [e'] at e
    cases e
    cases List.mem_singleton.1 hm

theorem plain_arg : CaseOnly lower plain arg :=
  .key rfl (.entry (.key rfl .same (.key rfl (.entry (.key rfl (.key (by decide) .same .same) .same) .same) .same)) .same) .same
end C132ex

open C132ex in
/-- The letter case of the names of arguments matters. -/
theorem C132_refuted : ¬ C132_statement := by
  intro h
  have := h lower (Toy.lib []) plain arg g!"web" g!"$.x" .scalar lower_apart plain_arg
  have h1 : extractGo lower (Toy.lib []) (.obj [(g!"transform", .obj [(g!"web", arg)])]) g!"web" g!"$.x" .scalar = .err := by rfl
  rw [h1] at this
  have h2 : extractGo lower (Toy.lib []) (.obj [(g!"transform", .obj [(g!"web", plain)])]) g!"web" g!"$.x" .scalar = .ok (some ⟨[⟨g!"$.a", [], [.changeCase true]⟩], .first, []⟩) := by rfl
  rw [h2] at this
  cases this

end JT
