import Verif.Model.TransformSchema
import Verif.Props.C91
/- C130: the published schema for transforms and what NewTransformer accepts. -/
namespace JT
open Spec

namespace Spec
/-- What the published schema leaves open in an operation: it has a type, a format is a string (or null), and a regular expression is one. -/
structure OpFine (lib : Lib) (o : P) : Prop where
  named : (o.key g!"type").isSome = true
  format : ∀ a f, o.key g!"args" = some a → a.key g!"format" = some f → ∃ s, TextValue f s
  regex : ∀ a re, o.key g!"args" = some a → a.key g!"regex" = some (.sc (.str re)) → lib.reValid re = true

/-- An operation in a transform. -/
def OpIn (p o : P) : Prop := ∃ fr i ops, p.key g!"from" = some (.arr fr) ∧ i ∈ fr ∧ i.key g!"operations" = some (.arr ops) ∧ o ∈ ops
end Spec

namespace Published

theorem exactlyOne_some : ∀ {l : List (P → Prop)} {v : P}, ExactlyOne l v → ∃ s ∈ l, s v
  | [], _, h => h.elim
  | s :: t, v, h => by
    rcases h with h | h
    · exact ⟨s, by simp, h.1⟩
    · obtain ⟨s', hs, hv⟩ := exactlyOne_some h.2
      exact ⟨s', by simp [hs], hv⟩

theorem key_mem {k : Str} {m : List (Str × P)} {x : P} (h : P.key k (.obj m) = some x) : (k, x) ∈ m := GMap.get_some_mem h

/-- Strings by their names can be read. -/
theorem texts_each : ∀ {m : List (Str × P)}, (∀ kv ∈ m, ∃ s, TextValue kv.2 s) → ∃ l : List (Str × Str), Each (fun kv kt => kv.1 = kt.1 ∧ TextValue kv.2 kt.2) m l
  | [], _ => ⟨[], .nil⟩
  | (k, v) :: m, h => by
    obtain ⟨s, hs⟩ := h (k, v) (by simp)
    obtain ⟨l, hl⟩ := texts_each (m := m) fun kv hkv => h kv (by simp [hkv])
    exact ⟨(k, s) :: l, .cons ⟨rfl, hs⟩ hl⟩

theorem each_keys {m : List (Str × P)} {l : List (Str × Str)} (h : Each (fun kv kt => kv.1 = kt.1 ∧ TextValue kv.2 kt.2) m l) : l.map Prod.fst = m.map Prod.fst := by
  induction h with
  | nil => rfl
  | cons h _ ih => simp only [List.map_cons, ih, h.1]

theorem each_get {m : List (Str × P)} {l : List (Str × Str)} (h : Each (fun kv kt => kv.1 = kt.1 ∧ TextValue kv.2 kt.2) m l) (k : Str) :
    (∀ s, GMap.get k m = some (.sc (.str s)) → GMap.get k l = some s) ∧ ((GMap.get k l).isSome = (GMap.get k m).isSome) := by
  induction h with
  | nil => exact ⟨fun s h => (by cases h), rfl⟩
  | @cons a b m l h _ ih =>
    obtain ⟨k1, v⟩ := a
    obtain ⟨k2, t⟩ := b
    obtain ⟨hk, ht⟩ := h
    cases hk
    simp only [GMap.get]
    by_cases he : k = k1
    · rw [if_pos he, if_pos he]
      refine ⟨fun s hs => ?_, rfl⟩
      cases hs
      cases ht
      rfl
    · rw [if_neg he, if_neg he]
      exact ih

/-- The arguments that an operation takes by the published schema are read as they are. -/
theorem args_read {o a : P} {req : List Str} {props : List (Str × (P → Prop))} (ho : o.key g!"args" = some a) (h : ObjectOf req true props a)
    (hp : props.map Prod.fst = req) (ht : ∀ k x, a.key k = some x → ∃ s, TextValue x s) :
    ∃ args, ArgsAre o args ∧ (∀ k, (GMap.get k args).isSome = true ↔ k ∈ req) ∧ ∀ k s, a.key k = some (.sc (.str s)) → GMap.get k args = some s := by
  obtain ⟨m, rfl, hn⟩ := h.object
  obtain ⟨l, hl⟩ := texts_each (m := m) fun kv hkv => ht kv.1 kv.2 (GMap.get_mem_nodup hn hkv)
  have hk := each_keys hl
  have hg := GMap.get_ofList (l := l) (by rw [hk]; exact hn)
  refine ⟨_, .object ho hl, fun k => ?_, fun k s hs => ?_⟩
  · rw [hg, (each_get hl k).2]
    exact ⟨fun hs => hp ▸ h.only rfl k hs, fun hm => h.needs k hm⟩
  · rw [hg]
    exact (each_get hl k).1 s hs

/-- The arguments are determined by the document. -/
theorem args_same {o : P} {x y : GMap Str} (hx : ArgsAre o x) (hy : ArgsAre o y) : x = y := by
  have h := parseArgs_iff.2 hx
  rw [parseArgs_iff.2 hy] at h
  exact (Res.ok.inj h).symm

theorem type_of {o : P} {props : List (Str × (P → Prop))} {req : List Str} {name : Str} (h : ObjectOf req true props o) (hr : g!"type" ∈ req)
    (hp : (g!"type", IsOneOf [name]) ∈ props) : o.key g!"type" = some (.sc (.str name)) := by
  have hs := h.needs _ hr
  cases hk : o.key g!"type" with
  | none => rw [hk] at hs; cases hs
  | some x =>
    obtain ⟨s, hs, rfl⟩ := h.values _ hp x hk
    rw [List.mem_singleton.1 hs]

theorem args_of {o : P} {props : List (Str × (P → Prop))} {req : List Str} {A : P → Prop} (h : ObjectOf req true props o) (hr : g!"args" ∈ req)
    (hp : (g!"args", A) ∈ props) : ∃ a, o.key g!"args" = some a ∧ A a := by
  have hs := h.needs _ hr
  cases hk : o.key g!"args" with
  | none => rw [hk] at hs; cases hs
  | some x => exact ⟨x, rfl, h.values _ hp x hk⟩

theorem text_name {o : P} {name n : Str} (h : o.key g!"type" = some (.sc (.str name))) (ht : TextAt o g!"type" n) : n = name := by
  cases ht with
  | missing h' => rw [h] at h'; cases h'
  | null h' => rw [h] at h'; cases h'
  | text h' => rw [h] at h'; cases h'; rfl

theorem jsonPath_text {v : P} (h : jsonPath v) : ∃ s, TextValue v s := by
  obtain ⟨c, s, _, _, rfl⟩ := h
  exact ⟨_, .text⟩

theorem isText_text {v : P} (h : IsText v) : ∃ s, TextValue v s := by
  obtain ⟨s, rfl⟩ := h
  exact ⟨_, .text⟩

theorem isOneOf_text {l : List Str} {v : P} (h : IsOneOf l v) : ∃ s, TextValue v s := by
  obtain ⟨s, _, rfl⟩ := h
  exact ⟨_, .text⟩

/-- Every entry of an object without other entries is of one of the kinds. -/
theorem all_values {a : P} {req : List Str} {props : List (Str × (P → Prop))} (h : ObjectOf req true props a) {Q : P → Prop}
    (hq : ∀ kp ∈ props, ∀ x, a.key kp.1 = some x → kp.2 x → Q x) : ∀ k x, a.key k = some x → Q x := by
  intro k x hk
  obtain ⟨kp, hm, rfl⟩ := List.mem_map.1 (h.only rfl k (by rw [hk]; rfl))
  exact hq kp hm x hk (h.values kp hm x hk)

/-- Operations without arguments. -/
theorem plain_op {lib : Lib} {o : P} {name : Str} (h : ObjectOf [g!"type"] true [(g!"type", IsOneOf [name])] o) (hn : name ∈ noArgs) :
    OpAccepted lib o ∧ OpFine lib o := by
  have ht := type_of (name := name) h (by simp) (by simp)
  have ha : o.key g!"args" = none := by
    cases hk : o.key g!"args" with
    | none => rfl
    | some x =>
      have := h.only rfl g!"args" (by rw [hk]; rfl)
      simp at this
  obtain ⟨m, rfl, _⟩ := h.object
  exact ⟨⟨.object, name, [], .text ht, .missing ha, .none hn⟩, by rw [ht]; rfl, fun a f h' => (by rw [ha] at h'; cases h'), fun a f h' => (by rw [ha] at h'; cases h')⟩

/-- Operations with arguments and a type. -/
theorem args_op {lib : Lib} {o a : P} {name : Str} {req : List Str} {props : List (Str × (P → Prop))} (hobj : ∃ m, o = .obj m)
    (htype : o.key g!"type" = some (.sc (.str name))) (ho : o.key g!"args" = some a) (ha : ObjectOf req true props a) (hp : props.map Prod.fst = req)
    (ht : ∀ k x, a.key k = some x → ∃ s, TextValue x s) (hreq : (name, req) ∈ argTable)
    (hnone : name ∉ noArgs)
    (hcase : name = g!"changeCase" → ∃ s, a.key g!"to" = some (.sc (.str s)) ∧ (s = g!"lower" ∨ s = g!"upper"))
    (hre : name = g!"replace" ↔ g!"regex" ∈ req) (hret : ∀ x, a.key g!"regex" = some x → IsText x) :
    OpAccepted lib o ↔ OpFine lib o := by
  obtain ⟨args, h1, h2, h3⟩ := args_read ho ha hp ht
  have hfmt : ∀ a' f, o.key g!"args" = some a' → a'.key g!"format" = some f → ∃ s, TextValue f s := by
    intro a' f h' hf
    rw [ho] at h'
    cases h'
    exact ht _ _ hf
  constructor
  · rintro ⟨-, n, args', ht', ha', hok⟩
    cases text_name htype ht'
    cases args_same h1 ha'
    refine ⟨by rw [htype]; rfl, hfmt, fun a' re h' hk => ?_⟩
    rw [ho] at h'
    cases h'
    cases hok with
    | none h => exact absurd h hnone
    | some hr _ _ hreg =>
      refine hreg (hre.2 ?_) re (h3 _ _ hk)
      exact hp ▸ ha.only rfl _ (by rw [hk]; rfl)
  · intro hf
    obtain ⟨m, rfl⟩ := hobj
    refine ⟨.object, name, args, .text htype, h1, .some hreq h2 ?_ ?_⟩
    · intro e
      obtain ⟨s, hs, hs'⟩ := hcase e
      rw [h3 _ _ hs]
      rcases hs' with rfl | rfl
      · exact .inl rfl
      · exact .inr rfl
    · intro e re hg
      have hs : (a.key g!"regex").isSome = true := ha.needs _ (hre.1 e)
      cases hk : a.key g!"regex" with
      | none => rw [hk] at hs; cases hs
      | some x =>
        obtain ⟨s, rfl⟩ := hret x hk
        have := h3 _ _ hk
        rw [hg] at this
        cases this
        exact hf.regex a _ ho hk

theorem toCamelCase_never {o : P} : ¬ toCamelCase o := by
  intro h
  obtain ⟨a, _, ha⟩ := args_of (A := ObjectOf [g!"delimiter"] true [(g!"format", IsText)]) h (by simp) (by simp)
  have := ha.only rfl g!"delimiter" (ha.needs _ (by simp))
  simp at this

theorem absent_text {a : P} {req : List Str} {props : List (Str × (P → Prop))} {k : Str} (h : ObjectOf req true props a) (hk : k ∉ props.map Prod.fst) :
    ∀ x, a.key k = some x → IsText x := fun x hx => absurd (h.only rfl k (by rw [hx]; rfl)) hk

theorem value_text {a : P} {req : List Str} {closed : Bool} {props : List (Str × (P → Prop))} {k : Str} {Q : P → Prop} (h : ObjectOf req closed props a)
    (hk : (k, Q) ∈ props) : ∀ x, a.key k = some x → Q x := fun x hx => h.values _ hk x hx

/-- An operation that the published schema allows is accepted exactly if what the schema leaves open is in order. -/
theorem op_iff {lib : Lib} {o : P} (h : operation o) : OpAccepted lib o ↔ OpFine lib o := by
  obtain ⟨s, hs, ho⟩ := exactlyOne_some h
  have hobj : ∀ {req props}, ObjectOf req true props o → ∃ m, o = .obj m := fun h => let ⟨m, e, _⟩ := h.object; ⟨m, e⟩
  simp only [List.mem_cons, List.not_mem_nil, or_false] at hs
  rcases hs with rfl | rfl | rfl | rfl | rfl | rfl | rfl | rfl | rfl | rfl | rfl | rfl
  · obtain ⟨a, ha, hA⟩ := args_of (A := ObjectOf [g!"to"] true [(g!"to", IsOneOf [g!"lower", g!"upper"])]) ho (by simp) (by simp)
    refine args_op (hobj ho) (type_of (name := g!"changeCase") ho (by simp) (by simp)) ha hA rfl (all_values hA ?_) (by decide) (by decide) ?_ (by decide) (absent_text hA (by decide))
    · intro kp hm x _ hx
      simp only [List.mem_singleton] at hm
      subst hm
      exact isOneOf_text hx
    · intro _
      have hs := hA.needs g!"to" (by simp)
      cases hk : a.key g!"to" with
      | none => rw [hk] at hs; cases hs
      | some x =>
        obtain ⟨s, hs, rfl⟩ := hA.values (g!"to", IsOneOf [g!"lower", g!"upper"]) (by simp) x hk
        exact ⟨s, rfl, by simpa using hs⟩
  · obtain ⟨a, ha, hA⟩ := args_of (A := ObjectOf [g!"format"] true [(g!"format", Anything)]) ho (by simp) (by simp)
    have hreg : a.key g!"regex" = none := by
      cases hk : a.key g!"regex" with
      | none => rfl
      | some x =>
        have := hA.only rfl g!"regex" (by rw [hk]; rfl)
        simp at this
    constructor
    · rintro ⟨ho', n, args, ht, har, hok⟩
      have hn : (o.key g!"type").isSome = true := by
        cases hk : o.key g!"type" with
        | some x => rfl
        | none =>
          cases ht with
          | missing _ => cases hok with
            | none h => simp [noArgs] at h
            | some h _ _ _ => simp [argTable] at h
          | null h' => rw [hk] at h'; cases h'
          | text h' => rw [hk] at h'; cases h'
      refine ⟨hn, fun a' f h' hf => ?_, fun a' re h' hf => ?_⟩
      · rw [ha] at h'
        cases h'
        cases har with
        | missing h' => rw [ha] at h'; cases h'
        | null h' => rw [ha] at h'; cases h'; cases hf
        | @object m l h' hl =>
          rw [ha] at h'
          cases h'
          have hmem := key_mem hf
          clear hn ht hok ha hA hreg hf
          induction hl with
          | nil => cases hmem
          | cons h1 _ ih =>
            rcases List.mem_cons.1 hmem with e | hm
            · subst e; exact ⟨_, h1.2⟩
            · exact ih hm
      · rw [ha] at h'
        cases h'
        rw [hreg] at hf
        cases hf
    · intro hf
      have hs := hf.named
      cases hk : o.key g!"type" with
      | none => rw [hk] at hs; cases hs
      | some x =>
        obtain ⟨s, hs, rfl⟩ := ho.values (g!"type", IsOneOf [g!"currentTime"]) (by simp) x hk
        cases List.mem_singleton.1 hs
        refine (args_op (hobj ho) hk ha hA rfl (all_values hA ?_) (by decide) (by decide) (fun h => absurd h (by decide)) (by decide) (absent_text hA (by decide))).2 hf
        · intro kp hm x hx _
          simp only [List.mem_singleton] at hm
          subst hm
          exact hf.format a x ha hx
  · exact iff_of_true (plain_op ho (by decide)).1 (plain_op ho (by decide)).2
  · obtain ⟨a, ha, hA⟩ := args_of (A := ObjectOf [g!"on"] true [(g!"on", IsText)]) ho (by simp) (by simp)
    refine args_op (hobj ho) (type_of (name := g!"split") ho (by simp) (by simp)) ha hA rfl (all_values hA ?_) (by decide) (by decide) (fun h => absurd h (by decide)) (by decide) (absent_text hA (by decide))
    · intro kp hm x _ hx
      simp only [List.mem_singleton] at hm
      subst hm
      exact isText_text hx
  · obtain ⟨a, ha, hA⟩ := args_of (A := ObjectOf [g!"regex", g!"new"] true [(g!"regex", IsText), (g!"new", IsText)]) ho (by simp) (by simp)
    refine args_op (hobj ho) (type_of (name := g!"replace") ho (by simp) (by simp)) ha hA rfl (all_values hA ?_) (by decide) (by decide) (fun h => absurd h (by decide)) (by decide)
      (value_text hA (by simp))
    · intro kp hm x _ hx
      simp only [List.mem_cons, List.not_mem_nil, or_false] at hm
      rcases hm with rfl | rfl <;> exact isText_text hx
  · obtain ⟨a, ha, hA⟩ := args_of (A := ObjectOf [g!"by", g!"return"] true [(g!"by", jsonPath), (g!"return", jsonPath)]) ho (by simp) (by simp)
    refine args_op (hobj ho) (type_of (name := g!"max") ho (by simp) (by simp)) ha hA rfl (all_values hA ?_) (by decide) (by decide) (fun h => absurd h (by decide)) (by decide) (absent_text hA (by decide))
    · intro kp hm x _ hx
      simp only [List.mem_cons, List.not_mem_nil, or_false] at hm
      rcases hm with rfl | rfl <;> exact jsonPath_text hx
  · obtain ⟨a, ha, hA⟩ := args_of (A := ObjectOf [g!"format", g!"layout"] true [(g!"format", IsText), (g!"layout", IsText)]) ho (by simp) (by simp)
    refine args_op (hobj ho) (type_of (name := g!"timeParse") ho (by simp) (by simp)) ha hA rfl (all_values hA ?_) (by decide) (by decide) (fun h => absurd h (by decide)) (by decide) (absent_text hA (by decide))
    · intro kp hm x _ hx
      simp only [List.mem_cons, List.not_mem_nil, or_false] at hm
      rcases hm with rfl | rfl <;> exact isText_text hx
  · exact absurd ho toCamelCase_never
  · exact iff_of_true (plain_op ho (by decide)).1 (plain_op ho (by decide)).2
  · exact iff_of_true (plain_op ho (by decide)).1 (plain_op ho (by decide)).2
  · exact iff_of_true (plain_op ho (by decide)).1 (plain_op ho (by decide)).2
  · exact iff_of_true (plain_op ho (by decide)).1 (plain_op ho (by decide)).2

theorem text_at_if {p : P} {k : Str} {Q : P → Prop} (hq : ∀ x, p.key k = some x → Q x) (ht : ∀ {x}, Q x → ∃ s, TextValue x s) : ∃ s, TextAt p k s := by
  cases hk : p.key k with
  | none => exact ⟨[], .missing hk⟩
  | some x =>
    obtain ⟨s, hs⟩ := ht (hq x hk)
    cases hs with
    | null => exact ⟨[], .null hk⟩
    | text => exact ⟨_, .text hk⟩

/-- An instruction that the published schema allows. -/
theorem instr_iff {lib : Lib} {i : P} (h : transformFrom i) : InstrAccepted lib i ↔ ∀ ops o, i.key g!"operations" = some (.arr ops) → o ∈ ops → OpFine lib o := by
  obtain ⟨m, hm, _⟩ := h.object
  have hops : ∀ x, i.key g!"operations" = some x → ArrayOf operation x := value_text h (by simp)
  constructor
  · rintro ⟨-, -, -, l, hl, hall⟩ ops o hk ho
    obtain ⟨l', e, _, _, hx⟩ := hops _ hk
    cases e
    cases hl with
    | missing h' => rw [hk] at h'; cases h'
    | null h' => rw [hk] at h'; cases h'
    | list h' => rw [hk] at h'; cases h'; exact (op_iff (hx o ho)).1 (hall o ho)
  · intro hf
    refine ⟨⟨m, hm⟩, text_at_if (value_text h (Q := jsonPath) (by simp)) jsonPath_text, text_at_if (value_text h (Q := xmlPath) (by simp)) isText_text, ?_⟩
    cases hk : i.key g!"operations" with
    | none => exact ⟨[], .missing hk, fun o ho => by cases ho⟩
    | some x =>
      obtain ⟨l, rfl, _, _, hx⟩ := hops _ hk
      exact ⟨l, .list hk, fun o ho => (op_iff (hx o ho)).2 (hf l o hk ho)⟩

end Published
open Published

/-- Of the transforms that the published schema allows, exactly those can be read whose operations all have a type, formats that are strings, and regular expressions that compile. -/
theorem C130 {lib : Lib} {p : P} (h : Published.transform p) : TransformAccepted lib p ↔ ∀ o, OpIn p o → OpFine lib o := by
  have hfrom : ∃ fr, p.key g!"from" = some (.arr fr) ∧ ∀ i ∈ fr, transformFrom i := by
    have hs := h.needs g!"from" (by simp)
    cases hk : p.key g!"from" with
    | none => rw [hk] at hs; cases hs
    | some x =>
      obtain ⟨l, rfl, _, _, hx⟩ := value_text h (k := g!"from") (Q := ArrayOf transformFrom) (by simp) x hk
      exact ⟨l, rfl, hx⟩
  obtain ⟨fr, hfr, hall⟩ := hfrom
  obtain ⟨m, hm, _⟩ := h.object
  constructor
  · rintro ⟨-, ⟨l, hl, hacc⟩, -, -⟩ o ⟨fr', i, ops, h1, h2, h3, h4⟩
    rw [hfr] at h1
    cases h1
    cases hl with
    | missing h' => rw [hfr] at h'; cases h'
    | null h' => rw [hfr] at h'; cases h'
    | list h' =>
      rw [hfr] at h'
      cases h'
      exact (instr_iff (hall i h2)).1 (hacc i h2) ops o h3 h4
  · intro hf
    refine ⟨hm ▸ .object, ⟨fr, .list hfr, fun i hi => (instr_iff (hall i hi)).2 fun ops o hk ho => hf o ⟨fr, i, ops, hfr, hi, hk, ho⟩⟩, ?_, ?_⟩
    · cases hk : p.key g!"method" with
      | none => exact ⟨[], _, .missing hk, .none⟩
      | some x =>
        obtain ⟨s, hs, rfl⟩ := value_text h (k := g!"method") (Q := IsOneOf [g!"first", g!"last", g!"concatenate"]) (by simp) x hk
        simp only [List.mem_cons, List.not_mem_nil, or_false] at hs
        rcases hs with rfl | rfl | rfl
        · exact ⟨_, _, .text hk, .first⟩
        · exact ⟨_, _, .text hk, .last⟩
        · exact ⟨_, _, .text hk, .concatenate⟩
    · cases hk : p.key g!"methodOptions" with
      | none => exact ⟨[], .missing hk⟩
      | some x =>
        have hx := value_text h (k := g!"methodOptions") (Q := ObjectOf [] false [(g!"concatenateDelimiter", IsText)]) (by simp) x hk
        obtain ⟨mo, rfl, _⟩ := hx.object
        obtain ⟨d, hd⟩ := text_at_if (value_text hx (k := g!"concatenateDelimiter") (Q := IsText) (by simp)) isText_text
        exact ⟨d, .text hk hd⟩

/-- Operations of some types cannot be used if the published schema is followed, though they exist. -/
theorem C130_missing {p o : P} {name : Str} (h : Published.transform p) (ho : OpIn p o) (ht : o.key g!"type" = some (.sc (.str name))) :
    name ≠ g!"duration" ∧ name ≠ g!"toCamelCase" ∧ name ≠ g!"valueExists" := by
  obtain ⟨fr, i, ops, h1, h2, h3, h4⟩ := ho
  obtain ⟨l, e, _, _, hx⟩ := value_text h (k := g!"from") (Q := ArrayOf transformFrom) (by simp) _ h1
  cases e
  obtain ⟨l, e, _, _, hy⟩ := value_text (hx i h2) (k := g!"operations") (Q := ArrayOf operation) (by simp) _ h3
  cases e
  obtain ⟨s, hs, hso⟩ := exactlyOne_some (hy o h4)
  have key : ∀ {req props n}, ObjectOf req true props o → (g!"type", IsOneOf [n]) ∈ props → name = n := by
    intro req props n hO hp
    obtain ⟨s, hs, e⟩ := hO.values _ hp _ ht
    cases e
    exact List.mem_singleton.1 hs
  simp only [List.mem_cons, List.not_mem_nil, or_false] at hs
  rcases hs with rfl | rfl | rfl | rfl | rfl | rfl | rfl | rfl | rfl | rfl | rfl | rfl
  · cases key (n := g!"changeCase") hso (by simp); decide
  · cases key (n := g!"currentTime") hso (by simp); decide
  · cases key (n := g!"inverse") hso (by simp); decide
  · cases key (n := g!"split") hso (by simp); decide
  · cases key (n := g!"replace") hso (by simp); decide
  · cases key (n := g!"max") hso (by simp); decide
  · cases key (n := g!"timeParse") hso (by simp); decide
  · exact absurd hso toCamelCase_never
  · cases key (n := g!"removeHTML") hso (by simp); decide
  · cases key (n := g!"convertToFloat64") hso (by simp); decide
  · cases key (n := g!"convertToInt64") hso (by simp); decide
  · cases key (n := g!"convertToBool") hso (by simp); decide

namespace Spec
/-- What an instance needs apart from its transform. -/
structure RestAccepted (q : P) : Prop where
  array : ∀ nu, fieldType q = .ok (g!"array", nu) → ∀ d, q.key g!"default" = some d → d = .sc .nil ∨ ∃ l, d = .arr l
  object : ∀ nu, fieldType q = .ok (g!"object", nu) → q.key g!"properties" ≠ some (.obj []) → ∀ d, q.key g!"default" = some d → d = .sc .nil ∨ ∃ m, d = .obj m
  format : ∀ nu, fieldType q = .ok (g!"string", nu) → ∀ f, q.key g!"format" = some f → ∃ s, f = .sc (.str s)
end Spec

/-- A transform for an identifier that the published schema describes. -/
theorem published_for {q p : P} {ident : Str} (hi : ident = g!"cumulo" ∨ ident = g!"presentationv4") (h : instanceTransform q) (ht : transformFor ident q = some p) :
    Published.transform p := by
  unfold transformFor at ht
  obtain ⟨t, h1, h2⟩ := Option.bind_eq_some_iff.1 ht
  rcases hi with rfl | rfl
  · exact value_text (h t h1) (k := g!"cumulo") (Q := Published.transform) (by simp) p h2
  · exact value_text (h t h1) (k := g!"presentationv4") (Q := Published.transform) (by simp) p h2

/-- A schema that follows the published schema: NewTransformer succeeds, for the identifiers described, exactly if what the published schema leaves open is in order. -/
theorem C130_transformer (env : Env) {sc : Schema} {ident : Str} (hi : ident = g!"cumulo" ∨ ident = g!"presentationv4") (hp : PlainSchema sc)
    (htop : sc.properties.isSome = true ↔ sc.items = none) (hread : WellFormed rawNode sc)
    (heach : ∀ l q, SchemaAt rawNode sc l q → instanceTransform q ∧ RestAccepted q) :
    (∃ r, newTransformer env sc ident = .ok r) ↔ ∀ l q p o, SchemaAt rawNode sc l q → transformFor ident q = some p → OpIn p o → OpFine env.lib o := by
  rw [C91_accepts_partial env sc ident hp]
  constructor
  · intro h l q p o hq hpt ho
    have hpub := published_for hi (heach l q hq).1 hpt
    refine (C130 hpub).1 ((h.each l q hq).transform p hpt ?_) o ho
    rintro rfl
    obtain ⟨m, e, _⟩ := hpub.object
    cases e
  · intro h
    refine ⟨htop, hread, fun l q hq => ⟨fun p hpt _ => ?_, (heach l q hq).2.array, (heach l q hq).2.object, (heach l q hq).2.format⟩⟩
    exact (C130 (published_for hi (heach l q hq).1 hpt)).2 fun o ho => h l q p o hq hpt ho

/-- Every transform that the published schema allows can be read. -/
def C130_statement : Prop := ∀ (lib : Lib) (p : P), Published.transform p → TransformAccepted lib p

/-- The same for instances, whatever the identifier. -/
def C130_instance_statement : Prop :=
  ∀ (lib : Lib) (ident : Str) (q p : P), instanceTransform q → transformFor ident q = some p → p ≠ .sc (.str []) → TransformAccepted lib p

namespace C130ex
def s (t : Str) : P := .sc (.str t)
/-- A transform with one operation. -/
def doc (o : P) : P := .obj [(g!"from", .arr [.obj [(g!"jsonPath", s g!"$.a"), (g!"operations", .arr [o])]])]

theorem not_named {o : P} {req : List Str} {props : List (Str × (P → Prop))} {name n : Str} (hp : (g!"type", IsOneOf [n]) ∈ props)
    (ht : o.key g!"type" = some (.sc (.str name))) (hne : name ≠ n) : ¬ ObjectOf req true props o := by
  intro h
  obtain ⟨s, hs, e⟩ := h.values _ hp _ ht
  cases e
  exact hne (List.mem_singleton.1 hs)

theorem not_typed {o : P} {req : List Str} {props : List (Str × (P → Prop))} (hr : g!"type" ∈ req) (ht : o.key g!"type" = none) : ¬ ObjectOf req true props o := by
  intro h
  have := h.needs _ hr
  rw [ht] at this
  cases this

theorem path_ok : jsonPath (s g!"$.a") := ⟨'$', g!".a", .inr rfl, .dot (by decide) (by unfold NotSpace; decide), rfl⟩

theorem doc_ok {o : P} (h : operation o) : Published.transform (doc o) := by
  refine ⟨⟨_, rfl, by simp⟩, fun k hk => by cases List.mem_singleton.1 hk; rfl, fun _ k hk => ?_, ?_⟩
  · simp only [doc, P.key, GMap.get] at hk
    split at hk
    · rename_i e; subst e; decide
    · cases hk
  · intro kp hm x hx
    simp only [List.mem_cons, List.not_mem_nil, or_false] at hm
    rcases hm with rfl | rfl | rfl
    · exact absurd hx (by simp [doc, P.key, GMap.get])
    · exact absurd hx (by simp [doc, P.key, GMap.get])
    · have : x = .arr [.obj [(g!"jsonPath", s g!"$.a"), (g!"operations", .arr [o])]] := (Option.some.inj hx).symm
      subst this
      refine ⟨_, rfl, by simp, by simp, fun i hi => ?_⟩
      cases List.mem_singleton.1 hi
      refine ⟨⟨_, rfl, by simp⟩, by simp, by simp, ?_⟩
      intro kp hm x hx
      simp only [List.mem_cons, List.not_mem_nil, or_false] at hm
      rcases hm with rfl | rfl | rfl
      · cases hx; exact path_ok
      · exact absurd hx (by simp [P.key, GMap.get])
      · have : x = .arr [o] := (Option.some.inj hx).symm
        subst this
        exact ⟨_, rfl, by simp, by simp, fun o' ho => by cases List.mem_singleton.1 ho; exact h⟩

theorem opIn_doc (o : P) : OpIn (doc o) o := ⟨_, _, _, rfl, List.mem_singleton.2 rfl, rfl, List.mem_singleton.2 rfl⟩

/-- An operation without a type. -/
def untyped : P := .obj [(g!"args", .obj [(g!"format", s g!"RFC3339")])]

theorem untyped_current : Published.currentTime untyped := by
  refine ⟨⟨_, rfl, by decide⟩, by decide, fun _ k hk => ?_, ?_⟩
  · simp only [untyped, P.key, GMap.get] at hk
    split at hk
    · rename_i e; subst e; decide
    · cases hk
  · intro kp hm x hx
    simp only [List.mem_cons, List.not_mem_nil, or_false] at hm
    rcases hm with rfl | rfl
    · exact absurd hx (by simp [untyped, P.key, GMap.get])
    · cases hx
      refine ⟨⟨_, rfl, by decide⟩, by decide, fun _ k hk => ?_, ?_⟩
      · simp only [P.key, GMap.get] at hk
        split at hk
        · rename_i e; subst e; decide
        · cases hk
      · intro kp hm x _
        cases List.mem_singleton.1 hm
        exact trivial

theorem untyped_ok : operation untyped := by
  have n : ∀ {req : List Str} {props : List (Str × (P → Prop))}, g!"type" ∈ req → ¬ ObjectOf req true props untyped := fun h => not_typed h rfl
  refine .inr ⟨n (by decide), .inl ⟨untyped_current, fun s' hs => ?_⟩⟩
  simp only [List.mem_cons, List.not_mem_nil, or_false] at hs
  rcases hs with rfl | rfl | rfl | rfl | rfl | rfl | rfl | rfl | rfl | rfl <;> exact n (by decide)

/-- A regular expression that may not be one. -/
def replaces : P := .obj [(g!"args", .obj [(g!"new", s g!"b"), (g!"regex", s g!"(a")]), (g!"type", s g!"replace")]

theorem replaces_replace : Published.replace replaces := by
  refine ⟨⟨_, rfl, by decide⟩, by decide, fun _ k hk => ?_, ?_⟩
  · simp only [replaces, P.key, GMap.get] at hk
    split at hk
    · rename_i e; subst e; decide
    · split at hk
      · rename_i e; subst e; decide
      · cases hk
  · intro kp hm x hx
    simp only [List.mem_cons, List.not_mem_nil, or_false] at hm
    rcases hm with rfl | rfl
    · cases hx; exact ⟨_, by simp, rfl⟩
    · cases hx
      refine ⟨⟨_, rfl, by decide⟩, by decide, fun _ k hk => ?_, ?_⟩
      · simp only [P.key, GMap.get] at hk
        split at hk
        · rename_i e; subst e; decide
        · split at hk
          · rename_i e; subst e; decide
          · cases hk
      · intro kp hm x hx
        simp only [List.mem_cons, List.not_mem_nil, or_false] at hm
        rcases hm with rfl | rfl <;> cases hx <;> exact ⟨_, rfl⟩

theorem replaces_ok : operation replaces := by
  have n : ∀ {req : List Str} {props : List (Str × (P → Prop))} (n : Str), (g!"type", IsOneOf [n]) ∈ props → g!"replace" ≠ n → ¬ ObjectOf req true props replaces :=
    fun _ h hne => not_named h rfl hne
  refine .inr ⟨n g!"changeCase" (by simp) (by decide), .inr ⟨n g!"currentTime" (by simp) (by decide), .inr ⟨n g!"inverse" (by simp) (by decide),
    .inr ⟨n g!"split" (by simp) (by decide), .inl ⟨replaces_replace, fun s' hs => ?_⟩⟩⟩⟩⟩
  simp only [List.mem_cons, List.not_mem_nil, or_false] at hs
  rcases hs with rfl | rfl | rfl | rfl | rfl | rfl | rfl
  · exact n g!"max" (by simp) (by decide)
  · exact n g!"timeParse" (by simp) (by decide)
  · exact n g!"toCamelCase" (by simp) (by decide)
  · exact n g!"removeHTML" (by simp) (by decide)
  · exact n g!"convertToFloat64" (by simp) (by decide)
  · exact n g!"convertToInt64" (by simp) (by decide)
  · exact n g!"convertToBool" (by simp) (by decide)

/-- C130 applies, with both outcomes: the transform is accepted exactly if the regular expression compiles. -/
example (lib : Lib) : TransformAccepted lib (doc replaces) ↔ lib.reValid g!"(a" = true := by
  rw [C130 (doc_ok replaces_ok)]
  constructor
  · intro h
    exact (h replaces (opIn_doc _)).regex _ _ rfl rfl
  · rintro h o ⟨fr, i, ops, h1, h2, h3, h4⟩
    cases h1
    cases List.mem_singleton.1 h2
    cases h3
    cases List.mem_singleton.1 h4
    refine ⟨rfl, fun a f ha hf => ?_, fun a re ha hf => ?_⟩
    · cases ha; cases hf
    · cases ha; cases hf; exact h

/-- Operations that the code has and the published schema does not. -/
example (lib : Lib) : OpAccepted lib (.obj [(g!"type", s g!"duration")]) ∧
    OpAccepted lib (.obj [(g!"args", .obj [(g!"delimiter", s g!"-")]), (g!"type", s g!"toCamelCase")]) := by
  refine ⟨parseOp_fine.1 ⟨_, rfl⟩, parseOp_fine.1 ⟨_, rfl⟩⟩

/-- A schema with the transform. -/
def text : P := .obj [(g!"transform", .obj [(g!"cumulo", doc replaces)]), (g!"type", s g!"string")]
def sc : Schema := ⟨some [(g!"x", text)], none⟩

/-- C130_transformer applies to it. -/
example : PlainSchema sc ∧ (sc.properties.isSome = true ↔ sc.items = none) ∧ WellFormed rawNode sc ∧
    ∀ l q, SchemaAt rawNode sc l q → instanceTransform q ∧ RestAccepted q := by
  have hp : PlainSchema sc := (simpleSchemaB_sound (ident := g!"t") (n := 6) (by decide +kernel)).plain
  have hacc : SchemaAccepted (Toy.lib []) g!"cumulo" sc := by
    rw [← C91_accepts_partial ⟨Toy.lib [], Sched.id, .json⟩ sc g!"cumulo" hp]
    have h : (newTransformer ⟨Toy.lib [], Sched.id, .json⟩ sc g!"cumulo").isOk = true := by decide +kernel
    revert h
    cases newTransformer ⟨Toy.lib [], Sched.id, .json⟩ sc g!"cumulo" with
    | ok r => exact fun _ => ⟨r, rfl⟩
    | err => exact fun h => nomatch h
    | panic => exact fun h => nomatch h
  refine ⟨hp, hacc.top, hacc.read, fun l q hq => ⟨?_, (hacc.each l q hq).array, (hacc.each l q hq).object, (hacc.each l q hq).format⟩⟩
  have hleaf : rawNode text = some .leaf := rfl
  cases hq with
  | item h => cases h
  | prop h1 h2 h3 =>
    cases h1
    simp only [List.mem_singleton, Prod.mk.injEq] at h2
    obtain ⟨rfl, rfl⟩ := h2
    cases h3 with
    | item h => rw [hleaf] at h; cases h
    | prop h => rw [hleaf] at h; cases h
    | here =>
      intro t ht
      cases ht
      refine ⟨⟨_, rfl, by simp⟩, by simp, by simp, fun kp hm x hx => ?_⟩
      simp only [List.mem_cons, List.not_mem_nil, or_false] at hm
      rcases hm with rfl | rfl
      · cases hx; exact doc_ok replaces_ok
      · exact absurd hx (by simp [P.key, GMap.get])
end C130ex

open C130ex in
/-- An operation without a type is allowed by the published schema, as the one for the current time, and makes the transform unreadable. -/
theorem C130_refuted : ¬ C130_statement := by
  intro h
  have := ((C130 (doc_ok untyped_ok)).1 (h (Toy.lib []) _ (doc_ok untyped_ok)) untyped (opIn_doc _)).named
  cases this

open C130ex in
/-- For other identifiers the published schema allows anything. -/
theorem C130_instance_refuted : ¬ C130_instance_statement := by
  intro h
  have hq : instanceTransform (.obj [(g!"transform", .obj [(g!"web", .sc (.bool true))])]) := by
    intro t ht
    cases ht
    refine ⟨⟨_, rfl, by decide⟩, by simp, by simp, fun kp hm x hx => ?_⟩
    simp only [List.mem_cons, List.not_mem_nil, or_false] at hm
    rcases hm with rfl | rfl <;> exact absurd hx (by simp [P.key, GMap.get])
  have := (h (Toy.lib []) g!"web" _ (.sc (.bool true)) hq rfl (by simp)).object
  cases this

/-- An object of given keys follows a schema. -/
theorem objectOf_keys {req : List Str} {closed : Bool} {props : List (Str × (P → Prop))} {m : List (Str × P)} (hn : (m.map Prod.fst).Nodup)
    (hreq : ∀ k ∈ req, k ∈ m.map Prod.fst) (honly : ∀ kv ∈ m, kv.1 ∈ props.map Prod.fst) (hval : ∀ kv ∈ m, ∀ kp ∈ props, kp.1 = kv.1 → kp.2 kv.2) :
    ObjectOf req closed props (.obj m) := by
  refine ⟨⟨m, rfl, hn⟩, fun k hk => ?_, fun _ k hk => ?_, fun kp hp x hx => hval (kp.1, x) (key_mem hx) kp hp rfl⟩
  · cases hg : P.key k (.obj m) with
    | some _ => rfl
    | none => exact absurd (hreq k hk) ((GMap.get_none_iff).1 hg)
  · obtain ⟨x, hx⟩ := Option.isSome_iff_exists.1 hk
    exact honly (k, x) (key_mem hx)

/-- The schemas have names, and only one has the name of the value. -/
theorem exactlyOne_named {v : P} {n : Str} {S : P → Prop} (hS : S v) : ∀ {named : List (Str × (P → Prop))}, (named.map Prod.fst).Nodup → (n, S) ∈ named →
    (∀ kp ∈ named, kp.1 ≠ n → ¬ kp.2 v) → ExactlyOne (named.map Prod.snd) v
  | kp :: named, hn, hm, ho => by
    rw [List.map_cons, List.nodup_cons] at hn
    rcases List.mem_cons.1 hm with rfl | hm
    · refine .inl ⟨hS, fun s' hs => ?_⟩
      obtain ⟨kp, hk, rfl⟩ := List.mem_map.1 hs
      exact ho kp (List.mem_cons_of_mem _ hk) fun e => hn.1 (List.mem_map.2 ⟨kp, hk, e⟩)
    · exact .inr ⟨ho kp (List.mem_cons_self ..) fun e => hn.1 (e ▸ List.mem_map.2 ⟨_, hm, rfl⟩),
        exactlyOne_named hS hn.2 hm fun kp hk => ho kp (List.mem_cons_of_mem _ hk)⟩

namespace Spec
/-- The operations of the published schema with arguments that it allows. -/
def publishedOps : List (Str × List (Str × Str)) :=
  [(g!"changeCase", [(g!"to", g!"upper")]), (g!"currentTime", [(g!"format", g!"RFC3339")]), (g!"inverse", []), (g!"split", [(g!"on", g!",")]),
   (g!"replace", [(g!"regex", g!"a"), (g!"new", g!"b")]), (g!"max", [(g!"by", g!"@.a"), (g!"return", g!"@.b")]),
   (g!"timeParse", [(g!"format", g!"2006"), (g!"layout", g!"06")]), (g!"removeHTML", []), (g!"convertToFloat64", []), (g!"convertToInt64", []),
   (g!"convertToBool", [])]

/-- An operation as a document. -/
def opDoc (n : Str × List (Str × Str)) : P :=
  .obj ((if n.2 = [] then [] else [(g!"args", .obj (n.2.map fun kv => (kv.1, .sc (.str kv.2))))]) ++ [(g!"type", .sc (.str n.1))])
end Spec

theorem opDoc_type {n : Str × List (Str × Str)} : (opDoc n).key g!"type" = some (.sc (.str n.1)) := by
  unfold opDoc
  split <;> rfl

theorem path_at (c : Char) (hc : NotSpace c) : jsonPath (.sc (.str ['@', '.', c])) :=
  ⟨'@', ['.', c], .inl rfl, .dot (by simp) (by simpa using hc), rfl⟩

/-- The schemas of the operations by name. -/
def namedOps : List (Str × (P → Prop)) :=
  [(g!"changeCase", caseChange), (g!"currentTime", currentTime), (g!"inverse", inverse), (g!"split", Published.split), (g!"replace", replace), (g!"max", Published.max),
   (g!"timeParse", timeParse), (g!"toCamelCase", toCamelCase), (g!"removeHTML", removeHTML), (g!"convertToFloat64", convertToFloat64),
   (g!"convertToInt64", convertToInt64), (g!"convertToBool", convertToBool)]

theorem named_other {o : P} {n : Str} (ht : o.key g!"type" = some (.sc (.str n))) : ∀ kp ∈ namedOps, kp.1 ≠ n → ¬ kp.2 o := by
  intro kp hk hne
  simp only [namedOps, List.mem_cons, List.not_mem_nil, or_false] at hk
  rcases hk with rfl | rfl | rfl | rfl | rfl | rfl | rfl | rfl | rfl | rfl | rfl | rfl <;>
    exact C130ex.not_named (List.mem_cons_self ..) ht (Ne.symm hne)

/-- An operation document with arguments. -/
theorem with_args {req : List Str} {props : List (Str × (P → Prop))} {n : Str} {m : List (Str × P)} (h : ObjectOf req true props (.obj m)) :
    ObjectOf [g!"type", g!"args"] true [(g!"type", IsOneOf [n]), (g!"args", ObjectOf req true props)] (.obj [(g!"args", .obj m), (g!"type", .sc (.str n))]) := by
  refine objectOf_keys (by simp) (by simp) (by simp) fun kv hv kp hp e => ?_
  simp only [List.mem_cons, List.not_mem_nil, or_false] at hv hp
  rcases hv with rfl | rfl <;> rcases hp with rfl | rfl
  · exact absurd e (by simp)
  · exact h
  · exact ⟨n, by simp, rfl⟩
  · exact absurd e (by simp)

/-- An operation document without arguments. -/
theorem without_args {n : Str} : ObjectOf [g!"type"] true [(g!"type", IsOneOf [n])] (.obj [(g!"type", .sc (.str n))]) := by
  refine objectOf_keys (by simp) (by simp) (by simp) fun kv hv kp hp _ => ?_
  cases List.mem_singleton.1 hv
  cases List.mem_singleton.1 hp
  exact ⟨n, by simp, rfl⟩

theorem one_arg {k t : Str} {Q : P → Prop} (h : Q (.sc (.str t))) : ObjectOf [k] true [(k, Q)] (.obj [(k, .sc (.str t))]) := by
  refine objectOf_keys (by simp) (by simp) (by simp) fun kv hv kp hp _ => ?_
  cases List.mem_singleton.1 hv
  cases List.mem_singleton.1 hp
  exact h

theorem two_args {k k' t t' : Str} {Q : P → Prop} (hne : k ≠ k') (h : Q (.sc (.str t))) (h' : Q (.sc (.str t'))) :
    ObjectOf [k, k'] true [(k, Q), (k', Q)] (.obj [(k, .sc (.str t)), (k', .sc (.str t'))]) := by
  refine objectOf_keys (by simpa using hne) (by simp) (by simp) fun kv hv kp hp _ => ?_
  simp only [List.mem_cons, List.not_mem_nil, or_false] at hv hp
  rcases hv with rfl | rfl <;> rcases hp with rfl | rfl <;> first | exact h | exact h'

theorem current_args {n : Str} {A : P → Prop} {m : List (Str × P)} (h : ObjectOf [g!"type", g!"args"] true [(g!"type", IsOneOf [n]), (g!"args", A)] (.obj m)) :
    ObjectOf [g!"args"] true [(g!"type", IsOneOf [n]), (g!"args", A)] (.obj m) :=
  ⟨h.object, fun k hk => h.needs k (List.mem_cons_of_mem _ hk), h.only, h.values⟩

theorem opDoc_ok {n : Str × List (Str × Str)} (h : n ∈ publishedOps) : operation (opDoc n) := by
  have key : ∀ S : P → Prop, (n.1, S) ∈ namedOps → S (opDoc n) → operation (opDoc n) := fun S hm hS =>
    exactlyOne_named (named := namedOps) hS (by decide) hm (named_other opDoc_type)
  have text : ∀ t : Str, IsText (.sc (.str t)) := fun t => ⟨t, rfl⟩
  simp only [publishedOps, List.mem_cons, List.not_mem_nil, or_false] at h
  rcases h with rfl | rfl | rfl | rfl | rfl | rfl | rfl | rfl | rfl | rfl | rfl
  · exact key caseChange (by simp [namedOps]) (with_args (one_arg ⟨g!"upper", by simp, rfl⟩))
  · exact key currentTime (by simp [namedOps]) (current_args (with_args (one_arg trivial)))
  · exact key inverse (by simp [namedOps]) without_args
  · exact key Published.split (by simp [namedOps]) (with_args (one_arg (text _)))
  · exact key replace (by simp [namedOps]) (with_args (two_args (by decide) (text _) (text _)))
  · exact key Published.max (by simp [namedOps]) (with_args (two_args (by decide) (path_at _ (by unfold NotSpace; decide)) (path_at _ (by unfold NotSpace; decide))))
  · exact key timeParse (by simp [namedOps]) (with_args (two_args (by decide) (text _) (text _)))
  · exact key removeHTML (by simp [namedOps]) without_args
  · exact key convertToFloat64 (by simp [namedOps]) without_args
  · exact key convertToInt64 (by simp [namedOps]) without_args
  · exact key convertToBool (by simp [namedOps]) without_args

/-- **C130**: the names of the operations that can be used if the published schema is followed. -/
theorem C130_names (name : Str) : (∃ p o, Published.transform p ∧ OpIn p o ∧ o.key g!"type" = some (.sc (.str name))) ↔ name ∈ publishedOps.map Prod.fst := by
  constructor
  · rintro ⟨p, o, h, ⟨fr, i, ops, h1, h2, h3, h4⟩, ht⟩
    obtain ⟨l, e, _, _, hx⟩ := value_text h (k := g!"from") (Q := ArrayOf transformFrom) (by simp) _ h1
    cases e
    obtain ⟨l, e, _, _, hy⟩ := value_text (hx i h2) (k := g!"operations") (Q := ArrayOf operation) (by simp) _ h3
    cases e
    obtain ⟨s, hs, hso⟩ := exactlyOne_some (hy o h4)
    obtain ⟨kp, hk, rfl⟩ := List.mem_map.1 (show s ∈ namedOps.map Prod.snd from hs)
    have hname : kp.1 = name := Classical.byContradiction fun hne => named_other ht kp hk hne hso
    subst hname
    simp only [namedOps, List.mem_cons, List.not_mem_nil, or_false] at hk
    rcases hk with rfl | rfl | rfl | rfl | rfl | rfl | rfl | rfl | rfl | rfl | rfl | rfl
    case inr.inr.inr.inr.inr.inr.inr.inl => exact absurd hso toCamelCase_never
    all_goals decide
  · intro h
    obtain ⟨n, hn, rfl⟩ := List.mem_map.1 h
    exact ⟨_, _, C130ex.doc_ok (opDoc_ok hn), C130ex.opIn_doc _, opDoc_type⟩

end JT
