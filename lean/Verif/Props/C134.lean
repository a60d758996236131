import Verif.Model.TypeText
import Verif.Props.C40
import Verif.Spec.Schema
import Verif.Spec.Json
import Verif.Spec.Toy
/- C134: types written with escape sequences. -/
namespace JT
namespace Spec

/-- The types of an instance are written without escape sequences. -/
def PlainTypes (q : P) : Prop :=
  (∀ t, q.key g!"type" = some (.sc (.str t)) → '\\' ∉ t) ∧ ∀ l t, q.key g!"type" = some (.arr l) → P.sc (.str t) ∈ l → '\\' ∉ t
end Spec
open Spec Ref

theorem get_meant (k : Str) : ∀ m : List (Str × P), GMap.get k (meantFields m) = (GMap.get k m).map meant
  | [] => rfl
  | (k', p) :: m => by
    simp only [meantFields, GMap.get]
    split
    · rfl
    · exact get_meant k m

theorem key_meant (k : Str) (p : P) : (meant p).key k = (p.key k).map meant := by
  cases p with
  | sc s => cases s <;> rfl
  | arr l => rfl
  | obj m => exact get_meant k m

theorem types_meant : ∀ (l : List P) (st : Str × Bool × Bool), (∀ t, P.sc (.str t) ∈ l → '\\' ∉ t) → (meantList l).foldl typeStep st = l.foldl typeStep st
  | [], _, _ => rfl
  | p :: l, st, h => by
    have hp : typeStep st (meant p) = typeStep st p := by
      cases p with
      | sc s =>
        cases s with
        | str t => simp only [meant, unesc_noescape (h t (List.mem_cons_self ..))]
        | _ => rfl
      | arr l => rfl
      | obj m => rfl
    simp only [meantList, List.foldl_cons, hp]
    exact types_meant l _ fun t ht => h t (List.mem_cons_of_mem _ ht)

/-- **C134**: for an instance whose types are written without escape sequences, `FieldType` gives the type that the text means. -/
theorem C134_partial {q : P} (h : PlainTypes q) : fieldType q = fieldType (meant q) := by
  unfold fieldType
  rw [key_meant]
  cases hk : q.key g!"type" with
  | none => rfl
  | some v =>
    cases v with
    | sc s =>
      cases s with
      | str t => simp only [Option.map_some, meant, unesc_noescape (h.1 t hk)]
      | _ => rfl
    | arr l =>
      simp only [Option.map_some, meant]
      rw [types_meant l _ fun t ht => h.2 l t hk ht]
    | obj m => rfl

theorem unesc_length : ∀ (n : Nat) (t : Str), t.length ≤ n → (unescStr t).length ≤ t.length
  | 0, t, h => by
    cases t with
    | nil => simp [unescStr]
    | cons c t => simp at h
  | n + 1, t, h => by
    unfold unescStr
    split
    · rename_i a b c d t
      have := unesc_length n t (by simp only [List.length_cons] at h; omega)
      simp only [List.length_cons]
      omega
    · rename_i c t _
      have := unesc_length n t (by simp only [List.length_cons] at h; omega)
      simp only [List.length_cons]
      omega
    · rename_i c t _ _
      have := unesc_length n t (by simp only [List.length_cons] at h; omega)
      simp only [List.length_cons]
      omega
    · exact Nat.le_refl _

/-- The text of a JSON string with an escape sequence is never what it means. -/
theorem unesc_ne {t : Str} (h : Json.Chars t) : '\\' ∈ t → unescStr t ≠ t := by
  induction h with
  | nil => intro h; cases h
  | @cons a b ha hb ih =>
    intro hm e
    have hl := congrArg List.length e
    have := unesc_length _ b (Nat.le_refl _)
    cases ha with
    | @plain c _ _ hc =>
      rw [List.cons_append, List.nil_append, unesc_plain hc] at e
      rcases List.mem_cons.1 hm with h | h
      · exact hc h.symm
      · exact ih h (List.cons.inj e).2
    | @esc c hc =>
      have hu : c ≠ 'u' := by
        rintro rfl
        exact absurd hc (by decide)
      rw [List.cons_append, List.cons_append, List.nil_append, unesc_simple hu] at hl
      simp only [List.length_cons] at hl
      omega
    | uni =>
      simp only [List.cons_append, List.nil_append, unescStr, List.length_cons] at hl
      omega

/-- **C134**, for a type that is a string: `FieldType` gives the type that the text means exactly if it is written without escape sequences. -/
theorem C134_iff {q : P} {t : Str} (hk : q.key g!"type" = some (.sc (.str t))) (ht : Json.Chars t) : fieldType q = fieldType (meant q) ↔ '\\' ∉ t := by
  constructor
  · intro h hm
    have h1 : fieldType q = .ok (t, false) := by unfold fieldType; rw [hk]
    have h2 : fieldType (meant q) = .ok (unescStr t, false) := by unfold fieldType; rw [key_meant, hk]; rfl
    rw [h1, h2] at h
    exact unesc_ne ht hm (Prod.mk.inj (Res.ok.inj h)).1.symm
  · intro h
    exact C134_partial ⟨fun t' e => (by rw [hk] at e; cases e; exact h), fun l t' e => (by rw [hk] at e; cases e)⟩

theorem walk_fields {σ : Type} {f g : Str × P → σ → Res σ} : ∀ {m : List (Str × P)} {s : σ}, (∀ kv ∈ m, ∀ s, f kv s = g (kv.1, meant kv.2) s) →
    foldRes f m s = foldRes g (meantFields m) s
  | [], _, _ => rfl
  | (k, p) :: m, s, h => by
    simp only [meantFields, foldRes, h (k, p) (List.mem_cons_self ..)]
    split
    · exact walk_fields fun kv hm => h kv (List.mem_cons_of_mem _ hm)
    · rfl
    · rfl

/-- **C134**: walking below an instance, if all types there are written without escape sequences, is walking below the instance that the text means. -/
theorem C134_walk_partial {σ : Type} (fn : Str → P → σ → Res σ) : ∀ (n : Nat) (raw : P) (path : Str) (s : σ), (∀ q, Inst raw q → PlainTypes q) →
    walkRaw (fun path q s => fn path (meant q) s) n raw path s = walkRaw fn n (meant raw) path s
  | 0, _, _, _, _ => rfl
  | n + 1, raw, path, s, h => by
    have after : ∀ {q r : P}, Inst raw q → Inst q r → Inst raw r := by
      intro q r h0 h1
      induction h1 with
      | self => exact h0
      | prop _ h1 h2 ih => exact .prop ih h1 h2
      | items _ h1 ih => exact .items ih h1
    unfold walkRaw
    rw [C134_partial (h raw (.self raw)), key_meant, key_meant]
    cases fn path (meant raw) s with
    | err => rfl
    | panic => rfl
    | ok s' =>
      dsimp only
      cases fieldType (meant raw) with
      | err => rfl
      | panic => rfl
      | ok r =>
        dsimp only
        split
        · cases hp : raw.key g!"properties" with
          | none => rfl
          | some v =>
            cases v with
            | sc s => cases s <;> rfl
            | arr l => rfl
            | obj m =>
              simp only [Option.map_some, meant]
              exact walk_fields fun kv hkv s => C134_walk_partial fn n kv.2 _ s fun q hq => h q (after (.prop (.self raw) hp hkv) hq)
        · split
          · cases hp : raw.key g!"items" with
            | none => rfl
            | some v =>
              simp only [Option.map_some]
              exact C134_walk_partial fn n v _ s' fun q hq => h q (after (.items (.self raw) hp) hq)
          · rfl

/-- **C134, full statement**: texts that mean the same document have the same type. -/
def C134_statement : Prop := ∀ q q' : P, meant q = meant q' → fieldType q = fieldType q'

/-- If an instance has one type, `Walk` and `WalkRaw` see the same one. -/
def C134_agree_statement : Prop :=
  ∀ (quote : Str → Str) (q : P) (t : Str), (∀ t, unescStr (quote t) = t) → t ≠ g!"null" → typeNames quote q = .ok [t] → ∃ nu, fieldType q = .ok (t, nu)

/-- For types written without escape sequences they do. -/
theorem C134_agree_partial {quote : Str → Str} {q : P} {t : Str} (hq : ∀ t, unescStr (quote t) = t) (hn : t ≠ g!"null") (hp : PlainTypes q)
    (h : typeNames quote q = .ok [t]) : ∃ nu, fieldType q = .ok (t, nu) := by
  unfold typeNames at h
  unfold fieldType
  cases hk : q.key g!"type" with
  | none => rw [hk] at h; cases h
  | some v =>
    rw [hk] at h
    cases v with
    | sc s =>
      cases s with
      | str t' =>
        dsimp only at h
        rw [hq] at h
        cases h
        exact ⟨false, rfl⟩
      | nil => cases h
      | _ => cases h
    | obj m => cases h
    | arr l =>
      have h1 : mapRes (fun p => asString (some p)) (meantList l) = .ok [t] := h
      cases l with
      | nil => cases h1
      | cons p l =>
        have hl : l = [] := by
          cases l with
          | nil => rfl
          | cons p' l =>
            exfalso
            simp only [meantList, mapRes, Res.bind_eq_ok, Res.pure_eq_ok] at h1
            obtain ⟨_, _, _, ⟨_, _, _, _, rfl⟩, e⟩ := h1
            cases e
        subst hl
        simp only [meantList, mapRes, Res.bind_eq_ok, Res.pure_eq_ok] at h1
        obtain ⟨x, h2, _, e0, e⟩ := h1
        cases e0
        cases e
        cases p with
        | sc s =>
          cases s with
          | str t' =>
            simp only [meant, asString, unesc_noescape (hp.2 _ t' hk (List.mem_cons_self ..))] at h2
            cases h2
            refine ⟨false, ?_⟩
            simp [typeStep, hn]
          | nil =>
            cases h2
            exact ⟨false, rfl⟩
          | _ => cases h2
        | arr l => cases h2
        | obj m => cases h2

namespace C134ex
open Toy
/-- An object, and one whose type is written with an escape sequence. -/
def plain : P := o [(g!"type", a [s g!"object"]), (g!"properties", o [(g!"b", o [(g!"type", s g!"string")])])]
def odd : P := o [(g!"type", a [s ('\\' :: g!"u006fbject")]), (g!"properties", o [(g!"b", o [(g!"type", s g!"string")])])]

example : meant odd = plain := by rfl
example : fieldType plain = .ok (g!"object", false) := by decide +kernel
example : fieldType odd = .ok ('\\' :: g!"u006fbject", false) := by decide +kernel

/-- `WalkRaw` does not visit what is below. -/
example : walkRaw (fun p _ (l : List Str) => .ok (l ++ [p])) 3 plain g!"$.a" [] = .ok [g!"$.a", g!"$.a.b"] := by decide +kernel
example : walkRaw (fun p _ (l : List Str) => .ok (l ++ [p])) 3 odd g!"$.a" [] = .ok [g!"$.a"] := by decide +kernel

theorem plain_types {q : P} (h : Inst plain q) : PlainTypes q := by
  have : q = plain ∨ q = o [(g!"type", s g!"string")] := by
    induction h with
    | self => exact .inl rfl
    | prop _ h1 h2 ih =>
      rcases ih with rfl | rfl
      · cases h1
        cases List.mem_singleton.1 h2
        exact .inr rfl
      · cases h1
    | items _ h1 ih =>
      rcases ih with rfl | rfl <;> cases h1
  rcases this with rfl | rfl
  · refine ⟨fun t e => (by cases e), fun l t e hm => ?_⟩
    cases e
    cases List.mem_singleton.1 hm
    decide
  · refine ⟨fun t e => ?_, fun l t e => by cases e⟩
    cases e
    decide

example {σ : Type} (fn : Str → P → σ → Res σ) (n : Nat) (s : σ) := C134_walk_partial fn n plain g!"$.a" s fun _ h => plain_types h
example : Json.Chars g!"object" := .cons (.plain (by decide) (by decide) (by decide)) (.cons (.plain (by decide) (by decide) (by decide))
  (.cons (.plain (by decide) (by decide) (by decide)) (.cons (.plain (by decide) (by decide) (by decide))
  (.cons (.plain (by decide) (by decide) (by decide)) (.cons (.plain (by decide) (by decide) (by decide)) .nil)))))
example : typeNames escStr plain = .ok [g!"object"] := by decide +kernel
end C134ex

open C134ex in
/-- The text of the type counts, not what it means. -/
theorem C134_refuted : ¬ C134_statement := by
  intro h
  have := h odd plain rfl
  exact absurd this (by decide +kernel)

open C134ex in
/-- `Walk` sees an object where `WalkRaw` sees something else. -/
theorem C134_agree_refuted : ¬ C134_agree_statement := by
  intro h
  obtain ⟨nu, h⟩ := h escStr odd g!"object" unesc_esc (by decide) (by decide +kernel)
  have h1 : fieldType odd = .ok ('\\' :: g!"u006fbject", false) := by decide +kernel
  rw [h1] at h
  cases h

end JT
