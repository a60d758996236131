import Verif.Props.C40
import Verif.Proofs.Strings
/- C135: references compared with JSON pointers (RFC 6901). -/
namespace JT
open Spec

namespace Spec
/-- RFC 6901: in the tokens of a pointer `~1` stands for a slash and `~0` for a tilde; a tilde before anything else is an error. -/
inductive TokenOf : Str → Str → Prop where
  | nil : TokenOf [] []
  | slash {t s : Str} : TokenOf t s → TokenOf ('~' :: '1' :: t) ('/' :: s)
  | tilde {t s : Str} : TokenOf t s → TokenOf ('~' :: '0' :: t) ('~' :: s)
  | plain {c : Char} {t s : Str} : c ≠ '~' → TokenOf t s → TokenOf (c :: t) (c :: s)

/-- RFC 6901: what the tokens point to in a document. Tokens name fields of objects and, in decimal, entries of arrays. -/
inductive Pointed : P → List Str → P → Prop where
  | here {p : P} : Pointed p [] p
  | field {m : List (Str × P)} {t k : Str} {q r : P} {ts : List Str} : TokenOf t k → GMap.get k m = some q → Pointed q ts r →
      Pointed (.obj m) (t :: ts) r
  | entry {l : List P} {i : Nat} {q r : P} {ts : List Str} : l[i]? = some q → Pointed q ts r → Pointed (.arr l) (itoaNat i :: ts) r

/-- The text of the pointer with these tokens: each after a slash. -/
def pointer (ts : List Str) : Str := (ts.map ('/' :: ·)).flatten

/-- Tokens that mean themselves: no tilde, not empty, not a number and not starting with a bracket. -/
structure PlainToken (t : Str) : Prop where
  filled : t ≠ []
  tilde : '~' ∉ t
  number : ∃ c ∈ t, isDigit c = false
  bracket : t.head? ≠ some '['
end Spec

/-- What a user who knows JSON pointers expects of references whose tokens satisfy `T`: the reference is understood when the pointer points to an
object, and gives this object (marked with the reference). -/
def C135_statement (T : Str → Prop) : Prop :=
  ∀ (w : World) (schemaPath f : Str) (ts : List Str) (data source : P) (m : List (Str × P)), '#' ∉ f → (∀ t ∈ ts, '/' ∉ t ∧ T t) →
    SourceOf w schemaPath data f source → Pointed source ts (.obj m) →
    resolveRef w schemaPath (f ++ '#' :: pointer ts) data = .ok (.obj (setField fromRefKey (.sc (.str (w.quote (f ++ '#' :: pointer ts)))) m))

theorem TokenOf_self : ∀ {t : Str}, '~' ∉ t → TokenOf t t
  | [], _ => .nil
  | _ :: _, h => .plain (fun e => h (e ▸ List.mem_cons_self)) (TokenOf_self (fun e => h (List.mem_cons_of_mem _ e)))

theorem TokenOf_plain {t k : Str} (h : TokenOf t k) : '~' ∉ t → k = t := by
  induction h with
  | nil => intro _; rfl
  | slash _ _ => intro h; exact absurd List.mem_cons_self h
  | tilde _ _ => intro h; exact absurd List.mem_cons_self h
  | plain _ _ ih => intro h; rw [ih (fun e => h (List.mem_cons_of_mem _ e))]

theorem pointer_join : ∀ (t : Str) (ts : List Str), pointer (t :: ts) = '/' :: join g!"/" (t :: ts)
  | t, [] => by simp [pointer, join]
  | t, u :: ts => by
    have := pointer_join u ts
    unfold pointer at this ⊢
    rw [List.map_cons, List.flatten_cons, this]
    simp [join]

/-- A pointer is a reference that the code splits into its tokens. -/
theorem pointer_parts {f : Str} {ts : List Str} (hf : '#' ∉ f) (h : ∀ t ∈ ts, '/' ∉ t ∧ t ≠ []) : RefParts (f ++ '#' :: pointer ts) f ts := by
  rcases ts with _ | ⟨t, ts⟩
  · exact .whole 0 hf
  · have := RefParts.keys (f := f) 1 0 t ts hf (fun x hx => (h x hx).1) (h t List.mem_cons_self).2
      (fun e => (h [] (List.mem_of_getLast? e)).2 rfl)
    rw [pointer_join]
    simpa using this

theorem at_pointed : ∀ {ts : List Str}, (∀ t ∈ ts, PlainToken t) → ∀ (p r : P), p.at ts = some r ↔ Pointed p ts r
  | [], _, p, r => by
    constructor
    · intro h; cases h; exact .here
    · intro h; cases h; rfl
  | t :: ts, ht, p, r => by
    have ih := at_pointed (ts := ts) (fun x hx => ht x (List.mem_cons_of_mem _ hx))
    have hp := ht t List.mem_cons_self
    have e : p.at (t :: ts) = (p.step t).bind (P.at ts) := by unfold P.at; rfl
    rw [e, Option.bind_eq_some_iff]
    constructor
    · rintro ⟨q, hq, hr⟩
      rcases p with _ | l | m
      · simp [P.step] at hq
      · have : arrIndex t = none := by
          unfold arrIndex
          split
          · exact absurd rfl hp.bracket
          · rfl
        simp [P.step, this] at hq
      · exact .field (TokenOf_self hp.tilde) hq ((ih q r).1 hr)
    · intro h
      generalize hx : t :: ts = x at h
      cases h with
      | here => simp at hx
      | field hk hg hr =>
        cases hx
        refine ⟨_, ?_, (ih _ r).2 hr⟩
        rw [TokenOf_plain hk hp.tilde] at hg
        exact hg
      | @entry l i q _ _ hg hr =>
        simp only [List.cons.injEq] at hx
        obtain ⟨c, hc, hd⟩ := hp.number
        rw [hx.1] at hc
        exact absurd hc (itoaNat_no_char i c hd)

/-- **C135**, for tokens that mean themselves: a reference is understood exactly when it is a pointer to an object, and gives this object. -/
theorem C135_iff (w : World) (schemaPath f : Str) (ts : List Str) (data r : P) (hf : '#' ∉ f) (h : ∀ t ∈ ts, '/' ∉ t ∧ PlainToken t) :
    resolveRef w schemaPath (f ++ '#' :: pointer ts) data = .ok r ↔ ∃ source m, SourceOf w schemaPath data f source ∧ Pointed source ts (.obj m) ∧
      r = .obj (setField fromRefKey (.sc (.str (w.quote (f ++ '#' :: pointer ts)))) m) := by
  rw [C49 w schemaPath _ f ts data r (pointer_parts hf (fun t ht => ⟨(h t ht).1, (h t ht).2.filled⟩))]
  constructor
  · rintro ⟨source, m, a, b, c⟩
    exact ⟨source, m, a, (at_pointed (fun t ht => (h t ht).2) _ _).1 b, c⟩
  · rintro ⟨source, m, a, b, c⟩
    exact ⟨source, m, a, (at_pointed (fun t ht => (h t ht).2) _ _).2 b, c⟩

/-- **C135**, partial: only for tokens that mean themselves. Missing: escaped tokens, entries of arrays and empty tokens, for which it is false (below). -/
theorem C135_partial : C135_statement PlainToken :=
  fun w schemaPath f ts data source m hf ht hs hp => (C135_iff w schemaPath f ts data _ hf ht).2 ⟨source, m, hs, hp, rfl⟩

namespace C135ex
def w : World := { load := fun _ => .err, http := fun _ => .err, absRef := fun _ _ => .err, quote := fun s => s }
def str : List (Str × P) := [(g!"type", .sc (.str g!"string"))]
/-- A definition below a definition, one whose name has a slash, one in an array and one with an empty name. -/
def doc : P := .obj [(g!"definitions", .obj [(g!"name", .obj str), (g!"a/b", .obj str), (g!"all", .arr [.obj str]), ([], .obj str)])]

theorem plain_definitions : PlainToken g!"definitions" := ⟨by decide, by decide, ⟨'d', by decide, by decide⟩, by decide⟩
theorem plain_name : PlainToken g!"name" := ⟨by decide, by decide, ⟨'n', by decide, by decide⟩, by decide⟩

/-- The hypotheses of `C135_iff` and `C135_partial` hold for `#/definitions/name`. -/
example : (∀ t ∈ [g!"definitions", g!"name"], '/' ∉ t ∧ PlainToken t) ∧ Pointed doc [g!"definitions", g!"name"] (.obj str) := by
  refine ⟨?_, .field (TokenOf_self (by decide)) rfl (.field (TokenOf_self (by decide)) rfl .here)⟩
  intro t ht
  rcases List.mem_cons.1 ht with rfl | ht
  · exact ⟨by decide, plain_definitions⟩
  · rcases List.mem_cons.1 ht with rfl | ht
    · exact ⟨by decide, plain_name⟩
    · cases ht

example : resolveRef w [] (g!"#" ++ pointer [g!"definitions", g!"name"]) doc =
    .ok (.obj [(g!"type", .sc (.str g!"string")), (fromRefKey, .sc (.str g!"#/definitions/name"))]) := by rfl
end C135ex

open C135ex in
/-- Escaped tokens are taken as they are written: `#/definitions/a~1b` does not reach the definition `a/b`. -/
theorem C135_refuted : ¬ C135_statement (fun t => t ≠ [] ∧ (∃ c ∈ t, isDigit c = false) ∧ t.head? ≠ some '[') := by
  intro h
  have := h w [] [] [g!"definitions", g!"a~1b"] doc doc str (by decide) (by
    intro t ht
    rcases List.mem_cons.1 ht with rfl | ht
    · exact ⟨by decide, by decide, ⟨'d', by decide, by decide⟩, by decide⟩
    · rcases List.mem_cons.1 ht with rfl | ht
      · exact ⟨by decide, by decide, ⟨'a', by decide, by decide⟩, by decide⟩
      · cases ht) .here
    (.field (TokenOf_self (by decide)) rfl (.field (.plain (by decide) (.slash (.plain (by decide) .nil))) rfl .here))
  exact nomatch this

open C135ex in
/-- Numbers do not reach the entries of arrays: `#/definitions/all/0` is not understood. -/
theorem C135_entry_refuted : ¬ C135_statement (fun t => t ≠ [] ∧ '~' ∉ t ∧ t.head? ≠ some '[') := by
  intro h
  have := h w [] [] [g!"definitions", g!"all", itoaNat 0] doc doc str (by decide) (by
    intro t ht
    rcases List.mem_cons.1 ht with rfl | ht
    · decide
    · rcases List.mem_cons.1 ht with rfl | ht
      · decide
      · rcases List.mem_cons.1 ht with rfl | ht
        · decide
        · cases ht) .here
    (.field (TokenOf_self (by decide)) rfl (.field (TokenOf_self (by decide)) rfl (.entry rfl .here)))
  exact nomatch this

open C135ex in
/-- Slashes at the end do not matter: `#/definitions/` gives all the definitions rather than the one whose name is empty. -/
theorem C135_empty_refuted : ¬ C135_statement (fun t => '~' ∉ t ∧ (t = [] ∨ ∃ c ∈ t, isDigit c = false) ∧ t.head? ≠ some '[') := by
  intro h
  have := h w [] [] [g!"definitions", []] doc doc str (by decide) (by
    intro t ht
    rcases List.mem_cons.1 ht with rfl | ht
    · exact ⟨by decide, by decide, .inr ⟨'d', by decide, by decide⟩, by decide⟩
    · rcases List.mem_cons.1 ht with rfl | ht
      · exact ⟨by decide, by decide, .inl rfl, by decide⟩
      · cases ht) .here
    (.field (TokenOf_self (by decide)) rfl (.field .nil rfl .here))
  have e : resolveRef w [] ([] ++ '#' :: pointer [g!"definitions", []]) doc =
      .ok (.obj [(g!"name", .obj str), (g!"a/b", .obj str), (g!"all", .arr [.obj str]), ([], .obj str),
        (fromRefKey, .sc (.str g!"#/definitions/"))]) := by rfl
  rw [e] at this
  have := congrArg (fun r => match r with | .ok (.obj m) => m.length | _ => 0) this
  exact absurd this (by decide)

end JT
