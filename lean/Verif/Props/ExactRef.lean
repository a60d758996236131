import Verif.Props.C40
/- C123: exactly what resolving one reference does. -/
namespace JT
open Spec

namespace Spec
/-- The reference with this text in the document points to an object with these fields. -/
def PointsTo (w : World) (schemaPath : Str) (data : P) (raw : Str) (fields : List (Str × P)) : Prop :=
  ∃ f keys source, RefParts (unescStr raw) f keys ∧ SourceOf w schemaPath data f source ∧ source.at keys = some (.obj fields)

/-- A value beside a reference as it is written back: strings are encoded once more. -/
inductive WrittenBack : P → P → Prop where
  | text {raw : Str} : WrittenBack (.sc (.str raw)) (.sc (.str (escStr raw)))
  | other {p : P} : (∀ raw, p ≠ .sc (.str raw)) → WrittenBack p p

/-- The field of the object that takes the place of one with the fields `beside` and a reference to `target`: what was beside the reference is written back; the reference is
noted under `fromRef`; everything else comes from the target, a reference of the target included. -/
inductive FieldAfter (note : Str) (beside target : List (Str × P)) (k : Str) : Option P → Prop where
  | beside {v v' : P} : k ≠ refKey → GMap.get k beside = some v → WrittenBack v v' → FieldAfter note beside target k (some v')
  | note : (k = refKey ∨ GMap.get k beside = none) → k = fromRefKey → FieldAfter note beside target k (some (.sc (.str note)))
  | target : (k = refKey ∨ GMap.get k beside = none) → k ≠ fromRefKey → FieldAfter note beside target k (GMap.get k target)

/-- The document after resolving the reference in the object at `dest`: everything elsewhere stays; at the root the reference is only taken away. -/
inductive RefOutcome (note : Str) (data : P) (dest : List Str) (beside target : List (Str × P)) (data' : P) : Prop where
  | root {m : List (Str × P)} : dest = [] → data' = .obj m → (∀ k, GMap.get k m = if k = refKey then none else GMap.get k beside) → RefOutcome note data dest beside target data'
  | below {m : List (Str × P)} : dest ≠ [] → data'.at dest = some (.obj m) → (∀ k, FieldAfter note beside target k (GMap.get k m)) →
      (∀ other, Ref.Apart data other dest → data'.at other = data.at other) → RefOutcome note data dest beside target data'
end Spec

theorem writtenBack (p : P) : WrittenBack p (siblingValue p) := by
  cases p with
  | obj m => exact .other (fun _ => P.noConfusion)
  | arr l => exact .other (fun _ => P.noConfusion)
  | sc s =>
    cases s with
    | str raw => exact .text
    | _ => exact .other (fun _ h => by injection h with h; exact Scal.noConfusion h)

/-- **C123**: resolving the reference in an object succeeds exactly if there is a text under `$ref` that points to an object; the result is then as above. -/
theorem C123 (w : World) (schemaPath : Str) (dest : List Str) (data : P) (hnd : ∀ m, data.at dest = some (.obj m) → (m.map Prod.fst).Nodup) :
    ((∃ data', derefOne w schemaPath (dest ++ [refKey]) data = .ok data') ↔
      ∃ beside raw target, data.at dest = some (.obj beside) ∧ GMap.get refKey beside = some (.sc (.str raw)) ∧ PointsTo w schemaPath data raw target) ∧
    ∀ data' beside raw target, derefOne w schemaPath (dest ++ [refKey]) data = .ok data' → data.at dest = some (.obj beside) →
      GMap.get refKey beside = some (.sc (.str raw)) → PointsTo w schemaPath data raw target → RefOutcome (w.quote (unescStr raw)) data dest beside target data' := by
  have back : ∀ beside raw target, data.at dest = some (.obj beside) → GMap.get refKey beside = some (.sc (.str raw)) → PointsTo w schemaPath data raw target →
      ∃ data', derefOne w schemaPath (dest ++ [refKey]) data = .ok data' ∧ RefOutcome (w.quote (unescStr raw)) data dest beside target data' := by
    intro beside raw target hat href ⟨f, keys, source, hp, hs, ht⟩
    have hres := (C49 w schemaPath (unescStr raw) f keys data _ hp).2 ⟨source, target, hs, ht, rfl⟩
    by_cases hd : dest = []
    · subst hd
      simp only [P.at, Option.some.injEq] at hat
      subst hat
      refine ⟨_, C40_root w schemaPath raw beside _ href hres, .root rfl rfl fun k => ?_⟩
      by_cases hk : k = refKey
      · rw [if_pos hk, hk, Ref.get_delField_self (hnd _ rfl)]
      · rw [if_neg hk, Ref.get_delField_ne hk]
    · obtain ⟨data', h1, ⟨m', h2, h3⟩, h4⟩ := C40_code w schemaPath raw dest data beside _ hd hat (hnd _ hat) href hres
      refine ⟨data', h1, .below hd h2 (fun k => ?_) h4⟩
      rw [h3 k]
      have tgt : (k = refKey ∨ GMap.get k beside = none) →
          FieldAfter (w.quote (unescStr raw)) beside target k (GMap.get k (setField fromRefKey (.sc (.str (w.quote (unescStr raw)))) target)) := by
        intro hb
        by_cases hk : k = fromRefKey
        · rw [hk, Ref.get_setField_self]; rw [hk] at hb; exact .note hb rfl
        · rw [Ref.get_setField_ne hk]; exact .target hb hk
      cases hg : GMap.get k beside with
      | none => exact tgt (.inr hg)
      | some v =>
        simp only
        by_cases hk : k = refKey
        · rw [if_pos hk]; exact tgt (.inl hk)
        · rw [if_neg hk]; exact .beside hk hg (writtenBack v)
  refine ⟨⟨?_, ?_⟩, ?_⟩
  · rintro ⟨data', h⟩
    unfold derefOne at h
    obtain ⟨ref, h1, h⟩ := Res.bind_eq_ok.1 h
    obtain ⟨r, h2, h⟩ := Res.bind_eq_ok.1 h
    unfold refString at h1
    split at h1
    · rename_i raw hraw
      injection h1 with h1
      subst h1
      rw [Ref.at_append] at hraw
      obtain ⟨q, hq, hr⟩ := Option.bind_eq_some_iff.1 hraw
      simp only [P.at] at hr
      obtain ⟨x, hx, hr⟩ := Option.bind_eq_some_iff.1 hr
      cases hr
      obtain ⟨f, keys, hp, -⟩ := C49_total (unescStr raw)
      obtain ⟨source, m, hs, ht, -⟩ := (C49 w schemaPath (unescStr raw) f keys data r hp).1 h2
      cases q with
      | sc s => cases hx
      | arr l =>
        simp only [P.step] at hx
        rw [show arrIndex refKey = none by decide] at hx
        cases hx
      | obj beside => exact ⟨beside, raw, m, hq, hx, f, keys, source, hp, hs, ht⟩
    · cases h1
  · rintro ⟨beside, raw, target, h1, h2, h3⟩
    obtain ⟨data', h, -⟩ := back beside raw target h1 h2 h3
    exact ⟨data', h⟩
  · intro data' beside raw target h h1 h2 h3
    obtain ⟨data'', h4, h5⟩ := back beside raw target h1 h2 h3
    rw [h] at h4
    injection h4 with h4
    subst h4
    exact h5

/-- A reference with a description beside it. -/
example : PointsTo ⟨fun _ => .err, fun _ => .err, fun _ _ => .err, id⟩ [] (.obj [(g!"a", .obj [(refKey, .sc (.str g!"#/d")), (g!"description", .sc (.str g!"x"))]),
    (g!"d", .obj [(g!"type", .sc (.str g!"string")), (g!"description", .sc (.str g!"y"))])]) g!"#/d" [(g!"type", .sc (.str g!"string")), (g!"description", .sc (.str g!"y"))] := by
  obtain ⟨f, keys, hp, hu⟩ := C49_total g!"#/d"
  have h := Ref.splitRef_keys hp
  have e : splitRef g!"#/d" = ([], g!"d") := by decide
  rw [e] at h
  obtain ⟨rfl, h | ⟨-, -, h⟩⟩ := h
  · exact absurd h.2 (by decide)
  · have : splitC '/' g!"d" = [g!"d"] := by decide
    rw [this] at h
    subst h
    exact ⟨[], [g!"d"], _, hp, .here, by rfl⟩

end JT
