import Verif.Model.Struct
import Verif.Spec.Decode
import Verif.Props.C34
/- Which structs a generated struct embeds. -/
namespace JT.Spec
open JT.Gen

/-- The name of a struct: the one given for the base name of the file, or else made of the base name. -/
def NameOf (names : GMap Str) (f : Str → Str) (ref name : Str) : Prop :=
  ∃ stem, BaseName ref stem ∧ (GMap.get stem names = some name ∨ (GMap.get stem names = none ∧ name = f stem))

/-- `Embeds title args given allOf l`: the structs that the struct for a schema embeds: those that are given and, if the option for it is set, one for each allOf entry, with
the name of the struct for the file that the entry refers to. -/
inductive Embeds (title : Str → Str) (args : Args) (given : List Str) (allOf : List Instance) : List Str → Prop where
  | off : args.embedAllOf = false → Embeds title args given allOf given
  | on {ns : List Str} : args.embedAllOf = true → Each (fun (a : Instance) n => NameOf args.structNames title a.fromRef n) allOf ns →
      Embeds title args given allOf (given ++ ns)
end JT.Spec
namespace JT.Gen
open JT.Spec

theorem nameOf_getD {names : GMap Str} {f : Str → Str} {r : Str} : NameOf names f r ((GMap.get (subName r) names).getD (f (subName r))) := by
  obtain ⟨s, hs⟩ := baseName_total r
  rw [subName_baseName hs]
  refine ⟨s, hs, ?_⟩
  rcases h : GMap.get s names with _ | v
  · exact .inr ⟨rfl, rfl⟩
  · exact .inl rfl

theorem nameOf_eq {names : GMap Str} {f : Str → Str} {r n : Str} (h : NameOf names f r n) : n = (GMap.get (subName r) names).getD (f (subName r)) := by
  obtain ⟨s, hs, h⟩ := h
  rw [subName_baseName hs]
  rcases h with h | ⟨h, rfl⟩ <;> rw [h] <;> rfl

theorem embeds_iff {title : Str → Str} {args : Args} {given : List Str} {allOf : List Instance} {l : List Str} :
    Embeds title args given allOf l ↔ l = given ++ embedNames title args allOf := by
  have he : ∀ (allOf : List Instance) (ns : List Str), Each (fun (a : Instance) n => NameOf args.structNames title a.fromRef n) allOf ns ↔
      ns = allOf.map fun a => (GMap.get (subName a.fromRef) args.structNames).getD (title (subName a.fromRef)) := by
    intro allOf
    induction allOf with
    | nil =>
      intro ns
      constructor
      · intro h; cases h; rfl
      · rintro rfl; exact .nil
    | cons a t ih =>
      intro ns
      constructor
      · intro h
        cases h with
        | cons h1 h2 => rw [List.map_cons, ← nameOf_eq h1, ← (ih _).1 h2]
      · rintro rfl
        exact .cons nameOf_getD ((ih _).2 rfl)
  unfold embedNames
  constructor
  · intro h
    cases h with
    | off h => rw [h]; simp
    | on h h2 => rw [if_pos h, (he _ _).1 h2]
  · intro h
    cases ha : args.embedAllOf with
    | false => rw [ha] at h; simp only [Bool.false_eq_true, if_false, List.append_nil] at h; rw [h]; exact .off ha
    | true => rw [ha] at h; simp only [if_true] at h; rw [h]; exact .on ha ((he _ _).2 rfl)

end JT.Gen
