import Verif.Props.C75
/- C125: exactly for which structs a conversion to Avro can be generated. -/
namespace JT.Go
open Spec

namespace Spec
/-- All embedded structs are found, at any depth, and none embeds itself. -/
inductive Complete (files : Str → Option (List GoField)) : List GoField → Prop where
  | nil : Complete files []
  | field {k : Str} {ty : GoType} {tg : Tag} {t : List GoField} : Complete files t → Complete files (.mk (some k) ty tg :: t)
  | embeds {e : Str} {fs : List GoField} {tg : Tag} {t : List GoField} : files e = some fs → Complete files fs → Complete files t → Complete files (.mk none (.ident e) tg :: t)
  /-- An embedded pointer or type of another package is passed over. -/
  | passed {ty : GoType} {tg : Tag} {t : List GoField} : (∀ e, ty ≠ .ident e) → Complete files t → Complete files (.mk none ty tg :: t)

/-- The Go types of Avro scalars, and of unions of null with them. -/
def avroScalars : List Str := [g!"string", g!"bool", g!"float64", g!"int64", g!"UnionNullDouble", g!"UnionNullLong", g!"UnionNullString"]

/-- The record a named type stands for: itself, or what is in the union with null. -/
inductive RecordNamed : Str → Str → Prop where
  | union {r : Str} : g!"UnionNull" ++ r ∉ avroScalars → RecordNamed (g!"UnionNull" ++ r) r
  | plain {t : Str} : t ∉ avroScalars → (∀ r, t ≠ g!"UnionNull" ++ r) → RecordNamed t t

/-- What a record is made from: the entries of a list, or the value itself. -/
inductive MadeFrom : GoType → GoType → Prop where
  | list {e : GoType} : MadeFrom (.array e) e
  | single {t : GoType} : (∀ e, t ≠ .array e) → MadeFrom t t

/-- The fields of a struct or a pointer to one. -/
inductive FieldsIn (d : Decls) : GoType → List GoField → Prop where
  | inline {fs : List GoField} : FieldsIn d (.struct fs) fs
  | named {n : Str} {fs : List GoField} : d.gen n = some fs → FieldsIn d (.ident n) fs
  | inlinePtr {fs : List GoField} : FieldsIn d (.star (.struct fs)) fs
  | namedPtr {n : Str} {fs : List GoField} : d.gen n = some fs → FieldsIn d (.star (.ident n)) fs

mutual
/-- A field of the first type, in the generated struct, can be converted to the second, in the Avro struct. -/
inductive CanConvert (d : Decls) : GoType → GoType → Prop where
  /-- A scalar is taken from whatever there is. -/
  | scalar {g : GoType} {t : Str} : t ∈ avroScalars → CanConvert d g (.ident t)
  | pointer {g a : GoType} : CanConvert d g a → CanConvert d g (.star a)
  | map {k v k' a : GoType} : CanConvert d (.map k v) a → CanConvert d (.map k v) (.map k' a)
  | list {e a : GoType} : (∀ x, a ≠ .star x) → CanConvert d (.array e) a → CanConvert d (.array e) (.array a)
  | listPtr {e a : GoType} : CanConvert d (.array e) a → CanConvert d (.array e) (.array (.star a))
  /-- The struct has no embedded structs and a field for each in the record. -/
  | record {g e : GoType} {t r : Str} {afs fs : List GoField} : RecordNamed t r → d.avro r = some afs → MadeFrom g e → FieldsIn d e fs → Complete (fun _ => none) fs →
      HasAll d (Chosen (fun _ => none) fs) afs → CanConvert d g (.ident t)
/-- There is a field that can be converted for each in the Avro struct, but for those of the template. -/
inductive HasAll (d : Decls) : (Str → GoField → Prop) → List GoField → Prop where
  | nil {has : Str → GoField → Prop} : HasAll d has []
  | template {has : Str → GoField → Prop} {k : Str} {ty : GoType} {tg : Tag} {t : List GoField} : g!"Avro" <+: k → HasAll d has t → HasAll d has (.mk (some k) ty tg :: t)
  | field {has : Str → GoField → Prop} {k : Str} {ty : GoType} {tg : Tag} {f : GoField} {t : List GoField} : ¬ g!"Avro" <+: k → has k f → CanConvert d f.type ty → HasAll d has t →
      HasAll d has (.mk (some k) ty tg :: t)
end
end Spec

variable {d : Decls} {files : Str → Option (List GoField)} {ord : GMap GoField → GMap GoField}

/-! ### Embedded structs -/

theorem complete_loop {rec : List GoField → Res (GMap GoField)} (hr : ∀ fs em, rec fs = .ok em → Complete files fs) : ∀ (l : List GoField) (m r : GMap GoField),
    mapLoop files ord rec l m = .ok r → Complete files l
  | [], _, _, _ => .nil
  | .mk (some k) ty tg :: t, m, r, h => by rw [mapLoop] at h; exact .field (complete_loop hr t _ r h)
  | .mk none ty tg :: t, m, r, h => by
    cases ty with
    | ident e =>
      rw [mapLoop] at h
      cases hf : files e with
      | none => rw [hf] at h; cases h
      | some fs =>
        rw [hf] at h
        obtain ⟨em, h1, h2⟩ := Res.bind_eq_ok.1 h
        exact .embeds hf (hr fs em h1) (complete_loop hr t _ r h2)
    | _ =>
      rw [mapLoop] at h
      · exact .passed (by simp) (complete_loop hr t _ r h)
      · simp

theorem complete_of : ∀ (n : Nat) (l : List GoField) (m : GMap GoField), mapFields files ord n l = .ok m → Complete files l
  | 0, _, _, h => by cases h
  | n + 1, l, m, h => complete_loop (complete_of n) l [] m h

theorem of_complete {l : List GoField} (h : Complete files l) : ∃ N, ∀ n, N ≤ n → ∀ m, ∃ r, mapLoop files ord (mapFields files ord n) l m = .ok r := by
  induction h with
  | nil => exact ⟨0, fun n _ m => ⟨m, rfl⟩⟩
  | field _ ih =>
    obtain ⟨N, h⟩ := ih
    exact ⟨N, fun n hn m => by rw [mapLoop]; exact h n hn _⟩
  | embeds hf _ _ ih1 ih2 =>
    obtain ⟨N1, h1⟩ := ih1
    obtain ⟨N2, h2⟩ := ih2
    refine ⟨N1 + 1 + N2, fun n hn m => ?_⟩
    rw [mapLoop, hf]
    obtain ⟨k, rfl⟩ : ∃ k, n = k + 1 := ⟨n - 1, by omega⟩
    obtain ⟨em, he⟩ := h1 k (by omega) []
    obtain ⟨r, h3⟩ := h2 (k + 1) (by omega) (GMap.fill m (ord em))
    refine ⟨r, ?_⟩
    simp only [mapFields, he, Res.bind]
    exact h3
  | @passed ty tg t hne _ ih =>
    obtain ⟨N, h⟩ := ih
    refine ⟨N, fun n hn m => ?_⟩
    rw [mapLoop]
    · exact h n hn m
    · exact hne

theorem complete_iff {l : List GoField} : (∃ n m, mapFields files ord n l = .ok m) ↔ Complete files l := by
  constructor
  · rintro ⟨n, m, h⟩; exact complete_of n l m h
  · intro h
    obtain ⟨N, h⟩ := of_complete (ord := ord) h
    obtain ⟨r, h⟩ := h N (Nat.le_refl _) []
    exact ⟨N + 1, r, h⟩

theorem complete_none {l : List GoField} : (∃ m, mapFields (fun _ => none) id 1 l = .ok m) ↔ Complete (fun _ => none) l := by
  constructor
  · rintro ⟨m, h⟩; exact complete_of 1 l m h
  · intro h
    have : ∀ m, ∃ r, mapLoop (fun _ => none) id (mapFields (fun _ => none) id 0) l m = .ok r := by
      induction h with
      | nil => exact fun m => ⟨m, rfl⟩
      | field _ ih => exact fun m => by rw [mapLoop]; exact ih _
      | embeds hf => cases hf
      | passed hne _ ih =>
        intro m
        rw [mapLoop]
        · exact ih m
        · exact hne
    exact this []

/-! ### Types -/

theorem childFields_iff {t : GoType} {fs : List GoField} : (∃ nm, childFields d (unstar t) = .ok (fs, nm)) ↔ FieldsIn d t fs := by
  constructor
  · rintro ⟨nm, h⟩
    have key : ∀ u, childFields d u = .ok (fs, nm) → u = .struct fs ∨ ∃ n, u = .ident n ∧ d.gen n = some fs := by
      intro u h
      cases u with
      | struct l => simp only [childFields, Res.ok.injEq, Prod.mk.injEq] at h; exact .inl (by rw [h.1])
      | ident n =>
        simp only [childFields] at h
        cases hg : d.gen n with
        | none => rw [hg] at h; cases h
        | some l => rw [hg] at h; simp only [Res.ok.injEq, Prod.mk.injEq] at h; exact .inr ⟨n, rfl, by rw [hg, h.1]⟩
      | _ => cases h
    cases t with
    | star x =>
      rcases key x h with rfl | ⟨n, rfl, hn⟩
      · exact .inlinePtr
      · exact .namedPtr hn
    | _ =>
      rcases key _ h with h | ⟨n, h, hn⟩
      all_goals first
        | cases h; exact .inline
        | cases h; exact .named hn
        | cases h
  · intro h
    cases h with
    | inline => exact ⟨none, rfl⟩
    | inlinePtr => exact ⟨none, rfl⟩
    | named h => exact ⟨_, by simp only [unstar, childFields, h]; rfl⟩
    | namedPtr h => exact ⟨_, by simp only [unstar, childFields, h]; rfl⟩

theorem hasPrefix_iff {s p : Str} : hasPrefix s p = true ↔ p <+: s := by
  unfold hasPrefix
  exact List.isPrefixOf_iff_prefix

/-! ### What the generator does is possible -/

theorem hasAll_of {fv : ValueFn} (hfv : ∀ name pre a g v, fv name pre a g = .ok v → CanConvert d g.type a) {m : GMap GoField} {has : Str → GoField → Prop}
    (hm : ∀ K f, GMap.get K m = some f → has K f) {pre : List Str} : ∀ (l : List GoField) {r : List (Str × Code) × List SliceFn}, genFields fv pre m l = .ok r → HasAll d has l
  | [], _, _ => .nil
  | .mk none _ _ :: _, _, h => by cases h
  | .mk (some k) ty tg :: t, r, h => by
    rw [genFields] at h
    split at h
    · rename_i hp
      exact .template (hasPrefix_iff.1 hp) (hasAll_of hfv hm t h)
    · rename_i hp
      split at h
      · cases h
      · rename_i gf hg
        obtain ⟨v, h1, h⟩ := Res.bind_eq_ok.1 h
        obtain ⟨r', h2, h⟩ := Res.bind_eq_ok.1 h
        exact .field (fun hc => hp (hasPrefix_iff.2 hc)) (hm k gf hg) (hfv _ _ _ _ _ h1) (hasAll_of hfv hm t h2)

theorem child_of {fv : ValueFn} (hfv : ∀ name pre a g v, fv name pre a g = .ok v → CanConvert d g.type a) {e : GoType} {pre : List Str} {afs : List GoField}
    {r : List (Str × Code) × List SliceFn × List GoField × Option Str} (h : childStruct d fv e pre afs = .ok r) :
    ∃ fs, FieldsIn d e fs ∧ Complete (fun _ => none) fs ∧ HasAll d (Chosen (fun _ => none) fs) afs := by
  unfold childStruct at h
  obtain ⟨⟨fs, nm⟩, h1, h⟩ := Res.bind_eq_ok.1 h
  obtain ⟨m, h2, h⟩ := Res.bind_eq_ok.1 h
  obtain ⟨r', h3, h⟩ := Res.bind_eq_ok.1 h
  exact ⟨fs, childFields_iff.1 ⟨nm, h1⟩, complete_none.1 ⟨m, h2⟩, hasAll_of hfv (fun K f hg => (C61 (fun m => List.Perm.refl _) 1 fs m h2 K f).1 hg) afs h3⟩

theorem struct_of {fv : ValueFn} (hfv : ∀ name pre a g v, fv name pre a g = .ok v → CanConvert d g.type a) {name r : Str} {pre : List Str} {g : GoField} {v : Mapped}
    (h : structValue d fv name pre r g = .ok v) :
    ∃ afs e fs, d.avro r = some afs ∧ MadeFrom g.type e ∧ FieldsIn d e fs ∧ Complete (fun _ => none) fs ∧ HasAll d (Chosen (fun _ => none) fs) afs := by
  unfold structValue at h
  split at h
  · cases h
  · rename_i afs ha
    split at h
    · rename_i elt hg
      obtain ⟨x, h1, h⟩ := Res.bind_eq_ok.1 h
      obtain ⟨fs, h2⟩ := child_of hfv h1
      exact ⟨afs, elt, fs, ha, by rw [hg]; exact .list, h2⟩
    · rename_i hg
      obtain ⟨x, h1, h⟩ := Res.bind_eq_ok.1 h
      obtain ⟨fs, h2⟩ := child_of hfv h1
      exact ⟨afs, g.type, fs, ha, .single hg, h2⟩

theorem unionMember_iff {t : Str} : unionMember t ≠ none ↔ t = g!"UnionNullDouble" ∨ t = g!"UnionNullLong" ∨ t = g!"UnionNullString" := by
  unfold unionMember
  split
  · simp_all
  · split
    · simp_all
    · split <;> simp_all

theorem cutPrefix_of {p s r : Str} : namedValue.cutPrefix p s = some r ↔ s = p ++ r := by
  unfold namedValue.cutPrefix
  split
  · rename_i h
    obtain ⟨x, rfl⟩ := hasPrefix_iff.1 h
    simp
  · rename_i h
    simp only [reduceCtorEq, false_iff]
    rintro rfl
    exact h (hasPrefix_iff.2 ⟨r, rfl⟩)

theorem named_of {fv : ValueFn} (hfv : ∀ name pre a g v, fv name pre a g = .ok v → CanConvert d g.type a) {name t : Str} {pre : List Str} {g : GoField} {v : Mapped}
    (h : namedValue d fv name pre t g = .ok v) : CanConvert d g.type (.ident t) := by
  by_cases hs : t ∈ avroScalars
  · exact .scalar hs
  unfold namedValue at h
  split at h
  · rename_i hc
    exact absurd (by rcases hc with rfl | rfl | rfl <;> decide) hs
  · split at h
    · rename_i hc
      exact absurd (by subst hc; decide) hs
    · split at h
      · rename_i m hm
        exact absurd (by rcases unionMember_iff.1 (by rw [hm]; simp) with rfl | rfl | rfl <;> decide) hs
      · split at h
        · rename_i r hr
          obtain rfl := cutPrefix_of.1 hr
          obtain ⟨x, h1, h⟩ := Res.bind_eq_ok.1 h
          obtain ⟨afs, e, fs, h2, h3, h4, h5, h6⟩ := struct_of hfv h1
          exact .record (.union hs) h2 h3 h4 h5 h6
        · rename_i hr
          obtain ⟨afs, e, fs, h2, h3, h4, h5, h6⟩ := struct_of hfv h
          refine .record (.plain hs fun r hc => ?_) h2 h3 h4 h5 h6
          rw [cutPrefix_of.2 hc] at hr
          cases hr

theorem convert_of : ∀ (n : Nat) (name : Str) (pre : List Str) (a : GoType) (g : GoField) (v : Mapped), fieldValue d n name pre a g = .ok v → CanConvert d g.type a
  | 0, _, _, _, _, _, h => by cases h
  | n + 1, name, pre, a, g, v, h => by
    rw [fieldValue] at h
    have ih := convert_of n
    cases a with
    | star x =>
      obtain ⟨v', h1, h⟩ := Res.bind_eq_ok.1 h
      exact .pointer (ih _ _ _ _ _ h1)
    | map k x =>
      simp only at h
      split at h
      · rename_i hm
        have h1 := ih _ _ _ _ _ h
        revert h1
        cases hg : g.type with
        | map k' v' => exact fun h1 => .map h1
        | _ => rw [hg] at hm; cases hm
      · cases h
    | array x =>
      simp only at h
      split at h
      · rename_i hm
        have h1 := ih _ _ _ _ _ h
        revert h1
        cases hg : g.type with
        | array e =>
          intro h1
          cases x with
          | star y => exact .listPtr h1
          | _ => exact .list (by simp) h1
        | _ => rw [hg] at hm; cases hm
      · cases h
    | ident t => exact named_of ih h
    | struct _ => cases h
    | selector _ => cases h
    | other _ => cases h

/-! ### What is possible the generator does -/

mutual
theorem of_convert {t a : GoType} : CanConvert d t a → ∃ N, ∀ n, N ≤ n → ∀ (name : Str) (pre : List Str) (g : GoField), g.type = t → ∃ v, fieldValue d n name pre a g = .ok v
  | .scalar (t := t) hs => by
    refine ⟨1, fun n hn name pre g hg => ?_⟩
    obtain ⟨k, rfl⟩ : ∃ k, n = k + 1 := ⟨n - 1, by omega⟩
    rw [fieldValue]
    simp only [avroScalars, List.mem_cons, List.not_mem_nil, or_false] at hs
    unfold namedValue
    by_cases h1 : t = g!"string" ∨ t = g!"bool" ∨ t = g!"float64"
    · simp only [if_pos h1]; exact ⟨_, rfl⟩
    · by_cases h2 : t = g!"int64"
      · simp only [if_neg h1, if_pos h2]; exact ⟨_, rfl⟩
      · have : unionMember t ≠ none := unionMember_iff.2 (by grind)
        cases hm : unionMember t with
        | none => exact absurd hm this
        | some m => simp only [if_neg h1, if_neg h2, hm]; exact ⟨_, rfl⟩
  | .pointer h => by
    obtain ⟨N, ih⟩ := of_convert h
    refine ⟨N + 1, fun n hn name pre g hg => ?_⟩
    obtain ⟨k, rfl⟩ : ∃ k, n = k + 1 := ⟨n - 1, by omega⟩
    obtain ⟨v, hv⟩ := ih k (by omega) name pre g hg
    exact ⟨_, by rw [fieldValue]; simp only [hv]; rfl⟩
  | .map h => by
    obtain ⟨N, ih⟩ := of_convert h
    refine ⟨N + 1, fun n hn name pre g hg => ?_⟩
    obtain ⟨k, rfl⟩ : ∃ k, n = k + 1 := ⟨n - 1, by omega⟩
    obtain ⟨v, hv⟩ := ih k (by omega) name pre g hg
    exact ⟨v, by rw [fieldValue]; simp only [hg, isMap]; exact hv⟩
  | .list (a := a) hne h => by
    obtain ⟨N, ih⟩ := of_convert h
    refine ⟨N + 1, fun n hn name pre g hg => ?_⟩
    obtain ⟨k, rfl⟩ : ∃ k, n = k + 1 := ⟨n - 1, by omega⟩
    obtain ⟨v, hv⟩ := ih k (by omega) name pre g hg
    exact ⟨v, by rw [fieldValue]; simp only [hg, isArray, unstar_ne hne]; exact hv⟩
  | .listPtr h => by
    obtain ⟨N, ih⟩ := of_convert h
    refine ⟨N + 1, fun n hn name pre g hg => ?_⟩
    obtain ⟨k, rfl⟩ : ∃ k, n = k + 1 := ⟨n - 1, by omega⟩
    obtain ⟨v, hv⟩ := ih k (by omega) name pre g hg
    exact ⟨v, by rw [fieldValue]; simp only [hg, isArray, unstar]; exact hv⟩
  | .record (t := t) (r := r) (afs := afs) (fs := fs) (e := e) hr ha hm hf hc h => by
    obtain ⟨N, ih⟩ := of_hasAll h
    refine ⟨N + 1, fun n hn name pre g hg => ?_⟩
    obtain ⟨k, rfl⟩ : ∃ k, n = k + 1 := ⟨n - 1, by omega⟩
    obtain ⟨nm, h1⟩ := childFields_iff.2 hf
    obtain ⟨m, h2⟩ := complete_none.2 hc
    have child : ∀ pre, ∃ x, childStruct d (fieldValue d k) e pre afs = .ok x := by
      intro pre
      obtain ⟨x, hx⟩ := ih k (by omega) pre m fun K f hf => (C61 (fun m => List.Perm.refl _) 1 fs m h2 K f).2 hf
      exact ⟨_, by unfold childStruct; rw [h1]; simp only [Res.bind, h2, hx]; rfl⟩
    have hsv : ∃ v, structValue d (fieldValue d k) name pre r g = .ok v := by
      unfold structValue
      rw [ha]
      cases hm with
      | list =>
        obtain ⟨x, hx⟩ := child []
        simp only [hg, hx]
        exact ⟨_, rfl⟩
      | single hne =>
        obtain ⟨x, hx⟩ := child (pre ++ [name])
        simp only [hg, hx]
        exact ⟨_, rfl⟩
    obtain ⟨v, hv⟩ := hsv
    rw [fieldValue]
    have hns : t ∉ avroScalars := by cases hr <;> assumption
    unfold namedValue
    have n1 : ¬ (t = g!"string" ∨ t = g!"bool" ∨ t = g!"float64") := by rintro (rfl | rfl | rfl) <;> exact hns (by decide)
    have n2 : ¬ t = g!"int64" := by rintro rfl; exact hns (by decide)
    have n3 : unionMember t = none := by
      cases hu : unionMember t with
      | none => rfl
      | some m => exact absurd (by rcases unionMember_iff.1 (by rw [hu]; simp) with rfl | rfl | rfl <;> decide) hns
    simp only [if_neg n1, if_neg n2, n3]
    cases hr with
    | union _ => rw [cutPrefix_of.2 rfl]; simp only [hv]; exact ⟨_, rfl⟩
    | plain _ hne =>
      have : namedValue.cutPrefix g!"UnionNull" t = none := by
        cases hcut : namedValue.cutPrefix g!"UnionNull" t with
        | none => rfl
        | some x => exact absurd (cutPrefix_of.1 hcut) (hne x)
      rw [this]
      exact ⟨v, hv⟩
theorem of_hasAll {has : Str → GoField → Prop} {l : List GoField} : HasAll d has l → ∃ N, ∀ n, N ≤ n → ∀ (pre : List Str) (m : GMap GoField), (∀ K f, has K f → GMap.get K m = some f) →
    ∃ r, genFields (fieldValue d n) pre m l = .ok r
  | .nil => ⟨0, fun n _ pre m _ => ⟨_, rfl⟩⟩
  | .template hp h => by
    obtain ⟨N, ih⟩ := of_hasAll h
    refine ⟨N, fun n hn pre m hm => ?_⟩
    rw [genFields, if_pos (hasPrefix_iff.2 hp)]
    exact ih n hn pre m hm
  | .field (k := k) (f := f) hp hf hc h => by
    obtain ⟨N1, ih1⟩ := of_convert hc
    obtain ⟨N2, ih2⟩ := of_hasAll h
    refine ⟨N1 + N2, fun n hn pre m hm => ?_⟩
    obtain ⟨v, hv⟩ := ih1 n (by omega) k pre f rfl
    obtain ⟨r, hr⟩ := ih2 n (by omega) pre m hm
    rw [genFields, if_neg (fun hc => hp (hasPrefix_iff.1 hc)), hm k f hf]
    simp only [hv, hr, Res.bind]
    exact ⟨_, rfl⟩
end

/-- **C125**: a conversion is generated exactly if all embedded structs are found and each field of the Avro struct has one in the generated struct that can be converted. -/
theorem C125 (hord : ∀ m, (ord m).Perm m) (l afs : List GoField) :
    (∃ n r, mapStruct d files ord n l afs = .ok r) ↔ Complete files l ∧ HasAll d (Chosen files l) afs := by
  unfold mapStruct
  constructor
  · rintro ⟨n, r, h⟩
    obtain ⟨m, h1, h2⟩ := Res.bind_eq_ok.1 h
    exact ⟨complete_of n l m h1, hasAll_of (convert_of n) (fun K f hg => (C61 hord n l m h1 K f).1 hg) afs h2⟩
  · rintro ⟨hc, ha⟩
    obtain ⟨n, m, hm⟩ := complete_iff (ord := ord).2 hc
    obtain ⟨N, h⟩ := of_hasAll ha
    obtain ⟨r, hr⟩ := h (N + n) (by omega) [] m fun K f hf => (C61 hord n l m hm K f).2 hf
    exact ⟨N + n, r, by rw [mapFields_mono hm (by omega)]; exact hr⟩

/-- An Avro struct with metadata, a text and a list of records, and a struct for it. -/
example : Complete (fun _ => none) [.mk (some g!"A") (.ident g!"string") {}, .mk (some g!"B") (.array (.struct [.mk (some g!"C") (.selector g!"Time") {}])) {}] ∧
    HasAll ⟨fun _ => none, fun n => if n = g!"B_record" then some [.mk (some g!"C") (.ident g!"int64") {}] else none⟩
      (Chosen (fun _ => none) [.mk (some g!"A") (.ident g!"string") {}, .mk (some g!"B") (.array (.struct [.mk (some g!"C") (.selector g!"Time") {}])) {}])
      [.mk (some g!"AvroDeleted") (.ident g!"bool") {}, .mk (some g!"A") (.ident g!"string") {}, .mk (some g!"B") (.array (.star (.ident g!"B_record"))) {}] := by
  refine ⟨.field (.field .nil), .template (by decide) (.field (f := .mk (some g!"A") (.ident g!"string") {}) (by decide) ?_ (.scalar (by decide)) (.field
    (f := .mk (some g!"B") (.array (.struct [.mk (some g!"C") (.selector g!"Time") {}])) {}) (by decide) ?_ (.listPtr (.record (.plain (by decide) ?_) rfl .list .inline (.field .nil) ?_)) .nil))⟩
  · refine .own (a := []) (k := g!"A") rfl ?_
    rintro ⟨f, hf, k, hk, h⟩
    simp only [List.mem_singleton] at hf
    subst hf
    cases hk
    revert h; decide
  · exact .own (a := [_]) (b := []) (k := g!"B") rfl (by rintro ⟨f, hf, _⟩; cases hf)
  · intro r h; simp at h
  · exact .field (by decide) (.own (a := []) (b := []) (k := g!"C") rfl (by rintro ⟨f, hf, _⟩; cases hf)) (.scalar (by decide)) .nil

/-- A map in the Avro struct is not made from a text. -/
example (d : Decls) (k v : GoType) : ¬ CanConvert d (.ident g!"string") (.map k v) := by intro h; cases h

end JT.Go
