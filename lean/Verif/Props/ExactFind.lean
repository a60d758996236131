import Verif.Props.C84
/- C122: exactly what the Avro generator finds in Go source. -/
namespace JT.Go
open Gen Spec JT.Spec GoJson

namespace Spec
/-- What is left of the fields of a struct: those called like that. -/
inductive FieldsLeft (name : Str) : List GoField → List GoField → Prop where
  | nil : FieldsLeft name [] []
  | named {t : GoType} {tag : Tag} {l r : List GoField} : FieldsLeft name l r → FieldsLeft name (.mk (some name) t tag :: l) (.mk (some name) t tag :: r)
  | embedded {t : GoType} {tag : Tag} {l r : List GoField} : CalledAfter name t → FieldsLeft name l r → FieldsLeft name (.mk none t tag :: l) (.mk none t tag :: r)
  | other {k : Str} {t : GoType} {tag : Tag} {l r : List GoField} : k ≠ name → FieldsLeft name l r → FieldsLeft name (.mk (some k) t tag :: l) r
  | otherEmbedded {t : GoType} {tag : Tag} {l r : List GoField} : ¬ CalledAfter name t → FieldsLeft name l r → FieldsLeft name (.mk none t tag :: l) r

/-- What is left of a type: the structs in it lose all fields that are not called like that; pointers are not looked into. -/
inductive TypeLeft (name : Str) : GoType → GoType → Prop where
  | ident {n : Str} : TypeLeft name (.ident n) (.ident n)
  | pointer {t : GoType} : TypeLeft name (.star t) (.star t)
  | selector {n : Str} : TypeLeft name (.selector n) (.selector n)
  | other {n : Str} : TypeLeft name (.other n) (.other n)
  | array {t u : GoType} : TypeLeft name t u → TypeLeft name (.array t) (.array u)
  | map {k k' v v' : GoType} : TypeLeft name k k' → TypeLeft name v v' → TypeLeft name (.map k v) (.map k' v')
  | struct {l r : List GoField} : FieldsLeft name l r → TypeLeft name (.struct l) (.struct r)

/-- A part of a declaration that is about the name, or a type with such a field. -/
inductive UsesPart (name : Str) : GoSpec → Prop where
  | type {t : GoType} : UsesPart name (.type name t)
  | value {l : List Str} : name ∈ l → UsesPart name (.value l)
  | field {n : Str} {t : GoType} : HasField name t → UsesPart name (.type n t)

/-- What is found in a file: the first declaration with a part that uses the name has only one such part, and that is a type.  The type is taken whole if it is called like
that; otherwise what is left of it is taken, under its own name. -/
def FoundIn (name : Str) (src : GoSource) (n : Str) (t : GoType) : Prop :=
  ∃ pre a u b post, src = pre ++ .gen (a ++ .type n u :: b) :: post ∧ (∀ d ∈ pre, ¬ Uses name d) ∧ (∀ p ∈ a ++ b, ¬ UsesPart name p) ∧
    ((n = name ∧ t = u) ∨ (n ≠ name ∧ HasField name u ∧ TypeLeft name u t))

/-- The file declares the type once. -/
def DeclaresOne (name : Str) (src : GoSource) : Prop :=
  ∃ pre a u b post, src = pre ++ .gen (a ++ .type name u :: b) :: post ∧ (∀ v, ¬ TypeDeclared pre name v) ∧ (∀ v, ¬ TypeDeclared post name v) ∧
    ∀ v, GoSpec.type name v ∉ a ++ b

/-- What is found at a path: in the file, or in the file of the only package in the directory that alone declares the type, and once. -/
inductive FoundAt (s : Sources) (name path n : Str) (t : GoType) : Prop where
  | file {src : GoSource} : hasSuffix path g!".go" = true → s.file path = .ok src → FoundIn name src n t → FoundAt s name path n t
  | dir {pkg k : Str} {a b : List (Str × GoSource)} {src : GoSource} : hasSuffix path g!".go" = false → s.dir path = .ok [(pkg, a ++ (k, src) :: b)] →
      (∀ f ∈ a ++ b, ∀ v, ¬ TypeDeclared f.2 name v) → DeclaresOne name src → FoundIn name src n t → FoundAt s name path n t
end Spec

variable {name : Str}

theorem fieldsLeft_iff : ∀ {l r : List GoField}, FieldsLeft name l r ↔ l.filter (keepField name) = r := by
  intro l r
  constructor
  · intro h
    induction h with
    | nil => rfl
    | named _ ih => simp [keepField, ih]
    | embedded hc _ ih => simp [keepField, embeddedName_iff.2 hc, ih]
    | other hk _ ih => simp [keepField, hk, ih]
    | otherEmbedded hc _ ih => simp [keepField, mt embeddedName_iff.1 hc, ih]
  · rintro rfl
    induction l with
    | nil => exact .nil
    | cons f l ih =>
      obtain ⟨k, t, tag⟩ := f
      cases k with
      | some k =>
        by_cases h : k = name
        · subst h
          rw [List.filter_cons_of_pos (by simp [keepField])]
          exact .named ih
        · rw [List.filter_cons_of_neg (by simp [keepField, h])]
          exact .other h ih
      | none =>
        by_cases h : CalledAfter name t
        · rw [List.filter_cons_of_pos (by simp [keepField, embeddedName_iff.2 h])]
          exact .embedded h ih
        · rw [List.filter_cons_of_neg (by simp [keepField, mt embeddedName_iff.1 h])]
          exact .otherEmbedded h ih

theorem typeLeft_some (t : GoType) : TypeLeft name t (filterType name t).1 := by
  induction t using GoType.rec (motive_2 := fun _ => True) (motive_3 := fun _ => True) with
  | ident n => exact .ident
  | star => exact .pointer
  | selector => exact .selector
  | other => exact .other
  | map k v hk hv => exact .map hk hv
  | array e he => exact .array he
  | struct fs => exact .struct (fieldsLeft_iff.2 rfl)
  | mk => trivial
  | nil => trivial
  | cons => trivial

theorem typeLeft_only {t u : GoType} (h : TypeLeft name t u) : (filterType name t).1 = u := by
  induction h with
  | ident | pointer | selector | other => rfl
  | array _ ih => simp [filterType, ih]
  | map _ _ h1 h2 => simp [filterType, h1, h2]
  | struct h => simp [filterType, fieldsLeft_iff.1 h]

theorem filterSpec_iff {p : GoSpec} : (filterSpec name p).isSome = true ↔ UsesPart name p := by
  cases p with
  | «import» => exact ⟨fun h => (nomatch h), fun h => (nomatch h)⟩
  | value l =>
    by_cases h : name ∈ l
    · simp only [filterSpec, if_pos h]
      exact ⟨fun _ => .value h, fun _ => rfl⟩
    · simp only [filterSpec, if_neg h]
      exact ⟨fun h => (nomatch h), fun h' => by cases h'; contradiction⟩
  | type n t =>
    by_cases h : n = name
    · subst h
      simp only [filterSpec, if_true]
      exact ⟨fun _ => .type, fun _ => rfl⟩
    · by_cases hf : (filterType name t).2 = true
      · simp only [filterSpec, if_neg h, hf, if_true]
        exact ⟨fun _ => .field (filterType_iff.1 hf), fun _ => rfl⟩
      · simp only [filterSpec, if_neg h, if_neg hf]
        refine ⟨fun h => (nomatch h), fun h' => ?_⟩
        cases h' with
        | type => exact absurd rfl h
        | field h' => exact absurd (filterType_iff.2 h') hf

theorem filterSpec_type {n m : Str} {t u : GoType} : filterSpec name (.type m u) = some (.type n t) ↔ m = n ∧ ((n = name ∧ t = u) ∨ (n ≠ name ∧ HasField name u ∧ TypeLeft name u t)) := by
  by_cases h : m = name
  · subst h
    simp only [filterSpec, if_true, Option.some.injEq, GoSpec.type.injEq]
    constructor
    · rintro ⟨rfl, rfl⟩; exact ⟨rfl, .inl ⟨rfl, rfl⟩⟩
    · rintro ⟨rfl, ⟨-, rfl⟩ | ⟨h, -⟩⟩
      · exact ⟨rfl, rfl⟩
      · exact absurd rfl h
  · by_cases hf : (filterType name u).2 = true
    · simp only [filterSpec, if_neg h, hf, if_true, Option.some.injEq, GoSpec.type.injEq]
      constructor
      · rintro ⟨rfl, rfl⟩; exact ⟨rfl, .inr ⟨h, filterType_iff.1 hf, typeLeft_some u⟩⟩
      · rintro ⟨rfl, ⟨h', -⟩ | ⟨-, -, h'⟩⟩
        · exact absurd h' h
        · exact ⟨rfl, typeLeft_only h'⟩
    · simp only [filterSpec, if_neg h, if_neg hf]
      refine ⟨fun h => (nomatch h), ?_⟩
      rintro ⟨rfl, ⟨h', -⟩ | ⟨-, h', -⟩⟩
      · exact absurd h' h
      · exact absurd (filterType_iff.2 h') hf

theorem filterSpec_from {p : GoSpec} {n : Str} {t : GoType} (h : filterSpec name p = some (.type n t)) : ∃ u, p = .type n u := by
  cases p with
  | «import» => cases h
  | value l => simp only [filterSpec] at h; split at h <;> cases h
  | type m u => obtain ⟨rfl, -⟩ := filterSpec_type.1 h; exact ⟨u, rfl⟩

/-- Only one part is kept. -/
theorem filterMap_one {α β : Type} {f : α → Option β} {y : β} : ∀ {l : List α}, l.filterMap f = [y] ↔ ∃ a x b, l = a ++ x :: b ∧ (∀ z ∈ a ++ b, f z = none) ∧ f x = some y
  | [] => by simp
  | z :: l => by
    cases hz : f z with
    | none =>
      rw [List.filterMap_cons_none hz, filterMap_one]
      constructor
      · rintro ⟨a, x, b, rfl, h1, h2⟩
        refine ⟨z :: a, x, b, rfl, fun w hw => ?_, h2⟩
        rcases List.mem_cons.1 hw with rfl | hw
        · exact hz
        · exact h1 w hw
      · rintro ⟨a, x, b, h, h1, h2⟩
        cases a with
        | nil =>
          obtain ⟨rfl, rfl⟩ := List.cons.inj h
          rw [hz] at h2; cases h2
        | cons w a =>
          obtain ⟨rfl, rfl⟩ := List.cons.inj h
          exact ⟨a, x, b, rfl, fun w hw => h1 w (List.mem_cons_of_mem _ hw), h2⟩
    | some y' =>
      rw [List.filterMap_cons_some hz]
      constructor
      · intro h
        obtain ⟨rfl, h'⟩ := List.cons.inj h
        replace h := h'
        exact ⟨[], z, l, rfl, fun w hw => List.filterMap_eq_nil_iff.1 h w hw, hz⟩
      · rintro ⟨a, x, b, h, h1, h2⟩
        cases a with
        | nil =>
          obtain ⟨rfl, rfl⟩ := List.cons.inj h
          rw [hz] at h2
          have e : l.filterMap f = [] := List.filterMap_eq_nil_iff.2 h1
          rw [Option.some.inj h2, e]
        | cons w a =>
          obtain ⟨rfl, rfl⟩ := List.cons.inj h
          have := h1 z List.mem_cons_self
          rw [hz] at this; cases this

theorem unused_none {d : GoDecl} : filterDecl name d = none ↔ ¬ Uses name d := by
  rw [← filterDecl_iff]
  cases filterDecl name d <;> simp

/-- What is taken from a file. -/
theorem firstType_iff {src : GoSource} {n : Str} {t : GoType} : firstType (filterFile name src) = .ok (n, t) ↔ FoundIn name src n t := by
  induction src with
  | nil =>
    constructor
    · intro h; cases h
    · rintro ⟨pre, a, u, b, post, h, -⟩
      cases pre <;> cases h
  | cons d src ih =>
    unfold filterFile at ih ⊢
    cases hd : filterDecl name d with
    | none =>
      rw [List.filterMap_cons_none hd, ih]
      constructor
      · rintro ⟨pre, a, u, b, post, rfl, h1, h2⟩
        refine ⟨d :: pre, a, u, b, post, rfl, fun x hx => ?_, h2⟩
        rcases List.mem_cons.1 hx with rfl | hx
        · exact unused_none.1 hd
        · exact h1 x hx
      · rintro ⟨pre, a, u, b, post, h, h1, h2, h3⟩
        cases pre with
        | nil =>
          obtain ⟨rfl, rfl⟩ := List.cons.inj h
          refine absurd ?_ (unused_none.1 hd)
          rcases h3 with ⟨rfl, -⟩ | ⟨-, h3, -⟩
          · exact .type (t := u) (by simp)
          · exact .field (t := u) (n := n) (by simp) h3
        | cons x pre =>
          obtain ⟨rfl, rfl⟩ := List.cons.inj h
          exact ⟨pre, a, u, b, post, rfl, fun x hx => h1 x (List.mem_cons_of_mem _ hx), h2, h3⟩
    | some d' =>
      rw [List.filterMap_cons_some hd]
      have hu : Uses name d := filterDecl_iff.1 (by rw [hd]; rfl)
      constructor
      · intro h
        have : d' = .gen [.type n t] := by
          match d', h with
          | .func _, h => simp [firstType] at h
          | .gen [], h => simp [firstType] at h
          | .gen [.value _], h => simp [firstType] at h
          | .gen [.import], h => simp [firstType] at h
          | .gen [.type m v], h => simp only [firstType, Res.ok.injEq, Prod.mk.injEq] at h; rw [h.1, h.2]
          | .gen (_ :: _ :: _), h => simp [firstType] at h
        subst this
        cases d with
        | func m => simp only [filterDecl] at hd; split at hd <;> cases hd
        | gen specs =>
          simp only [filterDecl] at hd
          split at hd
          · cases hd
          · simp only [Option.some.injEq, GoDecl.gen.injEq] at hd
            obtain ⟨a, x, b, rfl, h1, h2⟩ := filterMap_one.1 hd
            obtain ⟨u, rfl⟩ := filterSpec_from h2
            refine ⟨[], a, u, b, src, rfl, by simp, fun p hp hup => ?_, (filterSpec_type.1 h2).2⟩
            have := filterSpec_iff.2 hup
            rw [h1 p hp] at this; cases this
      · rintro ⟨pre, a, u, b, post, h, h1, h2, h3⟩
        cases pre with
        | cons x pre =>
          obtain ⟨rfl, rfl⟩ := List.cons.inj h
          exact absurd hu (h1 _ List.mem_cons_self)
        | nil =>
          obtain ⟨rfl, rfl⟩ := List.cons.inj h
          have : (a ++ GoSpec.type n u :: b).filterMap (filterSpec name) = [.type n t] := by
            refine filterMap_one.2 ⟨a, _, b, rfl, fun z hz => ?_, filterSpec_type.2 ⟨rfl, h3⟩⟩
            cases hs : filterSpec name z with
            | none => rfl
            | some w => exact absurd (filterSpec_iff.1 (by rw [hs]; rfl)) (h2 z hz)
          simp only [filterDecl, this, List.cons_ne_nil, if_false, Option.some.injEq] at hd
          subst hd
          rfl

theorem count_one : ∀ {src : GoSource}, countNamed name src = 1 ↔ DeclaresOne name src := by
  have hs : ∀ {specs : List GoSpec}, specs.countP (specNamed name) = 0 ↔ ∀ v, GoSpec.type name v ∉ specs := by
    intro specs
    rw [List.countP_eq_zero]
    constructor
    · intro h v hv
      exact h _ hv (by simp [specNamed])
    · intro h p hp hn
      cases p with
      | type m v =>
        simp only [specNamed, decide_eq_true_eq] at hn
        exact h v (hn ▸ hp)
      | value => cases hn
      | «import» => cases hn
  have h1 : ∀ {specs : List GoSpec}, specs.countP (specNamed name) = 1 → ∃ a u b, specs = a ++ .type name u :: b ∧ ∀ v, GoSpec.type name v ∉ a ++ b := by
    intro specs h
    obtain ⟨p, hp, hn⟩ := List.countP_pos_iff.1 (show 0 < specs.countP (specNamed name) by omega)
    cases p with
    | value => cases hn
    | «import» => cases hn
    | type m u =>
      simp only [specNamed, decide_eq_true_eq] at hn
      subst hn
      obtain ⟨a, b, rfl⟩ := List.append_of_mem hp
      refine ⟨a, u, b, rfl, hs.1 ?_⟩
      rw [List.countP_append, List.countP_cons_of_pos (by simp [specNamed])] at h
      rw [List.countP_append]
      omega
  have hz : ∀ {l : GoSource}, countNamed name l = 0 ↔ ∀ v, ¬ TypeDeclared l name v := by
    intro l
    refine ⟨fun h v hv => ?_, count_zero⟩
    have := count_pos.2 ⟨v, hv⟩
    omega
  intro src
  constructor
  · intro h
    induction src with
    | nil => cases h
    | cons d src ih =>
      cases d with
      | func m =>
        obtain ⟨pre, a, u, b, post, rfl, h2, h3, h4⟩ := ih h
        refine ⟨.func m :: pre, a, u, b, post, rfl, fun v => ?_, h3, h4⟩
        rintro ⟨sp, hsp, hv⟩
        rcases List.mem_cons.1 hsp with e | hsp
        · cases e
        · exact h2 v ⟨sp, hsp, hv⟩
      | gen specs =>
        simp only [countNamed] at h
        by_cases h0 : specs.countP (specNamed name) = 0
        · obtain ⟨pre, a, u, b, post, rfl, h2, h3, h4⟩ := ih (by omega)
          refine ⟨.gen specs :: pre, a, u, b, post, rfl, fun v => ?_, h3, h4⟩
          rintro ⟨sp, hsp, hv⟩
          rcases List.mem_cons.1 hsp with e | hsp
          · obtain rfl := GoDecl.gen.inj e
            exact hs.1 h0 v hv
          · exact h2 v ⟨sp, hsp, hv⟩
        · obtain ⟨a, u, b, rfl, h2⟩ := h1 (specs := specs) (by omega)
          exact ⟨[], a, u, b, src, rfl, (by rintro v ⟨sp, hsp, -⟩; cases hsp), hz.1 (by omega), h2⟩
  · rintro ⟨pre, a, u, b, post, rfl, h2, h3, h4⟩
    have h5 := hs.2 h4
    rw [List.countP_append] at h5
    rw [count_append, hz.2 h2]
    simp only [countNamed, hz.2 h3, List.countP_append, List.countP_cons_of_pos (show specNamed name (.type name u) = true by simp [specNamed])]
    omega

/-- **C122**: what the Avro generator finds at a path is exactly the above; in particular the right struct is found in a file iff it is the only part that uses the name in the
first declaration that does. -/
theorem C122 (s : Sources) (name path n : Str) (t : GoType) : parseGoStruct s name path = .ok (n, t) ↔ FoundAt s name path n t := by
  unfold parseGoStruct goSource
  by_cases hp : hasSuffix path g!".go" = true
  · rw [if_pos hp]
    constructor
    · intro h
      cases hf : s.file path with
      | err => rw [hf] at h; cases h
      | panic => rw [hf] at h; cases h
      | ok src =>
        rw [hf] at h
        simp only [Res.bind] at h
        split at h
        · rename_i heq
          split at heq
          · cases heq
          · cases heq
            exact .file hp hf (firstType_iff.1 h)
        · cases h
        · cases h
    · intro h
      cases h with
      | dir hp' => rw [hp'] at hp; cases hp
      | @file src _ hf h =>
        have h := firstType_iff.2 h
        simp only [hf, Res.bind]
        have : (filterFile name src).isEmpty = false := by
          cases hx : filterFile name src with
          | nil => rw [hx] at h; cases h
          | cons => rfl
        simp only [this, Bool.false_eq_true, if_false]
        exact h
  · rw [if_neg hp]
    have hp' : hasSuffix path g!".go" = false := by simpa using hp
    unfold filterPackage
    constructor
    · intro h
      obtain ⟨r, h1, h2⟩ := Res.bind_eq_ok.1 h
      obtain ⟨pkgs, h3, h4⟩ := Res.bind_eq_ok.1 h1
      match pkgs, h4 with
      | [], h4 => cases h4
      | _ :: _ :: _, h4 => cases h4
      | [(pkg, files)], h4 =>
        simp only at h4
        split at h4
        · cases h4
        · obtain ⟨o, h5, h6⟩ := Res.bind_eq_ok.1 h4
          cases o with
          | none => cases h6
          | some f =>
            cases h6
            have ht : total name (files.map fun f => filterFile name f.2) = 1 := by
              rcases Nat.lt_trichotomy (total name (files.map fun f => filterFile name f.2)) 1 with h0 | h0 | h0
              · rw [scan_zero (by omega)] at h5; cases h5
              · exact h0
              · rw [scan_more h0] at h5; cases h5
            obtain ⟨g, hg, c1, e1⟩ := scan_one ht
            rw [e1] at h5
            cases h5
            obtain ⟨⟨k, src⟩, hm, rfl⟩ := List.mem_map.1 hg
            obtain ⟨a, b, rfl⟩ := List.append_of_mem hm
            simp only at c1 h2
            rw [total_filter, List.map_append, List.map_cons, total_append] at ht
            simp only [total] at ht
            rw [count_filter] at c1
            refine .dir hp' h3 (fun f hf v hv => ?_) (count_one.1 c1) (firstType_iff.1 h2)
            have hpos := count_pos.2 ⟨v, hv⟩
            have hle : ∀ {l : List (Str × GoSource)}, f ∈ l → countNamed name f.2 ≤ total name (l.map Prod.snd) := by
              intro l hl
              obtain ⟨x, y, rfl⟩ := List.append_of_mem hl
              rw [List.map_append, List.map_cons, total_append]
              simp only [total]
              omega
            rcases List.mem_append.1 hf with hf | hf
            · have := hle hf; omega
            · have := hle hf; omega
    · intro h
      cases h with
      | file hq => exact absurd hq hp
      | @dir pkg k a b src _ hd hno hone hfound =>
        have hcnt := count_one.2 hone
        have h := firstType_iff.2 hfound
        rw [hd]
        have hne : filterFile name src ≠ [] := by
          intro hx; rw [hx] at h; cases h
        have ha := total_zero (name := name) (l := a) fun f hf => hno f (List.mem_append_left _ hf)
        have hb := total_zero (name := name) (l := b) fun f hf => hno f (List.mem_append_right _ hf)
        have ht : total name ((a ++ (k, src) :: b).map fun f => filterFile name f.2) = 1 := by
          rw [total_filter, List.map_append, List.map_cons, total_append, ha]
          simp only [total, hb, hcnt]
        obtain ⟨g, hg, c1, e1⟩ := scan_one ht
        have hsrc : g = filterFile name src := total_unique ht hg (List.mem_map.2 ⟨(k, src), by simp, rfl⟩) c1 (by rw [count_filter]; exact hcnt)
        subst hsrc
        have hall : ((a ++ (k, src) :: b).map fun f => filterFile name f.2).all List.isEmpty = false := by
          rw [List.all_eq_false]
          refine ⟨filterFile name src, List.mem_map.2 ⟨(k, src), by simp, rfl⟩, ?_⟩
          simpa using hne
        simp only [Res.bind, hall, Bool.false_eq_true, if_false, e1]
        exact h

/-- A struct with a field called like the struct that is asked for is found in its place, with that field alone. -/
example : FoundIn g!"B" [.gen [.import], .gen [.type g!"A" (.struct [.mk (some g!"C") (.ident g!"string") {}, .mk (some g!"B") (.ident g!"int64") {}])],
    .gen [.type g!"B" (.struct [])]] g!"A" (.struct [.mk (some g!"B") (.ident g!"int64") {}]) := by
  refine ⟨[.gen [.import]], [], _, [], _, rfl, ?_, by simp, .inr ⟨by decide, .named (t := .ident g!"int64") (tag := {}) (by simp), .struct (.other (by decide) (.named .nil))⟩⟩
  intro d hd hu
  rw [List.mem_singleton] at hd
  subst hd
  cases hu with
  | type h => simp at h
  | value h => simp at h
  | field h => simp at h

end JT.Go
