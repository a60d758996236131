import Verif.Model.GoParse
import Verif.Props.C81
/- C84: the Avro generator finds the struct it is asked for in Go source. -/
namespace JT.Go
open Gen Spec JT.Spec GoJson

/-! ### Specification -/

namespace Spec

/-- The declarations declare the type. -/
def TypeDeclared (src : GoSource) (name : Str) (t : GoType) : Prop := ∃ specs, GoDecl.gen specs ∈ src ∧ GoSpec.type name t ∈ specs

/-- The type is declared by a declaration of its own, and no other is called like it. -/
def DeclaredOnce (src : GoSource) (name : Str) (t : GoType) : Prop := ∃ pre post, src = pre ++ .gen [.type name t] :: post ∧ (∀ u, ¬ TypeDeclared pre name u) ∧ ∀ u, ¬ TypeDeclared post name u

/-- A field without a name is called after its type; the type may be in another package, or a pointer. -/
inductive CalledAfter (name : Str) : GoType → Prop where
  | ident : CalledAfter name (.ident name)
  | selector : CalledAfter name (.selector name)
  | pointer {t : GoType} : CalledAfter name t → CalledAfter name (.star t)

/-- A type with a field of that name, or the type of that name. -/
inductive HasField (name : Str) : GoType → Prop where
  | ident : HasField name (.ident name)
  | named {fs : List GoField} {t : GoType} {tag : Tag} : GoField.mk (some name) t tag ∈ fs → HasField name (.struct fs)
  | embedded {fs : List GoField} {t : GoType} {tag : Tag} : GoField.mk none t tag ∈ fs → CalledAfter name t → HasField name (.struct fs)
  | array {t : GoType} : HasField name t → HasField name (.array t)
  | key {k v : GoType} : HasField name k → HasField name (.map k v)
  | value {k v : GoType} : HasField name v → HasField name (.map k v)

/-- Declarations of the name, or of a type with such a field. -/
inductive Uses (name : Str) : GoDecl → Prop where
  | func : Uses name (.func name)
  | type {specs : List GoSpec} {t : GoType} : GoSpec.type name t ∈ specs → Uses name (.gen specs)
  | value {specs : List GoSpec} {l : List Str} : GoSpec.value l ∈ specs → name ∈ l → Uses name (.gen specs)
  | field {specs : List GoSpec} {n : Str} {t : GoType} : GoSpec.type n t ∈ specs → HasField name t → Uses name (.gen specs)

/-- The declaration of a struct that was written to a file. -/
def readDecl (st : StructText) : Option GoDecl :=
  (readGoLines st.body [] []).map fun fs => .gen [.type st.name (.struct (st.embeds.map (fun e => .mk none (.ident e) {}) ++ fs))]

/-- Read the structs. -/
def readStructs : List StructText → Option GoSource
  | [] => some []
  | st :: t => (readDecl st).bind fun d => (readStructs t).map fun l => d :: l

/-- Read a generated file: the import of `time`, if it is there, and the structs. -/
def readFile (text : Bool × List StructText) : Option GoSource :=
  (readStructs text.2).map fun l => if text.1 then .gen [.import] :: l else l

end Spec
open Spec

/-! ### Proof -/

variable {name : Str}

theorem embeddedName_iff : ∀ {t : GoType}, embeddedName t = some name ↔ CalledAfter name t
  | .ident n => by simp only [embeddedName, Option.some.injEq]; exact ⟨fun h => h ▸ .ident, fun h => by cases h; rfl⟩
  | .selector n => by simp only [embeddedName, Option.some.injEq]; exact ⟨fun h => h ▸ .selector, fun h => by cases h; rfl⟩
  | .star t => by rw [embeddedName, embeddedName_iff]; exact ⟨.pointer, fun h => by cases h; assumption⟩
  | .array _ | .map _ _ | .struct _ | .other _ => ⟨fun h => by simp [embeddedName] at h, fun h => by cases h⟩

theorem filterType_iff : ∀ {t : GoType}, (filterType name t).2 = true ↔ HasField name t := by
  intro t
  induction t using GoType.rec (motive_2 := fun _ => True) (motive_3 := fun _ => True) with
  | ident n =>
    simp only [filterType, decide_eq_true_eq]
    exact ⟨fun h => h ▸ .ident, fun h => by cases h; rfl⟩
  | star => exact ⟨fun h => by simp [filterType] at h, fun h => by cases h⟩
  | selector => exact ⟨fun h => by simp [filterType] at h, fun h => by cases h⟩
  | other => exact ⟨fun h => by simp [filterType] at h, fun h => by cases h⟩
  | map k v hk hv =>
    simp only [filterType, Bool.or_eq_true, hk, hv]
    constructor
    · rintro (h | h)
      · exact .key h
      · exact .value h
    · intro h
      cases h with
      | key h => exact .inl h
      | value h => exact .inr h
  | array e he =>
    simp only [filterType, he]
    exact ⟨.array, fun h => by cases h; assumption⟩
  | struct fs =>
    simp only [filterType, List.any_eq_true]
    constructor
    · rintro ⟨⟨n, t, tag⟩, hm, hk⟩
      cases n with
      | some k =>
        simp only [keepField, decide_eq_true_eq] at hk
        exact .named (hk ▸ hm)
      | none =>
        simp only [keepField, decide_eq_true_eq] at hk
        exact .embedded hm (embeddedName_iff.1 hk)
    · intro h
      cases h with
      | named hm => exact ⟨_, hm, by simp [keepField]⟩
      | embedded hm hk => exact ⟨_, hm, by simp [keepField, embeddedName_iff.2 hk]⟩
  | mk => trivial
  | nil => trivial
  | cons => trivial

theorem filterDecl_iff {d : GoDecl} : (filterDecl name d).isSome ↔ Uses name d := by
  cases d with
  | func n =>
    simp only [filterDecl]
    split
    · rename_i h
      exact ⟨fun _ => h ▸ .func, fun _ => rfl⟩
    · rename_i h
      exact ⟨fun h => (nomatch h), fun h' => by cases h'; exact absurd rfl h⟩
  | gen specs =>
    have h1 : (filterDecl name (.gen specs)).isSome ↔ specs.filterMap (filterSpec name) ≠ [] := by
      simp only [filterDecl]
      split <;> simp_all
    rw [h1, Ne, List.filterMap_eq_nil_iff]
    simp only [Classical.not_forall]
    constructor
    · rintro ⟨s, hs, hn⟩
      cases s with
      | «import» => exact absurd rfl hn
      | value l =>
        simp only [filterSpec] at hn
        split at hn
        · exact .value hs (by assumption)
        · exact absurd rfl hn
      | type n t =>
        simp only [filterSpec] at hn
        split at hn
        · rename_i h; subst h; exact .type hs
        · split at hn
          · rename_i h; exact .field hs (filterType_iff.1 h)
          · exact absurd rfl hn
    · intro h
      cases h with
      | type hm => exact ⟨_, hm, by simp [filterSpec]⟩
      | value hm hl => exact ⟨_, hm, by simp [filterSpec, hl]⟩
      | @field _ n t hm hf =>
        refine ⟨_, hm, ?_⟩
        simp only [filterSpec]
        split
        · simp
        · rw [filterType_iff.2 hf]; simp

theorem filter_unused : ∀ {l : GoSource}, (∀ d ∈ l, ¬ Uses name d) → filterFile name l = []
  | [], _ => rfl
  | d :: l, h => by
    have : filterDecl name d = none := by
      cases hd : filterDecl name d with
      | none => rfl
      | some x => exact absurd (filterDecl_iff.1 (by rw [hd]; rfl)) (h d List.mem_cons_self)
    rw [filterFile, List.filterMap_cons, this]
    exact filter_unused fun d hd => h d (List.mem_cons_of_mem _ hd)

theorem filter_found {pre post : GoSource} {t : GoType} (h : ∀ d ∈ pre, ¬ Uses name d) :
    filterFile name (pre ++ .gen [.type name t] :: post) = .gen [.type name t] :: filterFile name post := by
  have h1 := filter_unused h
  unfold filterFile at h1 ⊢
  rw [List.filterMap_append, h1, List.filterMap_cons]
  simp [filterDecl, filterSpec]

theorem count_append {a b : GoSource} : countNamed name (a ++ b) = countNamed name a + countNamed name b := by
  induction a with
  | nil => simp [countNamed]
  | cons d a ih =>
    cases d with
    | gen s => simp only [List.cons_append, countNamed, ih]; omega
    | func n => simp only [List.cons_append, countNamed, ih]

/-- Filtering keeps the declarations of the name. -/
theorem count_filter : ∀ (l : GoSource), countNamed name (filterFile name l) = countNamed name l
  | [] => rfl
  | .func n :: l => by
    have ih := count_filter l
    unfold filterFile at ih ⊢
    rw [List.filterMap_cons, filterDecl]
    by_cases h : n = name
    · rw [if_pos h]; exact ih
    · rw [if_neg h]; exact ih
  | .gen specs :: l => by
    have ih := count_filter l
    have hs : ∀ (specs : List GoSpec), (specs.filterMap (filterSpec name)).countP (specNamed name) = specs.countP (specNamed name) := by
      intro specs
      induction specs with
      | nil => rfl
      | cons s t ih =>
        cases s with
        | «import» => simp only [List.filterMap_cons, filterSpec, List.countP_cons, specNamed, ih]; rfl
        | value l =>
          by_cases hl : name ∈ l
          · simp only [List.filterMap_cons, filterSpec, hl, if_true, List.countP_cons, specNamed, ih]; rfl
          · simp only [List.filterMap_cons, filterSpec, hl, if_false, List.countP_cons, specNamed, ih]; rfl
        | type n ty =>
          by_cases hn : n = name
          · simp only [List.filterMap_cons, filterSpec, hn, if_true, List.countP_cons, specNamed, ih]
          · by_cases hf : (filterType name ty).2 = true
            · simp only [List.filterMap_cons, filterSpec, hn, hf, if_true, if_false, List.countP_cons, specNamed, ih]
            · simp only [List.filterMap_cons, filterSpec, hn, hf, if_false, List.countP_cons, specNamed, Bool.false_eq_true]
              simp [ih]
    unfold filterFile at ih ⊢
    rw [List.filterMap_cons, filterDecl]
    by_cases he : specs.filterMap (filterSpec name) = []
    · rw [if_pos he]
      have := hs specs
      rw [he] at this
      simp only [countNamed, ih, ← this, List.countP_nil]
      omega
    · rw [if_neg he]
      simp only [countNamed, ih, hs]

theorem count_pos {l : GoSource} : 0 < countNamed name l ↔ ∃ t, TypeDeclared l name t := by
  induction l with
  | nil => exact ⟨fun h => by simp [countNamed] at h, fun ⟨t, s, h, _⟩ => by cases h⟩
  | cons d l ih =>
    cases d with
    | func n =>
      simp only [countNamed, ih]
      constructor
      · rintro ⟨t, s, h, h'⟩
        exact ⟨t, s, List.mem_cons_of_mem _ h, h'⟩
      · rintro ⟨t, s, h, h'⟩
        rcases List.mem_cons.1 h with h | h
        · cases h
        · exact ⟨t, s, h, h'⟩
    | gen specs =>
      simp only [countNamed]
      constructor
      · intro h
        by_cases h0 : 0 < specs.countP (specNamed name)
        · obtain ⟨s, hs, hn⟩ := List.countP_pos_iff.1 h0
          cases s with
          | type n t =>
            simp only [specNamed, decide_eq_true_eq] at hn
            exact ⟨t, specs, List.mem_cons_self, hn ▸ hs⟩
          | value => cases hn
          | «import» => cases hn
        · obtain ⟨t, s, h, h'⟩ := ih.1 (by omega)
          exact ⟨t, s, List.mem_cons_of_mem _ h, h'⟩
      · rintro ⟨t, s, h, h'⟩
        rcases List.mem_cons.1 h with h | h
        · obtain rfl := GoDecl.gen.inj h
          have : 0 < List.countP (specNamed name) s := List.countP_pos_iff.2 ⟨_, h', by simp [specNamed]⟩
          omega
        · have := ih.2 ⟨t, s, h, h'⟩
          omega

theorem count_zero {l : GoSource} (h : ∀ t, ¬ TypeDeclared l name t) : countNamed name l = 0 := by
  cases hc : countNamed name l with
  | zero => rfl
  | succ n =>
    obtain ⟨t, ht⟩ := count_pos.1 (by omega : 0 < countNamed name l)
    exact absurd ht (h t)

/-- The number of declarations in several files. -/
def total (name : Str) : List GoSource → Nat
  | [] => 0
  | f :: l => countNamed name f + total name l

theorem scan_zero : ∀ {l : List GoSource} {o : Option GoSource}, total name l = 0 → scanFiles name l o = .ok o
  | [], _, _ => rfl
  | f :: l, o, h => by
    simp only [total] at h
    rw [scanFiles, if_pos (by omega)]
    exact scan_zero (by omega)

theorem scan_some : ∀ {l : List GoSource} {g : GoSource}, total name l ≠ 0 → scanFiles name l (some g) = .err
  | [], _, h => absurd rfl h
  | f :: l, g, h => by
    simp only [total] at h
    rw [scanFiles]
    by_cases hf : countNamed name f = 0
    · rw [if_pos hf]; exact scan_some (by omega)
    · rw [if_neg hf, if_neg (by simp)]

theorem scan_one : ∀ {l : List GoSource}, total name l = 1 → ∃ f ∈ l, countNamed name f = 1 ∧ scanFiles name l none = .ok (some f)
  | [], h => by simp [total] at h
  | f :: l, h => by
    simp only [total] at h
    rw [scanFiles]
    by_cases hf : countNamed name f = 0
    · obtain ⟨g, hg, h1, h2⟩ := scan_one (l := l) (by omega)
      rw [if_pos hf]
      exact ⟨g, List.mem_cons_of_mem _ hg, h1, h2⟩
    · rw [if_neg hf, if_pos ⟨by omega, rfl⟩]
      exact ⟨f, List.mem_cons_self, by omega, scan_zero (by omega)⟩

theorem scan_more : ∀ {l : List GoSource}, 1 < total name l → scanFiles name l none = .err
  | [], h => by simp [total] at h
  | f :: l, h => by
    simp only [total] at h
    rw [scanFiles]
    by_cases hf : countNamed name f = 0
    · rw [if_pos hf]; exact scan_more (by omega)
    · rw [if_neg hf]
      by_cases h1 : countNamed name f = 1
      · rw [if_pos ⟨h1, rfl⟩]; exact scan_some (by omega)
      · rw [if_neg fun h => h1 h.1]

theorem total_append {a b : List GoSource} : total name (a ++ b) = total name a + total name b := by
  induction a with
  | nil => simp [total]
  | cons f a ih => simp only [List.cons_append, total, ih]; omega

theorem total_perm {a b : List GoSource} (h : a.Perm b) : total name a = total name b := by
  induction h with
  | nil => rfl
  | cons x _ ih => simp only [total, ih]
  | swap x y l => simp only [total]; omega
  | trans _ _ h1 h2 => exact h1.trans h2

theorem total_unique {l : List GoSource} (h : total name l = 1) {f g : GoSource} (hf : f ∈ l) (hg : g ∈ l) (h1 : countNamed name f = 1) (h2 : countNamed name g = 1) :
    f = g := by
  obtain ⟨a, b, rfl⟩ := List.append_of_mem hf
  rw [total_append, total] at h
  have hz : ∀ l : List GoSource, total name l = 0 → g ∉ l := by
    intro l
    induction l with
    | nil => intro _ h; cases h
    | cons x l ih =>
      intro h hm
      simp only [total] at h
      rcases List.mem_cons.1 hm with rfl | hm
      · omega
      · exact ih (by omega) hm
  rcases List.mem_append.1 hg with hg | hg
  · exact absurd hg (hz a (by omega))
  · rcases List.mem_cons.1 hg with rfl | hg
    · rfl
    · exact absurd hg (hz b (by omega))

/-- The loop over the files does not depend on their order. -/
theorem scan_perm {a b : List GoSource} (h : a.Perm b) : scanFiles name a none = scanFiles name b none := by
  have ht := total_perm (name := name) h
  rcases Nat.lt_trichotomy (total name a) 1 with h0 | h1 | h2
  · rw [scan_zero (by omega), scan_zero (by omega)]
  · obtain ⟨f, hf, c1, e1⟩ := scan_one h1
    obtain ⟨g, hg, c2, e2⟩ := scan_one (ht ▸ h1)
    rw [e1, e2, total_unique h1 hf (h.mem_iff.2 hg) c1 c2]
  · rw [scan_more h2, scan_more (by omega)]

theorem total_filter (l : List (Str × GoSource)) : total name (l.map fun f => filterFile name f.2) = total name (l.map Prod.snd) := by
  induction l with
  | nil => rfl
  | cons f l ih => simp only [List.map_cons, total, ih, count_filter]

theorem total_zero {l : List (Str × GoSource)} (h : ∀ f ∈ l, ∀ t, ¬ TypeDeclared f.2 name t) : total name (l.map Prod.snd) = 0 := by
  induction l with
  | nil => rfl
  | cons f l ih =>
    simp only [List.map_cons, total, count_zero (h f List.mem_cons_self), ih fun g hg => h g (List.mem_cons_of_mem _ hg)]

variable {s : Sources} {path : Str}

/-- In a file, the struct is found if it is declared on its own and nothing before is called like it, nor has a field that is. -/
theorem C84_file_partial (hp : hasSuffix path g!".go" = true) {pre post : GoSource} {t : GoType} (hs : s.file path = .ok (pre ++ .gen [.type name t] :: post))
    (hpre : ∀ d ∈ pre, ¬ Uses name d) : parseGoStruct s name path = .ok (name, t) := by
  simp only [parseGoStruct, goSource, hp, if_true, hs, Res.bind, filter_found hpre]
  rfl

/-- This condition is needed: in a file that declares the type once, on its own, it is found if and only if nothing before is called like it, nor has a field that is. -/
theorem C84_file_iff (hp : hasSuffix path g!".go" = true) {pre post : GoSource} {t : GoType} (hs : s.file path = .ok (pre ++ .gen [.type name t] :: post))
    (hd : ∀ u, ¬ TypeDeclared pre name u) : parseGoStruct s name path = .ok (name, t) ↔ ∀ d ∈ pre, ¬ Uses name d := by
  refine ⟨fun h => ?_, C84_file_partial hp hs⟩
  have key : ∀ l : GoSource, (∀ u, ¬ TypeDeclared l name u) → ∀ r, (match l.filterMap (filterDecl name) ++ r with
      | [] => Res.panic
      | d => firstType d) = .ok (name, t) → ∀ d ∈ l, ¬ Uses name d := by
    intro l
    induction l with
    | nil => intro _ _ _ d hd; cases hd
    | cons d l ih =>
      intro hl r hr
      cases hf : filterDecl name d with
      | none =>
        rw [List.filterMap_cons_none hf] at hr
        intro e he hu
        rcases List.mem_cons.1 he with rfl | he
        · have := filterDecl_iff.2 hu
          rw [hf] at this
          cases this
        · exact ih (fun u ⟨sp, h1, h2⟩ => hl u ⟨sp, List.mem_cons_of_mem _ h1, h2⟩) r hr e he hu
      | some d' =>
        exfalso
        rw [List.filterMap_cons_some hf] at hr
        simp only [List.cons_append] at hr
        cases d with
        | func n =>
          simp only [filterDecl] at hf
          split at hf
          · cases hf; simp [firstType] at hr
          · cases hf
        | gen specs =>
          simp only [filterDecl] at hf
          split at hf
          · cases hf
          · cases hf
            have hone : specs.filterMap (filterSpec name) = [.type name t] := by
              generalize specs.filterMap (filterSpec name) = x at hr
              match x, hr with
              | [.type n u], hr => simp only [firstType, Res.ok.injEq, Prod.mk.injEq] at hr; rw [hr.1, hr.2]
              | [], hr => simp [firstType] at hr
              | [.value _], hr => simp [firstType] at hr
              | [.import], hr => simp [firstType] at hr
              | _ :: _ :: _, hr => simp [firstType] at hr
            obtain ⟨sp, hm, hsp⟩ := List.mem_filterMap.1 (show GoSpec.type name t ∈ specs.filterMap (filterSpec name) by rw [hone]; exact List.mem_singleton.2 rfl)
            cases sp with
            | «import» => cases hsp
            | value l => simp only [filterSpec] at hsp; split at hsp <;> cases hsp
            | type n u =>
              simp only [filterSpec] at hsp
              split at hsp
              · rename_i e
                subst e
                exact hl u ⟨specs, List.mem_cons_self, hm⟩
              · split at hsp
                · simp only [Option.some.injEq, GoSpec.type.injEq] at hsp
                  exact absurd hsp.1 (by assumption)
                · cases hsp
  refine key pre hd (filterFile name (.gen [.type name t] :: post)) ?_
  simp only [parseGoStruct, goSource, hp, if_true, hs, Res.bind] at h
  split at h
  · rename_i h'
    split at h'
    · cases h'
    · cases h'
      rw [filterFile, List.filterMap_append] at h
      unfold filterFile
      generalize List.filterMap (filterDecl name) pre ++ List.filterMap (filterDecl name) (.gen [.type name t] :: post) = x at h ⊢
      cases x with
      | nil => simp [firstType] at h
      | cons => exact h
  · cases h
  · cases h

/-- A struct, perhaps behind pointers and in lists and maps. -/
inductive StructWithin (fs : List GoField) : GoType → Prop where
  | struct : StructWithin fs (.struct fs)
  | list {t : GoType} : StructWithin fs t → StructWithin fs (.array t)
  | pointer {t : GoType} : StructWithin fs t → StructWithin fs (.star t)
  | map {k v : GoType} : StructWithin fs v → StructWithin fs (.map k v)

/-- The fields taken are those of the struct, also if the type found is a list of structs, a map to them or a pointer to one. -/
theorem C84_fields {t : GoType} {fs : List GoField} (h : StructWithin fs t) : findFields t = some fs := by
  induction h with
  | struct => rfl
  | list _ ih => exact ih
  | pointer _ ih => exact ih
  | map _ ih => simp [findFields, ih]

example : StructWithin [.mk (some g!"A") (.ident g!"int64") {}] (.map (.ident g!"string") (.array (.star (.struct [.mk (some g!"A") (.ident g!"int64") {}])))) := .map (.list (.pointer .struct))

/-- In a directory, the struct is found if there is one package, it is declared there once and on its own, and nothing before it in its file is called like it,
nor has a field that is. -/
theorem C84_dir_partial (hp : hasSuffix path g!".go" = false) {pkg file : Str} {a b : List (Str × GoSource)} {pre post : GoSource} {t : GoType}
    (hs : s.dir path = .ok [(pkg, a ++ (file, pre ++ .gen [.type name t] :: post) :: b)]) (ha : ∀ f ∈ a ++ b, ∀ u, ¬ TypeDeclared f.2 name u)
    (hpost : ∀ u, ¬ TypeDeclared post name u) (hpre : ∀ d ∈ pre, ¬ Uses name d) : parseGoStruct s name path = .ok (name, t) := by
  have hpz : countNamed name pre = 0 := count_zero fun u ⟨sp, h1, h2⟩ => hpre _ h1 (.type h2)
  have htot : total name ((a ++ (file, pre ++ .gen [.type name t] :: post) :: b).map fun f => filterFile name f.2) = 1 := by
    rw [total_filter, List.map_append, List.map_cons, total_append, total, total_zero fun f hf => ha f (List.mem_append_left _ hf),
      total_zero fun f hf => ha f (List.mem_append_right _ hf), count_append, hpz]
    simp [countNamed, count_zero hpost, specNamed]
  obtain ⟨f, hf, h1, h2⟩ := scan_one htot
  have hmem : filterFile name (pre ++ .gen [.type name t] :: post) ∈ (a ++ (file, pre ++ .gen [.type name t] :: post) :: b).map fun f => filterFile name f.2 :=
    List.mem_map.2 ⟨_, List.mem_append_right _ List.mem_cons_self, rfl⟩
  have hc : countNamed name (filterFile name (pre ++ .gen [.type name t] :: post)) = 1 := by
    rw [count_filter, count_append, hpz]
    simp [countNamed, count_zero hpost, specNamed]
  have := total_unique htot hf hmem h1 hc
  subst this
  have hall : (((a ++ (file, pre ++ .gen [.type name t] :: post) :: b).map fun f => filterFile name f.2).all List.isEmpty) = false := by
    rw [List.all_eq_false]
    exact ⟨_, hmem, by rw [filter_found hpre]; simp⟩
  simp only [parseGoStruct, goSource, hp, Bool.false_eq_true, if_false, filterPackage, hs, Res.bind, hall, h2, filter_found hpre]
  rfl

/-- In a directory, in which the struct is not declared, or more than once, or in which there is not just one package, nothing is found. -/
theorem C84_none (hp : hasSuffix path g!".go" = false) {pkgs : List (Str × List (Str × GoSource))} (hs : s.dir path = .ok pkgs)
    (h : pkgs.length ≠ 1 ∨ (∀ p ∈ pkgs, ∀ f ∈ p.2, ∀ t, ¬ TypeDeclared f.2 name t) ∨
      ∃ pkg a b c f g t u, pkgs = [(pkg, a ++ f :: b ++ g :: c)] ∧ TypeDeclared f.2 name t ∧ TypeDeclared g.2 name u) : parseGoStruct s name path = .err := by
  have key : ∀ pkg files, pkgs = [(pkg, files)] → total name (files.map Prod.snd) ≠ 1 → parseGoStruct s name path = .err := by
    intro pkg files hk ht
    subst hk
    rw [← total_filter] at ht
    simp only [parseGoStruct, goSource, hp, Bool.false_eq_true, if_false, filterPackage, hs, Res.bind]
    by_cases hall : ((files.map fun f => filterFile name f.2).all List.isEmpty) = true
    · simp [hall]
    · simp only [hall, if_false]
      rcases Nat.lt_trichotomy (total name (files.map fun f => filterFile name f.2)) 1 with h0 | h1 | h2
      · rw [scan_zero (by omega)]; rfl
      · exact absurd h1 ht
      · rw [scan_more h2]; rfl
  rcases h with h | h | ⟨pkg, a, b, c, f, g, t, u, hk, h1, h2⟩
  · simp only [parseGoStruct, goSource, hp, Bool.false_eq_true, if_false, filterPackage, hs, Res.bind]
    match pkgs with
    | [] => rfl
    | [_] => exact absurd rfl h
    | _ :: _ :: _ => rfl
  · match pkgs with
    | [] => simp only [parseGoStruct, goSource, hp, Bool.false_eq_true, if_false, filterPackage, hs, Res.bind]
    | [(pkg, files)] => exact key pkg files rfl (by rw [total_zero fun f hf => h _ List.mem_cons_self f hf]; omega)
    | _ :: _ :: _ => simp only [parseGoStruct, goSource, hp, Bool.false_eq_true, if_false, filterPackage, hs, Res.bind]
  · refine key pkg _ hk ?_
    have := count_pos.2 ⟨t, h1⟩
    have := count_pos.2 ⟨u, h2⟩
    simp only [List.map_append, List.map_cons, total_append, total]
    omega

/-- The result does not depend on the order in which the files are visited. -/
theorem C84_order (hp : hasSuffix path g!".go" = false) {s' : Sources} {pkg : Str} {a b : List (Str × GoSource)} (h : a.Perm b)
    (hs : s.dir path = .ok [(pkg, a)]) (hs' : s'.dir path = .ok [(pkg, b)]) : parseGoStruct s name path = parseGoStruct s' name path := by
  have hm := h.map fun f => filterFile name f.2
  simp only [parseGoStruct, goSource, hp, Bool.false_eq_true, if_false, filterPackage, hs, hs', Res.bind, scan_perm hm]
  have : ((a.map fun f => filterFile name f.2).all List.isEmpty) = ((b.map fun f => filterFile name f.2).all List.isEmpty) := by
    rw [Bool.eq_iff_iff]
    simp only [List.all_eq_true]
    exact ⟨fun h' x hx => h' x (hm.mem_iff.2 hx), fun h' x hx => h' x (hm.mem_iff.1 hx)⟩
  rw [this]


theorem filterMap_declares {l : GoSource} {t : GoType} (h : TypeDeclared (filterFile name l) name t) : TypeDeclared l name t := by
  obtain ⟨specs, h1, h2⟩ := h
  obtain ⟨d, hd, he⟩ := List.mem_filterMap.1 h1
  cases d with
  | func n =>
    simp only [filterDecl] at he
    split at he <;> cases he
  | gen sp =>
    simp only [filterDecl] at he
    split at he
    · cases he
    · obtain rfl := GoDecl.gen.inj (Option.some.inj he)
      obtain ⟨x, hx, hxe⟩ := List.mem_filterMap.1 h2
      cases x with
      | «import» => cases hxe
      | value v =>
        simp only [filterSpec] at hxe
        split at hxe <;> cases hxe
      | type n u =>
        simp only [filterSpec] at hxe
        split at hxe
        · cases hxe; exact ⟨sp, hd, hx⟩
        · split at hxe
          · rename_i hn _
            cases hxe
            exact absurd rfl hn
          · cases hxe

theorem firstType_declares {l : GoSource} {n : Str} {t : GoType} (h : firstType l = .ok (n, t)) : TypeDeclared l n t := by
  match l with
  | [] => cases h
  | .gen [.type _ _] :: _ => cases h; exact ⟨_, List.mem_cons_self, List.mem_cons_self⟩
  | .func _ :: _ => cases h
  | .gen [] :: _ => cases h
  | .gen [.value _] :: _ => cases h
  | .gen [.import] :: _ => cases h
  | .gen (.type _ _ :: _ :: _) :: _ => cases h
  | .gen (.value _ :: _ :: _) :: _ => cases h
  | .gen (.import :: _ :: _) :: _ => cases h

theorem scan_mem : ∀ {l : List GoSource} {o : Option GoSource} {f : GoSource}, scanFiles name l o = .ok (some f) → f ∈ l ∨ o = some f
  | [], o, f, h => by cases h; exact .inr rfl
  | g :: l, o, f, h => by
    rw [scanFiles] at h
    split at h
    · exact (scan_mem h).imp_left (List.mem_cons_of_mem _)
    · split at h
      · rcases scan_mem h with h | h
        · exact .inl (List.mem_cons_of_mem _ h)
        · cases h; exact .inl List.mem_cons_self
      · cases h

/-- The files that a path stands for. -/
def Spec.IsSource (s : Sources) (path : Str) (src : GoSource) : Prop :=
  if hasSuffix path g!".go" then s.file path = .ok src else ∃ pkg files file, s.dir path = .ok [(pkg, files)] ∧ (file, src) ∈ files

/-- What is found, if it has the right name, is what is declared. -/
theorem C84_sound {t : GoType} (h : parseGoStruct s name path = .ok (name, t)) : ∃ src, IsSource s path src ∧ TypeDeclared src name t := by
  cases hp : hasSuffix path g!".go" with
  | true =>
    simp only [parseGoStruct, goSource, hp, if_true] at h
    cases hs : s.file path with
    | ok src =>
      rw [hs] at h
      simp only [Res.bind] at h
      by_cases he : (filterFile name src).isEmpty = true
      · simp [he] at h
      · simp only [he] at h
        exact ⟨src, by simp [IsSource, hp, hs], filterMap_declares (firstType_declares h)⟩
    | err => rw [hs] at h; cases h
    | panic => rw [hs] at h; cases h
  | false =>
    simp only [parseGoStruct, goSource, hp, Bool.false_eq_true, if_false, filterPackage] at h
    cases hs : s.dir path with
    | err => rw [hs] at h; cases h
    | panic => rw [hs] at h; cases h
    | ok pkgs =>
      rw [hs] at h
      match pkgs, hs, h with
      | [], _, h => cases h
      | _ :: _ :: _, _, h => cases h
      | [(pkg, files)], hs, h =>
        simp only [Res.bind] at h
        by_cases hall : ((files.map fun f => filterFile name f.2).all List.isEmpty) = true
        · simp [hall] at h
        · simp only [hall] at h
          cases hsc : scanFiles name (files.map fun f => filterFile name f.2) none with
          | err => simp [hsc] at h
          | panic => simp [hsc] at h
          | ok o =>
            cases o with
            | none => simp [hsc] at h
            | some f =>
              rcases scan_mem hsc with hf | hf
              · obtain ⟨x, hx, rfl⟩ := List.mem_map.1 hf
                simp [hsc] at h
                exact ⟨x.2, by simp only [IsSource, hp, Bool.false_eq_true, if_false]; exact ⟨pkg, files, x.1, hs, hx⟩, filterMap_declares (firstType_declares h)⟩
              · cases hf

/-- Looking for a struct never panics if the sources are read without. -/
theorem C84_total (h1 : ∀ p, s.file p ≠ .panic) (h2 : ∀ p, s.dir p ≠ .panic) : parseGoStruct s name path ≠ .panic := by
  have hf : ∀ l : GoSource, l ≠ [] → firstType l ≠ .panic := by
    intro l hl h
    match l with
    | [] => exact hl rfl
    | .gen [.type _ _] :: _ => cases h
    | .func _ :: _ => cases h
    | .gen [] :: _ => cases h
    | .gen [.value _] :: _ => cases h
    | .gen [.import] :: _ => cases h
    | .gen (.type _ _ :: _ :: _) :: _ => cases h
    | .gen (.value _ :: _ :: _) :: _ => cases h
    | .gen (.import :: _ :: _) :: _ => cases h
  cases hp : hasSuffix path g!".go" with
  | true =>
    simp only [parseGoStruct, goSource, hp, if_true]
    cases hs : s.file path with
    | ok src =>
      simp only [Res.bind]
      by_cases he : (filterFile name src).isEmpty = true
      · simp [he]
      · simp only [he]
        exact hf _ fun h => he (by rw [h]; rfl)
    | err => simp [Res.bind]
    | panic => exact absurd hs (h1 _)
  | false =>
    simp only [parseGoStruct, goSource, hp, Bool.false_eq_true, if_false, filterPackage]
    cases hs : s.dir path with
    | err => simp [Res.bind]
    | panic => exact absurd hs (h2 _)
    | ok pkgs =>
      match pkgs with
      | [] => simp [Res.bind]
      | _ :: _ :: _ => simp [Res.bind]
      | [(pkg, files)] =>
        simp only [Res.bind]
        by_cases hall : ((files.map fun f => filterFile name f.2).all List.isEmpty) = true
        · simp [hall]
        · simp only [hall, if_false]
          rcases Nat.lt_trichotomy (total name (files.map fun f => filterFile name f.2)) 1 with h0 | h1 | h2
          · rw [scan_zero (by omega)]; simp
          · obtain ⟨f, hm, hc, he⟩ := scan_one h1
            rw [he]
            refine hf f fun h => ?_
            rw [h] at hc
            cases hc
          · rw [scan_more h2]; simp

/-! ### Generated files -/

theorem readStructs_append : ∀ {a b : List StructText} {l : GoSource}, readStructs (a ++ b) = some l → ∃ x y, readStructs a = some x ∧ readStructs b = some y ∧ l = x ++ y
  | [], b, l, h => ⟨[], l, rfl, h, rfl⟩
  | st :: a, b, l, h => by
    simp only [List.cons_append, readStructs, Option.bind_eq_some_iff, Option.map_eq_some_iff] at h
    obtain ⟨d, hd, l', hl, rfl⟩ := h
    obtain ⟨x, y, h1, h2, rfl⟩ := readStructs_append hl
    exact ⟨d :: x, y, by simp [readStructs, hd, h1], h2, rfl⟩

theorem readStructs_mem : ∀ {a : List StructText} {l : GoSource}, readStructs a = some l → ∀ d ∈ l, ∃ st ∈ a, readDecl st = some d
  | [], l, h, d, hd => by cases h; cases hd
  | st :: a, l, h, d, hd => by
    simp only [readStructs, Option.bind_eq_some_iff, Option.map_eq_some_iff] at h
    obtain ⟨d', hd', l', hl, rfl⟩ := h
    rcases List.mem_cons.1 hd with rfl | hd
    · exact ⟨st, List.mem_cons_self, hd'⟩
    · obtain ⟨x, hx, hr⟩ := readStructs_mem hl d hd
      exact ⟨x, List.mem_cons_of_mem _ hx, hr⟩

/-- In a generated file, each struct is found if no struct before it has its name, or a field or embedded struct of that name. -/
theorem C84_generated_partial (hp : hasSuffix path g!".go" = true) {imports : Bool} {a b : List StructText} {st : StructText} {src : GoSource}
    (hr : readFile (imports, a ++ st :: b) = some src) (hs : s.file path = .ok src)
    (ha : ∀ x ∈ a, x.name ≠ st.name ∧ st.name ∉ x.embeds ∧ ∀ fs, readGoLines x.body [] [] = some fs → ∀ f ∈ fs, keepField st.name f = false) :
    ∃ fs, readGoLines st.body [] [] = some fs ∧
      parseGoStruct s st.name path = .ok (st.name, .struct (st.embeds.map (fun e => .mk none (.ident e) {}) ++ fs)) := by
  simp only [readFile, Option.map_eq_some_iff] at hr
  obtain ⟨l, hl, hsrc⟩ := hr
  obtain ⟨x, y, h1, h2, rfl⟩ := readStructs_append hl
  simp only [readStructs, Option.bind_eq_some_iff, Option.map_eq_some_iff] at h2
  obtain ⟨d, hd, y', _, rfl⟩ := h2
  simp only [readDecl, Option.map_eq_some_iff] at hd
  obtain ⟨fs, hfs, rfl⟩ := hd
  refine ⟨fs, hfs, ?_⟩
  have hx : ∀ d ∈ x, ¬ Uses st.name d := by
    intro d hd hu
    obtain ⟨z, hz, hzd⟩ := readStructs_mem h1 d hd
    simp only [readDecl, Option.map_eq_some_iff] at hzd
    obtain ⟨fz, hfz, rfl⟩ := hzd
    obtain ⟨n1, n2, n3⟩ := ha z hz
    have hk : ∀ f ∈ z.embeds.map (fun e => GoField.mk none (.ident e) {}) ++ fz, keepField st.name f = false := by
      intro f hf
      rcases List.mem_append.1 hf with hf | hf
      · obtain ⟨e, he, rfl⟩ := List.mem_map.1 hf
        simp only [keepField, embeddedName, decide_eq_false_iff_not, Option.some.injEq]
        rintro rfl
        exact n2 he
      · exact n3 _ hfz f hf
    cases hu with
    | type hm => simp only [List.mem_singleton, GoSpec.type.injEq] at hm; exact n1 hm.1.symm
    | value hm => simp at hm
    | field hm hf =>
      simp only [List.mem_singleton, GoSpec.type.injEq] at hm
      obtain ⟨-, rfl⟩ := hm
      cases hf with
      | named hm => exact absurd (hk _ hm) (by simp [keepField])
      | embedded hm he => exact absurd (hk _ hm) (by simp [keepField, embeddedName_iff.2 he])
  cases imports with
  | false =>
    simp only [Bool.false_eq_true, if_false] at hsrc
    exact C84_file_partial hp (hs.trans (congrArg _ hsrc.symm)) hx
  | true =>
    simp only [if_true] at hsrc
    refine C84_file_partial (pre := .gen [.import] :: x) hp (hs.trans (congrArg _ hsrc.symm)) fun d hd => ?_
    rcases List.mem_cons.1 hd with rfl | hd
    · intro hu
      cases hu with
      | type hm => simp at hm
      | value hm => simp at hm
      | field hm => simp at hm
    · exact hx d hd

variable {title : Str → Str}

/-- From the schema to the file with the Avro schema: the struct is found in the file generated for it, and the Avro schema of C81 is written next to it. -/
theorem C84_schema_partial {isPrint : Char → Bool} {lower : Str → Str} {args : Args} {schema : Instance} {m : GMap P} {name : Str} {embeds : List Str}
    (h : AvroSource title isPrint args schema m embeds) (hname : PlainText isPrint (title name)) :
    ∃ fs, RecordFor title args.fieldNames args.descTag (MayMiss false) m schema.required fs ∧
      ∀ sched, ∃ g src, newGoFile sched title args schema name embeds = .ok g ∧ readFile (g.text title args) = some src ∧
        ∀ (s : Sources) (path : Str), hasSuffix path g!".go" = true → s.file path = .ok src →
          ∃ N, ∀ n, N ≤ n → avroSchemaFile isPrint lower s n (title name) path = .ok (joinPath (pathDir path) (lower (title name) ++ g!".avsc"), fileText (title name) fs) := by
  obtain ⟨fs, hr, -⟩ := C81_partial (w := ⟨isPrint, fun _ => none, fun _ => none⟩) h hname
  refine ⟨fs, hr, fun sched => ?_⟩
  obtain ⟨_, hr0, hg⟩ := C81_partial (w := ⟨isPrint, fun _ => none, fun _ => none⟩) h hname
  obtain ⟨g, body, l, h1, h2, h3, -⟩ := hg sched
  have hrd : readFile (g.text title args) = some (if (g.text title args).1 then .gen [.import] :: [.gen [.type (title name) (.struct l)]] else [.gen [.type (title name) (.struct l)]]) := by
    rw [readFile, h2]
    simp [readStructs, readDecl, h3]
  refine ⟨g, _, h1, hrd, fun s path hp hs => ?_⟩
  obtain ⟨fs', hr', hg'⟩ := C81_partial (w := avroWorld isPrint lower s (pathDir path)) h hname
  obtain rfl := C81_unique hr hr'
  obtain ⟨g', body', l', k1, k2, k3, N, k4⟩ := hg' sched
  rw [h1] at k1; cases k1
  rw [h2] at k2; cases k2
  rw [h3] at k3; cases k3
  refine ⟨N, fun n hn => ?_⟩
  have e : (⟨(g.text title args).1, [] ++ (⟨title name, [], body⟩ : StructText) :: []⟩ : Bool × List StructText) = g.text title args := by
    rw [List.nil_append, ← h2]
  obtain ⟨l2, e1, e2⟩ := C84_generated_partial (path := path) hp (imports := (g.text title args).1) (a := []) (b := []) (st := ⟨title name, [], body⟩)
    (by rw [e]; exact hrd) hs (fun x hx => (nomatch hx))
  rw [h3] at e1
  cases e1
  simp only [avroSchemaFile, e2, Res.bind]
  have := k4 n hn
  simp only [findFields, List.map_nil, List.nil_append, Option.getD_some, this]

/-- **C84**, in full: a type that is declared once, on its own, is found. -/
def C84_statement : Prop := ∀ (s : Sources) (path : Str) (src : GoSource) (name : Str) (t : GoType), hasSuffix path g!".go" = true → s.file path = .ok src →
  DeclaredOnce src name t → parseGoStruct s name path = .ok (name, t)

namespace C84ex
open C76ex Toy

/-- An object `in` and a property with the name of its struct. -/
def schema : Instance := { Instance.zero with properties := some [(g!"in", pIn), (g!"thingIn", pInt)] }

/-- The declarations of the file for it; nested objects get structs of their own. -/
def source : GoSource := match newGoFile Sched.id C56ex.capital C56ex.flat schema g!"thing" [] with
  | .ok g => (readFile (g.text C56ex.capital C56ex.flat)).getD []
  | _ => []

/-- The names of structs and fields. -/
def outline : GoSource → Option ((Str × Str × Str) × Str × Str)
  | [.gen [.type a (.struct [.mk (some b) _ _, .mk (some c) _ _])], .gen [.type d (.struct [.mk (some e) _ _])]] => some ((a, b, c), d, e)
  | _ => none

theorem source_outline : outline source = some ((g!"Thing", g!"In", g!"ThingIn"), g!"ThingIn", g!"N") := by decide +kernel

theorem source_decls : ∃ t1 t2 t3 g1 g2 g3, source = [.gen [.type g!"Thing" (.struct [.mk (some g!"In") t1 g1, .mk (some g!"ThingIn") t2 g2])],
    .gen [.type g!"ThingIn" (.struct [.mk (some g!"N") t3 g3])]] := by
  have h := source_outline
  generalize source = x at h
  unfold outline at h
  split at h
  · simp only [Option.some.injEq, Prod.mk.injEq] at h
    obtain ⟨⟨rfl, rfl, rfl⟩, rfl, rfl⟩ := h
    exact ⟨_, _, _, _, _, _, rfl⟩
  · cases h

/-- Only that file. -/
def files : Sources := ⟨fun p => if p = g!"/x/thing.go" then .ok source else .err, fun p => if p = g!"/x" then .ok [(g!"x", [(g!"thing.go", source)])] else .err⟩

/-- The root struct is found, in the file and in the directory. -/
example : ∃ fs, parseGoStruct files g!"Thing" g!"/x/thing.go" = .ok (g!"Thing", .struct fs) ∧ parseGoStruct files g!"Thing" g!"/x" = .ok (g!"Thing", .struct fs) := by
  obtain ⟨t1, t2, t3, g1, g2, g3, h⟩ := source_decls
  refine ⟨_, C84_file_partial (pre := []) (post := [_]) (by decide) (show Res.ok source = _ by rw [h]; rfl) (fun _ h => (nomatch h)),
    C84_dir_partial (a := []) (b := []) (pre := []) (post := [_]) (by decide) (show Res.ok [(g!"x", [(g!"thing.go", source)])] = _ by rw [h]; rfl)
      (fun _ h => (nomatch h)) ?_ (fun _ h => (nomatch h))⟩
  rintro u ⟨sp, h1, h2⟩
  cases List.mem_singleton.1 h1
  simp at h2

/-- Not found behind a struct that embeds a pointer to it. -/
example {fs : List GoField} {s : Sources} (h : s.file g!"/x/a.go" = .ok [.gen [.type g!"A" (.struct [.mk none (.star (.ident g!"Thing")) {}])], .gen [.type g!"Thing" (.struct fs)]]) :
    parseGoStruct s g!"Thing" g!"/x/a.go" ≠ .ok (g!"Thing", .struct fs) := fun h' =>
  (C84_file_iff (pre := [_]) (post := []) (by decide) h (by
    rintro u ⟨sp, h1, h2⟩
    cases List.mem_singleton.1 h1
    simp at h2)).1 h' _ (List.mem_singleton.2 rfl) (.field (List.mem_singleton.2 rfl) (.embedded (List.mem_singleton.2 rfl) (.pointer .ident)))

/-- Nothing of that name. -/
example : parseGoStruct files g!"Other" g!"/x" = .err := C84_none (by decide) (pkgs := [(g!"x", [(g!"thing.go", source)])]) rfl (.inr (.inl (by
  obtain ⟨t1, t2, t3, g1, g2, g3, h⟩ := source_decls
  rintro p hp f hf t ⟨sp, h1, h2⟩
  cases List.mem_singleton.1 hp
  cases List.mem_singleton.1 hf
  simp only [h, List.mem_cons, List.not_mem_nil, or_false, GoDecl.gen.injEq] at h1
  rcases h1 with rfl | rfl <;> simp at h2)))

/-- The conditions of `C84_schema_partial` are those of C81. -/
example : AvroSource C56ex.capital C81ex.world.isPrint args C81ex.objectSchema [(g!"in", pIn)] [] ∧ PlainText C81ex.world.isPrint (C56ex.capital g!"thing") :=
  ⟨C81ex.object_source, plain_ascii (by decide)⟩

end C84ex

open C84ex in
/-- C84 is false in general: asked for `ThingIn`, the parser gives the struct `Thing`, reduced to its field `ThingIn`. -/
theorem C84_refuted : ¬ C84_statement := by
  intro h
  obtain ⟨t1, t2, t3, g1, g2, g3, hs⟩ := source_decls
  have h1 := h files g!"/x/thing.go" source g!"ThingIn" _ (by decide) rfl
    ⟨[.gen [.type g!"Thing" (.struct [.mk (some g!"In") t1 g1, .mk (some g!"ThingIn") t2 g2])]], [], hs, by
      rintro u ⟨sp, h1, h2⟩
      cases List.mem_singleton.1 h1
      simp at h2, by
      rintro u ⟨sp, h1, _⟩
      cases h1⟩
  have h2 : parseGoStruct files g!"ThingIn" g!"/x/thing.go" = .ok (g!"Thing", .struct [.mk (some g!"ThingIn") t2 g2]) := by
    have hf : files.file g!"/x/thing.go" = .ok source := rfl
    simp only [parseGoStruct, goSource, show hasSuffix g!"/x/thing.go" g!".go" = true by decide, if_true, hf, hs]
    rfl
  rw [h2] at h1
  simp at h1

end JT.Go
