import Verif.Model.GoAst
import Verif.Spec.GoName
import Verif.Proofs.Map
import Verif.Proofs.MapMore
/- C61: which field the Avro field mapper takes for a name; C68: whether it is the one that the Go selector takes. -/
namespace JT.Go

/-! ### Specification -/

/-- The struct that a field embeds: its name and its fields. -/
def Spec.Embeds (files : Str → Option (List GoField)) (f : GoField) (fs : List GoField) : Prop :=
  f.name = none ∧ ∃ e, f.type = .ident e ∧ files e = some fs

/-- A struct has a field, at a depth of embedding. -/
inductive Spec.Promoted (files : Str → Option (List GoField)) : List GoField → Nat → Str → GoField → Prop where
  | own {l f k} : f ∈ l → f.name = some k → Promoted files l 0 k f
  | via {l e fs d k f} : e ∈ l → Spec.Embeds files e fs → Promoted files fs d k f → Promoted files l (d + 1) k f

/-- A struct has a field of that key, at any depth. -/
def Spec.Has (files : Str → Option (List GoField)) (l : List GoField) (K : Str) : Prop :=
  ∃ d k f, Spec.Promoted files l d k f ∧ Spec.key k = K

/-- The struct itself declares a field of that key. -/
def Spec.Own (l : List GoField) (K : Str) : Prop := ∃ f ∈ l, ∃ k, f.name = some k ∧ Spec.key k = K

/-- The field that should be taken: the struct's own field, or else the one of the first embedded struct that has one. -/
inductive Spec.Chosen (files : Str → Option (List GoField)) : List GoField → Str → GoField → Prop where
  | own {a b f k} : f.name = some k → ¬ Spec.Own b (Spec.key k) → Chosen files (a ++ f :: b) (Spec.key k) f
  | via {a b e fs K f} : ¬ Spec.Own (a ++ e :: b) K → (∀ e' ∈ a, ∀ fs', Spec.Embeds files e' fs' → ¬ Spec.Has files fs' K) →
      Spec.Embeds files e fs → Chosen files fs K f → Chosen files (a ++ e :: b) K f

/-- The field that the Go selector `z.k` denotes: the one of least depth, if it is the only one at that depth. -/
def Spec.Selects (files : Str → Option (List GoField)) (l : List GoField) (k : Str) (f : GoField) : Prop :=
  ∃ d, Spec.Promoted files l d k f ∧ (∀ d' < d, ∀ f', ¬ Spec.Promoted files l d' k f') ∧ ∀ f', Spec.Promoted files l d k f' → f' = f

/-! ### The loop -/


variable {files : Str → Option (List GoField)} {ord : GMap GoField → GMap GoField}

/-- The last own field of a key. -/
def lastOwn (K : Str) : List GoField → Option GoField
  | [] => none
  | f :: t => (lastOwn K t).or (if f.name.map Spec.key = some K then some f else none)

/-- What an embedded field contributes. -/
def embGet (files : Str → Option (List GoField)) (rec : List GoField → Res (GMap GoField)) (K : Str) : GoField → Option GoField
  | .mk none (.ident e) _ =>
    match files e with
    | none => none
    | some fs =>
      match rec fs with
      | .ok em => GMap.get K em
      | _ => none
  | _ => none

/-- What the first embedded field with that key contributes. -/
def firstEmb (files : Str → Option (List GoField)) (rec : List GoField → Res (GMap GoField)) (K : Str) : List GoField → Option GoField
  | [] => none
  | f :: t => (embGet files rec K f).or (firstEmb files rec K t)

theorem mapLoop_sorted {rec : List GoField → Res (GMap GoField)} :
    ∀ (l : List GoField) (m r : GMap GoField), GMap.Sorted m → mapLoop files ord rec l m = .ok r → GMap.Sorted r := by
  intro l
  induction l with
  | nil => intro m r hm h; simp only [mapLoop, Res.ok.injEq] at h; subst h; exact hm
  | cons f t ih =>
    intro m r hm h
    obtain ⟨n, ty, tg⟩ := f
    cases n with
    | some k => exact ih _ r (GMap.sorted_set hm) h
    | none =>
      cases ty with
      | ident e =>
        rw [mapLoop] at h
        cases hf : files e with
        | none => simp [hf] at h
        | some fs =>
          simp only [hf] at h
          cases hr : rec fs with
          | ok em => 
            rw [hr] at h
            exact ih _ r (GMap.sorted_fill hm) h
          | err => rw [hr] at h; cases h
          | panic => rw [hr] at h; cases h
      | _ => exact ih m r hm h

theorem mapLoop_get (hord : ∀ m, (ord m).Perm m) {rec : List GoField → Res (GMap GoField)} (hrec : ∀ fs m, rec fs = .ok m → GMap.Sorted m) (K : Str) :
    ∀ (l : List GoField) (m r : GMap GoField), mapLoop files ord rec l m = .ok r →
      GMap.get K r = (lastOwn K l).or ((GMap.get K m).or (firstEmb files rec K l)) := by
  intro l
  induction l with
  | nil => intro m r h; simp only [mapLoop, Res.ok.injEq] at h; subst h; simp [lastOwn, firstEmb]
  | cons f t ih =>
    intro m r h
    obtain ⟨n, ty, tg⟩ := f
    cases n with
    | some k =>
      rw [ih _ r h, GMap.get_set]
      simp only [lastOwn, firstEmb, embGet, GoField.name, Option.map_some, Option.some.injEq, Option.none_or]
      cases lastOwn K t with
      | some x => rfl
      | none =>
        by_cases hk : Spec.key k = K
        · simp [fieldKey_eq, hk]
        · have hk' : K ≠ Spec.key k := fun h => hk h.symm
          simp [fieldKey_eq, hk, hk']
    | none =>
      have hskip : ∀ h' : embGet files rec K (.mk none ty tg) = none, mapLoop files ord rec t m = .ok r →
          GMap.get K r = (lastOwn K (.mk none ty tg :: t)).or ((GMap.get K m).or (firstEmb files rec K (.mk none ty tg :: t))) := by
        intro h' h
        rw [ih _ r h]
        simp [lastOwn, firstEmb, h', GoField.name]
      cases ty with
      | ident e =>
        rw [mapLoop] at h
        cases hf : files e with
        | none => simp [hf] at h
        | some fs =>
          simp only [hf] at h
          cases hr : rec fs with
          | ok em =>
            rw [hr] at h
            rw [ih _ r h, GMap.get_fill, GMap.get_perm (hord em) (hrec fs em hr).nodup]
            simp [lastOwn, firstEmb, embGet, hf, hr, GoField.name, Option.or_assoc]
          | err => rw [hr] at h; cases h
          | panic => rw [hr] at h; cases h
      | star x => exact hskip rfl h
      | map a b => exact hskip rfl h
      | array x => exact hskip rfl h
      | struct x => exact hskip rfl h
      | selector x => exact hskip rfl h
      | other x => exact hskip rfl h

/-- In a run that succeeds the maps of all embedded structs were built. -/
theorem mapLoop_rec {rec : List GoField → Res (GMap GoField)} :
    ∀ (l : List GoField) (m r : GMap GoField), mapLoop files ord rec l m = .ok r →
      ∀ e ∈ l, ∀ n, e.name = none → e.type = .ident n → ∃ fs em, files n = some fs ∧ rec fs = .ok em := by
  intro l
  induction l with
  | nil => intro m r _ e he; cases he
  | cons f t ih =>
    intro m r h e he n hn ht
    obtain ⟨n', ty, tg⟩ := f
    cases n' with
    | some k =>
      cases he with
      | head => cases hn
      | tail _ he => exact ih _ r h e he n hn ht
    | none =>
      cases ty with
      | ident e' =>
        rw [mapLoop] at h
        cases hf : files e' with
        | none => simp [hf] at h
        | some fs =>
          simp only [hf] at h
          cases hr : rec fs with
          | ok em =>
            rw [hr] at h
            cases he with
            | head =>
              simp only [GoField.type, GoType.ident.injEq] at ht
              subst ht
              exact ⟨fs, em, hf, hr⟩
            | tail _ he => exact ih _ r h e he n hn ht
          | err => rw [hr] at h; cases h
          | panic => rw [hr] at h; cases h
      | _ =>
        cases he with
        | head => cases ht
        | tail _ he => exact ih _ r h e he n hn ht

theorem mapFields_sorted : ∀ (n : Nat) (l : List GoField) (m : GMap GoField), mapFields files ord n l = .ok m → GMap.Sorted m
  | 0, _, _, h => by cases h
  | n + 1, l, m, h => mapLoop_sorted l [] m trivial h

/-! ### Own fields -/

theorem lastOwn_none {K : Str} : ∀ {l : List GoField}, lastOwn K l = none ↔ ¬ Spec.Own l K
  | [] => by simp [lastOwn, Spec.Own]
  | f :: t => by
    have ih := lastOwn_none (K := K) (l := t)
    constructor
    · intro h ⟨g, hg, k, hn, hk⟩
      simp only [lastOwn, Option.or_eq_none_iff] at h
      cases hg with
      | head => simp [hn, hk] at h
      | tail _ hg => exact ih.1 h.1 ⟨g, hg, k, hn, hk⟩
    · intro h
      simp only [lastOwn, Option.or_eq_none_iff]
      refine ⟨ih.2 fun ⟨g, hg, hk⟩ => h ⟨g, List.mem_cons_of_mem _ hg, hk⟩, ?_⟩
      apply if_neg
      intro he
      obtain ⟨k, hk, hK⟩ := Option.map_eq_some_iff.1 he
      exact h ⟨f, List.mem_cons_self .., k, hk, hK⟩

theorem lastOwn_some {K : Str} {f : GoField} : ∀ {l : List GoField}, lastOwn K l = some f ↔
    ∃ a b k, l = a ++ f :: b ∧ f.name = some k ∧ Spec.key k = K ∧ ¬ Spec.Own b K
  | [] => by simp [lastOwn]
  | g :: t => by
    have ih := lastOwn_some (K := K) (f := f) (l := t)
    constructor
    · intro h
      cases hl : lastOwn K t with
      | some x =>
        simp only [lastOwn, hl, Option.some_or, Option.some.injEq] at h
        subst h
        obtain ⟨a, b, k, h1, h2⟩ := ih.1 hl
        exact ⟨g :: a, b, k, by rw [h1]; rfl, h2⟩
      | none =>
        simp only [lastOwn, hl, Option.none_or] at h
        split at h
        · rename_i he
          obtain ⟨k, hk, hK⟩ := Option.map_eq_some_iff.1 he
          simp only [Option.some.injEq] at h
          subst h
          exact ⟨[], t, k, rfl, hk, hK, lastOwn_none.1 hl⟩
        · cases h
    · rintro ⟨a, b, k, h1, h2, h3, h4⟩
      cases a with
      | nil =>
        simp only [List.nil_append, List.cons.injEq] at h1
        obtain ⟨rfl, rfl⟩ := h1
        simp [lastOwn, lastOwn_none.2 h4, h2, h3]
      | cons x a =>
        simp only [List.cons_append, List.cons.injEq] at h1
        rw [lastOwn, ih.2 ⟨a, b, k, h1.2, h2, h3, h4⟩]
        rfl

theorem own_has {l : List GoField} {K : Str} (h : Spec.Own l K) : Spec.Has files l K := by
  obtain ⟨f, hf, k, hk, hK⟩ := h
  exact ⟨0, k, f, .own hf hk, hK⟩

theorem embGet_some {rec : List GoField → Res (GMap GoField)} {K : Str} {e f : GoField} (h : embGet files rec K e = some f) :
    ∃ fs em, Spec.Embeds files e fs ∧ rec fs = .ok em ∧ GMap.get K em = some f := by
  obtain ⟨n, ty, tg⟩ := e
  cases n with
  | some k => simp [embGet] at h
  | none =>
    cases ty with
    | ident e =>
      simp only [embGet] at h
      cases hf : files e with
      | none => simp [hf] at h
      | some fs =>
        simp only [hf] at h
        cases hr : rec fs with
        | ok em => rw [hr] at h; exact ⟨fs, em, ⟨rfl, e, rfl, hf⟩, hr, h⟩
        | err => rw [hr] at h; cases h
        | panic => rw [hr] at h; cases h
    | _ => simp [embGet] at h

theorem embGet_embeds {rec : List GoField → Res (GMap GoField)} {K : Str} {e : GoField} {fs : List GoField} {em : GMap GoField}
    (h : Spec.Embeds files e fs) (hr : rec fs = .ok em) : embGet files rec K e = GMap.get K em := by
  obtain ⟨n, ty, tg⟩ := e
  obtain ⟨h1, n', h2, h3⟩ := h
  simp only [GoField.name] at h1
  simp only [GoField.type] at h2
  subst h1 h2
  simp [embGet, h3, hr]

theorem firstEmb_some {rec : List GoField → Res (GMap GoField)} {K : Str} {f : GoField} : ∀ {l : List GoField}, firstEmb files rec K l = some f ↔
    ∃ a e b, l = a ++ e :: b ∧ embGet files rec K e = some f ∧ ∀ e' ∈ a, embGet files rec K e' = none
  | [] => by simp [firstEmb]
  | g :: t => by
    have ih := firstEmb_some (rec := rec) (K := K) (f := f) (l := t)
    constructor
    · intro h
      cases hg : embGet files rec K g with
      | some x =>
        simp only [firstEmb, hg, Option.some_or, Option.some.injEq] at h
        subst h
        exact ⟨[], g, t, rfl, hg, by simp⟩
      | none =>
        simp only [firstEmb, hg, Option.none_or] at h
        obtain ⟨a, e, b, h1, h2, h3⟩ := ih.1 h
        refine ⟨g :: a, e, b, by rw [h1]; rfl, h2, ?_⟩
        intro e' he'
        cases he' with
        | head => exact hg
        | tail _ h => exact h3 e' h
    · rintro ⟨a, e, b, h1, h2, h3⟩
      cases a with
      | nil =>
        simp only [List.nil_append, List.cons.injEq] at h1
        obtain ⟨rfl, rfl⟩ := h1
        simp [firstEmb, h2]
      | cons x a =>
        simp only [List.cons_append, List.cons.injEq] at h1
        obtain ⟨rfl, h1⟩ := h1
        rw [firstEmb, h3 g (List.mem_cons_self ..), Option.none_or]
        exact ih.2 ⟨a, e, b, h1, h2, fun e' he' => h3 e' (List.mem_cons_of_mem _ he')⟩

/-- The map has a field for every key that the struct has at any depth, and no other. -/
theorem mapFields_has (hord : ∀ m, (ord m).Perm m) : ∀ (n : Nat) (l : List GoField) (m : GMap GoField), mapFields files ord n l = .ok m →
    ∀ K, (GMap.get K m).isSome = true ↔ Spec.Has files l K := by
  intro n
  induction n with
  | zero => intro l m h; cases h
  | succ n ih =>
    intro l m h K
    have hg := mapLoop_get hord (mapFields_sorted n) K l [] m h
    have hrec := mapLoop_rec l [] m h
    simp only [GMap.get, Option.none_or] at hg
    rw [hg]
    constructor
    · intro hs
      cases hl : lastOwn K l with
      | some f => exact own_has (Classical.byContradiction fun hn => by rw [lastOwn_none.2 hn] at hl; cases hl)
      | none =>
        rw [hl, Option.none_or] at hs
        obtain ⟨f, hf⟩ := Option.isSome_iff_exists.1 hs
        obtain ⟨a, e, b, rfl, h2, _⟩ := firstEmb_some.1 hf
        obtain ⟨fs, em, h3, h4, h5⟩ := embGet_some h2
        obtain ⟨d, k, f', hp, hk⟩ := (ih fs em h4 K).1 (by simp [h5])
        exact ⟨d + 1, k, f', .via (by simp) h3 hp, hk⟩
    · rintro ⟨d, k, f, hp, hk⟩
      cases hp with
      | own hm hn =>
        cases hl : lastOwn K l with
        | some f => simp
        | none => exact absurd ⟨f, hm, k, hn, hk⟩ (lastOwn_none.1 hl)
      | @via _ e fs d _ _ he hemb hp =>
        obtain ⟨h1, nm, h2, h3⟩ := id hemb
        obtain ⟨fs', em, h4, h5⟩ := hrec e he nm h1 h2
        rw [h3] at h4
        obtain rfl := Option.some.inj h4
        have := (ih fs em h5 K).2 ⟨d, k, f, hp, hk⟩
        cases hl : lastOwn K l with
        | some f => simp
        | none =>
          rw [Option.none_or]
          cases hfe : firstEmb files (mapFields files ord n) K l with
          | some x => rfl
          | none =>
            exfalso
            have hall : ∀ (l : List GoField), firstEmb files (mapFields files ord n) K l = none → e ∈ l →
                embGet files (mapFields files ord n) K e = none := by
              intro l
              induction l with
              | nil => intro _ h; cases h
              | cons x t iht =>
                intro hx hm
                simp only [firstEmb, Option.or_eq_none_iff] at hx
                cases hm with
                | head => exact hx.1
                | tail _ hm => exact iht hx.2 hm
            have := hall l hfe he
            rw [embGet_embeds hemb h5] at this
            simp_all

/-! ### Theorems -/

/-- The map of a struct has exactly the fields the struct has at any depth, and for each name the one that should be taken: the struct's own field, or else that of
the first embedded struct with such a field, whatever the order in which maps are visited. -/
theorem C61 (hord : ∀ m, (ord m).Perm m) : ∀ (n : Nat) (l : List GoField) (m : GMap GoField), mapFields files ord n l = .ok m →
    ∀ K f, GMap.get K m = some f ↔ Spec.Chosen files l K f := by
  intro n
  induction n with
  | zero => intro l m h; cases h
  | succ n ih =>
    intro l m h K f
    have hg := mapLoop_get hord (mapFields_sorted n) K l [] m h
    have hrec := mapLoop_rec l [] m h
    simp only [GMap.get, Option.none_or] at hg
    rw [hg]
    constructor
    · intro hs
      cases hl : lastOwn K l with
      | some f' =>
        rw [hl] at hs
        simp only [Option.some_or, Option.some.injEq] at hs
        subst hs
        obtain ⟨a, b, k, rfl, h2, rfl, h4⟩ := lastOwn_some.1 hl
        exact .own h2 h4
      | none =>
        rw [hl, Option.none_or] at hs
        obtain ⟨a, e, b, rfl, h2, h3⟩ := firstEmb_some.1 hs
        obtain ⟨fs, em, h4, h5, h6⟩ := embGet_some h2
        refine .via (lastOwn_none.1 hl) ?_ h4 ((ih fs em h5 K f).1 h6)
        intro e' he' fs' hemb hhas
        obtain ⟨g1, nm, g2, g3⟩ := id hemb
        obtain ⟨fs2, em2, g4, g5⟩ := hrec e' (by simp [he']) nm g1 g2
        rw [g3] at g4
        obtain rfl := Option.some.inj g4
        have := (mapFields_has hord n fs' em2 g5 K).2 hhas
        rw [← embGet_embeds hemb g5, h3 e' he'] at this
        cases this
    · intro hc
      generalize hl : l = l' at hc
      cases hc with
      | @own a b _ k hn ho =>
        subst hl
        rw [lastOwn_some.2 ⟨a, b, k, rfl, hn, rfl, ho⟩]
        rfl
      | @via a b e fs _ _ ho hno hemb hc =>
        subst hl
        rw [lastOwn_none.2 ho, Option.none_or]
        obtain ⟨g1, nm, g2, g3⟩ := id hemb
        obtain ⟨fs2, em, g4, g5⟩ := hrec e (by simp) nm g1 g2
        rw [g3] at g4
        obtain rfl := Option.some.inj g4
        refine firstEmb_some.2 ⟨a, e, b, rfl, ?_, ?_⟩
        · rw [embGet_embeds hemb g5]
          exact (ih fs em g5 K f).2 hc
        · intro e' he'
          cases hx : embGet files (mapFields files ord n) K e' with
          | none => rfl
          | some x =>
            obtain ⟨fs', em', h4, h5, h6⟩ := embGet_some hx
            exact absurd ((mapFields_has hord n fs' em' h5 K).1 (by simp [h6])) (hno e' he' fs' h4)

/-- A field that the struct declares itself is the one taken, wherever it stands, if no two have the same key. -/
theorem C61_own (hord : ∀ m, (ord m).Perm m) {n : Nat} {l : List GoField} {m : GMap GoField} (h : mapFields files ord n l = .ok m)
    (hn : (l.filterMap GoField.name).map Spec.key |>.Nodup) {f : GoField} {k : Str} (hf : f ∈ l) (hk : f.name = some k) :
    GMap.get (Spec.key k) m = some f := by
  obtain ⟨a, b, rfl⟩ := List.append_of_mem hf
  refine (C61 hord n _ m h _ f).2 (.own hk ?_)
  rintro ⟨g, hg, k', hk', he⟩
  rw [List.filterMap_append, List.filterMap_cons_some hk, List.map_append, List.map_cons] at hn
  have := (List.nodup_append.1 hn).2.1
  rw [List.nodup_cons] at this
  apply this.1
  rw [← he]
  exact List.mem_map.2 ⟨k', List.mem_filterMap.2 ⟨g, hg, hk'⟩, rfl⟩

/-- There is a field for every name that the struct has at any depth, and no other. -/
theorem C61_has (hord : ∀ m, (ord m).Perm m) {n : Nat} {l : List GoField} {m : GMap GoField} (h : mapFields files ord n l = .ok m) (K : Str) :
    (GMap.get K m).isSome = true ↔ Spec.Has files l K := mapFields_has hord n l m h K

/-- The structs can be built: embedded structs are found, and do not embed each other in a circle. -/
structure Spec.Ranked (files : Str → Option (List GoField)) (rank : Str → Nat) : Prop where
  found : ∀ e fs, files e = some fs → ∀ g ∈ fs, g.name = none → ∀ e', g.type = .ident e' → (files e').isSome = true ∧ rank e' < rank e

theorem mapLoop_ok {rec : List GoField → Res (GMap GoField)} : ∀ (l : List GoField) (m : GMap GoField),
    (∀ g ∈ l, g.name = none → ∀ e, g.type = .ident e → ∃ fs em, files e = some fs ∧ rec fs = .ok em) → ∃ r, mapLoop files ord rec l m = .ok r
  | [], m, _ => ⟨m, rfl⟩
  | .mk (some k) ty tg :: t, m, h => by
    rw [mapLoop]
    exact mapLoop_ok t _ fun g hg => h g (List.mem_cons_of_mem _ hg)
  | .mk none ty tg :: t, m, h => by
    have ht : ∀ m, ∃ r, mapLoop files ord rec t m = .ok r := fun m => mapLoop_ok t m fun g hg => h g (List.mem_cons_of_mem _ hg)
    cases ty with
    | ident e =>
      obtain ⟨fs, em, h1, h2⟩ := h _ (List.mem_cons_self ..) rfl e rfl
      simp only [mapLoop, h1, h2]
      exact ht _
    | star x => exact ht m
    | map a b => exact ht m
    | array x => exact ht m
    | struct x => exact ht m
    | selector x => exact ht m
    | other x => exact ht m

/-- The map is built whenever all embedded structs are found and none embeds itself, however deep they are nested. -/
theorem C61_total {rank : Str → Nat} (hr : Spec.Ranked files rank) : ∀ (n : Nat) (l : List GoField),
    (∀ g ∈ l, g.name = none → ∀ e, g.type = .ident e → (files e).isSome = true ∧ rank e < n) → ∃ m, mapFields files ord (n + 1) l = .ok m := by
  intro n
  induction n with
  | zero =>
    intro l h
    exact mapLoop_ok l [] fun g hg hn e he => absurd (h g hg hn e he).2 (Nat.not_lt_zero _)
  | succ n ih =>
    intro l h
    refine mapLoop_ok l [] fun g hg hn e he => ?_
    obtain ⟨h1, h2⟩ := h g hg hn e he
    obtain ⟨fs, hfs⟩ := Option.isSome_iff_exists.1 h1
    obtain ⟨em, hem⟩ := ih fs fun g' hg' hn' e' he' => by
      obtain ⟨a, b⟩ := hr.found e fs hfs g' hg' hn' e' he'
      exact ⟨a, by omega⟩
    exact ⟨fs, em, hfs, hem⟩

/-- A struct that embeds itself is never done. -/
theorem C61_circular {e : Str} {a : List GoField} {tg : Tag} (ha : ∀ g ∈ a, g.name ≠ none) (hf : files e = some (a ++ [.mk none (.ident e) tg])) :
    ∀ n, mapFields files ord n (a ++ [.mk none (.ident e) tg]) = .panic := by
  have key : ∀ (rec : List GoField → Res (GMap GoField)), rec (a ++ [.mk none (.ident e) tg]) = .panic → ∀ (b : List GoField) (m : GMap GoField),
      (∀ g ∈ b, g.name ≠ none) → mapLoop files ord rec (b ++ [.mk none (.ident e) tg]) m = .panic := by
    intro rec hrec b
    induction b with
    | nil => intro m _; simp [mapLoop, hf, hrec, Res.bind]
    | cons g t ih =>
      intro m hb
      obtain ⟨n, ty, tg'⟩ := g
      cases n with
      | none => exact absurd rfl (hb _ (List.mem_cons_self ..))
      | some k => exact ih _ fun g hg => hb g (List.mem_cons_of_mem _ hg)
  intro n
  induction n with
  | zero => rfl
  | succ n ih => exact key _ ih a [] ha

/-! ### The Go selector -/

/-- Embedded structs embed nothing themselves. -/
def Spec.Flat (files : Str → Option (List GoField)) : Prop := ∀ e fs, files e = some fs → ∀ g ∈ fs, ∃ k, g.name = some k

/-- No other field has the same key. -/
def Spec.KeyOnly (files : Str → Option (List GoField)) (l : List GoField) (k : Str) : Prop :=
  ∀ d k' f, Spec.Promoted files l d k' f → Spec.key k' = Spec.key k → k' = k

theorem flat_own {fs : List GoField} (hfs : ∀ g ∈ fs, ∃ k, g.name = some k) {K : Str} {f : GoField} (h : Spec.Chosen files fs K f) :
    ∃ k, f ∈ fs ∧ f.name = some k ∧ Spec.key k = K := by
  cases h with
  | own hn _ => exact ⟨_, by simp, hn, rfl⟩
  | @via a b e _ _ _ _ _ hemb _ =>
    obtain ⟨k, hk⟩ := hfs e (by simp)
    rw [hemb.1] at hk
    cases hk

/-- If embedded structs embed nothing themselves, the field taken for a name is the one that the Go selector denotes. -/
theorem C68_partial (hord : ∀ m, (ord m).Perm m) {n : Nat} {l : List GoField} {m : GMap GoField} (h : mapFields files ord n l = .ok m)
    (hflat : Spec.Flat files) {k : Str} {f : GoField} (hk : Spec.KeyOnly files l k) (hs : Spec.Selects files l k f) :
    GMap.get (Spec.key k) m = some f := by
  obtain ⟨d, hp, hmin, huniq⟩ := hs
  obtain ⟨f', hf'⟩ := Option.isSome_iff_exists.1 ((mapFields_has hord n l m h (Spec.key k)).2 ⟨d, k, f, hp, rfl⟩)
  rw [hf']
  have hd : d ≤ 1 := by
    cases hp with
    | own _ _ => omega
    | via _ hemb hp =>
      cases hp with
      | own _ _ => omega
      | via hm hemb' _ =>
        obtain ⟨_, e, _, he⟩ := hemb
        obtain ⟨k', hk'⟩ := hflat e _ he _ hm
        rw [hemb'.1] at hk'
        cases hk'
  have hc := (C61 hord n l m h _ f').1 hf'
  generalize hK : Spec.key k = K at hc
  cases hc with
  | @own a b _ k' hn ho =>
    have hp' : Spec.Promoted files (a ++ f' :: b) 0 k' f' := .own (by simp) hn
    have := hk 0 k' f' hp' hK.symm
    subst this
    match d, hd with
    | 0, _ => rw [huniq f' hp']
    | 1, _ => exact absurd hp' (hmin 0 (by omega) f')
  | @via a b e fs _ _ ho hno hemb hc =>
    obtain ⟨_, nm, _, hfs⟩ := id hemb
    obtain ⟨k', hm, hn, hk'⟩ := flat_own (hflat nm fs hfs) hc
    have hp' : Spec.Promoted files (a ++ e :: b) 1 k' f' := .via (by simp) hemb (.own hm hn)
    have := hk 1 k' f' hp' (by rw [hk', hK])
    subst this
    match d, hd with
    | 1, _ => rw [huniq f' hp']
    | 0, _ =>
      generalize hd0 : 0 = d0 at hp
      cases hp with
      | own hm' hn' => exact absurd ⟨f, hm', _, hn', hK⟩ ho
      | via _ _ _ => omega

/-! ### The cases exist -/

namespace C61ex

def str (k : Str) : GoField := .mk (some k) (.ident g!"string") {}
def int (k : Str) : GoField := .mk (some k) (.ident g!"int64") {}
def emb (e : Str) : GoField := .mk none (.ident e) {}

/-- Struct `A` embeds `B`, which has a string `X`; `C` has an integer `X`; `D` has `Schema` and `Y`. -/
def world : Str → Option (List GoField)
  | ['A'] => some [emb g!"B"]
  | ['B'] => some [str g!"X"]
  | ['C'] => some [int g!"X"]
  | ['D'] => some [str g!"Schema", int g!"Y"]
  | _ => none

/-- Own fields win, before and after the embedded struct. -/
example : mapFields world id 3 [str g!"Y", emb g!"D", emb g!"C", emb g!"B", str g!"Schema"] =
    .ok [(g!"Field_Schema", str g!"Schema"), (g!"X", int g!"X"), (g!"Y", str g!"Y")] := by
  simp [mapFields, mapLoop, world, emb, str, int, Res.bind, GMap.fill, GMap.set, GMap.get, fieldKey_eq, Spec.key, Spec.methods, strLt]

example : Spec.Ranked world (fun e => if e = g!"A" then 1 else 0) := by
  constructor
  intro e fs h g hg hn e' he'
  unfold world at h
  split at h <;> simp only [Option.some.injEq, reduceCtorEq] at h
  all_goals subst h
  all_goals simp only [List.mem_cons, List.not_mem_nil, or_false] at hg
  · subst hg
    simp only [emb, GoField.type, GoType.ident.injEq] at he'
    subst he'
    simp [world]
  · subst hg; cases hn
  · subst hg; cases hn
  · rcases hg with rfl | rfl <;> cases hn

end C61ex

open C61ex in
/-- It is not so in general: a field of an embedded struct's embedded struct is taken although Go takes the one at lesser depth of a later one. -/
theorem C68_refuted : ∃ (files : Str → Option (List GoField)) (l : List GoField) (k : Str) (f f' : GoField) (m : GMap GoField),
    Spec.Selects files l k f ∧ Spec.KeyOnly files l k ∧ mapFields files id 4 l = .ok m ∧ GMap.get (Spec.key k) m = some f' ∧ f.type ≠ f'.type := by
  have hx : ∀ d k f, Spec.Promoted world [emb g!"A", emb g!"C"] d k f → (d = 1 ∧ k = g!"X" ∧ f = int g!"X") ∨ (d = 2 ∧ k = g!"X" ∧ f = str g!"X") := by
    have hB : ∀ d k f, Spec.Promoted world [str g!"X"] d k f → d = 0 ∧ k = g!"X" ∧ f = str g!"X" := by
      intro d k f h
      cases h with
      | own hm hn =>
        simp only [List.mem_singleton] at hm
        subst hm
        simp only [str, GoField.name, Option.some.injEq] at hn
        exact ⟨rfl, hn.symm, rfl⟩
      | via hm he _ =>
        simp only [List.mem_singleton] at hm
        subst hm
        exact absurd he.1 (by simp [str, GoField.name])
    have hC : ∀ d k f, Spec.Promoted world [int g!"X"] d k f → d = 0 ∧ k = g!"X" ∧ f = int g!"X" := by
      intro d k f h
      cases h with
      | own hm hn =>
        simp only [List.mem_singleton] at hm
        subst hm
        simp only [int, GoField.name, Option.some.injEq] at hn
        exact ⟨rfl, hn.symm, rfl⟩
      | via hm he _ =>
        simp only [List.mem_singleton] at hm
        subst hm
        exact absurd he.1 (by simp [int, GoField.name])
    have hA : ∀ d k f, Spec.Promoted world [emb g!"B"] d k f → d = 1 ∧ k = g!"X" ∧ f = str g!"X" := by
      intro d k f h
      cases h with
      | own hm hn =>
        simp only [List.mem_singleton] at hm
        subst hm
        cases hn
      | via hm he hp =>
        simp only [List.mem_singleton] at hm
        subst hm
        obtain ⟨_, e, he, hf⟩ := he
        simp only [emb, GoField.type, GoType.ident.injEq] at he
        subst he
        simp only [world, Option.some.injEq] at hf
        subst hf
        obtain ⟨rfl, h⟩ := hB _ _ _ hp
        exact ⟨rfl, h⟩
    intro d k f h
    cases h with
    | own hm hn =>
      simp only [List.mem_cons, List.not_mem_nil, or_false] at hm
      rcases hm with rfl | rfl <;> cases hn
    | via hm he hp =>
      simp only [List.mem_cons, List.not_mem_nil, or_false] at hm
      obtain ⟨_, e, he, hf⟩ := he
      rcases hm with rfl | rfl
      · simp only [emb, GoField.type, GoType.ident.injEq] at he
        subst he
        simp only [world, Option.some.injEq] at hf
        subst hf
        obtain ⟨rfl, h⟩ := hA _ _ _ hp
        exact Or.inr ⟨rfl, h⟩
      · simp only [emb, GoField.type, GoType.ident.injEq] at he
        subst he
        simp only [world, Option.some.injEq] at hf
        subst hf
        obtain ⟨rfl, h⟩ := hC _ _ _ hp
        exact Or.inl ⟨rfl, h⟩
  refine ⟨world, [emb g!"A", emb g!"C"], g!"X", int g!"X", str g!"X", [(g!"X", str g!"X")], ⟨1, ?_, ?_, ?_⟩, ?_, ?_, ?_, ?_⟩
  · exact .via (e := emb g!"C") (by simp) ⟨rfl, g!"C", rfl, rfl⟩ (.own (by simp) rfl)
  · intro d' hd f' hp
    rcases hx _ _ _ hp with h | h <;> omega
  · intro f' hp
    rcases hx _ _ _ hp with h | h
    · exact h.2.2
    · omega
  · intro d k' f hp _
    rcases hx _ _ _ hp with h | h <;> exact h.2.1
  · simp [mapFields, mapLoop, world, emb, str, int, Res.bind, GMap.fill, GMap.set, GMap.get, fieldKey_eq, Spec.key, Spec.methods]
  · simp [GMap.get, fieldKey_eq, Spec.key, Spec.methods]
  · simp [str, int, GoField.type]

end JT.Go
