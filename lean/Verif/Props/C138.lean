import Verif.Props.C31
import Verif.Spec.Toy
/- C138: which keywords of a schema matter for its Transformers. -/
namespace JT
open Spec

namespace Spec
/-- Not an object. -/
def NoObject (p : P) : Prop := ∀ m, p ≠ .obj m

mutual
/-- Two instances of schemas that are the same, one for Transformers with the identifier `i1` and the other for Transformers with `i2`: they have the same type,
format and default, the same transform for their identifiers, and items and properties that are the same in this sense.  All other keywords, and transforms for
other identifiers, may differ. -/
inductive SameFor (i1 i2 : Str) : P → P → Prop where
  | noObject {p : P} : NoObject p → SameFor i1 i2 p p
  | obj {m1 m2 : List (Str × P)} : (∀ k ∈ [g!"type", g!"format", g!"default"], GMap.get k m1 = GMap.get k m2) →
      (GMap.get g!"transform" m1).bind (P.key i1) = (GMap.get g!"transform" m2).bind (P.key i2) →
      SameItems i1 i2 (GMap.get g!"items" m1) (GMap.get g!"items" m2) → SameProps i1 i2 (GMap.get g!"properties" m1) (GMap.get g!"properties" m2) →
      SameFor i1 i2 (.obj m1) (.obj m2)
inductive SameItems (i1 i2 : Str) : Option P → Option P → Prop where
  | none : SameItems i1 i2 none none
  | some {p q : P} : SameFor i1 i2 p q → SameItems i1 i2 (some p) (some q)
inductive SameProps (i1 i2 : Str) : Option P → Option P → Prop where
  | none : SameProps i1 i2 none none
  | noObject {p : P} : NoObject p → SameProps i1 i2 (some p) (some p)
  | fields {m1 m2 : List (Str × P)} : SameFields i1 i2 m1 m2 → SameProps i1 i2 (some (.obj m1)) (some (.obj m2))
inductive SameFields (i1 i2 : Str) : List (Str × P) → List (Str × P) → Prop where
  | nil : SameFields i1 i2 [] []
  | cons {k : Str} {p q : P} {m1 m2 : List (Str × P)} : SameFor i1 i2 p q → SameFields i1 i2 m1 m2 → SameFields i1 i2 ((k, p) :: m1) ((k, q) :: m2)
end

/-- The same for whole schemas. -/
inductive SchemaSameFor (i1 i2 : Str) : Schema → Schema → Prop where
  | props {m1 m2 : GMap P} {s1 s2 : Option P} : SameFields i1 i2 m1 m2 → SameItems i1 i2 s1 s2 → SchemaSameFor i1 i2 ⟨some m1, s1⟩ ⟨some m2, s2⟩
  | noProps {s1 s2 : Option P} : SameItems i1 i2 s1 s2 → SchemaSameFor i1 i2 ⟨none, s1⟩ ⟨none, s2⟩
end Spec

theorem NoObject_key {p : P} (h : NoObject p) (k : Str) : p.key k = none := by
  cases p with
  | obj m => exact absurd rfl (h m)
  | sc _ => rfl
  | arr _ => rfl

/-- What the code looks at in an instance. -/
theorem SameFor_keys {i1 i2 : Str} {a b : P} (h : SameFor i1 i2 a b) :
    (∀ k ∈ [g!"type", g!"format", g!"default"], a.key k = b.key k) ∧ (a.key g!"transform").bind (P.key i1) = (b.key g!"transform").bind (P.key i2) ∧
    SameItems i1 i2 (a.key g!"items") (b.key g!"items") ∧ SameProps i1 i2 (a.key g!"properties") (b.key g!"properties") ∧
    (a = b ∨ ∃ m1 m2, a = .obj m1 ∧ b = .obj m2) := by
  cases h with
  | noObject h =>
    refine ⟨fun _ _ => rfl, ?_, ?_, ?_, .inl rfl⟩
    · rw [NoObject_key h]; rfl
    · rw [NoObject_key h]; exact .none
    · rw [NoObject_key h]; exact .none
  | obj h1 h2 h3 h4 => exact ⟨h1, h2, h3, h4, .inr ⟨_, _, rfl, rfl⟩⟩

theorem SameFor_fieldType {i1 i2 : Str} {a b : P} (h : SameFor i1 i2 a b) : fieldType a = fieldType b := by
  unfold fieldType
  rw [(SameFor_keys h).1 g!"type" (by simp)]

theorem SameFor_extract {i1 i2 : Str} {a b : P} (h : SameFor i1 i2 a b) (lib : Lib) (path : Str) (kind : Kind) :
    extractInstrs lib a i1 path kind = extractInstrs lib b i2 path kind := by
  unfold extractInstrs
  rw [(SameFor_keys h).2.1]

theorem SameFor_default {i1 i2 : Str} {a b : P} (h : SameFor i1 i2 a b) : schemaDefault a = schemaDefault b := by
  obtain ⟨h1, _, _, _, h5⟩ := SameFor_keys h
  rcases h5 with rfl | ⟨m1, m2, rfl, rfl⟩
  · rfl
  · have := h1 g!"default" (by simp)
    unfold schemaDefault asStruct
    dsimp only
    show Res.ok ((P.key g!"default" (.obj m1)).getD _) = Res.ok ((P.key g!"default" (.obj m2)).getD _)
    rw [this]

theorem SameFor_newInstance {i1 i2 : Str} {a b : P} (h : SameFor i1 i2 a b) (lib : Lib) (path : Str) : newInstance lib i1 path a = newInstance lib i2 path b := by
  have h4 := (SameFor_keys h).2.2.2.1
  have hs : ∀ ty, newScalar lib path i1 a ty = newScalar lib path i2 b ty := by
    intro ty
    unfold newScalar scalarType
    rw [(SameFor_keys h).1 g!"format" (by simp), SameFor_extract h, SameFor_default h]
  have ho : newObject lib path i1 a = newObject lib path i2 b := by unfold newObject; rw [SameFor_extract h, SameFor_default h]
  have ha : newArray lib path i1 a = newArray lib path i2 b := by unfold newArray; rw [SameFor_extract h, SameFor_default h]
  unfold newInstance
  rw [SameFor_fieldType h, ha]
  congr 1
  funext ⟨ty, nu⟩
  dsimp only
  rw [hs, ho]
  generalize a.key g!"properties" = x at h4
  generalize b.key g!"properties" = y at h4
  cases h4 with
  | none => rfl
  | noObject _ => rfl
  | fields hf => cases hf <;> rfl

theorem SameFor_walker {i1 i2 : Str} {a b : P} (h : SameFor i1 i2 a b) (lib : Lib) (path : Str) (st : T × St) : walker lib i1 path a st = walker lib i2 path b st := by
  unfold walker
  rw [SameFor_newInstance h]

/-- Folding over fields that are the same. -/
theorem foldRes_sameFor {i1 i2 : Str} {σ : Type} {f g : Str × P → σ → Res σ} : ∀ {m1 m2 : List (Str × P)}, SameFields i1 i2 m1 m2 →
    (∀ k p q, (k, p) ∈ m1 → (k, q) ∈ m2 → SameFor i1 i2 p q → ∀ s, f (k, p) s = g (k, q) s) → ∀ s, foldRes f m1 s = foldRes g m2 s := by
  intro m1
  induction m1 with
  | nil => intro m2 h _ s; cases h; rfl
  | cons x m1 ih =>
    intro m2 h hf s
    cases h with
    | @cons k p q _ m2 hp hm =>
      simp only [foldRes]
      rw [hf k p q List.mem_cons_self List.mem_cons_self hp]
      cases g (k, q) s with
      | ok s' => exact ih hm (fun k p q a b => hf k p q (List.mem_cons_of_mem _ a) (List.mem_cons_of_mem _ b)) s'
      | err => rfl
      | panic => rfl

theorem walkRaw_same {i1 i2 : Str} {lib : Lib} : ∀ (n1 n2 : Nat) (a b : P) (path : Str) (s : T × St), SameFor i1 i2 a b → a.depth < n1 → b.depth < n2 →
    walkRaw (walker lib i1) n1 a path s = walkRaw (walker lib i2) n2 b path s := by
  intro n1
  induction n1 with
  | zero => intro n2 a b path s _ h; omega
  | succ n1 ih =>
    intro n2 a b path s h h1 h2
    rcases n2 with _ | n2
    · omega
    obtain ⟨_, _, hi, hp, _⟩ := SameFor_keys h
    unfold walkRaw
    rw [SameFor_walker h, SameFor_fieldType h]
    cases walker lib i2 path b s with
    | err => rfl
    | panic => rfl
    | ok s =>
      dsimp only
      cases fieldType b with
      | err => rfl
      | panic => rfl
      | ok x =>
        obtain ⟨ty, nu⟩ := x
        dsimp only
        split
        · -- the properties
          rcases ha : a.key g!"properties" with _ | pa
          · rw [ha] at hp
            rcases hb : b.key g!"properties" with _ | pb
            · rfl
            · rw [hb] at hp; cases hp
          · rcases hb : b.key g!"properties" with _ | pb
            · rw [ha, hb] at hp; cases hp
            · rw [ha, hb] at hp
              have d1 := key_depth ha
              have d2 := key_depth hb
              have key : ∀ {m1 m2 : List (Str × P)}, SameFields i1 i2 m1 m2 → (P.obj m1).depth < a.depth → (P.obj m2).depth < b.depth →
                  foldRes (fun kv s => walkRaw (walker lib i1) n1 kv.2 (prependPath path kv.1) s) m1 s =
                  foldRes (fun kv s => walkRaw (walker lib i2) n2 kv.2 (prependPath path kv.1) s) m2 s := by
                intro m1 m2 hm e1 e2
                refine foldRes_sameFor hm (fun k p q hk1 hk2 hpq s => ?_) s
                have k1 := depthFields_mem hk1
                have k2 := depthFields_mem hk2
                simp only [P.depth] at e1 e2
                exact ih n2 p q _ s hpq (by simp only at k1; omega) (by simp only at k2; omega)
              generalize hx : some pa = x at hp
              generalize hy : some pb = y at hp
              cases hp with
              | none => cases hx
              | noObject hn =>
                cases Option.some.inj hx
                cases pb with
                | obj m => exact absurd (Option.some.inj hy).symm (hn m)
                | sc _ => cases Option.some.inj hy; rfl
                | arr _ => cases Option.some.inj hy; rfl
              | fields hf =>
                cases Option.some.inj hx
                cases Option.some.inj hy
                exact key hf d1 d2
        · split
          · -- the items
            rcases ha : a.key g!"items" with _ | pa
            · rw [ha] at hi
              rcases hb : b.key g!"items" with _ | pb
              · rfl
              · rw [hb] at hi; cases hi
            · rcases hb : b.key g!"items" with _ | pb
              · rw [ha, hb] at hi; cases hi
              · rw [ha, hb] at hi
                cases hi with
                | some hi =>
                  have d1 := key_depth ha
                  have d2 := key_depth hb
                  exact ih n2 pa pb _ s hi (by omega) (by omega)
          · rfl

/-- Fields that are the same can be reordered alike. -/
theorem SameFields_perm {i1 i2 : Str} {m1 l1 : List (Str × P)} (h : m1.Perm l1) : ∀ {m2 : List (Str × P)}, SameFields i1 i2 m1 m2 →
    ∃ l2, m2.Perm l2 ∧ SameFields i1 i2 l1 l2 := by
  induction h with
  | nil => intro m2 h; exact ⟨m2, .refl _, h⟩
  | cons x _ ih =>
    intro m2 h
    cases h with
    | cons hp hm =>
      obtain ⟨l2, a, b⟩ := ih hm
      exact ⟨_ :: l2, a.cons _, .cons hp b⟩
  | swap x y l =>
    intro m2 h
    cases h with
    | cons hp hm =>
      cases hm with
      | cons hp' hm => exact ⟨_, .swap _ _ _, .cons hp' (.cons hp hm)⟩
  | trans _ _ ih1 ih2 =>
    intro m2 h
    obtain ⟨l2, a, b⟩ := ih1 h
    obtain ⟨l3, c, d⟩ := ih2 b
    exact ⟨l3, a.trans c, d⟩

open Classical in
/-- An order in which `m` is visited like `l`. -/
theorem schedule_of {m l : List (Str × P)} (h : m.Perm l) : ∃ b : Sched, b.perm 0 (Str × P) m = l := by
  refine ⟨⟨fun _ α x => if e : ∃ e : (Str × P) = α, x = e ▸ m then e.1 ▸ l else x, ?_⟩, ?_⟩
  · intro n α x
    split
    · rename_i e
      obtain ⟨e, rfl⟩ := e
      subst e
      exact h.symm
    · exact .refl _
  · dsimp only
    rw [dif_pos ⟨rfl, rfl⟩]

/-- **C138**: schemas that are the same for two identifiers have the same Transformers for them, JSON and XML: whatever the order in which the properties of one
are visited, the properties of the other may be visited in an order which gives the same Transformer or the same failure. -/
theorem C138 (lib : Lib) (fmt : Format) (i1 i2 : Str) (sc1 sc2 : Schema) (h : SchemaSameFor i1 i2 sc1 sc2) (b1 : Sched) :
    ∃ b2, newTransformer ⟨lib, b1, fmt⟩ sc1 i1 = newTransformer ⟨lib, b2, fmt⟩ sc2 i2 := by
  have items : ∀ {s1 s2 : Option P}, SameItems i1 i2 s1 s2 → ∀ st : T × St,
      (match s1 with | none => Res.ok st | some items => walkRaw (walker lib i1) (items.depth + 1) items (starPath g!"$") st) =
      (match s2 with | none => Res.ok st | some items => walkRaw (walker lib i2) (items.depth + 1) items (starPath g!"$") st) := by
    intro s1 s2 hi st
    cases hi with
    | none => rfl
    | some hi => exact walkRaw_same _ _ _ _ _ st hi (by omega) (by omega)
  have some_ : ∀ {s1 s2 : Option P}, SameItems i1 i2 s1 s2 → s1.isSome = s2.isSome := by
    intro s1 s2 hi; cases hi <;> rfl
  cases h with
  | @props m1 m2 s1 s2 hm hi =>
    obtain ⟨l2, hl, hsame⟩ := SameFields_perm (b1.isPerm 0 _ m1).symm hm
    obtain ⟨b2, hb2⟩ := schedule_of hl
    refine ⟨b2, ?_⟩
    unfold newTransformer
    have e : ∀ st, walkRawSchema b1 0 (walker lib i1) ⟨some m1, s1⟩ st = walkRawSchema b2 0 (walker lib i2) ⟨some m2, s2⟩ st := by
      intro st
      unfold walkRawSchema
      simp only [Option.getD_some]
      rw [hb2, foldRes_sameFor (g := fun kv st => walkRaw (walker lib i2) (kv.2.depth + 1) kv.2 (prependPath g!"$" kv.1) st) hsame
        (fun k p q _ _ hpq s => walkRaw_same _ _ _ _ _ s hpq (by simp) (by simp))]
      cases foldRes (fun kv st => walkRaw (walker lib i2) (kv.2.depth + 1) kv.2 (prependPath g!"$" kv.1) st) l2 st with
      | ok st => exact items hi st
      | err => rfl
      | panic => rfl
    simp only [Option.isSome_some, if_true, e]
  | @noProps s1 s2 hi =>
    refine ⟨b1, ?_⟩
    unfold newTransformer
    have e : ∀ st, walkRawSchema b1 0 (walker lib i1) ⟨none, s1⟩ st = walkRawSchema b1 0 (walker lib i2) ⟨none, s2⟩ st := by
      intro st
      unfold walkRawSchema
      simp only [Option.getD_none]
      rw [List.perm_nil.1 (b1.isPerm 0 (Str × P) [])]
      exact items hi st
    simp only [Option.isSome_none, some_ hi, e]

mutual
theorem SameFor_symm {i1 i2 : Str} : ∀ {a b : P}, SameFor i1 i2 a b → SameFor i2 i1 b a
  | _, _, .noObject h => .noObject h
  | _, _, .obj h1 h2 h3 h4 => .obj (fun k hk => (h1 k hk).symm) h2.symm (SameItems_symm h3) (SameProps_symm h4)
theorem SameItems_symm {i1 i2 : Str} : ∀ {a b : Option P}, SameItems i1 i2 a b → SameItems i2 i1 b a
  | _, _, .none => .none
  | _, _, .some h => .some (SameFor_symm h)
theorem SameProps_symm {i1 i2 : Str} : ∀ {a b : Option P}, SameProps i1 i2 a b → SameProps i2 i1 b a
  | _, _, .none => .none
  | _, _, .noObject h => .noObject h
  | _, _, .fields h => .fields (SameFields_symm h)
theorem SameFields_symm {i1 i2 : Str} : ∀ {a b : List (Str × P)}, SameFields i1 i2 a b → SameFields i2 i1 b a
  | _, _, .nil => .nil
  | _, _, .cons h h' => .cons (SameFor_symm h) (SameFields_symm h')
end

/-- The two schemas have the same sets of possible Transformers, with the same memory: whatever calls follow, nothing can tell which schema it was. -/
theorem C138_sets (lib : Lib) (fmt : Format) (i1 i2 : Str) (sc1 sc2 : Schema) (h : SchemaSameFor i1 i2 sc1 sc2) (r : Res (T × St)) :
    (∃ b, newTransformer ⟨lib, b, fmt⟩ sc1 i1 = r) ↔ ∃ b, newTransformer ⟨lib, b, fmt⟩ sc2 i2 = r := by
  have h' : SchemaSameFor i2 i1 sc2 sc1 := by
    cases h with
    | props a b => exact .props (SameFields_symm a) (SameItems_symm b)
    | noProps b => exact .noProps (SameItems_symm b)
  constructor
  · rintro ⟨b, rfl⟩
    obtain ⟨b2, e⟩ := C138 lib fmt i1 i2 sc1 sc2 h b
    exact ⟨b2, e.symm⟩
  · rintro ⟨b, rfl⟩
    obtain ⟨b2, e⟩ := C138 lib fmt i2 i1 sc2 sc1 h' b
    exact ⟨b2, e.symm⟩

/-- Every instance is the same as itself, for one identifier. -/
theorem SameFor_refl {i : Str} : ∀ (n : Nat) (p : P), p.depth < n → SameFor i i p p := by
  intro n
  induction n with
  | zero => intro p h; omega
  | succ n ih =>
    intro p h
    have fields : ∀ m : List (Str × P), (∀ x ∈ m, x.2.depth < n) → SameFields i i m m := by
      intro m
      induction m with
      | nil => intro _; exact .nil
      | cons x m ihm =>
        intro hm
        obtain ⟨k, q⟩ := x
        exact .cons (ih q (hm _ List.mem_cons_self)) (ihm fun y hy => hm y (List.mem_cons_of_mem _ hy))
    cases p with
    | sc s => exact .noObject (fun _ e => nomatch e)
    | arr l => exact .noObject (fun _ e => nomatch e)
    | obj m =>
      refine .obj (fun _ _ => rfl) rfl ?_ ?_
      · rcases hi : GMap.get g!"items" m with _ | q
        · exact .none
        · have := key_depth (p := .obj m) hi
          exact .some (ih q (by omega))
      · rcases hi : GMap.get g!"properties" m with _ | q
        · exact .none
        · have d := key_depth (p := .obj m) hi
          cases q with
          | sc s => exact .noObject (fun _ e => nomatch e)
          | arr l => exact .noObject (fun _ e => nomatch e)
          | obj m' =>
            refine .fields (fields m' fun x hx => ?_)
            have := depthFields_mem hx
            simp only [P.depth] at d h this ⊢
            omega

namespace C138ex
open Toy
def from_ (p : Str) : P := o [(g!"from", a [o [(g!"jsonPath", s p)]])]
/-- An object with a property that has transforms for two identifiers, and descriptions. -/
def long : Schema := ⟨some [(g!"x", o [(g!"type", s g!"object"), (g!"description", s g!"d"), (g!"required", a [s g!"y"]), (g!"properties",
  o [(g!"y", o [(g!"description", s g!"e"), (g!"type", s g!"string"), (g!"transform", o [(g!"u", from_ g!"$.u"), (g!"t", from_ g!"$.t")])])])])], none⟩
/-- Without descriptions and the other identifier. -/
def short : Schema := ⟨some [(g!"x", o [(g!"properties", o [(g!"y", o [(g!"transform", o [(g!"t", from_ g!"$.t")]), (g!"type", s g!"string")])]),
  (g!"type", s g!"object")])], none⟩

theorem keys3 {m1 m2 : List (Str × P)} (h1 : GMap.get g!"type" m1 = GMap.get g!"type" m2) (h2 : GMap.get g!"format" m1 = GMap.get g!"format" m2)
    (h3 : GMap.get g!"default" m1 = GMap.get g!"default" m2) : ∀ k ∈ [g!"type", g!"format", g!"default"], GMap.get k m1 = GMap.get k m2 := by
  intro k hk
  rcases List.mem_cons.1 hk with rfl | hk
  · exact h1
  · rcases List.mem_cons.1 hk with rfl | hk
    · exact h2
    · rw [List.mem_singleton.1 hk]; exact h3

/-- The hypotheses of `C138` are met by two different schemas. -/
example : SchemaSameFor g!"t" g!"t" long short :=
  .props (.cons (.obj (keys3 rfl rfl rfl) rfl .none (.fields (.cons (.obj (keys3 rfl rfl rfl) rfl .none .none) .nil))) .nil) .none

/-- There is a Transformer for the first. -/
example : (match newTransformer ⟨lib [], Sched.id, .json⟩ long g!"t" with | .ok _ => true | _ => false) = true := by decide +kernel

/-- They are not the same for the other identifier. -/
example : ¬ SchemaSameFor g!"u" g!"u" long short := by
  intro h
  cases h with
  | props h _ => cases h with
    | cons h _ => cases h with
      | obj _ _ _ h => cases h with
        | fields h => cases h with
          | cons h _ => cases h with
            | obj _ h _ _ => exact nomatch h

/-- The second with another name for the identifier. -/
def renamed : Schema := ⟨some [(g!"x", o [(g!"type", s g!"object"), (g!"properties",
  o [(g!"y", o [(g!"type", s g!"string"), (g!"transform", o [(g!"t", from_ g!"$.other"), (g!"v", from_ g!"$.t")])])])])], none⟩

/-- The hypotheses are met with different identifiers. -/
example : SchemaSameFor g!"t" g!"v" long renamed :=
  .props (.cons (.obj (keys3 rfl rfl rfl) rfl .none (.fields (.cons (.obj (keys3 rfl rfl rfl) rfl .none .none) .nil))) .nil) .none
end C138ex

end JT
