import Verif.Proofs.Safe
import Verif.Spec.Schema
/- Facts about transformers built by NewTransformer. -/
namespace JT
open Spec

theorem Res.bind_eq_ok {α β : Type} {x : Res α} {f : α → Res β} {b : β} :
    (x >>= f) = .ok b ↔ ∃ a, x = .ok a ∧ f a = .ok b := by
  cases x <;> simp

theorem Res.pure_eq_ok {α : Type} {a b : α} : (Pure.pure a : Res α) = .ok b ↔ a = b := by
  constructor
  · intro h; injection h
  · rintro rfl; rfl

theorem Res.map_eq_ok {α β : Type} {x : Res α} {f : α → β} {b : β} :
    x.map f = .ok b ↔ ∃ a, x = .ok a ∧ f a = b := by
  cases x <;> simp [Res.map]

theorem M.bind_eq_ok {α β : Type} {x : M α} {f : α → M β} {s s' : St} {b : β} :
    (x >>= f) s = (.ok b, s') ↔ ∃ a s1, x s = (.ok a, s1) ∧ f a s1 = (.ok b, s') := by
  rw [M.bind_apply]
  rcases x s with ⟨r, s1⟩
  cases r with
  | ok a =>
    constructor
    · intro h; exact ⟨a, s1, rfl, h⟩
    · rintro ⟨a', s1', h1, h2⟩
      simp at h1
      obtain ⟨rfl, rfl⟩ := h1
      exact h2
  | err => simp
  | panic => simp

theorem M.lift_eq_ok {α : Type} {r : Res α} {s s' : St} {a : α} :
    M.lift r s = (.ok a, s') ↔ r = .ok a ∧ s = s' := by
  simp [M.lift]

theorem M.pure_eq_ok {α : Type} {a b : α} {s s' : St} :
    (Pure.pure a : M α) s = (.ok b, s') ↔ a = b ∧ s = s' := by
  rw [M.pure_apply]; simp

theorem Inst.trans {p q r : P} (h1 : Inst p q) (h2 : Inst q r) : Inst p r := by
  induction h2 with
  | self => exact h1
  | prop _ hp hm ih => exact .prop ih hp hm
  | items _ hi ih => exact .items ih hi

theorem foldRes_inv {σ β : Type} {f : β → σ → Res σ} {I : σ → Prop} : ∀ {l : List β} {s s' : σ},
    (∀ x ∈ l, ∀ s s', f x s = .ok s' → I s → I s') → foldRes f l s = .ok s' → I s → I s' := by
  intro l
  induction l with
  | nil => intro s s' _ h hi; simp [foldRes] at h; subst h; exact hi
  | cons x xs ih =>
    intro s s' hf h hi
    simp only [foldRes] at h
    split at h
    · rename_i s1 h1
      exact ih (fun y hy => hf y (by simp [hy])) h (hf x (by simp) _ _ h1 hi)
    · contradiction
    · contradiction

theorem walkRaw_inv {σ : Type} {fn : Str → P → σ → Res σ} {I : σ → Prop} : ∀ {n : Nat} {raw : P} {path : Str} {s s' : σ},
    (∀ path q s s', Inst raw q → fn path q s = .ok s' → I s → I s') →
    walkRaw fn n raw path s = .ok s' → I s → I s' := by
  intro n
  induction n with
  | zero => intro raw path s s' _ h; simp [walkRaw] at h
  | succ n ih =>
    intro raw path s s' hf h hi
    simp only [walkRaw] at h
    split at h
    · contradiction
    · contradiction
    · rename_i s1 h1
      have hi1 := hf _ _ _ _ (.self _) h1 hi
      split at h
      · contradiction
      · contradiction
      · split at h
        · split at h
          · rename_i m hm
            refine foldRes_inv ?_ h hi1
            intro x hx s s' hw his
            exact ih (fun path q s s' hq => hf path q s s' (Inst.trans (.prop (.self _) hm hx) hq)) hw his
          · contradiction
        · split at h
          · split at h
            · rename_i items hit
              exact ih (fun path q s s' hq => hf path q s s' (Inst.trans (.items (.self _) hit) hq)) h hi1
            · contradiction
          · simp at h; subst h; exact hi1

theorem walkRawSchema_inv {σ : Type} {fn : Str → P → σ → Res σ} {I : σ → Prop} {sched : Sched} {tick : Nat}
    {sc : Schema} {s s' : σ} (hf : ∀ path q s s', SchemaInst sc q → fn path q s = .ok s' → I s → I s')
    (h : walkRawSchema sched tick fn sc s = .ok s') (hi : I s) : I s' := by
  unfold walkRawSchema at h
  split at h
  · contradiction
  · contradiction
  · rename_i s1 h1
    have hi1 : I s1 := by
      refine foldRes_inv ?_ h1 hi
      intro x hx s s' hw his
      have hx' : x ∈ sc.properties.getD [] := (sched.isPerm tick _ _).mem_iff.1 hx
      cases hp : sc.properties with
      | none => rw [hp] at hx'; simp at hx'
      | some m =>
        rw [hp] at hx'
        simp at hx'
        exact walkRaw_inv (fun path q s s' hq => hf path q s s' (Or.inl ⟨m, x.1, x.2, hp, hx', hq⟩)) hw his
    split at h
    · simp at h; subst h; exact hi1
    · rename_i items hit
      exact walkRaw_inv (fun path q s s' hq => hf path q s s' (Or.inr ⟨items, hit, hq⟩)) h hi1

/-! ### Clean schemas give transformers without mutable data -/

theorem parseMethod_last {s : Str} (h : parseMethod s = .ok .last) : s = g!"last" := by
  unfold parseMethod at h
  (repeat' split at h) <;> simp_all

theorem asString_some {o : Option P} {s : Str} (h : asString o = .ok s) (hs : s ≠ []) : o = some (.sc (.str s)) := by
  unfold asString at h
  split at h <;> simp_all

theorem asStruct_key {p q : P} (h : asStruct p = .ok q) (k : Str) : q.key k = p.key k := by
  unfold asStruct at h
  split at h <;> simp at h <;> subst h <;> rfl

theorem parseInstrs_notLast {lib : Lib} {p : P} {tis : Instrs} (h : parseInstrs lib p = .ok tis)
    (hp : p.key g!"method" ≠ some (.sc (.str g!"last"))) : tis.method ≠ .last := by
  unfold parseInstrs at h
  simp only [Res.bind_eq_ok, Res.pure_eq_ok] at h
  obtain ⟨q, hq, fromJ, _, fr, _, ms, hms, opts, _, delim, _, m, hm, rfl⟩ := h
  intro hl
  simp only at hl
  subst hl
  have := parseMethod_last hm
  subst this
  have := asString_some hms (by decide)
  rw [asStruct_key hq] at this
  exact hp this

theorem extractInstrs_notLast {lib : Lib} {raw : P} {ident path : Str} {kind : Kind} {tis : Instrs}
    (hn : NotLast ident raw) (h : extractInstrs lib raw ident path kind = .ok (some tis)) : tis.method ≠ .last := by
  unfold extractInstrs at h
  split at h
  · simp at h
  · simp at h
  · rename_i p hp _
    simp only [Res.bind_eq_ok, Res.pure_eq_ok] at h
    obtain ⟨t, ht, h⟩ := h
    simp at h
    subst h
    simp only [replaceJSONPathPrefix]
    exact parseInstrs_notLast ht (hn p ‹_›)

theorem schemaDefault_scalar {raw d : P} (hs : ScalarDefault raw) (h : schemaDefault raw = .ok d) : ∃ s, d = .sc s := by
  unfold schemaDefault at h
  simp only [Res.bind_eq_ok, Res.pure_eq_ok] at h
  obtain ⟨q, hq, rfl⟩ := h
  rw [asStruct_key hq]
  cases hd : raw.key g!"default" with
  | none => exact ⟨.nil, rfl⟩
  | some d => exact hs d hd

theorem load_sc (s : Scal) (st : St) : load (.sc s) st = (.ok (.sc s), st) := rfl

/-- State during the construction from a clean schema. -/
structure CleanSt (s : St) : Prop where
  heap : s.heap = []
  shared : s.shared = 0
  tick : s.tick = 0
  wlog : s.wlog = []
  ilog : s.ilog = []
  noLast : ∀ t ∈ s.instrs, t.method ≠ .last

theorem addInstrs_clean {t : Option Instrs} {s s' : St} {r : Option Nat} (h : addInstrs t s = (.ok r, s'))
    (hs : CleanSt s) (ht : ∀ tis, t = some tis → tis.method ≠ .last) : CleanSt s' := by
  unfold addInstrs at h
  cases t with
  | none => simp at h; obtain ⟨_, rfl⟩ := h; exact hs
  | some tis =>
    simp at h
    obtain ⟨_, rfl⟩ := h
    refine ⟨hs.heap, hs.shared, hs.tick, hs.wlog, hs.ilog, ?_⟩
    intro t ht'
    simp at ht'
    rcases ht' with h' | rfl
    · exact hs.noLast t h'
    · exact ht _ rfl

theorem newScalar_clean {lib : Lib} {path ident ty : Str} {raw : P} {s s' : St} {t : T}
    (h : newScalar lib path ident raw ty s = (.ok t, s')) (hs : CleanSt s) (hd : ScalarDefault raw)
    (hn : NotLast ident raw) : t.scalarDefaults ∧ CleanSt s' := by
  unfold newScalar at h
  simp only [M.bind_eq_ok, M.lift_eq_ok, M.pure_eq_ok] at h
  obtain ⟨_, _, ⟨_, rfl⟩, tis, _, ⟨htis, rfl⟩, d, _, ⟨hdd, rfl⟩, dv, s1, hl, tid, s2, ha, rfl, rfl⟩ := h
  obtain ⟨sv, rfl⟩ := schemaDefault_scalar hd hdd
  rw [load_sc] at hl
  simp at hl
  obtain ⟨rfl, rfl⟩ := hl
  refine ⟨⟨sv, rfl⟩, addInstrs_clean ha hs ?_⟩
  rintro t rfl
  exact extractInstrs_notLast hn htis

theorem newArray_clean {lib : Lib} {path ident : Str} {raw : P} {s s' : St} {t : T}
    (h : newArray lib path ident raw s = (.ok t, s')) (hs : CleanSt s) (hd : ScalarDefault raw)
    (hn : NotLast ident raw) : t.scalarDefaults ∧ CleanSt s' := by
  unfold newArray at h
  simp only [M.bind_eq_ok, M.lift_eq_ok] at h
  obtain ⟨tis, _, ⟨htis, rfl⟩, d, _, ⟨hdd, rfl⟩, dv, s1, hl, tid, s2, ha, h⟩ := h
  obtain ⟨sv, rfl⟩ := schemaDefault_scalar hd hdd
  rw [load_sc] at hl
  simp at hl
  obtain ⟨rfl, rfl⟩ := hl
  have hc := addInstrs_clean ha hs (by rintro t rfl; exact extractInstrs_notLast hn htis)
  cases sv with
  | nil =>
    simp only [M.pure_eq_ok] at h
    obtain ⟨rfl, rfl⟩ := h
    exact ⟨by simp [T.scalarDefaults], hc⟩
  | _ => simp [M.fail] at h

theorem newObject_clean {lib : Lib} {path ident : Str} {raw : P} {s s' : St} {t : T}
    (h : newObject lib path ident raw s = (.ok t, s')) (hs : CleanSt s) (hd : ScalarDefault raw)
    (hn : NotLast ident raw) : t.scalarDefaults ∧ CleanSt s' := by
  unfold newObject at h
  simp only [M.bind_eq_ok, M.lift_eq_ok] at h
  obtain ⟨tis, _, ⟨htis, rfl⟩, d, _, ⟨hdd, rfl⟩, dv, s1, hl, tid, s2, ha, h⟩ := h
  obtain ⟨sv, rfl⟩ := schemaDefault_scalar hd hdd
  rw [load_sc] at hl
  simp at hl
  obtain ⟨rfl, rfl⟩ := hl
  have hc := addInstrs_clean ha hs (by rintro t rfl; exact extractInstrs_notLast hn htis)
  cases sv with
  | nil =>
    simp only [M.pure_eq_ok] at h
    obtain ⟨rfl, rfl⟩ := h
    exact ⟨by simp [T.scalarDefaults, T.scalarDefaultsKids], hc⟩
  | _ => simp [M.fail] at h

theorem newInstance_clean {lib : Lib} {path ident : Str} {raw : P} {s s' : St} {t : T}
    (h : newInstance lib ident path raw s = (.ok t, s')) (hs : CleanSt s) (hd : ScalarDefault raw)
    (hn : NotLast ident raw) : t.scalarDefaults ∧ CleanSt s' := by
  unfold newInstance at h
  simp only [M.bind_eq_ok, M.lift_eq_ok] at h
  obtain ⟨⟨ty, nu⟩, _, ⟨_, rfl⟩, h⟩ := h
  simp only at h
  by_cases h1 : ty = g!"object"
  · rw [if_pos h1] at h
    rcases hp : raw.key g!"properties" with _ | (_ | _ | (_ | _))
    · simp [hp, M.fail] at h
    all_goals rw [hp] at h
    · exact newObject_clean h hs hd hn
    · exact newObject_clean h hs hd hn
    · exact newScalar_clean h hs hd hn
    · exact newObject_clean h hs hd hn
  · rw [if_neg h1] at h
    by_cases h2 : ty = g!"array"
    · rw [if_pos h2] at h
      exact newArray_clean h hs hd hn
    · rw [if_neg h2] at h
      exact newScalar_clean h hs hd hn

theorem scalarDefaultsKids_iff {cs : List (Str × T)} : T.scalarDefaultsKids cs ↔ ∀ kt ∈ cs, kt.2.scalarDefaults := by
  induction cs with
  | nil => simp [T.scalarDefaultsKids]
  | cons x xs ih => obtain ⟨k, t⟩ := x; simp [T.scalarDefaultsKids, ih]

theorem updateAt_clean {f : T → Res T} (hf : ∀ t t', t.scalarDefaults → f t = .ok t' → t'.scalarDefaults) :
    ∀ {parts : List Str} {t t' : T}, t.scalarDefaults → T.updateAt f parts t = .ok t' → t'.scalarDefaults := by
  intro parts
  induction parts with
  | nil => intro t t' ht h; exact hf t t' ht h
  | cons sp rest ih =>
    intro t t' ht h
    simp only [T.updateAt] at h
    split at h
    · split at h
      · rw [Res.map_eq_ok] at h
        obtain ⟨c', hc', rfl⟩ := h
        simp only [T.scalarDefaults] at ht ⊢
        exact ⟨ht.1, ih ht.2 hc'⟩
      · contradiction
    · split at h
      · split at h
        · rename_i c hc
          rw [Res.map_eq_ok] at h
          obtain ⟨c', hc', rfl⟩ := h
          simp only [T.scalarDefaults, scalarDefaultsKids_iff] at ht ⊢
          refine ⟨ht.1, ?_⟩
          intro kt hkt
          rcases GMap.mem_set hkt with rfl | hkt
          · exact ih (ht.2 _ (GMap.get_some_mem hc)) hc'
          · exact ht.2 _ hkt
        · contradiction
      · contradiction

theorem addChild_clean {child t t' : T} (hc : child.scalarDefaults) (ht : t.scalarDefaults)
    (h : T.addChild child t = .ok t') : t'.scalarDefaults := by
  cases t with
  | scalar p ty d i => simp [T.addChild] at h; subst h; exact ht
  | array p d i c =>
    simp [T.addChild] at h
    subst h
    cases c <;> simp only [T.scalarDefaults] at ht ⊢
    · exact ⟨ht, hc⟩
    · exact ⟨ht.1, hc⟩
  | object p d i cs =>
    simp only [T.addChild] at h
    split at h
    · simp at h
      subst h
      simp only [T.scalarDefaults, scalarDefaultsKids_iff] at ht ⊢
      refine ⟨ht.1, ?_⟩
      intro kt hkt
      rcases GMap.mem_set hkt with rfl | hkt
      · exact hc
      · exact ht.2 _ hkt
    · contradiction

theorem newTransformer_clean {env : Env} {sc : Schema} {ident : Str} {t : T} {s : St}
    (h : newTransformer env sc ident = .ok (t, s))
    (hd : ∀ q, SchemaInst sc q → ScalarDefault q) (hn : ∀ q, SchemaInst sc q → NotLast ident q) :
    t.scalarDefaults ∧ CleanSt s := by
  unfold newTransformer at h
  simp only at h
  split at h
  · contradiction
  · rename_i r hr
    rw [Res.map_eq_ok] at h
    obtain ⟨⟨t1, s1⟩, hw, he⟩ := h
    simp at he
    obtain ⟨rfl, rfl⟩ := he
    have : (fun st : T × St => st.1.scalarDefaults ∧ CleanSt st.2) (t1, s1) := by
      refine walkRawSchema_inv (I := fun st : T × St => st.1.scalarDefaults ∧ CleanSt st.2) ?_ hw ?_
      · rintro path q ⟨ta, sa⟩ ⟨tb, sb⟩ hq hfn ⟨h1, h2⟩
        unfold walker at hfn
        split at hfn
        · contradiction
        · contradiction
        · rename_i node s2 hni
          obtain ⟨h3, h4⟩ := newInstance_clean hni h2 (hd q hq) (hn q hq)
          split at hfn
          · contradiction
          · contradiction
          · rw [Res.map_eq_ok] at hfn
            obtain ⟨root, hroot, he⟩ := hfn
            simp at he
            obtain ⟨rfl, rfl⟩ := he
            exact ⟨updateAt_clean (fun t t' ht h => addChild_clean h3 ht h) h1 hroot, h4⟩
      · refine ⟨?_, ⟨rfl, rfl, rfl, rfl, rfl, by simp [St.empty]⟩⟩
        split at hr
        · simp at hr; subst hr; simp [T.scalarDefaults, T.scalarDefaultsKids]
        · split at hr
          · simp at hr; subst hr; simp [T.scalarDefaults]
          · contradiction
    obtain ⟨h1, h2⟩ := this
    refine ⟨h1, ⟨h2.heap, ?_, h2.tick, h2.wlog, h2.ilog, h2.noLast⟩⟩
    simp only at h2 ⊢
    rw [h2.heap]; rfl

end JT
