import Verif.Proofs.XmlRun
import Verif.Proofs.SchemaVal
/- XML input: objects, and whole transformers. -/
namespace JT
open Spec

/-- The non-nil values of the children of an object, by key, for any evaluation of the children. -/
def kidsOf (f : T → Option P) : List (Str × T) → Option (List (Str × P))
  | [] => some []
  | (k, t) :: r =>
    match f t, kidsOf f r with
    | some p, some m => some (if isNilP p then m else (k, p) :: m)
    | _, _ => none

theorem evalKidsX_eq (lib : Lib) (ins : List Instrs) (dv : V → P) (n : NodeId) (mod : Mod) : ∀ (cs : List (Str × T)),
    evalKidsX lib ins dv cs n mod = kidsOf (fun t => evalX lib ins dv t n mod) cs
  | [] => rfl
  | (k, t) :: r => by simp only [evalKidsX, kidsOf]; rw [evalKidsX_eq]; rfl

theorem kidsOf_none {f : T → Option P} :
    ∀ {cs : List (Str × T)}, (∃ kt ∈ cs, f kt.2 = none) → kidsOf f cs = none := by
  intro cs
  induction cs with
  | nil => rintro ⟨kt, h, _⟩; simp at h
  | cons x r ih =>
    obtain ⟨k, t⟩ := x
    rintro ⟨kt, h, hn⟩
    simp only [List.mem_cons] at h
    simp only [kidsOf]
    rcases h with rfl | h
    · rw [hn]
    · rw [ih ⟨kt, h, hn⟩]
      cases f t <;> rfl

/-- The map of child values has the non-nil values of the children. -/
theorem kidsOf_some {f : T → Option P} :
    ∀ {cs : List (Str × T)}, GMap.Sorted cs → (∀ kt ∈ cs, ∃ q, f kt.2 = some q) →
    ∃ m, kidsOf f cs = some m ∧ GMap.Sorted m ∧ (∀ kp ∈ m, ∃ t, (kp.1, t) ∈ cs) ∧
      ∀ k, GMap.get k m = (GMap.get k cs).bind fun t => (f t).bind fun q => if isNilP q then none else some q := by
  intro cs
  induction cs with
  | nil => intro _ _; exact ⟨[], rfl, trivial, by simp, fun _ => rfl⟩
  | cons x r ih =>
    obtain ⟨k, t⟩ := x
    intro hs hall
    simp only [GMap.Sorted] at hs
    obtain ⟨m, h1, h2, h3, h4⟩ := ih hs.2 fun kt h => hall kt (by simp [h])
    obtain ⟨q, hq⟩ := hall (k, t) (by simp)
    simp only at hq
    have hlt : ∀ kp ∈ m, strLt k kp.1 = true := by
      intro kp hkp
      obtain ⟨t', ht'⟩ := h3 kp hkp
      exact hs.1 _ ht'
    refine ⟨if isNilP q then m else (k, q) :: m, by simp only [kidsOf, hq, h1], ?_, ?_, ?_⟩
    · split
      · exact h2
      · exact ⟨hlt, h2⟩
    · intro kp hkp
      split at hkp
      · obtain ⟨t', ht'⟩ := h3 kp hkp
        exact ⟨t', by simp [ht']⟩
      · simp only [List.mem_cons] at hkp
        rcases hkp with rfl | hkp
        · exact ⟨t, by simp⟩
        · obtain ⟨t', ht'⟩ := h3 kp hkp
          exact ⟨t', by simp [ht']⟩
    · intro k'
      by_cases hk : k' = k
      · subst hk
        have hnone : GMap.get k' m = none := GMap.Sorted.get_none_of_lt hlt
        simp only [GMap.get, if_true, Option.bind_some, hq]
        split
        · rw [hnone]
        · simp [GMap.get]
      · simp only [GMap.get, if_neg hk]
        split
        · exact h4 k'
        · simp only [GMap.get, if_neg hk]
          exact h4 k'

/-- The children of an object, evaluated, give the object of the values of its properties. -/
theorem kidsOf_objectOf {f : T → Option P} {cs : List (Str × T)} {m : List (Str × P)} (hs : GMap.Sorted cs)
    (hnd : (m.map Prod.fst).Nodup) (hall : ∀ k, (∃ q, (k, q) ∈ m) → ∃ t, (k, t) ∈ cs) (hsub : ∀ kt ∈ cs, ∃ q, (kt.1, q) ∈ m) :
    ((kidsOf f cs).map fun l => if l.isEmpty then nilP else .obj l) =
      (optAll (fun k => ((GMap.get k cs).bind fun t => f t).map fun p => (k, p)) (m.map Prod.fst)).map objectOf := by
  by_cases hn : ∃ kt ∈ cs, f kt.2 = none
  · rw [kidsOf_none hn]
    obtain ⟨⟨k, t⟩, h1, h2⟩ := hn
    obtain ⟨q, hq⟩ := hsub _ h1
    rw [optAll_none ⟨k, List.mem_map.2 ⟨_, hq, rfl⟩, by rw [GMap.get_of_mem hs h1]; simp only [Option.bind_some, h2, Option.map_none]⟩]
    rfl
  · have hsome : ∀ kt ∈ cs, ∃ q, f kt.2 = some q := by
      intro kt hkt
      cases he : f kt.2 with
      | none => exact absurd ⟨kt, hkt, he⟩ hn
      | some q => exact ⟨q, rfl⟩
    obtain ⟨pm, h1, h2, h3, h4⟩ := kidsOf_some hs hsome
    rw [h1]
    let g : Str → P := fun k => (((GMap.get k cs).bind fun t => f t)).getD nilP
    have hg : ∀ k ∈ m.map Prod.fst, ((GMap.get k cs).bind fun t => f t) = some (g k) := by
      intro k hk
      obtain ⟨⟨k', q⟩, hkq, rfl⟩ := List.mem_map.1 hk
      obtain ⟨t, ht⟩ := hall k' ⟨q, hkq⟩
      obtain ⟨r, hr⟩ := hsome _ ht
      simp only at hr
      simp only [g, GMap.get_of_mem hs ht, Option.bind_some, hr, Option.getD_some]
    rw [optAll_some (g := fun k => (k, g k)) (fun k hk => by rw [hg k hk]; rfl)]
    simp only [Option.map_some, Option.some.injEq]
    unfold objectOf
    simp only
    have hkeys : (((m.map Prod.fst).map fun k => (k, g k)).map Prod.fst) = m.map Prod.fst := by
      rw [List.map_map]
      exact List.map_id' _
    have hnd1 : (((m.map Prod.fst).map fun k => (k, g k)).map Prod.fst).Nodup := by rw [hkeys]; exact hnd
    have hnd2 : ((((m.map Prod.fst).map fun k => (k, g k)).filter fun kv => !isNilP kv.2).map Prod.fst).Nodup :=
      List.Nodup.sublist (List.Sublist.map _ List.filter_sublist) hnd1
    have hpm : pm = GMap.ofList (((m.map Prod.fst).map fun k => (k, g k)).filter fun kv => !isNilP kv.2) := by
      refine GMap.Sorted.ext h2 (GMap.sorted_ofList _) fun k => ?_
      rw [h4, get_ofList_nodup _ _ hnd2, get_filter (f := fun v => !isNilP v) _ _ hnd1]
      have hgetmap : ∀ (l : List Str), GMap.get k (l.map fun k => (k, g k)) = if k ∈ l then some (g k) else none := by
        intro l
        induction l with
        | nil => rfl
        | cons x r ih =>
          simp only [List.map_cons, GMap.get]
          by_cases hk : k = x
          · subst hk; simp
          · simp [ih, hk]
      rw [hgetmap]
      by_cases hk : k ∈ m.map Prod.fst
      · rw [if_pos hk]
        have hgk := hg k hk
        cases hgc : GMap.get k cs with
        | none => rw [hgc] at hgk; simp at hgk
        | some t =>
          rw [hgc] at hgk
          simp only [Option.bind_some] at hgk ⊢
          rw [hgk]
          simp only [Option.bind_some]
          cases isNilP (g k) <;> rfl
      · rw [if_neg hk]
        cases hgc : GMap.get k cs with
        | none => rfl
        | some t =>
          obtain ⟨q, hq⟩ := hsub _ (GMap.get_some_mem hgc)
          exact absurd (List.mem_map.2 ⟨_, hq, rfl⟩) hk
    rw [hpm]
    simp only [List.isEmpty_iff, ofList_eq_nil]


theorem kidsLoop_ref {env : Env} {objPath : Str} {inp : V} {mod : Mod} {a0 : Nat} {B : Addr → Bool} (ha0 : B a0 = false)
    {ins : List Instrs} {f : T → Option P} : ∀ (l : List (Str × T)), (l.map Prod.fst).Nodup →
    (∀ kt ∈ l, kt.2.path = objPath ++ '.' :: kt.1 ∧ '.' ∉ kt.1 ∧ '[' ∉ kt.1) → ∀ (s : St) (m : GMap V), s.instrs = ins →
    s.heap[a0]? = some (.map m) → GMap.Sorted m →
    (∀ kt ∈ l, ∀ s', s'.instrs = ins → s.heap.length ≤ s'.heap.length → Keeps B s s' →
      RefO s' (kt.2.run env inp mod) (fun h v q => Rep h B v q) (f kt.2)) →
    let x := childrenLoop objPath inp mod a0 (l.map fun kt => (kt.2.path, kt.2.run env)) s
    Ext a0 s x.2 ∧ s.heap.length ≤ x.2.heap.length ∧ Keeps B s x.2 ∧
      match x.1 with
      | .ok () => ∃ m', x.2.heap[a0]? = some (.map m') ∧ GMap.Sorted m' ∧
          (∀ kt ∈ l, ∃ q, f kt.2 = some q ∧
            if isNilP q then GMap.get kt.1 m' = GMap.get kt.1 m
            else ∃ v, GMap.get kt.1 m' = some v ∧ Rep x.2.heap B v q) ∧
          ∀ k, k ∉ l.map Prod.fst → GMap.get k m' = GMap.get k m
      | _ => ∃ kt ∈ l, f kt.2 = none := by
  intro l
  induction l with
  | nil =>
    intro _ _ s m _ hm hsm _
    exact ⟨Ext.refl _ _, Nat.le_refl _, fun _ _ _ h => h, m, hm, hsm, by simp, fun _ _ => rfl⟩
  | cons kt rest ih =>
    obtain ⟨k, t⟩ := kt
    intro hnd hfrag s m hins hm hsm hruns
    simp only [List.map_cons, List.nodup_cons] at hnd
    obtain ⟨hpath, hdot, hbr⟩ := hfrag (k, t) (by simp)
    simp only at hpath hdot hbr
    have hrest : ∀ kt ∈ rest, kt.2.path = objPath ++ '.' :: kt.1 ∧ '.' ∉ kt.1 ∧ '[' ∉ kt.1 := fun kt h => hfrag kt (by simp [h])
    have ha0s : a0 < s.heap.length := (List.getElem?_eq_some_iff.1 hm).1
    have hrun := hruns (k, t) (by simp) s hins (Nat.le_refl _) (fun _ _ _ h => h)
    simp only [List.map_cons, childrenLoop]
    rw [M.bind_apply]
    rcases hx : t.run env inp mod s with ⟨r, s1⟩
    unfold RefO at hrun
    simp only at hrun
    rw [hx] at hrun
    obtain ⟨g1, hok⟩ := hrun
    simp only at g1 hok
    generalize he : f t = o at hok
    cases hok with
    | err => exact ⟨g1.ext.mono (by omega), g1.len, g1.keeps B, (k, t), by simp, he⟩
    | panic => exact ⟨g1.ext.mono (by omega), g1.len, g1.keeps B, (k, t), by simp, he⟩
    | @ok v q hv =>
      simp only
      rw [M.bind_apply]
      by_cases hnil : v = V.nil
      · -- nothing is saved
        have hq : isNilP q = true := (nil_iff hv).1 hnil
        subst hnil
        have hsave : saveInTree a0 (replace1 t.path objPath g!"$") V.nil s1 = (.ok (), s1) := by
          unfold saveInTree
          rw [if_pos rfl]
          rfl
        rw [hsave]
        simp only
        obtain ⟨e1, e2, e3, e4⟩ := ih hnd.2 hrest s1 m (g1.ext.instrs.trans hins) (g1.cell hm) hsm
          (fun kt h s' h1 h2 h3 => hruns kt (by simp [h]) s' h1 (Nat.le_trans g1.len h2) (fun a ha c hc => h3 a ha c (g1.cell hc)))
        refine ⟨(g1.ext.mono (by omega)).trans e1, Nat.le_trans g1.len e2, fun a ha c hc => e3 a ha c (g1.cell hc), ?_⟩
        revert e4
        split
        · rintro ⟨m', f1, f2, f3, f4⟩
          refine ⟨m', f1, f2, ?_, ?_⟩
          · intro kt hkt
            simp only [List.mem_cons] at hkt
            rcases hkt with rfl | hkt
            · refine ⟨q, he, ?_⟩
              rw [if_pos hq]
              exact f4 k hnd.1
            · exact f3 kt hkt
          · intro k' hk'
            simp only [List.mem_cons, not_or] at hk'
            exact f4 k' hk'.2
        · rintro ⟨kt, h1, h2⟩
          exact ⟨kt, by simp [h1], h2⟩
      · -- the value is saved
        have hq : ¬ isNilP q = true := fun h => hnil ((nil_iff hv).2 h)
        rw [hpath, saveChild_eq hdot hbr a0 hnil, setKey_apply (g1.cell hm)]
        simp only
        generalize hs2 : ({ s1 with heap := s1.heap.set a0 (.map (GMap.set k v m)), wlog := a0 :: s1.wlog } : St) = s2
        have hlen : s2.heap.length = s1.heap.length := by subst hs2; simp
        have hk12 : Keeps B s1 s2 := by
          intro a ha c hc
          subst hs2
          simp only
          rw [List.getElem?_set_ne (by rintro rfl; rw [ha0] at ha; contradiction)]
          exact hc
        have hext12 : Ext a0 s1 s2 := by
          subst hs2
          refine ⟨?_, rfl, rfl, rfl, [a0], rfl, by simp⟩
          intro a ha
          simp only
          rw [List.getElem?_set_ne (by omega)]
        have hm2 : s2.heap[a0]? = some (.map (GMap.set k v m)) := by
          subst hs2
          simp only
          rw [List.getElem?_set_self (by have := g1.len; omega)]
        obtain ⟨e1, e2, e3, e4⟩ := ih hnd.2 hrest s2 _
          (hext12.instrs.trans (g1.ext.instrs.trans hins)) hm2 (GMap.sorted_set hsm)
          (fun kt h s' h1 h2 h3 => hruns kt (by simp [h]) s' h1 (by have := g1.len; omega)
            (fun a ha c hc => h3 a ha c (hk12 a ha c (g1.cell hc))))
        refine ⟨((g1.ext.mono (by omega)).trans hext12).trans e1, by have := g1.len; omega,
          fun a ha c hc => e3 a ha c (hk12 a ha c (g1.cell hc)), ?_⟩
        revert e4
        split
        · rintro ⟨m', f1, f2, f3, f4⟩
          refine ⟨m', f1, f2, ?_, ?_⟩
          · intro kt hkt
            simp only [List.mem_cons] at hkt
            rcases hkt with rfl | hkt
            · refine ⟨q, he, ?_⟩
              rw [if_neg hq]
              refine ⟨v, ?_, e3.rep (hk12.rep hv)⟩
              rw [f4 k hnd.1, GMap.get_set_self]
            · obtain ⟨q', h1, h2⟩ := f3 kt hkt
              refine ⟨q', h1, ?_⟩
              have hne : kt.1 ≠ k := by
                rintro rfl
                exact hnd.1 (List.mem_map_of_mem (f := Prod.fst) hkt)
              rw [GMap.get_set_ne hne] at h2
              exact h2
          · intro k' hk'
            simp only [List.mem_cons, not_or] at hk'
            rw [f4 k' hk'.2, GMap.get_set_ne hk'.1]
        · rintro ⟨kt, h1, h2⟩
          exact ⟨kt, by simp [h1], h2⟩

/-- A new map filled from the children. -/
theorem objFinish_ref {env : Env} {path : Str} {cs : List (Str × T)} {inp : V} {mod : Mod} {f : T → Option P} {s : St} {A : Addr → Bool}
    (hA : FreshIn A s) (hsorted : GMap.Sorted cs) (hkids : ∀ kt ∈ cs, kt.2.path = path ++ '.' :: kt.1 ∧ '.' ∉ kt.1 ∧ '[' ∉ kt.1)
    (hruns : ∀ kt ∈ cs, ∀ (s' : St) (B : Addr → Bool), s'.instrs = s.instrs → FreshIn B s' →
      (∀ v p, Rep s.heap A v p → Rep s'.heap B v p) → RefO s' (kt.2.run env inp mod) (fun h v q => Rep h B v q) (f kt.2)) :
    RefO s (objStart none >>= objFinish env path (T.runKids env cs) inp mod) (fun h v q => Rep h A v q)
      ((kidsOf f cs).map fun m => if m.isEmpty then nilP else .obj m) := by
  let s1 : St := { s with heap := s.heap ++ [.map []], tick := s.tick + 1 }
  let a0 := s.heap.length
  have hstep : (objStart none >>= objFinish env path (T.runKids env cs) inp mod) s =
      ((do childrenLoop path inp mod a0 (env.sched.perm s.tick _ (T.runKids env cs))
           let m ← readMap a0
           if m = [] then return V.nil else return .obj a0) : M V) s1 := rfl
  unfold RefO
  rw [hstep]
  obtain ⟨l, hperm, hl⟩ := perm_map_inv (env.sched.isPerm s.tick _ (T.runKids env cs)) (runKids_eq env cs)
  rw [hl]
  let B : Addr → Bool := fun a => A a && decide (a ≠ a0)
  have hBA : ∀ a, B a = true → A a = true := by
    intro a ha
    simp only [B, Bool.and_eq_true] at ha
    exact ha.1
  have hrestrict : ∀ {v : V} {q : P}, Rep s.heap A v q → Rep s1.heap B v q := by
    intro v q hr
    refine hr.below.mono ?_ ?_
    · intro a ha
      simp only [Bool.and_eq_true, decide_eq_true_eq] at ha
      simp only [B, Bool.and_eq_true, decide_eq_true_eq]
      exact ⟨ha.1, Nat.ne_of_lt ha.2⟩
    · intro a ha c hcell
      simp only [s1]
      rw [List.getElem?_append_left (List.getElem?_eq_some_iff.1 hcell).1]
      exact hcell
  have hmem : ∀ kt, kt ∈ l ↔ kt ∈ cs := fun kt => hperm.mem_iff
  have hlen1 : s1.heap.length = s.heap.length + 1 := by simp [s1]
  have hB1 : FreshIn B s1 := by
    intro a ha
    have h1 := hA a (by omega)
    simp only [B, h1, Bool.true_and, decide_eq_true_eq]
    exact Nat.ne_of_gt (show s.heap.length < a by omega)
  have hloop := kidsLoop_ref (env := env) (objPath := path) (inp := inp) (mod := mod) (a0 := a0) (B := B)
    (by simp [B]) (ins := s.instrs) (f := f) l ((hperm.map Prod.fst).nodup_iff.2 (GMap.nodup_keys hsorted))
    (fun kt hkt => hkids kt ((hmem kt).1 hkt)) s1 [] rfl (by simp [s1, a0]) trivial
    (fun kt hkt s' h1 h2 h3 => hruns kt ((hmem kt).1 hkt) s' B h1 (fun a ha => hB1 a (by omega)) (fun v p hr => h3.rep (hrestrict hr)))
  rw [M.bind_apply]
  rcases hx : childrenLoop path inp mod a0 (l.map fun kt => (kt.2.path, kt.2.run env)) s1 with ⟨r, s2⟩
  rw [hx] at hloop
  rw [hx]
  obtain ⟨e1, e2, e3, e4⟩ := hloop
  simp only at e1 e2 e3 e4
  have hgrow : Grow s s2 := by
    refine ⟨by omega, ?_⟩
    refine Ext.trans (t := s1) ⟨?_, rfl, rfl, rfl, [], rfl, by simp⟩ e1
    intro a ha
    simp only [s1]
    rw [List.getElem?_append_left ha]
  have hfail : (∃ kt ∈ l, f kt.2 = none) → ((kidsOf f cs).map fun m => if m.isEmpty then nilP else P.obj m) = none := by
    rintro ⟨kt, h1, h2⟩
    rw [kidsOf_none ⟨kt, (hmem kt).1 h1, h2⟩]
    rfl
  cases r with
  | err => rw [hfail e4]; exact ⟨hgrow, .err⟩
  | panic => rw [hfail e4]; exact ⟨hgrow, .panic⟩
  | ok u =>
    obtain ⟨m', f1, f2, f3, f4⟩ := e4
    simp only
    rw [M.bind_apply]
    simp only [readMap, f1]
    obtain ⟨pm, k1, k2, k3, k4⟩ := kidsOf_some (f := f) hsorted
      (fun kt hkt => by
        obtain ⟨q, hq, _⟩ := f3 kt ((hmem kt).2 hkt)
        exact ⟨q, hq⟩)
    have hall : All2 (KVRel (Rep s2.heap B)) m' pm := by
      refine all2_of_get f2 k2 fun k => ?_
      rw [k4 k]
      cases hg : GMap.get k cs with
      | none =>
        have : k ∉ l.map Prod.fst := by
          intro hk
          rw [(hperm.map Prod.fst).mem_iff] at hk
          have := GMap.mem_keys_iff.1 hk
          rw [hg] at this
          contradiction
        rw [f4 k this]
        exact .none
      | some t =>
        obtain ⟨q, h1, h2⟩ := f3 (k, t) ((hmem _).2 (GMap.get_some_mem hg))
        simp only at h1 h2
        simp only [Option.bind_some, h1]
        split at h2
        · rw [if_pos (by assumption), h2]
          exact .none
        · rw [if_neg (by assumption)]
          obtain ⟨v, h3, h4⟩ := h2
          rw [h3]
          exact .some h4
    rw [k1, Option.map_some]
    cases hall with
    | nil => exact ⟨hgrow, .ok (Rep.sc _ _ _)⟩
    | @cons x y l1 l2 hxy hrest =>
      rw [if_neg (by simp)]
      refine ⟨hgrow, .ok ?_⟩
      simp only [M.pure_apply]
      have hall2 : All2 (KVRel (Rep s2.heap A)) (x :: l1) (y :: l2) := by
        have : All2 (KVRel (Rep s2.heap B)) (x :: l1) (y :: l2) := .cons hxy hrest
        exact this.imp fun a b hab => ⟨hab.1, hab.2.mono hBA (fun _ _ _ h => h)⟩
      exact rep_obj_iff.2 ⟨hA a0 (Nat.le_refl _), x :: l1, y :: l2, f1, rfl, hall2.length, hall2.idx⟩

theorem runsX_object {env : Env} (hf : env.fmt = .xml) {dv : V → P} {path : Str} {tid : Option Nat} {cs : List (Str × T)}
    (hc : ∀ kt ∈ cs, RunsX env dv kt.2) : RunsX env dv (.object path none tid cs) := by
  intro s A n mod hA hfr hd
  simp only [T.fragX] at hfr
  simp only [T.defaultsX] at hd
  obtain ⟨_, hgood, hsorted, hkids⟩ := hfr
  rw [fragXKids_iff] at hkids
  have hfin : ∀ (s1 : St) (n' : NodeId), Grow s s1 →
      RefO s1 (objStart none >>= objFinish env path (T.runKids env cs) (.sc (.node n')) mod) (fun h v q => Rep h A v q)
        ((kidsOf (fun t => evalX env.lib s.instrs dv t n' mod) cs).map fun m => if m.isEmpty then nilP else .obj m) := by
    intro s1 n' g1
    refine objFinish_ref (hA.grow g1) hsorted (fun kt hkt => let h := hkids kt hkt; ⟨h.1, h.2.1, h.2.2.1⟩) ?_
    intro kt hkt s' B h1 h2 h3
    have hi : s'.instrs = s.instrs := h1.trans g1.ext.instrs
    have := hc kt hkt s' B n' mod h2 (by rw [hi]; exact (hkids kt hkt).2.2.2)
      (fun d hd' => h3 _ _ ((hd d (mem_defaultsXKids.2 ⟨kt, hkt, hd'⟩)).grow g1))
    rw [hi] at this
    exact this
  simp only [T.run]
  unfold runObject
  simp only [hf]
  cases tid with
  | none =>
    simp only [evalX]
    rw [evalKidsX_eq]
    exact hfin s n (Grow.refl s)
  | some i =>
    simp only [evalX, evalKidsX_eq]
    refine RefO.bind (RefO.of_refM (RefM.optInstrsX hf hA hgood n)) fun s1 v q g1 hv => ?_
    cases v with
    | sc x =>
      have hq := rep_sc_iff.1 hv
      subst hq
      cases x with
      | nil => exact RefO.pure (Rep.sc _ _ _)
      | node m => exact hfin s1 m g1
      | nodes ns =>
        cases ns with
        | nil => exact hfin s1 n g1
        | cons m r => exact hfin s1 m g1
      | str st =>
        cases st with
        | nil => exact RefO.pure (Rep.sc _ _ _)
        | cons c r => exact ⟨Grow.refl _, .err⟩
      | _ => exact ⟨Grow.refl _, .err⟩
    | arr a =>
      obtain ⟨_, l, ps, h1, rfl, h3, h4⟩ := rep_arr_iff.1 hv
      exact ⟨Grow.refl _, .err⟩
    | obj a =>
      obtain ⟨_, l, ps, h1, rfl, h3, h4⟩ := rep_obj_iff.1 hv
      exact ⟨Grow.refl _, .err⟩

mutual
/-- Every covered transformer computes its direct semantics on XML input. -/
theorem runsX (env : Env) (hf : env.fmt = .xml) (dv : V → P) : ∀ (t : T), RunsX env dv t
  | .scalar p ty d tid => runsX_scalar hf
  | .array p d tid none => fun _ _ _ _ _ hfr => by simp [T.fragX] at hfr
  | .array p d tid (some c) => runsX_array hf (runsX env hf dv c)
  | .object p d tid cs => fun s A n mod hA hfr hd => by
    have hfr' := hfr
    simp only [T.fragX] at hfr'
    obtain ⟨rfl, _⟩ := hfr'
    exact runsX_object hf (runsXKids env hf dv cs) s A n mod hA hfr hd
theorem runsXKids (env : Env) (hf : env.fmt = .xml) (dv : V → P) : ∀ (cs : List (Str × T)), ∀ kt ∈ cs, RunsX env dv kt.2
  | [], _, h => by simp at h
  | (_, t) :: r, kt, h => by
    simp only [List.mem_cons] at h
    rcases h with rfl | h
    · exact runsX env hf dv t
    · exact runsXKids env hf dv r kt h
end

/-- A whole call on XML input: parse, evaluate, render. -/
theorem baseTransform_evalX {env : Env} (hf : env.fmt = .xml) {t : T} {s : St} {dv : V → P} (ht : t.fragX s.instrs)
    (hd : ∀ d ∈ t.defaultsX, Rep s.heap (fun _ => true) d (dv d)) (raw : Str) :
    (baseTransform env t raw s).1.toOption =
      (env.lib.parseXML raw).bind fun n => (evalX env.lib s.instrs dv t n id).bind env.lib.marshal := by
  unfold baseTransform
  rw [M.bind_apply]
  unfold readInput
  simp only [hf]
  cases hp : env.lib.parseXML raw with
  | none => rfl
  | some n =>
    simp only [M.pure_apply, Option.bind_some]
    rw [M.bind_apply]
    have hrun := runsX env hf dv t s (fun _ => true) n id (fun _ _ => rfl) ht hd
    unfold RefO at hrun
    have hid : (fun p => p : Mod) = id := rfl
    rw [hid]
    rcases hx : t.run env (.sc (.node n)) id s with ⟨r, s2⟩
    rw [hx] at hrun
    obtain ⟨_, hok⟩ := hrun
    simp only at hok
    generalize he : evalX env.lib s.instrs dv t n id = o at hok
    cases hok with
    | err => rfl
    | panic => rfl
    | @ok v2 q hv =>
      simp only [Option.bind_some]
      rw [M.bind_apply]
      simp only [getHeap, hv.toP]
      cases env.lib.marshal q <;> rfl

end JT
