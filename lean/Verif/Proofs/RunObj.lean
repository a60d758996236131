import Verif.Proofs.Run
/- The engine computes what the direct semantics says: objects, and whole transformers. -/
namespace JT
open Spec

/-! ### Maps -/

theorem GMap.get_of_mem {α : Type} {m : GMap α} (hm : GMap.Sorted m) {k : Str} {v : α} (h : (k, v) ∈ m) : GMap.get k m = some v := by
  induction m with
  | nil => simp at h
  | cons kv t ih =>
    obtain ⟨k', v'⟩ := kv
    simp only [GMap.Sorted] at hm
    simp only [List.mem_cons, Prod.mk.injEq] at h
    rcases h with ⟨rfl, rfl⟩ | h
    · simp [GMap.get]
    · have := strLt_ne (hm.1 _ h)
      simp only at this
      rw [GMap.get, if_neg (Ne.symm this)]
      exact ih hm.2 h

theorem GMap.nodup_keys {α : Type} {m : GMap α} (hm : GMap.Sorted m) : (m.map Prod.fst).Nodup := by
  induction m with
  | nil => simp
  | cons kv t ih =>
    obtain ⟨k, v⟩ := kv
    simp only [GMap.Sorted] at hm
    simp only [List.map_cons, List.nodup_cons]
    refine ⟨?_, ih hm.2⟩
    intro hk
    simp only [List.mem_map] at hk
    obtain ⟨x, hx, e⟩ := hk
    exact strLt_ne (hm.1 x hx) e.symm

theorem all2_of_get {α β : Type} {R : α → β → Prop} : ∀ {m : GMap α} {n : GMap β}, GMap.Sorted m → GMap.Sorted n →
    (∀ k, OptRel R (GMap.get k m) (GMap.get k n)) → All2 (KVRel R) m n := by
  intro m
  induction m with
  | nil =>
    intro n _ _ h
    cases n with
    | nil => exact .nil
    | cons kv t =>
      have := h kv.1
      simp only [GMap.get, if_true] at this
      cases this
  | cons kv t ih =>
    obtain ⟨k, v⟩ := kv
    intro n hm hn h
    cases n with
    | nil =>
      have := h k
      simp only [GMap.get, if_true] at this
      cases this
    | cons kv' t' =>
      obtain ⟨k', v'⟩ := kv'
      simp only [GMap.Sorted] at hm hn
      have hk : k = k' := by
        rcases strLt_total k k' with h1 | h1 | h1
        · have := h k
          rw [show GMap.get k ((k', v') :: t') = none from
            GMap.Sorted.get_none_of_lt (by intro x hx; simp at hx; rcases hx with hx | hx
                                           · simp [hx, h1]
                                           · exact strLt_trans h1 (hn.1 x hx))] at this
          simp only [GMap.get, if_true] at this
          cases this
        · exact h1
        · have := h k'
          rw [show GMap.get k' ((k, v) :: t) = none from
            GMap.Sorted.get_none_of_lt (by intro x hx; simp at hx; rcases hx with hx | hx
                                           · simp [hx, h1]
                                           · exact strLt_trans h1 (hm.1 x hx))] at this
          simp only [GMap.get, if_true] at this
          cases this
      subst hk
      have hv : R v v' := by
        have := h k
        simp only [GMap.get, if_true] at this
        cases this
        assumption
      refine .cons ⟨rfl, hv⟩ (ih hm.2 hn.2 fun k2 => ?_)
      by_cases h2 : k2 = k
      · subst h2
        rw [GMap.Sorted.get_none_of_lt hm.1, GMap.Sorted.get_none_of_lt hn.1]
        exact .none
      · have := h k2
        simpa only [GMap.get, if_neg h2] using this

/-! ### evalKids -/

theorem evalKids_none {lib : Lib} {ins : List Instrs} {dv : V → P} {p : P} {mod : Mod} :
    ∀ {cs : List (Str × T)}, (∃ kt ∈ cs, eval lib ins dv kt.2 p mod = none) → evalKids lib ins dv cs p mod = none := by
  intro cs
  induction cs with
  | nil => rintro ⟨kt, h, _⟩; simp at h
  | cons x r ih =>
    obtain ⟨k, t⟩ := x
    rintro ⟨kt, h, hn⟩
    simp only [List.mem_cons] at h
    simp only [evalKids]
    rcases h with rfl | h
    · rw [hn]
    · rw [ih ⟨kt, h, hn⟩]
      cases eval lib ins dv t p mod <;> rfl

/-- The map of child values has the non-nil values of the children. -/
theorem evalKids_some {lib : Lib} {ins : List Instrs} {dv : V → P} {p : P} {mod : Mod} :
    ∀ {cs : List (Str × T)}, GMap.Sorted cs → (∀ kt ∈ cs, ∃ q, eval lib ins dv kt.2 p mod = some q) →
    ∃ m, evalKids lib ins dv cs p mod = some m ∧ GMap.Sorted m ∧ (∀ kp ∈ m, ∃ t, (kp.1, t) ∈ cs) ∧
      ∀ k, GMap.get k m = (GMap.get k cs).bind fun t => (eval lib ins dv t p mod).bind fun q => if isNilP q then none else some q := by
  intro cs
  induction cs with
  | nil => intro _ _; exact ⟨[], rfl, trivial, by simp, fun _ => rfl⟩
  | cons x r ih =>
    obtain ⟨k, t⟩ := x
    intro hs hall
    simp only [GMap.Sorted] at hs
    obtain ⟨m, h1, h2, h3, h4⟩ := ih hs.2 fun kt h => hall kt (by simp [h])
    obtain ⟨q, hq⟩ := hall (k, t) (by simp)
    simp only at hq
    have hlt : ∀ kp ∈ m, strLt k kp.1 = true := by
      intro kp hkp
      obtain ⟨t', ht'⟩ := h3 kp hkp
      exact hs.1 _ ht'
    refine ⟨if isNilP q then m else (k, q) :: m, by simp only [evalKids, hq, h1], ?_, ?_, ?_⟩
    · split
      · exact h2
      · exact ⟨hlt, h2⟩
    · intro kp hkp
      split at hkp
      · obtain ⟨t', ht'⟩ := h3 kp hkp
        exact ⟨t', by simp [ht']⟩
      · simp only [List.mem_cons] at hkp
        rcases hkp with rfl | hkp
        · exact ⟨t, by simp⟩
        · obtain ⟨t', ht'⟩ := h3 kp hkp
          exact ⟨t', by simp [ht']⟩
    · intro k'
      by_cases hk : k' = k
      · subst hk
        have hnone : GMap.get k' m = none := GMap.Sorted.get_none_of_lt hlt
        simp only [GMap.get, if_true, Option.bind_some, hq]
        split
        · rw [hnone]
        · simp [GMap.get]
      · simp only [GMap.get, if_neg hk]
        split
        · exact h4 k'
        · simp only [GMap.get, if_neg hk]
          exact h4 k'

/-! ### Saving a child -/

theorem cut_prefix (a b : Str) : cut a (a ++ b) = some ([], b) := by
  cases h : a ++ b with
  | nil =>
    simp only [List.append_eq_nil_iff] at h
    obtain ⟨rfl, rfl⟩ := h
    rfl
  | cons c cs =>
    have hp : a.isPrefixOf (c :: cs) = true := by rw [← h]; simp
    simp only [cut, hp, if_true]
    rw [← h]
    simp

theorem replace1_prefix (a b new : Str) : replace1 (a ++ b) a new = new ++ b := by
  simp [replace1, cut_prefix]

/-- A child value is stored under the child's name. -/
theorem saveChild_eq {k p : Str} (hdot : '.' ∉ k) (hbr : '[' ∉ k) (a : Addr) {v : V} (hv : v ≠ V.nil) :
    saveInTree a (replace1 (p ++ '.' :: k) p g!"$") v = setKey a k v := by
  rw [replace1_prefix]
  unfold saveInTree
  rw [if_neg hv]
  rw [splitC_append '.' ['$'] k (by simp), splitC_no '.' k hdot]
  simp only [saveSplits, if_true, and_self]
  rw [if_neg (by simp)]
  unfold saveLeaf
  rw [splitC_no '[' k hbr]

theorem setKey_apply {a : Addr} {k : Str} {v : V} {s : St} {m : GMap V} (h : s.heap[a]? = some (.map m)) :
    setKey a k v s = (.ok (), { s with heap := s.heap.set a (.map (GMap.set k v m)), wlog := a :: s.wlog }) := by
  unfold setKey
  rw [M.bind_apply]
  simp only [readMap, h]
  rfl

/-! ### The loop over the children -/

/-- Cells in the region are unchanged. -/
def Keeps (B : Addr → Bool) (s s' : St) : Prop := ∀ a, B a = true → ∀ c, s.heap[a]? = some c → s'.heap[a]? = some c

theorem Keeps.rep {B : Addr → Bool} {s s' : St} (h : Keeps B s s') {v : V} {p : P} (hr : Rep s.heap B v p) : Rep s'.heap B v p :=
  hr.mono (fun _ h => h) h

theorem Grow.keeps {s s' : St} (g : Grow s s') (B : Addr → Bool) : Keeps B s s' := fun _ _ _ h => g.cell h

theorem childrenLoop_ref {env : Env} {dv : V → P} {objPath : Str} {ok : Str → Prop} {inp : V} {p : P} {mod : Mod} {a0 : Nat} {B : Addr → Bool}
    (hne : inp ≠ .obj a0) (ha0 : B a0 = false) {ins : List Instrs} : ∀ (l : List (Str × T)), (l.map Prod.fst).Nodup →
    (∀ kt ∈ l, RunsAs env dv kt.2) → T.fragKids ins objPath l → T.readsKids ok ins l mod → ∀ (s : St) (m : GMap V), s.instrs = ins →
    s.heap[a0]? = some (.map m) → GMap.Sorted m → FreshIn B s → InpAt env.lib ok s.heap B inp p →
    (∀ d ∈ T.defaultsKids l, Rep s.heap B d (dv d)) →
    let x := childrenLoop objPath inp mod a0 (l.map fun kt => (kt.2.path, kt.2.run env)) s
    Ext a0 s x.2 ∧ s.heap.length ≤ x.2.heap.length ∧ Keeps B s x.2 ∧
      match x.1 with
      | .ok () => ∃ m', x.2.heap[a0]? = some (.map m') ∧ GMap.Sorted m' ∧
          (∀ kt ∈ l, ∃ q, eval env.lib ins dv kt.2 p mod = some q ∧
            if isNilP q then GMap.get kt.1 m' = GMap.get kt.1 m
            else ∃ v, GMap.get kt.1 m' = some v ∧ Rep x.2.heap B v q) ∧
          ∀ k, k ∉ l.map Prod.fst → GMap.get k m' = GMap.get k m
      | _ => ∃ kt ∈ l, eval env.lib ins dv kt.2 p mod = none := by
  intro l
  induction l with
  | nil =>
    intro _ _ _ _ s m _ hm hsm _ _ _
    exact ⟨Ext.refl _ _, Nat.le_refl _, fun _ _ _ h => h, m, hm, hsm, by simp, fun _ _ => rfl⟩
  | cons kt rest ih =>
    obtain ⟨k, t⟩ := kt
    intro hnd hruns hfrag hrd s m hins hm hsm hB hinp hdef
    simp only [List.map_cons, List.nodup_cons] at hnd
    simp only [T.fragKids] at hfrag
    simp only [T.readsKids] at hrd
    obtain ⟨⟨hpath, hdot, hbr, htf⟩, hrest⟩ := hfrag
    have ha0s : a0 < s.heap.length := (List.getElem?_eq_some_iff.1 hm).1
    have hrun := hruns (k, t) (by simp) s B ok inp p mod hB (by rw [hins]; exact htf) (by rw [hins]; exact hrd.1)
      (fun d hd => hdef d (by simp [T.defaultsKids, hd])) hinp
    simp only [List.map_cons, childrenLoop]
    rw [M.bind_apply]
    rcases hx : t.run env inp mod s with ⟨r, s1⟩
    unfold RefO at hrun
    rw [hx, hins] at hrun
    obtain ⟨g1, hok⟩ := hrun
    simp only at g1 hok
    generalize he : eval env.lib ins dv t p mod = o at hok
    cases hok with
    | err => exact ⟨g1.ext.mono (by omega), g1.len, g1.keeps B, (k, t), by simp, he⟩
    | panic => exact ⟨g1.ext.mono (by omega), g1.len, g1.keeps B, (k, t), by simp, he⟩
    | @ok v q hv =>
      simp only
      rw [M.bind_apply]
      by_cases hnil : v = V.nil
      · -- nothing is saved
        have hq : isNilP q = true := (nil_iff hv).1 hnil
        subst hnil
        have hsave : saveInTree a0 (replace1 t.path objPath g!"$") V.nil s1 = (.ok (), s1) := by
          unfold saveInTree
          rw [if_pos rfl]
          rfl
        rw [hsave]
        simp only
        obtain ⟨e1, e2, e3, e4⟩ := ih hnd.2 (fun kt h => hruns kt (by simp [h])) hrest hrd.2 s1 m (g1.ext.instrs.trans hins) (g1.cell hm) hsm
          (hB.grow g1) (hinp.grow g1) (fun d hd => (hdef d (by simp [T.defaultsKids, hd])).grow g1)
        refine ⟨(g1.ext.mono (by omega)).trans e1, Nat.le_trans g1.len e2, fun a ha c hc => e3 a ha c (g1.cell hc), ?_⟩
        revert e4
        split
        · rintro ⟨m', f1, f2, f3, f4⟩
          refine ⟨m', f1, f2, ?_, ?_⟩
          · intro kt hkt
            simp only [List.mem_cons] at hkt
            rcases hkt with rfl | hkt
            · refine ⟨q, he, ?_⟩
              rw [if_pos hq]
              exact f4 k hnd.1
            · exact f3 kt hkt
          · intro k' hk'
            simp only [List.mem_cons, not_or] at hk'
            exact f4 k' hk'.2
        · rintro ⟨kt, h1, h2⟩
          exact ⟨kt, by simp [h1], h2⟩
      · -- the value is saved
        have hq : ¬ isNilP q = true := fun h => hnil ((nil_iff hv).2 h)
        rw [hpath, saveChild_eq hdot hbr a0 hnil, setKey_apply (g1.cell hm)]
        simp only
        generalize hs2 : ({ s1 with heap := s1.heap.set a0 (.map (GMap.set k v m)), wlog := a0 :: s1.wlog } : St) = s2
        have hlen : s2.heap.length = s1.heap.length := by subst hs2; simp
        have hk12 : Keeps B s1 s2 := by
          intro a ha c hc
          subst hs2
          simp only
          rw [List.getElem?_set_ne (by rintro rfl; rw [ha0] at ha; contradiction)]
          exact hc
        have hk12' : ∀ a, a ≠ a0 → ∀ c, s1.heap[a]? = some c → s2.heap[a]? = some c := by
          intro a ha c hc
          subst hs2
          simp only
          rw [List.getElem?_set_ne (fun h => ha h.symm)]
          exact hc
        have hinp2 : InpAt env.lib ok s2.heap B inp p := by
          refine (hinp.grow g1).mono (fun _ h _ => h) (fun _ h _ => h) fun a c hc h => hk12' a ?_ c hc
          rintro rfl
          rcases h with h | h
          · rw [ha0] at h; contradiction
          · exact hne h
        have hext12 : Ext a0 s1 s2 := by
          subst hs2
          refine ⟨?_, rfl, rfl, rfl, [a0], rfl, by simp⟩
          intro a ha
          simp only
          rw [List.getElem?_set_ne (by omega)]
        have hm2 : s2.heap[a0]? = some (.map (GMap.set k v m)) := by
          subst hs2
          simp only
          rw [List.getElem?_set_self (by have := g1.len; omega)]
        obtain ⟨e1, e2, e3, e4⟩ := ih hnd.2 (fun kt h => hruns kt (by simp [h])) hrest hrd.2 s2 _
          (hext12.instrs.trans (g1.ext.instrs.trans hins)) hm2 (GMap.sorted_set hsm)
          (by intro a ha; exact hB a (by have := g1.len; omega)) hinp2
          (fun d hd => hk12.rep ((hdef d (by simp [T.defaultsKids, hd])).grow g1))
        refine ⟨((g1.ext.mono (by omega)).trans hext12).trans e1, by have := g1.len; omega,
          fun a ha c hc => e3 a ha c (hk12 a ha c (g1.cell hc)), ?_⟩
        revert e4
        split
        · rintro ⟨m', f1, f2, f3, f4⟩
          refine ⟨m', f1, f2, ?_, ?_⟩
          · intro kt hkt
            simp only [List.mem_cons] at hkt
            rcases hkt with rfl | hkt
            · refine ⟨q, he, ?_⟩
              rw [if_neg hq]
              refine ⟨v, ?_, e3.rep (hk12.rep hv)⟩
              rw [f4 k hnd.1, GMap.get_set_self]
            · obtain ⟨q', h1, h2⟩ := f3 kt hkt
              refine ⟨q', h1, ?_⟩
              have hne : kt.1 ≠ k := by
                rintro rfl
                exact hnd.1 (List.mem_map_of_mem (f := Prod.fst) hkt)
              rw [GMap.get_set_ne hne] at h2
              exact h2
          · intro k' hk'
            simp only [List.mem_cons, not_or] at hk'
            rw [f4 k' hk'.2, GMap.get_set_ne hk'.1]
        · rintro ⟨kt, h1, h2⟩
          exact ⟨kt, by simp [h1], h2⟩

theorem fragKids_of_mem {ins : List Instrs} {p : Str} : ∀ {cs : List (Str × T)},
    (∀ kt ∈ cs, kt.2.path = p ++ '.' :: kt.1 ∧ '.' ∉ kt.1 ∧ '[' ∉ kt.1 ∧ kt.2.frag ins) → T.fragKids ins p cs
  | [], _ => trivial
  | (k, t) :: r, h => by
    simp only [T.fragKids]
    exact ⟨h (k, t) (by simp), fragKids_of_mem fun kt hk => h kt (by simp [hk])⟩

theorem mem_defaultsKids : ∀ {cs : List (Str × T)} {d : V}, d ∈ T.defaultsKids cs → ∃ kt ∈ cs, d ∈ kt.2.defaults
  | [], d, h => by simp [T.defaultsKids] at h
  | (k, t) :: r, d, h => by
    simp only [T.defaultsKids, List.mem_append] at h
    rcases h with h | h
    · exact ⟨(k, t), by simp, h⟩
    · obtain ⟨kt, h1, h2⟩ := mem_defaultsKids h
      exact ⟨kt, by simp [h1], h2⟩

theorem runs_object {env : Env} (hf : env.fmt = .json) {dv : V → P} {path : Str} {cs : List (Str × T)}
    (hc : ∀ kt ∈ cs, RunsAs env dv kt.2) : RunsAs env dv (.object path none none cs) := by
  intro s A ok inp p mod hA hfr hrd hd h
  simp only [T.frag] at hfr
  simp only [T.reads] at hrd
  simp only [T.defaults] at hd
  obtain ⟨_, _, hsorted, hkids⟩ := hfr
  simp only [T.run]
  unfold runObject
  simp only [hf]
  -- after allocating the new map and drawing the order
  let s1 : St := { s with heap := s.heap ++ [.map []], tick := s.tick + 1 }
  let a0 := s.heap.length
  have hstep : ((do
      let v ← optInstrs env inp ['o', 'b', 'j', 'e', 'c', 't'] mod none
      let newValue ← objTarget none v
      objFinish env path (T.runKids env cs) inp mod newValue) : M V) s =
      ((do childrenLoop path inp mod a0 (env.sched.perm s.tick _ (T.runKids env cs))
           let m ← readMap a0
           if m = [] then return V.nil else return .obj a0) : M V) s1 := rfl
  unfold RefO
  rw [hstep]
  obtain ⟨l, hperm, hl⟩ := perm_map_inv (env.sched.isPerm s.tick _ (T.runKids env cs)) (runKids_eq env cs)
  rw [hl]
  let B : Addr → Bool := fun a => A a && decide (a ≠ a0)
  have hBA : ∀ a, B a = true → A a = true := by
    intro a ha
    simp only [B, Bool.and_eq_true] at ha
    exact ha.1
  have hrestrict : ∀ {v : V} {q : P}, Rep s.heap A v q → Rep s1.heap B v q := by
    intro v q hr
    refine hr.below.mono ?_ ?_
    · intro a ha
      simp only [Bool.and_eq_true, decide_eq_true_eq] at ha
      simp only [B, Bool.and_eq_true, decide_eq_true_eq]
      exact ⟨ha.1, Nat.ne_of_lt ha.2⟩
    · intro a ha c hcell
      simp only [s1]
      rw [List.getElem?_append_left (List.getElem?_eq_some_iff.1 hcell).1]
      exact hcell
  have hinp1 : InpAt env.lib ok s1.heap B inp p := by
    refine h.mono (fun a ha hlt => ?_) (fun a ha _ => ?_) (fun a c hc _ => ?_)
    · simp only [B, ha, Bool.true_and, decide_eq_true_eq]
      exact Nat.ne_of_lt hlt
    · simp only [B, ha, Bool.false_and]
    · simp only [s1]
      rw [List.getElem?_append_left (List.getElem?_eq_some_iff.1 hc).1]
      exact hc
  have hne : inp ≠ .obj a0 := by
    rintro rfl
    cases h with
    | whole hr =>
      obtain ⟨_, l, _, hl, _⟩ := rep_obj_iff.1 hr
      exact absurd (List.getElem?_eq_some_iff.1 hl).1 (by simp [a0])
    | root h1 h2 h3 h4 =>
      cases h1
      exact absurd (List.getElem?_eq_some_iff.1 h4).1 (by simp [a0])
  have hmem : ∀ kt, kt ∈ l ↔ kt ∈ cs := fun kt => hperm.mem_iff
  have hloop := childrenLoop_ref (env := env) (dv := dv) (objPath := path) (inp := inp) (p := p) (mod := mod) (a0 := a0) (B := B)
    (ok := ok) hne (by simp [B]) (ins := s.instrs) l ((hperm.map Prod.fst).nodup_iff.2 (GMap.nodup_keys hsorted)) (fun kt hkt => hc kt ((hmem kt).1 hkt))
    (fragKids_of_mem fun kt hkt => fragKids_mem hkids ((hmem kt).1 hkt))
    (readsKids_iff.2 fun kt hkt => readsKids_iff.1 hrd kt ((hmem kt).1 hkt)) s1 [] rfl (by simp [s1, a0]) trivial
    (by intro a ha
        have hlen : s1.heap.length = s.heap.length + 1 := by simp [s1]
        have h1 := hA a (by omega)
        simp only [B, h1, Bool.true_and, decide_eq_true_eq]
        exact Nat.ne_of_gt (show s.heap.length < a by omega))
    hinp1 (fun d hd' => by
      obtain ⟨kt, h1, h2⟩ := mem_defaultsKids hd'
      exact hrestrict (hd d (defaultsKids_mem ((hmem kt).1 h1) d h2)))
  rw [M.bind_apply]
  rcases hx : childrenLoop path inp mod a0 (l.map fun kt => (kt.2.path, kt.2.run env)) s1 with ⟨r, s2⟩
  rw [hx] at hloop
  rw [hx]
  obtain ⟨e1, e2, e3, e4⟩ := hloop
  simp only at e1 e2 e3 e4
  have hgrow : Grow s s2 := by
    refine ⟨by simp [s1] at e2; omega, ?_⟩
    refine Ext.trans (t := s1) ⟨?_, rfl, rfl, rfl, [], rfl, by simp⟩ e1
    intro a ha
    simp only [s1]
    rw [List.getElem?_append_left ha]
  have hfail : (∃ kt ∈ l, eval env.lib s.instrs dv kt.2 p mod = none) →
      eval env.lib s.instrs dv (.object path none none cs) p mod = none := by
    rintro ⟨kt, h1, h2⟩
    simp only [eval]
    rw [evalKids_none ⟨kt, (hmem kt).1 h1, h2⟩]
    rfl
  cases r with
  | err => rw [hfail e4]; exact ⟨hgrow, .err⟩
  | panic => rw [hfail e4]; exact ⟨hgrow, .panic⟩
  | ok u =>
    obtain ⟨m', f1, f2, f3, f4⟩ := e4
    simp only
    rw [M.bind_apply]
    simp only [readMap, f1]
    obtain ⟨pm, k1, k2, k3, k4⟩ := evalKids_some (lib := env.lib) (ins := s.instrs) (dv := dv) (p := p) (mod := mod) hsorted
      (fun kt hkt => by
        obtain ⟨q, hq, _⟩ := f3 kt ((hmem kt).2 hkt)
        exact ⟨q, hq⟩)
    have hall : All2 (KVRel (Rep s2.heap B)) m' pm := by
      refine all2_of_get f2 k2 fun k => ?_
      rw [k4 k]
      cases hg : GMap.get k cs with
      | none =>
        have : k ∉ l.map Prod.fst := by
          intro hk
          rw [(hperm.map Prod.fst).mem_iff] at hk
          have := GMap.mem_keys_iff.1 hk
          rw [hg] at this
          contradiction
        rw [f4 k this]
        exact .none
      | some t =>
        obtain ⟨q, h1, h2⟩ := f3 (k, t) ((hmem _).2 (GMap.get_some_mem hg))
        simp only at h1 h2
        simp only [Option.bind_some, h1]
        split at h2
        · rw [if_pos (by assumption), h2]
          exact .none
        · rw [if_neg (by assumption)]
          obtain ⟨v, h3, h4⟩ := h2
          rw [h3]
          exact .some h4
    have heval : eval env.lib s.instrs dv (.object path none none cs) p mod = some (if pm.isEmpty then nilP else .obj pm) := by
      simp only [eval, k1, Option.map_some]
    rw [heval]
    cases hall with
    | nil => exact ⟨hgrow, .ok (Rep.sc _ _ _)⟩
    | @cons x y l1 l2 hxy hrest =>
      rw [if_neg (by simp)]
      refine ⟨hgrow, .ok ?_⟩
      simp only [M.pure_apply]
      have hall2 : All2 (KVRel (Rep s2.heap A)) (x :: l1) (y :: l2) := by
        have : All2 (KVRel (Rep s2.heap B)) (x :: l1) (y :: l2) := .cons hxy hrest
        exact this.imp fun a b hab => ⟨hab.1, hab.2.mono hBA (fun _ _ _ h => h)⟩
      refine rep_obj_iff.2 ⟨hA a0 (Nat.le_refl _), x :: l1, y :: l2, f1, rfl, hall2.length, hall2.idx⟩

theorem runs_scalar {env : Env} (hf : env.fmt = .json) {dv : V → P} {path ty : Str} {d : V} {tid : Option Nat} :
    RunsAs env dv (.scalar path ty d tid) := by
  intro s A ok inp p mod hA hfr hrd hd h
  simp only [T.frag] at hfr
  simp only [T.reads] at hrd
  simp only [T.defaults, List.mem_singleton, forall_eq] at hd
  have := RefO.of_refM (RefM.runScalar hf (path := path) (ty := ty) hA hfr hd h mod hrd.1 hrd.2)
  simp only [T.run, eval]
  unfold optInstrsP at this
  exact this

mutual
/-- Every covered transformer computes its direct semantics. -/
theorem runs (env : Env) (hf : env.fmt = .json) (dv : V → P) : ∀ (t : T), RunsAs env dv t
  | .scalar p ty d tid => runs_scalar hf
  | .array p d tid none => fun _ _ _ _ _ _ _ hfr => by simp [T.frag] at hfr
  | .array p d tid (some c) => fun s A ok inp q mod hA hfr hrd hd h => by
    have hfr' := hfr
    simp only [T.frag] at hfr'
    obtain ⟨rfl, rfl, _⟩ := hfr'
    exact runs_array hf (runs env hf dv c) s A ok inp q mod hA hfr hrd hd h
  | .object p d tid cs => fun s A ok inp q mod hA hfr hrd hd h => by
    have hfr' := hfr
    simp only [T.frag] at hfr'
    obtain ⟨rfl, rfl, _⟩ := hfr'
    exact runs_object hf (runsKids env hf dv cs) s A ok inp q mod hA hfr hrd hd h
theorem runsKids (env : Env) (hf : env.fmt = .json) (dv : V → P) : ∀ (cs : List (Str × T)), ∀ kt ∈ cs, RunsAs env dv kt.2
  | [], _, h => by simp at h
  | (_, t) :: r, kt, h => by
    simp only [List.mem_cons] at h
    rcases h with rfl | h
    · exact runs env hf dv t
    · exact runsKids env hf dv r kt h
end

end JT
