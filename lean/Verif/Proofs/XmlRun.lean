import Verif.Proofs.RunObj
import Verif.Spec.XmlSemantics
/- XML input: the engine computes a direct semantics on trees. -/
namespace JT
open Spec

theorem M.bind_assoc {α β γ : Type} (x : M α) (f : α → M β) (g : β → M γ) : (x >>= f) >>= g = x >>= fun a => f a >>= g := by
  funext s
  simp only [M.bind_apply]
  rcases x s with ⟨r, s1⟩
  cases r <;> rfl

theorem RefM.xfind {env : Env} {n : NodeId} {path : Str} {s : St} : RefM s (JT.xfind env n path) (fun _ a b => a = b)
    (match env.lib.xfind n path with | some l => .ok l | none => .panic) := by
  unfold JT.xfind
  cases env.lib.xfind n path with
  | none => exact ⟨Grow.refl s, .panic⟩
  | some l => exact RefM.pure rfl

theorem RefM.xmlValue {env : Env} {ty : Str} {first : NodeId} {all : List NodeId} {wc woc : Nat} {s : St} {A : Addr → Bool} (hA : FreshIn A s) :
    RefM s (JT.xmlValue env ty first all wc woc) (fun h v p => Rep h A v p) (nodesP env.lib ty first all wc woc) := by
  unfold JT.xmlValue nodesP
  refine RefM.ite Iff.rfl (fun _ => ?_) fun _ => RefM.ite Iff.rfl (fun _ => RefM.pure (Rep.sc _ _ _)) fun _ =>
    RefM.ite Iff.rfl (fun _ => RefM.pure (Rep.sc _ _ _)) fun _ => ?_
  · exact RefM.bind (RefM.convertV (A := A) (Rep.sc _ _ _)) fun s2 c d g2 hcd => RefM.materialize (hA.grow g2) hcd.1
  · refine RefM.bind (RefM.convertV (A := A) (Rep.sc _ _ _)) fun s2 c d g2 hcd => ?_
    show RefM s2 (if c.err then _ else _) _ (.ok (if d.err then _ else _))
    rw [hcd.2]
    split
    · exact RefM.pure (Rep.sc _ _ _)
    · exact RefM.materialize (hA.grow g2) hcd.1

theorem RefM.instrXML {env : Env} {ty : Str} {mod : Mod} {ti : Instr} (hc : Clockless ti.ops) {s : St} {A : Addr → Bool}
    (hA : FreshIn A s) (n : NodeId) :
    RefM s (JT.instrXML env (.sc (.node n)) ty mod ti) (fun h v p => Rep h A v p) (instrX env.lib ty (mod ti.xmlPath) ti.ops n) := by
  have key : instrX env.lib ty (mod ti.xmlPath) ti.ops n =
      (match env.lib.xfind n (mod ti.xmlPath) with | some l => Res.ok l | none => .panic).bind fun found => match found with
        | [] => .ok nilP
        | first :: others =>
          (match env.lib.xfind n (mod ti.xmlPath ++ g!"[*]") with | some l => Res.ok l | none => .panic).bind fun wc =>
          (match env.lib.xfind n (mod ti.xmlPath ++ g!"[not(*)]") with | some l => Res.ok l | none => .panic).bind fun woc =>
          (nodesP env.lib ty first (first :: others) wc.length woc.length).bind fun v =>
            if isNilP v then .ok nilP else opsP env.lib ti.ops v := by
    unfold instrX
    cases env.lib.xfind n (mod ti.xmlPath) with
    | none => rfl
    | some l =>
      cases l with
      | nil => rfl
      | cons first others =>
        simp only [Res.bind]
        cases env.lib.xfind n (mod ti.xmlPath ++ g!"[*]") with
        | none => rfl
        | some wc =>
          simp only [Res.bind]
          cases env.lib.xfind n (mod ti.xmlPath ++ g!"[not(*)]") with
          | none => rfl
          | some woc => rfl
  rw [key]
  unfold JT.instrXML
  refine RefM.bind RefM.xfind ?_
  rintro s1 found _ g1 rfl
  cases found with
  | nil => exact RefM.pure (Rep.sc _ _ _)
  | cons first others =>
    refine RefM.bind RefM.xfind ?_
    rintro s2 wc _ g2 rfl
    refine RefM.bind RefM.xfind ?_
    rintro s3 woc _ g3 rfl
    have hA3 := ((hA.grow g1).grow g2).grow g3
    refine RefM.bind (RefM.xmlValue hA3) fun s4 v q g4 hv => ?_
    exact RefM.ite (nil_iff hv) (fun _ => RefM.pure (Rep.sc _ _ _)) fun _ => RefM.runOps hc (hA3.grow g4) hv

theorem RefM.instrsRunX {env : Env} (hf : env.fmt = .xml) {ty : Str} {mod : Mod} {tid : Nat} {s : St} {A : Addr → Bool} (hA : FreshIn A s)
    {tis : Instrs} (ht : s.instrs[tid]? = some tis) (hg : GoodInstrs tis) (n : NodeId) :
    RefM s (JT.instrsRun env (.sc (.node n)) ty mod tid) (fun h v p => Rep h A v p) (instrsX env.lib ty mod tis n) := by
  unfold JT.instrsRun
  refine RefM.bind (s := s) (x := readInstrs tid) (r := .ok tis) (Q := fun _ a b => a = tis ∧ tis = b)
    (g := fun tis => instrsX env.lib ty mod tis n) ?_ ?_
  · unfold RefM readInstrs
    rw [ht]
    exact ⟨Grow.refl s, .ok ⟨rfl, rfl⟩⟩
  · rintro s' a b g ⟨h1, h2⟩
    subst h1
    subst h2
    have hrun : ∀ ti ∈ a.from, ∀ s'', Grow s' s'' → RefM s'' (instrRun env (.sc (.node n)) ty mod ti) (fun h v p => Rep h A v p)
        (instrX env.lib ty (mod ti.xmlPath) ti.ops n) := by
      intro ti hti s'' g'
      unfold instrRun
      rw [hf]
      exact RefM.instrXML (hg.2 ti hti) ((hA.grow g).grow g') n
    unfold instrsX
    cases hm : a.method with
    | first => exact RefM.firstLoop (hA.grow g) hrun
    | last => exact absurd hm hg.1
    | concatenate => exact RefM.concatLoop (hA.grow g) hrun (Rep.sc _ _ _)

/-- The result of an optional transform on a node. -/
def optInstrsX (lib : Lib) (ins : List Instrs) (ty : Str) (mod : Mod) (n : NodeId) : Option Nat → Res P
  | none => .ok nilP
  | some i => match ins[i]? with
    | none => .panic
    | some tis => instrsX lib ty mod tis n

theorem RefM.optInstrsX {env : Env} (hf : env.fmt = .xml) {ty : Str} {mod : Mod} {tid : Option Nat} {s : St} {A : Addr → Bool}
    (hA : FreshIn A s) (ht : GoodTid s.instrs tid) (n : NodeId) :
    RefM s (JT.optInstrs env (.sc (.node n)) ty mod tid) (fun h v p => Rep h A v p) (JT.optInstrsX env.lib s.instrs ty mod n tid) := by
  cases tid with
  | none => exact RefM.pure (Rep.sc _ _ _)
  | some i =>
    obtain ⟨tis, h1, h2⟩ := ht i rfl
    simp only [JT.optInstrsX, h1, JT.optInstrs]
    exact RefM.instrsRunX hf hA h1 h2 n

mutual
/-- The value of an instance on a node; `none` is a failure. -/
def evalX (lib : Lib) (ins : List Instrs) (dv : V → P) : T → NodeId → Mod → Option P
  | .scalar _ ty d tid, n, mod => (okP (optInstrsX lib ins ty mod n tid)).map fun p => if isNilP p then dv d else p
  | .array _ _ _ none, _, _ => none
  | .array path d tid (some c), n, mod => (okP (optInstrsX lib ins g!"array" mod n tid)).bind fun v =>
    (optAll (entryX fun i m => evalX lib ins dv c m (pathReplace (mod path ++ g!"[*]") (mod path ++ g!"[" ++ itoaNat i ++ g!"]") mod))
      (entriesX v (dv (arrD d))).zipIdx).map arrayOf
  | .object _ _ tid cs, n, mod =>
    match tid with
    | none => (evalKidsX lib ins dv cs n mod).map fun m => if m.isEmpty then nilP else .obj m
    | some i => (okP (optInstrsX lib ins g!"object" mod n (some i))).bind fun v =>
      match whereX n v with
      | .absent => some nilP
      | .fails => none
      | .node n' => (evalKidsX lib ins dv cs n' mod).map fun m => if m.isEmpty then nilP else .obj m
/-- The non-nil values of the children of an object, by key. -/
def evalKidsX (lib : Lib) (ins : List Instrs) (dv : V → P) : List (Str × T) → NodeId → Mod → Option (List (Str × P))
  | [], _, _ => some []
  | (k, t) :: r, n, mod =>
    match evalX lib ins dv t n mod, evalKidsX lib ins dv r n mod with
    | some p, some m => some (if isNilP p then m else (k, p) :: m)
    | _, _ => none
end

mutual
/-- Default values of scalars and arrays. -/
def T.defaultsX : T → List V
  | .scalar _ _ d _ => [d]
  | .array _ _ _ none => []
  | .array _ d _ (some c) => arrD d :: c.defaultsX
  | .object _ _ _ cs => T.defaultsXKids cs
def T.defaultsXKids : List (Str × T) → List V
  | [] => []
  | (_, t) :: r => t.defaultsX ++ T.defaultsXKids r
end

mutual
/-- Transformers covered: paths as built from a schema with plain names, objects without default. -/
def T.fragX (ins : List Instrs) : T → Prop
  | .scalar _ _ _ tid => GoodTid ins tid
  | .array _ _ _ none => False
  | .array _ _ tid (some c) => GoodTid ins tid ∧ c.fragX ins
  | .object p d tid cs => d = none ∧ GoodTid ins tid ∧ GMap.Sorted cs ∧ T.fragXKids ins p cs
def T.fragXKids (ins : List Instrs) (p : Str) : List (Str × T) → Prop
  | [] => True
  | (k, t) :: r => (t.path = p ++ '.' :: k ∧ '.' ∉ k ∧ '[' ∉ k ∧ t.fragX ins) ∧ T.fragXKids ins p r
end

theorem fragXKids_iff {ins : List Instrs} {p : Str} : ∀ {cs : List (Str × T)}, T.fragXKids ins p cs ↔
    ∀ kt ∈ cs, kt.2.path = p ++ '.' :: kt.1 ∧ '.' ∉ kt.1 ∧ '[' ∉ kt.1 ∧ kt.2.fragX ins
  | [] => by simp [T.fragXKids]
  | (k, t) :: r => by simp only [T.fragXKids, List.forall_mem_cons]; rw [fragXKids_iff]

theorem mem_defaultsXKids : ∀ {cs : List (Str × T)} {d : V}, d ∈ T.defaultsXKids cs ↔ ∃ kt ∈ cs, d ∈ kt.2.defaultsX
  | [], d => by simp [T.defaultsXKids]
  | (k, t) :: r, d => by simp only [T.defaultsXKids, List.mem_append, List.exists_mem_cons_iff]; rw [mem_defaultsXKids]

/-- What is shown about one transformer: it computes `evalX`. -/
def RunsX (env : Env) (dv : V → P) (t : T) : Prop :=
  ∀ (s : St) (A : Addr → Bool) (n : NodeId) (mod : Mod), FreshIn A s → t.fragX s.instrs →
    (∀ d ∈ t.defaultsX, Rep s.heap A d (dv d)) →
    RefO s (t.run env (.sc (.node n)) mod) (fun h v q => Rep h A v q) (evalX env.lib s.instrs dv t n mod)

theorem runsX_scalar {env : Env} (hf : env.fmt = .xml) {dv : V → P} {path ty : Str} {d : V} {tid : Option Nat} :
    RunsX env dv (.scalar path ty d tid) := by
  intro s A n mod hA hfr hd
  simp only [T.fragX] at hfr
  simp only [T.defaultsX, List.mem_singleton, forall_eq] at hd
  simp only [T.run, evalX]
  unfold runScalar
  rw [Option.map_eq_bind]
  refine RefO.bind (RefO.of_refM (RefM.optInstrsX hf hA hfr n)) fun s1 v q g1 hv => ?_
  have hn := nil_iff hv
  simp only [Function.comp]
  by_cases h0 : v = V.nil
  · rw [if_neg (by simpa using h0), if_pos (hn.1 h0), hf]
    exact RefO.pure (hd.grow g1)
  · rw [if_pos h0, if_neg (fun h => h0 (hn.2 h))]
    exact RefO.pure hv

/-! ### Arrays -/

theorem RefO.mono {α β : Type} {s : St} {x : M α} {Q Q' : Heap → α → β → Prop} {o : Option β} (h : RefO s x Q o)
    (hq : ∀ h a b, Q h a b → Q' h a b) : RefO s x Q' o := by
  obtain ⟨h1, h2⟩ := h
  refine ⟨h1, ?_⟩
  generalize (x s).1 = y at h2
  cases h2 with
  | ok hab => exact .ok (hq _ _ _ hab)
  | err => exact .err
  | panic => exact .panic

/-- A value used as an array. -/
def oneOrMany : P → List P
  | .arr l => l
  | p => [p]

theorem asSlice_refX {s : St} {A : Addr → Bool} {v : V} {p : P} (h : Rep s.heap A v p) :
    RefO s (asSlice v) (fun h a ps => ∃ l, h[a]? = some (.slice l) ∧ All2 (Rep h A) l ps)
      (some (oneOrMany p)) := by
  cases v with
  | sc x =>
    have hp := rep_sc_iff.1 h
    subst hp
    refine ⟨grow_alloc s _, .ok ⟨[.sc x], ?_, .cons (Rep.sc _ _ _) .nil⟩⟩
    simp [asSlice, alloc]
  | arr a =>
    obtain ⟨_, l, ps, h1, rfl, h3, h4⟩ := rep_arr_iff.1 h
    exact RefO.pure ⟨l, h1, All2.of_idx h3 h4⟩
  | obj a =>
    obtain ⟨_, l, ps, h1, rfl, h3, _⟩ := rep_obj_iff.1 h
    refine ⟨grow_alloc s _, .ok ⟨[.obj a], ?_, .cons (h.grow (grow_alloc s _)) .nil⟩⟩
    simp [asSlice, alloc]

theorem readBase_slice {a : Addr} {l : List V} {s : St} (h : s.heap[a]? = some (.slice l)) : readBase (some a) s = (.ok l, s) := by
  unfold readBase readSlice
  simp only [h]

/-- The entries of an array. -/
theorem entries_ref {env : Env} (hf : env.fmt = .xml) {s : St} {A : Addr → Bool} (hA : FreshIn A s) {tid : Option Nat} (ht : GoodTid s.instrs tid)
    {d : Option Addr} {dp : P} (hd : Rep s.heap A (arrD d) dp) (n : NodeId) (mod : Mod) :
    RefO s (do let base ← baseXML env d tid (.sc (.node n)) mod; readBase base) (fun h l ps => All2 (Rep h A) l ps)
      ((okP (optInstrsX env.lib s.instrs g!"array" mod n tid)).bind fun v => some (entriesX v dp)) := by
  unfold baseXML
  rw [M.bind_assoc]
  refine RefO.bind (RefO.of_refM (RefM.optInstrsX hf hA ht n)) fun s1 v q g1 hv => ?_
  have other : ∀ (v : V) (q : P), Rep s1.heap A v q → v ≠ V.nil →
      RefO s1 ((do let a ← asSlice v; return some a : M (Option Addr)) >>= readBase) (fun h l ps => All2 (Rep h A) l ps)
        (some (oneOrMany q)) := by
    intro v q hv _
    rw [M.bind_assoc]
    have := RefO.bind (Q' := fun h l ps => All2 (Rep h A) l ps) (g := fun ps => some ps)
      (f := fun a => ((Pure.pure (some a) : M (Option Addr)) >>= readBase)) (asSlice_refX hv) (by
        rintro s2 a ps g2 ⟨l, h1, h2⟩
        refine ⟨?_, ?_⟩
        · rw [M.bind_apply]
          simp only [M.pure_apply, readBase_slice h1]
          exact Grow.refl _
        · rw [M.bind_apply]
          simp only [M.pure_apply, readBase_slice h1]
          exact .ok h2)
    exact this
  cases v with
  | sc x =>
    have hq := rep_sc_iff.1 hv
    subst hq
    cases x with
    | nil =>
      simp only [entriesX]
      rw [if_neg (by simp)]
      cases d with
      | none =>
        have := rep_sc_iff.1 hd
        subst this
        exact RefO.pure .nil
      | some a =>
        obtain ⟨_, l, ps, h1, rfl, h3, h4⟩ := rep_arr_iff.1 (hd.grow g1)
        refine ⟨?_, ?_⟩
        · rw [M.bind_apply]
          simp only [M.pure_apply, readBase_slice h1]
          exact Grow.refl _
        · rw [M.bind_apply]
          simp only [M.pure_apply, readBase_slice h1]
          exact .ok (All2.of_idx h3 h4)
    | nodes ns =>
      simp only [entriesX]
      have g2 := grow_alloc s1 (.slice (ns.map fun n => V.sc (.node n)))
      have hcell : ({ s1 with heap := s1.heap ++ [.slice (ns.map fun n => V.sc (.node n))] } : St).heap[s1.heap.length]? =
          some (.slice (ns.map fun n => V.sc (.node n))) := by simp
      have hall : ∀ (ns : List NodeId) (h : Heap), All2 (Rep h A) (ns.map fun n => V.sc (.node n)) (ns.map fun n => P.sc (.node n)) := by
        intro ns h
        induction ns with
        | nil => exact .nil
        | cons x r ih => exact .cons (Rep.sc _ _ _) ih
      refine ⟨?_, ?_⟩
      · rw [M.bind_apply]
        simp only [M.bind_apply, alloc, M.pure_apply, readBase_slice hcell]
        exact g2
      · rw [M.bind_apply]
        simp only [M.bind_apply, alloc, M.pure_apply, readBase_slice hcell]
        exact .ok (hall ns _)
    | _ => 
      simp only [entriesX]
      rw [if_pos (by simp)]
      exact other _ _ hv (by simp)
  | arr a =>
    have hne : (V.arr a) ≠ V.nil := by simp
    obtain ⟨_, l, ps, h1, rfl, h3, h4⟩ := rep_arr_iff.1 hv
    simp only [entriesX]
    rw [if_pos hne]
    exact other _ _ hv hne
  | obj a =>
    have hne : (V.obj a) ≠ V.nil := by simp
    obtain ⟨_, l, ps, h1, rfl, h3, h4⟩ := rep_obj_iff.1 hv
    simp only [entriesX]
    rw [if_pos hne]
    exact other _ _ hv hne

theorem itemsLoopX_ref {child : TF} {path : Str} {mod : Mod} {A : Addr → Bool} {f : Nat → NodeId → Option P} :
    ∀ (l : List V) (ps : List P) (i : Nat) (s : St) (acc : List V) (qs : List P),
      (∀ j n s', Grow s s' → RefO s' (child (.sc (.node n)) (pathReplace (path ++ g!"[*]") (path ++ g!"[" ++ itoaNat j ++ g!"]") mod))
        (fun h v q => Rep h A v q) (f j n)) →
      All2 (Rep s.heap A) l ps → All2 (Rep s.heap A) acc qs →
      RefO s (itemsLoopXML child path mod l i acc) (fun h l ps => All2 (Rep h A) l ps)
        ((optAll (entryX f) (ps.zipIdx i)).map fun rs => qs ++ rs.filter fun p => !isNilP p) := by
  intro l
  induction l with
  | nil =>
    intro ps i s acc qs _ hl hacc
    cases hl
    simp only [List.zipIdx_nil, optAll, Option.map_some, List.filter_nil, List.append_nil]
    exact RefO.pure hacc
  | cons x xs ih =>
    intro ps i s acc qs hc hl hacc
    cases hl with
    | @cons _ p _ ps' hx hxs =>
      have key : ((optAll (entryX f) ((p :: ps').zipIdx i)).map fun rs => qs ++ rs.filter fun p => !isNilP p) =
          (entryX f (p, i)).bind fun q => (optAll (entryX f) (ps'.zipIdx (i + 1))).map fun rs =>
            (if isNilP q then qs else qs ++ [q]) ++ rs.filter fun p => !isNilP p := by
        simp only [List.zipIdx_cons, optAll]
        cases entryX f (p, i) with
        | none => rfl
        | some q =>
          simp only [Option.bind_some]
          cases optAll (entryX f) (ps'.zipIdx (i + 1)) with
          | none => rfl
          | some rs =>
            simp only [Option.map_some, List.filter_cons]
            by_cases hq : isNilP q = true <;> simp [hq]
      rw [key]
      rw [itemsLoopXML]
      refine RefO.bind (Q := fun h v q => Rep h A v q) ?_ fun s' v q g hv => ?_
      · unfold itemXML entryX
        cases x with
        | sc sc =>
          have := rep_sc_iff.1 hx
          subst this
          cases sc with
          | node n => exact hc i n s (Grow.refl s)
          | _ => exact RefO.pure hx
        | arr a =>
          obtain ⟨_, l, ps, h1, rfl, h3, h4⟩ := rep_arr_iff.1 hx
          exact RefO.pure hx
        | obj a =>
          obtain ⟨_, l, ps, h1, rfl, h3, h4⟩ := rep_obj_iff.1 hx
          exact RefO.pure hx
      · refine ih ps' (i + 1) s' _ _ (fun j n s'' g' => hc j n s'' (g.trans g')) (hxs.rep_grow g) ?_
        have hn := nil_iff hv
        by_cases h0 : v = V.nil
        · rw [if_pos h0, if_pos (hn.1 h0)]
          exact hacc.rep_grow g
        · rw [if_neg h0, if_neg (fun h' => h0 (hn.2 h'))]
          exact (hacc.rep_grow g).append (.cons hv .nil)

theorem runsX_array {env : Env} (hf : env.fmt = .xml) {dv : V → P} {path : Str} {d : Option Addr} {tid : Option Nat} {c : T} (hc : RunsX env dv c) :
    RunsX env dv (.array path d tid (some c)) := by
  intro s A n mod hA hfr hd
  simp only [T.fragX] at hfr
  simp only [T.defaultsX, List.mem_cons, forall_eq_or_imp] at hd
  have hins : ∀ {s'}, Grow s s' → s'.instrs = s.instrs := fun g => g.ext.instrs
  have key : evalX env.lib s.instrs dv (.array path d tid (some c)) n mod =
      ((okP (optInstrsX env.lib s.instrs g!"array" mod n tid)).bind fun v => some (entriesX v (dv (arrD d)))).bind fun ps =>
        ((optAll (entryX fun i m => evalX env.lib s.instrs dv c m (pathReplace (mod path ++ g!"[*]") (mod path ++ g!"[" ++ itoaNat i ++ g!"]") mod))
          (ps.zipIdx 0)).map fun rs => [] ++ rs.filter fun p => !isNilP p).bind fun qs => some (if qs.isEmpty then nilP else .arr qs) := by
    simp only [evalX, Option.bind_assoc, Option.bind_some]
    congr 1
    funext v
    simp only [Option.map_eq_bind, Option.bind_assoc]
    rfl
  rw [key]
  simp only [T.run]
  unfold runArray
  simp only [hf]
  have hassoc : ∀ (k : List V → M V), (do let base ← baseXML env d tid (.sc (.node n)) mod; let l ← readBase base; k l) =
      (do let base ← baseXML env d tid (.sc (.node n)) mod; readBase base) >>= k := fun k => (M.bind_assoc _ _ _).symm
  rw [hassoc]
  refine RefO.bind (entries_ref hf hA hfr.1 hd.1 n mod) fun s1 l ps g1 hl => ?_
  refine RefO.bind (itemsLoopX_ref (A := A) l ps 0 s1 [] [] ?_ hl .nil) ?_
  · intro j m s' g'
    have gs := g1.trans g'
    have := hc s' A m (pathReplace (mod path ++ g!"[*]") (mod path ++ g!"[" ++ itoaNat j ++ g!"]") mod)
      (hA.grow gs) (by rw [hins gs]; exact hfr.2) (fun d hd' => (hd.2 d hd').grow gs)
    rw [hins gs] at this
    exact this
  · intro s4 out qs g4 hout
    unfold arrayResult
    cases hout with
    | nil => exact RefO.pure (Rep.sc _ _ _)
    | cons ha hl =>
      rw [if_neg (by simp)]
      exact RefO.of_okM (RefM.alloc_slice ((hA.grow g1).grow g4) (.cons ha hl))

end JT
