import Verif.Proofs.SchemaVal
import Verif.Spec.TopArray
/- The engine on top level arrays with transforms and defaults. -/
namespace JT
open Spec

/-! ### The base of an array -/

theorem asSlice_rep {s : St} {A : Addr → Bool} (hA : FreshIn A s) {v : V} {p : P} (h : Rep s.heap A v p) :
    RefO s (asSlice v) (fun h a q => Rep h A (.arr a) q) (some (.arr (entries p))) := by
  cases v with
  | arr a =>
    have h' := h
    obtain ⟨_, l, ps, h1, rfl, h3, _⟩ := rep_arr_iff.1 h
    exact RefO.pure h'
  | sc x =>
    rw [rep_sc_iff.1 h]
    have g := grow_alloc s (.slice [.sc x])
    refine ⟨g, .ok ?_⟩
    refine rep_arr_iff.2 ⟨hA _ (Nat.le_refl _), [.sc x], [.sc x], by simp [asSlice, alloc], rfl, rfl, ?_⟩
    exact (All2.cons (Rep.sc _ _ x) .nil : All2 (Rep _ A) [V.sc x] [P.sc x]).idx
  | obj a =>
    have hent : entries p = [p] := by
      obtain ⟨_, l, ps, h1, rfl, h3, _⟩ := rep_obj_iff.1 h
      rfl
    rw [hent]
    have g := grow_alloc s (.slice [.obj a])
    refine ⟨g, .ok ?_⟩
    refine rep_arr_iff.2 ⟨hA _ (Nat.le_refl _), [.obj a], [p], by simp [asSlice, alloc], rfl, rfl, ?_⟩
    exact (All2.cons (h.grow g) .nil : All2 (Rep _ A) [V.obj a] [p]).idx

/-- A base and whether it is to be saved. -/
def BaseRel (A : Addr → Bool) (h : Heap) (r : Option Addr × Bool) (b : List P × Bool) : Prop :=
  r.2 = b.2 ∧ match r.1 with
    | none => b = ([], false)
    | some a => Rep h A (.arr a) (.arr b.1)

theorem default_base {s : St} {A : Addr → Bool} {d : Option Addr} {dv : V → P} (hd : Rep s.heap A (arrD d) (dv (arrD d))) :
    BaseRel A s.heap (d, d.isSome) (defaultEntries (dv (arrD d))) := by
  cases d with
  | none =>
    rw [rep_sc_iff.1 hd]
    exact ⟨rfl, rfl⟩
  | some a =>
    simp only [arrD] at hd ⊢
    have h' := hd
    obtain ⟨_, l, ps, h1, h2, h3, _⟩ := rep_arr_iff.1 hd
    rw [h2] at h' ⊢
    exact ⟨rfl, h'⟩

theorem baseJSON_rep {env : Env} (hf : env.fmt = .json) {s : St} {A : Addr → Bool} (hA : FreshIn A s) {ok : Str → Prop} {inp : V} {p : P}
    (h : InpAt env.lib ok s.heap A inp p) {path : Str} {mod : Mod} (hok : ok path) {tid : Option Nat} (ht : GoodTid s.instrs tid)
    (hoks : TidReads ok s.instrs mod tid) {d : Option Addr} {dv : V → P} (hd : Rep s.heap A (arrD d) (dv (arrD d))) :
    RefO s (baseJSON env d tid inp path mod) (BaseRel A)
      (arrayBase (optInstrsP env.lib s.instrs g!"array" mod p tid) ((jpGet env.lib P.view path p).map outP) (dv (arrD d))) := by
  have key : arrayBase (optInstrsP env.lib s.instrs g!"array" mod p tid) ((jpGet env.lib P.view path p).map outP) (dv (arrD d)) =
      (okP (optInstrsP env.lib s.instrs g!"array" mod p tid)).bind fun v =>
        if isNilP v then (some ((jpGet env.lib P.view path p).map outP)).bind fun same => match same with
          | some raw => if isNilP raw then some (defaultEntries (dv (arrD d))) else
              (some (P.arr (entries raw))).bind fun q => some (match q with | .arr l => (l, false) | _ => ([], false))
          | none => some (defaultEntries (dv (arrD d)))
        else (some (P.arr (entries v))).bind fun q => some (match q with | .arr l => (l, true) | _ => ([], false)) := by
    unfold arrayBase
    cases optInstrsP env.lib s.instrs g!"array" mod p tid with
    | ok v =>
      simp only [okP, Option.bind_some]
      split
      · cases (jpGet env.lib P.view path p).map outP with
        | none => rfl
        | some raw =>
          simp only
          split <;> rfl
      · rfl
    | err => rfl
    | panic => rfl
  rw [key]
  unfold baseJSON
  refine RefO.bind (RefO.of_refM (RefM.optInstrs hf hA ht h hoks)) fun s1 v q g1 hvq => ?_
  have hn := nil_iff hvq
  have hd1 := hd.grow g1
  by_cases h0 : v = V.nil
  · rw [if_neg (by simpa using h0), if_pos (hn.1 h0)]
    refine RefO.bind (RefO.of_okM (RefM.jpGetV (hA.grow g1) (h.grow g1) hok)) fun s2 r q2 g2 hrq => ?_
    have hd2 := hd1.grow g2
    cases hrq with
    | none => exact RefO.pure (default_base hd2)
    | @some raw rp hraw =>
      have hn2 := nil_iff hraw
      simp only
      by_cases h1 : raw = V.nil
      · rw [if_neg (by simpa using h1), if_pos (hn2.1 h1)]
        exact RefO.pure (default_base hd2)
      · rw [if_pos h1, if_neg (fun h' => h1 (hn2.2 h'))]
        refine RefO.bind (asSlice_rep ((hA.grow g1).grow g2) hraw) fun s3 a q3 g3 ha => ?_
        obtain ⟨_, l, ps, _, rfl, _⟩ := rep_arr_iff.1 ha
        exact RefO.pure ⟨rfl, ha⟩
  · rw [if_pos h0, if_neg (fun h' => h0 (hn.2 h'))]
    refine RefO.bind (asSlice_rep (hA.grow g1) hvq) fun s3 a q3 g3 ha => ?_
    obtain ⟨_, l, ps, _, rfl, _⟩ := rep_arr_iff.1 ha
    exact RefO.pure ⟨rfl, ha⟩

/-! ### The input between the calls -/

/-- The input after the properties `done` have been evaluated: if it is an object, its top level is a map outside the region, in
which only the fields `done` may have been changed. -/
inductive InpCur (h : Heap) (A : Addr → Bool) (done : Str → Prop) (inp : V) (p : P) : Prop
  | other : (∀ m, p ≠ .obj m) → Rep h A inp p → InpCur h A done inp p
  | obj {r : Addr} {mm : GMap V} {m mc : GMap P} : inp = .obj r → p = .obj m → A r = false → h[r]? = some (.map mm) →
      All2 (KVRel (Rep h A)) mm mc → (∀ k, ¬ done k → GMap.get k mc = GMap.get k m) → InpCur h A done inp p

theorem InpCur.inpAt {h : Heap} {A : Addr → Bool} {done W : Str → Prop} {inp : V} {p : P} (hi : InpCur h A done inp p) {lib : Lib}
    (hW : ∀ k, done k → W k) : InpAt lib (Avoids lib W) h A inp p := by
  cases hi with
  | other _ h2 => exact .whole h2
  | obj h1 h2 h3 h4 h5 h6 => exact .root h1 h2 h3 h4 h5 (fun k hk => h6 k fun hd => hk (hW k hd)) (fun _ h => h)

theorem InpCur.mono {h h' : Heap} {A : Addr → Bool} {done done' : Str → Prop} {inp : V} {p : P} (hi : InpCur h A done inp p)
    (hh : ∀ a c, h[a]? = some c → (A a = true ∨ inp = .obj a) → h'[a]? = some c) (hd : ∀ k, done k → done' k) : InpCur h' A done' inp p := by
  cases hi with
  | other h1 h2 => exact .other h1 (h2.mono (fun _ h => h) fun a ha c hc => hh a c hc (Or.inl ha))
  | obj h1 h2 h3 h4 h5 h6 =>
    exact .obj h1 h2 h3 (hh _ _ h4 (Or.inr h1)) (h5.imp fun _ _ hk => ⟨hk.1, hk.2.mono (fun _ h => h) fun a ha c hc => hh a c hc (Or.inl ha)⟩)
      (fun k hk => h6 k fun hd' => hk (hd k hd'))

/-- The value of a top level property. -/
def evalTop (lib : Lib) (ins : List Instrs) (dv : V → P) (k : Str) : T → P → Option P
  | .array p d tid (some c), inp =>
    (arrayBase (optInstrsP lib ins g!"array" id inp tid) ((jpGet lib P.view p inp).map outP) (dv (arrD d))).bind fun b =>
      (inputWith k b inp).bind fun inp' =>
        (optAll (fun i => eval lib ins dv c inp' (pathReplace (p ++ g!"[*]") (p ++ g!"[" ++ itoaNat i ++ g!"]") id)) (List.range b.1.length)).map arrayOf
  | t, inp => eval lib ins dv t inp id

/-- Top level properties covered: `ok` are the paths that may be read. -/
def TopFrag (ok : Str → Prop) (ins : List Instrs) (k : Str) : T → Prop
  | .array p _ tid (some c) => p = g!"$." ++ k ∧ '.' ∉ k ∧ '[' ∉ k ∧ c.frag ins ∧ GoodTid ins tid ∧ TidReads ok ins id tid ∧ ok p ∧
    ∀ i, c.reads ok ins (pathReplace (p ++ g!"[*]") (p ++ g!"[" ++ itoaNat i ++ g!"]") id)
  | t => t.frag ins ∧ t.reads ok ins id

/-- Default values needed. -/
def topDefaults : T → List V
  | .array _ d _ (some c) => arrD d :: c.defaults
  | t => t.defaults

/-- The effect of a top level property: only the input map may be written. -/
structure TopStep (inp : V) (s s' : St) : Prop where
  len : s.heap.length ≤ s'.heap.length
  instrs : s'.instrs = s.instrs
  cells : ∀ a c, s.heap[a]? = some c → inp ≠ .obj a → s'.heap[a]? = some c

theorem Grow.top {s s' : St} (g : Grow s s') (inp : V) : TopStep inp s s' := ⟨g.len, g.ext.instrs, fun _ _ h _ => g.cell h⟩

theorem TopStep.trans {inp : V} {s t u : St} (h1 : TopStep inp s t) (h2 : TopStep inp t u) : TopStep inp s u :=
  ⟨Nat.le_trans h1.len h2.len, h2.instrs.trans h1.instrs, fun a c h hn => h2.cells a c (h1.cells a c h hn) hn⟩

/-- A computation with the value `o`, after which the input is as described by `done`. -/
def TopOk (inp : V) (p : P) (A : Addr → Bool) (done : Str → Prop) (s : St) (x : M V) (o : Option P) : Prop :=
  TopStep inp s (x s).2 ∧ Keeps A s (x s).2 ∧
    OkRel (fun v q => Rep (x s).2.heap A v q ∧ InpCur (x s).2.heap A done inp p) (x s).1 o

theorem TopOk.of_refO {inp : V} {p : P} {A : Addr → Bool} {done : Str → Prop} {s : St} {x : M V} {o : Option P}
    (h : RefO s x (fun h v q => Rep h A v q) o) (hi : InpCur s.heap A done inp p) : TopOk inp p A done s x o := by
  obtain ⟨g, hok⟩ := h
  refine ⟨g.top inp, g.keeps A, ?_⟩
  have hi' : InpCur (x s).2.heap A done inp p := hi.mono (fun a c hc _ => g.cell hc) fun j hj => hj
  generalize (x s).1 = r at hok
  cases hok with
  | ok hv => exact .ok ⟨hv, hi'⟩
  | err => exact .err
  | panic => exact .panic

theorem TopOk.of_eq {inp : V} {p : P} {A : Addr → Bool} {done : Str → Prop} {s : St} {x y : M V} {o : Option P} (h : x s = y s)
    (hy : TopOk inp p A done s y o) : TopOk inp p A done s x o := by
  unfold TopOk at hy ⊢
  rw [h]
  exact hy

theorem TopOk.bind {α β : Type} {inp : V} {p : P} {A : Addr → Bool} {done : Str → Prop} {s : St} {x : M α} {f : α → M V}
    {Q : Heap → α → β → Prop} {r : Option β} {g : β → Option P} (hx : RefO s x Q r)
    (hf : ∀ s' a b, r = some b → Grow s s' → Q s'.heap a b → TopOk inp p A done s' (f a) (g b)) : TopOk inp p A done s (x >>= f) (r.bind g) := by
  obtain ⟨h1, h2⟩ := hx
  unfold TopOk
  rw [M.bind_apply]
  rcases hxs : x s with ⟨rx, s'⟩
  rw [hxs] at h1 h2
  simp only at h1 h2
  cases h2 with
  | ok hab =>
    obtain ⟨k1, k2, k3⟩ := hf s' _ _ rfl h1 hab
    exact ⟨(h1.top inp).trans k1, fun a ha c hc => k2 a ha c (h1.keeps A a ha c hc), k3⟩
  | err => exact ⟨h1.top inp, h1.keeps A, .err⟩
  | panic => exact ⟨h1.top inp, h1.keeps A, .panic⟩

/-- The items of an array whose entries are in the input. -/
theorem items_ref {env : Env} (hf : env.fmt = .json) {dv : V → P} {c : T} {s : St} {A : Addr → Bool} (hA : FreshIn A s) {ok : Str → Prop}
    {inp : V} {p : P} {path : Str} (hi : InpAt env.lib ok s.heap A inp p) (hcf : c.frag s.instrs)
    (hcr : ∀ i, c.reads ok s.instrs (pathReplace (path ++ g!"[*]") (path ++ g!"[" ++ itoaNat i ++ g!"]") id))
    (hd : ∀ d ∈ c.defaults, Rep s.heap A d (dv d)) {r : Option Addr × Bool} {b : List P × Bool} (hb : BaseRel A s.heap r b) :
    RefO s (do
        let l ← readBase r.1
        let out ← itemsLoop (T.run env c) inp path id l.length 0 []
        arrayResult out) (fun h v q => Rep h A v q)
      ((optAll (fun i => eval env.lib s.instrs dv c p (pathReplace (path ++ g!"[*]") (path ++ g!"[" ++ itoaNat i ++ g!"]") id))
        (List.range b.1.length)).map arrayOf) := by
  have hins : ∀ {s'}, Grow s s' → s'.instrs = s.instrs := fun g => g.ext.instrs
  have key : ((optAll (fun i => eval env.lib s.instrs dv c p (pathReplace (path ++ g!"[*]") (path ++ g!"[" ++ itoaNat i ++ g!"]") id))
        (List.range b.1.length)).map arrayOf) =
      (itemsFrom (fun i => eval env.lib s.instrs dv c p (pathReplace (path ++ g!"[*]") (path ++ g!"[" ++ itoaNat i ++ g!"]") id)) b.1.length 0 []).bind
        fun ps => some (if ps.isEmpty then nilP else .arr ps) := by
    rw [itemsFrom_eq, ← List.range_eq_range']
    simp only [List.nil_append, Option.map_eq_bind, Option.bind_assoc]
    rfl
  rw [key]
  refine RefO.bind (s := s) (r := some ()) (g := fun _ => _) (Q := fun _ (l : List V) _ => l.length = b.1.length) ?_ ?_
  · obtain ⟨r1, r2⟩ := r
    obtain ⟨_, hb⟩ := hb
    cases r1 with
    | none =>
      simp only at hb
      subst hb
      exact RefO.pure rfl
    | some a =>
      simp only at hb
      obtain ⟨_, l, ps, hl, he, hlen, _⟩ := rep_arr_iff.1 hb
      unfold readBase RefO readSlice
      simp only [hl]
      cases he
      exact ⟨Grow.refl _, .ok hlen⟩
  · rintro s3 l _ g3 hlen
    rw [hlen]
    refine RefO.bind (RefO.itemsLoop (A := A) b.1.length 0 s3 [] [] ?_ .nil) ?_
    · intro j s' g'
      have gs := g3.trans g'
      have := runs env hf dv c s' A ok inp p (pathReplace (path ++ g!"[*]") (path ++ g!"[" ++ itoaNat j ++ g!"]") id)
        (hA.grow gs) (by rw [hins gs]; exact hcf) (by rw [hins gs]; exact hcr j) (fun d hd' => (hd d hd').grow gs) (hi.grow gs)
      rw [hins gs] at this
      exact this
    · intro s4 out ps g4 hout
      unfold arrayResult
      cases hout with
      | nil => exact RefO.pure (Rep.sc _ _ _)
      | cons ha hl =>
        rw [if_neg (by simp)]
        exact RefO.of_okM (RefM.alloc_slice ((hA.grow g3).grow g4) (.cons ha hl))

/-- The transformer may store entries in the input. -/
def Stores : T → Prop
  | .array _ d tid (some _) => ¬ (d = none ∧ tid = none)
  | _ => False

/-- One top level property. -/
theorem top_runs {env : Env} (hf : env.fmt = .json) {dv : V → P} {W done : Str → Prop} {k : Str} {t : T} {s : St} {A : Addr → Bool}
    {inp : V} {p : P} (hA : FreshIn A s) (hk : ¬ done k) (hW : ∀ j, done j → W j)
    (hfr : TopFrag (Avoids env.lib fun j => W j ∧ j ≠ k) s.instrs k t) (hst : Stores t → W k)
    (hd : ∀ d ∈ topDefaults t, Rep s.heap A d (dv d)) (hi : InpCur s.heap A done inp p) :
    TopOk inp p A (fun j => done j ∨ (j = k ∧ W k)) s (t.run env inp id) (evalTop env.lib s.instrs dv k t p) := by
  have hsub : ∀ j, done j → W j ∧ j ≠ k := fun j hj => ⟨hW j hj, fun h => hk (h ▸ hj)⟩
  have hat : InpAt env.lib (Avoids env.lib fun j => W j ∧ j ≠ k) s.heap A inp p := hi.inpAt hsub
  have hi' : InpCur s.heap A (fun j => done j ∨ (j = k ∧ W k)) inp p := hi.mono (fun a c hc _ => hc) fun j hj => Or.inl hj
  match t, hfr, hst, hd with
  | .scalar p' ty d tid, hfr, hst, hd => exact .of_refO (runs env hf dv _ s A _ inp p id hA hfr.1 hfr.2 hd hat) hi'
  | .object p' d tid cs, hfr, hst, hd => exact .of_refO (runs env hf dv _ s A _ inp p id hA hfr.1 hfr.2 hd hat) hi'
  | .array p' d tid none, hfr, hst, hd => exact .of_refO (runs env hf dv _ s A _ inp p id hA hfr.1 hfr.2 hd hat) hi'
  | .array p' d tid (some c), hfr, hst, hd =>
    simp only [TopFrag] at hfr
    obtain ⟨rfl, hdot, hbr, hcf, htid, hreads, hokp, hcr⟩ := hfr
    simp only [topDefaults, List.mem_cons, forall_eq_or_imp] at hd
    obtain ⟨hd0, hdc⟩ := hd
    simp only [T.run]
    unfold runArray
    simp only [hf, id_eq]
    simp only [evalTop]
    refine TopOk.bind (baseJSON_rep hf hA hat (path := g!"$." ++ k) (mod := id) hokp htid hreads hd0) ?_
    rintro s1 ⟨base, changed⟩ b hbe g1 hb
    have hins : s1.instrs = s.instrs := g1.ext.instrs
    have hi1 : InpCur s1.heap A done inp p := hi.mono (fun a c hc _ => g1.cell hc) fun _ h => h
    have hA1 := hA.grow g1
    have hcr1 : ∀ i, c.reads (Avoids env.lib fun j => W j ∧ j ≠ k) s1.instrs
        (pathReplace (g!"$." ++ k ++ g!"[*]") (g!"$." ++ k ++ g!"[" ++ itoaNat i ++ g!"]") id) := by rw [hins]; exact hcr
    have hcf1 : c.frag s1.instrs := by rw [hins]; exact hcf
    obtain ⟨hch, hbv⟩ := hb
    simp only at hch hbv
    subst hch
    by_cases hch : b.2 = true
    · -- the entries are saved in the input
      have hWk : W k := by
        refine hst ?_
        rintro ⟨rfl, rfl⟩
        rw [rep_sc_iff.1 hd0] at hbe
        simp only [arrayBase, optInstrsP, isNilP, nilP, if_true] at hbe
        revert hbe
        cases hsame : (jpGet env.lib P.view (g!"$." ++ k) p).map outP with
        | none =>
          intro hbe
          simp only [defaultEntries, Option.some.injEq] at hbe
          subst hbe
          simp at hch
        | some raw =>
          intro hbe
          simp only [Option.some.injEq] at hbe
          split at hbe
          · subst hbe; simp [defaultEntries] at hch
          · subst hbe; simp at hch
      cases base with
      | none => rw [hbv] at hch; simp at hch
      | some a =>
        cases hi1 with
        | other hno hrep =>
          have e1 : inputWith k b p = none := by
            unfold inputWith
            rw [if_pos hch]
            cases p with
            | obj m => exact absurd rfl (hno m)
            | _ => rfl
          have e2 : (saveBase inp (g!"$." ++ k) (some a) true : M V) = M.fail := by
            unfold saveBase
            have hne : g!"$." ++ k ≠ g!"$" := by intro h; cases h
            cases inp with
            | obj r =>
              obtain ⟨_, l, ps, _, rfl, _⟩ := rep_obj_iff.1 hrep
              exact absurd rfl (hno _)
            | _ => simp [hne]
          rw [e1, Option.bind_none]
          simp only [hch, e2]
          exact ⟨(Grow.refl s1).top inp, (Grow.refl s1).keeps A, .err⟩
        | @obj r mm m mc h1 h2 h3 h4 h5 h6 =>
          subst h1 h2
          have hne : g!"$." ++ k ≠ g!"$" := by intro h; cases h
          have hrl : r < s1.heap.length := by
            rcases Nat.lt_or_ge r s1.heap.length with h | h
            · exact h
            · rw [List.getElem?_eq_none h] at h4; cases h4
          have hsv : saveBase (.obj r) (g!"$." ++ k) (some a) true s1 =
              (.ok (.obj r), { s1 with heap := s1.heap.set r (.map (GMap.set k (.arr a) mm)), wlog := r :: s1.wlog }) := by
            have e := saveChild_eq (p := g!"$") hdot hbr r (v := .arr a) (by simp [V.nil])
            rw [replace1_prefix] at e
            unfold saveBase
            simp only [if_true, if_neg hne]
            rw [M.bind_apply]
            rw [show saveInTree r (g!"$." ++ k) (.arr a) = setKey r k (.arr a) from e, setKey_apply h4]
            rfl
          have e1 : inputWith k b (.obj m) = some (.obj (GMap.set k (.arr b.1) m)) := by
            unfold inputWith
            rw [if_pos hch]
          rw [e1, Option.bind_some]
          simp only [hch]
          generalize hs2 : ({ s1 with heap := s1.heap.set r (.map (GMap.set k (.arr a) mm)), wlog := r :: s1.wlog } : St) = s2 at hsv
          have hlen : s2.heap.length = s1.heap.length := by subst hs2; simp
          have hins2 : s2.instrs = s.instrs := by subst hs2; exact hins
          have hcell : ∀ x c, s1.heap[x]? = some c → x ≠ r → s2.heap[x]? = some c := by
            intro x c hc hx
            subst hs2
            simp only
            rw [List.getElem?_set_ne (fun h => hx h.symm)]
            exact hc
          have hk12 : Keeps A s1 s2 := fun x hx c hc => hcell x c hc (by rintro rfl; rw [h3] at hx; contradiction)
          have hA2 : FreshIn A s2 := fun x hx => hA1 x (by omega)
          have hroot : s2.heap[r]? = some (.map (GMap.set k (.arr a) mm)) := by subst hs2; simp [hrl]
          have hall : All2 (KVRel (Rep s2.heap A)) (GMap.set k (.arr a) mm) (GMap.set k (.arr b.1) mc) :=
            set_rel (h5.imp fun _ _ hk => ⟨hk.1, hk12.rep hk.2⟩) (hk12.rep hbv)
          have hst : TopStep (.obj r) s1 s2 := ⟨by omega, by rw [hins2, hins], fun x c hc hx => hcell x c hc (by rintro rfl; exact hx rfl)⟩
          have hat2 : InpAt env.lib (Avoids env.lib fun j => W j ∧ j ≠ k) s2.heap A (.obj r) (.obj (GMap.set k (.arr b.1) m)) := by
            refine .root rfl rfl h3 hroot hall (W := fun j => W j ∧ j ≠ k) ?_ (fun _ h => h)
            intro j hj
            rw [GMap.get_set, GMap.get_set]
            by_cases hjk : j = k
            · simp [hjk]
            · rw [if_neg hjk, if_neg hjk]
              exact h6 j fun hdn => hj ⟨hW j hdn, hjk⟩
          have hi2 : InpCur s2.heap A (fun j => done j ∨ (j = k ∧ W k)) (.obj r) (.obj m) := by
            refine .obj rfl rfl h3 hroot hall ?_
            intro j hj
            simp only [not_or, not_and] at hj
            rw [GMap.get_set, if_neg fun h => hj.2 h hWk]
            exact h6 j hj.1
          have hitems := items_ref hf hA2 hat2 (by rw [hins2]; exact hcf) (by rw [hins2]; exact hcr)
            (fun d hd' => hk12.rep ((hdc d hd').grow g1)) (r := (some a, b.2)) (b := b) ⟨rfl, hk12.rep hbv⟩ (path := g!"$." ++ k) (dv := dv)
          rw [hins2] at hitems
          have hfin := TopOk.of_refO hitems hi2
          unfold TopOk at hfin ⊢
          rw [M.bind_apply, hsv]
          exact ⟨hst.trans hfin.1, fun x hx c hc => hfin.2.1 x hx c (hk12 x hx c hc), hfin.2.2⟩
    · simp only [Bool.not_eq_true] at hch
      have e2 : (saveBase inp (g!"$." ++ k) base b.2 : M V) = Pure.pure inp := by
        unfold saveBase
        rw [hch]
        cases base <;> rfl
      have e1 : inputWith k b p = some p := by
        unfold inputWith
        rw [hch]
        rfl
      rw [e1, Option.bind_some]
      simp only [e2]
      refine TopOk.of_eq (y := do
        let l ← readBase base
        let out ← itemsLoop (T.run env c) inp (g!"$." ++ k) id l.length 0 []
        arrayResult out) (by rw [M.bind_apply]; rfl) ?_
      have := items_ref hf hA1 (hi1.inpAt hsub) hcf1 hcr1 (fun d hd' => (hdc d hd').grow g1) (r := (base, b.2)) ⟨rfl, hbv⟩
      rw [hins] at this
      exact .of_refO this (hi1.mono (fun a c hc _ => hc) fun j hj => Or.inl hj)

/-! ### The loop over the top level properties -/

/-- What is needed of a top level property. -/
def TopChild (lib : Lib) (W : Str → Prop) (ins : List Instrs) (k : Str) (t : T) : Prop :=
  t.path = g!"$" ++ '.' :: k ∧ '.' ∉ k ∧ '[' ∉ k ∧ TopFrag (Avoids lib fun j => W j ∧ j ≠ k) ins k t ∧ (Stores t → W k)

theorem topLoop_ref {env : Env} (hf : env.fmt = .json) {dv : V → P} {W : Str → Prop} {inp : V} {p : P} {a0 : Nat} {B : Addr → Bool}
    (hne : inp ≠ .obj a0) (ha0 : B a0 = false) {ins : List Instrs} : ∀ (l : List (Str × T)), (l.map Prod.fst).Nodup →
    (∀ kt ∈ l, TopChild env.lib W ins kt.1 kt.2) → ∀ (s : St) (m : GMap V) (done : Str → Prop), s.instrs = ins →
    s.heap[a0]? = some (.map m) → GMap.Sorted m → FreshIn B s → (∀ j, done j → W j) → (∀ kt ∈ l, ¬ done kt.1) → InpCur s.heap B done inp p →
    (∀ kt ∈ l, ∀ d ∈ topDefaults kt.2, Rep s.heap B d (dv d)) →
    let x := childrenLoop g!"$" inp id a0 (l.map fun kt => (kt.2.path, kt.2.run env)) s
    Keeps B s x.2 ∧
      match x.1 with
      | .ok () => ∃ m', x.2.heap[a0]? = some (.map m') ∧ GMap.Sorted m' ∧
          (∀ kt ∈ l, ∃ q, evalTop env.lib ins dv kt.1 kt.2 p = some q ∧
            if isNilP q then GMap.get kt.1 m' = GMap.get kt.1 m
            else ∃ v, GMap.get kt.1 m' = some v ∧ Rep x.2.heap B v q) ∧
          ∀ k, k ∉ l.map Prod.fst → GMap.get k m' = GMap.get k m
      | _ => ∃ kt ∈ l, evalTop env.lib ins dv kt.1 kt.2 p = none := by
  intro l
  induction l with
  | nil =>
    intro _ _ s m done _ hm hsm _ _ _ _ _
    exact ⟨fun _ _ _ h => h, m, hm, hsm, by simp, fun _ _ => rfl⟩
  | cons kt rest ih =>
    obtain ⟨k, t⟩ := kt
    intro hnd hch s m done hins hm hsm hB hdW hdn hinp hdef
    simp only [List.map_cons, List.nodup_cons] at hnd
    obtain ⟨hpath, hdot, hbr, htf, hst⟩ := hch (k, t) (by simp)
    simp only at hpath hdot hbr htf hst
    have ha0s : a0 < s.heap.length := (List.getElem?_eq_some_iff.1 hm).1
    have hrun := top_runs hf hB (hdn (k, t) (by simp)) hdW (by rw [hins]; exact htf) hst (hdef (k, t) (by simp)) hinp
    simp only [List.map_cons, childrenLoop]
    rw [M.bind_apply]
    rcases hx : t.run env inp id s with ⟨r, s1⟩
    unfold TopOk at hrun
    rw [hx, hins] at hrun
    obtain ⟨g1, kp1, hok⟩ := hrun
    simp only at g1 kp1 hok
    have hdn' : ∀ kt ∈ rest, ¬ (done kt.1 ∨ (kt.1 = k ∧ W k)) := by
      rintro kt hkt (h | ⟨h, _⟩)
      · exact hdn kt (by simp [hkt]) h
      · exact hnd.1 (h ▸ List.mem_map_of_mem (f := Prod.fst) hkt)
    have hdW' : ∀ j, (done j ∨ (j = k ∧ W k)) → W j := by
      rintro j (h | ⟨rfl, h⟩)
      · exact hdW j h
      · exact h
    have hm1 : s1.heap[a0]? = some (.map m) := g1.cells a0 _ hm hne
    have hB1 : FreshIn B s1 := fun a ha => hB a (Nat.le_trans g1.len ha)
    generalize he : evalTop env.lib ins dv k t p = o at hok
    cases hok with
    | err => exact ⟨kp1, (k, t), by simp, he⟩
    | panic => exact ⟨kp1, (k, t), by simp, he⟩
    | @ok v q hvi =>
      obtain ⟨hv, hinp1⟩ := hvi
      simp only
      rw [M.bind_apply]
      by_cases hnil : v = V.nil
      · -- nothing is saved
        have hq : isNilP q = true := (nil_iff hv).1 hnil
        subst hnil
        have hsave : saveInTree a0 (replace1 t.path g!"$" g!"$") V.nil s1 = (.ok (), s1) := by
          unfold saveInTree
          rw [if_pos rfl]
          rfl
        rw [hsave]
        simp only
        obtain ⟨e3, e4⟩ := ih hnd.2 (fun kt h => hch kt (by simp [h])) s1 m _ (g1.instrs.trans hins) hm1 hsm hB1 hdW' hdn' hinp1
          (fun kt hkt d hd => kp1.rep (hdef kt (by simp [hkt]) d hd))
        refine ⟨fun a ha c hc => e3 a ha c (kp1 a ha c hc), ?_⟩
        revert e4
        split
        · rintro ⟨m', f1, f2, f3, f4⟩
          refine ⟨m', f1, f2, ?_, ?_⟩
          · intro kt hkt
            simp only [List.mem_cons] at hkt
            rcases hkt with rfl | hkt
            · refine ⟨q, he, ?_⟩
              rw [if_pos hq]
              exact f4 k hnd.1
            · exact f3 kt hkt
          · intro k' hk'
            simp only [List.mem_cons, not_or] at hk'
            exact f4 k' hk'.2
        · rintro ⟨kt, h1, h2⟩
          exact ⟨kt, by simp [h1], h2⟩
      · -- the value is saved
        have hq : ¬ isNilP q = true := fun h => hnil ((nil_iff hv).2 h)
        rw [hpath, saveChild_eq hdot hbr a0 hnil, setKey_apply hm1]
        simp only
        generalize hs2 : ({ s1 with heap := s1.heap.set a0 (.map (GMap.set k v m)), wlog := a0 :: s1.wlog } : St) = s2
        have hlen : s2.heap.length = s1.heap.length := by subst hs2; simp
        have hk12' : ∀ a, a ≠ a0 → ∀ c, s1.heap[a]? = some c → s2.heap[a]? = some c := by
          intro a ha c hc
          subst hs2
          simp only
          rw [List.getElem?_set_ne (fun h => ha h.symm)]
          exact hc
        have hk12 : Keeps B s1 s2 := fun a ha c hc => hk12' a (by rintro rfl; rw [ha0] at ha; contradiction) c hc
        have hinp2 : InpCur s2.heap B (fun j => done j ∨ (j = k ∧ W k)) inp p := by
          refine hinp1.mono (fun a c hc h => hk12' a ?_ c hc) (fun _ h => h)
          rintro rfl
          rcases h with h | h
          · rw [ha0] at h; contradiction
          · exact hne h
        have hm2 : s2.heap[a0]? = some (.map (GMap.set k v m)) := by
          subst hs2
          simp only
          rw [List.getElem?_set_self (by have := g1.len; omega)]
        have hins2 : s2.instrs = ins := by subst hs2; exact g1.instrs.trans hins
        obtain ⟨e3, e4⟩ := ih hnd.2 (fun kt h => hch kt (by simp [h])) s2 _ _ hins2 hm2 (GMap.sorted_set hsm)
          (fun a ha => hB1 a (by omega)) hdW' hdn' hinp2 (fun kt hkt d hd => hk12.rep (kp1.rep (hdef kt (by simp [hkt]) d hd)))
        refine ⟨fun a ha c hc => e3 a ha c (hk12 a ha c (kp1 a ha c hc)), ?_⟩
        revert e4
        split
        · rintro ⟨m', f1, f2, f3, f4⟩
          refine ⟨m', f1, f2, ?_, ?_⟩
          · intro kt hkt
            simp only [List.mem_cons] at hkt
            rcases hkt with rfl | hkt
            · refine ⟨q, he, ?_⟩
              rw [if_neg hq]
              refine ⟨v, ?_, e3.rep (hk12.rep hv)⟩
              rw [f4 k hnd.1, GMap.get_set_self]
            · obtain ⟨q', h1, h2⟩ := f3 kt hkt
              refine ⟨q', h1, ?_⟩
              have hne : kt.1 ≠ k := by
                rintro rfl
                exact hnd.1 (List.mem_map_of_mem (f := Prod.fst) hkt)
              rw [GMap.get_set_ne hne] at h2
              exact h2
          · intro k' hk'
            simp only [List.mem_cons, not_or] at hk'
            rw [f4 k' hk'.2, GMap.get_set_ne hk'.1]
        · rintro ⟨kt, h1, h2⟩
          exact ⟨kt, by simp [h1], h2⟩

/-! ### A whole call -/

theorem InpCur.region {h h' : Heap} {A B : Addr → Bool} {done : Str → Prop} {inp : V} {p : P} (hi : InpCur h A done inp p)
    (hA : ∀ a, A a = true → B a = true) (hB : ∀ a, inp = .obj a → B a = false)
    (hh : ∀ (a : Addr) c, h[a]? = some c → h'[a]? = some c) : InpCur h' B done inp p := by
  cases hi with
  | other h1 h2 => exact .other h1 (h2.mono hA fun a _ c hc => hh a c hc)
  | obj h1 h2 h3 h4 h5 h6 =>
    exact .obj h1 h2 (hB _ h1) (hh _ _ h4) (h5.imp fun _ _ hk => ⟨hk.1, hk.2.mono hA fun a _ c hc => hh a c hc⟩) h6

/-- The input after loading: the top level of an object is a map of its own. -/
theorem load_cur (p : P) (s : St) : ∃ v s', load p s = (.ok v, s') ∧ Grow s s' ∧
    InpCur s'.heap (fun a => decide (a < s'.heap.length) && decide (v ≠ .obj a)) (fun _ => False) v (canon p) ∧
    (∀ a, v = .obj a → s.heap.length ≤ a ∧ a < s'.heap.length) := by
  obtain ⟨v, s', hl, g, hr⟩ := load_ref p s
  refine ⟨v, s', hl, g, ?_⟩
  have hrep := (hr (fun _ => true) fun _ _ => rfl).below
  cases p with
  | sc x =>
    have : v = .sc x := by cases hl; rfl
    subst this
    exact ⟨.other (by intro m h; cases h) (Rep.sc _ _ _), by intro a h; cases h⟩
  | arr l =>
    have hv : ∃ a, v = .arr a := by cases hl; exact ⟨_, rfl⟩
    obtain ⟨a, rfl⟩ := hv
    refine ⟨.other (by intro m h; cases h) (hrep.mono (fun b hb => ?_) fun _ _ _ h => h), by intro a h; cases h⟩
    simp only [Bool.true_and, decide_eq_true_eq] at hb
    simp [hb]
  | obj m =>
    have hv : v = .obj (loadFields m s.heap).2.length ∧
        s'.heap = (loadFields m s.heap).2 ++ [.map (GMap.ofList (loadFields m s.heap).1)] := by cases hl; exact ⟨rfl, rfl⟩
    obtain ⟨rfl, hh⟩ := hv
    have hlen := (loadFields_len m s.heap).1
    refine ⟨?_, ?_⟩
    · have hf := loadFields_rep m s.heap (fun _ => true) (fun _ _ => rfl)
      refine .obj (mm := GMap.ofList (loadFields m s.heap).1) (mc := GMap.ofList (canonFields m)) rfl rfl (by simp) (by rw [hh]; simp) ?_ (fun _ _ => rfl)
      refine (ofList_rel hf).imp fun x y hxy => ⟨hxy.1, hxy.2.below.mono (fun b hb => ?_) fun a _ c hc => ?_⟩
      · simp only [Bool.true_and, decide_eq_true_eq] at hb
        rw [hh]
        simp only [List.length_append, List.length_cons, List.length_nil, Bool.and_eq_true, decide_eq_true_eq, ne_eq, V.obj.injEq]
        exact ⟨Nat.lt_succ_of_lt hb, fun h => Nat.lt_irrefl _ (h ▸ hb)⟩
      · rw [hh, List.getElem?_append_left (List.getElem?_eq_some_iff.1 hc).1]
        exact hc
    · intro a ha
      cases ha
      rw [hh]
      exact ⟨hlen, by simp⟩

theorem get_map_key {α : Type} (g : Str → α) (k : Str) : ∀ (l : List Str), GMap.get k (l.map fun k => (k, g k)) = if k ∈ l then some (g k) else none := by
  intro l
  induction l with
  | nil => rfl
  | cons x r ih =>
    simp only [List.map_cons, GMap.get]
    by_cases hk : k = x
    · subst hk; simp
    · simp [ih, hk]

/-- The object of the values of the properties. -/
theorem objectOf_rep {A B : Addr → Bool} {h : Heap} {keys : List Str} (hnd : keys.Nodup) {g : Str → P} {m' : GMap V} (hs : GMap.Sorted m')
    (hin : ∀ k ∈ keys, if isNilP (g k) then GMap.get k m' = none else ∃ v, GMap.get k m' = some v ∧ Rep h B v (g k))
    (hout : ∀ k, k ∉ keys → GMap.get k m' = none) {a0 : Addr} (ha : A a0 = true) (hc : h[a0]? = some (.map m')) (hBA : ∀ a, B a = true → A a = true) :
    Rep h A (if m' = [] then V.nil else .obj a0) (objectOf (keys.map fun k => (k, g k))) := by
  have hnd1 : ((keys.map fun k => (k, g k)).map Prod.fst).Nodup := by
    rw [List.map_map]
    simpa [Function.comp_def] using hnd
  have hnd2 : (((keys.map fun k => (k, g k)).filter fun kv => !isNilP kv.2).map Prod.fst).Nodup :=
    List.Nodup.sublist (List.Sublist.map _ List.filter_sublist) hnd1
  have hall : All2 (KVRel (Rep h A)) m' (GMap.ofList ((keys.map fun k => (k, g k)).filter fun kv => !isNilP kv.2)) := by
    refine all2_of_get hs (GMap.sorted_ofList _) fun k => ?_
    rw [get_ofList_nodup _ _ hnd2, get_filter (f := fun v => !isNilP v) _ _ hnd1, get_map_key]
    by_cases hk : k ∈ keys
    · rw [if_pos hk]
      have := hin k hk
      split at this
      · rename_i hn
        rw [this]
        simp only [Option.bind_some, hn]
        exact .none
      · rename_i hn
        obtain ⟨v, h1, h2⟩ := this
        simp only [Bool.not_eq_true] at hn
        rw [h1]
        simp only [Option.bind_some, hn]
        exact .some (h2.mono hBA fun _ _ _ h => h)
    · rw [if_neg hk, hout k hk]
      exact .none
  unfold objectOf
  simp only [List.isEmpty_iff]
  generalize ((keys.map fun k => (k, g k)).filter fun kv => !isNilP kv.2) = fl at hall ⊢
  by_cases hfl : fl = []
  · subst hfl
    have : m' = [] := by
      have := hall.length
      simpa [GMap.ofList] using this
    rw [if_pos this, if_pos rfl]
    exact Rep.sc _ _ _
  · have hne : GMap.ofList fl ≠ [] := fun h => hfl (ofList_eq_nil.1 h)
    have hm' : m' ≠ [] := by
      rintro rfl
      have := hall.length
      exact hne (List.length_eq_zero_iff.1 (by simpa using this.symm))
    rw [if_neg hfl, if_neg hm']
    exact rep_obj_iff.2 ⟨ha, _, _, hc, rfl, hall.length, hall.idx⟩

/-- A whole call on JSON input. -/
theorem baseTransform_top {env : Env} (hf : env.fmt = .json) {W : Str → Prop} {cs : List (Str × T)} {s : St} {dv : V → P} (hsorted : GMap.Sorted cs)
    (hch : ∀ kt ∈ cs, TopChild env.lib W s.instrs kt.1 kt.2)
    (hd : ∀ kt ∈ cs, ∀ d ∈ topDefaults kt.2, Rep s.heap (fun _ => true) d (dv d)) {keys : List Str} (hnd : keys.Nodup)
    (hkeys : ∀ k, k ∈ keys ↔ ∃ t, (k, t) ∈ cs) (raw : Str) :
    (baseTransform env (.object g!"$" none none cs) raw s).1.toOption =
      (env.lib.parseJSON raw).bind fun p =>
        ((optAll (fun k => ((GMap.get k cs).bind fun t => evalTop env.lib s.instrs dv k t (canon p)).map fun q => (k, q)) keys).map objectOf).bind
          env.lib.marshal := by
  unfold baseTransform
  rw [M.bind_apply]
  unfold readInput
  simp only [hf]
  cases hp : env.lib.parseJSON raw with
  | none => rfl
  | some p =>
    obtain ⟨v, s', hl, g, hcur, hva⟩ := load_cur p s
    simp only [hl, Option.bind_some]
    rw [M.bind_apply]
    have hid : (fun p => p : Mod) = id := rfl
    rw [hid]
    simp only [T.run]
    let s1 : St := { s' with heap := s'.heap ++ [.map []], tick := s'.tick + 1 }
    let a0 := s'.heap.length
    have hstep : runObject env g!"$" none none (T.runKids env cs) v id s' =
        ((do childrenLoop g!"$" v id a0 (env.sched.perm s'.tick _ (T.runKids env cs))
             let m ← readMap a0
             if m = [] then return V.nil else return .obj a0) : M V) s1 := by
      unfold runObject
      simp only [hf]
      rfl
    rw [hstep]
    obtain ⟨l, hperm, hl2⟩ := perm_map_inv (env.sched.isPerm s'.tick _ (T.runKids env cs)) (runKids_eq env cs)
    rw [hl2]
    have hmem : ∀ kt, kt ∈ l ↔ kt ∈ cs := fun kt => hperm.mem_iff
    let B : Addr → Bool := fun a => decide (a ≠ a0) && decide (v ≠ .obj a)
    have hcell : ∀ (a : Addr) c, s'.heap[a]? = some c → s1.heap[a]? = some c := by
      intro a c hc
      simp only [s1]
      rw [List.getElem?_append_left (List.getElem?_eq_some_iff.1 hc).1]
      exact hc
    have hcur1 : InpCur s1.heap B (fun _ => False) v (canon p) := by
      refine hcur.region (fun a ha => ?_) (fun a ha => by simp [B, ha]) hcell
      simp only [Bool.and_eq_true, decide_eq_true_eq] at ha
      simp only [B, Bool.and_eq_true, decide_eq_true_eq]
      exact ⟨Nat.ne_of_lt ha.1, ha.2⟩
    have hne : v ≠ .obj a0 := fun h => by have := (hva a0 h).2; simp [a0] at this
    have hloop := topLoop_ref hf (dv := dv) (W := W) hne (B := B) (by simp [B]) (ins := s.instrs) l
      ((hperm.map Prod.fst).nodup_iff.2 (GMap.nodup_keys hsorted)) (fun kt hkt => hch kt ((hmem kt).1 hkt)) s1 [] (fun _ => False)
      g.ext.instrs (by simp [s1, a0]) trivial (by
        intro a ha
        have hlen : s1.heap.length = s'.heap.length + 1 := by simp [s1]
        simp only [B, Bool.and_eq_true, decide_eq_true_eq]
        refine ⟨Nat.ne_of_gt (show s'.heap.length < a by omega), fun h => ?_⟩
        exact absurd (hva a h).2 (Nat.not_lt.2 (show s'.heap.length ≤ a by omega))) (fun _ h => h.elim) (fun _ _ h => h) hcur1 (by
        intro kt hkt d hd'
        refine (hd kt ((hmem kt).1 hkt) d hd').below.mono (fun a ha => ?_) fun a _ c hc => hcell a c (g.cell hc)
        simp only [Bool.true_and, decide_eq_true_eq] at ha
        have hlen := g.len
        simp only [B, Bool.and_eq_true, decide_eq_true_eq]
        exact ⟨Nat.ne_of_lt (Nat.lt_of_lt_of_le ha hlen), fun h => absurd ha (Nat.not_lt.2 (hva a h).1)⟩)
    rw [M.bind_apply]
    rcases hx : childrenLoop g!"$" v id a0 (l.map fun kt => (kt.2.path, kt.2.run env)) s1 with ⟨r, s2⟩
    rw [hx] at hloop
    rw [hx]
    obtain ⟨_, e4⟩ := hloop
    simp only at e4
    have hfail : (∃ kt ∈ l, evalTop env.lib s.instrs dv kt.1 kt.2 (canon p) = none) →
        optAll (fun k => ((GMap.get k cs).bind fun t => evalTop env.lib s.instrs dv k t (canon p)).map fun q => (k, q)) keys = none := by
      rintro ⟨⟨k, t⟩, h1, h2⟩
      have h1' := (hmem _).1 h1
      refine optAll_none ⟨k, (hkeys k).2 ⟨t, h1'⟩, ?_⟩
      rw [GMap.get_of_mem hsorted h1']
      simp only [Option.bind_some, h2, Option.map_none]
    cases r with
    | err => rw [hfail e4]; rfl
    | panic => rw [hfail e4]; rfl
    | ok u =>
      obtain ⟨m', f1, f2, f3, f4⟩ := e4
      simp only
      rw [M.bind_apply]
      simp only [readMap, f1]
      let gv : Str → P := fun k => ((GMap.get k cs).bind fun t => evalTop env.lib s.instrs dv k t (canon p)).getD nilP
      have hg : ∀ k t, (k, t) ∈ cs → ∃ q, evalTop env.lib s.instrs dv k t (canon p) = some q ∧ gv k = q ∧
          if isNilP q then GMap.get k m' = none else ∃ v, GMap.get k m' = some v ∧ Rep s2.heap B v q := by
        intro k t hkt
        obtain ⟨q, h1, h2⟩ := f3 (k, t) ((hmem _).2 hkt)
        simp only at h1 h2
        refine ⟨q, h1, ?_, h2⟩
        simp only [gv, GMap.get_of_mem hsorted hkt, Option.bind_some, h1, Option.getD_some]
      rw [optAll_some (g := fun k => (k, gv k)) (fun k hk => by
        obtain ⟨t, ht⟩ := (hkeys k).1 hk
        obtain ⟨q, h1, h2, _⟩ := hg k t ht
        rw [GMap.get_of_mem hsorted ht]
        simp only [Option.bind_some, h1, Option.map_some, h2])]
      have hrep := objectOf_rep (A := fun _ => true) (B := B) (h := s2.heap) hnd (g := gv) f2 (fun k hk => by
          obtain ⟨t, ht⟩ := (hkeys k).1 hk
          obtain ⟨q, h1, h2, h3⟩ := hg k t ht
          rw [h2]
          exact h3) (fun k hk => by
          rw [f4 k fun h => hk ((hkeys k).2 ?_)]
          · rfl
          · obtain ⟨⟨k', t⟩, h1, h2⟩ := List.mem_map.1 h
            exact ⟨t, by rw [← h2]; exact (hmem _).1 h1⟩) (a0 := a0) rfl f1 (fun _ _ => rfl)
      simp only [Option.map_some, Option.bind_some]
      generalize objectOf (keys.map fun k => (k, gv k)) = q at hrep
      by_cases hm : m' = []
      · rw [if_pos hm] at hrep ⊢
        simp only [M.pure_apply]
        rw [M.bind_apply]
        simp only [getHeap, hrep.toP]
        cases env.lib.marshal q <;> rfl
      · rw [if_neg hm] at hrep ⊢
        simp only [M.pure_apply]
        rw [M.bind_apply]
        simp only [getHeap, hrep.toP]
        cases env.lib.marshal q <;> rfl

end JT
