import Verif.Proofs.Frame
/- The results of the engine have the shape of the transformer tree. -/
namespace JT.Frame

variable {α β : Type} {R : Addr → Prop}

/-- `R'` has in addition to `R` only cells from `n` on. -/
def Grows (R R' : Addr → Prop) (n : Nat) : Prop := (∀ a, R a → R' a) ∧ ∀ a, R' a → R a ∨ n ≤ a

theorem Grows.refl (R : Addr → Prop) (n : Nat) : Grows R R n := ⟨fun _ h => h, fun _ h => .inl h⟩
theorem Grows.trans {R R1 R2 : Addr → Prop} {n n1 : Nat} (h1 : Grows R R1 n) (h2 : Grows R1 R2 n1) (h : n ≤ n1) : Grows R R2 n :=
  ⟨fun a ha => h2.1 a (h1.1 a ha), fun a ha => (h2.2 a ha).elim (h1.2 a) fun h3 => .inr (Nat.le_trans h h3)⟩

theorem Grows.vok {R R1 : Addr → Prop} {n n1 : Nat} (h : Grows R R1 n) (hn : n ≤ n1) {v : V} (hv : vok R n v) : Frame.vok R1 n1 v := by
  have key : ∀ a : Nat, a < n ∧ ¬ R a → a < n1 ∧ ¬ R1 a := fun a ha =>
    ⟨Nat.lt_of_lt_of_le ha.1 hn, fun h1 => (h.2 a h1).elim ha.2 fun h2 => Nat.lt_irrefl _ (Nat.lt_of_lt_of_le ha.1 h2)⟩
  cases v with
  | sc _ => trivial
  | arr a => exact key a hv
  | obj a => exact key a hv

/-- In `s`, `x` leaves the cells of `R` alone, builds its result in new cells `R'`, and the result satisfies `Q`. -/
def Bd (R : Addr → Prop) (s : St) (x : M α) (Q : (Addr → Prop) → St → α → Prop) : Prop :=
  ∃ R', Grows R R' s.heap.length ∧ Inv R' (x s).2 ∧ Ext R s (x s).2 ∧ ∀ a, (x s).1 = .ok a → Q R' (x s).2 a

theorem Bd.of_fr {s : St} {x : M α} {Q : Nat → α → Prop} (hf : Fr R s.heap.length x Q) (hs : Inv R s) :
    Bd R s x (fun R' s' a => R' = R ∧ Q s'.heap.length a) := by
  obtain ⟨h1, h2, h3⟩ := hf s (Nat.le_refl _) hs
  exact ⟨R, Grows.refl _ _, h1, h2, fun a ha => ⟨rfl, h3 a ha⟩⟩

theorem Bd.bind {s : St} {x : M α} {f : α → M β} {Q : (Addr → Prop) → St → α → Prop} {Q' : (Addr → Prop) → St → β → Prop} (hx : Bd R s x Q)
    (hf : ∀ R1 s1 a, Grows R R1 s.heap.length → Inv R1 s1 → Ext R s s1 → Q R1 s1 a → Bd R1 s1 (f a) Q') : Bd R s (x >>= f) Q' := by
  obtain ⟨R1, h1, h2, h3, h4⟩ := hx
  unfold Bd
  rw [M.bind_apply]
  rcases hxs : x s with ⟨r, s'⟩
  rw [hxs] at h2 h3 h4
  cases r with
  | ok a =>
    obtain ⟨R2, g1, g2, g3, g4⟩ := hf R1 s' a h1 h2 h3 (h4 a rfl)
    exact ⟨R2, h1.trans g1 h3.len, g2, h3.trans (g3.sub h1.1), g4⟩
  | err => exact ⟨R1, h1, h2, h3, by simp⟩
  | panic => exact ⟨R1, h1, h2, h3, by simp⟩

theorem Bd.pure {s : St} {a : α} {Q : (Addr → Prop) → St → α → Prop} (hs : Inv R s) (h : Q R s a) : Bd R s (Pure.pure a : M α) Q := by
  refine ⟨R, Grows.refl _ _, hs, Ext.refl _, ?_⟩
  intro b hb
  rw [M.pure_apply] at hb
  simp only [Res.ok.injEq] at hb
  subst hb
  exact h

theorem Bd.fail {s : St} {Q : (Addr → Prop) → St → α → Prop} (hs : Inv R s) : Bd R s (M.fail : M α) Q :=
  ⟨R, Grows.refl _ _, hs, Ext.refl _, by simp [M.fail]⟩

/-- Values built by a transformer: arrays and objects in cells of `B`; the elements of arrays and objects are not nil and are
themselves built by the children (elements of an array on XML input may be others). -/
inductive Shp (fmt : Format) (h : Heap) (B : Addr → Prop) : T → V → Prop
  | scalar {p ty : Str} {d : V} {tid : Option Nat} {v : V} : Shp fmt h B (.scalar p ty d tid) v
  | array {p : Str} {d : Option Addr} {tid : Option Nat} {c : T} {a : Addr} {l : List V} (pass : V → Prop) : B a → h[a]? = some (.slice l) → l ≠ [] →
      (∀ v ∈ l, v ≠ V.nil) → (∀ v ∈ l, pass v → fmt = .xml ∧ (d ≠ none ∨ ∃ s, v = .sc s)) → (∀ v ∈ l, ¬ pass v → Shp fmt h B c v) →
      Shp fmt h B (.array p d tid (some c)) (.arr a)
  | object {p : Str} {d : Option Addr} {tid : Option Nat} {cs : List (Str × T)} {a : Addr} {m : GMap V} (f : Str × V → T) : B a → h[a]? = some (.map m) →
      m ≠ [] → GMap.Sorted m → (∀ kv ∈ m, kv.2 ≠ V.nil) → (∀ kv ∈ m, (kv.1, f kv) ∈ cs) → (∀ kv ∈ m, Shp fmt h B (f kv) kv.2) →
      Shp fmt h B (.object p d tid cs) (.obj a)

theorem Shp.mono {fmt : Format} {h h' : Heap} {B B' : Addr → Prop} (hb : ∀ a, B a → B' a) (hh : ∀ a, B a → h'[a]? = h[a]?) {t : T} {v : V}
    (hs : Shp fmt h B t v) : Shp fmt h' B' t v := by
  induction hs with
  | scalar => exact .scalar
  | array pass h1 h2 h3 h4 h5 _ ih => exact .array pass (hb _ h1) ((hh _ h1).trans h2) h3 h4 h5 ih
  | object f h1 h2 h3 h4 h5 h6 _ ih => exact .object f (hb _ h1) ((hh _ h1).trans h2) h3 h4 h5 h6 ih

mutual
/-- Transformers that build their results in new memory: the defaults satisfy `G`; objects have no default, and for JSON no transform. -/
def fit (fmt : Format) (G : V → Prop) : T → Prop
  | .scalar _ _ d _ => G d
  | .array _ _ _ none => False
  | .array _ d _ (some c) => (∀ a, d = some a → G (.arr a)) ∧ fit fmt G c
  | .object p d tid cs => d = none ∧ (fmt = .json → tid = none) ∧ fitKids fmt G p cs
def fitKids (fmt : Format) (G : V → Prop) : Str → List (Str × T) → Prop
  | _, [] => True
  | p, (k, t) :: r => (t.path = p ++ '.' :: k ∧ '.' ∉ k ∧ '[' ∉ k) ∧ fit fmt G t ∧ fitKids fmt G p r
end

mutual
theorem fit_mono {fmt : Format} {G G' : V → Prop} (h : ∀ v, G v → G' v) : ∀ (t : T), fit fmt G t → fit fmt G' t
  | .scalar _ _ d _, hf => by simp only [fit] at hf ⊢; exact h _ hf
  | .array _ _ _ none, hf => by simp only [fit] at hf
  | .array _ d _ (some c), hf => by simp only [fit] at hf ⊢; exact ⟨fun a ha => h _ (hf.1 a ha), fit_mono h c hf.2⟩
  | .object p d tid cs, hf => by simp only [fit] at hf ⊢; exact ⟨hf.1, hf.2.1, fitKids_mono h p cs hf.2.2⟩
theorem fitKids_mono {fmt : Format} {G G' : V → Prop} (h : ∀ v, G v → G' v) : ∀ (p : Str) (cs : List (Str × T)), fitKids fmt G p cs → fitKids fmt G' p cs
  | _, [], _ => by simp only [fitKids]
  | p, (k, t) :: r, hf => by simp only [fitKids] at hf ⊢; exact ⟨hf.1, fit_mono h t hf.2.1, fitKids_mono h p r hf.2.2⟩
end

theorem fitKids_mem {fmt : Format} {G : V → Prop} {p : Str} : ∀ {cs : List (Str × T)}, fitKids fmt G p cs → ∀ kt ∈ cs,
    kt.2.path = p ++ '.' :: kt.1 ∧ '.' ∉ kt.1 ∧ '[' ∉ kt.1 ∧ fit fmt G kt.2
  | [], _, kt, hkt => by simp at hkt
  | (k, t) :: r, hf, kt, hkt => by
    simp only [fitKids] at hf
    rcases List.mem_cons.1 hkt with rfl | hkt
    · exact ⟨hf.1.1, hf.1.2.1, hf.1.2.2, hf.2.1⟩
    · exact fitKids_mem hf.2.2 kt hkt

/-- The result of a transformer. -/
def Post (fmt : Format) (t : T) (R R' : Addr → Prop) (s' : St) (v : V) : Prop :=
  valid s'.heap.length v ∧ (v = V.nil ∨ Shp fmt s'.heap (fun a => R' a ∧ ¬ R a) t v)

/-- `f` builds values of the shape of `t`. -/
def Builds (fmt : Format) (t : T) (f : TF) : Prop := ∀ R s inp mod, Inv R s → fit fmt (vok R s.heap.length) t → vok R s.heap.length inp →
  Bd R s (f inp mod) (Post fmt t R)

theorem builds_scalar {env : Env} {p ty : Str} {d : V} {tid : Option Nat} : Builds env.fmt (.scalar p ty d tid) (runScalar env p ty d tid) := by
  intro R s inp mod hs hf hi
  simp only [fit] at hf
  obtain ⟨R', h1, h2, h3, h4⟩ := Bd.of_fr (Fr.runScalar (env := env) (path := p) (ty := ty) (tid := tid) (mod := mod) hf hi) hs
  exact ⟨R', h1, h2, h3, fun a ha => ⟨(h4 a ha).2.valid, .inr .scalar⟩⟩

/-! ### Arrays -/

/-- An element of a new array. -/
def Ent (fmt : Format) (d : Option Addr) (c : T) (R0 R : Addr → Prop) (s : St) (v : V) : Prop :=
  valid s.heap.length v ∧ v ≠ V.nil ∧ ((fmt = .xml ∧ (d ≠ none ∨ ∃ x, v = .sc x)) ∨ Shp fmt s.heap (fun a => R a ∧ ¬ R0 a) c v)

theorem Ent.mono {fmt : Format} {d : Option Addr} {c : T} {R0 R R1 : Addr → Prop} {s s1 : St} {v : V} (h : Ent fmt d c R0 R s v) (hg : ∀ a, R a → R1 a) (he : Ext R s s1) :
    Ent fmt d c R0 R1 s1 v :=
  ⟨valid_mono he.len h.1, h.2.1, h.2.2.imp_right fun h3 => h3.mono (fun a ha => ⟨hg a ha.1, ha.2⟩) (fun a ha => he.keep a ha.1)⟩

theorem ent_push {fmt : Format} {d : Option Addr} {c : T} {R0 R : Addr → Prop} {s : St} {acc : List V} {v : V} (ha : ∀ u ∈ acc, Ent fmt d c R0 R s u)
    (hv : v ≠ V.nil → Ent fmt d c R0 R s v) : ∀ u ∈ (if v = V.nil then acc else acc ++ [v]), Ent fmt d c R0 R s u := by
  split
  · exact ha
  · intro u hu
    rw [List.mem_append, List.mem_singleton] at hu
    rcases hu with hu | rfl
    · exact ha u hu
    · exact hv ‹_›

theorem post_ent {fmt : Format} {d : Option Addr} {c : T} {R0 R R1 : Addr → Prop} {s1 : St} {v : V} (h0 : ∀ a, R0 a → R a) (h : Post fmt c R R1 s1 v) (hv : v ≠ V.nil) :
    Ent fmt d c R0 R1 s1 v := by
  refine ⟨h.1, hv, .inr ?_⟩
  rcases h.2 with h | h
  · exact absurd h hv
  · exact h.mono (fun a ha => ⟨ha.1, fun h1 => ha.2 (h0 a h1)⟩) (fun _ _ => rfl)

theorem bd_itemsLoop {fmt : Format} {d : Option Addr} {c : T} {child : TF} (hc : Builds fmt c child) {inp : V} {path : Str} {mod : Mod} {R0 : Addr → Prop} :
    ∀ (n i : Nat) (acc : List V) (R : Addr → Prop) (s : St), Inv R s → (∀ a, R0 a → R a) → fit fmt (vok R s.heap.length) c → vok R s.heap.length inp →
      (∀ u ∈ acc, Ent fmt d c R0 R s u) → Bd R s (itemsLoop child inp path mod n i acc) (fun R' s' l => (∀ a, R0 a → R' a) ∧ ∀ u ∈ l, Ent fmt d c R0 R' s' u) := by
  intro n
  induction n with
  | zero => intro i acc R s hs h0 hf hi ha; exact Bd.pure hs ⟨h0, ha⟩
  | succ n ih =>
    intro i acc R s hs h0 hf hi ha
    refine Bd.bind (hc R s inp _ hs hf hi) fun R1 s1 v hg h1 he hp => ?_
    exact ih _ _ R1 s1 h1 (fun a h => hg.1 a (h0 a h)) (fit_mono (fun v => hg.vok he.len) c hf) (hg.vok he.len hi)
      (ent_push (fun u hu => (ha u hu).mono hg.1 he) fun hv => post_ent h0 hp hv)

theorem bd_itemsLoopXML {fmt : Format} (hx : fmt = .xml) {d : Option Addr} {c : T} {child : TF} (hc : Builds fmt c child) {path : Str} {mod : Mod} {R0 : Addr → Prop} :
    ∀ (l : List V) (i : Nat) (acc : List V) (R : Addr → Prop) (s : St), Inv R s → (∀ a, R0 a → R a) → fit fmt (vok R s.heap.length) c →
      (∀ u ∈ l, vok R s.heap.length u) → (d = none → ∀ u ∈ l, ∃ x, u = .sc x) →
      (∀ u ∈ acc, Ent fmt d c R0 R s u) → Bd R s (itemsLoopXML child path mod l i acc) (fun R' s' l => (∀ a, R0 a → R' a) ∧ ∀ u ∈ l, Ent fmt d c R0 R' s' u) := by
  intro l
  induction l with
  | nil => intro i acc R s hs h0 hf hl hd ha; exact Bd.pure hs ⟨h0, ha⟩
  | cons x xs ih =>
    intro i acc R s hs h0 hf hl hd ha
    have step : Bd R s (itemXML child (pathReplace (path ++ g!"[*]") (path ++ g!"[" ++ itoaNat i ++ g!"]") mod) x) (fun R1 s1 v => v ≠ V.nil → Ent fmt d c R0 R1 s1 v) := by
      unfold itemXML
      split
      · obtain ⟨R', g1, g2, g3, g4⟩ := hc R s _ (pathReplace (path ++ g!"[*]") (path ++ g!"[" ++ itoaNat i ++ g!"]") mod) hs hf (hl _ List.mem_cons_self)
        exact ⟨R', g1, g2, g3, fun a ha hv => post_ent h0 (g4 a ha) hv⟩
      · refine Bd.pure hs fun hv => ⟨(hl x (by simp)).valid, hv, .inl ⟨hx, ?_⟩⟩
        cases d with
        | none => exact .inr (hd rfl x (by simp))
        | some a => exact .inl (by simp)
    refine Bd.bind step fun R1 s1 v hg h1 he hp => ?_
    exact ih _ _ R1 s1 h1 (fun a h => hg.1 a (h0 a h)) (fit_mono (fun v => hg.vok he.len) c hf) (fun u hu => hg.vok he.len (hl u (List.mem_cons_of_mem _ hu)))
      (fun h u hu => hd h u (List.mem_cons_of_mem _ hu)) (ent_push (fun u hu => (ha u hu).mono hg.1 he) hp)

/-- A cell allocated for the result. -/
theorem bd_alloc {R : Addr → Prop} {s : St} (hs : Inv R s) {c : Cell} (hc : cellAll (valid s.heap.length) c) :
    Bd R s (alloc c) (fun R' s' a => R' = (fun b => R b ∨ b = a) ∧ a = s.heap.length ∧ s'.heap[a]? = some c ∧ s'.heap.length = s.heap.length + 1) := by
  have hl : (alloc c s).2.heap.length = s.heap.length + 1 := by simp [alloc]
  have hnew : (alloc c s).2.heap[s.heap.length]? = some c := by simp [alloc]
  refine ⟨fun b => R b ∨ b = s.heap.length, ⟨fun a h => .inl h, fun a h => h.imp_right fun e => Nat.le_of_eq e.symm⟩, ⟨?_, ?_, ?_⟩,
    ⟨by omega, fun a ha => alloc_keep (hs.below a ha), rfl⟩, ?_⟩
  · rintro a (ha | rfl)
    · rw [hl]; exact Nat.lt_succ_of_lt (hs.below a ha)
    · rw [hl]; exact Nat.lt_succ_self _
  · intro a c' hc'
    rw [hl]
    by_cases ha : a = s.heap.length
    · subst ha
      rw [hnew, Option.some.injEq] at hc'
      subst hc'
      exact cellAll_mono (fun v => valid_mono (by omega)) hc
    · have hlt : a < s.heap.length := by
        have := (List.getElem?_eq_some_iff.1 hc').1
        rw [hl] at this; omega
      rw [alloc_keep hlt] at hc'
      exact cellAll_mono (fun v => valid_mono (by omega)) (hs.valid a c' hc')
  · intro a c' hna hc'
    rw [hl]
    have hlt : a < s.heap.length := by
      have := (List.getElem?_eq_some_iff.1 hc').1
      rw [hl] at this
      have : a ≠ s.heap.length := fun e => hna (.inr e)
      omega
    rw [alloc_keep hlt] at hc'
    have hg : Grows R (fun b => R b ∨ b = s.heap.length) s.heap.length := ⟨fun a h => .inl h, fun a h => h.imp_right fun e => Nat.le_of_eq e.symm⟩
    exact cellAll_mono (fun v => hg.vok (by omega)) (hs.cell a c' (fun h => hna (.inl h)) hc')
  · intro a ha
    simp only [alloc, Res.ok.injEq] at ha
    subst ha
    exact ⟨rfl, rfl, hnew, hl⟩

theorem bd_arrayResult {fmt : Format} {p : Str} {d : Option Addr} {tid : Option Nat} {c : T} {R0 R : Addr → Prop} {s : St} (hs : Inv R s) (h0 : ∀ a, R0 a → R a)
    {l : List V} (hl : ∀ u ∈ l, Ent fmt d c R0 R s u) : Bd R s (arrayResult l) (Post fmt (.array p d tid (some c)) R0) := by
  unfold arrayResult
  split
  · exact Bd.pure hs ⟨trivial, .inl rfl⟩
  · rename_i hne
    refine Bd.bind (bd_alloc hs (c := .slice l) (fun v hv => (hl v hv).1)) fun R1 s1 a hg h1 he hq => Bd.pure h1 ?_
    obtain ⟨rfl, rfl, hq, hlen⟩ := hq
    have hent := fun u hu => (hl u hu).mono (R1 := fun b => R b ∨ b = s.heap.length) hg.1 he
    refine ⟨by simp only [valid]; rw [hlen]; exact Nat.lt_succ_self _, .inr ?_⟩
    refine .array (fun v => fmt = .xml ∧ (d ≠ none ∨ ∃ x, v = .sc x)) ⟨.inr rfl, fun h => Nat.lt_irrefl _ (hs.below _ (h0 _ h))⟩ hq hne
      (fun v hv => (hent v hv).2.1) (fun _ _ h => h) (fun v hv hnp => ?_)
    exact (hent v hv).2.2.resolve_left hnp

/-! ### Objects -/

theorem sorted_nil : GMap.Sorted ([] : GMap V) := by simp [GMap.Sorted]

/-- The fields of an object under construction in cell `nv`. -/
def Fields (fmt : Format) (cs : List (Str × T)) (nv : Addr) (R0 R : Addr → Prop) (s : St) (m : GMap V) : Prop :=
  GMap.Sorted m ∧ ∀ kv ∈ m, kv.2 ≠ V.nil ∧ ∃ t, (kv.1, t) ∈ cs ∧ Shp fmt s.heap (fun a => R a ∧ ¬ R0 a ∧ a ≠ nv) t kv.2

theorem Fields.mono {fmt : Format} {cs : List (Str × T)} {nv : Addr} {R0 R R1 : Addr → Prop} {s s1 : St} {m : GMap V} (h : Fields fmt cs nv R0 R s m)
    (hg : ∀ a, R a → R1 a) (hk : ∀ a, R a → a ≠ nv → s1.heap[a]? = s.heap[a]?) : Fields fmt cs nv R0 R1 s1 m :=
  ⟨h.1, fun kv hkv => ⟨(h.2 kv hkv).1, by
    obtain ⟨t, h1, h2⟩ := (h.2 kv hkv).2
    exact ⟨t, h1, h2.mono (fun a ha => ⟨hg a ha.1, ha.2⟩) fun a ha => hk a ha.1 ha.2.2⟩⟩⟩

theorem kids_bd {fmt : Format} {cs : List (Str × T)} {nv : Addr} {R0 : Addr → Prop} {p : Str} {inp : V} {mod : Mod} (hnv : ¬ R0 nv) : ∀ (kids : List (Str × TF)) (R : Addr → Prop) (s : St) (m : GMap V),
    (∀ k ∈ kids, ∃ n t, (n, t) ∈ cs ∧ k.1 = p ++ '.' :: n ∧ '.' ∉ n ∧ '[' ∉ n ∧ Builds fmt t k.2) → Inv R s → (∀ a, R0 a → R a) → R nv →
    s.heap[nv]? = some (.map m) → Fields fmt cs nv R0 R s m → (∀ kt ∈ cs, fit fmt (vok R s.heap.length) kt.2) → vok R s.heap.length inp →
    ∃ R' m', Grows R R' s.heap.length ∧ Inv R' (childrenLoop p inp mod nv kids s).2 ∧ Ext R0 s (childrenLoop p inp mod nv kids s).2 ∧
      (childrenLoop p inp mod nv kids s).2.heap[nv]? = some (.map m') ∧ Fields fmt cs nv R0 R' (childrenLoop p inp mod nv kids s).2 m' := by
  intro kids
  induction kids with
  | nil => intro R s m _ hs _ _ hm hf _ _; exact ⟨R, m, Grows.refl _ _, hs, Ext.refl _, hm, hf⟩
  | cons k rest ih =>
    intro R s m hk hs h0 hr hm hf hd hi
    obtain ⟨cp, child⟩ := k
    obtain ⟨n, t, hmem, hcp, hdot, hbr, hb⟩ := hk (cp, child) (by simp)
    simp only at hcp hb
    subst hcp
    obtain ⟨R1, hg, h1, he, hp⟩ := hb R s inp mod hs (hd _ hmem) hi
    have hm1 : (child inp mod s).2.heap[nv]? = some (.map m) := (he.keep nv hr).trans hm
    have hf1 : Fields fmt cs nv R0 R1 (child inp mod s).2 m := hf.mono hg.1 fun a ha _ => he.keep a ha
    have e1 : childrenLoop p inp mod nv ((p ++ '.' :: n, child) :: rest) s =
      (child inp mod >>= fun v => saveInTree nv (replace1 (p ++ '.' :: n) p g!"$") v >>= fun _ => childrenLoop p inp mod nv rest) s := rfl
    rw [e1, M.bind_apply]
    rcases hxs : child inp mod s with ⟨r, s1⟩
    rw [hxs] at h1 he hp hm1 hf1
    simp only at h1 he hp hm1 hf1
    cases r with
    | err => exact ⟨R1, m, hg, h1, he.sub h0, hm1, hf1⟩
    | panic => exact ⟨R1, m, hg, h1, he.sub h0, hm1, hf1⟩
    | ok v =>
      simp only
      have hp := hp v rfl
      have hd1 : ∀ kt ∈ cs, fit fmt (vok R1 s1.heap.length) kt.2 := fun kt h => fit_mono (fun v => hg.vok he.len) _ (hd kt h)
      have hi1 := hg.vok he.len hi
      have hrest : ∀ k ∈ rest, ∃ n t, (n, t) ∈ cs ∧ k.1 = p ++ '.' :: n ∧ '.' ∉ n ∧ '[' ∉ n ∧ Builds fmt t k.2 := fun k h => hk k (by simp [h])
      by_cases hv : v = V.nil
      · have e2 : saveInTree nv (replace1 (p ++ '.' :: n) p g!"$") v = Pure.pure () := by unfold saveInTree; rw [if_pos hv]
        rw [e2, M.bind_ok (M.pure_apply () s1)]
        obtain ⟨R2, m2, g1, g2, g3, g4, g5⟩ := ih R1 s1 m hrest h1 (fun a h => hg.1 a (h0 a h)) (hg.1 _ hr) hm1 hf1 hd1 hi1
        exact ⟨R2, m2, hg.trans g1 he.len, g2, (he.sub h0).trans g3, g4, g5⟩
      · rw [saveChild_eq hdot hbr nv hv]
        have e2 : setKey nv n v s1 = writeCell nv (.map (GMap.set n v m)) s1 := by
          unfold setKey
          rw [M.bind_ok (show readMap nv s1 = (.ok m, s1) by unfold readMap; rw [hm1])]
        have hlt : nv < s1.heap.length := (List.getElem?_eq_some_iff.1 hm1).1
        have e3 : setKey nv n v s1 = (.ok (), { s1 with heap := s1.heap.set nv (.map (GMap.set n v m)), wlog := nv :: s1.wlog }) := e2
        rw [M.bind_ok e3]
        have hkeep : ∀ a : Nat, a ≠ nv → (s1.heap.set nv (.map (GMap.set n v m)))[a]? = s1.heap[a]? := fun a ha => List.getElem?_set_ne (Ne.symm ha)
        have hset : (s1.heap.set nv (.map (GMap.set n v m)))[nv]? = some (.map (GMap.set n v m)) := by
          rw [List.getElem?_set_self hlt]
        have hinv : Inv R1 { s1 with heap := s1.heap.set nv (.map (GMap.set n v m)), wlog := nv :: s1.wlog } := by
          refine ⟨fun a ha => by simpa using h1.below a ha, ?_, ?_⟩
          · intro a c hc
            simp only [List.length_set] at hc ⊢
            by_cases ha : a = nv
            · subst ha
              rw [hset, Option.some.injEq] at hc
              subst hc
              intro kv hkv
              rcases GMap.mem_set hkv with rfl | h
              · exact hp.1
              · exact h1.valid _ _ hm1 kv h
            · rw [hkeep a ha] at hc
              exact h1.valid a c hc
          · intro a c hna hc
            simp only [List.length_set] at hc ⊢
            have ha : a ≠ nv := by rintro rfl; exact hna (hg.1 _ hr)
            rw [hkeep a ha] at hc
            exact h1.cell a c hna hc
        have hfs : Fields fmt cs nv R0 R1 { s1 with heap := s1.heap.set nv (.map (GMap.set n v m)), wlog := nv :: s1.wlog } (GMap.set n v m) := by
          have hf2 := hf1.mono (s1 := { s1 with heap := s1.heap.set nv (.map (GMap.set n v m)), wlog := nv :: s1.wlog }) (fun _ h => h) fun a _ ha => hkeep a ha
          refine ⟨GMap.sorted_set hf1.1, fun kv hkv => ?_⟩
          rcases GMap.mem_set hkv with rfl | h
          · refine ⟨hv, t, hmem, ?_⟩
            have := hp.2.resolve_left hv
            exact this.mono (fun a ha => ⟨ha.1, fun h => ha.2 (h0 a h), by rintro rfl; exact ha.2 hr⟩) fun a ha => hkeep a (by rintro rfl; exact ha.2 hr)
          · exact hf2.2 kv h
        obtain ⟨R2, m2, g1, g2, g3, g4, g5⟩ := ih R1 _ (GMap.set n v m) hrest hinv (fun a h => hg.1 a (h0 a h)) (hg.1 _ hr) hset hfs
          (by simpa using hd1) (by simpa using hi1)
        have hext : Ext R0 s1 { s1 with heap := s1.heap.set nv (.map (GMap.set n v m)), wlog := nv :: s1.wlog } :=
          ⟨by simp, fun a ha => hkeep a (by rintro rfl; exact hnv ha), rfl⟩
        exact ⟨R2, m2, hg.trans g1 (by simpa using he.len), g2, (he.sub h0).trans (hext.trans g3), g4, g5⟩

/-- Like `Bd`, with new cells counted from `n`. -/
def Bdn (R : Addr → Prop) (n : Nat) (s : St) (x : M α) (Q : (Addr → Prop) → St → α → Prop) : Prop :=
  ∃ R', Grows R R' n ∧ Inv R' (x s).2 ∧ Ext R s (x s).2 ∧ ∀ a, (x s).1 = .ok a → Q R' (x s).2 a

theorem Bd.bindn {s : St} {x : M α} {f : α → M β} {Q : (Addr → Prop) → St → α → Prop} {Q' : (Addr → Prop) → St → β → Prop} (hx : Bd R s x Q)
    (hf : ∀ R1 s1 a, Grows R R1 s.heap.length → Inv R1 s1 → Ext R s s1 → Q R1 s1 a → Bdn R s.heap.length s1 (f a) Q') : Bd R s (x >>= f) Q' := by
  obtain ⟨R1, h1, h2, h3, h4⟩ := hx
  unfold Bd
  rw [M.bind_apply]
  rcases hxs : x s with ⟨r, s'⟩
  rw [hxs] at h2 h3 h4
  cases r with
  | ok a =>
    obtain ⟨R2, g1, g2, g3, g4⟩ := hf R1 s' a h1 h2 h3 (h4 a rfl)
    exact ⟨R2, g1, g2, h3.trans g3, g4⟩
  | err => exact ⟨R1, h1, h2, h3, by simp⟩
  | panic => exact ⟨R1, h1, h2, h3, by simp⟩

theorem bd_newObject {env : Env} {p : Str} {d : Option Addr} {tid : Option Nat} {cs : List (Str × T)} {kids : List (Str × TF)}
    (hk : ∀ k ∈ kids, ∃ n t, (n, t) ∈ cs ∧ k.1 = p ++ '.' :: n ∧ '.' ∉ n ∧ '[' ∉ n ∧ Builds env.fmt t k.2) {R : Addr → Prop} {s : St} (hs : Inv R s) {inp : V} {mod : Mod}
    (hf : ∀ kt ∈ cs, fit env.fmt (vok R s.heap.length) kt.2) (hi : vok R s.heap.length inp) :
    Bd R s (objStart none >>= fun nv => objFinish env p kids inp mod nv) (Post env.fmt (.object p d tid cs) R) := by
  refine Bd.bindn (bd_alloc hs (c := .map []) (by intro kv h; simp at h)) fun R1 s1 nv hg h1 he hq => ?_
  obtain ⟨rfl, rfl, hq, hlen⟩ := hq
  have hnv : ¬ R s.heap.length := fun h => Nat.lt_irrefl _ (hs.below _ h)
  have hlen2 : s.heap.length ≤ s1.heap.length := by omega
  generalize hs2 : ({ s1 with tick := s1.tick + 1 } : St) = s2
  have hheap : s2.heap = s1.heap := by rw [← hs2]
  have h2 : Inv (fun b => R b ∨ b = s.heap.length) s2 := by rw [← hs2]; exact ⟨h1.below, h1.valid, h1.cell⟩
  have he2 : Ext R s1 s2 := by rw [← hs2]; exact ⟨Nat.le_refl _, fun _ _ => rfl, rfl⟩
  have hm2 : s2.heap[s.heap.length]? = some (.map []) := by rw [hheap]; exact hq
  rw [← hheap] at hlen2
  obtain ⟨R3, m, g1, g2, g3, g4, g5⟩ := kids_bd (R0 := R) (cs := cs) (p := p) (inp := inp) (mod := mod) hnv (env.sched.perm s1.tick _ kids) _ s2 []
    (fun k h => hk k ((env.sched.isPerm s1.tick _ kids).mem_iff.1 h)) h2 hg.1 (.inr rfl) hm2 ⟨sorted_nil, by simp⟩
    (fun kt h => fit_mono (fun v => hg.vok hlen2) _ (hf kt h)) (hg.vok hlen2 hi)
  have e1 : objFinish env p kids inp mod s.heap.length s1 = (childrenLoop p inp mod s.heap.length (env.sched.perm s1.tick _ kids) >>= fun _ =>
      readMap s.heap.length >>= fun m => if m = [] then Pure.pure V.nil else Pure.pure (.obj s.heap.length)) s2 := by rw [← hs2]; rfl
  unfold Bdn
  rw [e1, M.bind_apply]
  have hgr : Grows R R3 s.heap.length := hg.trans g1 hlen2
  rcases hx : childrenLoop p inp mod s.heap.length (env.sched.perm s1.tick _ kids) s2 with ⟨r, s3⟩
  rw [hx] at g2 g3 g4 g5
  simp only at g2 g3 g4 g5
  have hext : Ext R s1 s3 := he2.trans g3
  cases r with
  | err => exact ⟨R3, hgr, g2, hext, by simp⟩
  | panic => exact ⟨R3, hgr, g2, hext, by simp⟩
  | ok u =>
    simp only
    rw [M.bind_ok (show readMap s.heap.length s3 = (.ok m, s3) by unfold readMap; rw [g4])]
    split
    · refine ⟨R3, hgr, g2, hext, fun a ha => ?_⟩
      simp only [M.pure_apply, Res.ok.injEq] at ha
      subst ha
      exact ⟨trivial, .inl rfl⟩
    · rename_i hne
      refine ⟨R3, hgr, g2, hext, fun a ha => ?_⟩
      simp only [M.pure_apply, Res.ok.injEq] at ha
      subst ha
      have hnv3 : R3 s.heap.length := g1.1 _ (.inr rfl)
      refine ⟨g2.below _ hnv3, .inr ?_⟩
      have : ∀ kv : Str × V, ∃ t : T, kv ∈ m → (kv.1, t) ∈ cs ∧ Shp env.fmt s3.heap (fun a => R3 a ∧ ¬ R a) t kv.2 := by
        intro kv
        by_cases hkv : kv ∈ m
        · obtain ⟨t, h3, h4⟩ := (g5.2 kv hkv).2
          exact ⟨t, fun _ => ⟨h3, h4.mono (fun a ha => ⟨ha.1, ha.2.1⟩) fun _ _ => rfl⟩⟩
        · exact ⟨.scalar [] [] V.nil none, fun h => absurd h hkv⟩
      obtain ⟨f, hf'⟩ := Classical.skolem.1 this
      exact .object f ⟨hnv3, hnv⟩ g4 hne g5.1 (fun kv h => (g5.2 kv h).1) (fun kv h => (hf' kv h).1) (fun kv h => (hf' kv h).2)

/-! ### Values of XML transforms -/

/-- `x` only adds cells; its results satisfy `Q`. -/
def Ap (s : St) (x : M α) (Q : Heap → α → Prop) : Prop := (∃ t, (x s).2.heap = s.heap ++ t) ∧ ∀ a, (x s).1 = .ok a → Q (x s).2.heap a

theorem Ap.pure {s : St} {a : α} {Q : Heap → α → Prop} (h : Q s.heap a) : Ap s (Pure.pure a : M α) Q := by
  refine ⟨⟨[], by simp [M.pure_apply]⟩, ?_⟩
  intro b hb
  rw [M.pure_apply] at hb
  simp only [Res.ok.injEq] at hb
  subst hb
  exact h

theorem Ap.bind {s : St} {x : M α} {f : α → M β} {Q : Heap → α → Prop} {Q' : Heap → β → Prop} (hx : Ap s x Q)
    (hf : ∀ s1 a, (∃ t, s1.heap = s.heap ++ t) → Q s1.heap a → Ap s1 (f a) Q') : Ap s (x >>= f) Q' := by
  obtain ⟨⟨t, h1⟩, h2⟩ := hx
  unfold Ap
  rw [M.bind_apply]
  rcases hxs : x s with ⟨r, s'⟩
  rw [hxs] at h1 h2
  cases r with
  | ok a =>
    obtain ⟨⟨t', h3⟩, h4⟩ := hf s' a ⟨t, h1⟩ (h2 a rfl)
    exact ⟨⟨t ++ t', by simp only at h1 ⊢; rw [h3, h1, List.append_assoc]⟩, h4⟩
  | err => exact ⟨⟨t, h1⟩, by simp⟩
  | panic => exact ⟨⟨t, h1⟩, by simp⟩

theorem Ap.fail {s : St} {Q : Heap → α → Prop} : Ap s (M.fail : M α) Q := ⟨⟨[], by simp [M.fail]⟩, by simp [M.fail]⟩
theorem Ap.panic {s : St} {Q : Heap → α → Prop} : Ap s (M.panic : M α) Q := ⟨⟨[], by simp [M.panic]⟩, by simp [M.panic]⟩
theorem Ap.lift {s : St} {r : Res α} {Q : Heap → α → Prop} (h : ∀ a, r = .ok a → Q s.heap a) : Ap s (M.lift r) Q :=
  ⟨⟨[], by simp [M.lift]⟩, h⟩
theorem Ap.ite {s : St} {c : Prop} [Decidable c] {x y : M α} {Q : Heap → α → Prop} (hx : c → Ap s x Q) (hy : ¬c → Ap s y Q) :
    Ap s (if c then x else y) Q := by
  split
  · exact hx ‹_›
  · exact hy ‹_›

/-- A scalar or a slice of scalars. -/
def flat (h : Heap) : V → Prop
  | .sc _ => True
  | .arr a => ∃ l, h[a]? = some (.slice l) ∧ ∀ u ∈ l, ∃ x, u = .sc x
  | .obj _ => False

theorem flat_mono {h h' : Heap} (he : ∃ t, h' = h ++ t) {v : V} (hv : flat h v) : flat h' v := by
  obtain ⟨t, rfl⟩ := he
  cases v with
  | sc _ => trivial
  | arr a =>
    obtain ⟨l, h1, h2⟩ := hv
    exact ⟨l, by rw [List.getElem?_append_left (List.getElem?_eq_some_iff.1 h1).1]; exact h1, h2⟩
  | obj a => exact hv

theorem flat_closed (h : Heap) : Closed (flat h) h := by
  intro v hv
  cases v with
  | sc _ => trivial
  | arr a =>
    obtain ⟨l, h1, h2⟩ := hv
    simp only [Heap.shape, h1]
    intro u hu
    obtain ⟨x, rfl⟩ := h2 u hu
    trivial
  | obj a => exact hv.elim

theorem Ap.nextTick {s : St} : Ap s nextTick (fun _ _ => True) := ⟨⟨[], by simp [JT.nextTick]⟩, fun _ _ => trivial⟩
theorem Ap.writeInstrs {s : St} {i : Nat} {t : Instrs} : Ap s (writeInstrs i t) (fun _ _ => True) := ⟨⟨[], by simp [JT.writeInstrs]⟩, fun _ _ => trivial⟩
theorem Ap.readInstrs {s : St} {i : Nat} : Ap s (readInstrs i) (fun _ _ => True) := by
  unfold JT.readInstrs Ap
  simp only
  split <;> exact ⟨⟨[], by simp⟩, fun _ _ => trivial⟩
theorem Ap.getHeap {s : St} : Ap s getHeap (fun h h' => h' = h) := ⟨⟨[], by simp [JT.getHeap]⟩, by simp [JT.getHeap]⟩

/-- Results of operations and conversions that `materialize` turns into flat values. -/
def flatOut (h : Heap) : Out V → Prop
  | .val v => flat h v
  | .sc _ => True
  | .arr l => ∀ u ∈ l, ∃ x, u = .sc x
  | .strs _ => True

theorem flatOut_mono {h h' : Heap} (he : ∃ t, h' = h ++ t) {o : Out V} (ho : flatOut h o) : flatOut h' o := by
  cases o with
  | val v => exact flat_mono he ho
  | sc s => trivial
  | arr l => exact ho
  | strs l => trivial

theorem Ap.materialize {s : St} {o : Out V} (ho : flatOut s.heap o) : Ap s (materialize o) flat := by
  have key : ∀ l : List V, (∀ u ∈ l, ∃ x, u = .sc x) → Ap s (alloc (.slice l) >>= fun a => Pure.pure (.arr a)) flat := by
    intro l hl
    refine Ap.bind (Q := fun h a => h[a]? = some (.slice l)) ⟨⟨[.slice l], rfl⟩, ?_⟩ fun s1 a _ ha => Ap.pure ⟨l, ha, hl⟩
    intro a ha
    simp only [alloc, Res.ok.injEq] at ha
    subst ha
    simp [alloc]
  cases o with
  | val v => exact Ap.pure ho
  | sc s => exact Ap.pure trivial
  | arr l => exact key l ho
  | strs l => exact key _ (by intro u hu; simp only [List.mem_map] at hu; obtain ⟨x, _, rfl⟩ := hu; exact ⟨_, rfl⟩)

/-- A scalar. -/
def isSc (v : V) : Prop := ∃ x, v = .sc x

theorem isSc_closed (h : Heap) : Closed isSc h := by
  rintro v ⟨x, rfl⟩
  trivial

theorem flatOut_of_isSc {h : Heap} {o : Out V} (ho : OutAll isSc o) : flatOut h o := by
  cases o with
  | val v => obtain ⟨x, rfl⟩ := ho; trivial
  | sc s => trivial
  | arr l => exact ho
  | strs l => trivial

theorem onStr_flat {h : Heap} {v : V} {f : Str → Res (Out V)} {o : Out V} (hf : ∀ s o, f s = .ok o → flatOut h o)
    (ho : onStr h.view v f = .ok o) : flatOut h o := by
  unfold onStr at ho
  split at ho
  · exact hf _ _ ho
  · simp at ho

theorem runOp_flat {lib : Lib} {h : Heap} {now : GTime} {op : Op} {v : V} (hv : flat h v)
    {o : Out V} (ho : runOp lib h.view now op v = .ok o) : flatOut h o := by
  cases op with
  | duration => exact flatOut_of_isSc (durationOp_all ho)
  | max b r =>
    have ho : maxOp lib h.view b r v = .ok o := ho
    unfold maxOp at ho
    split at ho
    · rename_i items hi
      have hit : ∀ u ∈ items, isSc u := by
        cases v with
        | sc x => simp [Heap.view, Heap.shape] at hi
        | obj a => exact hv.elim
        | arr a =>
          obtain ⟨l, h1, h2⟩ := hv
          simp only [Heap.view, Heap.shape, h1, Shape.arr.injEq] at hi
          subst hi
          exact h2
      simp only at ho
      split at ho
      · split at ho
        · simp at ho
        · rename_i item hitem
          split at ho
          · simp at ho
          · rename_i o' hg
            simp only [Res.ok.injEq] at ho
            subst ho
            exact flatOut_of_isSc (jpGet_all (isSc_closed h) (hit _ (List.mem_of_getElem? hitem)) hg)
      · simp at ho
      · simp at ho
    · simp at ho
  | changeCase u => exact onStr_flat (fun s o h => by simp at h; subst h; trivial) ho
  | replace a b => exact onStr_flat (fun s o h => by simp at h; subst h; trivial) ho
  | split on => exact onStr_flat (fun s o h => by split at h <;> simp at h <;> subst h <;> (first | trivial | (intro u hu; simp at hu))) ho
  | timeParse a b => exact onStr_flat (fun s o h => by split at h <;> simp at h; subst h; trivial) ho
  | toCamelCase d => exact onStr_flat (fun s o h => by simp at h; subst h; trivial) ho
  | removeHTML => exact onStr_flat (fun s o h => by simp at h; subst h; trivial) ho
  | currentTime f => simp only [runOp] at ho; simp at ho; subst ho; trivial
  | valueExists => simp only [runOp] at ho; split at ho <;> simp at ho <;> subst ho <;> trivial
  | inverse => simp only [runOp] at ho; split at ho <;> simp at ho <;> subst ho <;> trivial
  | convertToFloat64 =>
    simp only [runOp] at ho
    (repeat' split at ho) <;> simp at ho <;> subst ho <;> trivial
  | convertToInt64 =>
    simp only [runOp] at ho
    (repeat' split at ho) <;> simp at ho <;> subst ho <;> trivial
  | convertToBool =>
    simp only [runOp] at ho
    (repeat' split at ho) <;> simp at ho <;> subst ho <;> trivial

theorem concat_flat {h : Heap} {a b : V} (ha : flat h a) (hb : flat h b) {d : Str} {o : Out V}
    (ho : concat h.view a b d = .ok o) : flatOut h o := by
  unfold concat at ho
  split at ho
  · simp at ho; subst ho; trivial
  · simp at ho; subst ho; exact hb
  · simp at ho; subst ho; exact ha
  · split at ho
    · simp at ho
    · split at ho
      · split at ho <;> simp at ho <;> subst ho <;> trivial
      · simp at ho

theorem Ap.runOps {env : Env} : ∀ {ops : List Op} {s : St} {v : V}, flat s.heap v → Ap s (runOps env ops v) flat := by
  intro ops
  induction ops with
  | nil => intro s v hv; exact Ap.pure hv
  | cons op ops ih =>
    intro s v hv
    refine Ap.bind Ap.nextTick fun s1 k h1 _ => Ap.bind Ap.getHeap fun s2 h h2 hh => ?_
    subst hh
    refine Ap.bind (Ap.lift (Q := flatOut) fun o ho => runOp_flat (flat_mono h2 (flat_mono h1 hv)) ho) fun s3 o h3 ho => ?_
    exact Ap.bind (Ap.materialize ho) fun s4 v' h4 hv' => ih hv'

theorem Ap.convertSc {env : Env} {ty : Str} {x : Scal} {s : St} : Ap s (convertV env ty (.sc x)) (fun h c => flatOut h c.val) := by
  refine Ap.bind Ap.getHeap fun s1 h _ hh => ?_
  subst hh
  exact Ap.lift fun c hc => flatOut_of_isSc (convert_all (isSc_closed _) ⟨x, rfl⟩ hc)

theorem Ap.xfind {env : Env} {k : NodeId} {p : Str} {s : St} : Ap s (xfind env k p) (fun _ _ => True) := by
  unfold JT.xfind
  split
  · exact Ap.pure trivial
  · exact Ap.panic

theorem Ap.xmlValue {env : Env} {ty : Str} {f : NodeId} {a : List NodeId} {x y : Nat} {s : St} : Ap s (xmlValue env ty f a x y) flat := by
  unfold JT.xmlValue
  refine Ap.ite (fun _ => ?_) fun _ => Ap.ite (fun _ => Ap.pure trivial) fun _ => Ap.ite (fun _ => Ap.pure trivial) fun _ => ?_
  · exact Ap.bind Ap.convertSc fun s1 c _ hc => Ap.materialize hc
  · exact Ap.bind Ap.convertSc fun s1 c _ hc => Ap.ite (fun _ => Ap.pure trivial) fun _ => Ap.materialize hc

theorem Ap.instrXML {env : Env} {inp : V} {ty : Str} {mod : Mod} {ti : Instr} {s : St} : Ap s (instrXML env inp ty mod ti) flat := by
  unfold JT.instrXML
  split
  · refine Ap.bind Ap.xfind fun s1 found _ _ => ?_
    split
    · exact Ap.pure trivial
    · refine Ap.bind Ap.xfind fun _ wc _ _ => Ap.bind Ap.xfind fun _ woc _ _ => ?_
      exact Ap.bind Ap.xmlValue fun s2 v _ hv => Ap.ite (fun _ => Ap.pure trivial) fun _ => Ap.runOps hv
  · exact Ap.fail

theorem Ap.firstLoop {run : Instr → M V} (hr : ∀ ti s, Ap s (run ti) flat) : ∀ {l : List Instr} {s : St}, Ap s (firstLoop run l) flat := by
  intro l
  induction l with
  | nil => intro s; exact Ap.pure trivial
  | cons ti rest ih =>
    intro s
    exact Ap.bind (hr ti s) fun s1 v _ hv => Ap.ite (fun _ => ih) fun _ => Ap.pure hv

theorem Ap.concatLoop {run : Instr → M V} {d : Str} (hr : ∀ ti s, Ap s (run ti) flat) :
    ∀ {l : List Instr} {s : St} {v : V}, flat s.heap v → Ap s (concatLoop run d l v) flat := by
  intro l
  induction l with
  | nil => intro s v hv; exact Ap.pure hv
  | cons ti rest ih =>
    intro s v hv
    refine Ap.bind (hr ti s) fun s1 u h1 hu => Ap.bind Ap.getHeap fun s2 h h2 hh => ?_
    subst hh
    refine Ap.bind (Ap.lift (Q := flatOut) fun o ho => concat_flat (flat_mono h2 (flat_mono h1 hv)) (flat_mono h2 hu) ho) fun s3 o h3 ho => ?_
    exact Ap.bind (Ap.materialize ho) fun s4 r h4 hr => ih hr

theorem Ap.instrsXML {env : Env} (hx : env.fmt = .xml) {inp : V} {ty : Str} {mod : Mod} {tid : Nat} {s : St} : Ap s (instrsRun env inp ty mod tid) flat := by
  have hr : ∀ ti s, Ap s (instrRun env inp ty mod ti) flat := by
    intro ti s
    unfold instrRun
    rw [hx]
    exact Ap.instrXML
  refine Ap.bind Ap.readInstrs fun s1 tis _ _ => ?_
  split
  · exact Ap.firstLoop hr
  · exact Ap.bind Ap.writeInstrs fun s2 _ _ _ => Ap.firstLoop hr
  · exact Ap.concatLoop hr trivial

/-- The entries of an array on XML input, if they do not come from the default, are scalars. -/
theorem Ap.baseXML {env : Env} (hx : env.fmt = .xml) {tid : Option Nat} {inp : V} {mod : Mod} {s : St} :
    Ap s (baseXML env none tid inp mod) (fun h o => ∀ a, o = some a → flat h (.arr a)) := by
  have ho : Ap s (optInstrs env inp g!"array" mod tid) flat := by
    cases tid with
    | none => exact Ap.pure trivial
    | some t => exact Ap.instrsXML hx
  have key : ∀ (s1 : St) (l : List V), (∀ u ∈ l, ∃ x, u = .sc x) → Ap s1 (alloc (.slice l)) (fun h a => flat h (.arr a)) := by
    intro s1 l hl
    refine ⟨⟨[.slice l], rfl⟩, ?_⟩
    intro a ha
    simp only [alloc, Res.ok.injEq] at ha
    subst ha
    exact ⟨l, by simp [alloc], hl⟩
  have hsome : ∀ (h : Heap) (a : Addr), flat h (.arr a) → ∀ b, some a = some b → flat h (.arr b) := by
    intro h a ha b hb
    simp only [Option.some.injEq] at hb
    subst hb
    exact ha
  refine Ap.bind ho fun s1 v _ hv => ?_
  split
  · refine Ap.bind (key s1 _ ?_) fun s2 a _ ha => Ap.pure (hsome _ _ ha)
    intro u hu
    simp only [List.mem_map] at hu
    obtain ⟨k, _, rfl⟩ := hu
    exact ⟨_, rfl⟩
  · refine Ap.ite (fun _ => ?_) fun _ => Ap.pure (by simp)
    refine Ap.bind (Q := fun h a => flat h (.arr a)) ?_ fun s2 a _ ha => Ap.pure (hsome _ _ ha)
    unfold asSlice
    split
    · exact Ap.pure hv
    · rename_i hna
      refine key s1 _ ?_
      intro u hu
      simp only [List.mem_singleton] at hu
      subst hu
      cases u with
      | sc x => exact ⟨x, rfl⟩
      | arr a => exact absurd rfl (hna a)
      | obj a => exact hv.elim

/-! ### The transformers -/

theorem builds_array {env : Env} {p : Str} {d : Option Addr} {tid : Option Nat} {c : T} {child : TF} (hc : Builds env.fmt c child) :
    Builds env.fmt (.array p d tid (some c)) (runArray env p d tid (some child)) := by
  intro R s inp mod hs hf hi
  simp only [fit] at hf
  obtain ⟨hd, hfc⟩ := hf
  have hd : optOk R s.heap.length d := fun a ha => hd a ha
  unfold runArray
  split
  · refine Bd.bind (Bd.of_fr (Fr.baseJSON (env := env) (tid := tid) (path := mod p) (mod := mod) hd hi) hs) fun R1 s1 r _ h1 he1 hq1 => ?_
    obtain ⟨rfl, hb⟩ := hq1
    obtain ⟨base, changed⟩ := r
    refine Bd.bind (Bd.of_fr (Fr.saveBase (path := mod p) (c := changed) (vok_mono he1.len hi) hb) h1) fun R2 s2 inp' _ h2 he2 hq2 => ?_
    obtain ⟨rfl, hi2⟩ := hq2
    refine Bd.bind (Bd.of_fr (Fr.readBase (optOk_mono he2.len hb)) h2) fun R3 s3 l _ h3 he3 hq3 => ?_
    obtain ⟨rfl, -⟩ := hq3
    have hl := Nat.le_trans he1.len (Nat.le_trans he2.len he3.len)
    refine Bd.bind (bd_itemsLoop (d := d) hc l.length 0 [] R3 s3 h3 (fun _ h => h) (fit_mono (fun v => vok_mono hl) c hfc) (vok_mono he3.len hi2) (by simp))
      fun R4 s4 out _ h4 he4 hq4 => ?_
    exact bd_arrayResult h4 hq4.1 hq4.2
  · rename_i hx
    have hb := Bd.of_fr (Fr.baseXML (env := env) (tid := tid) (mod := mod) hd hi) hs
    have hb' : Bd R s (baseXML env d tid inp mod) (fun R' s' o => (R' = R ∧ optOk R s'.heap.length o) ∧ (d = none → ∀ a, o = some a → flat s'.heap (.arr a))) := by
      obtain ⟨R', g1, g2, g3, g4⟩ := hb
      refine ⟨R', g1, g2, g3, fun a ha => ⟨g4 a ha, ?_⟩⟩
      rintro rfl
      exact (Ap.baseXML hx).2 a ha
    refine Bd.bind hb' fun R1 s1 base _ h1 he1 hq1 => ?_
    obtain ⟨⟨rfl, hbase⟩, hflat⟩ := hq1
    have hrd : Bd R1 s1 (readBase base) (fun R' s' l => (R' = R1 ∧ ∀ v ∈ l, vok R1 s'.heap.length v) ∧ (d = none → ∀ u ∈ l, ∃ x, u = .sc x)) := by
      obtain ⟨R', g1, g2, g3, g4⟩ := Bd.of_fr (Fr.readBase hbase) h1
      refine ⟨R', g1, g2, g3, fun l hl => ⟨g4 l hl, fun hdn => ?_⟩⟩
      cases base with
      | none =>
        simp only [readBase, M.pure_apply, Res.ok.injEq] at hl
        subst hl
        simp
      | some a =>
        obtain ⟨l', e1, e2⟩ := hflat hdn a rfl
        simp only [readBase, readSlice, e1, Res.ok.injEq] at hl
        subst hl
        exact e2
    refine Bd.bind hrd fun R2 s2 l _ h2 he2 hq2 => ?_
    obtain ⟨⟨rfl, hl⟩, hsc⟩ := hq2
    refine Bd.bind (bd_itemsLoopXML hx hc l 0 [] R2 s2 h2 (fun _ h => h) (fit_mono (fun v => vok_mono (Nat.le_trans he1.len he2.len)) c hfc) hl hsc (by simp))
      fun R4 s4 out _ h4 he4 hq4 => ?_
    exact bd_arrayResult h4 hq4.1 hq4.2

theorem builds_object {env : Env} {p : Str} {d : Option Addr} {tid : Option Nat} {cs : List (Str × T)} {kids : List (Str × TF)}
    (hk : (∀ kt ∈ cs, kt.2.path = p ++ '.' :: kt.1 ∧ '.' ∉ kt.1 ∧ '[' ∉ kt.1) → ∀ k ∈ kids, ∃ n t, (n, t) ∈ cs ∧ k.1 = p ++ '.' :: n ∧ '.' ∉ n ∧ '[' ∉ n ∧ Builds env.fmt t k.2) :
    Builds env.fmt (.object p d tid cs) (runObject env p d tid kids) := by
  intro R s inp mod hs hf hi
  simp only [fit] at hf
  obtain ⟨rfl, htid, hfk⟩ := hf
  have hmem := fitKids_mem hfk
  have hk := hk fun kt h => ⟨(hmem kt h).1, (hmem kt h).2.1, (hmem kt h).2.2.1⟩
  unfold runObject
  split
  · rename_i hj
    have := htid hj
    subst this
    exact bd_newObject hk hs (fun kt h => (hmem kt h).2.2.2) hi
  · split
    · exact bd_newObject hk hs (fun kt h => (hmem kt h).2.2.2) hi
    · rename_i t
      refine Bd.bind (Bd.of_fr (Fr.instrsRun (env := env) (ty := g!"object") (mod := mod) (tid := t) hi) hs) fun R1 s1 v _ h1 he1 hq1 => ?_
      obtain ⟨rfl, -⟩ := hq1
      have hfit : ∀ kt ∈ cs, fit env.fmt (vok R1 s1.heap.length) kt.2 := fun kt h => fit_mono (fun v => vok_mono he1.len) _ (hmem kt h).2.2.2
      split
      · exact Bd.pure h1 ⟨trivial, .inl rfl⟩
      · exact Bd.pure h1 ⟨trivial, .inl rfl⟩
      · exact bd_newObject hk h1 hfit trivial
      · exact bd_newObject hk h1 hfit (vok_mono he1.len hi)
      · exact bd_newObject hk h1 hfit trivial
      · exact Bd.fail h1

mutual
theorem builds_run (env : Env) : ∀ (t : T), Builds env.fmt t (t.run env)
  | .scalar p ty d tid => by simp only [T.run]; exact builds_scalar
  | .array p d tid none => fun R s inp mod _ hf _ => by simp only [fit] at hf
  | .array p d tid (some c) => by simp only [T.run]; exact builds_array (builds_run env c)
  | .object p d tid cs => by
    simp only [T.run]
    refine builds_object fun hp k hk => ?_
    obtain ⟨kt, h1, h2, h3⟩ := builds_runKids env cs k hk
    exact ⟨kt.1, kt.2, h1, by rw [h2]; exact (hp kt h1).1, (hp kt h1).2.1, (hp kt h1).2.2, h3⟩
theorem builds_runKids (env : Env) : ∀ (cs : List (Str × T)), ∀ k ∈ T.runKids env cs, ∃ kt ∈ cs, k.1 = kt.2.path ∧ Builds env.fmt kt.2 k.2
  | [] => by simp [T.runKids]
  | (n, t) :: r => by
    intro k hk
    simp only [T.runKids, List.mem_cons] at hk
    rcases hk with rfl | hk
    · exact ⟨(n, t), by simp, rfl, builds_run env t⟩
    · obtain ⟨kt, h1, h2⟩ := builds_runKids env r k hk
      exact ⟨kt, by simp [h1], h2⟩
end

end JT.Frame
