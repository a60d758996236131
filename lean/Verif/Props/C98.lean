import Verif.Proofs.Shape
import Verif.Spec.Shape
import Verif.Props.C30
import Verif.Spec.CheckXml
/- C98 (the output has the shape of the schema), and C07 for all these schemas. -/
namespace JT
open Spec

/-- **C98, full statement**: the output of every successful call, at any time in the life of a Transformer, has the shape of the schema. -/
def C98_statement : Prop :=
  ∀ (env0 : Env) (sc : Schema) (ident : Str) (t : T) (s0 : St), newTransformer env0 sc ident = .ok (t, s0) → PlainSchema sc →
    ∀ (history : List (Env × Str)) (env : Env) (raw out : Str), (∀ c ∈ history, c.1.fmt = env.fmt) →
      (transformNoValidation env t raw (afterCalls t history s0)).1 = .ok out → ∃ p, env.lib.marshal p = some out ∧ ShapedSchema env.fmt sc p

namespace Frame

/-! ### From the transformer tree to the schema -/

theorem rep_list {h : Heap} {a : Addr} {p : P} {l : List V} (hr : Rep h (fun _ => true) (.arr a) p) (hl : h[a]? = some (.slice l)) :
    ∃ ps, p = .arr ps ∧ l.length = ps.length ∧ ∀ w ∈ ps, ∃ v ∈ l, Rep h (fun _ => true) v w := by
  obtain ⟨-, l', ps, h1, h2, h3, h4⟩ := rep_arr_iff.1 hr
  rw [hl, Option.some.injEq, Cell.slice.injEq] at h1
  subst h1
  refine ⟨ps, h2, h3, fun w hw => ?_⟩
  obtain ⟨i, hi, rfl⟩ := List.mem_iff_getElem.1 hw
  exact ⟨l[i], List.getElem_mem _, h4 i (by omega) hi⟩

theorem rep_map {h : Heap} {a : Addr} {p : P} {m : GMap V} (hr : Rep h (fun _ => true) (.obj a) p) (hl : h[a]? = some (.map m)) :
    ∃ ps, p = .obj ps ∧ m.map Prod.fst = ps.map Prod.fst ∧ ∀ kw ∈ ps, ∃ kv ∈ m, kv.1 = kw.1 ∧ Rep h (fun _ => true) kv.2 kw.2 := by
  obtain ⟨-, l', ps, h1, h2, h3, h4⟩ := rep_obj_iff.1 hr
  rw [hl, Option.some.injEq, Cell.map.injEq] at h1
  subst h1
  refine ⟨ps, h2, ?_, fun w hw => ?_⟩
  · apply List.ext_getElem (by simpa using h3)
    intro i hi hi'
    simp only [List.length_map] at hi hi'
    simp only [List.getElem_map]
    exact (h4 i hi hi').1
  · obtain ⟨i, hi, rfl⟩ := List.mem_iff_getElem.1 hw
    exact ⟨m[i], List.getElem_mem _, h4 i (by omega) hi⟩

theorem sorted_of_keys {m : GMap V} {o : GMap P} (h : m.map Prod.fst = o.map Prod.fst) (hm : GMap.Sorted m) : GMap.Sorted o := by
  induction m generalizing o with
  | nil => cases o with
    | nil => trivial
    | cons x o => simp at h
  | cons x m ih => cases o with
    | nil => simp at h
    | cons y o =>
      simp only [List.map_cons, List.cons.injEq] at h
      simp only [GMap.Sorted] at hm ⊢
      refine ⟨fun kv hkv => ?_, ih h.2 hm.2⟩
      have : kv.1 ∈ m.map Prod.fst := by rw [h.2]; exact List.mem_map_of_mem hkv
      obtain ⟨kv', h1, h2⟩ := List.mem_map.1 this
      rw [← h.1, ← h2]
      exact hm.1 kv' h1

theorem nil_iff {h : Heap} {v : V} {p : P} (hr : Rep h (fun _ => true) v p) : v = V.nil ↔ p = nilP := rep_nil_iff hr

theorem mirrorsKids_mem {lib : Lib} {ident : Str} {s : St} {path : Str} {m : List (Str × P)} : ∀ {cs : List (Str × T)}, MirrorsKids lib ident s cs path m →
    ∀ kt ∈ cs, ∃ q, (kt.1, q) ∈ m ∧ Mirrors lib ident s kt.2 (path ++ '.' :: kt.1) q
  | [], _, _, h => by simp at h
  | (k, t) :: r, hm, kt, h => by
    simp only [MirrorsKids] at hm
    rcases List.mem_cons.1 h with rfl | h
    · exact hm.1
    · exact mirrorsKids_mem hm.2 kt h

theorem shaped_of_shp {lib : Lib} {ident : Str} {s0 : St} {fmt : Format} {h : Heap} {B : Addr → Prop} {t : T} {v : V} (hs : Shp fmt h B t v) :
    ∀ {path : Str} {raw p : P}, Mirrors lib ident s0 t path raw → Rep h (fun _ => true) v p → HasShape fmt raw p := by
  induction hs with
  | scalar =>
    intro path raw p hm hr
    simp only [Mirrors] at hm
    obtain ⟨-, ⟨ty0, nu, h2⟩, -⟩ := hm
    exact .scalar ⟨ty0, nu, h2⟩
  | @array p d tid c a l pass h1 h2 h3 h4 h5 h6 ih =>
    intro path raw pv hm hr
    simp only [Mirrors] at hm
    obtain ⟨-, ⟨nu, e1⟩, e2, -, items, e3, e4⟩ := hm
    obtain ⟨ps, rfl, hlen, hps⟩ := rep_list hr h2
    refine .array (fun w => fmt = .xml ∧ (¬ NoDefault raw ∨ ∃ s, w = .sc s)) ⟨nu, e1⟩ e3 ?_ ?_ (fun _ _ hw => hw) ?_
    · rintro rfl
      exact h3 (List.length_eq_zero_iff.1 hlen)
    · intro w hw
      obtain ⟨v, hv, hvr⟩ := hps w hw
      exact fun e => h4 v hv ((nil_iff hvr).2 e)
    · intro w hw hno
      obtain ⟨v, hv, hvr⟩ := hps w hw
      by_cases hp : pass v
      · exfalso
        apply hno
        obtain ⟨hx, hd⟩ := h5 v hv hp
        refine ⟨hx, hd.imp (fun hd => ?_) fun ⟨s, hs⟩ => ?_⟩
        · intro hnd
          unfold DefaultIs at e2
          rw [noDefault_canon hnd] at e2
          cases d with
          | none => exact hd rfl
          | some a => exact absurd e2 toP_arr_ne
        · subst hs
          exact ⟨s, rep_sc_iff.1 hvr⟩
      · exact ih v hv hp e4 hvr
  | @object p d tid cs a m f h1 h2 h3 h4 h5 h6 h7 ih =>
    intro path raw pv hm hr
    simp only [Mirrors] at hm
    obtain ⟨rfl, ⟨nu, e1⟩, e2, -, ms, e3, hne, -, -, e4⟩ := hm
    obtain ⟨ps, rfl, hk, hps⟩ := rep_map hr h2
    have : ∀ kw : Str × P, ∃ q : P, kw ∈ ps → (kw.1, q) ∈ ms ∧ HasShape fmt q kw.2 := by
      intro kw
      by_cases hkw : kw ∈ ps
      · obtain ⟨kv, hkv, ek, er⟩ := hps kw hkw
        obtain ⟨q, hq, hqm⟩ := mirrorsKids_mem e4 _ (h6 kv hkv)
        rw [← ek]
        exact ⟨q, fun _ => ⟨hq, ih kv hkv hqm er⟩⟩
      · exact ⟨nilP, fun h => absurd h hkw⟩
    obtain ⟨g, hg⟩ := Classical.skolem.1 this
    refine .object g ⟨⟨nu, e1⟩, by rw [e3]; simpa using hne⟩ e3 ?_ (sorted_of_keys hk h4) ?_ (fun kw hkw => (hg kw hkw).1) (fun kw hkw => (hg kw hkw).2)
    · rintro rfl
      exact h3 (List.map_eq_nil_iff.1 hk)
    · intro kw hkw
      obtain ⟨kv, hkv, ek, er⟩ := hps kw hkw
      exact fun e => h5 kv hkv ((nil_iff er).2 e)

/-! ### The transformers of these schemas -/

/-- No result cells. -/
def none' : Addr → Prop := fun _ => False

theorem vok_of_below {n : Nat} {v : V} (h : v.below n = true) : vok none' n v := by
  cases v with
  | sc _ => trivial
  | arr a => exact ⟨by simpa [V.below] using h, id⟩
  | obj a => exact ⟨by simpa [V.below] using h, id⟩

mutual
theorem fit_of_mirrors {lib : Lib} {ident : Str} {s : St} {fmt : Format} (hsh : s.shared = s.heap.length) : ∀ (t : T) {path : Str} {raw : P},
    Mirrors lib ident s t path raw → (∀ q, Inst raw q → PlainProps q ∧ (ObjectInst q → NoDefault q ∧ (fmt = .json → NoTransform ident q))) → fit fmt (vok none' s.shared) t
  | .scalar p ty d tid, path, raw, h, hs => by
    simp only [Mirrors] at h
    simp only [fit]
    exact vok_of_below (DefaultIs.dok hsh h.2.2.1).2
  | .array p d tid none, path, raw, h, hs => by simp [Mirrors] at h
  | .array p d tid (some c), path, raw, h, hs => by
    simp only [Mirrors] at h
    obtain ⟨rfl, h2, h3, h4, items, h5, h6⟩ := h
    simp only [fit]
    refine ⟨?_, fit_of_mirrors hsh c h6 fun q hq => hs q (Inst.trans (.items (.self raw) h5) hq)⟩
    rintro a rfl
    exact vok_of_below (DefaultIs.dok hsh h3).2
  | .object p d tid cs, path, raw, h, hs => by
    simp only [Mirrors] at h
    obtain ⟨rfl, h2, h3, h4, m, h5, hne, h6, h7, h8⟩ := h
    obtain ⟨g1, g2⟩ := hs raw (.self raw)
    obtain ⟨g2, g3⟩ := g2 ⟨h2, by rw [h5]; simpa using hne⟩
    simp only [fit]
    refine ⟨?_, fun hj => instrsAre_none h4 (g3 hj), fitKids_of_mirrors hsh cs h8 fun k q hq => ⟨(((g1 m h5).2 (k, q) hq).2), fun r hr => hs r (Inst.trans (.prop (.self raw) h5 hq) hr)⟩⟩
    cases d with
    | none => rfl
    | some a =>
      unfold DefaultIs at h3
      rw [noDefault_canon g2] at h3
      exact absurd h3 toP_obj_ne
theorem fitKids_of_mirrors {lib : Lib} {ident : Str} {s : St} {fmt : Format} (hsh : s.shared = s.heap.length) : ∀ (cs : List (Str × T)) {path : Str} {m : List (Str × P)},
    MirrorsKids lib ident s cs path m → (∀ k q, (k, q) ∈ m → ('.' ∉ k ∧ '[' ∉ k) ∧ ∀ r, Inst q r → PlainProps r ∧ (ObjectInst r → NoDefault r ∧ (fmt = .json → NoTransform ident r))) →
    fitKids fmt (vok none' s.shared) path cs
  | [], _, _, _, _ => by simp only [fitKids]
  | (k, t) :: r, path, m, h, hs => by
    simp only [MirrorsKids] at h
    obtain ⟨⟨q, hq, hm⟩, hr⟩ := h
    simp only [fitKids]
    exact ⟨⟨Mirrors.path_eq hm, (hs k q hq).1.1, (hs k q hq).1.2⟩, fit_of_mirrors hsh t hm (hs k q hq).2, fitKids_of_mirrors hsh r hr hs⟩
end

/-- What holds between calls. -/
structure Rest (fmt : Format) (t : T) (s : St) : Prop where
  inv : Inv none' s
  fit : fit fmt (vok none' s.shared) t
  len : s.shared ≤ s.heap.length

theorem inv_of_tinv {s : St} (h : TInv s) : Inv none' s := by
  have hv : ∀ v : V, v.ok s.heap → vok none' s.heap.length v := by
    intro v hv
    cases v with
    | sc _ => trivial
    | arr a => obtain ⟨l, hl⟩ := hv; exact ⟨lt_of_getElem? hl, id⟩
    | obj a => obtain ⟨l, hl⟩ := hv; exact ⟨lt_of_getElem? hl, id⟩
  have hc : ∀ (a : Nat) (c : Cell), s.heap[a]? = some c → cellAll (vok none' s.heap.length) c := by
    intro a c hc
    have := h.cell a c hc
    cases c with
    | map m => exact fun kv hkv => hv _ (this kv hkv)
    | slice l => exact fun v hv' => hv _ (this v hv')
  exact ⟨fun a ha => ha.elim, fun a c h => cellAll_mono (fun v hv => hv.valid) (hc a c h), fun a c _ h => hc a c h⟩

theorem rest_new {env : Env} {sc : Schema} {ident : Str} {t : T} {s0 : St} {fmt : Format} (hb : newTransformer env sc ident = .ok (t, s0)) (hs : FreshSchema fmt ident sc) : Rest fmt t s0 := by
  obtain ⟨h1, h2⟩ := newTransformer_tinv hb
  refine ⟨inv_of_tinv h1, ?_, by omega⟩
  rcases newTransformer_mirrors hb hs.plain with ⟨m, cs, e1, e2, rfl, e3, e4, e5⟩ | ⟨q, c, e1, e2, rfl, e3⟩
  · simp only [fit]
    refine ⟨trivial, fun _ => trivial, fitKids_of_mirrors h2 cs e5 fun k q hq => ⟨((hs.plain.1 m e1).2 (k, q) hq).2, fun r hr => ?_⟩⟩
    have hi : SchemaInst sc r := .inl ⟨m, k, q, e1, hq, hr⟩
    exact ⟨hs.plain.2 r hi, fun ho => ⟨hs.noDefault r hi ho, fun hj => hs.noTransform hj r hi ho⟩⟩
  · simp only [fit]
    refine ⟨by simp, fit_of_mirrors h2 c e3 fun r hr => ?_⟩
    have hi : SchemaInst sc r := .inr ⟨q, e2, hr⟩
    exact ⟨hs.plain.2 r hi, fun ho => ⟨hs.noDefault r hi ho, fun hj => hs.noTransform hj r hi ho⟩⟩

/-! ### Calls -/

theorem Inv.forget {R : Addr → Prop} {s : St} (h : Inv R s) : Inv none' s :=
  ⟨fun a ha => ha.elim, h.valid, fun a c _ hc => cellAll_mono (fun v hv => by cases v <;> simp_all [vok, Frame.valid, none']) (h.valid a c hc)⟩

theorem vok_of_valid {n : Nat} {v : V} (h : Frame.valid n v) : vok none' n v := by
  cases v with
  | sc _ => trivial
  | arr a => exact ⟨h, id⟩
  | obj a => exact ⟨h, id⟩

/-- No dangling references in a heap. -/
def HV (h : Heap) : Prop := ∀ (a : Nat) (c : Cell), h[a]? = some c → cellAll (Frame.valid h.length) c

theorem HV.snoc {h : Heap} (hh : HV h) {c : Cell} (hc : cellAll (Frame.valid h.length) c) : HV (h ++ [c]) := by
  intro a c' hc'
  refine cellAll_mono (fun v => valid_mono (by simp)) ?_ (G := Frame.valid h.length)
  rcases getElem?_snoc hc' with h' | ⟨_, rfl⟩
  · exact hh a c' h'
  · exact hc

theorem ofList_valid {n : Nat} {l : List (Str × V)} (hl : ∀ kv ∈ l, Frame.valid n kv.2) : ∀ kv ∈ GMap.ofList l, Frame.valid n kv.2 := by
  have : ∀ (l m : GMap V), (∀ kv ∈ l, Frame.valid n kv.2) → (∀ kv ∈ m, Frame.valid n kv.2) → ∀ kv ∈ l.foldl (fun m kv => GMap.set kv.1 kv.2 m) m, Frame.valid n kv.2 := by
    intro l
    induction l with
    | nil => intro m _ hm; exact hm
    | cons x xs ih =>
      intro m hl hm
      refine ih _ (fun kv h => hl kv (by simp [h])) fun kv hkv => ?_
      rcases GMap.mem_set hkv with rfl | h
      · exact hl x (by simp)
      · exact hm kv h
  exact this _ [] hl (by simp)

mutual
theorem loadP_valid : ∀ (p : P) (h : Heap), HV h → Frame.valid (loadP p h).2.length (loadP p h).1 ∧ HV (loadP p h).2 ∧ h.length ≤ (loadP p h).2.length
  | .sc s, h, hi => ⟨trivial, hi, Nat.le_refl _⟩
  | .arr l, h, hi => by
    obtain ⟨h1, h2, h3⟩ := loadList_valid l h hi
    simp only [loadP]
    exact ⟨by simp [Frame.valid], HV.snoc h2 h1, by simp; omega⟩
  | .obj m, h, hi => by
    obtain ⟨h1, h2, h3⟩ := loadFields_valid m h hi
    simp only [loadP]
    exact ⟨by simp [Frame.valid], HV.snoc h2 (ofList_valid h1), by simp; omega⟩
theorem loadList_valid : ∀ (l : List P) (h : Heap), HV h → (∀ v ∈ (loadList l h).1, Frame.valid (loadList l h).2.length v) ∧ HV (loadList l h).2 ∧ h.length ≤ (loadList l h).2.length
  | [], h, hi => ⟨by simp [loadList], hi, Nat.le_refl _⟩
  | p :: ps, h, hi => by
    obtain ⟨h1, h2, h3⟩ := loadP_valid p h hi
    obtain ⟨g1, g2, g3⟩ := loadList_valid ps (loadP p h).2 h2
    simp only [loadList]
    refine ⟨?_, g2, Nat.le_trans h3 g3⟩
    intro v hv
    rcases List.mem_cons.1 hv with rfl | hv
    · exact valid_mono g3 h1
    · exact g1 v hv
theorem loadFields_valid : ∀ (l : List (Str × P)) (h : Heap), HV h →
    (∀ kv ∈ (loadFields l h).1, Frame.valid (loadFields l h).2.length kv.2) ∧ HV (loadFields l h).2 ∧ h.length ≤ (loadFields l h).2.length
  | [], h, hi => ⟨by simp [loadFields], hi, Nat.le_refl _⟩
  | (k, p) :: ps, h, hi => by
    obtain ⟨h1, h2, h3⟩ := loadP_valid p h hi
    obtain ⟨g1, g2, g3⟩ := loadFields_valid ps (loadP p h).2 h2
    simp only [loadFields]
    refine ⟨?_, g2, Nat.le_trans h3 g3⟩
    intro v hv
    rcases List.mem_cons.1 hv with rfl | hv
    · exact valid_mono g3 h1
    · exact g1 v hv
end

theorem bd_readInput {env : Env} {raw : Str} {s : St} (hs : Inv none' s) : Bd none' s (readInput env raw) (fun R s' v => R = none' ∧ vok none' s'.heap.length v) := by
  have hl : ∀ p, Bd none' s (load p) (fun R s' v => R = none' ∧ vok none' s'.heap.length v) := by
    intro p
    obtain ⟨h1, h2, h3⟩ := loadP_valid p s.heap hs.valid
    refine ⟨none', Grows.refl _ _, Inv.forget (R := none') ⟨fun a ha => ha.elim, h2, fun a c _ hc => cellAll_mono (fun v => vok_of_valid) (h2 a c hc)⟩, ⟨h3, fun a ha => ha.elim, rfl⟩, ?_⟩
    intro v hv
    simp only [load, Res.ok.injEq] at hv ⊢
    subst hv
    exact ⟨trivial, vok_of_valid h1⟩
  unfold readInput
  split
  · split
    · exact Bd.fail hs
    · exact hl _
  · split
    · exact Bd.fail hs
    · exact Bd.pure hs ⟨rfl, trivial⟩

/-- What a call gives: the rendering of a value of the shape of the transformer. -/
theorem bd_base {env : Env} {t : T} {raw : Str} {s : St} (hr : Rest env.fmt t s) :
    Bd none' s (baseTransform env t raw) (fun _ _ out => ∃ (h : Heap) (B : Addr → Prop) (v : V) (p : P), (v = V.nil ∨ Shp env.fmt h B t v) ∧ Rep h (fun _ => true) v p ∧ env.lib.marshal p = some out) := by
  unfold baseTransform
  refine Bd.bind (bd_readInput hr.inv) fun R1 s1 inp hg1 hi1 he1 hq => ?_
  obtain ⟨rfl, hq⟩ := hq
  refine Bd.bind (builds_run env t none' s1 inp _ hi1 (fit_mono (fun v hv => vok_mono ?_ hv) t hr.fit) hq) fun R2 s2 v hg2 hi2 he2 hv => ?_
  · exact Nat.le_trans hr.len he1.len
  · have hf : Bd R2 s2 getHeap (fun _ s' h => h = s'.heap ∧ s' = s2) := ⟨R2, Grows.refl _ _, hi2, Ext.refl _, fun h hh => by
      simp only [getHeap, Res.ok.injEq] at hh ⊢; exact ⟨hh.symm, trivial⟩⟩
    refine Bd.bind hf fun R3 s3 h hg3 hi3 he3 hh => ?_
    obtain ⟨rfl, rfl⟩ := hh
    split
    · exact Bd.fail hi3
    · rename_i p hp
      split
      · exact Bd.fail hi3
      · rename_i out ho
        exact Bd.pure hi3 ⟨_, _, v, p, hv.2, rep_of_toP hp, ho⟩

theorem gc_rest {fmt : Format} {t : T} {s : St} (h : Rest fmt t s) : Rest fmt t s.gc := by
  by_cases hb : (s.heap.take s.shared).all (Cell.below s.shared) = true
  · have he : s.gc = { s with heap := s.heap.take s.shared, tick := 0, wlog := [], ilog := [] } := by unfold St.gc; simp only [hb, if_true]
    have hlen : (s.heap.take s.shared).length = s.shared := by rw [List.length_take]; exact Nat.min_eq_left h.len
    have hv : HV (s.heap.take s.shared) := by
      intro a c hc
      have h2 := List.all_eq_true.1 hb c (List.mem_of_getElem? hc)
      rw [hlen]
      cases c with
      | map m =>
        intro kv hkv
        exact (vok_of_below (List.all_eq_true.1 h2 kv hkv)).valid
      | slice l =>
        intro v hv
        exact (vok_of_below (List.all_eq_true.1 h2 v hv)).valid
    rw [he]
    exact ⟨⟨fun a ha => ha.elim, hv, fun a c _ hc => cellAll_mono (fun v => vok_of_valid) (hv a c hc)⟩, h.fit, Nat.le_of_eq hlen.symm⟩
  · have he : s.gc = { s with tick := 0, wlog := [], ilog := [] } := by unfold St.gc; simp only [hb]; rfl
    rw [he]
    exact ⟨⟨h.inv.below, h.inv.valid, h.inv.cell⟩, h.fit, h.len⟩

theorem rest_base {env : Env} {t : T} {raw : Str} {s : St} (hr : Rest env.fmt t s) : Rest env.fmt t (baseTransform env t raw s).2 := by
  obtain ⟨R', _, h1, h2, _⟩ := bd_base (raw := raw) hr
  refine ⟨h1.forget, ?_, ?_⟩
  · rw [h2.shared]; exact hr.fit
  · rw [h2.shared]; exact Nat.le_trans hr.len h2.len

theorem transform_state {env : Env} {t : T} {raw : Str} {s : St} : (transform env t raw s).2 = (baseTransform env t raw s).2.gc ∧
    ∀ out, (transform env t raw s).1 = .ok out → (transformNoValidation env t raw s).1 = .ok out := by
  have hn : transformNoValidation env t raw s = ((baseTransform env t raw s).1, (baseTransform env t raw s).2.gc) := rfl
  unfold transform validated
  rw [M.bind_apply, hn]
  rcases (baseTransform env t raw s).1 with out | _ | _
  · simp only
    rcases env.lib.validate out with _ | (_ | _) <;> simp [M.fail, Pure.pure, M.pure]
  · simp
  · simp

theorem rest_calls {t : T} {fmt : Format} : ∀ {history : List (Env × Str)} {s : St}, (∀ c ∈ history, c.1.fmt = fmt) → Rest fmt t s → Rest fmt t (afterCalls t history s)
  | [], _, _, h => h
  | (env, raw) :: rest, s, hc, h => by
    have h0 : env.fmt = fmt := hc (env, raw) (by simp)
    subst h0
    rw [afterCalls]
    refine rest_calls (fun c h => hc c (by simp [h])) ?_
    rw [transform_state.1]
    exact gc_rest (rest_base h)

end Frame

theorem Spec.SchemaInst.inner {sc : Schema} {q r : P} (h : SchemaInst sc q) (hr : Inst q r) : SchemaInst sc r := by
  rcases h with ⟨m, k, p, h1, h2, h3⟩ | ⟨p, h1, h2⟩
  · exact .inl ⟨m, k, p, h1, h2, JT.Inst.trans h3 hr⟩
  · exact .inr ⟨p, h1, JT.Inst.trans h2 hr⟩

open Frame in
theorem shaped_call {env0 : Env} {sc : Schema} {ident : Str} {t : T} {s0 : St} (hb : newTransformer env0 sc ident = .ok (t, s0)) {env : Env} (hs : FreshSchema env.fmt ident sc)
    {history : List (Env × Str)} (hh : ∀ c ∈ history, c.1.fmt = env.fmt) {raw out : Str} (ho : (transformNoValidation env t raw (afterCalls t history s0)).1 = .ok out) :
    ∃ p, env.lib.marshal p = some out ∧ ShapedSchema env.fmt sc p := by
  have hr := rest_calls hh (rest_new hb hs)
  obtain ⟨_, _, _, _, hq⟩ := bd_base (raw := raw) hr
  obtain ⟨h, B, v, p, hv, hrep, hm⟩ := hq out ho
  refine ⟨p, hm, ?_⟩
  rcases hv with rfl | hv
  · exact .inl ((Frame.nil_iff hrep).1 rfl)
  · refine .inr ?_
    rcases newTransformer_mirrors hb hs.plain with ⟨m, cs, e1, e2, rfl, e3, e4, e5⟩ | ⟨q, c, e1, e2, rfl, e3⟩
    · refine .inl ?_
      cases hv with
      | @object _ _ _ _ a mv f h1 h2 h3 h4 h5 h6 h7 =>
        obtain ⟨ps, rfl, hk, hps⟩ := rep_map hrep h2
        refine ⟨m, ps, e1, rfl, ?_, sorted_of_keys hk h4, ?_⟩
        · rintro rfl
          exact h3 (List.map_eq_nil_iff.1 hk)
        · intro kw hkw
          obtain ⟨kv, hkv, ek, er⟩ := hps kw hkw
          obtain ⟨q, hq, hqm⟩ := mirrorsKids_mem e5 _ (h6 kv hkv)
          rw [← ek]
          exact ⟨fun e => h5 kv hkv ((Frame.nil_iff er).2 e), q, hq, shaped_of_shp (h7 kv hkv) hqm er⟩
    · refine .inr ?_
      cases hv with
      | @array _ _ _ _ a l pass h1 h2 h3 h4 h5 h6 =>
        obtain ⟨ps, rfl, hlen, hps⟩ := rep_list hrep h2
        refine ⟨q, ps, e2, rfl, ?_, ?_⟩
        · rintro rfl
          exact h3 (List.length_eq_zero_iff.1 hlen)
        · intro w hw
          obtain ⟨v, hv, hvr⟩ := hps w hw
          refine ⟨fun e => h4 v hv ((Frame.nil_iff hvr).2 e), ?_⟩
          by_cases hp : pass v
          · obtain ⟨hx, hd | ⟨s, rfl⟩⟩ := h5 v hv hp
            · exact absurd rfl hd
            · exact .inl ⟨hx, s, rep_sc_iff.1 hvr⟩
          · exact .inr (shaped_of_shp (h6 v hv hp) e3 hvr)

/-- **C98** for schemas with plain property names whose objects have no default and, for JSON input, no transform of their own: the output of every successful call, with or without
validation and after any calls before, has the shape of the schema.  Transforms and defaults of scalars and arrays, every method and operation, and every choice of the
run time are allowed.  Missing: defaults and (for JSON) transforms of objects, for which the statement is false. -/
theorem C98_partial {env0 : Env} {sc : Schema} {ident : Str} {t : T} {s0 : St} (hb : newTransformer env0 sc ident = .ok (t, s0)) {env : Env} (hs : FreshSchema env.fmt ident sc)
    {history : List (Env × Str)} (hh : ∀ c ∈ history, c.1.fmt = env.fmt) {raw out : Str}
    (ho : (transform env t raw (afterCalls t history s0)).1 = .ok out ∨ (transformNoValidation env t raw (afterCalls t history s0)).1 = .ok out) :
    ∃ p, env.lib.marshal p = some out ∧ ShapedSchema env.fmt sc p :=
  shaped_call hb hs hh (ho.elim (Frame.transform_state.2 out) id)

/-! ### Places -/

theorem Spec.HasShape.object_inv {fmt : Format} {q v : P} (h : HasShape fmt q v) (ho : ObjectInst q) : ∃ m o, q.key g!"properties" = some (.obj m) ∧ v = .obj o ∧ o ≠ [] ∧ GMap.Sorted o ∧
    ∀ kv ∈ o, kv.2 ≠ nilP ∧ ∃ q', (kv.1, q') ∈ m ∧ HasShape fmt q' kv.2 := by
  cases h with
  | scalar h =>
    obtain ⟨ty0, nu, h1, h2, h3, -⟩ := h
    obtain ⟨⟨nu', h4⟩, h5⟩ := ho
    rw [h4, Res.ok.injEq, Prod.mk.injEq] at h1
    exact absurd (h3 h1.1.symm) h5
  | array _ h =>
    obtain ⟨nu, h⟩ := h
    obtain ⟨⟨nu', h4⟩, h5⟩ := ho
    rw [h4, Res.ok.injEq, Prod.mk.injEq] at h
    exact absurd h.1 (by decide)
  | object f h1 h2 h3 h4 h5 h6 h7 => exact ⟨_, _, h2, rfl, h3, h4, fun kv hkv => ⟨h5 kv hkv, f kv, h6 kv hkv, h7 kv hkv⟩⟩

theorem Spec.HasShape.array_inv {q v : P} (h : HasShape .json q v) (ho : ArrayDef q) : ∃ items l, q.key g!"items" = some items ∧ v = .arr l ∧ l ≠ [] ∧
    ∀ w ∈ l, w ≠ nilP ∧ HasShape .json items w := by
  cases h with
  | scalar h =>
    obtain ⟨ty0, nu, h1, h2, h3, -⟩ := h
    obtain ⟨nu', h4⟩ := ho
    rw [h4, Res.ok.injEq, Prod.mk.injEq] at h1
    exact absurd h1.1.symm h2
  | array other h1 h2 h3 h4 h5 h6 =>
    refine ⟨_, _, h2, rfl, h3, fun w hw => ⟨h4 w hw, h6 w hw fun h => ?_⟩⟩
    have := (h5 w hw h).1
    contradiction
  | object f h =>
    obtain ⟨⟨nu, h⟩, _⟩ := h
    obtain ⟨nu', h4⟩ := ho
    rw [h4, Res.ok.injEq, Prod.mk.injEq] at h
    exact absurd h.1 (by decide)

theorem key_unique {m : List (Str × P)} (h : (m.map Prod.fst).Nodup) {k : Str} {a b : P} (ha : (k, a) ∈ m) (hb : (k, b) ∈ m) : a = b := by
  have h1 := GMap.get_mem_nodup h ha
  rw [GMap.get_mem_nodup h hb, Option.some.injEq] at h1
  exact h1.symm

theorem place_shaped {ident : Str} {sc : Schema} (hs : FreshSchema .json ident sc) {p : P} (hp : ShapedSchema .json sc p) {q v : P} (h : Place sc p q v) :
    SchemaInst sc q ∧ v ≠ nilP ∧ HasShape .json q v := by
  induction h with
  | @prop m o k q v h1 h2 h3 h4 =>
    subst h3
    refine ⟨.inl ⟨m, k, q, h1, h2, .self q⟩, ?_⟩
    rcases hp with hp | ⟨m', o', e1, e2, e3, e4, e5⟩ | ⟨q', l, e1, e2, -⟩
    · cases hp
    · cases e2
      rw [h1, Option.some.injEq] at e1
      subst e1
      obtain ⟨g1, q', g2, g3⟩ := e5 _ h4
      rw [key_unique (hs.plain.1 m h1).1 h2 g2]
      exact ⟨g1, g3⟩
    · cases e2
  | @item l q v h1 h2 h3 =>
    subst h2
    refine ⟨.inr ⟨q, h1, .self q⟩, ?_⟩
    rcases hp with hp | ⟨m', o', e1, e2, -⟩ | ⟨q', l', e1, e2, e3, e4⟩
    · cases hp
    · cases e2
    · cases e2
      rw [h1, Option.some.injEq] at e1
      subst e1
      obtain ⟨g1, g2 | g2⟩ := e4 v h3
      · exact absurd g2.1 (by simp)
      · exact ⟨g1, g2⟩
  | @inner q q' v m o k h1 h2 h3 h4 h5 ih =>
    obtain ⟨i1, i2, i3⟩ := ih
    obtain ⟨m', o', e1, e2, -, -, e5⟩ := i3.object_inv h2
    cases e2
    rw [h3, Option.some.injEq, P.obj.injEq] at e1
    subst e1
    obtain ⟨g1, q1, g2, g3⟩ := e5 _ h5
    rw [key_unique ((hs.plain.2 q i1) m h3).1 h4 g2]
    exact ⟨SchemaInst.inner i1 (.prop (.self q) h3 g2), g1, g3⟩
  | @elem q q' v l h1 h2 h3 h4 ih =>
    obtain ⟨i1, i2, i3⟩ := ih
    obtain ⟨items, l', e1, e2, -, e4⟩ := i3.array_inv h2
    cases e2
    rw [h3, Option.some.injEq] at e1
    subst e1
    obtain ⟨g1, g2⟩ := e4 v h4
    exact ⟨SchemaInst.inner i1 (.items (.self q) h3), g1, g2⟩

/-- **C07 at every place, full statement**: for JSON input, nothing in the output at a place of the schema is null. -/
def C07_places_statement : Prop :=
  ∀ (env0 : Env) (sc : Schema) (ident : Str) (t : T) (s0 : St), newTransformer env0 sc ident = .ok (t, s0) → PlainSchema sc →
    ∀ (env : Env) (raw out : Str), env.fmt = .json → (transformNoValidation env t raw s0).1 = .ok out →
      ∃ p, env.lib.marshal p = some out ∧ ∀ q v, Place sc p q v → v ≠ nilP

/-- **C07** at every place of the output, for JSON input and schemas with plain property names whose objects have neither a default nor a transform of their own: no place holds a
null; at the place of an object instance is an object with at least one property, all of them declared; at the place of an array instance is a non-empty array. -/
theorem C07_places_partial {env0 : Env} {sc : Schema} {ident : Str} {t : T} {s0 : St} (hb : newTransformer env0 sc ident = .ok (t, s0)) {env : Env} (hf : env.fmt = .json)
    (hs : FreshSchema .json ident sc) {history : List (Env × Str)} (hh : ∀ c ∈ history, c.1.fmt = .json) {raw out : Str}
    (ho : (transform env t raw (afterCalls t history s0)).1 = .ok out ∨ (transformNoValidation env t raw (afterCalls t history s0)).1 = .ok out) :
    ∃ p, env.lib.marshal p = some out ∧ ∀ q v, Place sc p q v → v ≠ nilP ∧
      (ObjectInst q → ∃ m o, q.key g!"properties" = some (.obj m) ∧ v = .obj o ∧ o ≠ [] ∧ ∀ kv ∈ o, kv.2 ≠ nilP ∧ kv.1 ∈ m.map Prod.fst) ∧
      (ArrayDef q → ∃ l, v = .arr l ∧ l ≠ [] ∧ ∀ w ∈ l, w ≠ nilP) := by
  obtain ⟨p, h1, h2⟩ := C98_partial hb (by rw [hf]; exact hs) (by rw [hf]; exact hh) ho
  rw [hf] at h2
  refine ⟨p, h1, fun q v hpl => ?_⟩
  obtain ⟨-, g1, g2⟩ := place_shaped hs h2 hpl
  refine ⟨g1, fun ho => ?_, fun ha => ?_⟩
  · obtain ⟨m, o, e1, e2, e3, -, e5⟩ := g2.object_inv ho
    exact ⟨m, o, e1, e2, e3, fun kv hkv => ⟨(e5 kv hkv).1, by obtain ⟨q', hq, -⟩ := (e5 kv hkv).2; exact List.mem_map.2 ⟨_, hq, rfl⟩⟩⟩
  · obtain ⟨items, l, -, e2, e3, e4⟩ := g2.array_inv ha
    exact ⟨l, e2, e3, fun w hw => (e4 w hw).1⟩

/-! ### Concrete cases -/

namespace Spec
/-- Computable check for the covered schemas. -/
def freshInstB (json : Bool) (ident : Str) (q : P) : Bool :=
  plainPropsB q && (!objectInstB q || (isNilB ((q.key g!"default").getD nilP) && (!json || noTransformB ident q)))

def freshSchemaB (json : Bool) (ident : Str) (n : Nat) (sc : Schema) : Bool :=
  checkSchema (freshInstB json ident) n sc && match sc.properties with
    | some m => plainMapB m
    | none => true

theorem freshSchemaB_sound {fmt : Format} {ident : Str} {n : Nat} {sc : Schema} (h : freshSchemaB (match fmt with | .json => true | .xml => false) ident n sc = true) : FreshSchema fmt ident sc := by
  unfold freshSchemaB at h
  rw [Bool.and_eq_true] at h
  have key : ∀ q, SchemaInst sc q → freshInstB _ ident q = true := fun q hq => checkSchema_sound h.1 hq
  refine ⟨⟨?_, ?_⟩, ?_, ?_⟩
  · intro m hm
    rw [hm] at h
    exact plainMapB_sound h.2
  · intro q hq
    have := key q hq
    simp only [freshInstB, Bool.and_eq_true] at this
    exact plainPropsB_sound this.1
  · intro q hq hcq
    have := key q hq
    simp only [freshInstB, Bool.and_eq_true, objectInstB_complete hcq, Bool.not_true, Bool.false_or] at this
    have := this.2.1
    unfold NoDefault
    generalize (q.key g!"default").getD nilP = d at this
    unfold isNilB at this
    split at this
    · rfl
    · contradiction
  · rintro rfl q hq hcq
    have := key q hq
    simp only [freshInstB, Bool.and_eq_true, objectInstB_complete hcq, Bool.not_true, Bool.false_or] at this
    exact noTransformB_sound this.2.2

def plainSchemaB (n : Nat) (sc : Schema) : Bool := checkSchema plainPropsB n sc && match sc.properties with
    | some m => plainMapB m
    | none => true

theorem plainSchemaB_sound {n : Nat} {sc : Schema} (h : plainSchemaB n sc = true) : PlainSchema sc := by
  unfold plainSchemaB at h
  rw [Bool.and_eq_true] at h
  refine ⟨fun m hm => ?_, fun q hq => plainPropsB_sound (checkSchema_sound h.1 hq)⟩
  rw [hm] at h
  exact plainMapB_sound h.2
end Spec

namespace C98ex
open Toy

def docs : List (Str × P) := [(g!"in", o [(g!"a", a [o [(g!"c", a [s g!"x"])], o [], s g!"y"]), (g!"p", s g!"q")]), (g!"none", o [])]

/-- An array with a default whose items are objects with an array, a text with a transform with method `last`, an object with one optional text. -/
def sc : Schema := ⟨some [
  (g!"a", o [(g!"type", s g!"array"), (g!"default", a [o []]), (g!"items", o [(g!"type", s g!"object"), (g!"properties", o [
    (g!"c", o [(g!"type", s g!"array"), (g!"items", o [(g!"type", s g!"string")])])])])]),
  (g!"o", o [(g!"type", s g!"object"), (g!"properties", o [(g!"z", o [(g!"type", s g!"string")])])]),
  (g!"x", strFrom g!"last" [g!"$.q", g!"$.p"])], none⟩

/-- The same with a default for the object. -/
def dflt : Schema := ⟨some [
  (g!"o", o [(g!"type", s g!"object"), (g!"default", o [(g!"z", .sc .nil)]), (g!"properties", o [(g!"z", o [(g!"type", s g!"string")])])])], none⟩

def run (e : Env) (sc : Schema) (raw : Str) : Option (Res Str) := match newTransformer e sc g!"t" with
  | .ok (t, s0) => some (transformNoValidation e t raw s0).1
  | _ => none

example : run (env docs) sc g!"in" = some (.ok g!"{a:[{c:[\"x\"]}],x:\"q\"}") := by decide +kernel
example : run (env docs) sc g!"none" = some (.ok g!"null") := by decide +kernel

theorem covered (fmt : Format) : FreshSchema fmt g!"t" sc := by
  cases fmt
  · exact freshSchemaB_sound (n := 5) (by decide +kernel)
  · exact freshSchemaB_sound (n := 5) (by decide +kernel)
theorem built : (match newTransformer (env docs) sc g!"t" with | .ok _ => true | _ => false) = true := by decide +kernel

/-- The hypotheses are met, after any calls. -/
example (history : List Str) (raw out : Str) : ∃ t s0, newTransformer (env docs) sc g!"t" = .ok (t, s0) ∧
    ((transform (env docs) t raw (afterCalls t (history.map fun r => (env docs, r)) s0)).1 = .ok out → ∃ p, (env docs).lib.marshal p = some out ∧ ShapedSchema .json sc p) := by
  have h := built
  split at h
  · rename_i r hr
    refine ⟨r.1, r.2, hr, fun ho => C98_partial (env := env docs) hr (covered .json) ?_ (.inl ho)⟩
    intro c hc
    obtain ⟨_, _, rfl⟩ := List.mem_map.1 hc
    rfl
  · contradiction

/-- A renderer that only accepts an object with an object with a null. -/
def render : P → Option Str
  | .obj [(['o'], .obj [(['z'], .sc .nil)])] => some g!"bad"
  | _ => none

def e : Env := { env docs with lib := { (env docs).lib with marshal := render } }

theorem bad : run e dflt g!"none" = some (.ok g!"bad") := by decide +kernel
theorem bad_plain : PlainSchema dflt := plainSchemaB_sound (n := 5) (by decide +kernel)

theorem render_bad {p : P} (h : render p = some g!"bad") : p = .obj [(['o'], .obj [(['z'], .sc .nil)])] := by
  unfold render at h
  split at h
  · rfl
  · contradiction

theorem dflt_built : ∃ t s0, newTransformer e dflt g!"t" = .ok (t, s0) ∧ (transformNoValidation e t g!"none" s0).1 = .ok g!"bad" := by
  have h := bad
  unfold run at h
  split at h
  · rename_i t s0 hb
    exact ⟨t, s0, hb, Option.some.inj h⟩
  · contradiction
end C98ex

/-- C98 is false in general: the entries of the default of an object are part of the output, here a null. -/
theorem C98_refuted : ¬ C98_statement := by
  intro hc
  obtain ⟨t, s0, hb, ho⟩ := C98ex.dflt_built
  obtain ⟨p, hp, hs⟩ := hc _ _ _ t s0 hb C98ex.bad_plain [] C98ex.e g!"none" g!"bad" (by simp) ho
  cases C98ex.render_bad hp
  rcases hs with hs | ⟨m, o, e1, e2, -, -, e5⟩ | ⟨q, l, -, e2, -⟩
  · cases hs
  · cases e2
    obtain ⟨-, q, hq, hsh⟩ := e5 (['o'], .obj [(['z'], .sc .nil)]) (by simp)
    cases e1
    simp only [List.mem_singleton, Prod.mk.injEq] at hq
    obtain ⟨_, rfl⟩ := hq
    obtain ⟨m, o, -, e2, -, -, e5⟩ := hsh.object_inv ⟨⟨false, by decide +kernel⟩, by simp [Toy.o, P.key, GMap.get]⟩
    cases e2
    exact (e5 (['z'], .sc .nil) (by simp)).1 rfl
  · cases e2

/-- C07 is false in general, for the same reason. -/
theorem C07_refuted : ¬ C07_places_statement := by
  intro hc
  obtain ⟨t, s0, hb, ho⟩ := C98ex.dflt_built
  obtain ⟨p, hp, hs⟩ := hc _ _ _ t s0 hb C98ex.bad_plain C98ex.e g!"none" g!"bad" rfl ho
  cases C98ex.render_bad hp
  refine hs _ (.sc .nil) (.inner (k := g!"z") (.prop (k := g!"o") rfl (by simp [C98ex.dflt]; rfl) rfl (by simp; rfl)) ⟨⟨false, by decide +kernel⟩, ?_⟩ rfl (by simp; rfl) (by simp)) rfl
  simp [Toy.o, P.key, GMap.get]

end JT
