import Verif.Props.C06
/- C27 and C28: objects and scalars of XML documents. -/
namespace JT
open Spec

namespace Spec
/-- The children of an object are evaluated one after the other, each against the input `inp`, and their values saved in the object's map
`obj` under their own names. -/
inductive KidsSaved (inp : V) (mod : Mod) (objPath : Str) (obj : Addr) : List (Str × TF) → St → St → Prop
  | nil {s : St} : KidsSaved inp mod objPath obj [] s s
  | cons {path : Str} {child : TF} {rest : List (Str × TF)} {v : V} {s s1 s2 s3 : St} : child inp mod s = (.ok v, s1) →
      saveInTree obj (replace1 path objPath g!"$") v s1 = (.ok (), s2) → KidsSaved inp mod objPath obj rest s2 s3 →
      KidsSaved inp mod objPath obj ((path, child) :: rest) s s3

/-- The object is filled from its children, all evaluated against `inp` in some order; an object that stays empty is nil. -/
def FilledFrom (inp : V) (mod : Mod) (objPath : Str) (dflt : Option Addr) (kids : List (Str × TF)) (s : St) (v : V) (s' : St) : Prop :=
  ∃ obj order s1 m, (match dflt with
      | some a => obj = a ∧ s1.heap = s.heap
      | none => s.heap[obj]? = none ∧ s1.heap = s.heap ++ [.map []]) ∧
    order.Perm kids ∧ KidsSaved inp mod objPath obj order s1 s' ∧ s'.heap[obj]? = some (.map m) ∧
    v = if m = [] then V.nil else .obj obj
end Spec

theorem childrenLoop_saved {objPath : Str} {inp : V} {mod : Mod} {obj : Addr} : ∀ {kids : List (Str × TF)} {s s' : St},
    childrenLoop objPath inp mod obj kids s = (.ok (), s') → KidsSaved inp mod objPath obj kids s s'
  | [], s, s', h => by
    simp only [childrenLoop, M.pure_apply, Prod.mk.injEq] at h
    obtain ⟨_, rfl⟩ := h
    exact .nil
  | (p, c) :: rest, s, s', h => by
    rw [childrenLoop] at h
    obtain ⟨v, s1, h1, k⟩ := M.ok_bind h
    obtain ⟨_, s2, h2, k⟩ := M.ok_bind k
    exact .cons h1 h2 (childrenLoop_saved k)

theorem objFinish_filled {env : Env} {path : Str} {kids : List (Str × TF)} {inp : V} {mod : Mod} {dflt : Option Addr} {s s' : St} {v : V}
    (h : (objStart dflt >>= objFinish env path kids inp mod) s = (.ok v, s')) : FilledFrom inp mod path dflt kids s v s' := by
  obtain ⟨obj, s1, h1, k⟩ := M.ok_bind h
  unfold objFinish at k
  obtain ⟨n, s2, h2, k⟩ := M.ok_bind k
  obtain ⟨_, s3, h3, k⟩ := M.ok_bind k
  obtain ⟨m, s4, h4, kk⟩ := M.ok_bind k
  have hkids := childrenLoop_saved h3
  have hm : s4 = s3 ∧ s3.heap[obj]? = some (.map m) := by
    unfold readMap at h4
    split at h4
    · rename_i hh
      simp only [Prod.mk.injEq, Res.ok.injEq] at h4
      obtain ⟨rfl, rfl⟩ := h4
      exact ⟨rfl, hh⟩
    · simp at h4
  obtain ⟨rfl, hm⟩ := hm
  have hv : s' = s4 ∧ v = if m = [] then V.nil else .obj obj := by
    split at kk
    · rename_i hn
      injection kk with k1 k2
      injection k1 with k1
      exact ⟨k2.symm, by simp [hn, k1]⟩
    · rename_i hn
      injection kk with k1 k2
      injection k1 with k1
      exact ⟨k2.symm, by simp [hn, k1]⟩
  obtain ⟨rfl, hv⟩ := hv
  refine ⟨obj, _, s2, m, ?_, env.sched.isPerm _ _ _, hkids, hm, hv⟩
  simp only [nextTick, Prod.mk.injEq, Res.ok.injEq] at h2
  obtain ⟨_, rfl⟩ := h2
  cases dflt with
  | some a =>
    simp only [objStart, M.pure_apply, Prod.mk.injEq, Res.ok.injEq] at h1
    obtain ⟨rfl, rfl⟩ := h1
    exact ⟨rfl, rfl⟩
  | none =>
    simp only [objStart, alloc, Prod.mk.injEq, Res.ok.injEq] at h1
    obtain ⟨rfl, rfl⟩ := h1
    exact ⟨by simp, rfl⟩

namespace Spec
/-- What an object instance of an XML document gives: `getT` is its transform, if it has one. -/
inductive XmlObject (getT : Option (M V)) (inp : V) (mod : Mod) (path : Str) (dflt : Option Addr) (kids : List (Str × TF)) (s : St) : V → St → Prop
  /-- no transform: the children are evaluated against the whole input -/
  | plain {v : V} {s' : St} : getT = none → FilledFrom inp mod path dflt kids s v s' → XmlObject getT inp mod path dflt kids s v s'
  /-- the transform gives nothing: the default, or nothing; the children are not evaluated -/
  | absent {t : M V} {s' : St} {v : V} : getT = some t → t s = (.ok V.nil, s') → (v = match dflt with | some a => .obj a | none => V.nil) →
      XmlObject getT inp mod path dflt kids s v s'
  /-- an empty tag: nothing -/
  | emptyTag {t : M V} {s' : St} : getT = some t → t s = (.ok (.sc (.str [])), s') → XmlObject getT inp mod path dflt kids s V.nil s'
  /-- nodes: the children are evaluated against the first one -/
  | node {t : M V} {x : V} {n : NodeId} {v : V} {s1 s' : St} : getT = some t → t s = (.ok x, s1) →
      (x = .sc (.node n) ∨ ∃ l, x = .sc (.nodes (n :: l))) → FilledFrom (.sc (.node n)) mod path dflt kids s1 v s' →
      XmlObject getT inp mod path dflt kids s v s'
  /-- an empty list of nodes (an operation may produce it): as without transform -/
  | noNodes {t : M V} {v : V} {s1 s' : St} : getT = some t → t s = (.ok (.sc (.nodes [])), s1) → FilledFrom inp mod path dflt kids s1 v s' →
      XmlObject getT inp mod path dflt kids s v s'
end Spec

/-- **C27**: what an object instance of an XML document gives when its evaluation succeeds. -/
theorem C27 {env : Env} (hf : env.fmt = .xml) {path : Str} {dflt : Option Addr} {tid : Option Nat} {cs : List (Str × T)} {inp : V} {mod : Mod}
    {s s' : St} {v : V} (h : (T.object path dflt tid cs).run env inp mod s = (.ok v, s')) :
    XmlObject (tid.map (instrsRun env inp g!"object" mod)) inp mod path dflt (T.runKids env cs) s v s' := by
  rw [T.run] at h
  unfold runObject at h
  simp only [hf] at h
  cases tid with
  | none => exact .plain rfl (objFinish_filled h)
  | some t =>
    simp only at h
    obtain ⟨x, s1, h1, k⟩ := M.ok_bind h
    split at k
    · split at k
      · simp only [M.pure_apply, Prod.mk.injEq, Res.ok.injEq] at k
        obtain ⟨rfl, rfl⟩ := k
        exact .absent rfl h1 rfl
      · simp only [M.pure_apply, Prod.mk.injEq, Res.ok.injEq] at k
        obtain ⟨rfl, rfl⟩ := k
        exact .absent rfl h1 rfl
    · simp only [M.pure_apply, Prod.mk.injEq, Res.ok.injEq] at k
      obtain ⟨rfl, rfl⟩ := k
      exact .emptyTag rfl h1
    · exact .node rfl h1 (Or.inl rfl) (objFinish_filled k)
    · exact .noNodes rfl h1 (objFinish_filled k)
    · exact .node rfl h1 (Or.inr ⟨_, rfl⟩) (objFinish_filled k)
    · simp [M.fail] at k

/-- The matches of a path: the library finds `all`, of which those with child elements and those without make up the whole. -/
structure Spec.Matches (env : Env) (n : NodeId) (path : Str) (all withKids leaves : List NodeId) : Prop where
  findAll : env.lib.xfind n path = some all
  findKids : env.lib.xfind n (path ++ g!"[*]") = some withKids
  findLeaves : env.lib.xfind n (path ++ g!"[not(*)]") = some leaves
  total : all.length = withKids.length + leaves.length

theorem xfind_apply {env : Env} {n : NodeId} {path : Str} {l : List NodeId} (h : env.lib.xfind n path = some l) (s : St) :
    xfind env n path s = (.ok l, s) := by unfold xfind; rw [h]; rfl

theorem convertV_str (env : Env) (x : Str) (s : St) : convertV env g!"string" (.sc (.str x)) s = (.ok ⟨.sc (.str x), false⟩, s) := by
  unfold convertV
  rw [M.bind_apply]
  rfl

/-- **C28**, strings: an instruction of a string instance gives the texts of all matched nodes in document order, separated by blanks, and
passes them through its operations; nothing if there is no match. -/
theorem C28_string {env : Env} {n : NodeId} {mod : Mod} {ti : Instr} {all wk lv : List NodeId} (hf : env.fmt = .xml)
    (h : Matches env n (mod ti.xmlPath) all wk lv) (s : St) :
    instrRun env (.sc (.node n)) g!"string" mod ti s =
      if all = [] then (.ok V.nil, s) else runOps env ti.ops (.sc (.str (join g!" " (all.map env.lib.innerText)))) s := by
  unfold instrRun
  simp only [hf, instrXML]
  rw [M.bind_ok (xfind_apply h.findAll s)]
  cases all with
  | nil => rfl
  | cons first others =>
    simp only
    rw [M.bind_ok (xfind_apply h.findKids s), M.bind_ok (xfind_apply h.findLeaves s)]
    have ht := h.total
    have hv : xmlValue env g!"string" first (first :: others) wk.length lv.length s =
        (.ok (.sc (.str (join g!" " ((first :: others).map env.lib.innerText)))), s) := by
      unfold xmlValue
      by_cases hc : wk.length = 0 ∧ lv.length = 1
      · rw [if_pos hc, M.bind_ok (convertV_str env _ s)]
        rw [List.length_cons] at ht
        obtain rfl : others = [] := List.length_eq_zero_iff.1 (by omega)
        rfl
      · rw [if_neg hc, if_neg (by decide), if_pos rfl]
        rfl
    rw [M.bind_ok hv]
    rfl

/-- **C28**, other scalar types: the text of the first match converted to the type, passed through the operations.  A text that does not
convert: with a single match the value that conversion returns beside the error (nothing, or `false` for booleans) is used, with several
the nodes themselves go to the operations. -/
theorem C28_scalar {env : Env} {n : NodeId} {mod : Mod} {ti : Instr} {first : NodeId} {others wk lv : List NodeId} {ty : Str}
    (hf : env.fmt = .xml) (hty : ty ≠ g!"string" ∧ ty ≠ g!"array" ∧ ty ≠ g!"object")
    (h : Matches env n (mod ti.xmlPath) (first :: others) wk lv) (s : St) (c : Conv V)
    (hc : convertV env ty (.sc (.str (env.lib.innerText first))) s = (.ok c, s)) :
    instrRun env (.sc (.node n)) ty mod ti s =
      ((if c.err = true ∧ ¬ (wk = [] ∧ others = []) then Pure.pure (.sc (.nodes (first :: others))) else materialize c.val) >>= fun v =>
        if v = V.nil then Pure.pure V.nil else runOps env ti.ops v) s := by
  unfold instrRun
  simp only [hf, instrXML]
  rw [M.bind_ok (xfind_apply h.findAll s)]
  simp only
  rw [M.bind_ok (xfind_apply h.findKids s), M.bind_ok (xfind_apply h.findLeaves s)]
  have ht := h.total
  rw [List.length_cons] at ht
  have hv : xmlValue env ty first (first :: others) wk.length lv.length s =
      (if c.err = true ∧ ¬ (wk = [] ∧ others = []) then Pure.pure (.sc (.nodes (first :: others))) else materialize c.val) s := by
    unfold xmlValue
    by_cases hc' : wk.length = 0 ∧ lv.length = 1
    · rw [if_pos hc', M.bind_ok hc]
      have h1 : wk = [] := List.length_eq_zero_iff.1 hc'.1
      have h2 : others = [] := List.length_eq_zero_iff.1 (by omega)
      rw [if_neg (by simp [h1, h2])]
    · rw [if_neg hc', if_neg (by simp [hty]), if_neg hty.1, M.bind_ok hc]
      have h1 : ¬ (wk = [] ∧ others = []) := by
        rintro ⟨rfl, rfl⟩
        simp at ht hc'
        omega
      simp only [h1, not_false_eq_true, and_true]
  rw [M.bind_apply, M.bind_apply, hv]

/-- **C28**, the instance itself: its value is that of its transform, and the default if there is no transform or it gives no value. -/
theorem C28_default {env : Env} (hf : env.fmt = .xml) (path ty : Str) (dflt : V) (tid : Option Nat) (inp : V) (mod : Mod) (s : St) :
    (tid = none → (T.scalar path ty dflt tid).run env inp mod s = (.ok dflt, s)) ∧
    (∀ t v s', tid = some t → instrsRun env inp ty mod t s = (.ok v, s') →
      (T.scalar path ty dflt tid).run env inp mod s = (.ok (if v = V.nil then dflt else v), s')) ∧
    (∀ t s', tid = some t → instrsRun env inp ty mod t s = (.err, s') → (T.scalar path ty dflt tid).run env inp mod s = (.err, s')) := by
  rw [T.run]
  unfold runScalar
  simp only [hf]
  refine ⟨?_, ?_, ?_⟩
  · rintro rfl
    rfl
  · rintro t v s' rfl h
    simp only [optInstrs]
    rw [M.bind_ok h]
    by_cases hv : v = V.nil
    · simp [hv, M.pure_apply]
    · simp [hv, M.pure_apply]
  · rintro t s' rfl h
    simp only [optInstrs]
    rw [M.bind_apply, h]

namespace C27ex
open Toy
/-- A document with node 0 containing two `b` (nodes 1, 2, without children) with texts x and y. -/
def lib' : Lib := { lib [] with
  xfind := fun n p => if n = 0 ∧ (p = g!"b" ∨ p = g!"b[not(*)]") then some [1, 2] else some []
  innerText := fun n => if n = 1 then g!"x" else if n = 2 then g!"y" else [] }
def env' : Env := ⟨lib', Sched.id, .xml⟩
def st : St := ⟨[], [⟨[⟨[], g!"b", []⟩], .first, []⟩], 0, [], [], 0⟩
example : Matches env' 0 g!"b" [1, 2] [] [1, 2] := ⟨by decide, by decide, by decide, by decide⟩
example : (instrRun env' (.sc (.node 0)) g!"string" id ⟨[], g!"b", []⟩ st).1 = .ok (.sc (.str g!"x y")) := by decide +kernel
def kid : T := .scalar g!"$.a[*]" g!"string" (.sc (.str g!"d")) none
/-- A scalar whose transform matches; one whose transform does not. -/
example : ((T.scalar g!"$.a" g!"string" (.sc (.str g!"d")) (some 0)).run env' (.sc (.node 0)) id st).1 = .ok (.sc (.str g!"x y")) := by decide +kernel
example : ((T.scalar g!"$.a" g!"string" (.sc (.str g!"d")) (some 0)).run env' (.sc (.node 7)) id st).1 = .ok (.sc (.str g!"d")) := by decide +kernel
/-- An array over the matched nodes: one item each. -/
example : ((T.array g!"$.a" none (some 0) (some kid)).run env' (.sc (.node 0)) id st).2.heap.getLast? = some (.slice [.sc (.str g!"d"), .sc (.str g!"d")]) := by
  decide +kernel
/-- An object whose transform matches; one whose transform does not. -/
def obj : T := .object g!"$.o" none (some 0) [(g!"k", .scalar g!"$.o.k" g!"string" (.sc (.str g!"d")) none)]
example : (obj.run env' (.sc (.node 0)) id st).1 = .ok (.obj 0) := by decide +kernel
example : (obj.run env' (.sc (.node 7)) id st).1 = .ok V.nil := by decide +kernel
end C27ex

end JT
