import Verif.Props.C08
/- C06 (array precedence, JSON) and C29 (XML arrays).  Both hold for every state, schema node, input and path modifier. -/
namespace JT
open Spec

namespace Spec

/-- `a` is a slice for the value `v`: `v` itself if it is an array, otherwise a new slice with `v` as its only entry. -/
inductive SliceFor (v : V) (s : St) : Addr → St → Prop
  | array {a : Addr} : v = .arr a → SliceFor v s a s
  | wrapped {s' : St} {a : Addr} : (∀ b, v ≠ .arr b) → s.heap[a]? = none → s'.heap[a]? = some (.slice [v]) →
      (∀ (b : Nat) (c : Cell), s.heap[b]? = some c → s'.heap[b]? = some c) → s'.instrs = s.instrs → SliceFor v s a s'

/-- The base of an array instance on JSON input, the first available of: transform, input at the same path, default.  `getT` is the
evaluation of the instance's transform (nil if it has none), `getI` reads the input at the instance's path (`none`: no such place). -/
inductive BaseFrom (getT : M V) (getI : M (Option V)) (dflt : Option Addr) (s : St) : Option Addr → St → Prop
  | transform {v : V} {s1 s2 : St} {a : Addr} : getT s = (.ok v, s1) → v ≠ V.nil → SliceFor v s1 a s2 → BaseFrom getT getI dflt s (some a) s2
  | input {v : V} {s1 s2 s3 : St} {a : Addr} : getT s = (.ok V.nil, s1) → getI s1 = (.ok (some v), s2) → v ≠ V.nil → SliceFor v s2 a s3 →
      BaseFrom getT getI dflt s (some a) s3
  | dflt {r : Option V} {s1 s2 : St} : getT s = (.ok V.nil, s1) → getI s1 = (.ok r, s2) → r = none ∨ r = some V.nil → BaseFrom getT getI dflt s dflt s2

/-- Results of running the items number `i`, `i+1`, ..., one after the other. -/
inductive ItemResults (item : Nat → M V) : (i n : Nat) → St → List V → St → Prop
  | nil {i : Nat} {s : St} : ItemResults item i 0 s [] s
  | cons {i n : Nat} {s s1 s2 : St} {v : V} {vs : List V} : item i s = (.ok v, s1) → ItemResults item (i + 1) n s1 vs s2 →
      ItemResults item i (n + 1) s (v :: vs) s2

/-- The array made of the non-nil results; nil if there is none. -/
def IsArrayOf (vs : List V) (v : V) (s : St) : Prop :=
  (vs.filter (· ≠ V.nil) = [] ∧ v = V.nil) ∨
  (vs.filter (· ≠ V.nil) ≠ [] ∧ ∃ a, v = .arr a ∧ s.heap[a]? = some (.slice (vs.filter (· ≠ V.nil))))

/-- Entries of a base. -/
def EntriesOf (base : Option Addr) (s : St) (l : List V) : Prop :=
  match base with
  | none => l = []
  | some a => s.heap[a]? = some (.slice l)

end Spec

theorem asSlice_for (v : V) (s : St) : ∃ a s', asSlice v s = (.ok a, s') ∧ SliceFor v s a s' := by
  unfold asSlice
  cases v with
  | arr a => exact ⟨a, s, rfl, .array rfl⟩
  | sc x =>
    refine ⟨_, _, rfl, .wrapped (by simp) (by simp) (by simp) ?_ rfl⟩
    intro b c hb
    rw [← hb]; exact List.getElem?_append_left (List.getElem?_eq_some_iff.1 hb).1
  | obj x =>
    refine ⟨_, _, rfl, .wrapped (by simp) (by simp) (by simp) ?_ rfl⟩
    intro b c hb
    rw [← hb]; exact List.getElem?_append_left (List.getElem?_eq_some_iff.1 hb).1

theorem M.ok_bind {α β : Type} {x : M α} {f : α → M β} {s s' : St} {b : β} (h : (x >>= f) s = (.ok b, s')) :
    ∃ a s1, x s = (.ok a, s1) ∧ f a s1 = (.ok b, s') := by
  rw [M.bind_apply] at h
  rcases hx : x s with ⟨r, s1⟩
  rw [hx] at h
  cases r with
  | ok a => exact ⟨a, s1, rfl, h⟩
  | err => simp at h
  | panic => simp at h

theorem baseJSON_from {env : Env} {dflt : Option Addr} {tid : Option Nat} {inp : V} {path : Str} {mod : Mod} {s s' : St} {b : Option Addr}
    {c : Bool} (h : baseJSON env dflt tid inp path mod s = (.ok (b, c), s')) :
    BaseFrom (optInstrs env inp g!"array" mod tid) (jpGetV env path inp) dflt s b s' := by
  unfold baseJSON at h
  obtain ⟨v, s1, h1, h⟩ := M.ok_bind h
  by_cases hv : v = V.nil
  · subst hv
    simp only [ne_eq, not_true_eq_false, if_false] at h
    obtain ⟨r, s2, h2, h⟩ := M.ok_bind h
    cases r with
    | none =>
      simp only [M.pure_apply, Prod.mk.injEq, Res.ok.injEq] at h
      obtain ⟨⟨rfl, _⟩, rfl⟩ := h
      exact .dflt h1 h2 (Or.inl rfl)
    | some raw =>
      by_cases hr : raw = V.nil
      · subst hr
        simp only [ne_eq, not_true_eq_false, if_false, M.pure_apply, Prod.mk.injEq, Res.ok.injEq] at h
        obtain ⟨⟨rfl, _⟩, rfl⟩ := h
        exact .dflt h1 h2 (Or.inr rfl)
      · simp only [ne_eq, hr, not_false_eq_true, if_true] at h
        obtain ⟨a, s3, h3, h⟩ := M.ok_bind h
        simp only [M.pure_apply, Prod.mk.injEq, Res.ok.injEq] at h
        obtain ⟨⟨rfl, _⟩, rfl⟩ := h
        obtain ⟨a', s3', he, hs⟩ := asSlice_for raw s2
        rw [he] at h3
        simp only [Prod.mk.injEq, Res.ok.injEq] at h3
        obtain ⟨rfl, rfl⟩ := h3
        exact .input h1 h2 hr hs
  · simp only [ne_eq, hv, not_false_eq_true, if_true] at h
    obtain ⟨a, s3, h3, h⟩ := M.ok_bind h
    simp only [M.pure_apply, Prod.mk.injEq, Res.ok.injEq] at h
    obtain ⟨⟨rfl, _⟩, rfl⟩ := h
    obtain ⟨a', s3', he, hs⟩ := asSlice_for v s1
    rw [he] at h3
    simp only [Prod.mk.injEq, Res.ok.injEq] at h3
    obtain ⟨rfl, rfl⟩ := h3
    exact .transform h1 hv hs

/-- The modifier for item `i` of the array at `path`. -/
abbrev itemMod (path : Str) (mod : Mod) (i : Nat) : Mod := fun p =>
  replace1 (mod p) (path ++ g!"[*]") (path ++ g!"[" ++ itoaNat i ++ g!"]")

theorem itemsLoop_results {child : TF} {inp : V} {path : Str} {mod : Mod} : ∀ {n i : Nat} {acc out : List V} {s s' : St},
    itemsLoop child inp path mod n i acc s = (.ok out, s') →
    ∃ vs, ItemResults (fun i => child inp (itemMod path mod i)) i n s vs s' ∧ out = acc ++ vs.filter (· ≠ V.nil)
  | 0, i, acc, out, s, s', h => by
    simp only [itemsLoop, M.pure_apply, Prod.mk.injEq, Res.ok.injEq] at h
    obtain ⟨rfl, rfl⟩ := h
    exact ⟨[], .nil, by simp⟩
  | n + 1, i, acc, out, s, s', h => by
    rw [itemsLoop] at h
    obtain ⟨v, s1, h1, h⟩ := M.ok_bind h
    obtain ⟨vs, h2, h3⟩ := itemsLoop_results h
    refine ⟨v :: vs, .cons h1 h2, ?_⟩
    rw [h3]
    by_cases hv : v = V.nil <;> simp [hv]

theorem arrayResult_of {l : List V} {v : V} {s s' : St} (h : arrayResult l s = (.ok v, s')) :
    (l = [] ∧ v = V.nil ∧ s' = s) ∨ (l ≠ [] ∧ ∃ a, v = .arr a ∧ s'.heap[a]? = some (.slice l)) := by
  unfold arrayResult at h
  by_cases hl : l = []
  · simp only [hl, if_true, M.pure_apply, Prod.mk.injEq, Res.ok.injEq] at h
    exact Or.inl ⟨hl, h.1.symm, h.2.symm⟩
  · simp only [hl, if_false] at h
    obtain ⟨a, s1, h1, h⟩ := M.ok_bind h
    simp only [M.pure_apply, Prod.mk.injEq, Res.ok.injEq] at h
    simp only [alloc, Prod.mk.injEq, Res.ok.injEq] at h1
    obtain ⟨rfl, rfl⟩ := h1
    obtain ⟨rfl, rfl⟩ := h
    exact Or.inr ⟨hl, _, rfl, by simp⟩

/-- What a successful evaluation saved: the input with the base written at the instance's path, if the base is not already there. -/
theorem readBase_of {base : Option Addr} {s s' : St} {l : List V} (h : readBase base s = (.ok l, s')) : s' = s ∧ EntriesOf base s l := by
  cases base with
  | none =>
    simp only [readBase, M.pure_apply, Prod.mk.injEq, Res.ok.injEq] at h
    exact ⟨h.2.symm, h.1.symm⟩
  | some a =>
    simp only [readBase, readSlice] at h
    split at h
    · rename_i l' hl
      simp only [Prod.mk.injEq, Res.ok.injEq] at h
      obtain ⟨rfl, rfl⟩ := h
      exact ⟨rfl, hl⟩
    · simp at h

/-- **C06**: if an array instance of a JSON document is evaluated without error, its base is the first available of transform, input and
default, non-arrays wrapped; the base is stored where the items will read it (`saveBase`); there is one item evaluation per entry of the
base, in order, each with its own index; the result consists of the non-nil item values in order, and is nil if there is none. -/
theorem C06 {env : Env} (hf : env.fmt = .json) {path : Str} {dflt : Option Addr} {tid : Option Nat} {c : T} {inp : V} {mod : Mod} {s s' : St}
    {v : V} (h : (T.array path dflt tid (some c)).run env inp mod s = (.ok v, s')) :
    ∃ base changed s1 inp' s2 entries vs s3,
      BaseFrom (optInstrs env inp g!"array" mod tid) (jpGetV env (mod path) inp) dflt s base s1 ∧
      saveBase inp (mod path) base changed s1 = (.ok inp', s2) ∧ EntriesOf base s2 entries ∧
      ItemResults (fun i => c.run env inp' (itemMod (mod path) mod i)) 0 entries.length s2 vs s3 ∧ IsArrayOf vs v s' := by
  rw [T.run] at h
  unfold runArray at h
  simp only [hf] at h
  obtain ⟨⟨base, changed⟩, s1, h1, h⟩ := M.ok_bind h
  obtain ⟨inp', s2, h2, h⟩ := M.ok_bind h
  obtain ⟨l, s2', h3, k⟩ := M.ok_bind h
  obtain ⟨e, h3⟩ := readBase_of h3
  obtain ⟨out, s3, h4, k⟩ := M.ok_bind k
  rw [e] at h4
  obtain ⟨vs, h4, h5⟩ := itemsLoop_results h4
  refine ⟨base, changed, s1, inp', s2, l, vs, s3, baseJSON_from h1, h2, h3, h4, ?_⟩
  rw [List.nil_append] at h5
  subst h5
  rcases arrayResult_of k with ⟨h6, h7, _⟩ | ⟨h6, h7⟩
  · exact Or.inl ⟨h6, h7⟩
  · exact Or.inr ⟨h6, h7⟩

namespace Spec
/-- The base of an array instance on XML input: the nodes or the value its transform gives, else the default. -/
inductive BaseFromXML (getT : M V) (dflt : Option Addr) (s : St) : Option Addr → St → Prop
  | nodes {ns : List NodeId} {s1 s2 : St} {a : Addr} : getT s = (.ok (.sc (.nodes ns)), s1) →
      s2.heap[a]? = some (.slice (ns.map fun n => .sc (.node n))) → BaseFromXML getT dflt s (some a) s2
  | value {v : V} {s1 s2 : St} {a : Addr} : getT s = (.ok v, s1) → v ≠ V.nil → (∀ ns, v ≠ .sc (.nodes ns)) → SliceFor v s1 a s2 →
      BaseFromXML getT dflt s (some a) s2
  | dflt {s1 : St} : getT s = (.ok V.nil, s1) → BaseFromXML getT dflt s dflt s1

/-- Results of the entries of an XML array: a node is evaluated by the item instance with that node as its input, other entries are kept. -/
inductive EntryResults (item : Nat → V → M V) : Nat → List V → St → List V → St → Prop
  | nil {i : Nat} {s : St} : EntryResults item i [] s [] s
  | node {i : Nat} {n : NodeId} {l : List V} {s s1 s2 : St} {v : V} {vs : List V} : item i (.sc (.node n)) s = (.ok v, s1) →
      EntryResults item (i + 1) l s1 vs s2 → EntryResults item i (.sc (.node n) :: l) s (v :: vs) s2
  | other {i : Nat} {x : V} {l : List V} {s s2 : St} {vs : List V} : (∀ n, x ≠ .sc (.node n)) → EntryResults item (i + 1) l s vs s2 →
      EntryResults item i (x :: l) s (x :: vs) s2
end Spec

theorem baseXML_from {env : Env} {dflt : Option Addr} {tid : Option Nat} {inp : V} {mod : Mod} {s s' : St} {b : Option Addr}
    (h : baseXML env dflt tid inp mod s = (.ok b, s')) : BaseFromXML (optInstrs env inp g!"array" mod tid) dflt s b s' := by
  unfold baseXML at h
  obtain ⟨v, s1, h1, h⟩ := M.ok_bind h
  split at h
  · obtain ⟨a, s2, h2, h⟩ := M.ok_bind h
    simp only [alloc, Prod.mk.injEq, Res.ok.injEq] at h2
    simp only [M.pure_apply, Prod.mk.injEq, Res.ok.injEq] at h
    obtain ⟨rfl, rfl⟩ := h2
    obtain ⟨rfl, rfl⟩ := h
    exact .nodes h1 (by simp)
  · rename_i hns
    by_cases hv : v = V.nil
    · subst hv
      simp only [ne_eq, not_true_eq_false, if_false, M.pure_apply, Prod.mk.injEq, Res.ok.injEq] at h
      obtain ⟨rfl, rfl⟩ := h
      exact .dflt h1
    · simp only [ne_eq, hv, not_false_eq_true, if_true] at h
      obtain ⟨a, s3, h3, h⟩ := M.ok_bind h
      simp only [M.pure_apply, Prod.mk.injEq, Res.ok.injEq] at h
      obtain ⟨rfl, rfl⟩ := h
      obtain ⟨a', s3', he, hs⟩ := asSlice_for v s1
      rw [he] at h3
      simp only [Prod.mk.injEq, Res.ok.injEq] at h3
      obtain ⟨rfl, rfl⟩ := h3
      exact .value h1 hv (fun ns e => hns ns e) hs

theorem itemsLoopXML_results {child : TF} {path : Str} {mod : Mod} : ∀ {l : List V} {i : Nat} {acc out : List V} {s s' : St},
    itemsLoopXML child path mod l i acc s = (.ok out, s') →
    ∃ vs, EntryResults (fun i n => child n (itemMod path mod i)) i l s vs s' ∧ out = acc ++ vs.filter (· ≠ V.nil)
  | [], i, acc, out, s, s', h => by
    simp only [itemsLoopXML, M.pure_apply, Prod.mk.injEq, Res.ok.injEq] at h
    obtain ⟨rfl, rfl⟩ := h
    exact ⟨[], .nil, by simp⟩
  | x :: xs, i, acc, out, s, s', h => by
    rw [itemsLoopXML] at h
    obtain ⟨v, s1, h1, h⟩ := M.ok_bind h
    obtain ⟨vs, h2, h3⟩ := itemsLoopXML_results h
    refine ⟨v :: vs, ?_, ?_⟩
    · unfold itemXML at h1
      split at h1
      · exact .node h1 h2
      · rename_i hx
        simp only [M.pure_apply, Prod.mk.injEq, Res.ok.injEq] at h1
        obtain ⟨rfl, rfl⟩ := h1
        exact .other (fun n e => hx n e) h2
    · rw [h3]
      by_cases hv : v = V.nil <;> simp [hv]

/-- **C29**: if an array instance of an XML document is evaluated without error, its base consists of the nodes its transform matched, in
order (or the value the transform gave, or the default), each node is evaluated by the item instance with that node as input, and the
result consists of the non-nil item values in order. -/
theorem C29 {env : Env} (hf : env.fmt = .xml) {path : Str} {dflt : Option Addr} {tid : Option Nat} {c : T} {inp : V} {mod : Mod} {s s' : St}
    {v : V} (h : (T.array path dflt tid (some c)).run env inp mod s = (.ok v, s')) :
    ∃ base s1 entries vs s3, BaseFromXML (optInstrs env inp g!"array" mod tid) dflt s base s1 ∧ EntriesOf base s1 entries ∧
      EntryResults (fun i n => c.run env n (itemMod (mod path) mod i)) 0 entries s1 vs s3 ∧ IsArrayOf vs v s' := by
  rw [T.run] at h
  unfold runArray at h
  simp only [hf] at h
  obtain ⟨base, s1, h1, h⟩ := M.ok_bind h
  obtain ⟨l, s2', h3, k⟩ := M.ok_bind h
  obtain ⟨e, h3⟩ := readBase_of h3
  obtain ⟨out, s3, h4, k⟩ := M.ok_bind k
  rw [e] at h4
  obtain ⟨vs, h4, h5⟩ := itemsLoopXML_results h4
  refine ⟨base, s1, l, vs, s3, baseXML_from h1, h3, h4, ?_⟩
  rw [List.nil_append] at h5
  subst h5
  rcases arrayResult_of k with ⟨h6, h7, _⟩ | ⟨h6, h7⟩
  · exact Or.inl ⟨h6, h7⟩
  · exact Or.inr ⟨h6, h7⟩

namespace C06ex
open Toy
/-- An array of strings with a transform reading `$.b`, a default and input at its own path. -/
def node : T := .array g!"$.a" (some 0) (some 0) (some (.scalar g!"$.a[*]" g!"string" V.nil none))
def st (m : GMap V) : St := ⟨[.slice [.sc (.str g!"d")], .map m, .slice [.sc (.str g!"x"), V.nil, .sc (.str g!"y")]], [⟨[⟨g!"$.b", [], []⟩], .first, []⟩], 0, [], [], 1⟩
def out (m : GMap V) : Res (Option P) := match node.run (env []) (.obj 1) id (st m) with
  | (.ok v, s) => .ok (s.heap.toP v)
  | (.err, _) => .err
  | (.panic, _) => .panic
def show' (r : Res (Option P)) : Str := match r with
  | .ok (some p) => Toy.lib.render p
  | _ => g!"?"
/-- transform first, single value wrapped; then input, nil entries dropped; then default -/
example : show' (out [(g!"a", .arr 2), (g!"b", .sc (.str g!"t"))]) = g!"[\"t\"]" := by decide +kernel
example : show' (out [(g!"a", .arr 2)]) = g!"[\"x\",\"y\"]" := by decide +kernel
example : show' (out []) = g!"[\"d\"]" := by decide +kernel
end C06ex

end JT
