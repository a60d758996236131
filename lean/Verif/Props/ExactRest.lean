import Verif.Props.C14
import Verif.Props.C17
import Verif.Props.C34
import Verif.Props.C53
import Verif.Props.C54
import Verif.Props.Exact
/- C113 to C117: what the code does in all cases, where the claim one would like (C14, C36, C47, C53, C54) does not hold in all of them. -/
namespace JT
open Spec

/-! ### C113: FieldType -/

namespace Spec
/-- What is read as the type of an instance: a name, or of a list the last name other than `null` if all names before it are empty. -/
inductive ReadsType (data : P) : Str → Bool → Prop
  | name {t : Str} : data.key g!"type" = some (.sc (.str t)) → ReadsType data t false
  | list {l : List P} {t : Str} {nu : Bool} : data.key g!"type" = some (.arr l) → (nu = true ↔ P.sc (.str g!"null") ∈ l) →
      ((∃ n, nonNull l = List.replicate n [] ++ [t]) ∨ nonNull l = [] ∧ t = []) → ReadsType data t nu
end Spec

/-- The entries of a list of types, one after the other. -/
theorem typeFold_exact : ∀ (l : List P) (t0 : Str) (nu : Bool) (t : Str) (nu' : Bool),
    l.foldl typeStep (t0, nu, false) = (t, nu', false) ↔
      (nu' = true ↔ nu = true ∨ P.sc (.str g!"null") ∈ l) ∧
        ((nonNull l = [] ∧ t = t0) ∨ (t0 = [] ∧ ∃ n, nonNull l = List.replicate n [] ++ [t]))
  | [], t0, nu, t, nu' => by
    simp only [List.foldl_nil, nonNull, List.filterMap_nil, List.not_mem_nil, or_false, Prod.mk.injEq, and_true, true_and]
    constructor
    · rintro ⟨rfl, rfl⟩; simp
    · rintro ⟨h1, h2⟩
      refine ⟨?_, by cases nu <;> cases nu' <;> simp_all⟩
      rcases h2 with h2 | ⟨_, n, h2⟩
      · exact h2.symm
      · simp at h2
  | p :: l, t0, nu, t, nu' => by
    have skip : nonNull (p :: l) = nonNull l → typeStep (t0, nu, false) p = (t0, nu, false) → p ≠ P.sc (.str g!"null") →
        ((p :: l).foldl typeStep (t0, nu, false) = (t, nu', false) ↔
      (nu' = true ↔ nu = true ∨ P.sc (.str g!"null") ∈ p :: l) ∧
        ((nonNull (p :: l) = [] ∧ t = t0) ∨ (t0 = [] ∧ ∃ n, nonNull (p :: l) = List.replicate n [] ++ [t]))) := fun e1 e2 e3 => by
      rw [List.foldl_cons, e2, e1, typeFold_exact l t0 nu t nu', List.mem_cons]
      simp [Ne.symm e3]
    match p with
    | .arr _ => exact skip rfl rfl (by simp)
    | .obj _ => exact skip rfl rfl (by simp)
    | .sc .nil => exact skip rfl rfl (by simp)
    | .sc (.bool _) => exact skip rfl rfl (by simp)
    | .sc (.int _) => exact skip rfl rfl (by simp)
    | .sc (.i64 _) => exact skip rfl rfl (by simp)
    | .sc (.f64 _) => exact skip rfl rfl (by simp)
    | .sc (.node _) => exact skip rfl rfl (by simp)
    | .sc (.nodes _) => exact skip rfl rfl (by simp)
    | .sc (.time _) => exact skip rfl rfl (by simp)
    | .sc (.str ty) =>
      by_cases ht : ty = g!"null"
      · have e1 : nonNull (.sc (.str ty) :: l) = nonNull l := by simp [nonNull, ht]
        have e2 : typeStep (t0, nu, false) (.sc (.str ty)) = (t0, true, false) := by simp [typeStep, ht]
        rw [List.foldl_cons, e2, e1, typeFold_exact l t0 true t nu']
        simp [ht]
      · have e1 : nonNull (.sc (.str ty) :: l) = ty :: nonNull l := by simp [nonNull, ht]
        have hm : P.sc (.str g!"null") ∈ (P.sc (.str ty) :: l) ↔ P.sc (.str g!"null") ∈ l := by simp [Ne.symm ht]
        rw [List.foldl_cons, e1, hm]
        by_cases h0 : t0 = []
        · have e2 : typeStep (t0, nu, false) (.sc (.str ty)) = (ty, nu, false) := by simp [typeStep, ht, h0]
          rw [e2, typeFold_exact l ty nu t nu']
          refine and_congr_right fun _ => ?_
          constructor
          · rintro (⟨h1, rfl⟩ | ⟨rfl, n, h1⟩)
            · exact Or.inr ⟨h0, 0, by simp [h1]⟩
            · exact Or.inr ⟨h0, n + 1, by simp [h1, List.replicate_succ]⟩
          · rintro (⟨h1, _⟩ | ⟨_, n, h1⟩)
            · simp at h1
            · cases n with
              | zero =>
                simp only [List.replicate_zero, List.nil_append, List.cons.injEq] at h1
                exact Or.inl ⟨h1.2, h1.1.symm⟩
              | succ n =>
                simp only [List.replicate_succ, List.cons_append, List.cons.injEq] at h1
                exact Or.inr ⟨h1.1, n, h1.2⟩
        · have e2 : typeStep (t0, nu, false) (.sc (.str ty)) = (ty, nu, true) := by simp [typeStep, ht, h0]
          rw [e2]
          constructor
          · intro h
            have := typeFold_second l ty nu
            rw [h] at this
            simp at this
          · rintro ⟨_, ⟨h1, _⟩ | ⟨h1, _⟩⟩
            · simp at h1
            · exact absurd h1 h0

/-- **C113**: for every document `FieldType` returns exactly what is read as its type, and an error if there is nothing to read. -/
theorem C113 (data : P) : (∀ t nu, fieldType data = .ok (t, nu) ↔ ReadsType data t nu) ∧ (fieldType data = .err ↔ ∀ t nu, ¬ ReadsType data t nu) := by
  have h1 : ∀ t nu, fieldType data = .ok (t, nu) ↔ ReadsType data t nu := by
    intro t nu
    unfold fieldType
    constructor
    · intro h
      split at h
      · rename_i t' hk
        simp only [Res.ok.injEq, Prod.mk.injEq] at h
        obtain ⟨rfl, rfl⟩ := h
        exact .name hk
      · rename_i l hk
        split at h
        · rename_i t' nu' he
          simp only [Res.ok.injEq, Prod.mk.injEq] at h
          obtain ⟨rfl, rfl⟩ := h
          obtain ⟨h1, h2⟩ := (typeFold_exact l [] false _ _).1 he
          refine .list hk (by simpa using h1) ?_
          rcases h2 with h2 | ⟨_, h2⟩
          · exact Or.inr h2
          · exact Or.inl h2
        · contradiction
      · contradiction
    · intro h
      cases h with
      | name hk => rw [hk]
      | @list l _ _ hk hn ht =>
        rw [hk]
        simp only
        rw [(typeFold_exact l [] false t nu).2 ⟨by simpa using hn, by
          rcases ht with ht | ht
          · exact Or.inr ⟨rfl, ht⟩
          · exact Or.inl ht⟩]
  refine ⟨h1, ?_⟩
  constructor
  · intro h t nu hr
    rw [(h1 t nu).2 hr] at h
    simp at h
  · intro h
    cases hf : fieldType data with
    | ok r => exact absurd ((h1 r.1 r.2).1 hf) (h _ _)
    | err => rfl
    | panic => exact absurd hf (C47_total data)

example : ReadsType (Toy.o [(g!"type", Toy.a [Toy.s g!"", Toy.s g!"null", Toy.s g!"string"])]) g!"string" true :=
  .list rfl (by simp [Toy.s]) (Or.inl ⟨1, rfl⟩)
example : fieldType (Toy.o [(g!"type", Toy.a [Toy.s g!"string", Toy.s g!""])]) = .err := by decide +kernel

/-! ### C114: loading without flattening -/

/-- **C114**: without flattening a schema has the properties, required names and items of the document, of its first allOf entry if the document has no properties at
all, and of the oneOf entries of the type wanted, the earliest first. -/
theorem C114 (sched : Sched) (oneOfType : Str) (sj : Instance) (h : InstOk sj) :
    MergeOf sj ((sj :: if sj.properties = none then sj.allOf.take 1 else []) ++ sj.oneOf.filter fun e => decide (subName e.fromRef = oneOfType))
      (mergeOf sched oneOfType false sj) := by
  cases hp : sj.properties with
  | some m =>
    rw [if_neg (by simp)]
    exact (C36_partial sched oneOfType sj h).1 (by rw [hp]; rfl)
  | none =>
    rw [if_pos rfl]
    cases ha : sj.allOf with
    | nil =>
      unfold mergeOf
      rw [ha]
      exact mergeOneOf_sel sj.oneOf _ [sj] sj (mergeOf_self sj) h.oneOf
    | cons e es => exact (C36_partial sched oneOfType sj h).2 e es hp ha

example : InstOk C34ex.two := C34ex.two_ok
example : (mergeOf Sched.rev [] false C34ex.two).properties = some [(g!"x", Toy.i 1)] := rfl

/-! ### C115: chains of operations -/

theorem runOps_cons (env : Env) (op : Op) (ops : List Op) (v : V) (s : St) : runOps env (op :: ops) v s = match opStep env op v s with
    | (.ok v', s') => runOps env ops v' s'
    | (.err, s') => (.err, s')
    | (.panic, s') => (.panic, s') := by
  rw [runOps, M.bind_apply]
  simp only [nextTick]
  rw [M.bind_apply]
  simp only [getHeap]
  rw [M.bind_apply]
  simp only [M.lift]
  unfold opStep
  cases ho : runOp env.lib s.heap.view (env.lib.now s.tick) op v with
  | err => rfl
  | panic => rfl
  | ok o =>
    simp only
    obtain ⟨v', s', hm⟩ := materialize_ok o { s with tick := s.tick + 1 }
    rw [M.bind_ok hm, hm]

/-- A chain ends in some way other than with a value iff an operation does on what the operations before it give. -/
theorem runOps_ends (env : Env) (e : Res V) (he : ∀ v, e ≠ .ok v) : ∀ (ops : List Op) (v : V) (s : St),
    (runOps env ops v s).1 = e ↔ ∃ a op c v' s', ops = a ++ op :: c ∧ runOps env a v s = (.ok v', s') ∧ (opStep env op v' s').1 = e
  | [], v, s => by
    constructor
    · intro h
      exact absurd h.symm (he v)
    · rintro ⟨a, op, c, v', s', h, _⟩
      simp at h
  | op :: ops, v, s => by
    rw [runOps_cons]
    cases ho : opStep env op v s with
    | mk r s1 =>
    have first : (opStep env op v s).1 = r := by rw [ho]
    cases r with
    | ok v1 =>
      simp only
      rw [runOps_ends env e he ops v1 s1]
      constructor
      · rintro ⟨a, op', c, v', s', h1, h2, h3⟩
        exact ⟨op :: a, op', c, v', s', by rw [h1]; rfl, by rw [runOps_cons, ho]; exact h2, h3⟩
      · rintro ⟨a, op', c, v', s', h1, h2, h3⟩
        cases a with
        | nil =>
          simp only [List.nil_append, List.cons.injEq] at h1
          obtain ⟨rfl, rfl⟩ := h1
          obtain ⟨rfl, rfl⟩ : v = v' ∧ s = s' := by
            have : (Res.ok v, s) = (Res.ok v', s') := h2
            simpa using this
          rw [first] at h3
          exact absurd h3.symm (he v1)
        | cons x a =>
          simp only [List.cons_append, List.cons.injEq] at h1
          obtain ⟨rfl, rfl⟩ := h1
          rw [runOps_cons, ho] at h2
          exact ⟨a, op', c, v', s', rfl, h2, h3⟩
    | _ =>
      simp only
      constructor
      · intro h
        exact ⟨[], op, ops, v, s, rfl, rfl, by rw [first, h]⟩
      · rintro ⟨a, op', c, v', s', h1, h2, h3⟩
        cases a with
        | nil =>
          simp only [List.nil_append, List.cons.injEq] at h1
          obtain ⟨rfl, rfl⟩ := h1
          obtain ⟨rfl, rfl⟩ : v = v' ∧ s = s' := by
            have : (Res.ok v, s) = (Res.ok v', s') := h2
            simpa using this
          rw [first] at h3
          exact h3
        | cons x a =>
          simp only [List.cons_append, List.cons.injEq] at h1
          obtain ⟨rfl, rfl⟩ := h1
          rw [runOps_cons, ho] at h2
          simp at h2

/-- **C115**: for every chain of operations and every value: it panics iff one of them is `max` and the operations before it give an empty array; it is an error
iff one of them is an error on what the operations before it give. -/
theorem C115 (env : Env) (ops : List Op) (v : V) (s : St) :
    ((runOps env ops v s).1 = .panic ↔ ∃ a b r c v' s', ops = a ++ .max b r :: c ∧ runOps env a v s = (.ok v', s') ∧ s'.heap.view.shape v' = .arr []) ∧
    ((runOps env ops v s).1 = .err ↔ ∃ a op c v' s', ops = a ++ op :: c ∧ runOps env a v s = (.ok v', s') ∧
      runOp env.lib s'.heap.view (env.lib.now s'.tick) op v' = .err) := by
  have step : ∀ (op : Op) (v' : V) (s' : St), (opStep env op v' s').1 = match runOp env.lib s'.heap.view (env.lib.now s'.tick) op v' with
      | .ok o => (materialize o { s' with tick := s'.tick + 1 }).1
      | .err => .err
      | .panic => .panic := by
    intro op v' s'
    unfold opStep
    split <;> rename_i h <;> simp [h]
  have mat : ∀ (o : Out V) (s' : St), ∃ w, (materialize o s').1 = .ok w := by
    intro o s'
    obtain ⟨w, s1, h⟩ := materialize_ok o s'
    exact ⟨w, by rw [h]⟩
  constructor
  · rw [runOps_ends env .panic (by simp)]
    constructor
    · rintro ⟨a, op, c, v', s', h1, h2, h3⟩
      rw [step] at h3
      split at h3
      · obtain ⟨w, hw⟩ := mat _ _
        rw [hw] at h3
        simp at h3
      · simp at h3
      · rename_i hp
        obtain ⟨⟨b, r, rfl⟩, hs⟩ := runOp_panic_iff.1 hp
        exact ⟨a, b, r, c, v', s', h1, h2, hs⟩
    · rintro ⟨a, b, r, c, v', s', h1, h2, h3⟩
      refine ⟨a, _, c, v', s', h1, h2, ?_⟩
      rw [step, runOp_panic_iff.2 ⟨⟨b, r, rfl⟩, h3⟩]
  · rw [runOps_ends env .err (by simp)]
    constructor
    · rintro ⟨a, op, c, v', s', h1, h2, h3⟩
      refine ⟨a, op, c, v', s', h1, h2, ?_⟩
      rw [step] at h3
      split at h3
      · obtain ⟨w, hw⟩ := mat _ _
        rw [hw] at h3
        simp at h3
      · assumption
      · simp at h3
    · rintro ⟨a, op, c, v', s', h1, h2, h3⟩
      refine ⟨a, op, c, v', s', h1, h2, ?_⟩
      rw [step, h3]

example : (runOps (Toy.env []) [.split g!",", .max g!"@.n" g!"@.s", .inverse] (.sc (.str [])) ⟨[], [], 0, [], [], 0⟩).1 = .panic := by decide +kernel

/-! ### C116: the fields that are written -/

namespace Spec
/-- The last of those in the list with its name. -/
def LastNamed {α : Type} (l : List (Str × α)) (x : Str × α) : Prop := ∃ a b, l = a ++ x :: b ∧ x.1 ∉ b.map Prod.fst

/-- In the order of the names, of which some may be the same. -/
def InOrder (l : List Str) : Prop := l.Pairwise fun a b => strLt b a = false
end Spec

open Gen

theorem insertStr_inOrder {x : Str} : ∀ {l : List Str}, InOrder l → InOrder (insertStr x l)
  | [], _ => by simp [insertStr, InOrder]
  | y :: l, h => by
    unfold InOrder at h ⊢
    rw [List.pairwise_cons] at h
    unfold insertStr
    split
    · rename_i hlt
      rw [List.pairwise_cons]
      refine ⟨?_, insertStr_inOrder h.2⟩
      intro z hz
      rcases List.mem_cons.1 ((insertStr_perm x l).mem_iff.1 hz) with rfl | hz
      · cases hc : strLt z y with
        | false => rfl
        | true =>
          have := strLt_trans hlt hc
          rw [strLt_irrefl] at this
          exact this.symm
      · exact h.1 z hz
    · rename_i hlt
      simp only [Bool.not_eq_true] at hlt
      rw [List.pairwise_cons, List.pairwise_cons]
      refine ⟨?_, h⟩
      intro z hz
      rcases List.mem_cons.1 hz with rfl | hz
      · exact hlt
      · cases hc : strLt z x with
        | false => rfl
        | true =>
          rcases strLt_total x y with h1 | h1 | h1
          · have := strLt_trans hc h1
            rw [h.1 z hz] at this
            exact this.symm
          · rw [h1, h.1 z hz] at hc
            exact hc.symm
          · rw [hlt] at h1
            simp at h1

theorem sortStrings_inOrder : ∀ (l : List Str), InOrder (sortStrings l)
  | [] => by simp [sortStrings, InOrder]
  | x :: l => insertStr_inOrder (sortStrings_inOrder l)

theorem inOrder_unique : ∀ {a b : List Str}, InOrder a → InOrder b → a.Perm b → a = b
  | [], b, _, _, h => by rw [List.nil_perm.1 h]
  | x :: a, [], _, _, h => by have := h.length_eq; simp at this
  | x :: a, y :: b, ha, hb, h => by
    unfold InOrder at ha hb
    rw [List.pairwise_cons] at ha hb
    have hx : x ∈ y :: b := h.mem_iff.1 List.mem_cons_self
    have hy : y ∈ x :: a := h.mem_iff.2 List.mem_cons_self
    have : x = y := by
      rcases List.mem_cons.1 hx with hx | hx
      · exact hx
      · rcases List.mem_cons.1 hy with hy | hy
        · exact hy.symm
        · rcases strLt_total x y with h1 | h1 | h1
          · have := hb.1 x hx
            rw [h1] at this
            simp at this
          · exact h1
          · have := ha.1 y hy
            rw [h1] at this
            simp at this
    subst this
    rw [inOrder_unique ha.2 hb.2 h.cons_inv]

theorem get_reverse {α : Type} {l : List (Str × α)} {n : Str} {v : α} : GMap.get n l.reverse = some v ↔ LastNamed l (n, v) := by
  induction l with
  | nil => simp [LastNamed, GMap.get_none_iff]
  | cons x l ih =>
    have happ : ∀ (r : List (Str × α)), GMap.get n (r ++ [x]) = (GMap.get n r).or (if n = x.1 then some x.2 else none) := by
      intro r
      induction r with
      | nil => simp [GMap.get]
      | cons y r ihr => obtain ⟨k, w⟩ := y; by_cases hk : n = k <;> simp [GMap.get, hk, ihr]
    rw [List.reverse_cons, happ]
    have hnone : GMap.get n l.reverse = none ↔ n ∉ l.map Prod.fst := by rw [GMap.get_none_iff]; simp
    constructor
    · intro h
      cases hg : GMap.get n l.reverse with
      | some w =>
        rw [hg] at h
        simp only [Option.some_or, Option.some.injEq] at h
        subst h
        obtain ⟨a, b, h1, h2⟩ := ih.1 hg
        exact ⟨x :: a, b, by rw [h1]; rfl, h2⟩
      | none =>
        rw [hg] at h
        simp only [Option.none_or] at h
        split at h
        · rename_i hx
          simp only [Option.some.injEq] at h
          obtain ⟨k, w⟩ := x
          simp only at hx h
          subst hx; subst h
          exact ⟨[], l, rfl, hnone.1 hg⟩
        · simp at h
    · rintro ⟨a, b, h1, h2⟩
      cases a with
      | nil =>
        simp only [List.nil_append, List.cons.injEq] at h1
        obtain ⟨rfl, rfl⟩ := h1
        rw [hnone.2 h2]
        simp
      | cons y a =>
        simp only [List.cons_append, List.cons.injEq] at h1
        rw [ih.2 ⟨a, b, h1.2, h2⟩]
        rfl

/-- **C116**: whatever the names are, as many fields are written as there are, in the order of their names; where several have the same name, the last one that is
visited is written in place of each of them. -/
theorem C116 {α : Type} (l : List (Str × α)) (r : List α) :
    sortedByName l = r ↔ ∃ l' : List (Str × α), (l'.map Prod.fst).Perm (l.map Prod.fst) ∧ InOrder (l'.map Prod.fst) ∧ (∀ x ∈ l', LastNamed l x) ∧ r = l'.map Prod.snd := by
  have key : ∀ ns : List Str, (∀ n ∈ ns, n ∈ l.map Prod.fst) → ∃ l' : List (Str × α), l'.map Prod.fst = ns ∧ (∀ x ∈ l', LastNamed l x) ∧
      ns.filterMap (fun n => GMap.get n l.reverse) = l'.map Prod.snd := by
    intro ns
    induction ns with
    | nil => intro _; exact ⟨[], rfl, by simp, rfl⟩
    | cons n ns ih =>
      intro hn
      obtain ⟨l', h1, h2, h3⟩ := ih (fun x hx => hn x (List.mem_cons_of_mem _ hx))
      have : ∃ v, GMap.get n l.reverse = some v := by
        cases hg : GMap.get n l.reverse with
        | some v => exact ⟨v, rfl⟩
        | none =>
          rw [GMap.get_none_iff] at hg
          exact absurd (hn n List.mem_cons_self) (by simpa using hg)
      obtain ⟨v, hv⟩ := this
      refine ⟨(n, v) :: l', by simp [h1], ?_, ?_⟩
      · intro x hx
        rcases List.mem_cons.1 hx with rfl | hx
        · exact get_reverse.1 hv
        · exact h2 x hx
      · rw [List.filterMap_cons, hv]
        simp [h3]
  obtain ⟨l0, h1, h2, h3⟩ := key (sortStrings (l.map Prod.fst)) (fun n hn => (sortStrings_perm _).mem_iff.1 hn)
  constructor
  · rintro rfl
    exact ⟨l0, by rw [h1]; exact sortStrings_perm _, by rw [h1]; exact sortStrings_inOrder _, h2, h3⟩
  · rintro ⟨l', g1, g2, g3, rfl⟩
    have hn : l'.map Prod.fst = l0.map Prod.fst := by
      rw [h1]
      exact inOrder_unique g2 (sortStrings_inOrder _) (g1.trans (sortStrings_perm _).symm)
    show (sortStrings (l.map Prod.fst)).filterMap (fun n => GMap.get n l.reverse) = l'.map Prod.snd
    rw [h3]
    have : l0 = l' := by
      clear h1 h3 g1 g2 key
      induction l0 generalizing l' with
      | nil => simpa using hn.symm
      | cons x l0 ih =>
        cases l' with
        | nil => simp at hn
        | cons y l' =>
          simp only [List.map_cons, List.cons.injEq] at hn
          have hx := get_reverse.2 (h2 x List.mem_cons_self)
          have hy := get_reverse.2 (g3 y List.mem_cons_self)
          rw [hn.1, hx] at hy
          obtain ⟨x1, x2⟩ := x
          obtain ⟨y1, y2⟩ := y
          simp only [Option.some.injEq] at hy hn
          rw [hn.1, hy, ih (fun z hz => h2 z (List.mem_cons_of_mem _ hz)) l' (fun z hz => g3 z (List.mem_cons_of_mem _ hz)) hn.2]
    rw [this]

example : sortedByName [(g!"b", 1), (g!"a", 2), (g!"b", 3)] = [2, 3, 3] := by decide +kernel

/-! ### C117: Go types -/

namespace Spec
/-- The text of the type of a field: that of its JSON type; for the name of a struct, that name, or a map of strings if the struct has no fields. -/
inductive WrittenType (ef : EField) (required pointers : Bool) (nested : GMap GStruct) : Str → Prop where
  | known {t : GoT} : FieldType ef required pointers t → WrittenType ef required pointers nested t.text
  | map {ns : GStruct} : ¬ KnownType ef → GMap.get ef.jsonType nested = some ns → ns.fields = [] →
      WrittenType ef required pointers nested ((if ef.array then g!"[]" else []) ++ (if ef.nullable then g!"*" else []) ++ g!"map[string]string")
  | named : ¬ KnownType ef → (∀ ns, GMap.get ef.jsonType nested = some ns → ns.fields ≠ []) →
      WrittenType ef required pointers nested ((if ef.array then g!"[]" else []) ++ ef.jsonType)
end Spec

/-- **C117**: every field is given exactly one Go type, the one above. -/
theorem C117 (ef : EField) (required pointers : Bool) (nested : GMap GStruct) (s : Str) :
    goType ef required pointers nested = s ↔ WrittenType ef required pointers nested s := by
  have back : ∀ s, WrittenType ef required pointers nested s → goType ef required pointers nested = s := by
    intro s h
    have unk : ¬ KnownType ef → ef.jsonType ≠ g!"boolean" ∧ ef.jsonType ≠ g!"number" ∧ ef.jsonType ≠ g!"integer" ∧ ef.jsonType ≠ g!"string" ∧
        ef.jsonType ≠ g!"date-time" ∧ ef.jsonType ≠ g!"object" := by
      intro h
      unfold KnownType at h
      simp only [not_or, not_exists] at h
      exact ⟨h.2 .boolean, h.2 .number, h.2 .integer, h.2 .string, h.2 .time, h.1⟩
    cases h with
    | known h => exact C53_only nested h
    | @map ns hk hg he =>
      obtain ⟨h1, h2, h3, h4, h5, h6⟩ := unk hk
      unfold goType
      rw [if_neg h1, if_neg h2, if_neg h3, if_neg h4, if_neg h5, if_neg h6, hg]
      cases ef.array <;> cases ef.nullable <;> simp [he]
    | named hk hg =>
      obtain ⟨h1, h2, h3, h4, h5, h6⟩ := unk hk
      unfold goType
      rw [if_neg h1, if_neg h2, if_neg h3, if_neg h4, if_neg h5, if_neg h6]
      cases hn : GMap.get ef.jsonType nested with
      | none => cases ef.array <;> simp
      | some ns =>
        have := hg ns hn
        cases ef.array <;> simp [this]
  constructor
  · rintro rfl
    by_cases hk : KnownType ef
    · obtain ⟨t, h1, h2⟩ := C53_partial required pointers nested hk
      rw [h2]
      exact .known h1
    · by_cases hm : ∃ ns, GMap.get ef.jsonType nested = some ns ∧ ns.fields = []
      · obtain ⟨ns, h1, h2⟩ := hm
        have := WrittenType.map (required := required) (pointers := pointers) hk h1 h2
        rw [back _ this]
        exact this
      · have := WrittenType.named (required := required) (pointers := pointers) (nested := nested) hk (fun ns h1 h2 => hm ⟨ns, h1, h2⟩)
        rw [back _ this]
        exact this
  · exact back s

/-- A list of structs of their own that may be null: no pointer is written. -/
example : WrittenType ⟨true, [], none, g!"a", g!"Thing", g!"A", true, []⟩ false true
    [(g!"Thing", ⟨g!"Thing", [(g!"b", ⟨false, [], none, g!"b", g!"string", g!"B", false, []⟩)], [], []⟩)] g!"[]Thing" := by
  refine .named ?_ ?_
  · rintro (h | ⟨t, h⟩)
    · exact absurd h (by decide)
    · cases t <;> exact absurd h (by decide)
  · intro ns h
    simp [GMap.get] at h
    subst h
    simp

end JT
