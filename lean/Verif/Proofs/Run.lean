import Verif.Proofs.Refine
/- The engine computes what the direct semantics says: arrays and objects. -/
namespace JT
open Spec

/-- Success with related values on both sides, or failure on both sides. -/
inductive OkRel {α β : Type} (R : α → β → Prop) : Res α → Option β → Prop
  | ok {a b} : R a b → OkRel R (.ok a) (some b)
  | err : OkRel R .err none
  | panic : OkRel R .panic none

def RefO {α β : Type} (s : St) (x : M α) (Q : Heap → α → β → Prop) (o : Option β) : Prop :=
  Grow s (x s).2 ∧ OkRel (Q (x s).2.heap) (x s).1 o

theorem RefO.of_refM {s : St} {x : M V} {Q : Heap → V → P → Prop} {r : Res P} (h : RefM s x Q r) : RefO s x Q (okP r) := by
  refine ⟨h.1, ?_⟩
  generalize hy : (x s).1 = y
  have h2 := h.2
  rw [hy] at h2
  cases h2 with
  | ok hab => exact .ok hab
  | err => exact .err
  | panic => exact .panic

theorem RefO.bind {α β γ δ : Type} {s : St} {x : M α} {f : α → M γ} {Q : Heap → α → β → Prop} {Q' : Heap → γ → δ → Prop}
    {r : Option β} {g : β → Option δ} (hx : RefO s x Q r)
    (hf : ∀ s' a b, Grow s s' → Q s'.heap a b → RefO s' (f a) Q' (g b)) : RefO s (x >>= f) Q' (r.bind g) := by
  obtain ⟨h1, h2⟩ := hx
  unfold RefO
  rw [M.bind_apply]
  rcases hxs : x s with ⟨rx, s'⟩
  rw [hxs] at h1 h2
  simp only at h1 h2
  cases h2 with
  | ok hab =>
    obtain ⟨h3, h4⟩ := hf s' _ _ h1 hab
    exact ⟨h1.trans h3, h4⟩
  | err => exact ⟨h1, .err⟩
  | panic => exact ⟨h1, .panic⟩

theorem RefO.pure {α β : Type} {s : St} {a : α} {b : β} {Q : Heap → α → β → Prop} (h : Q s.heap a b) :
    RefO s (Pure.pure a : M α) Q (some b) := ⟨Grow.refl s, .ok h⟩

mutual
/-- Default values of scalars. -/
def T.defaults : T → List V
  | .scalar _ _ d _ => [d]
  | .array _ _ _ none => []
  | .array _ _ _ (some c) => c.defaults
  | .object _ _ _ cs => T.defaultsKids cs
def T.defaultsKids : List (Str × T) → List V
  | [] => []
  | (_, t) :: r => t.defaults ++ T.defaultsKids r
end

mutual
/-- Transformers covered by the direct semantics, with paths as built from a schema with plain names. -/
def T.frag (ins : List Instrs) : T → Prop
  | .scalar _ _ _ tid => GoodTid ins tid
  | .array _ _ _ none => False
  | .array _ d tid (some c) => d = none ∧ tid = none ∧ c.frag ins
  | .object p d tid cs => d = none ∧ tid = none ∧ GMap.Sorted cs ∧ T.fragKids ins p cs
def T.fragKids (ins : List Instrs) (p : Str) : List (Str × T) → Prop
  | [] => True
  | (k, t) :: r => (t.path = p ++ '.' :: k ∧ '.' ∉ k ∧ '[' ∉ k ∧ t.frag ins) ∧ T.fragKids ins p r
end

theorem fragKids_mem {ins : List Instrs} {p : Str} : ∀ {cs : List (Str × T)}, T.fragKids ins p cs → ∀ {k : Str} {t : T}, (k, t) ∈ cs →
    t.path = p ++ '.' :: k ∧ '.' ∉ k ∧ '[' ∉ k ∧ t.frag ins
  | [], _, k, t, h => by simp at h
  | (k', t') :: r, hf, k, t, h => by
    simp only [T.fragKids] at hf
    simp only [List.mem_cons, Prod.mk.injEq] at h
    rcases h with ⟨rfl, rfl⟩ | h
    · exact hf.1
    · exact fragKids_mem hf.2 h

theorem defaultsKids_mem : ∀ {cs : List (Str × T)} {k : Str} {t : T}, (k, t) ∈ cs → ∀ d ∈ t.defaults, d ∈ T.defaultsKids cs
  | [], k, t, h => by simp at h
  | (k', t') :: r, k, t, h => by
    intro d hd
    simp only [T.defaultsKids, List.mem_append]
    simp only [List.mem_cons, Prod.mk.injEq] at h
    rcases h with ⟨rfl, rfl⟩ | h
    · exact Or.inl hd
    · exact Or.inr (defaultsKids_mem h d hd)

theorem runKids_eq (env : Env) : ∀ (cs : List (Str × T)), T.runKids env cs = cs.map fun kt => (kt.2.path, kt.2.run env)
  | [] => rfl
  | (k, t) :: r => by simp only [T.runKids, List.map_cons]; rw [runKids_eq env r]

theorem perm_map_inv {α β : Type} {f : α → β} {l l' : List β} (h : l.Perm l') : ∀ {cs : List α}, l' = cs.map f →
    ∃ cs' : List α, cs'.Perm cs ∧ l = cs'.map f := by
  induction h with
  | nil =>
    intro cs hcs
    refine ⟨[], ?_, rfl⟩
    cases cs with
    | nil => exact .nil
    | cons => simp at hcs
  | cons x _ ih =>
    intro cs hcs
    cases cs with
    | nil => simp at hcs
    | cons c cs =>
      simp only [List.map_cons, List.cons.injEq] at hcs
      obtain ⟨cs', h1, h2⟩ := ih hcs.2
      exact ⟨c :: cs', h1.cons c, by simp [hcs.1, h2]⟩
  | swap x y l =>
    intro cs hcs
    match cs, hcs with
    | c :: d :: cs, hcs =>
      simp only [List.map_cons, List.cons.injEq] at hcs
      exact ⟨d :: c :: cs, List.Perm.swap _ _ _, by simp [hcs]⟩
  | trans _ _ ih1 ih2 =>
    intro cs hcs
    obtain ⟨cs', h1, h2⟩ := ih2 hcs
    obtain ⟨cs'', h3, h4⟩ := ih1 h2
    exact ⟨cs'', h3.trans h1, h4⟩

mutual
/-- The paths read by a transformer, with a modifier, are `ok`. -/
def T.reads (ok : Str → Prop) (ins : List Instrs) : T → Mod → Prop
  | .scalar p _ _ tid, mod => ok (mod p) ∧ TidReads ok ins mod tid
  | .array _ _ _ none, _ => True
  | .array p _ _ (some c), mod => ok (mod p) ∧
    ∀ i, c.reads ok ins (pathReplace (mod p ++ g!"[*]") (mod p ++ g!"[" ++ itoaNat i ++ g!"]") mod)
  | .object _ _ _ cs, mod => T.readsKids ok ins cs mod
def T.readsKids (ok : Str → Prop) (ins : List Instrs) : List (Str × T) → Mod → Prop
  | [], _ => True
  | (_, t) :: r, mod => t.reads ok ins mod ∧ T.readsKids ok ins r mod
end

theorem readsKids_iff {ok : Str → Prop} {ins : List Instrs} {mod : Mod} : ∀ {cs : List (Str × T)},
    T.readsKids ok ins cs mod ↔ ∀ kt ∈ cs, kt.2.reads ok ins mod
  | [] => by simp [T.readsKids]
  | (k, t) :: r => by simp only [T.readsKids, List.forall_mem_cons]; rw [readsKids_iff]

mutual
theorem reads_true (ins : List Instrs) : ∀ (t : T) (mod : Mod), t.reads (fun _ => True) ins mod
  | .scalar _ _ _ _, _ => by simp only [T.reads]; exact ⟨trivial, fun _ _ _ _ _ _ => trivial⟩
  | .array _ _ _ none, _ => by simp only [T.reads]
  | .array _ _ _ (some c), _ => by simp only [T.reads]; exact ⟨trivial, fun i => reads_true ins c _⟩
  | .object _ _ _ cs, mod => by simp only [T.reads]; exact readsKids_true ins cs mod
theorem readsKids_true (ins : List Instrs) : ∀ (cs : List (Str × T)) (mod : Mod), T.readsKids (fun _ => True) ins cs mod
  | [], _ => by simp only [T.readsKids]
  | (_, t) :: r, mod => by simp only [T.readsKids]; exact ⟨reads_true ins t mod, readsKids_true ins r mod⟩
end

/-- What is shown about one transformer: it computes `eval`. -/
def RunsAs (env : Env) (dv : V → P) (t : T) : Prop :=
  ∀ (s : St) (A : Addr → Bool) (ok : Str → Prop) (inp : V) (p : P) (mod : Mod), FreshIn A s → t.frag s.instrs → t.reads ok s.instrs mod →
    (∀ d ∈ t.defaults, Rep s.heap A d (dv d)) → InpAt env.lib ok s.heap A inp p →
    RefO s (t.run env inp mod) (fun h v q => Rep h A v q) (eval env.lib s.instrs dv t p mod)

/-! ### Arrays -/

theorem optAll_append_one {α β : Type} (f : α → Option β) (l : List α) (x : α) :
    optAll f (l ++ [x]) = (optAll f l).bind fun ys => (f x).map fun y => ys ++ [y] := by
  induction l with
  | nil => simp only [List.nil_append, optAll]; cases f x <;> rfl
  | cons a l ih =>
    simp only [List.cons_append, optAll]
    rw [ih]
    cases f a with
    | none => cases optAll f l <;> simp
    | some y => cases optAll f l <;> simp <;> cases f x <;> simp

/-- Results of the items not yet done, appended to those done. -/
def itemsFrom (f : Nat → Option P) : (todo i : Nat) → List P → Option (List P)
  | 0, _, acc => some acc
  | n + 1, i, acc => (f i).bind fun q => itemsFrom f n (i + 1) (if isNilP q then acc else acc ++ [q])

theorem itemsFrom_eq (f : Nat → Option P) : ∀ (n i : Nat) (acc : List P),
    itemsFrom f n i acc = (optAll f (List.range' i n)).map fun ps => acc ++ ps.filter fun p => !isNilP p := by
  intro n
  induction n with
  | zero => intro i acc; simp [itemsFrom, optAll]
  | succ n ih =>
    intro i acc
    simp only [itemsFrom, List.range'_succ, optAll]
    cases hf : f i with
    | none => rfl
    | some q =>
      simp only [Option.bind_some]
      rw [ih]
      cases optAll f (List.range' (i + 1) n) with
      | none => rfl
      | some ps =>
        simp only [Option.map_some, List.filter_cons]
        by_cases hq : isNilP q = true
        · simp [hq]
        · simp [hq]

theorem RefO.itemsLoop {child : TF} {inp : V} {path : Str} {mod : Mod} {A : Addr → Bool} {f : Nat → Option P} :
    ∀ (n i : Nat) (s : St) (acc : List V) (ps : List P),
      (∀ j s', Grow s s' → RefO s' (child inp (pathReplace (path ++ g!"[*]") (path ++ g!"[" ++ itoaNat j ++ g!"]") mod))
        (fun h v q => Rep h A v q) (f j)) →
      All2 (Rep s.heap A) acc ps →
      RefO s (itemsLoop child inp path mod n i acc) (fun h l ps => All2 (Rep h A) l ps) (itemsFrom f n i ps) := by
  intro n
  induction n with
  | zero => intro i s acc ps _ h; exact RefO.pure h
  | succ n ih =>
    intro i s acc ps hc h
    refine RefO.bind (hc i s (Grow.refl s)) fun s' v q g hv => ?_
    refine ih (i + 1) s' _ _ (fun j s'' g' => hc j s'' (g.trans g')) ?_
    have hn := nil_iff hv
    by_cases h0 : v = V.nil
    · rw [if_pos h0, if_pos (hn.1 h0)]
      exact h.rep_grow g
    · rw [if_neg h0, if_neg (fun h' => h0 (hn.2 h'))]
      exact (h.rep_grow g).append (.cons hv .nil)

/-- Number of items of an array: elements of the value found, a single value counting as one. -/
def itemCount (lib : Lib) (path : Str) (p : P) : Nat :=
  match jpGet lib P.view path p with
  | none => 0
  | some o => match outP o with
    | .sc .nil => 0
    | .arr l => l.length
    | _ => 1

theorem RefO.of_okM {α β : Type} {s : St} {x : M α} {Q : Heap → α → β → Prop} {b : β} (h : RefM s x Q (.ok b)) :
    RefO s x Q (some b) := by
  refine ⟨h.1, ?_⟩
  generalize hy : (x s).1 = y
  have h2 := h.2
  rw [hy] at h2
  cases h2 with
  | ok hab => exact .ok hab

/-- Length of a value used as an array. -/
def lenP : P → Nat
  | .arr l => l.length
  | _ => 1

theorem asSlice_ref {s : St} {A : Addr → Bool} {v : V} {p : P} (h : Rep s.heap A v p) :
    RefO s (asSlice v) (fun h a n => ∃ l, h[a]? = some (.slice l) ∧ l.length = n)
      (some (lenP p)) := by
  cases v with
  | sc x =>
    rw [rep_sc_iff.1 h]
    refine ⟨grow_alloc s _, .ok ⟨[.sc x], ?_, rfl⟩⟩
    simp [asSlice, alloc]
  | arr a =>
    obtain ⟨_, l, ps, h1, rfl, h3, _⟩ := rep_arr_iff.1 h
    exact RefO.pure ⟨l, h1, h3⟩
  | obj a =>
    obtain ⟨_, l, ps, h1, rfl, h3, _⟩ := rep_obj_iff.1 h
    refine ⟨grow_alloc s _, .ok ⟨[.obj a], ?_, rfl⟩⟩
    simp [asSlice, alloc]

/-- The array base: its length is the item count, and it is not saved to the input. -/
theorem baseJSON_ref {env : Env} {s : St} {A : Addr → Bool} (hA : FreshIn A s) {ok : Str → Prop} {inp : V} {p : P}
    (h : InpAt env.lib ok s.heap A inp p) (path : Str) (mod : Mod) (hok : ok path) :
    RefO s (baseJSON env none none inp path mod)
      (fun h (r : Option Addr × Bool) n => r.2 = false ∧ match r.1 with | none => n = 0 | some a => ∃ l, h[a]? = some (.slice l) ∧ l.length = n)
      (some (itemCount env.lib path p)) := by
  have key : some (itemCount env.lib path p) = (some ((jpGet env.lib P.view path p).map outP)).bind fun o =>
      match o with
      | none => some 0
      | some q => if isNilP q then some 0 else some (lenP q) := by
    unfold itemCount
    cases jpGet env.lib P.view path p with
    | none => rfl
    | some o =>
      simp only [Option.map_some, Option.bind_some]
      cases ho : outP o with
      | sc x => cases x <;> rfl
      | arr l => rfl
      | obj m => rfl
  unfold baseJSON
  refine RefO.bind (g := fun _ => some (itemCount env.lib path p)) (r := some ()) (Q := fun _ v _ => v = V.nil) (RefO.pure rfl) ?_
  rintro s0 v _ g0 rfl
  rw [if_neg (by simp), key]
  refine RefO.bind (RefO.of_okM (RefM.jpGetV (hA.grow g0) (h.grow g0) hok)) fun s1 r q g1 hrq => ?_
  cases hrq with
  | none => exact RefO.pure ⟨rfl, rfl⟩
  | @some raw rp hraw =>
    have hn := nil_iff hraw
    simp only
    by_cases h0 : raw = V.nil
    · rw [if_neg (by simpa using h0), if_pos (hn.1 h0)]
      exact RefO.pure ⟨rfl, rfl⟩
    · rw [if_pos h0, if_neg (fun h' => h0 (hn.2 h'))]
      have := RefO.bind (f := fun a => (Pure.pure (some a, false) : M (Option Addr × Bool))) (g := fun n => some n)
        (Q' := fun h (r : Option Addr × Bool) n => r.2 = false ∧ match r.1 with | none => n = 0 | some a => ∃ l, h[a]? = some (.slice l) ∧ l.length = n)
        (asSlice_ref hraw) (fun s' a n g ha => RefO.pure ⟨rfl, ha⟩)
      exact this

theorem runs_array {env : Env} (hf : env.fmt = .json) {dv : V → P} {path : Str} {c : T} (hc : RunsAs env dv c) :
    RunsAs env dv (.array path none none (some c)) := by
  intro s A ok inp p mod hA hfr hrd hd h
  simp only [T.frag] at hfr
  simp only [T.reads] at hrd
  simp only [T.defaults] at hd
  have hins : ∀ {s'}, Grow s s' → s'.instrs = s.instrs := fun g => g.ext.instrs
  have key : eval env.lib s.instrs dv (.array path none none (some c)) p mod =
      (some (itemCount env.lib (mod path) p)).bind fun n =>
        (itemsFrom (fun i => eval env.lib s.instrs dv c p
          (pathReplace (mod path ++ g!"[*]") (mod path ++ g!"[" ++ itoaNat i ++ g!"]") mod)) n 0 []).bind fun ps =>
            some (if ps.isEmpty then nilP else .arr ps) := by
    simp only [eval, Option.bind_some]
    rw [itemsFrom_eq]
    rw [← List.range_eq_range']
    simp only [List.nil_append, Option.map_eq_bind, Option.bind_assoc]
    rfl
  rw [key]
  simp only [T.run]
  unfold runArray
  simp only [hf]
  refine RefO.bind (baseJSON_ref hA h _ _ hrd.1) ?_
  rintro s1 ⟨base, changed⟩ n g1 ⟨hch, hb⟩
  simp only at hch
  subst hch
  simp only
  have hsave : (saveBase inp (mod path) base false : M V) = Pure.pure inp := by
    unfold saveBase
    cases base <;> simp
  rw [hsave]
  refine RefO.bind (s := s1) (r := some ()) (g := fun _ => _) (Q := fun _ v _ => v = inp) (RefO.pure rfl) ?_
  rintro s2 v _ g2 rfl
  refine RefO.bind (s := s2) (r := some ()) (g := fun _ => _) (Q := fun _ (l : List V) _ => l.length = n) ?_ ?_
  · cases base with
    | none =>
      simp only at hb
      subst hb
      exact RefO.pure rfl
    | some a =>
      obtain ⟨l, hl, hlen⟩ := hb
      have hl2 := g2.cell hl
      unfold readBase RefO readSlice
      simp only [hl2]
      exact ⟨Grow.refl _, .ok hlen⟩
  · rintro s3 l _ g3 hlen
    rw [hlen]
    have g13 := (g1.trans g2).trans g3
    refine RefO.bind (RefO.itemsLoop (A := A) n 0 s3 [] [] ?_ .nil) ?_
    · intro j s' g'
      have gs := g13.trans g'
      have := hc s' A ok v p (pathReplace (mod path ++ g!"[*]") (mod path ++ g!"[" ++ itoaNat j ++ g!"]") mod)
        (hA.grow gs) (by rw [hins gs]; exact hfr.2.2) (by rw [hins gs]; exact hrd.2 j) (fun d hd' => (hd d hd').grow gs) (h.grow gs)
      rw [hins gs] at this
      exact this
    · intro s4 out ps g4 hout
      unfold arrayResult
      cases hout with
      | nil => exact RefO.pure (Rep.sc _ _ _)
      | cons ha hl =>
        rw [if_neg (by simp)]
        exact RefO.of_okM (RefM.alloc_slice ((hA.grow g13).grow g4) (.cons ha hl))

end JT
