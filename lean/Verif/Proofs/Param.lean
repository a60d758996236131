import Verif.Proofs.Reify
/- Functions on values only look at them through their view: related views give related results. -/
namespace JT

/-- Pointwise relation of lists. -/
inductive All2 {α β : Type} (R : α → β → Prop) : List α → List β → Prop
  | nil : All2 R [] []
  | cons {a b l m} : R a b → All2 R l m → All2 R (a :: l) (b :: m)

theorem All2.length {α β : Type} {R : α → β → Prop} {l : List α} {m : List β} (h : All2 R l m) : l.length = m.length := by
  induction h with
  | nil => rfl
  | cons _ _ ih => simp [ih]

theorem All2.of_idx {α β : Type} {R : α → β → Prop} : ∀ {l : List α} {m : List β}, l.length = m.length →
    (∀ i (hi : i < l.length) (hi' : i < m.length), R l[i] m[i]) → All2 R l m := by
  intro l
  induction l with
  | nil => intro m h _; cases m with
    | nil => exact .nil
    | cons _ _ => simp at h
  | cons x xs ih =>
    intro m h hr
    cases m with
    | nil => simp at h
    | cons y ys =>
      exact .cons (by have := hr 0 (by simp) (by simp); simpa using this)
        (ih (by simpa using h) fun i hi hi' => by
          have := hr (i+1) (by simpa using hi) (by simpa using hi'); simpa using this)

theorem All2.idx {α β : Type} {R : α → β → Prop} {l : List α} {m : List β} (h : All2 R l m) :
    ∀ i (hi : i < l.length) (hi' : i < m.length), R l[i] m[i] := by
  induction h with
  | nil => intro i hi; simp at hi
  | cons hab _ ih =>
    intro i hi hi'
    cases i with
    | zero => simpa using hab
    | succ i => simpa using ih i (by simpa using hi) (by simpa using hi')

theorem All2.imp {α β : Type} {R S : α → β → Prop} {l : List α} {m : List β} (h : All2 R l m)
    (hrs : ∀ a b, R a b → S a b) : All2 S l m := by
  induction h with
  | nil => exact .nil
  | cons hab _ ih => exact .cons (hrs _ _ hab) ih

theorem All2.append {α β : Type} {R : α → β → Prop} {l l' : List α} {m m' : List β} (h : All2 R l m) (h' : All2 R l' m') :
    All2 R (l ++ l') (m ++ m') := by
  induction h with
  | nil => exact h'
  | cons hab _ ih => exact .cons hab ih

theorem All2.getElem? {α β : Type} {R : α → β → Prop} {l : List α} {m : List β} (h : All2 R l m) (i : Nat) :
    (l[i]? = none ∧ m[i]? = none) ∨ ∃ a b, l[i]? = some a ∧ m[i]? = some b ∧ R a b := by
  induction h generalizing i with
  | nil => left; simp
  | cons hab _ ih =>
    cases i with
    | zero => right; exact ⟨_, _, rfl, rfl, hab⟩
    | succ i => simpa using ih i

section
variable {α β : Type} (R : α → β → Prop)

/-- Same key, related values. -/
def KVRel (x : Str × α) (y : Str × β) : Prop := x.1 = y.1 ∧ R x.2 y.2

inductive ShapeRel : Shape α → Shape β → Prop
  | sc (s : Scal) : ShapeRel (.sc s) (.sc s)
  | arr {l m} : All2 R l m → ShapeRel (.arr l) (.arr m)
  | obj {l m} : All2 (KVRel R) l m → ShapeRel (.obj l) (.obj m)

inductive OutRel : Out α → Out β → Prop
  | val {a b} : R a b → OutRel (.val a) (.val b)
  | sc (s : Scal) : OutRel (.sc s) (.sc s)
  | arr {l m} : All2 R l m → OutRel (.arr l) (.arr m)
  | strs (l : List Str) : OutRel (.strs l) (.strs l)

inductive OptRel : Option α → Option β → Prop
  | none : OptRel none none
  | some {a b} : R a b → OptRel (some a) (some b)

inductive ResRel : Res α → Res β → Prop
  | ok {a b} : R a b → ResRel (.ok a) (.ok b)
  | err : ResRel .err .err
  | panic : ResRel .panic .panic

def ConvRel (c : Conv α) (d : Conv β) : Prop := OutRel R c.val d.val ∧ c.err = d.err

/-- Related views. -/
structure ViewRel (vw : View α) (vw' : View β) : Prop where
  shape : ∀ {a b}, R a b → ShapeRel R (vw.shape a) (vw'.shape b)
  toP : ∀ {a b}, R a b → vw.toP a = vw'.toP b
end

variable {α β : Type} {R : α → β → Prop} {vw : View α} {vw' : View β}

theorem get_rel {m : GMap α} {m' : GMap β} (h : All2 (KVRel R) m m') (k : Str) :
    OptRel R (GMap.get k m) (GMap.get k m') := by
  induction h with
  | nil => exact .none
  | @cons a b l m hab _ ih =>
    obtain ⟨ka, va⟩ := a
    obtain ⟨kb, vb⟩ := b
    obtain ⟨h1, h2⟩ := hab
    simp only at h1 h2
    subst h1
    simp only [GMap.get]
    split
    · exact .some h2
    · exact ih

theorem idx_rel {l : List α} {m : List β} (h : All2 R l m) (i : Nat) : OptRel R l[i]? m[i]? := by
  rcases h.getElem? i with ⟨h1, h2⟩ | ⟨a, b, h1, h2, h3⟩
  · rw [h1, h2]; exact .none
  · rw [h1, h2]; exact .some h3

theorem getStep_rel (hv : ViewRel R vw vw') (st : Step) {a : α} {b : β} (h : R a b) :
    OptRel R (getStep vw st a) (getStep vw' st b) := by
  have hs := hv.shape h
  unfold getStep
  generalize vw.shape a = x at hs
  generalize vw'.shape b = y at hs
  cases hs with
  | sc s => exact .none
  | arr hl =>
    cases st with
    | key k => exact .none
    | idx i => exact idx_rel hl i
  | obj hm =>
    cases st with
    | key k => exact get_rel hm k
    | idx i => exact get_rel hm _

theorem getSteps_rel (hv : ViewRel R vw vw') : ∀ (ss : List Step) {a : α} {b : β}, R a b →
    OptRel R (getSteps vw ss a) (getSteps vw' ss b) := by
  intro ss
  induction ss with
  | nil => intro a b h; exact .some h
  | cons s ss ih =>
    intro a b h
    simp only [getSteps]
    have := getStep_rel hv s h
    generalize getStep vw s a = x at this
    generalize getStep vw' s b = y at this
    cases this with
    | none => exact .none
    | some h' => exact ih h'

theorem optAll_rel {γ : Type} {f : γ → Option α} {g : γ → Option β} (h : ∀ x, OptRel R (f x) (g x)) :
    ∀ (l : List γ), OptRel (All2 R) (optAll f l) (optAll g l) := by
  intro l
  induction l with
  | nil => exact .some .nil
  | cons x xs ih =>
    simp only [optAll]
    have hx := h x
    generalize f x = u at hx
    generalize g x = v at hx
    generalize optAll f xs = us at ih
    generalize optAll g xs = vs at ih
    cases hx with
    | none => exact .none
    | some h1 =>
      cases ih with
      | none => exact .none
      | some h2 => exact .some (.cons h1 h2)

theorem OptRel.map {γ δ : Type} {S : γ → δ → Prop} {x : Option α} {y : Option β} (h : OptRel R x y) {f : α → γ} {g : β → δ}
    (hf : ∀ a b, R a b → S (f a) (g b)) : OptRel S (x.map f) (y.map g) := by
  cases h with
  | none => exact .none
  | some h => exact .some (hf _ _ h)

theorem jpGet_rel (hv : ViewRel R vw vw') (lib : Lib) (path : Str) {a : α} {b : β} (h : R a b) :
    OptRel (OutRel R) (jpGet lib vw path a) (jpGet lib vw' path b) := by
  unfold jpGet
  split
  · exact (getSteps_rel hv _ h).map fun _ _ h => .val h
  · rw [hv.toP h]
    split
    · exact .none
    · exact (getSteps_rel hv _ h).map fun _ _ h => .val h
    · exact (optAll_rel (fun ss => getSteps_rel hv ss h) _).map fun _ _ h => .arr h
    · exact .some (.sc _)

theorem convertBoolean_rel {x : Shape α} {y : Shape β} (h : ShapeRel R x y) : ConvRel R (convertBoolean x) (convertBoolean y) := by
  cases h with
  | sc s =>
    unfold convertBoolean
    cases s <;> simp only <;> (repeat' split) <;> exact ⟨.sc _, rfl⟩
  | arr _ => exact ⟨.sc _, rfl⟩
  | obj _ => exact ⟨.sc _, rfl⟩

theorem convertNumber_rel (lib : Lib) {x : Shape α} {y : Shape β} (h : ShapeRel R x y) :
    ConvRel R (convertNumber lib x) (convertNumber lib y) := by
  cases h with
  | sc s =>
    unfold convertNumber
    cases s <;> simp only <;> (repeat' split) <;> exact ⟨.sc _, rfl⟩
  | arr _ => exact ⟨.sc _, rfl⟩
  | obj _ => exact ⟨.sc _, rfl⟩

theorem convertString_rel (lib : Lib) {x : Shape α} {y : Shape β} (h : ShapeRel R x y) :
    ConvRel R (convertString lib x) (convertString lib y) := by
  cases h with
  | sc s =>
    unfold convertString
    cases s <;> simp only <;> exact ⟨.sc _, rfl⟩
  | arr _ => exact ⟨.sc _, rfl⟩
  | obj _ => exact ⟨.sc _, rfl⟩

theorem convertDateTime_rel (lib : Lib) {x : Shape α} {y : Shape β} (h : ShapeRel R x y) :
    ConvRel R (convertDateTime lib x) (convertDateTime lib y) := by
  cases h with
  | sc s =>
    unfold convertDateTime
    cases s <;> simp only <;> (repeat' split) <;> exact ⟨.sc _, rfl⟩
  | arr _ => exact ⟨.sc _, rfl⟩
  | obj _ => exact ⟨.sc _, rfl⟩

theorem convertTo_rel (hv : ViewRel R vw vw') (lib : Lib) (ty : Str) {a : α} {b : β} (h : R a b) :
    ConvRel R (convertTo lib vw ty a) (convertTo lib vw' ty b) := by
  have hs := hv.shape h
  unfold convertTo
  split
  · exact convertBoolean_rel hs
  · split
    · exact convertNumber_rel lib hs
    · split
      · exact convertString_rel lib hs
      · split
        · exact convertDateTime_rel lib hs
        · exact ⟨.val h, rfl⟩

theorem convert_rel (hv : ViewRel R vw vw') (lib : Lib) (ty : Str) : ∀ (n : Nat) {a : α} {b : β}, R a b →
    ResRel (ConvRel R) (convert lib vw ty n a) (convert lib vw' ty n b) := by
  intro n
  induction n with
  | zero => intro a b _; exact .panic
  | succ n ih =>
    intro a b h
    have hs := hv.shape h
    have hto := convertTo_rel hv lib ty h
    simp only [convert]
    generalize vw.shape a = x at hs
    generalize vw'.shape b = y at hs
    cases hs with
    | sc s => cases s <;> first | exact .ok ⟨.sc _, rfl⟩ | exact .ok hto
    | obj _ => exact .ok hto
    | arr hl =>
      cases hl with
      | nil => exact .ok ⟨.sc _, rfl⟩
      | @cons x y xs ys hxy hrest =>
        simp only
        have : xs = [] ↔ ys = [] := by
          cases hrest <;> simp
        simp only [this]
        split
        · have hsx := hv.shape hxy
          have htox := convertTo_rel hv lib ty hxy
          generalize vw.shape x = u at hsx
          generalize vw'.shape y = v at hsx
          cases hsx with
          | sc _ => exact .ok htox
          | obj _ => exact .ok htox
          | arr hl' =>
            cases hl' with
            | nil => exact .ok htox
            | cons h1 _ => exact ih h1
        · exact .ok hto

theorem durationOp_rel (hv : ViewRel R vw vw') {a : α} {b : β} (h : R a b) :
    ResRel (OutRel R) (durationOp vw a) (durationOp vw' b) := by
  have hs := hv.shape h
  unfold durationOp
  generalize vw.shape a = x at hs
  generalize vw'.shape b = y at hs
  have key : ∀ {x : Shape α} {y : Shape β}, ShapeRel R x y → ResRel (OutRel R)
      (match x with
        | .sc .nil => .ok (.sc (.int 0))
        | .sc (.str s) => (durationStr s).map fun n => .sc (.int n)
        | _ => .err)
      (match y with
        | .sc .nil => .ok (.sc (.int 0))
        | .sc (.str s) => (durationStr s).map fun n => .sc (.int n)
        | _ => .err) := by
    intro x y hxy
    cases hxy with
    | sc s =>
      cases s <;> first | exact .err | exact .ok (.sc _) | skip
      rename_i s
      simp only
      cases durationStr s <;> simp only [Res.map] <;> constructor
      exact .sc _
    | arr _ => exact .err
    | obj _ => exact .err
  cases hs with
  | sc s => exact key (.sc s)
  | obj hm => exact key (.obj hm)
  | arr hl =>
    cases hl with
    | nil => exact key (.arr .nil)
    | cons h1 h2 =>
      cases h2 with
      | nil => exact key (hv.shape h1)
      | cons h3 h4 => exact key (.arr (.cons h1 (.cons h3 h4)))

theorem numberOf_rel (hv : ViewRel R vw vw') (lib : Lib) {a : Out α} {b : Out β} (h : OutRel R a b) :
    numberOf lib vw a = numberOf lib vw' b := by
  cases h with
  | val h =>
    have hs := hv.shape h
    simp only [numberOf]
    generalize vw.shape _ = x at hs
    generalize vw'.shape _ = y at hs
    cases hs with
    | sc s => cases s <;> rfl
    | arr _ => rfl
    | obj _ => rfl
  | sc s => cases s <;> rfl
  | arr _ => rfl
  | strs _ => rfl

theorem maxLoop_rel (hv : ViewRel R vw vw') (lib : Lib) (p : Str) {l : List α} {m : List β} (h : All2 R l m) :
    ∀ i x j, maxLoop lib vw p l i x j = maxLoop lib vw' p m i x j := by
  induction h with
  | nil => intro i x j; rfl
  | cons hab _ ih =>
    intro i x j
    simp only [maxLoop]
    have := jpGet_rel hv lib p hab
    generalize jpGet lib vw p _ = u at this
    generalize jpGet lib vw' p _ = v at this
    cases this with
    | none => rfl
    | some ho =>
      simp only
      rw [numberOf_rel hv lib ho]
      split
      · rfl
      · split
        · exact ih _ _ _
        · exact ih _ _ _

theorem maxOp_rel (hv : ViewRel R vw vw') (lib : Lib) (p q : Str) {a : α} {b : β} (h : R a b) :
    ResRel (OutRel R) (maxOp lib vw p q a) (maxOp lib vw' p q b) := by
  have hs := hv.shape h
  unfold maxOp
  generalize vw.shape a = x at hs
  generalize vw'.shape b = y at hs
  cases hs with
  | sc _ => exact .err
  | obj _ => exact .err
  | @arr l m hl =>
    simp only
    rw [maxLoop_rel hv lib _ hl]
    split
    · rename_i i _
      have := idx_rel hl i
      generalize l[i]? = u at this
      generalize m[i]? = v at this
      cases this with
      | none => exact .panic
      | some hi =>
        simp only
        have := jpGet_rel hv lib (replace1 q g!"@" g!"$") hi
        generalize jpGet lib vw _ _ = u at this
        generalize jpGet lib vw' _ _ = v at this
        cases this with
        | none => exact .err
        | some ho => exact .ok ho
    · exact .err
    · exact .panic

theorem onStr_rel (hv : ViewRel R vw vw') {a : α} {b : β} (h : R a b) {f : Str → Res (Out α)} {g : Str → Res (Out β)}
    (hf : ∀ s, ResRel (OutRel R) (f s) (g s)) : ResRel (OutRel R) (onStr vw a f) (onStr vw' b g) := by
  have hs := hv.shape h
  unfold onStr
  generalize vw.shape a = x at hs
  generalize vw'.shape b = y at hs
  cases hs with
  | sc s => cases s <;> first | exact .err | exact hf _
  | arr _ => exact .err
  | obj _ => exact .err

theorem runOp_rel (hv : ViewRel R vw vw') (lib : Lib) (now : GTime) (op : Op) {a : α} {b : β} (h : R a b) :
    ResRel (OutRel R) (runOp lib vw now op a) (runOp lib vw' now op b) := by
  have hs := hv.shape h
  cases op with
  | duration => exact durationOp_rel hv h
  | max p q => exact maxOp_rel hv lib p q h
  | changeCase u => exact onStr_rel hv h fun s => .ok (.sc _)
  | replace x y => exact onStr_rel hv h fun s => .ok (.sc _)
  | split on => exact onStr_rel hv h fun s => by split <;> exact .ok (.strs _)
  | timeParse x y => exact onStr_rel hv h fun s => by split <;> constructor; exact .sc _
  | currentTime f => exact .ok (.sc _)
  | toCamelCase d => exact onStr_rel hv h fun s => .ok (.sc _)
  | removeHTML => exact onStr_rel hv h fun s => .ok (.sc _)
  | valueExists =>
    simp only [runOp]
    generalize vw.shape a = x at hs
    generalize vw'.shape b = y at hs
    cases hs with
    | sc s => cases s <;> first | exact .err | exact .ok (.sc _)
    | arr _ => exact .err
    | obj _ => exact .err
  | inverse =>
    simp only [runOp]
    generalize vw.shape a = x at hs
    generalize vw'.shape b = y at hs
    cases hs with
    | sc s => cases s <;> first | exact .err | exact .ok (.sc _)
    | arr _ => exact .err
    | obj _ => exact .err
  | convertToFloat64 =>
    simp only [runOp]
    generalize vw.shape a = x at hs
    generalize vw'.shape b = y at hs
    cases hs with
    | sc s => cases s <;> first | exact .err | exact .ok (.sc _) | (simp only; split <;> constructor; exact .sc _)
    | arr _ => exact .err
    | obj _ => exact .err
  | convertToInt64 =>
    simp only [runOp]
    generalize vw.shape a = x at hs
    generalize vw'.shape b = y at hs
    cases hs with
    | sc s => cases s <;> first | exact .err | exact .ok (.sc _) | (simp only; split <;> constructor; exact .sc _)
    | arr _ => exact .err
    | obj _ => exact .err
  | convertToBool =>
    simp only [runOp]
    generalize vw.shape a = x at hs
    generalize vw'.shape b = y at hs
    cases hs with
    | sc s => cases s <;> first | exact .err | exact .ok (.sc _) | (simp only; split <;> constructor; exact .sc _)
    | arr hl =>
      cases hl with
      | nil => exact .ok (.sc _)
      | cons _ _ => exact .ok (by simp; exact .sc _)
    | obj _ => exact .err

theorem concat_rel (hv : ViewRel R vw vw') {a a' : α} {b b' : β} (h : R a b) (h' : R a' b') (d : Str) :
    ResRel (OutRel R) (concat vw a a' d) (concat vw' b b' d) := by
  have hs := hv.shape h
  have hs' := hv.shape h'
  unfold concat
  generalize vw.shape a = x at hs
  generalize vw'.shape b = y at hs
  generalize vw.shape a' = x' at hs'
  generalize vw'.shape b' = y' at hs'
  cases hs with
  | sc s =>
    cases hs' with
    | sc s' =>
      cases s <;> cases s' <;> first
        | exact .ok (.sc _)
        | exact .ok (.val h)
        | exact .ok (.val h')
        | (simp only [Shape.gtype, Scal.gtype, ne_eq, not_true_eq_false, if_false]; exact .err)
        | (simp only [Shape.gtype, Scal.gtype, ne_eq, not_false_eq_true, if_true, reduceCtorEq]; exact .err)
        | (simp only [Shape.gtype, Scal.gtype, ne_eq, not_true_eq_false, if_false]; split <;> exact .ok (.sc _))
    | arr _ => cases s <;> first | exact .ok (.val h') | exact .err
    | obj _ => cases s <;> first | exact .ok (.val h') | exact .err
  | arr hl =>
    cases hs' with
    | sc s' => cases s' <;> first | exact .ok (.val h) | exact .err
    | arr _ => exact .err
    | obj _ => exact .err
  | obj hl =>
    cases hs' with
    | sc s' => cases s' <;> first | exact .ok (.val h) | exact .err
    | arr _ => exact .err
    | obj _ => exact .err

/-! ### The heap and the trees it represents -/

theorem rep_viewRel (h : Heap) (A : Addr → Bool) : ViewRel (Rep h A) h.view P.view where
  shape := by
    intro v p hr
    cases v with
    | sc s => rw [rep_sc_iff] at hr; subst hr; exact .sc s
    | arr a =>
      obtain ⟨_, l, ps, hl, rfl, hlen, hrs⟩ := rep_arr_iff.1 hr
      simp only [Heap.view, Heap.shape, hl, P.view, P.shape]
      exact .arr (All2.of_idx hlen hrs)
    | obj a =>
      obtain ⟨_, l, ps, hl, rfl, hlen, hrs⟩ := rep_obj_iff.1 hr
      simp only [Heap.view, Heap.shape, hl, P.view, P.shape]
      exact .obj (All2.of_idx hlen hrs)
  toP := by
    intro v p hr
    exact hr.toP

end JT
