import Verif.Spec.GoCode
import Verif.Props.C61
/- Lemmas about the Avro field mapper. -/
namespace JT.Go
open Spec

/-- The local function returns a slice that represents its argument. -/
def FnOk (d : Decls) (env : Funs) (g : SliceFn) : Prop :=
  ∃ e, g.elem = some e ∧ ∀ vs, Val d (.array e) (.slice vs) → ∃ as, env g.name (.slice vs) = some (.slice as) ∧ Conv d (.slice vs) (.slice as)

/-- The functions have their types. -/
def SigOk (sig : Str → GoType → Str → Prop) (fns : List SliceFn) : Prop := ∀ g ∈ fns, ∀ e, g.elem = some e → sig g.name e g.type

/-- The code computes what it should, for the value at a path. -/
def EvOk (d : Decls) (p : List Str) (t : GoType) (fns : List SliceFn) (c : Code) : Prop :=
  ∀ env z v, (∀ g ∈ fns, FnOk d env g) → selV z p = some v → Val d t v → ∃ a, eval env z c = some a ∧ Conv d v a

/-- The code has a type. -/
def TyOk (d : Decls) (p : List Str) (t : GoType) (fns : List SliceFn) (c : Code) (a : GoType) : Prop :=
  ∀ sig root, SigOk sig fns → SelT d root p t → HasType d sig root c a

/-- The body of a function is right, given those before. -/
def BodyOk (d : Decls) (pre : List SliceFn) (g : SliceFn) : Prop :=
  ∃ e, g.elem = some e ∧ e ≠ .star time ∧
    (∀ env z, (∀ h ∈ pre, FnOk d env h) → Val d e z → z ≠ .nil → ∃ fs, evalFields env z g.fields = some fs ∧ Conv d z (.ptr (.record g.type fs))) ∧
    ∀ sig, SigOk sig pre → HasType d sig (FieldOf d e) (.lit g.type g.fields) (.ident g.type)

/-- All functions are right, given those before. -/
def Fns (d : Decls) (fns : List SliceFn) : Prop := ∀ a g b, fns = a ++ g :: b → BodyOk d a g

/-- A field is mapped. -/
def FieldOk (d : Decls) (t a : GoType) (L : List ListOf) : Prop :=
  ∃ N, ∀ n, N ≤ n → ∀ name pre tag, ∃ mp, fieldValue d n name pre a (.mk (some name) t tag) = .ok mp ∧
    EvOk d (pre ++ [name]) t mp.pre mp.mapping ∧ TyOk d (pre ++ [name]) t mp.pre mp.mapping a ∧ Fns d mp.pre ∧
    (mp.pre.map SliceFn.name).Perm (L.map fnName)

variable {d : Decls}

/-! ### Lists of functions -/

theorem Fns.nil : Fns d [] := by
  intro a g b h
  cases a <;> cases h

theorem BodyOk.mono {a b : List SliceFn} {g : SliceFn} (h : BodyOk d b g) (hs : ∀ x ∈ b, x ∈ a) : BodyOk d a g := by
  obtain ⟨e, he, h0, h1, h2⟩ := h
  exact ⟨e, he, h0, fun env z hf => h1 env z fun x hx => hf x (hs x hx), fun sig hsig => h2 sig fun x hx => hsig x (hs x hx)⟩

theorem Fns.append {a b : List SliceFn} (ha : Fns d a) (hb : Fns d b) : Fns d (a ++ b) := by
  intro x g y h
  rcases List.append_eq_append_iff.mp h with ⟨s, h1, h2⟩ | ⟨s, h1, h2⟩
  · exact (hb s g y h2).mono fun w hw => by rw [h1]; exact List.mem_append_right _ hw
  · cases s with
    | nil =>
      simp only [List.nil_append] at h2
      refine (hb [] g y h2.symm).mono (by simp)
    | cons q s =>
      simp only [List.cons_append, List.cons.injEq] at h2
      obtain ⟨rfl, h2⟩ := h2
      exact ha x g s h1

theorem Fns.snoc {a : List SliceFn} {g : SliceFn} (ha : Fns d a) (hg : BodyOk d a g) : Fns d (a ++ [g]) := by
  intro x h y hxy
  rcases List.append_eq_append_iff.mp hxy with ⟨s, h1, h2⟩ | ⟨s, h1, h2⟩
  · cases s with
    | nil =>
      simp only [List.nil_append, List.cons.injEq] at h2
      simp only [List.append_nil] at h1
      rw [h1, ← h2.1]; exact hg
    | cons q s => simp at h2
  · cases s with
    | nil =>
      simp only [List.nil_append, List.cons.injEq] at h2
      simp only [List.append_nil] at h1
      rw [← h1, h2.1]; exact hg
    | cons q s =>
      simp only [List.cons_append, List.cons.injEq] at h2
      obtain ⟨rfl, h2⟩ := h2
      exact ha x h s h1

theorem mapAll_some {α β : Type} {f : α → Option β} : ∀ {l : List α}, (∀ x ∈ l, ∃ y, f x = some y) → ∃ r, mapAll f l = some r
  | [], _ => ⟨[], rfl⟩
  | x :: t, h => by
    obtain ⟨y, hy⟩ := h x (by simp)
    obtain ⟨r, hr⟩ := mapAll_some (f := f) (l := t) fun z hz => h z (by simp [hz])
    exact ⟨y :: r, by simp [mapAll, hy, hr]⟩

theorem mapAll_length {α β : Type} {f : α → Option β} : ∀ {l : List α} {r : List β}, mapAll f l = some r → r.length = l.length
  | [], r, h => by simp only [mapAll, Option.some.injEq] at h; subst h; rfl
  | x :: t, r, h => by
    simp only [mapAll, Option.bind_eq_some_iff, Option.map_eq_some_iff] at h
    obtain ⟨y, _, s, hs, rfl⟩ := h
    simp [mapAll_length hs]

theorem mapAll_get {α β : Type} {f : α → Option β} : ∀ {l : List α} {r : List β}, mapAll f l = some r →
    ∀ (i : Nat) x y, l[i]? = some x → r[i]? = some y → f x = some y
  | [], r, _, i, x, y, hx, _ => by simp at hx
  | x :: t, r, h, i, u, w, hu, hw => by
    simp only [mapAll, Option.bind_eq_some_iff, Option.map_eq_some_iff] at h
    obtain ⟨y, hy, s, hs, rfl⟩ := h
    cases i with
    | zero => simp only [List.getElem?_cons_zero, Option.some.injEq] at hu hw; subst hu; subst hw; exact hy
    | succ i => simp only [List.getElem?_cons_succ] at hu hw; exact mapAll_get hs i u w hu hw

/-- A slice of a type. -/
theorem Spec.Val.slice_inv {e : GoType} {vs : List GV} (h : Val d (.array e) (.slice vs)) : (∀ v ∈ vs, Val d e v) ∧ (e = .star Spec.time ∨ .nil ∉ vs) := by
  cases h with
  | slice h1 h2 => exact ⟨h1, h2⟩

/-- Functions of different names are all right. -/
theorem Fns.funs : ∀ (l : List SliceFn), Fns d l.reverse → (l.map SliceFn.name).Nodup → ∀ g ∈ l, FnOk d (funs l) g
  | [], _, _, g, hg => by cases hg
  | h :: t, hf, hn, g, hg => by
    simp only [List.map_cons, List.nodup_cons, List.mem_map, not_exists, not_and] at hn
    have hft : Fns d t.reverse := by
      intro a x b hx
      exact hf a x (b ++ [h]) (by simp [hx])
    have ih := Fns.funs t hft hn.2
    rcases List.mem_cons.mp hg with rfl | hg
    · obtain ⟨e, he, hnt, hb, _⟩ := hf t.reverse g [] (by simp)
      refine ⟨e, he, fun vs hvs => ?_⟩
      obtain ⟨hall, hnil⟩ := hvs.slice_inv
      have hnil : .nil ∉ vs := hnil.resolve_left hnt
      have hz : ∀ z ∈ vs, ∃ fs, evalFields (Spec.funs t) z g.fields = some fs ∧ Conv d z (.ptr (.record g.type fs)) := fun z hz =>
        hb _ z (fun x hx => ih x (by simpa using hx)) (hall z hz) fun h => hnil (h ▸ hz)
      obtain ⟨as, has⟩ := mapAll_some (f := fun z => (evalFields (Spec.funs t) z g.fields).map fun fs => AV.ptr (.record g.type fs)) (l := vs)
        fun z hz' => by obtain ⟨fs, hfs, _⟩ := hz z hz'; exact ⟨_, by rw [hfs]; rfl⟩
      refine ⟨as, by simp [Spec.funs, runSlice, has], .slice (mapAll_length has) fun i v a hv ha => ?_⟩
      have := mapAll_get has i v a hv ha
      obtain ⟨fs, hfs, hc⟩ := hz v (List.mem_of_getElem? hv)
      simp only [hfs, Option.map_some, Option.some.injEq] at this
      rw [← this]; exact hc
    · obtain ⟨e, he, h1⟩ := ih g hg
      refine ⟨e, he, fun vs hvs => ?_⟩
      obtain ⟨as, h2, h3⟩ := h1 vs hvs
      exact ⟨as, by simp only [Spec.funs]; rw [if_neg (fun h' => hn.1 g hg h')]; exact h2, h3⟩

/-! ### Scalars and times -/

theorem selV_snoc {z : GV} {p : List Str} {k : Str} : selV z (p ++ [k]) = (selV z p).bind (sel k) := by
  simp [selV, List.foldl_append]

theorem Spec.Val.scalar {b : Str} (hb : b ∈ basics) {v : GV} (h : Val d (.ident b) v) : ∃ a, plain v = some a ∧ Conv d v a := by
  cases h with
  | str => exact ⟨_, rfl, .str⟩
  | int => exact ⟨_, rfl, .int⟩
  | flt => exact ⟨_, rfl, .flt⟩
  | bool => exact ⟨_, rfl, .bool⟩
  | struct w hs =>
    rcases hs with h | ⟨n, h, hn, _⟩
    · cases h
    · cases h; exact absurd hb hn

theorem plain_direct {v : GV} {a : AV} (h : plain v = some a) : direct v = some a := by
  cases v <;> first | exact h | cases h

theorem StructOf.not_selector {s : Str} {fs : List GoField} (h : StructOf d (.selector s) fs) : False := by
  rcases h with h | ⟨n, h, _⟩ <;> cases h

theorem StructOf.not_array {t : GoType} {fs : List GoField} (h : StructOf d (.array t) fs) : False := by
  rcases h with h | ⟨n, h, _⟩ <;> cases h

theorem StructOf.not_star {t : GoType} {fs : List GoField} (h : StructOf d (.star t) fs) : False := by
  rcases h with h | ⟨n, h, _⟩ <;> cases h

theorem Spec.Val.of_time {v : GV} (h : Val d Spec.time v) : ∃ t, v = .time t := by
  generalize ht : Spec.time = u at h
  cases h with
  | time => exact ⟨_, rfl⟩
  | struct w hs => subst ht; exact (StructOf.not_selector hs).elim
  | _ => cases ht

theorem Spec.Val.of_star {t : GoType} {v : GV} (h : Val d (.star t) v) : v = .nil ∨ ∃ w, v = .ptr w ∧ Val d t w := by
  cases h with
  | nil => exact .inl rfl
  | ptr h => exact .inr ⟨_, rfl, h⟩
  | struct w hs => exact (StructOf.not_star hs).elim

theorem Spec.Val.of_array {t : GoType} {v : GV} (h : Val d (.array t) v) : ∃ l, v = .slice l ∧ (∀ x ∈ l, Val d t x) ∧ (t = .star Spec.time ∨ .nil ∉ l) := by
  cases h with
  | slice h1 h2 => exact ⟨_, rfl, h1, h2⟩
  | struct w hs => exact (StructOf.not_array hs).elim

/-- Fields that are used as they are. -/
theorem evOk_field {p : List Str} {t : GoType} (h : ∀ v, Val d t v → ∃ a, direct v = some a ∧ Conv d v a) : EvOk d p t [] (.field p) := by
  intro env z v _ hz hv
  obtain ⟨a, ha, hc⟩ := h v hv
  exact ⟨a, by simp [eval, hz, ha], hc⟩

theorem evOk_time {p : List Str} {t : GoType} {s o : Bool} (h : ∀ v, Val d t v → ∃ a, callTime s o v = some a ∧ Conv d v a) :
    EvOk d p t [] (.time s o p) := by
  intro env z v _ hz hv
  obtain ⟨a, ha, hc⟩ := h v hv
  exact ⟨a, by simp [eval, hz, ha], hc⟩

theorem direct_scalar {b : Str} (hb : b ∈ basics) (v : GV) (h : Val d (.ident b) v) : ∃ a, direct v = some a ∧ Conv d v a := by
  obtain ⟨a, ha, hc⟩ := h.scalar hb
  exact ⟨a, plain_direct ha, hc⟩

theorem direct_slice {b : Str} (hb : b ∈ basics) (v : GV) (h : Val d (.array (.ident b)) v) : ∃ a, direct v = some a ∧ Conv d v a := by
  obtain ⟨l, rfl, h1, _⟩ := h.of_array
  obtain ⟨r, hr⟩ := mapAll_some (f := plain) (l := l) fun x hx => by obtain ⟨a, ha, _⟩ := (h1 x hx).scalar hb; exact ⟨a, ha⟩
  refine ⟨.slice r, by simp [direct, hr], .slice (mapAll_length hr) fun i v a hv ha => ?_⟩
  obtain ⟨a', ha', hc⟩ := (h1 v (List.mem_of_getElem? hv)).scalar hb
  have := mapAll_get hr i v a hv ha
  rw [ha', Option.some.injEq] at this
  rw [← this]; exact hc

theorem direct_map {b : Str} (hb : b ∈ basics) (v : GV) (h : Val d (.map (.ident g!"string") (.ident b)) v) : ∃ a, direct v = some a ∧ Conv d v a := by
  cases h with
  | struct w hs => rcases hs with h | ⟨n, h, _⟩ <;> cases h
  | @map _ l h1 =>
    obtain ⟨r, hr⟩ := mapAll_some (f := fun e : Str × GV => (plain e.2).map fun a => (e.1, a)) (l := l) fun x hx => by
      obtain ⟨a, ha, _⟩ := (h1 x hx).scalar hb; exact ⟨(x.1, a), by simp [ha]⟩
    refine ⟨.map r, by simp [direct, hr], .map ?_ fun i k v a hv ha => ?_⟩
    · refine List.ext_getElem? fun i => ?_
      rw [List.getElem?_map, List.getElem?_map]
      by_cases hi : i < l.length
      · have hi' : i < r.length := by rw [mapAll_length hr]; exact hi
        rw [List.getElem?_eq_getElem hi, List.getElem?_eq_getElem hi']
        have := mapAll_get hr i _ _ (List.getElem?_eq_getElem hi) (List.getElem?_eq_getElem hi')
        rw [Option.map_eq_some_iff] at this
        obtain ⟨a, _, e⟩ := this
        rw [← e]
        rfl
      · have := mapAll_length hr
        rw [List.getElem?_eq_none (by omega), List.getElem?_eq_none (by omega)]
        rfl
    · obtain ⟨a', ha', hc⟩ := (h1 _ (List.mem_of_getElem? hv)).scalar hb
      have := mapAll_get hr i _ _ hv ha
      simp only [ha', Option.map_some, Option.some.injEq, Prod.mk.injEq, true_and] at this
      rw [← this]; exact hc

theorem callTime_time (v : GV) (h : Val d Spec.time v) : ∃ a, callTime false false v = some a ∧ Conv d v a := by
  obtain ⟨t, rfl⟩ := h.of_time
  exact ⟨_, rfl, .time⟩

theorem callTime_times (v : GV) (h : Val d (.array Spec.time) v) : ∃ a, callTime true false v = some a ∧ Conv d v a := by
  obtain ⟨l, rfl, h1, _⟩ := h.of_array
  have h2 : ∀ x ∈ l, ∃ t, x = .time t := fun x hx => (h1 x hx).of_time
  obtain ⟨r, hr⟩ := mapAll_some (f := theTime) (l := l) fun x hx => by obtain ⟨t, rfl⟩ := h2 x hx; exact ⟨t, rfl⟩
  refine ⟨_, by simp [callTime, hr]; rfl, .slice (by simp [Avro.avroTimeSlice, mapAll_length hr]) fun i v a hv ha => ?_⟩
  obtain ⟨t, rfl⟩ := h2 v (List.mem_of_getElem? hv)
  simp only [Avro.avroTimeSlice, List.getElem?_map, Option.map_eq_some_iff] at ha
  obtain ⟨_, ⟨t', h3, rfl⟩, rfl⟩ := ha
  have := mapAll_get hr i (.time t) t' hv h3
  simp only [theTime, Option.some.injEq] at this
  rw [this]; exact .time

/-- The times that are there, after those found before. -/
theorem optStep_fold : ∀ (ts : List (Option Avro.Time)) (acc : List Int), ts.foldl Avro.optStep acc = acc ++ (ts.filterMap id).map Avro.avroTime
  | [], acc => by simp
  | none :: t, acc => by simp [Avro.optStep, optStep_fold t]
  | some x :: t, acc => by simp [Avro.optStep, optStep_fold t]

theorem optionalSlice_getD (ts : List (Option Avro.Time)) : (Avro.avroOptionalTimeSlice ts).getD [] = (ts.filterMap id).map Avro.avroTime := by
  unfold Avro.avroOptionalTimeSlice
  rw [optStep_fold]
  split
  · rename_i h
    simp only [List.nil_append, List.length_map] at h ⊢
    have : (ts.filterMap id) = [] := List.eq_nil_of_length_eq_zero (by omega)
    rw [this]; rfl
  · simp

theorem presentTimes_eq : ∀ {l : List GV} {ts : List (Option Avro.Time)}, mapAll theOptional l = some ts →
    presentTimes l = ((ts.filterMap id).map Avro.avroTime).map .int
  | [], ts, h => by simp only [mapAll, Option.some.injEq] at h; subst h; rfl
  | x :: t, ts, h => by
    simp only [mapAll, Option.bind_eq_some_iff, Option.map_eq_some_iff] at h
    obtain ⟨o, ho, r, hr, rfl⟩ := h
    have ih := presentTimes_eq hr
    unfold theOptional at ho
    split at ho
    · cases ho; simp [presentTimes, ih]
    · cases ho; simp [presentTimes, ih]
    · cases ho

theorem callTime_ptrTimes (v : GV) (h : Val d (.array (.star Spec.time)) v) : ∃ a, callTime true true v = some a ∧ Conv d v a := by
  obtain ⟨l, rfl, h1, _⟩ := h.of_array
  have h2 : ∀ x ∈ l, x = .nil ∨ ∃ t, x = .ptr (.time t) := fun x hx => by
    rcases (h1 x hx).of_star with h | ⟨w, rfl, hw⟩
    · exact .inl h
    · obtain ⟨t, rfl⟩ := hw.of_time; exact .inr ⟨t, rfl⟩
  obtain ⟨r, hr⟩ := mapAll_some (f := theOptional) (l := l) fun x hx => by
    rcases h2 x hx with rfl | ⟨t, rfl⟩
    · exact ⟨none, rfl⟩
    · exact ⟨some t, rfl⟩
  refine ⟨.slice (presentTimes l), ?_, .times h2⟩
  simp only [callTime, hr, Option.map_some, optionalSlice_getD, presentTimes_eq hr]

theorem callTime_ptr (v : GV) (h : Val d Spec.time v) : ∃ a, callTime false true (.ptr v) = some a ∧ Conv d v a := by
  obtain ⟨t, rfl⟩ := h.of_time
  exact ⟨_, rfl, .time⟩

theorem fieldOk_of {t a : GoType} (c : List Str → Code) (N : Nat)
    (h : ∀ n name pre tag, ∃ nm, fieldValue d (n + N) name pre a (.mk (some name) t tag) = .ok ⟨c (pre ++ [name]), [], nm⟩)
    (he : ∀ p, EvOk d p t [] (c p)) (ht : ∀ p, TyOk d p t [] (c p) a) : FieldOk d t a [] := by
  refine ⟨N, fun n hn name pre tag => ?_⟩
  obtain ⟨nm, hv⟩ := h (n - N) name pre tag
  rw [Nat.sub_add_cancel hn] at hv
  exact ⟨_, hv, he _, ht _, Fns.nil, .refl _⟩

theorem fieldOk_same {b : Str} (hb : b ∈ basics) : FieldOk d (.ident b) (.ident b) [] := by
  refine fieldOk_of .field 1 (fun n name pre tag => ?_) (fun p => evOk_field (direct_scalar hb)) fun p sig root _ h => .field h
  simp only [basics, List.mem_cons, List.not_mem_nil, or_false] at hb
  rcases hb with rfl | rfl | rfl | rfl <;> exact ⟨_, rfl⟩

theorem fieldOk_slice {b : Str} (hb : b ∈ basics) : FieldOk d (.array (.ident b)) (.array (.ident b)) [] := by
  refine fieldOk_of .field 2 (fun n name pre tag => ?_) (fun p => evOk_field (direct_slice hb)) fun p sig root _ h => .field h
  simp only [basics, List.mem_cons, List.not_mem_nil, or_false] at hb
  rcases hb with rfl | rfl | rfl | rfl <;> exact ⟨_, rfl⟩

theorem fieldOk_map {b : Str} (hb : b ∈ basics) : FieldOk d (.map (.ident g!"string") (.ident b)) (.map (.ident g!"string") (.ident b)) [] := by
  refine fieldOk_of .field 2 (fun n name pre tag => ?_) (fun p => evOk_field (direct_map hb)) fun p sig root _ h => .field h
  simp only [basics, List.mem_cons, List.not_mem_nil, or_false] at hb
  rcases hb with rfl | rfl | rfl | rfl <;> exact ⟨_, rfl⟩

theorem fieldOk_time : FieldOk d Spec.time long [] :=
  fieldOk_of (.time false false) 1 (fun _ _ _ _ => ⟨_, rfl⟩) (fun _ => evOk_time callTime_time) fun _ _ _ _ h => .time h

theorem fieldOk_times : FieldOk d (.array Spec.time) (.array long) [] :=
  fieldOk_of (.time true false) 2 (fun _ _ _ _ => ⟨_, rfl⟩) (fun _ => evOk_time callTime_times) fun _ _ _ _ h => .time h

theorem fieldOk_ptrTimes : FieldOk d (.array (.star Spec.time)) (.array long) [] :=
  fieldOk_of (.time true true) 2 (fun _ _ _ _ => ⟨_, rfl⟩) (fun _ => evOk_time callTime_ptrTimes) fun _ _ _ _ h => .time h

theorem Spec.Val.not_nil {t : GoType} {v : GV} (h : Val d t v) (ht : isStar t = false) : v ≠ .nil := by
  rintro rfl
  cases h
  cases ht

theorem evOk_union {p : List Str} {t : GoType} {fns : List SliceFn} {c : Code} {u m : Str} (ht : isStar t = false) (h : EvOk d p t fns c) :
    EvOk d p t fns (.addr (.union u m c)) := by
  intro env z v hf hz hv
  obtain ⟨a, ha, hc⟩ := h env z v hf hz hv
  exact ⟨.ptr (.union m a), by simp [eval, ha], .union (hv.not_nil ht) hc⟩

theorem fieldOk_optional {u m b : Str} (hu : (u, m, b) ∈ unions) : FieldOk d (.ident b) (.star (.ident u)) [] := by
  have hb : b ∈ basics := by
    simp only [unions, List.mem_cons, List.not_mem_nil, or_false, Prod.mk.injEq] at hu
    rcases hu with ⟨_, _, rfl⟩ | ⟨_, _, rfl⟩ | ⟨_, _, rfl⟩ <;> decide
  refine fieldOk_of (fun p => .addr (.union u m (.field p))) 2 (fun n name pre tag => ?_)
    (fun p => evOk_union rfl (evOk_field (direct_scalar hb))) fun p sig root _ h => .addr trivial (.union (.scalar hu) (.field h))
  simp only [unions, List.mem_cons, List.not_mem_nil, or_false, Prod.mk.injEq] at hu
  rcases hu with ⟨rfl, rfl, rfl⟩ | ⟨rfl, rfl, rfl⟩ | ⟨rfl, rfl, rfl⟩ <;> exact ⟨_, rfl⟩

theorem fieldOk_optTime : FieldOk d Spec.time (.star (.ident g!"UnionNullLong")) [] :=
  fieldOk_of (fun p => .addr (.union g!"UnionNullLong" g!"Long" (.time false false p))) 2 (fun _ _ _ _ => ⟨_, rfl⟩)
    (fun _ => evOk_union rfl (evOk_time callTime_time)) fun _ _ _ _ h => .addr trivial (.union (.scalar (b := g!"int64") (by simp [unions])) (.time h))

theorem fieldOk_ptrTime : FieldOk d (.star Spec.time) (.star (.ident g!"UnionNullLong")) [] := by
  refine fieldOk_of (fun p => .guard g!"UnionNullLong" p (.addr (.union g!"UnionNullLong" g!"Long" (.time false true p)))) 2 (fun _ _ _ _ => ⟨_, rfl⟩)
    (fun p env z v hf hz hv => ?_) fun _ _ _ _ h => .guard h (.addr trivial (.union (.scalar (b := g!"int64") (by simp [unions])) (.time h)))
  rcases hv.of_star with rfl | ⟨w, rfl, hw⟩
  · exact ⟨.nil, by simp [eval, hz], .nil⟩
  · obtain ⟨a, ha, hc⟩ := callTime_ptr w hw
    exact ⟨.ptr (.union g!"Long" a), by simp [eval, hz, ha], .union (by simp) (.deref hc)⟩

/-! ### Structs -/

/-- The fields of a struct are found under their names. -/
theorem mapFields_named {fs : List GoField} (h : Named fs) : ∃ m, mapFields (fun _ => none) id 1 fs = .ok m ∧
    ∀ k t tg, GoField.mk (some k) t tg ∈ fs → GMap.get k m = some (.mk (some k) t tg) := by
  obtain ⟨m, hm⟩ := mapLoop_ok (files := fun _ => none) (ord := id) (rec := mapFields (fun _ => none) id 0) fs [] fun g hg hn => by
    obtain ⟨k, hk, _⟩ := h.1 g hg
    rw [hk] at hn; cases hn
  refine ⟨m, hm, fun k t tg hf => ?_⟩
  have hkey : ∀ f ∈ fs, ∀ k, f.name = some k → Spec.key k = k := fun f hf k hk => by
    obtain ⟨k', hk', hi⟩ := h.1 f hf
    rw [hk] at hk'; cases hk'
    simp [Spec.key, hi]
  have hN : ((fs.filterMap GoField.name).map Spec.key).Nodup := by
    have : ∀ l : List GoField, (∀ f ∈ l, f ∈ fs) → (l.map GoField.name).Nodup →
        ((l.filterMap GoField.name).map Spec.key).Nodup ∧ ∀ k ∈ (l.filterMap GoField.name).map Spec.key, some k ∈ l.map GoField.name := by
      intro l
      induction l with
      | nil => simp
      | cons f l ih =>
        intro hl hn
        obtain ⟨k, hk, _⟩ := h.1 f (hl f (by simp))
        have hkk := hkey f (hl f (by simp)) k hk
        obtain ⟨h1, h2⟩ := ih (fun f hf => hl f (by simp [hf])) (List.nodup_cons.mp hn).2
        rw [List.filterMap_cons_some hk, List.map_cons, hkk]
        refine ⟨List.nodup_cons.mpr ⟨fun hin => ?_, h1⟩, fun x hx => ?_⟩
        · have := h2 k hin
          rw [List.map_cons, hk] at hn
          exact (List.nodup_cons.mp hn).1 this
        · rcases List.mem_cons.mp hx with rfl | hx
          · simp [hk]
          · exact List.mem_cons_of_mem _ (h2 x hx)
    exact (this fs (fun _ h => h) h.2).1
  have := C61_own (files := fun _ => none) (ord := id) (fun m => List.Perm.refl _) (n := 1) hm hN hf (k := k) rfl
  rw [hkey _ hf k rfl] at this
  exact this

/-- The names in the Avro struct that stem from the generated one, in order. -/
def ownNames : List GoField → List Str
  | [] => []
  | .mk none _ _ :: t => ownNames t
  | .mk (some k) _ _ :: t => if hasPrefix k g!"Avro" then ownNames t else k :: ownNames t

theorem meta_iff {k : Str} : hasPrefix k g!"Avro" = true ↔ Meta k := by
  simp [hasPrefix, Meta]

theorem mem_ownNames : ∀ {l : List GoField} {k : Str}, k ∈ ownNames l ↔ ¬ Meta k ∧ ∃ t tag, GoField.mk (some k) t tag ∈ l
  | [], k => by simp [ownNames]
  | .mk none t tag :: l, k => by
    simp only [ownNames, mem_ownNames (l := l)]
    simp
  | .mk (some x) t tag :: l, k => by
    simp only [ownNames]
    split
    · rename_i h
      rw [mem_ownNames (l := l)]
      refine ⟨fun ⟨h1, t, tag, h2⟩ => ⟨h1, t, tag, by simp [h2]⟩, fun ⟨h1, t, tag, h2⟩ => ⟨h1, t, tag, ?_⟩⟩
      rcases List.mem_cons.mp h2 with h3 | h3
      · cases h3; exact absurd (meta_iff.mp h) h1
      · exact h3
    · rename_i h
      rw [List.mem_cons, mem_ownNames (l := l)]
      constructor
      · rintro (rfl | ⟨h1, t', tag', h2⟩)
        · exact ⟨fun h' => h (meta_iff.mpr h'), t, tag, by simp⟩
        · exact ⟨h1, t', tag', by simp [h2]⟩
      · rintro ⟨h1, t', tag', h2⟩
        rcases List.mem_cons.mp h2 with h3 | h3
        · cases h3; exact .inl rfl
        · exact .inr ⟨h1, t', tag', h3⟩

theorem nodup_ownNames : ∀ {l : List GoField}, (l.map GoField.name).Nodup → (ownNames l).Nodup
  | [], _ => by simp [ownNames]
  | .mk none t tag :: l, h => nodup_ownNames (l := l) (List.nodup_cons.mp h).2
  | .mk (some x) t tag :: l, h => by
    obtain ⟨h1, h2⟩ := List.nodup_cons.mp h
    simp only [ownNames]
    split
    · exact nodup_ownNames h2
    · refine List.nodup_cons.mpr ⟨fun hin => h1 ?_, nodup_ownNames h2⟩
      obtain ⟨_, t', tag', hm⟩ := mem_ownNames.mp hin
      exact List.mem_map.mpr ⟨_, hm, rfl⟩

theorem fieldNames_own {afs : List GoField} (h : (afs.map GoField.name).Nodup) : FieldNames afs (ownNames afs) :=
  ⟨nodup_ownNames h, fun _ => mem_ownNames⟩

/-- A list of fields is mapped: the code for each of them, and the functions. -/
def ListOk (d : Decls) (ty : Str → GoType) (Ls : Str → List ListOf) (l : List GoField) (pre : List Str) (fl : List (Str × Code)) (fns : List SliceFn) : Prop :=
  fl.map Prod.fst = ownNames l ∧ Fns d fns ∧ (fns.map SliceFn.name).Perm (((ownNames l).flatMap Ls).map fnName) ∧ ∀ k c, (k, c) ∈ fl → ∃ a tag, GoField.mk (some k) a tag ∈ l ∧
    EvOk d (pre ++ [k]) (ty k) fns c ∧ TyOk d (pre ++ [k]) (ty k) fns c a

theorem EvOk.mono {p : List Str} {t : GoType} {a b : List SliceFn} {c : Code} (h : EvOk d p t a c) (hs : ∀ x ∈ a, x ∈ b) : EvOk d p t b c :=
  fun env z v hf => h env z v fun x hx => hf x (hs x hx)

theorem TyOk.mono {p : List Str} {t u : GoType} {a b : List SliceFn} {c : Code} (h : TyOk d p t a c u) (hs : ∀ x ∈ a, x ∈ b) : TyOk d p t b c u :=
  fun sig root hf => h sig root fun x hx => hf x (hs x hx)

theorem genFields_ok {ty : Str → GoType} {Ls : Str → List ListOf} {m : GMap GoField} : ∀ (l : List GoField), (∀ f ∈ l, f.name ≠ none) →
    (∀ k a tag, GoField.mk (some k) a tag ∈ l → ¬ Meta k → ∃ tg, GMap.get k m = some (.mk (some k) (ty k) tg)) →
    (∀ k a tag, GoField.mk (some k) a tag ∈ l → ¬ Meta k → FieldOk d (ty k) a (Ls k)) →
    ∃ N, ∀ n, N ≤ n → ∀ pre, ∃ fl fns, genFields (fieldValue d n) pre m l = .ok (fl, fns) ∧ ListOk d ty Ls l pre fl fns
  | [], _, _, _ => ⟨0, fun _ _ _ => ⟨[], [], rfl, rfl, Fns.nil, .refl _, by simp⟩⟩
  | .mk none _ _ :: t, h, _, _ => absurd rfl (h _ (List.mem_cons_self ..))
  | .mk (some k) a tag :: t, h, hm, hf => by
    obtain ⟨N, ih⟩ := genFields_ok (ty := ty) (Ls := Ls) (m := m) t (fun f hf => h f (by simp [hf])) (fun k a tag hk => hm k a tag (by simp [hk]))
      fun k a tag hk => hf k a tag (by simp [hk])
    by_cases hk : hasPrefix k g!"Avro" = true
    · refine ⟨N, fun n hn pre => ?_⟩
      obtain ⟨fl, fns, h1, h2, h3, hpm, h4⟩ := ih n hn pre
      refine ⟨fl, fns, by rw [genFields, if_pos hk]; exact h1, by rw [h2, ownNames, if_pos hk], h3, by rw [ownNames, if_pos hk]; exact hpm, fun k c hc => ?_⟩
      obtain ⟨a, tag, h5, h6⟩ := h4 k c hc
      exact ⟨a, tag, by simp [h5], h6⟩
    · have hk' : ¬ Meta k := fun h => hk (meta_iff.mpr h)
      obtain ⟨tg, hg⟩ := hm k a tag (by simp) hk'
      obtain ⟨N', hv⟩ := hf k a tag (by simp) hk'
      refine ⟨max N N', fun n hn pre => ?_⟩
      obtain ⟨fl, fns, h1, h2, h3, hpm, h4⟩ := ih n (by omega) pre
      obtain ⟨mp, h5, h6, h7, h8, hpm'⟩ := hv n (by omega) k pre tg
      refine ⟨(k, mp.mapping) :: fl, mp.pre ++ fns, ?_, ?_, h8.append h3, ?_, fun x c hc => ?_⟩
      · rw [genFields, if_neg hk]; simp only [hg, h5, h1, Res.bind]
      · simp only [List.map_cons, h2]; rw [ownNames, if_neg hk]
      · rw [ownNames, if_neg hk, List.flatMap_cons, List.map_append, List.map_append]
        exact hpm'.append hpm
      · rcases List.mem_cons.mp hc with hc | hc
        · cases hc
          exact ⟨a, tag, by simp, h6.mono fun _ hx => List.mem_append_left _ hx, h7.mono fun _ hx => List.mem_append_left _ hx⟩
        · obtain ⟨a', tag', h9, h10, h11⟩ := h4 x c hc
          exact ⟨a', tag', by simp [h9], h10.mono fun _ hx => List.mem_append_right _ hx, h11.mono fun _ hx => List.mem_append_right _ hx⟩

theorem evalFields_ok {env : Funs} {z : GV} {P : Str → AV → Prop} : ∀ {fl : List (Str × Code)}, (∀ k c, (k, c) ∈ fl → ∃ a, eval env z c = some a ∧ P k a) →
    ∃ gs, evalFields env z fl = some gs ∧ gs.map Prod.fst = fl.map Prod.fst ∧ ∀ k a, (k, a) ∈ gs → P k a
  | [], _ => ⟨[], rfl, rfl, by simp⟩
  | (k, c) :: t, h => by
    obtain ⟨a, ha, hp⟩ := h k c (by simp)
    obtain ⟨gs, h1, h2, h3⟩ := evalFields_ok (fl := t) fun k c hc => h k c (by simp [hc])
    refine ⟨(k, a) :: gs, by simp [evalFields, ha, h1], by simp [h2], fun x b hb => ?_⟩
    rcases List.mem_cons.mp hb with hb | hb
    · cases hb; exact hp
    · exact h3 x b hb

/-- Everything about a struct and its record. -/
def RecOk (d : Decls) (t : GoType) (r : Str) (L : List ListOf) : Prop :=
  ∃ fs nm afs, StructOf d t fs ∧ childFields d t = .ok (fs, nm) ∧ (∀ x, nm = some x → t = .ident x) ∧ (nm = none → t = .struct fs) ∧
    RecName r ∧ d.avro r = some afs ∧ (∀ u, t ≠ .star u) ∧ ∃ N, ∀ n, N ≤ n → ∀ pre, ∃ fl fns,
      childStruct d (fieldValue d n) t pre afs = .ok (fl, fns, fs, nm) ∧ Fns d fns ∧ (fns.map SliceFn.name).Perm (L.map fnName) ∧
      (∀ env z v w, (∀ g ∈ fns, FnOk d env g) → selV z pre = some v → v = w ∨ v = .ptr w → Val d t w →
        ∃ gs, evalFields env z fl = some gs ∧ Conv d w (.ptr (.record r gs))) ∧
      ∀ sig root, SigOk sig fns → (∀ k u tag, GoField.mk (some k) u tag ∈ fs → SelT d root (pre ++ [k]) u) → HasType d sig root (.lit r fl) (.ident r)

theorem Spec.Val.of_struct {t : GoType} {fs : List GoField} (hs : StructOf d t fs) {w : GV} (h : Val d t w) :
    ∃ m, w = .struct m ∧ ∃ v : Str → GV, (∀ k u tag, GoField.mk (some k) u tag ∈ fs → GMap.get k m = some (v k)) ∧
      ∀ k u tag, GoField.mk (some k) u tag ∈ fs → Val d u (v k) := by
  rcases hs with rfl | ⟨n, rfl, hn, hg⟩
  · cases h with
    | struct v h1 h2 h3 =>
      rcases h1 with h1 | ⟨n, h1, _⟩
      · cases h1; exact ⟨_, rfl, v, h2, h3⟩
      · cases h1
  · cases h with
    | struct v h1 h2 h3 =>
      rcases h1 with h1 | ⟨n, h1, _, hg'⟩
      · cases h1
      · cases h1; rw [hg] at hg'; cases hg'; exact ⟨_, rfl, v, h2, h3⟩
    | _ => exact absurd (by decide) hn

theorem type_of_name {l : List GoField} (h : (l.map GoField.name).Nodup) {k : Str} {a b : GoType} {s t : Tag} (ha : GoField.mk (some k) a s ∈ l)
    (hb : GoField.mk (some k) b t ∈ l) : a = b := by
  induction l with
  | nil => cases ha
  | cons f l ih =>
    obtain ⟨h1, h2⟩ := List.nodup_cons.mp h
    rcases List.mem_cons.mp ha with ha | ha <;> rcases List.mem_cons.mp hb with hb | hb
    · rw [← ha] at hb; cases hb; rfl
    · exact absurd (List.mem_map.mpr ⟨_, hb, by rw [← ha]; rfl⟩) h1
    · exact absurd (List.mem_map.mpr ⟨_, ha, by rw [← hb]; rfl⟩) h1
    · exact ih h2 ha hb

/-- Two lists of the names of the fields differ in their order only. -/
theorem fieldNames_perm {afs : List GoField} {ks : List Str} {Ls : Str → List ListOf} {L : List ListOf} (h2 : (afs.map GoField.name).Nodup) (h5 : FieldNames afs ks)
    (h6 : L.Perm (ks.flatMap Ls)) : (((ownNames afs).flatMap Ls).map fnName).Perm (L.map fnName) := by
  have hp : (ownNames afs).Perm ks := (List.perm_ext_iff_of_nodup (nodup_ownNames h2) h5.1).2 fun k => by rw [mem_ownNames, h5.2 k]
  exact ((hp.flatMap_right Ls).trans h6.symm).map _

theorem recOk {t : GoType} {fs : List GoField} {r : Str} {afs : List GoField} {ty : Str → GoType} {Ls : Str → List ListOf} {ks : List Str} {L : List ListOf} (hs : StructOf d t fs) (hn : Named fs) (hr : RecName r)
    (ha : d.avro r = some afs) (h1 : ∀ f ∈ afs, f.name ≠ none) (h2 : (afs.map GoField.name).Nodup)
    (h3 : ∀ k a tag, GoField.mk (some k) a tag ∈ afs → ¬ Meta k → ∃ tg, GoField.mk (some k) (ty k) tg ∈ fs)
    (h4 : ∀ k a tag, GoField.mk (some k) a tag ∈ afs → ¬ Meta k → FieldOk d (ty k) a (Ls k)) (h5 : FieldNames afs ks) (h6 : L.Perm (ks.flatMap Ls)) : RecOk d t r L := by
  have hc : ∃ nm, childFields d t = .ok (fs, nm) ∧ (∀ x, nm = some x → t = .ident x) ∧ (nm = none → t = .struct fs) ∧ ∀ u, t ≠ .star u := by
    rcases hs with rfl | ⟨n, rfl, hns, hg⟩
    · exact ⟨none, rfl, by simp, fun _ => rfl, by simp⟩
    · exact ⟨some n, by simp [childFields, hg], by simp, by simp, by simp⟩
  obtain ⟨nm, hc1, hc2, hc3, hc4⟩ := hc
  obtain ⟨m, hm, hget⟩ := mapFields_named hn
  obtain ⟨N, hN⟩ := genFields_ok (d := d) (ty := ty) (m := m) afs h1
    (fun k a tag hk hM => by obtain ⟨tg, h⟩ := h3 k a tag hk hM; exact ⟨tg, hget _ _ _ h⟩) h4
  refine ⟨fs, nm, afs, hs, hc1, hc2, hc3, hr, ha, hc4, N, fun n hn' pre => ?_⟩
  obtain ⟨fl, fns, hg, hl1, hl2, hpm, hl3⟩ := hN n hn' pre
  have hmem : ∀ k c, (k, c) ∈ fl → ¬ Meta k ∧ ∃ t tag, GoField.mk (some k) t tag ∈ afs := fun k c hkc =>
    mem_ownNames.mp (hl1 ▸ List.mem_map.mpr ⟨_, hkc, rfl⟩)
  have hty : ∀ k c, (k, c) ∈ fl → ∃ tg, GoField.mk (some k) (ty k) tg ∈ fs := fun k c hkc => by
    obtain ⟨hM, a, tag, hk⟩ := hmem k c hkc
    exact h3 k a tag hk hM
  refine ⟨fl, fns, ?_, hl2, hpm.trans (fieldNames_perm h2 h5 h6), fun env z v w hf hz hvw hw => ?_, fun sig root hsig hroot => ?_⟩
  · have : unstar t = t := by cases t <;> first | rfl | exact absurd rfl (hc4 _)
    simp only [childStruct, this, hc1, hm, hg, Res.bind]
  · obtain ⟨vals, rfl, f, hf1, hf2⟩ := hw.of_struct hs
    obtain ⟨gs, he, hk, hP⟩ := evalFields_ok (env := env) (z := z) (fl := fl)
        (P := fun k a => GMap.get k vals = some (f k) ∧ Conv d (f k) a) fun k c hkc => by
      obtain ⟨tg, hk⟩ := hty k c hkc
      obtain ⟨a, tag, _, hev, _⟩ := hl3 k c hkc
      have hsel : selV z (pre ++ [k]) = some (f k) := by
        rw [selV_snoc, hz]
        rcases hvw with rfl | rfl <;> exact hf1 k _ tg hk
      obtain ⟨x, hx, hcx⟩ := hev env z (f k) hf hsel (hf2 k _ tg hk)
      exact ⟨x, hx, hf1 k _ tg hk, hcx⟩
    refine ⟨gs, he, .struct f ha ?_ (fun k a hka => (hP k a hka).1) fun k a hka => (hP k a hka).2⟩
    rw [hk, hl1]
    exact fieldNames_own h2
  · have hex : ∀ k, ∃ a, ∀ b tag, GoField.mk (some k) b tag ∈ afs → a = b := fun k => by
      by_cases h : ∃ b tag, GoField.mk (some k) b tag ∈ afs
      · obtain ⟨b, tag, hb⟩ := h
        exact ⟨b, fun b' tag' hb' => type_of_name h2 hb hb'⟩
      · exact ⟨.ident [], fun b tag hb => absurd ⟨b, tag, hb⟩ h⟩
    obtain ⟨aty, haty⟩ := Classical.axiomOfChoice hex
    refine .lit aty ha (by rw [hl1]; exact nodup_ownNames h2) (fun k c hkc => ?_) fun k c hkc => ?_
    · obtain ⟨_, a, tag, hk⟩ := hmem k c hkc
      exact ⟨tag, by rw [haty k a tag hk]; exact hk⟩
    · obtain ⟨a, tag, hk, _, hT⟩ := hl3 k c hkc
      rw [haty k a tag hk]
      obtain ⟨tg, hk'⟩ := hty k c hkc
      exact hT sig root hsig (hroot k _ tg hk')

theorem isStar_ne {t : GoType} (h : ∀ u, t ≠ .star u) : isStar t = false := by
  cases t <;> first | rfl | exact absurd rfl (h _)

theorem unstar_ne {t : GoType} (h : ∀ u, t ≠ .star u) : unstar t = t := by
  cases t <;> first | rfl | exact absurd rfl (h _)

theorem childStruct_star {fv : ValueFn} {t : GoType} {pre : List Str} {afs : List GoField} (h : ∀ u, t ≠ .star u) :
    childStruct d fv (.star t) pre afs = childStruct d fv t pre afs := by
  simp only [childStruct, unstar, unstar_ne h]

theorem named_rec {fv : ValueFn} {name : Str} {pre : List Str} {r : Str} {g : GoField} (h : RecName r) :
    namedValue d fv name pre r g = structValue d fv name pre r g := by
  obtain ⟨h1, h2, _⟩ := h
  simp only [basics, List.mem_cons, List.not_mem_nil, or_false, not_or] at h1
  have hu : unionMember r = none := by
    unfold unionMember
    split
    · rename_i h; exact absurd (by rw [h]; exact ⟨g!"Double", rfl⟩) h2
    · split
      · rename_i h; exact absurd (by rw [h]; exact ⟨g!"Long", rfl⟩) h2
      · split
        · rename_i h; exact absurd (by rw [h]; exact ⟨g!"String", rfl⟩) h2
        · rfl
  have hp : hasPrefix r g!"UnionNull" = false := by
    rw [Bool.eq_false_iff]; intro h; exact h2 (by simpa [hasPrefix] using h)
  simp [namedValue, h1, hu, namedValue.cutPrefix, hp]

theorem named_union {fv : ValueFn} {name : Str} {pre : List Str} {r : Str} {g : GoField} (h : RecName r) :
    namedValue d fv name pre (g!"UnionNull" ++ r) g =
      (structValue d fv name pre r g).bind fun v => .ok { mapping := .union (g!"UnionNull" ++ r) r (.addr v.mapping), pre := v.pre, name := g!"UnionNull" ++ r } := by
  obtain ⟨_, _, h1, h2, h3⟩ := h
  have hs : ∀ x ∈ basics, g!"UnionNull" ++ r ≠ x := fun x hx he => by
    have hU : g!"UnionNull".head? = some 'U' := by decide
    have h0 : (g!"UnionNull" ++ r).head? = some 'U' := by rw [List.head?_append, hU]; rfl
    rw [he] at h0
    simp only [basics, List.mem_cons, List.not_mem_nil, or_false] at hx
    rcases hx with rfl | rfl | rfl | rfl <;> revert h0 <;> decide
  have hc : ∀ x, g!"UnionNull" ++ r = g!"UnionNull" ++ x → r = x := fun x he => List.append_cancel_left he
  have hu : unionMember (g!"UnionNull" ++ r) = none := by
    unfold unionMember
    split
    · rename_i h; exact absurd (hc g!"Double" h) h1
    · split
      · rename_i h; exact absurd (hc g!"Long" h) h2
      · split
        · rename_i h; exact absurd (hc g!"String" h) h3
        · rfl
  have hp : hasPrefix (g!"UnionNull" ++ r) g!"UnionNull" = true := by simp [hasPrefix]
  have hd : (g!"UnionNull" ++ r).drop g!"UnionNull".length = r := List.drop_left
  rw [namedValue, if_neg, if_neg (hs _ (by decide)), hu]
  · simp only [namedValue.cutPrefix, hp, if_true, hd]
  · rintro (h | h | h)
    · exact hs _ (by decide) h
    · exact hs _ (by decide) h
    · exact hs _ (by decide) h

theorem structValue_struct {fv : ValueFn} {name : Str} {pre : List Str} {r : Str} {t : GoType} {tag : Tag} {afs : List GoField} {x : List (Str × Code) × List SliceFn × List GoField × Option Str}
    (ha : d.avro r = some afs) (ht : isArray t = false) (h : childStruct d fv t (pre ++ [name]) afs = .ok x) :
    structValue d fv name pre r (.mk (some name) t tag) = .ok { mapping := .lit r x.1, pre := x.2.1 } := by
  simp only [structValue, ha, GoField.type]
  cases t <;> first | (cases ht; done) | (simp only [h, Res.bind])

theorem structValue_array {fv : ValueFn} {name : Str} {pre : List Str} {r : Str} {t : GoType} {tag : Tag} {afs : List GoField} {fl : List (Str × Code)}
    {fns : List SliceFn} {fs : List GoField} {nm : Option Str} (ha : d.avro r = some afs) (h : childStruct d fv t [] afs = .ok (fl, fns, fs, nm)) :
    structValue d fv name pre r (.mk (some name) (.array t) tag) =
      .ok { mapping := .call (sliceName nm r) (pre ++ [name]), pre := fns ++ [⟨sliceName nm r, structDef t fs nm, r, fl⟩] } := by
  simp only [structValue, ha, GoField.type, h, Res.bind, ownName, GoField.name, Option.getD_some]

/-- The field is at its path. -/
theorem selT_more {root : Str → GoType → Prop} {p : List Str} {t u : GoType} {fs : List GoField} {k : Str} {tag : Tag} (h : SelT d root p t)
    (hs : StructOf d (unstar t) fs) (hk : GoField.mk (some k) u tag ∈ fs) : SelT d root (p ++ [k]) u := .more h ⟨fs, tag, hs, hk⟩

theorem Spec.StructOf.noArray {t : GoType} {fs : List GoField} (h : StructOf d t fs) : isArray t = false := by
  rcases h with rfl | ⟨n, rfl, _⟩ <;> rfl

theorem fieldOk_struct {t : GoType} {r : Str} {L : List ListOf} (h : RecOk d t r L) : FieldOk d t (.star (.ident r)) L := by
  obtain ⟨fs, nm, afs, hs, _, _, _, hr, ha, hst, N, hN⟩ := h
  refine ⟨N + 2, fun n hn name pre tag => ?_⟩
  obtain ⟨n, rfl⟩ : ∃ k, n = k + 2 := ⟨n - 2, by omega⟩
  obtain ⟨fl, fns, h1, h2, hpm, h3, h4⟩ := hN n (by omega) (pre ++ [name])
  refine ⟨starValue name pre (.mk (some name) t tag) { mapping := .lit r fl, pre := fns }, ?_, ?_, ?_, ?_⟩
  · simp only [fieldValue, named_rec hr, structValue_struct ha (Spec.StructOf.noArray hs) h1, Res.bind]
  · simp only [starValue, GoField.type, isStar_ne hst]
    intro env z v hf hz hv
    obtain ⟨gs, he, hc⟩ := h3 env z v v hf hz (.inl rfl) hv
    exact ⟨_, by simp [eval, he], hc⟩
  · simp only [starValue, GoField.type, isStar_ne hst]
    intro sig root hsig hp
    exact .addr trivial (h4 sig root hsig fun k u tag hk => selT_more hp (by rw [unstar_ne hst]; exact hs) hk)
  · simp only [starValue, GoField.type, isStar_ne hst]
    exact ⟨h2, hpm⟩

theorem fieldOk_optStruct {t : GoType} {r : Str} {L : List ListOf} (h : RecOk d t r L) : FieldOk d t (.star (.ident (g!"UnionNull" ++ r))) L := by
  obtain ⟨fs, nm, afs, hs, _, _, _, hr, ha, hst, N, hN⟩ := h
  refine ⟨N + 2, fun n hn name pre tag => ?_⟩
  obtain ⟨n, rfl⟩ : ∃ k, n = k + 2 := ⟨n - 2, by omega⟩
  obtain ⟨fl, fns, h1, h2, hpm, h3, h4⟩ := hN n (by omega) (pre ++ [name])
  refine ⟨starValue name pre (.mk (some name) t tag) { mapping := .union (g!"UnionNull" ++ r) r (.addr (.lit r fl)), pre := fns, name := g!"UnionNull" ++ r }, ?_, ?_, ?_, ?_⟩
  · simp only [fieldValue, named_union hr, structValue_struct ha (Spec.StructOf.noArray hs) h1, Res.bind]
  · simp only [starValue, GoField.type, isStar_ne hst]
    refine evOk_union (isStar_ne hst) fun env z v hf hz hv => ?_
    obtain ⟨gs, he, hc⟩ := h3 env z v v hf hz (.inl rfl) hv
    exact ⟨_, by simp [eval, he], hc⟩
  · simp only [starValue, GoField.type, isStar_ne hst]
    intro sig root hsig hp
    exact .addr trivial (.union .record (.addr trivial (h4 sig root hsig fun k u tag hk => selT_more hp (by rw [unstar_ne hst]; exact hs) hk)))
  · simp only [starValue, GoField.type, isStar_ne hst]
    exact ⟨h2, hpm⟩

theorem fieldOk_ptrStruct {t : GoType} {r : Str} {L : List ListOf} (h : RecOk d t r L) : FieldOk d (.star t) (.star (.ident (g!"UnionNull" ++ r))) L := by
  obtain ⟨fs, nm, afs, hs, _, _, _, hr, ha, hst, N, hN⟩ := h
  refine ⟨N + 2, fun n hn name pre tag => ?_⟩
  obtain ⟨n, rfl⟩ : ∃ k, n = k + 2 := ⟨n - 2, by omega⟩
  obtain ⟨fl, fns, h1, h2, hpm, h3, h4⟩ := hN n (by omega) (pre ++ [name])
  rw [← childStruct_star hst] at h1
  refine ⟨starValue name pre (.mk (some name) (.star t) tag) { mapping := .union (g!"UnionNull" ++ r) r (.addr (.lit r fl)), pre := fns, name := g!"UnionNull" ++ r }, ?_, ?_, ?_, h2, hpm⟩
  · simp only [fieldValue, named_union hr, structValue_struct ha rfl h1, Res.bind]
  · simp only [starValue, GoField.type, isStar, if_true]
    intro env z v hf hz hv
    rcases hv.of_star with rfl | ⟨w, rfl, hw⟩
    · exact ⟨.nil, by simp [eval, hz], .nil⟩
    · obtain ⟨gs, he, hc⟩ := h3 env z _ w hf hz (.inr rfl) hw
      exact ⟨_, by simp [eval, hz, he]; rfl, .union (by simp) (.deref hc)⟩
  · simp only [starValue, GoField.type, isStar, if_true]
    intro sig root hsig hp
    exact .guard hp (.addr trivial (.union .record (.addr trivial (h4 sig root hsig fun k u tag hk => selT_more hp hs hk))))

mutual
theorem printFields_eq : ∀ {l : List GoField}, Printable l → printFields l = some l
  | [], _ => rfl
  | .mk none _ _ :: _, h => absurd rfl h.1
  | .mk (some k) t tag :: l, h => by
    simp only [printFields, printType_eq h.2.1, printFields_eq h.2.2, Option.bind_some, Option.map_some]
theorem printType_eq : ∀ {t : GoType}, PrintableType t → printType t = some (some t)
  | .ident _, _ => rfl
  | .array (.ident _), _ => rfl
  | .array (.struct fs), h => by
    have h : Printable fs := h
    simp only [printType, printFields_eq h, Option.map_some]
  | .array (.star _), h => by cases h
  | .array (.map _ _), h => by cases h
  | .array (.array _), h => by cases h
  | .array (.selector _), h => by cases h
  | .array (.other _), h => by cases h
  | .selector s, h => by
    have h : s = g!"Time" := h
    simp [printType, h]
  | .struct fs, h => by
    have h : Printable fs := h
    simp only [printType, printFields_eq h, Option.map_some]
  | .star _, h => by cases h
  | .map _ _, h => by cases h
  | .other _, h => by cases h
end

theorem structDef_eq {t : GoType} {fs : List GoField} {nm : Option Str} (h1 : ∀ x, nm = some x → t = .ident x) (h2 : nm = none → t = .struct fs)
    (hp : ∀ fs, t = .struct fs → Printable fs) : structDef t fs nm = some t ∧ structDef (.star t) fs nm = some (.star t) := by
  cases nm with
  | none =>
    have := h2 rfl
    subst this
    simp [structDef, printFields_eq (hp fs rfl)]
  | some x =>
    have := h1 x rfl
    subst this
    simp [structDef]

/-- A field with a slice, given the function for it. -/
theorem fieldOk_fn {e : GoType} {r : Str} {L : List ListOf} (N : Nat) (h : ∀ n, N ≤ n → ∀ name pre tag, ∃ fns g, g.elem = some e ∧ g.type = r ∧
      structValue d (fieldValue d n) name pre r (.mk (some name) (.array e) tag) = .ok { mapping := .call g.name (pre ++ [name]), pre := fns ++ [g] } ∧
      Fns d (fns ++ [g]) ∧ ((fns ++ [g]).map SliceFn.name).Perm (L.map fnName)) (hr : RecName r) : FieldOk d (.array e) (.array (.star (.ident r))) L := by
  refine ⟨N + 2, fun n hn name pre tag => ?_⟩
  obtain ⟨n, rfl⟩ : ∃ k, n = k + 2 := ⟨n - 2, by omega⟩
  obtain ⟨fns, g, hg, hgt, hv, hf⟩ := h n (by omega) name pre tag
  refine ⟨{ mapping := .call g.name (pre ++ [name]), pre := fns ++ [g] }, ?_, ?_, ?_, hf⟩
  · simp only [fieldValue, unstar, GoField.type, isArray, if_true, named_rec hr, hv]
  · intro env z v hfn hz hv
    obtain ⟨l, rfl, _⟩ := hv.of_array
    obtain ⟨e', he', hfn⟩ := hfn g (by simp)
    rw [hg, Option.some.injEq] at he'
    subst he'
    obtain ⟨as, h1, h2⟩ := hfn l hv
    exact ⟨_, by simp only [eval, hz, Option.bind_some, h1], h2⟩
  · intro sig root hsig hp
    exact .call (by rw [← hgt]; exact hsig g (by simp) e hg) hp

theorem sliceName_perm {t : GoType} {fs : List GoField} {nm : Option Str} {r : Str} {L : List ListOf} {fns : List SliceFn} {e : Option GoType} {fl : List (Str × Code)}
    (h1 : ∀ x, nm = some x → t = .ident x) (h2 : nm = none → t = .struct fs) (h : (fns.map SliceFn.name).Perm (L.map fnName)) :
    ((fns ++ [SliceFn.mk (sliceName nm r) e r fl]).map SliceFn.name).Perm ((L ++ [(typeName t, r)]).map fnName) := by
  have : sliceName nm r = fnName (typeName t, r) := by
    cases nm with
    | none => rw [h2 rfl]; rfl
    | some x => rw [h1 x rfl]; rfl
  rw [List.map_append, List.map_append]
  refine h.append ?_
  simp only [List.map_cons, List.map_nil, this]
  exact .refl _

theorem fieldOk_structs {t : GoType} {r : Str} {L : List ListOf} (h : RecOk d t r L) (hp : ∀ fs, t = .struct fs → Printable fs) :
    FieldOk d (.array t) (.array (.star (.ident r))) (L ++ [(typeName t, r)]) := by
  obtain ⟨fs, nm, afs, hs, _, hnm, hno, hr, ha, hst, N, hN⟩ := h
  refine fieldOk_fn N (fun n hn name pre tag => ?_) hr
  obtain ⟨fl, fns, h1, h2, hpm, h3, h4⟩ := hN n hn []
  have hd := (structDef_eq hnm hno hp).1
  refine ⟨fns, ⟨sliceName nm r, structDef t fs nm, r, fl⟩, hd, rfl, structValue_array ha h1, h2.snoc ⟨t, hd, fun h => hst _ h, fun env z hf hz _ => ?_, fun sig hsig => ?_⟩, sliceName_perm hnm hno hpm⟩
  · exact h3 env z z z hf rfl (.inl rfl) hz
  · exact h4 sig _ hsig fun k u tag hk => .one ⟨fs, tag, by rw [unstar_ne hst]; exact hs, hk⟩

theorem fieldOk_ptrStructs {t : GoType} {r : Str} {L : List ListOf} (h : RecOk d t r L) (hp : ∀ fs, t = .struct fs → Printable fs) :
    FieldOk d (.array (.star t)) (.array (.star (.ident r))) (L ++ [(typeName t, r)]) := by
  obtain ⟨fs, nm, afs, hs, _, hnm, hno, hr, ha, hst, N, hN⟩ := h
  refine fieldOk_fn N (fun n hn name pre tag => ?_) hr
  obtain ⟨fl, fns, h1, h2, hpm, h3, h4⟩ := hN n hn []
  rw [← childStruct_star hst] at h1
  have hd := (structDef_eq hnm hno hp).2
  refine ⟨fns, ⟨sliceName nm r, structDef (.star t) fs nm, r, fl⟩, hd, rfl, structValue_array ha h1, h2.snoc ⟨.star t, hd, fun h => ?_, fun env z hf hz hnil => ?_, fun sig hsig => ?_⟩, sliceName_perm hnm hno hpm⟩
  · cases h; exact StructOf.not_selector hs
  · rcases hz.of_star with rfl | ⟨w, rfl, hw⟩
    · exact absurd rfl hnil
    · obtain ⟨gs, he, hc⟩ := h3 env _ _ w hf rfl (.inr rfl) hw
      exact ⟨gs, he, .deref hc⟩
  · exact h4 sig _ hsig fun k u tag hk => .one ⟨fs, tag, hs, hk⟩

/-- What fits is mapped. -/
def FitsOk (d : Decls) : Bool → GoType → GoType → List ListOf → Prop
  | false, t, a, L => FieldOk d t a L
  | true, t, a, L => ∀ r, a = .ident r → RecOk d t r L

theorem fitsOk {b : Bool} {t a : GoType} {L : List ListOf} (h : Fits d b t a L) : FitsOk d b t a L := by
  induction h with
  | same hb => exact fieldOk_same hb
  | time => exact fieldOk_time
  | optional hu => exact fieldOk_optional hu
  | optTime => exact fieldOk_optTime
  | ptrTime => exact fieldOk_ptrTime
  | slice hb => exact fieldOk_slice hb
  | map hb => exact fieldOk_map hb
  | times => exact fieldOk_times
  | ptrTimes => exact fieldOk_ptrTimes
  | record ty Ls hs hn hr ha h1 h2 h3 _ h5 h6 ih =>
    intro r' he
    cases he
    exact recOk hs hn hr ha h1 h2 h3 ih h5 h6
  | struct _ ih => exact fieldOk_struct (ih _ rfl)
  | optStruct _ ih => exact fieldOk_optStruct (ih _ rfl)
  | ptrStruct _ ih => exact fieldOk_ptrStruct (ih _ rfl)
  | structs _ hp ih => exact fieldOk_structs (ih _ rfl) hp
  | ptrStructs _ hp ih => exact fieldOk_ptrStructs (ih _ rfl) hp

end JT.Go
