import Verif.Spec.Carry
import Verif.Props.C95
import Verif.Props.C98
/- C103: what Transform returns can be read by the struct that is generated for the schema. -/
namespace JT.GoText
open Gen Spec JT.Spec GoJson Flat

variable {u : Unicode} {title : Str → Str}

/-! ### Documents of the right shape are strict -/

theorem writes_null {w : Writer} {p : P} (h : MarshalsTo w p .null) : p = nilP := by cases h; rfl

theorem type_of {q : P} {i : Instance} {t : Str} (hi : decodeInstance false q = .ok i) (ht : TypeIs i t) (hn : t ≠ []) (hp : PlainProps q) {t' : Str} {nu : Bool}
    (hf : fieldType q = .ok (t', nu)) : t' = t := by
  have hne : t ≠ g!"null" := by
    have : t ∈ i.type.filter (fun x => x ≠ g!"null") := by rw [ht]; exact List.mem_singleton.2 rfl
    simpa using (List.mem_filter.1 this).2
  have ho : OneType q i := by
    refine ⟨hi, ?_, ?_, fun m hm => (hp m hm).1⟩
    · obtain ⟨_, _, h3⟩ := decodeInstance_fields hi
      have hmem : t ∈ i.type := (mem_type ht hne).2 rfl
      cases hk : q.key g!"type" with
      | none => rw [hk] at h3; simp [typeField, asStrings, asList, mapRes] at h3; rw [h3] at hmem; cases hmem
      | some x =>
        refine ⟨x, rfl, ?_⟩
        rintro rfl
        rw [hk] at h3
        simp [typeField, asStrings, asList, mapRes] at h3
        rw [h3] at hmem
        cases hmem
    · rw [ht]; simp
  obtain ⟨t0, nu0, h1, h2⟩ := OneType.type ho
  rw [h1, Res.ok.injEq, Prod.mk.injEq] at hf
  rw [← hf.1]
  exact (h2 t hn hne).1 ((mem_type ht hne).2 rfl)

theorem properties_of {q : P} {i : Instance} {m : List (Str × P)} (hi : decodeInstance false q = .ok i) (hm : q.key g!"properties" = some (.obj m)) : i.properties = some (GMap.ofList m) := by
  obtain ⟨h1, _⟩ := decodeInstance_fields hi
  rw [hm] at h1
  exact (Res.ok.inj h1).symm

theorem get_plain {m : List (Str × P)} (hn : (m.map Prod.fst).Nodup) {k : Str} {q : P} (h : (k, q) ∈ m) : GMap.get k (GMap.ofList m) = some q := by
  rw [GMap.get_ofList hn]
  exact GMap.get_mem_nodup hn h

/-- Scalars of a document that is valid. -/
theorem strict_scalar {w : Writer} {whole : Str → Prop} {c : Codec} {pointers : Bool} (hw : ∀ n, whole (itoa n) ∧ whole (itoa n ++ g!".0")) {q : P} {j : J} (hn : PlainNumbers whole j)
    (h : Valid c false false q j) (hs : (∀ l, j ≠ .arr l) ∧ ∀ l, j ≠ .obj l) : Valid c true pointers q j := by
  cases h with
  | null h => exact .null h
  | bool h1 h2 => exact .bool h1 h2
  | number h1 h2 h3 => exact .number h1 h2 h3
  | integer h1 h2 h3 h4 =>
    rename_i i n s
    have : whole s := by
      rcases h3 with rfl | rfl
      · exact (hw n).1
      · exact (hw n).2
    obtain ⟨n', e, hb⟩ := hn _ .num this
    exact .integer (n := n') h1 h2 (.inl e) fun _ => ⟨e, hb⟩
  | string h1 h2 h3 => exact .string h1 h2 h3
  | time h1 h2 h3 h4 => exact .time h1 h2 h3 h4
  | array => exact absurd rfl (hs.1 _)
  | object => exact absurd rfl (hs.2 _)

theorem writes_scalar {w : Writer} {s : Scal} {j : J} (h : MarshalsTo w (.sc s) j) : (∀ l, j ≠ .arr l) ∧ ∀ l, j ≠ .obj l := by
  cases h <;> exact ⟨fun _ => J.noConfusion, fun _ => J.noConfusion⟩

/-- The members of an object whose properties are all declared. -/
theorem strict_members {w : Writer} {c : Codec} {pointers : Bool} {m : GMap P} {required : List Str} (hl : Level c pointers m required) {o : GMap P} {l : List (Str × J)}
    (hw : MarshalsTo w (.obj o) (.obj l)) (hk : ∀ kv ∈ o, ∃ q, GMap.get kv.1 m = some q)
    (he : ∀ kv ∈ o, ∀ q j, GMap.get kv.1 m = some q → (kv.1, j) ∈ l → MarshalsTo w kv.2 j → Valid c false false q j → Valid c true pointers q j)
    (h : Members c false false m required l) : Members c true pointers m required l := by
  have hpart : ∀ k j, (k, j) ∈ l → ∃ p, (k, p) ∈ o ∧ MarshalsTo w p j := by
    cases hw with
    | obj h1 h2 =>
      intro k j hj
      obtain ⟨n, hn, e⟩ := List.mem_iff_getElem.1 hj
      have hlen : o.length = l.length := by simpa using congrArg List.length h1
      have hn' : n < o.length := by omega
      have hkey : o[n].1 = k := by
        have : (o.map Prod.fst)[n]'(by simpa using hn') = (l.map Prod.fst)[n]'(by simpa using hn) := by simp only [h1]
        simp only [List.getElem_map, e] at this
        exact this
      refine ⟨o[n].2, ?_, ?_⟩
      · rw [← hkey]; exact List.getElem_mem hn'
      · have := h2 n hn' hn
        rw [e] at this
        exact this
  have hdecl : ∀ k j, (k, j) ∈ l → ∃ q, GMap.get k m = some q := fun k j hj => by
    obtain ⟨p, hp, _⟩ := hpart k j hj
    exact hk _ hp
  refine ⟨h.nodup, h.given, fun k v q hv hq => ?_, fun _ hno => ?_, fun _ k v hv k' q' hl' hf => ?_, fun _ k q hlq hr hb => absurd hb (hl.times k q hlq hr)⟩
  · obtain ⟨p, hp, hwp⟩ := hpart k v hv
    exact he _ hp q v hq hv hwp (h.each k v q hv hq)
  · obtain ⟨k, q, hkq⟩ := hl.any
    exact absurd hkq (hno k q)
  · obtain ⟨q, hq⟩ := hdecl k v hv
    exact hl.fold k q k' q' hq hl' hf

theorem valid_members {c : Codec} {strict pointers : Bool} {q : P} {l : List (Str × J)} : Valid c strict pointers q (.obj l) ↔
    ∃ i m, decodeInstance false q = .ok i ∧ TypeIs i g!"object" ∧ i.properties = some m ∧ Members c strict pointers m i.required l := by
  constructor
  · intro h
    cases h with
    | object h1 h2 h3 h4 h5 h6 h7 h8 h9 => exact ⟨_, _, h1, h2, h3, h4, h5, h6, h7, h8, h9⟩
  · rintro ⟨i, m, h1, h2, h3, h⟩
    exact .object h1 h2 h3 h.nodup h.given h.each h.dict h.fold h.times

/-- A valid document for a value with the shape of an instance meets the stricter conditions. -/
theorem strict_of {w : Writer} {whole : Str → Prop} {c : Codec} {pointers : Bool} {fmt : Format} {sc : Schema} (hw : ∀ n, whole (itoa n) ∧ whole (itoa n ++ g!".0"))
    (hp : PlainSchema sc) (hl : Levels c pointers fmt sc) {q v : P} (hs : HasShape fmt q v) : ∀ j, SchemaInst sc q → MarshalsTo w v j → PlainNumbers whole j → Valid c false false q j →
    Valid c true pointers q j := by
  induction hs with
  | @scalar q v ty hsc =>
    intro j hq hwj hn hv
    obtain ⟨ty0, nu, f1, f2, f3, _⟩ := hsc
    by_cases ha : ∃ l, j = .arr l
    · obtain ⟨l, rfl⟩ := ha
      cases hv with
      | array h1 h2 => exact absurd (type_of h1 h2 (by simp) (hp.2 q hq) f1) f2
    · by_cases ho : ∃ l, j = .obj l
      · obtain ⟨l, rfl⟩ := ho
        obtain ⟨i, m, h1, h2, h3, _⟩ := valid_members.1 hv
        have := properties_of h1 (f3 (type_of h1 h2 (by simp) (hp.2 q hq) f1))
        rw [h3, Option.some.injEq] at this
        subst this
        obtain ⟨k, q', hk, _⟩ := (hl.object q i _ hq h1 h2 h3).any
        simp [GMap.ofList, GMap.get] at hk
      · exact strict_scalar (w := w) hw hn hv ⟨fun l e => ha ⟨l, e⟩, fun l e => ho ⟨l, e⟩⟩
  | @array q items l other ha hi hne hnil hother hall ih =>
    intro j hq hwj hn hv
    cases hwj with
    | @arr _ js hlen hpart =>
      cases hv with
      | @array _ items' i _ h1 h2 h3 h4 h5 =>
        obtain ⟨_, e, _⟩ := decodeInstance_fields h1
        rw [h3, hi, Option.some.injEq] at e
        subst e
        have hx : ∀ x ∈ js, ∃ v ∈ l, MarshalsTo w v x := fun x hx => by
          obtain ⟨n, hn, rfl⟩ := List.mem_iff_getElem.1 hx
          exact ⟨l[n]'(by omega), List.getElem_mem _, hpart n (by omega) hn⟩
        refine .array h1 h2 h3 (fun x hxm => ?_) fun _ x hxm e => ?_
        · obtain ⟨v, hvm, hwv⟩ := hx x hxm
          have hnx : PlainNumbers whole x := fun s hs hw => hn s (.arr hxm hs) hw
          by_cases ho : other v
          · obtain ⟨rfl, h | ⟨s, rfl⟩⟩ := hother v hvm ho
            · exact absurd (hl.array rfl q hq ha) h
            · exact strict_scalar (w := w) hw hnx (h4 x hxm) (writes_scalar hwv)
          · exact ih v hvm ho x (SchemaInst.inner hq (.items (.self q) hi)) hwv hnx (h4 x hxm)
        · obtain ⟨v, hvm, hwv⟩ := hx x hxm
          subst e
          exact hnil v hvm (writes_null hwv)
  | @object q m o defn ho hm hne hso hnil hdef hall ih =>
    intro j hq hwj hn hv
    obtain ⟨js, rfl⟩ : ∃ js, j = .obj js := by cases hwj; exact ⟨_, rfl⟩
    obtain ⟨i, m', h1, h2, h3, hmem⟩ := valid_members.1 hv
    refine valid_members.2 ⟨i, m', h1, h2, h3, ?_⟩
    have hlev := hl.object q i m' hq h1 h2 h3
    have := properties_of h1 hm
    rw [h3, Option.some.injEq] at this
    subst this
    have hget : ∀ kv ∈ o, GMap.get kv.1 (GMap.ofList m) = some (defn kv) := fun kv hkv => get_plain (hp.2 q hq m hm).1 (hdef kv hkv)
    refine strict_members (w := w) hlev hwj (fun kv hkv => ⟨_, hget kv hkv⟩) (fun kv hkv q' x hq' hx hwx hvx => ?_) hmem
    rw [hget kv hkv, Option.some.injEq] at hq'
    subst hq'
    exact ih kv hkv x (SchemaInst.inner hq (.prop (.self q) hm (hdef kv hkv))) hwx (fun s hs hw => hn s (.obj hx hs) hw) hvx

/-- A result of `Transform` for this input after the given calls. -/
def Returns (t : T) (s0 : JT.St) (env : Env) (history : List (Env × Str)) (raw out : Str) : Prop :=
  (∀ c ∈ history, c.1.fmt = env.fmt) ∧ (transform env t raw (afterCalls t history s0)).1 = .ok out

/-- **C103**, in full: the source that is generated for a schema declares a struct, and every document that the Transformer for the schema returns, after any calls, goes
through this struct unchanged. -/
def C103_statement (u : Unicode) (title : Str → Str) : Prop :=
  ∀ (c : Codec) (w : Writer) (whole : Str → Prop) (reads : Str → Option J) (args : Args) (schema : Instance) (m : GMap P) (pkg name ident : Str) (embeds : List Str) (env0 : Env) (t : T) (s0 : JT.St),
    c.Lawful → Passable u title args schema m pkg name embeds → PlainSchema ⟨some m, none⟩ → newTransformer env0 ⟨some m, none⟩ ident = .ok (t, s0) →
    ∃ sfs, Declared u title args schema pkg name embeds sfs ∧ ∀ env history raw out, Faithful w whole c env.lib reads m schema.required →
      Returns t s0 env history raw out → ∃ l l', reads out = some (.obj l) ∧ Through c sfs l l' ∧ SameMembers c false m schema.required l l'

/-- What the Transformer returns are documents that meet the conditions of C95. -/
theorem returned_members {c : Codec} {w : Writer} {whole : Str → Prop} {reads : Str → Option J} {pointers : Bool} {required : List Str} {m : GMap P} {items : Option P} {ident : Str}
    {env0 env : Env} {t : T} {s0 : JT.St} (hb : newTransformer env0 ⟨some m, items⟩ ident = .ok (t, s0)) (hs : FreshSchema env.fmt ident ⟨some m, items⟩)
    (hl : Levels c pointers env.fmt ⟨some m, items⟩) (ht : Level c pointers m required) (hf : Faithful w whole c env.lib reads m required) {history : List (Env × Str)} {raw out : Str}
    (ho : Returns t s0 env history raw out) : ∃ j, reads out = some j ∧ (PlainNumbers whole j → ∃ l, j = .obj l ∧ Members c true pointers m required l) := by
  obtain ⟨p, hm, hsh⟩ := C98_partial hb hs ho.1 (.inl ho.2)
  have hv : env.lib.validate out = some true := by
    have h := ho.2
    unfold transform validated at h
    rw [M.bind_apply] at h
    split at h
    · rename_i a s1 hx
      cases hv : env.lib.validate a with
      | none => rw [hv] at h; cases h
      | some b =>
        rw [hv] at h
        cases b with
        | false => cases h
        | true => cases h; exact hv
    · cases h
    · cases h
  obtain ⟨j, hj, hw⟩ := hf.written p out hm
  refine ⟨j, hj, fun hn => ?_⟩
  obtain ⟨l, rfl, hmem⟩ := hf.checked out j hv hj hn
  refine ⟨l, rfl, ?_⟩
  rcases hsh with rfl | ⟨m', o, e1, rfl, h2, h3, h4⟩ | ⟨q, l', e1, rfl, _⟩
  · cases hw
  · cases e1
    have hget : ∀ kv ∈ o, ∃ q, (kv.1, q) ∈ m ∧ GMap.get kv.1 m = some q ∧ HasShape env.fmt q kv.2 := fun kv hkv => by
      obtain ⟨_, q, hq, hsq⟩ := h4 kv hkv
      exact ⟨q, hq, GMap.get_mem_nodup (hs.plain.1 m rfl).1 hq, hsq⟩
    refine strict_members (w := w) ht hw (fun kv hkv => ?_) (fun kv hkv q x hq hx hwx hvx => ?_) hmem
    · obtain ⟨q, _, hq, _⟩ := hget kv hkv
      exact ⟨q, hq⟩
    · obtain ⟨q', hq', hg, hsq⟩ := hget kv hkv
      rw [hg, Option.some.injEq] at hq
      subst hq
      exact strict_of (w := w) hf.digits hs.plain hl hsq x (.inl ⟨m, kv.1, q', rfl, hq', .self q'⟩) hwx (fun s hs hw => hn s (.obj hx hs) hw) hvx
  · cases hw

/-- **C103**, partial: for schemas with plain property names whose objects have no default and, on JSON input, no transform of their own, with at least one property for Go in each
object, no properties that differ only in case and no optional times without pointers (and on XML input no array defaults); for documents whose whole numbers are written in digits and have
64 bits.  Optional properties with blank values may be lost. -/
theorem C103_partial {c : Codec} {w : Writer} {whole : Str → Prop} {reads : Str → Option J} {args : Args} {schema : Instance} {m : GMap P} {items : Option P} {pkg name ident : Str}
    {embeds : List Str} {env0 : Env} {t : T} {s0 : JT.St} (hc : c.Lawful) (hp : Passable u title args schema m pkg name embeds) (ht : Level c args.pointers m schema.required)
    (hb : newTransformer env0 ⟨some m, items⟩ ident = .ok (t, s0)) :
    ∃ sfs, Declared u title args schema pkg name embeds sfs ∧ ∀ env history raw out, FreshSchema env.fmt ident ⟨some m, items⟩ → Levels c args.pointers env.fmt ⟨some m, items⟩ →
      Faithful w whole c env.lib reads m schema.required → Returns t s0 env history raw out →
      ∃ j, reads out = some j ∧ (PlainNumbers whole j → ∃ l l', j = .obj l ∧ Through c sfs l l' ∧ SameMembers c true m schema.required l l') := by
  obtain ⟨sfs, h1, h2⟩ := C95_partial hc hp
  refine ⟨sfs, h1, fun env history raw out hs hl hf ho => ?_⟩
  obtain ⟨j, hj, h⟩ := returned_members hb hs hl ht hf ho
  refine ⟨j, hj, fun hn => ?_⟩
  obtain ⟨l, rfl, hl⟩ := h hn
  obtain ⟨l', h3, h4⟩ := h2 l hl
  exact ⟨l, l', rfl, h3, h4⟩

/-! ### Examples -/

namespace C103ex
open C76ex Toy C93ex C95ex

/-- The numerals of whole numbers. -/
def whole (s : Str) : Prop := ∃ n, s = itoa n ∨ s = itoa n ++ g!".0"
theorem digits (n : Int) : whole (itoa n) ∧ whole (itoa n ++ g!".0") := ⟨⟨n, .inl rfl⟩, n, .inr rfl⟩

def writer : Writer := ⟨fun _ => g!"9223372036854775808", fun _ => []⟩

/-- An object with a number and a list of texts. -/
def both : GMap P := [(g!"in", pIn), (g!"tags", pTags)]
def bothSchema : Instance := { Instance.zero with properties := some both, required := [g!"in"] }
def sc : Schema := ⟨some both, none⟩

def input : List (Str × P) := [(g!"input", o [(g!"in", o [(g!"n", s g!"5"), (g!"other", i 1)]), (g!"tags", a [s g!"x", i 7])])]

/-- What the input is transformed to. -/
def value : P := o [(g!"in", o [(g!"n", i 5)]), (g!"tags", a [s g!"x", s g!"7"])]
def text5 : List (Str × J) := [(g!"in", .obj [(g!"n", .num (itoa 5))]), (g!"tags", .arr [.str g!"x", .str g!"7"])]

/-- json.Marshal for this value. -/
def marshal : P → Option Str
  | .obj [(['i', 'n'], .obj [(['n'], .sc (.int 5))]), (['t', 'a', 'g', 's'], .arr [.sc (.str ['x']), .sc (.str ['7'])])] => some g!"good"
  | _ => none
def reads (s : Str) : Option J := if s = g!"good" then some (.obj text5) else none

def e : Env := { env input with lib := { (env input).lib with marshal := marshal } }

theorem run_good : (match newTransformer e sc g!"t" with | .ok (t, s0) => some (transform e t g!"input" s0).1 | _ => none) = some (.ok g!"good") := by decide +kernel

/-- Computable check of the conditions on an object: properties of known types other than times, with names that differ when written in small letters. -/
def levelB (m : GMap P) : Bool := !m.isEmpty &&
  (m.all fun kv => match decodeInstance false kv.2 with | .ok i => decide (g!"graphql-hydration" ∉ i.type) && decide (i.format = []) | _ => false) &&
  m.all fun kv => m.all fun kv' => decide (codec.fold kv'.1 = codec.fold kv.1 → kv'.1 = kv.1)

theorem level_of {m : GMap P} {required : List Str} (h : levelB m = true) : Level codec false m required := by
  simp only [levelB, Bool.and_eq_true, List.all_eq_true, Bool.not_eq_true'] at h
  obtain ⟨⟨h1, h2⟩, h3⟩ := h
  have key : ∀ kv ∈ m, ∃ i, decodeInstance false kv.2 = .ok i ∧ g!"graphql-hydration" ∉ i.type ∧ i.format = [] := fun kv hkv => by
    have := h2 kv hkv
    split at this
    · rename_i i hi
      rw [Bool.and_eq_true, decide_eq_true_iff, decide_eq_true_iff] at this
      exact ⟨i, hi, this.1, this.2⟩
    · cases this
  refine ⟨?_, fun k q k' q' hk hk' => ?_, fun k q hk _ hb => ?_⟩
  · cases m with
    | nil => cases h1
    | cons kv m =>
      refine ⟨kv.1, kv.2, by simp [GMap.get], ?_⟩
      rintro ⟨i, e1, e2, _⟩
      obtain ⟨i', e3, e4, _⟩ := key kv List.mem_cons_self
      rw [e1, Res.ok.injEq] at e3
      subst e3
      exact e4 e2
  · exact of_decide_eq_true (h3 _ (GMap.get_some_mem hk) _ (GMap.get_some_mem hk'.1))
  · obtain ⟨_, _, i, e1, _, e2⟩ := hb
    obtain ⟨i', e3, _, e4⟩ := key _ (GMap.get_some_mem hk.1)
    rw [e1, Res.ok.injEq] at e3
    subst e3
    rw [e2] at e4
    cases e4

def levelsB (q : P) : Bool := match decodeInstance false q with
  | .ok i => !decide (g!"object" ∈ i.type) || match i.properties with | some m => levelB m | none => true
  | _ => true

theorem levels_of {sc : Schema} {n : Nat} (h : checkSchema levelsB n sc = true) : Levels codec false .json sc := by
  refine ⟨fun q i m hq hi ht hm => level_of ?_, fun h => (nomatch h)⟩
  have := checkSchema_sound h hq
  unfold levelsB at this
  rw [hi] at this
  simp only [(mem_type ht (by decide)).2 rfl, hm, decide_true, Bool.not_true, Bool.false_or] at this
  exact this

theorem both_listed {k : Str} {q : P} (h : Listed both k q) : (k, q) ∈ both := GMap.get_some_mem h.1
theorem both_props : ∀ kv ∈ both, kv ∈ props := by
  intro kv h
  simp only [both, List.mem_cons, List.not_mem_nil, or_false] at h
  rcases h with rfl | rfl <;> simp [props]

theorem both_passable : Passable ascii C56ex.capital args bothSchema both g!"things" g!"thing" [] :=
  ⟨.inl ⟨⟨rfl, rfl, rfl, by decide, C56ex.quiet (by decide +kernel), C56ex.one (by decide +kernel), C56ex.plain (by decide +kernel), .off rfl,
    ⟨g!"in", pIn, rfl, not_hydrated (by decide +kernel)⟩, ascii_name (by decide), exported_name (by decide), fun e he => (nomatch he)⟩,
    C93ex.names (by decide +kernel) (by decide +kernel) (by decide +kernel), fun _ _ h => C93ex.clean_props _ _ (both_props _ (both_listed h))⟩,
    upper_thing, ⟨fun k q h => (by have : ∀ kv ∈ both, TagName kv.1 := by decide +kernel
                                   exact this _ (both_listed h)),
      fun k q h => (by have : ∀ kv ∈ both, Exported (goName C56ex.capital [] kv.1) := by decide +kernel
                       exact this _ (both_listed h)),
      fun k q k' q' h h' => (by have : ∀ kv ∈ both, ∀ kv' ∈ both, goName C56ex.capital [] kv.1 = goName C56ex.capital [] kv'.1 → kv.1 = kv'.1 := by decide +kernel
                                exact this _ (both_listed h) _ (both_listed h'))⟩,
    fun _ _ h => C76ex.clean_props _ _ (both_props _ (both_listed h))⟩

theorem marshal_value {p : P} {out : Str} (h : marshal p = some out) : p = value ∧ out = g!"good" := by
  unfold marshal at h
  split at h
  · exact ⟨rfl, (Option.some.inj h).symm⟩
  · cases h

theorem arr_nil {w : Writer} : MarshalsTo w (.arr []) (.arr []) := .arr rfl fun _ h => (nomatch h)
theorem arr_cons {w : Writer} {p : P} {j : J} {l : List P} {js : List J} (h : MarshalsTo w p j) (ht : MarshalsTo w (.arr l) (.arr js)) : MarshalsTo w (.arr (p :: l)) (.arr (j :: js)) := by
  cases ht with
  | arr h1 h2 =>
    refine .arr (by simp [h1]) fun n hn hn' => ?_
    cases n with
    | zero => exact h
    | succ n => exact h2 n (by simpa using hn) (by simpa using hn')
theorem obj_nil {w : Writer} : MarshalsTo w (.obj []) (.obj []) := .obj rfl fun _ h => (nomatch h)
theorem obj_cons {w : Writer} {k : Str} {p : P} {j : J} {l : List (Str × P)} {js : List (Str × J)} (h : MarshalsTo w p j) (ht : MarshalsTo w (.obj l) (.obj js)) :
    MarshalsTo w (.obj ((k, p) :: l)) (.obj ((k, j) :: js)) := by
  cases ht with
  | obj h1 h2 =>
    refine .obj (by simp [h1]) fun n hn hn' => ?_
    cases n with
    | zero => exact h
    | succ n => exact h2 n (by simpa using hn) (by simpa using hn')

theorem value_written : MarshalsTo writer value (.obj text5) := obj_cons (obj_cons .int obj_nil) (obj_cons (arr_cons .str (arr_cons .str arr_nil)) obj_nil)

theorem valid_five : Valid codec false false pIn (.obj [(g!"n", .num (itoa 5))]) := by
  refine valid_members.2 ⟨_, _, decoded.2.2.2.2.2.2, rfl, rfl, by decide, fun k hk => ?_, fun k v q hk hq => ?_, fun h => (nomatch h), fun h => (nomatch h), fun h => (nomatch h)⟩
  · cases List.mem_singleton.1 hk
    exact ⟨_, List.mem_singleton.2 rfl⟩
  · cases List.mem_singleton.1 hk
    cases hq
    exact .integer (n := 5) decoded.2.1 rfl (.inl rfl) fun h => (nomatch h)

theorem text_members : Members codec false false both bothSchema.required text5 := by
  refine ⟨by decide, fun k hk => ?_, fun k v q hk hq => ?_, fun h => (nomatch h), fun h => (nomatch h), fun h => (nomatch h)⟩
  · cases List.mem_singleton.1 hk
    exact ⟨_, List.mem_cons_self⟩
  · simp only [text5, List.mem_cons, List.not_mem_nil, or_false, Prod.mk.injEq] at hk
    rcases hk with ⟨rfl, rfl⟩ | ⟨rfl, rfl⟩ <;> cases hq
    · exact valid_five
    · refine .array decoded.2.2.2.2.1 rfl rfl (fun x hx => ?_) fun h => (nomatch h)
      simp only [List.mem_cons, List.not_mem_nil, or_false] at hx
      rcases hx with rfl | rfl <;> exact .string decoded.2.2.2.1 rfl (by decide)

theorem faithful : Faithful writer whole codec e.lib reads both bothSchema.required := by
  refine ⟨digits, fun p out h => ?_, fun out j _ h _ => ?_⟩
  · obtain ⟨rfl, rfl⟩ := marshal_value h
    exact ⟨_, rfl, value_written⟩
  · unfold reads at h
    split at h
    · cases h
      exact ⟨_, rfl, text_members⟩
    · cases h

theorem plain_five : PlainNumbers whole (.obj text5) := by
  intro s hs _
  refine ⟨5, ?_, by decide⟩
  cases hs with
  | obj h1 h2 =>
    simp only [text5, List.mem_cons, List.not_mem_nil, or_false] at h1
    rcases h1 with rfl | rfl
    · cases h2 with
      | obj h3 h4 =>
        cases List.mem_singleton.1 h3
        cases h4
        rfl
    · cases h2 with
      | arr h3 h4 =>
        simp only [List.mem_cons, List.not_mem_nil, or_false] at h3
        rcases h3 with rfl | rfl <;> cases h4

/-- The hypotheses are met: an input is transformed to a document that goes through the struct of the generated source. -/
example : ∃ t s0 sfs l l', newTransformer e sc g!"t" = .ok (t, s0) ∧ Returns t s0 e [] g!"input" g!"good" ∧ Declared ascii C56ex.capital args bothSchema g!"things" g!"thing" [] sfs ∧
    reads g!"good" = some (.obj l) ∧ Through codec sfs l l' ∧ SameMembers codec true both bothSchema.required l l' := by
  have h := run_good
  split at h
  · rename_i t s0 hb
    have hr : Returns t s0 e [] g!"input" g!"good" := ⟨fun _ h => (nomatch h), Option.some.inj h⟩
    obtain ⟨sfs, h1, h2⟩ := C103_partial (w := writer) (whole := whole) (reads := reads) lawful both_passable (level_of (by decide +kernel)) hb
    obtain ⟨j, h3, h4⟩ := h2 e [] _ _ (freshSchemaB_sound (n := 5) (by decide +kernel)) (levels_of (n := 5) (by decide +kernel)) faithful hr
    cases h3
    obtain ⟨l, l', e1, h5, h6⟩ := h4 plain_five
    exact ⟨t, s0, sfs, l, l', hb, hr, h1, by rw [← e1]; rfl, h5, h6⟩
  · cases h

/-! A number that is whole and has more than 64 bits. -/

def big : List (Str × J) := [(g!"n", .num g!"9223372036854775808")]
def bigMarshal : P → Option Str
  | .obj [(['n'], .sc (.f64 _))] => some g!"big"
  | _ => none
def bigReads (s : Str) : Option J := if s = g!"big" then some (.obj big) else none
def bigEnv : Env := { env [(g!"input", o [(g!"n", .sc (.f64 0x43E0000000000000#64))])] with lib := { (env [(g!"input", o [(g!"n", .sc (.f64 0x43E0000000000000#64))])]).lib with marshal := bigMarshal } }

theorem run_big : (match newTransformer bigEnv ⟨some C95ex.one, none⟩ g!"t" with | .ok (t, s0) => some (transform bigEnv t g!"input" s0).1 | _ => none) = some (.ok g!"big") := by decide +kernel

theorem big_faithful : Faithful writer whole codec bigEnv.lib bigReads C95ex.one [] := by
  refine ⟨digits, fun p out h => ?_, fun out j _ h _ => ?_⟩
  · replace h : bigMarshal p = some out := h
    unfold bigMarshal at h
    split at h
    · cases h
      exact ⟨.obj big, rfl, obj_cons (.float (w := writer)) obj_nil⟩
    · cases h
  · unfold bigReads at h
    split at h
    · cases h
      refine ⟨big, rfl, by decide, fun k hk => (nomatch hk), fun k v q hk hq => ?_, fun h => (nomatch h), fun h => (nomatch h), fun h => (nomatch h)⟩
      cases List.mem_singleton.1 hk
      cases hq
      exact .integer (n := 9223372036854775808) decoded.2.1 rfl (.inl (by decide +kernel)) fun h => (nomatch h)
    · cases h

end C103ex

/-- The statement is false: a `float64` in the input that is whole and has more than 64 bits passes for an integer and is no number for a field of type `int64`. -/
theorem C103_refuted : ∃ u title, ¬ C103_statement u title := by
  refine ⟨C93ex.ascii, C56ex.capital, fun h => ?_⟩
  have hr := C103ex.run_big
  split at hr
  · rename_i t s0 hb
    obtain ⟨sfs, ⟨f, hn, hd, hs⟩, hall⟩ := h C76ex.codec C103ex.writer C103ex.whole C103ex.bigReads _ _ _ _ _ g!"t" _ _ t s0 C76ex.lawful C95ex.one_passable
      (plainSchemaB_sound (n := 5) (by decide +kernel)) hb
    obtain ⟨g, hg, hl⟩ := hs Sched.id
    have ht := C95ex.one_text
    unfold C93ex.text at ht
    rw [hg] at ht
    obtain rfl := C93_unique hl ht
    have hd' : Denotes ⟨g!"things", [notice], [], [structDecl g!"Thing" [] [.mk [] (some g!"N") (.name g!"int64") (some g!"json:\"n,omitempty\"")]]⟩ (.name g!"Thing")
        (.struct [.mk g!"N" g!"n" .empty .int64]) :=
      .named (List.mem_singleton.2 rfl) (.struct (.cons (by decide +kernel) (.basic (by decide) (by simp [basicTypes])) .nil) (by
        unfold checked
        rw [if_pos]
        decide))
    obtain rfl := GT.struct.inj (denotes_unique hn hd hd')
    obtain ⟨l, l', hl, ⟨v, hv, _⟩, _⟩ := hall C103ex.bigEnv [] g!"input" g!"big" C103ex.big_faithful ⟨fun _ h => (nomatch h), Option.some.inj hr⟩
    cases hl
    have : decode C76ex.codec (.struct [.mk g!"N" g!"n" .empty .int64]) (zero C76ex.codec (.struct [.mk g!"N" g!"n" .empty .int64])) (.obj C103ex.big) = none := by rfl
    rw [this] at hv
    cases hv
  · cases hr

end JT.GoText
