import Verif.Spec.Accept
import Verif.Props.C24
/- When the parts of a schema document can be decoded. -/
namespace JT
open Spec

/-- There is a result. -/
def Res.Fine {α : Type} (r : Res α) : Prop := ∃ a, r = .ok a

theorem Res.fine_bind {α β : Type} {x : Res α} {f : α → Res β} : (x >>= f).Fine ↔ ∃ a, x = .ok a ∧ (f a).Fine := by
  constructor
  · rintro ⟨b, h⟩
    obtain ⟨a, ha, hb⟩ := Res.bind_eq_ok.1 h
    exact ⟨a, ha, b, hb⟩
  · rintro ⟨a, ha, b, hb⟩
    exact ⟨b, Res.bind_eq_ok.2 ⟨a, ha, hb⟩⟩

theorem Res.fine_pure {α : Type} (a : α) : (Pure.pure a : Res α).Fine := ⟨a, rfl⟩

theorem Res.calm_bind {α β : Type} {x : Res α} {f : α → Res β} (hx : x ≠ .panic) (hf : ∀ a, x = .ok a → f a ≠ .panic) : (x >>= f) ≠ .panic := by
  cases x with
  | ok a => exact hf a rfl
  | err => exact fun h => nomatch h
  | panic => exact absurd rfl hx

theorem Res.calm_map {α β : Type} {x : Res α} {f : α → β} (hx : x ≠ .panic) : x.map f ≠ .panic := by
  cases x with
  | ok a => exact fun h => nomatch h
  | err => exact fun h => nomatch h
  | panic => exact absurd rfl hx

theorem Res.calm_pure {α : Type} (a : α) : (Pure.pure a : Res α) ≠ .panic := fun h => nomatch h

theorem asString_calm (o : Option P) : asString o ≠ .panic := by
  unfold asString; split <;> exact fun h => nomatch h

theorem asList_calm (o : Option P) : asList o ≠ .panic := by
  unfold asList; split <;> exact fun h => nomatch h

theorem asStruct_calm (p : P) : asStruct p ≠ .panic := by
  unfold asStruct; split <;> exact fun h => nomatch h

theorem parseMethod_calm (s : Str) : parseMethod s ≠ .panic := by
  unfold parseMethod; repeat' split
  all_goals exact fun h => nomatch h

theorem mapRes_calm {α β : Type} {f : α → Res β} : ∀ {l : List α}, (∀ x ∈ l, f x ≠ .panic) → mapRes f l ≠ .panic
  | [], _ => fun h => nomatch h
  | x :: l, h => Res.calm_bind (h x (by simp)) fun y _ => Res.calm_bind (mapRes_calm fun z hz => h z (by simp [hz])) fun ys _ => Res.calm_pure _

theorem mapRes_fine {α β : Type} {f : α → Res β} : ∀ {l : List α}, (mapRes f l).Fine ↔ ∀ x ∈ l, (f x).Fine
  | [] => by
    constructor
    · intro _ x h; cases h
    · intro _; exact ⟨[], rfl⟩
  | x :: l => by
    simp only [mapRes, Res.fine_bind]
    constructor
    · rintro ⟨y, hy, ys, hys, _⟩ z hz
      rcases List.mem_cons.1 hz with rfl | hz
      · exact ⟨y, hy⟩
      · exact mapRes_fine.1 ⟨ys, hys⟩ z hz
    · intro h
      obtain ⟨y, hy⟩ := h x (by simp)
      obtain ⟨ys, hys⟩ := (mapRes_fine (f := f) (l := l)).2 fun z hz => h z (List.mem_cons_of_mem _ hz)
      exact ⟨y, hy, ys, hys, Res.fine_pure _⟩

theorem asString_iff {p : P} {k s : Str} : asString (p.key k) = .ok s ↔ TextAt p k s := by
  refine ⟨textAt_of, fun h => ?_⟩
  cases h with
  | missing h => rw [h]; rfl
  | null h => rw [h]; rfl
  | text h => rw [h]; rfl

theorem asList_iff {p : P} {k : Str} {l : List P} : asList (p.key k) = .ok l ↔ ListAt p k l := by
  refine ⟨listAt_of, fun h => ?_⟩
  cases h with
  | missing h => rw [h]; rfl
  | null h => rw [h]; rfl
  | list h => rw [h]; rfl

theorem asStruct_fine {p : P} : (asStruct p).Fine ↔ ObjectOrNull p := by
  constructor
  · rintro ⟨q, h⟩
    unfold asStruct at h
    split at h
    · exact .object
    · exact .null
    · cases h
  · intro h
    cases h with
    | null => exact ⟨_, rfl⟩
    | object => exact ⟨_, rfl⟩

theorem asStruct_bind {β : Type} {p : P} {f : P → Res β} (hf : ∀ q, (∀ k, q.key k = p.key k) → ((f q).Fine ↔ (f p).Fine)) :
    (asStruct p >>= f).Fine ↔ ObjectOrNull p ∧ (f p).Fine := by
  rw [Res.fine_bind, ← asStruct_fine]
  constructor
  · rintro ⟨q, hq, h⟩
    exact ⟨⟨q, hq⟩, (hf q fun k => asStruct_key hq k).1 h⟩
  · rintro ⟨⟨q, hq⟩, h⟩
    exact ⟨q, hq, (hf q fun k => asStruct_key hq k).2 h⟩

theorem asString_value {p : P} {s : Str} : asString (some p) = .ok s ↔ TextValue p s := by
  constructor
  · intro h
    unfold asString at h
    split at h
    · rename_i hp; cases hp
    · rename_i hp; cases hp; cases h; exact .null
    · rename_i hp; cases hp; cases h; exact .text
    · cases h
  · intro h
    cases h <;> rfl

theorem parseArgs_iff {p : P} {args : GMap Str} : parseArgs (p.key g!"args") = .ok args ↔ ArgsAre p args := by
  have hall : ∀ {m : List (Str × P)} {l : List (Str × Str)}, mapRes (fun kv : Str × P => do let s ← asString (some kv.2); return (kv.1, s)) m = .ok l ↔
      Each (fun kv kt => kv.1 = kt.1 ∧ TextValue kv.2 kt.2) m l := by
    intro m
    induction m with
    | nil =>
      intro l
      constructor
      · intro h; cases h; exact .nil
      · intro h; cases h; rfl
    | cons x m ih =>
      intro l
      simp only [mapRes, Res.bind_eq_ok, Res.pure_eq_ok]
      constructor
      · rintro ⟨b, ⟨s, hs, rfl⟩, bs, hbs, rfl⟩
        exact .cons ⟨rfl, asString_value.1 hs⟩ (ih.1 hbs)
      · intro h
        cases h with
        | @cons _ b _ bs hb hbs =>
          obtain ⟨k, t⟩ := b
          obtain ⟨rfl, ht⟩ := hb
          exact ⟨_, ⟨t, asString_value.2 ht, rfl⟩, bs, ih.2 hbs, rfl⟩
  constructor
  · intro h
    unfold parseArgs at h
    split at h
    · rename_i hk; cases h; exact .missing hk
    · rename_i hk; cases h; exact .null hk
    · rename_i m hk
      simp only [Res.bind_eq_ok, Res.pure_eq_ok] at h
      obtain ⟨l, hl, rfl⟩ := h
      exact .object hk (hall.1 hl)
    · cases h
  · intro h
    unfold parseArgs
    cases h with
    | missing h => rw [h]
    | null h => rw [h]
    | object h hl => rw [h]; exact Res.bind_eq_ok.2 ⟨_, hall.2 hl, rfl⟩

theorem parseArgs_calm (o : Option P) : parseArgs o ≠ .panic := by
  unfold parseArgs
  split
  · exact fun h => nomatch h
  · exact fun h => nomatch h
  · exact Res.calm_bind (mapRes_calm fun x _ => Res.calm_bind (asString_calm _) fun _ _ => Res.calm_pure _) fun _ _ => Res.calm_pure _
  · exact fun h => nomatch h

theorem parseOp_fine {lib : Lib} {p : P} : (parseOp lib p).Fine ↔ OpAccepted lib p := by
  have hbody : ∀ q : P, (∀ k, q.key k = p.key k) → (((do
      let name ← asString (q.key g!"type")
      let args ← parseArgs (q.key g!"args")
      match initOp lib name args with
      | some op => return op
      | none => .err : Res Op)).Fine ↔ ∃ name args, TextAt p g!"type" name ∧ ArgsAre p args ∧ ArgsOK lib name args) := by
    intro q hq
    simp only [Res.fine_bind, hq, asString_iff, parseArgs_iff]
    constructor
    · rintro ⟨name, hn, args, ha, h⟩
      refine ⟨name, args, hn, ha, (initOp_iff (parseArgs_nodup (parseArgs_iff.2 ha))).1 ?_⟩
      obtain ⟨op, h⟩ := h
      split at h
      · exact ⟨_, ‹_›⟩
      · cases h
    · rintro ⟨name, args, hn, ha, hok⟩
      refine ⟨name, hn, args, ha, ?_⟩
      obtain ⟨op, hop⟩ := (initOp_iff (parseArgs_nodup (parseArgs_iff.2 ha))).2 hok
      rw [hop]
      exact ⟨op, rfl⟩
  unfold parseOp
  refine (asStruct_bind fun q hq => (hbody q hq).trans (hbody p fun _ => rfl).symm).trans ?_
  rw [hbody p fun _ => rfl]
  exact ⟨fun h => ⟨h.1, h.2⟩, fun h => ⟨h.object, h.fits⟩⟩

theorem parseOp_calm (lib : Lib) (p : P) : parseOp lib p ≠ .panic := by
  unfold parseOp
  refine Res.calm_bind (asStruct_calm _) fun _ _ => Res.calm_bind (asString_calm _) fun _ _ => Res.calm_bind (parseArgs_calm _) fun _ _ => ?_
  split
  · exact Res.calm_pure _
  · exact fun h => nomatch h

theorem parseInstr_fine {lib : Lib} {p : P} : (parseInstr lib p).Fine ↔ InstrAccepted lib p := by
  have hbody : ∀ q : P, (∀ k, q.key k = p.key k) → (((do
      let jp ← asString (q.key g!"jsonPath")
      let xp ← asString (q.key g!"xmlPath")
      let opsJ ← asList (q.key g!"operations")
      let ops ← mapRes (parseOp lib) opsJ
      return ⟨jp, xp, ops⟩ : Res Instr)).Fine ↔ (∃ s, TextAt p g!"jsonPath" s) ∧ (∃ s, TextAt p g!"xmlPath" s) ∧
        ∃ l, ListAt p g!"operations" l ∧ ∀ o ∈ l, OpAccepted lib o) := by
    intro q hq
    simp only [Res.fine_bind, hq, asString_iff, asList_iff]
    constructor
    · rintro ⟨jp, hj, xp, hx, l, hl, ops, hops, _⟩
      exact ⟨⟨jp, hj⟩, ⟨xp, hx⟩, l, hl, fun o ho => parseOp_fine.1 (mapRes_fine.1 ⟨ops, hops⟩ o ho)⟩
    · rintro ⟨⟨jp, hj⟩, ⟨xp, hx⟩, l, hl, h⟩
      obtain ⟨ops, hops⟩ := mapRes_fine.2 fun o ho => parseOp_fine.2 (h o ho)
      exact ⟨jp, hj, xp, hx, l, hl, ops, hops, Res.fine_pure _⟩
  unfold parseInstr
  split
  · constructor
    · rintro ⟨_, h⟩; cases h
    · intro h; obtain ⟨m, h⟩ := h.object; cases h
  · rename_i hne
    refine (asStruct_bind fun q hq => (hbody q hq).trans (hbody p fun _ => rfl).symm).trans ?_
    rw [hbody p fun _ => rfl]
    constructor
    · rintro ⟨ho, h1, h2, h3⟩
      refine ⟨?_, h1, h2, h3⟩
      cases ho with
      | null => exact absurd rfl hne
      | object => exact ⟨_, rfl⟩
    · intro h
      obtain ⟨m, rfl⟩ := h.object
      exact ⟨.object, h.json, h.xml, h.ops⟩

theorem parseInstr_calm (lib : Lib) {p : P} (h : p ≠ .sc .nil) : parseInstr lib p ≠ .panic := by
  unfold parseInstr
  split
  · exact absurd rfl h
  · exact Res.calm_bind (asStruct_calm _) fun _ _ => Res.calm_bind (asString_calm _) fun _ _ => Res.calm_bind (asString_calm _) fun _ _ =>
      Res.calm_bind (asList_calm _) fun _ _ => Res.calm_bind (mapRes_calm fun x _ => parseOp_calm lib x) fun _ _ => Res.calm_pure _

theorem parseMethod_iff {s : Str} {m : Method} : parseMethod s = .ok m ↔ MethodNamed s m := by
  refine ⟨methodNamed_of, fun h => ?_⟩
  cases h <;> rfl

theorem delimiter_fine {p : P} {f : Str → Res Instrs} : (do
    let opts ← asStruct ((p.key g!"methodOptions").getD (.sc .nil))
    let delim ← asString (opts.key g!"concatenateDelimiter")
    f delim : Res Instrs).Fine ↔ ∃ d, Delimiter p d ∧ (f d).Fine := by
  simp only [Res.fine_bind]
  constructor
  · rintro ⟨o, ho, d, hd, h⟩
    refine ⟨d, ?_, h⟩
    have hd' := asString_iff.1 hd
    cases hk : p.key g!"methodOptions" with
    | none =>
      rw [hk] at ho
      cases ho
      cases hd' with
      | missing => exact .missing hk
      | null => exact .missing hk
      | text h => cases h
    | some v =>
      rw [hk] at ho
      simp only [Option.getD_some] at ho
      unfold asStruct at ho
      split at ho
      · cases ho; exact .text hk hd'
      · cases ho
        cases hd' with
        | missing => exact .null hk
        | null => exact .null hk
        | text h => cases h
      · cases ho
  · rintro ⟨d, hd, h⟩
    cases hd with
    | missing hk => rw [hk]; exact ⟨_, rfl, _, rfl, h⟩
    | null hk => rw [hk]; exact ⟨_, rfl, _, rfl, h⟩
    | text hk ht => rw [hk]; exact ⟨_, rfl, d, asString_iff.2 ht, h⟩

theorem parseInstrs_fine {lib : Lib} {p : P} : (parseInstrs lib p).Fine ↔ TransformAccepted lib p := by
  have hbody : ∀ q : P, (∀ k, q.key k = p.key k) → (((do
      let fromJ ← asList (q.key g!"from")
      let fr ← mapRes (parseInstr lib) fromJ
      let ms ← asString (q.key g!"method")
      let opts ← asStruct ((q.key g!"methodOptions").getD (.sc .nil))
      let delim ← asString (opts.key g!"concatenateDelimiter")
      let m ← parseMethod ms
      return ⟨fr, m, delim⟩ : Res Instrs)).Fine ↔ (∃ l, ListAt p g!"from" l ∧ ∀ i ∈ l, InstrAccepted lib i) ∧ (∃ s m, TextAt p g!"method" s ∧ MethodNamed s m) ∧
        ∃ d, Delimiter p d) := by
    intro q hq
    simp only [hq]
    rw [Res.fine_bind]
    constructor
    · rintro ⟨l, hl, h⟩
      obtain ⟨fr, hfr, h⟩ := Res.fine_bind.1 h
      obtain ⟨ms, hms, h⟩ := Res.fine_bind.1 h
      obtain ⟨d, hd, h⟩ := delimiter_fine.1 h
      obtain ⟨m, hm, _⟩ := Res.fine_bind.1 h
      exact ⟨⟨l, asList_iff.1 hl, fun i hi => parseInstr_fine.1 (mapRes_fine.1 ⟨fr, hfr⟩ i hi)⟩, ⟨ms, m, asString_iff.1 hms, parseMethod_iff.1 hm⟩, d, hd⟩
    · rintro ⟨⟨l, hl, hi⟩, ⟨ms, m, hms, hm⟩, d, hd⟩
      obtain ⟨fr, hfr⟩ := mapRes_fine.2 fun i h => parseInstr_fine.2 (hi i h)
      exact ⟨l, asList_iff.2 hl, Res.fine_bind.2 ⟨fr, hfr, Res.fine_bind.2 ⟨ms, asString_iff.2 hms, delimiter_fine.2 ⟨d, hd,
        Res.fine_bind.2 ⟨m, parseMethod_iff.2 hm, Res.fine_pure _⟩⟩⟩⟩⟩
  unfold parseInstrs
  refine (asStruct_bind fun q hq => (hbody q hq).trans (hbody p fun _ => rfl).symm).trans ?_
  rw [hbody p fun _ => rfl]
  exact ⟨fun h => ⟨h.1, h.2.1, h.2.2.1, h.2.2.2⟩, fun h => ⟨h.object, h.from, h.method, h.delim⟩⟩

theorem parseInstrs_calm (lib : Lib) {p : P} (h : ∀ fr, p.key g!"from" = some (.arr fr) → P.sc .nil ∉ fr) : parseInstrs lib p ≠ .panic := by
  unfold parseInstrs
  refine Res.calm_bind (asStruct_calm _) fun q hq => Res.calm_bind (asList_calm _) fun l hl => Res.calm_bind (mapRes_calm fun x hx => ?_) fun _ _ =>
    Res.calm_bind (asString_calm _) fun _ _ => Res.calm_bind (asStruct_calm _) fun _ _ => Res.calm_bind (asString_calm _) fun _ _ =>
    Res.calm_bind (parseMethod_calm _) fun _ _ => Res.calm_pure _
  rw [asStruct_key hq] at hl
  refine parseInstr_calm lib ?_
  rintro rfl
  cases asList_iff.1 hl with
  | missing => cases hx
  | null => cases hx
  | list hk => exact h _ hk hx

theorem extractInstrs_fine {lib : Lib} {raw : P} {ident path : Str} {kind : Kind} :
    (extractInstrs lib raw ident path kind).Fine ↔ ∀ p, transformFor ident raw = some p → p ≠ .sc (.str []) → TransformAccepted lib p := by
  unfold extractInstrs
  show Res.Fine (match transformFor ident raw with | none => _ | some (.sc (.str [])) => _ | some p => _) ↔ _
  split
  · rename_i h
    exact ⟨fun _ p hp => (by rw [h] at hp; cases hp), fun _ => ⟨_, rfl⟩⟩
  · rename_i h
    exact ⟨fun _ p hp hne => (by rw [h] at hp; cases hp; exact absurd rfl hne), fun _ => ⟨_, rfl⟩⟩
  · rename_i p hne h
    rw [Res.fine_bind, h]
    constructor
    · rintro ⟨tis, ht, _⟩ p' hp _
      cases hp
      exact parseInstrs_fine.1 ⟨tis, ht⟩
    · intro hall
      obtain ⟨tis, ht⟩ := parseInstrs_fine.2 (hall p rfl fun he => hne he)
      exact ⟨tis, ht, Res.fine_pure _⟩

theorem extractInstrs_calm (lib : Lib) {raw : P} {ident : Str} (path : Str) (kind : Kind)
    (h : ∀ p fr, transformFor ident raw = some p → p.key g!"from" = some (.arr fr) → P.sc .nil ∉ fr) : extractInstrs lib raw ident path kind ≠ .panic := by
  unfold extractInstrs
  show (match transformFor ident raw with | none => _ | some (.sc (.str [])) => _ | some p => _) ≠ _
  split
  · exact fun h => nomatch h
  · exact fun h => nomatch h
  · rename_i p _ hp
    exact Res.calm_bind (parseInstrs_calm lib fun fr => h p fr hp) fun _ _ => Res.calm_pure _


/-! ### The node of an instance -/

theorem M.calm_bind {α β : Type} {x : M α} {f : α → M β} {s : St} (hx : (x s).1 ≠ .panic) (hf : ∀ a s', x s = (.ok a, s') → (f a s').1 ≠ .panic) :
    ((x >>= f) s).1 ≠ .panic := by
  rw [M.bind_apply]
  rcases h : x s with ⟨r, s1⟩
  rw [h] at hx
  cases r with
  | ok a => exact hf a s1 h
  | err => exact fun h => nomatch h
  | panic => exact absurd rfl hx

theorem load_calm (d : P) (s : St) : (load d s).1 ≠ .panic := fun h => nomatch h
theorem addInstrs_calm (o : Option Instrs) (s : St) : (addInstrs o s).1 ≠ .panic := by cases o <;> exact fun h => nomatch h
theorem schemaDefault_calm (raw : P) : schemaDefault raw ≠ .panic := Res.calm_bind (asStruct_calm _) fun _ _ => Res.calm_pure _
theorem scalarType_calm (raw : P) (t : Str) : scalarType raw t ≠ .panic := by
  unfold scalarType
  repeat' split
  all_goals exact fun h => nomatch h

theorem addInstrs_fine (o : Option Instrs) (s : St) : ∃ tid s', addInstrs o s = (.ok tid, s') := by cases o <;> exact ⟨_, _, rfl⟩

theorem schemaDefault_fine {raw : P} {m : List (Str × P)} (h : raw = .obj m) : schemaDefault raw = .ok ((raw.key g!"default").getD nilP) := by
  subst h; rfl

/-- A loaded value has the form of the document. -/
theorem load_form (d : P) (s : St) : ∃ v s', load d s = (.ok v, s') ∧ (v = .sc .nil ↔ d = .sc .nil) ∧ ((∃ a, v = .arr a) ↔ ∃ l, d = .arr l) ∧
    ((∃ a, v = .obj a) ↔ ∃ m, d = .obj m) := by
  cases d with
  | sc c => refine ⟨_, _, rfl, ?_, ?_, ?_⟩ <;> simp [loadP]
  | arr l => refine ⟨_, _, rfl, ?_, ?_, ?_⟩ <;> simp [loadP]
  | obj m => refine ⟨_, _, rfl, ?_, ?_, ?_⟩ <;> simp [loadP]

theorem newScalar_fine {lib : Lib} {path ident ty : Str} {raw : P} {m : List (Str × P)} (hm : raw = .obj m) (s : St) :
    (∃ t s', newScalar lib path ident raw ty s = (.ok t, s')) ↔ (scalarType raw ty).Fine ∧ (extractInstrs lib raw ident path .scalar).Fine := by
  unfold newScalar
  simp only [M.bind_eq_ok, M.lift_eq_ok, M.pure_eq_ok]
  constructor
  · rintro ⟨t, s', ty', _, ⟨hst, _⟩, tis, _, ⟨htis, _⟩, _⟩
    exact ⟨⟨_, hst⟩, ⟨_, htis⟩⟩
  · rintro ⟨⟨ty', hst⟩, tis, htis⟩
    obtain ⟨v, s1, hl, _⟩ := load_form ((raw.key g!"default").getD nilP) s
    obtain ⟨tid, s2, ha⟩ := addInstrs_fine tis s1
    exact ⟨_, _, ty', s, ⟨hst, rfl⟩, tis, s, ⟨htis, rfl⟩, _, s, ⟨schemaDefault_fine hm, rfl⟩, v, s1, hl, tid, s2, ha, rfl, rfl⟩

theorem newArray_fine {lib : Lib} {path ident : Str} {raw : P} {m : List (Str × P)} (hm : raw = .obj m) (s : St) :
    (∃ t s', newArray lib path ident raw s = (.ok t, s')) ↔ (extractInstrs lib raw ident path .array).Fine ∧
      ∀ d, raw.key g!"default" = some d → d = .sc .nil ∨ ∃ l, d = .arr l := by
  obtain ⟨v, s1, hl, hn, ha, ho⟩ := load_form ((raw.key g!"default").getD nilP) s
  have hd : (∀ d, raw.key g!"default" = some d → d = .sc .nil ∨ ∃ l, d = .arr l) ↔ v = .sc .nil ∨ ∃ a, v = .arr a := by
    rw [hn, ha]
    cases raw.key g!"default" with
    | none => simp [nilP]
    | some d => simp
  rw [hd]
  unfold newArray
  simp only [M.bind_eq_ok, M.lift_eq_ok]
  constructor
  · rintro ⟨t, s', tis, _, ⟨htis, rfl⟩, d, _, ⟨hdd, rfl⟩, dv, s2, hl', tid, s3, _, h⟩
    rw [schemaDefault_fine hm] at hdd
    cases hdd
    rw [hl] at hl'
    cases hl'
    refine ⟨⟨_, htis⟩, ?_⟩
    split at h
    · exact .inl rfl
    · exact .inr ⟨_, rfl⟩
    · cases h
  · rintro ⟨⟨tis, htis⟩, hv⟩
    obtain ⟨tid, s2, hi⟩ := addInstrs_fine tis s1
    rcases hv with rfl | ⟨a, rfl⟩
    · exact ⟨_, _, tis, s, ⟨htis, rfl⟩, _, s, ⟨schemaDefault_fine hm, rfl⟩, _, s1, hl, tid, s2, hi, rfl⟩
    · exact ⟨_, _, tis, s, ⟨htis, rfl⟩, _, s, ⟨schemaDefault_fine hm, rfl⟩, _, s1, hl, tid, s2, hi, rfl⟩

theorem newObject_fine {lib : Lib} {path ident : Str} {raw : P} {m : List (Str × P)} (hm : raw = .obj m) (s : St) :
    (∃ t s', newObject lib path ident raw s = (.ok t, s')) ↔ (extractInstrs lib raw ident path .object).Fine ∧
      ∀ d, raw.key g!"default" = some d → d = .sc .nil ∨ ∃ l, d = .obj l := by
  obtain ⟨v, s1, hl, hn, ha, ho⟩ := load_form ((raw.key g!"default").getD nilP) s
  have hd : (∀ d, raw.key g!"default" = some d → d = .sc .nil ∨ ∃ l, d = .obj l) ↔ v = .sc .nil ∨ ∃ a, v = .obj a := by
    rw [hn, ho]
    cases raw.key g!"default" with
    | none => simp [nilP]
    | some d => simp
  rw [hd]
  unfold newObject
  simp only [M.bind_eq_ok, M.lift_eq_ok]
  constructor
  · rintro ⟨t, s', tis, _, ⟨htis, rfl⟩, d, _, ⟨hdd, rfl⟩, dv, s2, hl', tid, s3, _, h⟩
    rw [schemaDefault_fine hm] at hdd
    cases hdd
    rw [hl] at hl'
    cases hl'
    refine ⟨⟨_, htis⟩, ?_⟩
    split at h
    · exact .inl rfl
    · exact .inr ⟨_, rfl⟩
    · cases h
  · rintro ⟨⟨tis, htis⟩, hv⟩
    obtain ⟨tid, s2, hi⟩ := addInstrs_fine tis s1
    rcases hv with rfl | ⟨a, rfl⟩
    · exact ⟨_, _, tis, s, ⟨htis, rfl⟩, _, s, ⟨schemaDefault_fine hm, rfl⟩, _, s1, hl, tid, s2, hi, rfl⟩
    · exact ⟨_, _, tis, s, ⟨htis, rfl⟩, _, s, ⟨schemaDefault_fine hm, rfl⟩, _, s1, hl, tid, s2, hi, rfl⟩

theorem scalarType_fine {raw : P} {ty : Str} : (scalarType raw ty).Fine ↔ (ty = g!"string" → ∀ f, raw.key g!"format" = some f → ∃ s, f = .sc (.str s)) := by
  unfold scalarType
  split
  · rename_i h
    split
    · rename_i hk
      exact ⟨fun _ _ f hf => (by rw [hk] at hf; cases hf), fun _ => ⟨_, rfl⟩⟩
    · rename_i f hk
      refine ⟨fun _ _ f' hf => (by rw [hk] at hf; cases hf; exact ⟨_, rfl⟩), fun _ => ?_⟩
      split <;> exact ⟨_, rfl⟩
    · rename_i v hv hk
      constructor
      · rintro ⟨_, h⟩; cases h
      · intro hf
        obtain ⟨s, rfl⟩ := hf h _ hk
        exact absurd rfl (hv s)
  · rename_i h
    exact ⟨fun _ h' => absurd h' h, fun _ => ⟨_, rfl⟩⟩

/-- The node of an instance that can be read can be made iff the instance is accepted. -/
theorem newInstance_fine {lib : Lib} {ident path : Str} {q : P} (hr : rawNode q ≠ none) (s : St) :
    (∃ t s', newInstance lib ident path q s = (.ok t, s')) ↔ InstanceAccepted lib ident q := by
  unfold rawNode at hr
  cases hf : fieldType q with
  | err => rw [hf] at hr; exact absurd rfl hr
  | panic => rw [hf] at hr; exact absurd rfl hr
  | ok x =>
    obtain ⟨ty, nu⟩ := x
    rw [hf] at hr
    simp only at hr
    obtain ⟨m, hm⟩ := fieldType_obj hf
    have hacc : ∀ (A O F : Prop), (A ↔ ∀ nu, fieldType q = .ok (g!"array", nu) → ∀ d, q.key g!"default" = some d → d = .sc .nil ∨ ∃ l, d = .arr l) →
        (O ↔ ∀ nu, fieldType q = .ok (g!"object", nu) → q.key g!"properties" ≠ some (.obj []) → ∀ d, q.key g!"default" = some d → d = .sc .nil ∨ ∃ m, d = .obj m) →
        (F ↔ ∀ nu, fieldType q = .ok (g!"string", nu) → ∀ f, q.key g!"format" = some f → ∃ s, f = .sc (.str s)) →
        (InstanceAccepted lib ident q ↔ (∀ p, transformFor ident q = some p → p ≠ .sc (.str []) → TransformAccepted lib p) ∧ A ∧ O ∧ F) := by
      intro A O F hA hO hF
      rw [hA, hO, hF]
      exact ⟨fun h => ⟨h.1, h.2, h.3, h.4⟩, fun h => ⟨h.1, h.2.1, h.2.2.1, h.2.2.2⟩⟩
    have hno : ∀ {t : Str}, ty ≠ t → ∀ {Q : Bool → Prop}, (∀ nu, fieldType q = .ok (t, nu) → Q nu) := by
      intro t ht Q nu' h
      rw [hf] at h
      cases h
      exact absurd rfl ht
    have hinst : newInstance lib ident path q s = (if ty = g!"object" then
        match q.key g!"properties" with
        | none => M.fail
        | some (.obj []) => newScalar lib path ident q ty
        | some _ => newObject lib path ident q
      else if ty = g!"array" then newArray lib path ident q
      else newScalar lib path ident q ty) s := by
      unfold newInstance
      rw [hf]
      rfl
    rw [hinst]
    by_cases ho : ty = g!"object"
    · subst ho
      rw [if_pos rfl] at hr ⊢
      by_cases hp : q.key g!"properties" = some (.obj [])
      · rw [hp]
        show (∃ t s', newScalar lib path ident q g!"object" s = (.ok t, s')) ↔ _
        rw [newScalar_fine hm, extractInstrs_fine, scalarType_fine, hacc True True True]
        · simp
        · exact ⟨fun _ => hno (by simp), fun _ => trivial⟩
        · exact ⟨fun _ nu _ h => absurd hp h, fun _ => trivial⟩
        · exact ⟨fun _ => hno (by simp), fun _ => trivial⟩
      · obtain ⟨m', hp'⟩ : ∃ m', q.key g!"properties" = some (.obj m') := by
          split at hr
          · exact ⟨_, ‹_›⟩
          · exact absurd rfl hr
        have he : ∀ t s', ((match q.key g!"properties" with
            | none => M.fail
            | some (.obj []) => newScalar lib path ident q g!"object"
            | some _ => newObject lib path ident q) s = (.ok t, s')) ↔ newObject lib path ident q s = (.ok t, s') := by
          intro t s'
          rw [hp']
          cases m' with
          | nil => exact absurd hp' hp
          | cons x m' => exact Iff.rfl
        simp only [he]
        rw [newObject_fine hm, extractInstrs_fine, hacc True (∀ d, q.key g!"default" = some d → d = .sc .nil ∨ ∃ l, d = .obj l) True]
        · simp only [true_and, and_true]
        · exact ⟨fun _ => hno (by simp), fun _ => trivial⟩
        · exact ⟨fun h nu _ _ => h, fun h => h nu hf hp⟩
        · exact ⟨fun _ => hno (by simp), fun _ => trivial⟩
    · rw [if_neg ho] at hr ⊢
      by_cases ha : ty = g!"array"
      · subst ha
        rw [if_pos rfl, newArray_fine hm, extractInstrs_fine, hacc (∀ d, q.key g!"default" = some d → d = .sc .nil ∨ ∃ l, d = .arr l) True True]
        · simp only [and_true]
        · exact ⟨fun h nu _ => h, fun h => h nu hf⟩
        · exact ⟨fun _ => hno (by simp), fun _ => trivial⟩
        · exact ⟨fun _ => hno (by simp), fun _ => trivial⟩
      · rw [if_neg ha, newScalar_fine hm, extractInstrs_fine, scalarType_fine, hacc True True (ty = g!"string" → ∀ f, q.key g!"format" = some f → ∃ s, f = .sc (.str s))]
        · rw [and_comm]; simp only [true_and]
        · exact ⟨fun _ => hno ha, fun _ => trivial⟩
        · exact ⟨fun _ => hno ho, fun _ => trivial⟩
        · constructor
          · intro h nu hs
            rw [hf] at hs
            cases hs
            exact h rfl
          · intro h hs
            exact h nu (by rw [hf, hs])

theorem newInstance_calm {lib : Lib} {ident : Str} (path : Str) {q : P}
    (h : ∀ p fr, transformFor ident q = some p → p.key g!"from" = some (.arr fr) → P.sc .nil ∉ fr) (s : St) : (newInstance lib ident path q s).1 ≠ .panic := by
  have hl : ∀ {α : Type} {r : Res α} (s : St), r ≠ .panic → (M.lift r s).1 ≠ .panic := fun s h => h
  have hsc : ∀ ty s, (newScalar lib path ident q ty s).1 ≠ .panic := by
    intro ty s
    unfold newScalar
    exact M.calm_bind (hl _ (scalarType_calm _ _)) fun _ _ _ => M.calm_bind (hl _ (extractInstrs_calm lib path _ h)) fun _ _ _ =>
      M.calm_bind (hl _ (schemaDefault_calm _)) fun _ _ _ => M.calm_bind (load_calm _ _) fun _ _ _ => M.calm_bind (addInstrs_calm _ _) fun _ _ _ => fun h => nomatch h
  have hob : ∀ s, (newObject lib path ident q s).1 ≠ .panic := by
    intro s
    unfold newObject
    refine M.calm_bind (hl _ (extractInstrs_calm lib path _ h)) fun _ _ _ =>
      M.calm_bind (hl _ (schemaDefault_calm _)) fun _ _ _ => M.calm_bind (load_calm _ _) fun _ _ _ => M.calm_bind (addInstrs_calm _ _) fun _ _ _ => ?_
    split <;> exact fun h => nomatch h
  have har : ∀ s, (newArray lib path ident q s).1 ≠ .panic := by
    intro s
    unfold newArray
    refine M.calm_bind (hl _ (extractInstrs_calm lib path _ h)) fun _ _ _ =>
      M.calm_bind (hl _ (schemaDefault_calm _)) fun _ _ _ => M.calm_bind (load_calm _ _) fun _ _ _ => M.calm_bind (addInstrs_calm _ _) fun _ _ _ => ?_
    split <;> exact fun h => nomatch h
  unfold newInstance
  refine M.calm_bind (hl _ (C47_total q)) fun x s' _ => ?_
  obtain ⟨ty, nu⟩ := x
  show ((if ty = g!"object" then
        match q.key g!"properties" with
        | none => M.fail
        | some (.obj []) => newScalar lib path ident q ty
        | some _ => newObject lib path ident q
      else if ty = g!"array" then newArray lib path ident q
      else newScalar lib path ident q ty) s').1 ≠ .panic
  split
  · split
    · exact fun h => nomatch h
    · exact hsc _ _
    · exact hob _
  · split
    · exact har _
    · exact hsc _ _

end JT
