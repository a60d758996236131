import Verif.Props.C92
import Verif.Props.C75
import Verif.Props.C58
/- C92, for the Avro files: writing the Avro schema and the conversion to Avro ends, and does not panic, if the structs are not circular. -/
namespace JT.Go

/-! ### Specification -/

/-- The type `a` is part of the type `b` of an Avro struct: of a pointer, map or slice, of the record of that name, or of the union of null with it. -/
inductive Spec.AvroPart (d : Decls) : GoType → GoType → Prop
  | star (x : GoType) : AvroPart d x (.star x)
  | map (k v : GoType) : AvroPart d v (.map k v)
  | array (e : GoType) : AvroPart d e (.array e)
  | record {t : Str} {fs : List GoField} {f : GoField} : d.avro t = some fs → f ∈ fs → AvroPart d f.type (.ident t)
  | union {t : Str} {fs : List GoField} {f : GoField} : d.avro t = some fs → f ∈ fs → AvroPart d f.type (.ident (g!"UnionNull" ++ t))

/-- The struct `a` is embedded in the struct `b`. -/
def Spec.EmbeddedIn (files : Str → Option (List GoField)) (a b : Str) : Prop :=
  ∃ fs, files b = some fs ∧ ∃ tag, GoField.mk none (.ident a) tag ∈ fs

/-- The type `a` is part of the Go type `b`, the named structs among them being those of the directory or of the file of that name. -/
inductive Spec.GoPart (w : World) : GoType → GoType → Prop
  | star (x : GoType) : GoPart w x (.star x)
  | key (k v : GoType) : GoPart w k (.map k v)
  | val (k v : GoType) : GoPart w v (.map k v)
  | array (e : GoType) : GoPart w e (.array e)
  | field {fs : List GoField} {f : GoField} : f ∈ fs → GoPart w f.type (.struct fs)
  | named {t : Str} {fs : List GoField} {f : GoField} : w.pkg t = some fs → f ∈ fs → GoPart w f.type (.ident t)
  | embedded {t : Str} {fs : List GoField} {f : GoField} : w.files t = some fs → f ∈ fs → GoPart w f.type (.ident t)

/-! ### Proof -/

/-- A bound for each entry of a list gives a bound for all. -/
theorem bound_all {α : Type} {P : α → Nat → Prop} : ∀ (l : List α), (∀ x ∈ l, ∃ N, ∀ n, N ≤ n → P x n) → ∃ N, ∀ n, N ≤ n → ∀ x ∈ l, P x n
  | [], _ => ⟨0, fun _ _ _ hx => nomatch hx⟩
  | x :: l, h => by
    obtain ⟨N, hN⟩ := h x (by simp)
    obtain ⟨M, hM⟩ := bound_all l fun y hy => h y (by simp [hy])
    refine ⟨max N M, fun n hn y hy => ?_⟩
    rcases List.mem_cons.mp hy with rfl | hy
    · exact hN n (by omega)
    · exact hM n (by omega) y hy

theorem Res.calm_bind' {α β : Type} {x : Res α} {f : α → Res β} (hx : x ≠ .panic) (hf : ∀ a, x = .ok a → f a ≠ .panic) : x.bind f ≠ .panic := by
  cases x with
  | ok a => exact hf a rfl
  | err => exact fun h => nomatch h
  | panic => exact absurd rfl hx

section conversion
variable {d : Decls}

theorem genFields_calm {fv : ValueFn} {pre : List Str} {m : GMap GoField} :
    ∀ {l : List GoField}, (∀ f ∈ l, ∀ name pre g, fv name pre f.type g ≠ .panic) → genFields fv pre m l ≠ .panic
  | [], _ => fun h => nomatch h
  | .mk none _ _ :: _, _ => fun h => nomatch h
  | .mk (some k) ty tag :: t, h => by
    have ht := genFields_calm (fv := fv) (pre := pre) (m := m) (l := t) fun f hf => h f (by simp [hf])
    unfold genFields
    split
    · exact ht
    · split
      · exact fun h => nomatch h
      · exact Res.calm_bind' (h _ List.mem_cons_self _ _ _) fun _ _ => Res.calm_bind' ht fun _ _ h => nomatch h

theorem childFields_calm (ty : GoType) : childFields d ty ≠ .panic := by
  unfold childFields
  split
  · exact fun h => nomatch h
  · split <;> exact fun h => nomatch h
  · exact fun h => nomatch h

theorem mapLoop_calm {files : Str → Option (List GoField)} {ord : GMap GoField → GMap GoField} {rec : List GoField → Res (GMap GoField)} :
    ∀ {l : List GoField} {m : GMap GoField}, (∀ e tag fs, GoField.mk none (.ident e) tag ∈ l → files e = some fs → rec fs ≠ .panic) →
      mapLoop files ord rec l m ≠ .panic
  | [], _, _ => fun h => nomatch h
  | .mk (some k) ty tg :: t, _, h => by
    unfold mapLoop
    exact mapLoop_calm fun e tag fs he hf => h e tag fs (by simp [he]) hf
  | .mk none ty tg :: t, m, h => by
    have ht := fun m => mapLoop_calm (files := files) (ord := ord) (rec := rec) (l := t) (m := m) fun e tag fs he hf => h e tag fs (by simp [he]) hf
    cases ty with
    | ident e =>
      unfold mapLoop
      split
      · exact fun h => nomatch h
      · exact Res.calm_bind' (h e tg _ (by simp) (by assumption)) fun _ _ => ht _
    | _ => exact ht _

theorem childStruct_calm {fv : ValueFn} {expr : GoType} {pre : List Str} {afs : List GoField} (h : ∀ f ∈ afs, ∀ name pre g, fv name pre f.type g ≠ .panic) :
    childStruct d fv expr pre afs ≠ .panic := by
  refine Res.calm_bind' (childFields_calm _) fun s _ => Res.calm_bind' ?_ fun _ _ => Res.calm_bind' (genFields_calm h) fun _ _ h => nomatch h
  exact mapLoop_calm fun _ _ _ _ hf => nomatch hf

theorem structValue_calm {fv : ValueFn} {name : Str} {pre : List Str} {t : Str} {g : GoField}
    (h : ∀ afs, d.avro t = some afs → ∀ f ∈ afs, ∀ name pre g, fv name pre f.type g ≠ .panic) : structValue d fv name pre t g ≠ .panic := by
  unfold structValue
  split
  · exact fun h => nomatch h
  · rename_i afs ha
    split
    · exact Res.calm_bind' (childStruct_calm (h afs ha)) fun _ _ h => nomatch h
    · exact Res.calm_bind' (childStruct_calm (h afs ha)) fun _ _ h => nomatch h

theorem cutPrefix_some {p s r : Str} (h : namedValue.cutPrefix p s = some r) : s = p ++ r := by
  unfold namedValue.cutPrefix at h
  split at h
  · rename_i hp
    cases h
    obtain ⟨r, rfl⟩ := List.isPrefixOf_iff_prefix.mp hp
    simp
  · cases h

theorem namedValue_calm {fv : ValueFn} {name : Str} {pre : List Str} {t : Str} {g : GoField}
    (h : ∀ ty, Spec.AvroPart d ty (.ident t) → ∀ name pre g, fv name pre ty g ≠ .panic) : namedValue d fv name pre t g ≠ .panic := by
  unfold namedValue
  split
  · exact fun h => nomatch h
  · split
    · exact fun h => nomatch h
    · split
      · exact fun h => nomatch h
      · split
        · rename_i r hr
          refine Res.calm_bind' (structValue_calm fun afs ha f hf => h _ ?_) fun _ _ h => nomatch h
          rw [cutPrefix_some hr]
          exact .union ha hf
        · exact structValue_calm fun afs ha f hf => h _ (.record ha hf)

theorem avroParts_bound {P : GoType → Nat → Prop} {t : Str} (h : ∀ ty, Spec.AvroPart d ty (.ident t) → ∃ N, ∀ n, N ≤ n → P ty n) :
    ∃ N, ∀ n, N ≤ n → ∀ ty, Spec.AvroPart d ty (.ident t) → P ty n := by
  have h1 : ∃ N, ∀ n, N ≤ n → ∀ afs, d.avro t = some afs → ∀ f ∈ afs, P f.type n := by
    cases ha : d.avro t with
    | none => exact ⟨0, fun _ _ _ h => nomatch h⟩
    | some afs =>
      obtain ⟨N, hN⟩ := bound_all (P := fun f n => P f.type n) afs fun f hf => h _ (.record ha hf)
      exact ⟨N, fun n hn _ he => by cases he; exact hN n hn⟩
  have h2 : ∃ N, ∀ n, N ≤ n → ∀ r, t = g!"UnionNull" ++ r → ∀ afs, d.avro r = some afs → ∀ f ∈ afs, P f.type n := by
    by_cases hu : ∃ r afs, t = g!"UnionNull" ++ r ∧ d.avro r = some afs
    · obtain ⟨r, afs, rfl, ha⟩ := hu
      obtain ⟨N, hN⟩ := bound_all (P := fun f n => P f.type n) afs fun f hf => h _ (.union ha hf)
      refine ⟨N, fun n hn r' hr afs' ha' => ?_⟩
      rw [← List.append_cancel_left hr, ha] at ha'
      cases ha'
      exact hN n hn
    · exact ⟨0, fun n _ r hr afs ha => absurd ⟨r, afs, hr, ha⟩ hu⟩
  obtain ⟨N, hN⟩ := h1
  obtain ⟨M, hM⟩ := h2
  refine ⟨max N M, fun n hn ty hp => ?_⟩
  generalize hi : GoType.ident t = ti at hp
  cases hp with
  | record ha hf => cases hi; exact hN n (by omega) _ ha _ hf
  | union ha hf => cases hi; exact hM n (by omega) _ rfl _ ha _ hf
  | star => cases hi
  | map => cases hi
  | array => cases hi

theorem fieldValue_calm {ty : GoType} (h : Acc (Spec.AvroPart d) ty) : ∃ N, ∀ n, N ≤ n → ∀ name pre g, fieldValue d n name pre ty g ≠ .panic := by
  induction h with
  | intro ty ha ih =>
    cases ty with
    | star x =>
      obtain ⟨N, hN⟩ := ih x (.star x)
      refine ⟨N + 1, fun n hn name pre g => ?_⟩
      obtain ⟨n, rfl⟩ : ∃ k, n = k + 1 := ⟨n - 1, by omega⟩
      exact Res.calm_bind' (hN n (by omega) _ _ _) fun _ _ h => nomatch h
    | map k v =>
      obtain ⟨N, hN⟩ := ih v (.map k v)
      refine ⟨N + 1, fun n hn name pre g => ?_⟩
      obtain ⟨n, rfl⟩ : ∃ k, n = k + 1 := ⟨n - 1, by omega⟩
      unfold fieldValue
      dsimp only
      split
      · exact hN n (by omega) _ _ _
      · exact fun h => nomatch h
    | array e =>
      obtain ⟨N, hN⟩ : ∃ N, ∀ n, N ≤ n → ∀ name pre g, fieldValue d n name pre (unstar e) g ≠ .panic := by
        obtain ⟨N, hN⟩ := ih e (.array e)
        cases e with
        | star x =>
          refine ⟨N, fun n hn name pre g hp => hN (n + 1) (by omega) name pre g ?_⟩
          simp only [unstar] at hp
          simp only [fieldValue, hp, Res.bind]
        | _ => exact ⟨N, hN⟩
      refine ⟨N + 1, fun n hn name pre g => ?_⟩
      obtain ⟨n, rfl⟩ : ∃ k, n = k + 1 := ⟨n - 1, by omega⟩
      unfold fieldValue
      dsimp only
      split
      · exact hN n (by omega) _ _ _
      · exact fun h => nomatch h
    | ident t =>
      obtain ⟨N, hN⟩ := avroParts_bound (P := fun ty n => ∀ name pre g, fieldValue d n name pre ty g ≠ .panic) ih
      refine ⟨N + 1, fun n hn name pre g => ?_⟩
      obtain ⟨n, rfl⟩ : ∃ k, n = k + 1 := ⟨n - 1, by omega⟩
      exact namedValue_calm fun ty hp => hN n (by omega) ty hp
    | struct fs => exact ⟨1, fun n hn name pre g => by obtain ⟨n, rfl⟩ : ∃ k, n = k + 1 := ⟨n - 1, by omega⟩; exact fun h => nomatch h⟩
    | selector s => exact ⟨1, fun n hn name pre g => by obtain ⟨n, rfl⟩ : ∃ k, n = k + 1 := ⟨n - 1, by omega⟩; exact fun h => nomatch h⟩
    | other s => exact ⟨1, fun n hn name pre g => by obtain ⟨n, rfl⟩ : ∃ k, n = k + 1 := ⟨n - 1, by omega⟩; exact fun h => nomatch h⟩

theorem mapFields_calm_of {files : Str → Option (List GoField)} {ord : GMap GoField → GMap GoField} {l : List GoField}
    (h : ∀ e tag, GoField.mk none (.ident e) tag ∈ l → ∃ N, ∀ n, N ≤ n → ∀ fs, files e = some fs → mapFields files ord n fs ≠ .panic) :
    ∃ N, ∀ n, N ≤ n → mapFields files ord n l ≠ .panic := by
  obtain ⟨N, hN⟩ := bound_all (P := fun (f : GoField) n => ∀ e tag, f = .mk none (.ident e) tag → ∀ fs, files e = some fs → mapFields files ord n fs ≠ .panic) l
    (fun f hf => by
      by_cases hx : ∃ e tag, f = .mk none (.ident e) tag
      · obtain ⟨e, tag, rfl⟩ := hx
        obtain ⟨N, hN⟩ := h e tag hf
        exact ⟨N, fun n hn e' tag' he fs hfs => by cases he; exact hN n hn fs hfs⟩
      · exact ⟨0, fun n _ e tag he => absurd ⟨e, tag, he⟩ hx⟩)
  refine ⟨N + 1, fun n hn => ?_⟩
  obtain ⟨n, rfl⟩ : ∃ k, n = k + 1 := ⟨n - 1, by omega⟩
  exact mapLoop_calm fun e tag fs he hfs => hN n (by omega) _ he e tag rfl fs hfs

theorem mapFields_calm {files : Str → Option (List GoField)} {ord : GMap GoField → GMap GoField} {l : List GoField}
    (h : ∀ e tag, GoField.mk none (.ident e) tag ∈ l → Acc (Spec.EmbeddedIn files) e) : ∃ N, ∀ n, N ≤ n → mapFields files ord n l ≠ .panic := by
  refine mapFields_calm_of fun e tag he => ?_
  have := h e tag he
  clear h he
  induction this with
  | intro e _ ih =>
    cases hf : files e with
    | none => exact ⟨0, fun _ _ _ h => nomatch h⟩
    | some fs =>
      obtain ⟨N, hN⟩ := mapFields_calm_of (files := files) (ord := ord) (l := fs) fun e' tag' he' => ih e' ⟨fs, hf, tag', he'⟩
      exact ⟨N, fun n hn fs' h' => by cases h'; exact hN n hn⟩

end conversion

/-- Whatever the generated struct, the structs around it and the Avro structs: if the Avro types are not circular and no struct embeds itself, then the conversion
to Avro is written or an error is returned; the generator neither panics nor goes on for ever. -/
theorem C92_avro_partial {d : Decls} {files : Str → Option (List GoField)} {ord : GMap GoField → GMap GoField} {l afs : List GoField}
    (hl : ∀ e tag, GoField.mk none (.ident e) tag ∈ l → Acc (Spec.EmbeddedIn files) e) (ha : ∀ f ∈ afs, Acc (Spec.AvroPart d) f.type) :
    ∃ N, ∀ n, N ≤ n → mapStruct d files ord n l afs ≠ .panic := by
  obtain ⟨N, hN⟩ := mapFields_calm (ord := ord) hl
  obtain ⟨M, hM⟩ := bound_all (P := fun (f : GoField) n => ∀ name pre g, fieldValue d n name pre f.type g ≠ .panic) afs fun f hf => fieldValue_calm (ha f hf)
  exact ⟨max N M, fun n hn => Res.calm_bind' (hN n (by omega)) fun m _ => genFields_calm (hM n (by omega))⟩

section schema
/-- A result that is neither an error nor a panic. -/
def Res.Fine {α : Type} (x : Res α) : Prop := ∃ a, x = .ok a

theorem Res.fine_bind {α β : Type} {x : Res α} {f : α → Res β} (hx : Res.Fine x) (hf : ∀ a, x = .ok a → Res.Fine (f a)) : Res.Fine (x.bind f) := by
  obtain ⟨a, rfl⟩ := hx
  exact hf a rfl

variable {w : World}

theorem fieldLoop_calm {ty : TypeFn} {fields : FieldsFn} {exf ns fm : List Str} :
    ∀ {l : List GoField} {seen : List Str}, (∀ f ∈ l, f.name ≠ none → ∀ ns seen name nl, Res.Fine (ty ns seen f.type name nl)) →
      (∀ f ∈ l, ∀ e, f.type = .ident e → ∀ fs, w.files e = some fs → ∀ exf ns seen, Res.Fine (fields exf ns fs seen)) →
      Res.Fine (fieldLoop w ty fields exf ns fm l seen)
  | [], _, _, _ => ⟨_, rfl⟩
  | f :: t, seen, h1, h2 => by
    refine Res.fine_bind ?_ fun _ _ => Res.fine_bind (fieldLoop_calm (fun f hf => h1 f (by simp [hf])) fun f hf => h2 f (by simp [hf])) fun _ _ => ⟨_, rfl⟩
    obtain ⟨k, t', tag⟩ := f
    cases k with
    | some k =>
      rw [oneField]
      split
      · exact ⟨_, rfl⟩
      · exact Res.fine_bind (h1 (GoField.mk (some k) t' tag) (by simp) (by simp [GoField.name]) _ _ _ _) fun _ _ => ⟨_, rfl⟩
    | none =>
      cases t' with
      | ident e =>
        rw [oneField]
        split
        · exact ⟨_, rfl⟩
        · refine Res.fine_bind ?_ fun _ _ => ⟨_, rfl⟩
          unfold embedText
          split
          · exact ⟨_, rfl⟩
          · exact Res.fine_bind (h2 (.mk none (.ident e) tag) (by simp) e rfl _ (by assumption) _ _ _) fun _ _ => ⟨_, rfl⟩
      | _ => exact ⟨_, rfl⟩

/-- The text of the type ends, also as the type of an embedded field. -/
def Calms (w : World) (ty : GoType) (n : Nat) : Prop :=
  (∀ ns seen name nl, Res.Fine (avroType w n ns seen ty name nl)) ∧
    ∀ e, ty = .ident e → ∀ fs, w.files e = some fs → ∀ exf ns seen, Res.Fine (avroFields w n exf ns fs seen)

theorem avroFields_calm {l : List GoField} (h : ∀ f ∈ l, ∃ N, ∀ n, N ≤ n → Calms w f.type n) :
    ∃ N, ∀ n, N ≤ n → ∀ exf ns seen, Res.Fine (avroFields w n exf ns l seen) := by
  obtain ⟨N, hN⟩ := bound_all (P := fun (f : GoField) n => Calms w f.type n) l h
  refine ⟨N + 1, fun n hn exf ns seen => ?_⟩
  obtain ⟨n, rfl⟩ : ∃ k, n = k + 1 := ⟨n - 1, by omega⟩
  unfold avroFields
  exact fieldLoop_calm (fun f hf _ => (hN n (by omega) f hf).1) fun f hf => (hN n (by omega) f hf).2

theorem avroType_calm {ty : GoType} (h : Acc (Spec.GoPart w) ty) : ∃ N, ∀ n, N ≤ n → Calms w ty n := by
  induction h with
  | intro ty _ ih =>
    cases ty with
    | star x =>
      obtain ⟨N, hN⟩ := ih x (.star x)
      refine ⟨N + 1, fun n hn => ⟨fun ns seen name nl => ?_, fun _ h => nomatch h⟩⟩
      obtain ⟨n, rfl⟩ : ∃ k, n = k + 1 := ⟨n - 1, by omega⟩
      exact (hN n (by omega)).1 _ _ _ _
    | map k v =>
      obtain ⟨N, hN⟩ := ih k (.key k v)
      obtain ⟨M, hM⟩ := ih v (.val k v)
      refine ⟨max N M + 1, fun n hn => ⟨fun ns seen name nl => ?_, fun _ h => nomatch h⟩⟩
      obtain ⟨n, rfl⟩ : ∃ k, n = k + 1 := ⟨n - 1, by omega⟩
      exact Res.fine_bind ((hN n (by omega)).1 _ _ _ _) fun _ _ => Res.fine_bind ((hM n (by omega)).1 _ _ _ _) fun _ _ => ⟨_, rfl⟩
    | array e =>
      obtain ⟨N, hN⟩ := ih e (.array e)
      refine ⟨N + 1, fun n hn => ⟨fun ns seen name nl => ?_, fun _ h => nomatch h⟩⟩
      obtain ⟨n, rfl⟩ : ∃ k, n = k + 1 := ⟨n - 1, by omega⟩
      exact Res.fine_bind ((hN n (by omega)).1 _ _ _ _) fun _ _ => ⟨_, rfl⟩
    | struct fs =>
      obtain ⟨N, hN⟩ := avroFields_calm (w := w) (l := fs) fun f hf => ih _ (.field hf)
      refine ⟨N + 1, fun n hn => ⟨fun ns seen name nl => ?_, fun _ h => nomatch h⟩⟩
      obtain ⟨n, rfl⟩ : ∃ k, n = k + 1 := ⟨n - 1, by omega⟩
      exact Res.fine_bind (hN n (by omega) _ _ _) fun _ _ => ⟨_, rfl⟩
    | selector s => exact ⟨1, fun n hn => ⟨fun ns seen name nl => (by obtain ⟨n, rfl⟩ : ∃ k, n = k + 1 := ⟨n - 1, by omega⟩; exact ⟨_, rfl⟩), fun _ h => nomatch h⟩⟩
    | other s => exact ⟨1, fun n hn => ⟨fun ns seen name nl => (by obtain ⟨n, rfl⟩ : ∃ k, n = k + 1 := ⟨n - 1, by omega⟩; exact ⟨_, rfl⟩), fun _ h => nomatch h⟩⟩
    | ident t =>
      have h1 : ∃ N, ∀ n, N ≤ n → ∀ fs, w.pkg t = some fs → ∀ exf ns seen, Res.Fine (avroFields w n exf ns fs seen) := by
        cases hp : w.pkg t with
        | none => exact ⟨0, fun _ _ _ h => nomatch h⟩
        | some fs =>
          obtain ⟨N, hN⟩ := avroFields_calm (w := w) (l := fs) fun f hf => ih _ (.named hp hf)
          exact ⟨N, fun n hn _ he => by cases he; exact hN n hn⟩
      have h2 : ∃ N, ∀ n, N ≤ n → ∀ fs, w.files t = some fs → ∀ exf ns seen, Res.Fine (avroFields w n exf ns fs seen) := by
        cases hp : w.files t with
        | none => exact ⟨0, fun _ _ _ h => nomatch h⟩
        | some fs =>
          obtain ⟨N, hN⟩ := avroFields_calm (w := w) (l := fs) fun f hf => ih _ (.embedded hp hf)
          exact ⟨N, fun n hn _ he => by cases he; exact hN n hn⟩
      obtain ⟨N, hN⟩ := h1
      obtain ⟨M, hM⟩ := h2
      refine ⟨max N M + 1, fun n hn => ⟨fun ns seen name nl => ?_, fun e he fs hfs => by cases he; exact hM n (by omega) fs hfs⟩⟩
      obtain ⟨n, rfl⟩ : ∃ k, n = k + 1 := ⟨n - 1, by omega⟩
      unfold avroType
      dsimp only
      split
      · exact ⟨_, rfl⟩
      · split
        · exact ⟨_, rfl⟩
        · exact Res.fine_bind (hN n (by omega) _ (by assumption) _ _ _) fun _ _ => ⟨_, rfl⟩

end schema

/-- Whatever the generated struct and the structs around it: if they are not circular then the Avro schema is written, for any types of fields; the generator neither
panics nor returns an error. -/
theorem C92_schema_partial {w : World} {l : List GoField} (h : ∀ f ∈ l, Acc (Spec.GoPart w) f.type) (name : Str) :
    ∃ N, ∀ n, N ≤ n → ∃ txt, avroSchema w n name l = .ok txt := by
  obtain ⟨N, hN⟩ := avroFields_calm (w := w) fun f hf => avroType_calm (h f hf)
  exact ⟨N, fun n hn => Res.fine_bind (hN n hn _ _ _) fun _ _ => ⟨_, rfl⟩⟩

/-! ### The hypotheses are met, and needed -/

namespace C92avro
open C75ex

theorem acc_star {d : Decls} {x : GoType} (h : Acc (Spec.AvroPart d) x) : Acc (Spec.AvroPart d) (.star x) := .intro _ fun _ h' => by cases h'; exact h

theorem acc_array {d : Decls} {x : GoType} (h : Acc (Spec.AvroPart d) x) : Acc (Spec.AvroPart d) (.array x) := .intro _ fun _ h' => by cases h'; exact h

theorem acc_map {d : Decls} {k x : GoType} (h : Acc (Spec.AvroPart d) x) : Acc (Spec.AvroPart d) (.map k x) := .intro _ fun _ h' => by cases h'; exact h

theorem acc_ident {d : Decls} {t : Str} (h1 : ∀ fs, d.avro t = some fs → ∀ f ∈ fs, Acc (Spec.AvroPart d) f.type)
    (h2 : ∀ r fs, t = g!"UnionNull" ++ r → d.avro r = some fs → ∀ f ∈ fs, Acc (Spec.AvroPart d) f.type) : Acc (Spec.AvroPart d) (.ident t) := by
  refine .intro _ fun y hy => ?_
  generalize hi : GoType.ident t = ti at hy
  cases hy with
  | record ha hf => cases hi; exact h1 _ ha _ hf
  | union ha hf => cases hi; exact h2 _ _ rfl ha _ hf
  | star => cases hi
  | map => cases hi
  | array => cases hi

/-- A name which is neither a record nor a union. -/
theorem acc_leaf {t : Str} (h1 : decls.avro t = none) (h2 : decls.avro (t.drop 9) = none) : Acc (Spec.AvroPart decls) (.ident t) := by
  refine acc_ident (fun fs h => by rw [h1] at h; cases h) fun r fs hr h => ?_
  subst hr
  rw [show (g!"UnionNull" ++ r).drop 9 = r from by simp, h] at h2
  cases h2

theorem acc_record {t : Str} (h : t ∈ [g!"By_record", g!"Place_record", g!"Items_record"]) : ∀ fs, decls.avro t = some fs → ∀ f ∈ fs, Acc (Spec.AvroPart decls) f.type := by
  intro fs hfs g hg
  simp only [List.mem_cons, List.not_mem_nil, or_false] at h
  rcases h with rfl | rfl | rfl <;> cases hfs <;> simp only [List.mem_cons, List.not_mem_nil, or_false] at hg
  · rcases hg with rfl | rfl <;> exact acc_star (acc_leaf rfl rfl)
  · subst hg; exact acc_star (acc_leaf rfl rfl)
  · rcases hg with rfl | rfl
    · exact acc_leaf rfl rfl
    · exact acc_star (acc_leaf rfl rfl)

theorem acc_msg : ∀ f ∈ msgAvro, Acc (Spec.AvroPart decls) f.type := by
  have hby : Acc (Spec.AvroPart decls) (.ident g!"By_record") := acc_ident (acc_record (by decide)) fun r fs hr => by cases hr
  intro f hf
  simp only [msgAvro, metas, List.cons_append, List.nil_append, List.mem_cons, List.not_mem_nil, or_false] at hf
  rcases hf with rfl | rfl | rfl | rfl | rfl | rfl | rfl | rfl | rfl | rfl | rfl | rfl | rfl
  · exact acc_leaf rfl rfl
  · exact acc_leaf rfl rfl
  · exact acc_leaf rfl rfl
  · exact acc_leaf rfl rfl
  · exact acc_star (acc_leaf rfl rfl)
  · exact acc_star (acc_leaf rfl rfl)
  · exact acc_array (acc_leaf rfl rfl)
  · exact acc_array (acc_leaf rfl rfl)
  · refine acc_star (acc_ident (fun fs h => by cases h) fun r fs hr h => ?_)
    rw [show r = g!"By_record" from (List.append_cancel_left (show g!"UnionNull" ++ g!"By_record" = g!"UnionNull" ++ r from hr)).symm] at h
    exact acc_record (by decide) _ h
  · exact acc_star (acc_ident (acc_record (by decide)) fun r fs hr => by cases hr)
  · exact acc_array (acc_star (acc_ident (acc_record (by decide)) fun r fs hr => by cases hr))
  · exact acc_array (acc_star hby)
  · exact acc_map (acc_leaf rfl rfl)

/-- The struct of C75 with a field of almost every kind. -/
example : ∃ N, ∀ n, N ≤ n → mapStruct decls (fun _ => none) id n msg msgAvro ≠ .panic :=
  C92_avro_partial (fun e tag _ => .intro _ fun _ ⟨_, h, _⟩ => nomatch h) acc_msg

/-- An Avro struct `T` with a field that is a pointer to `T`. -/
def ring : Decls := { gen := fun _ => some [f g!"A" (.star (.ident g!"T"))], avro := fun n => if n = g!"T" then some [f g!"A" (.star (.ident g!"T"))] else none }

theorem ring_panics (n : Nat) : ∀ pre g, g.type = .star (.ident g!"T") → fieldValue ring n g!"A" pre (.star (.ident g!"T")) g = .panic := by
  induction n using Nat.strongRecOn with
  | _ n ih =>
    intro pre g hg
    match n with
    | 0 => rfl
    | 1 => rfl
    | n + 2 =>
      have hm : GMap.get g!"A" (GMap.set (fieldKey g!"A") (f g!"A" (.star (.ident g!"T"))) []) = some (f g!"A" (.star (.ident g!"T"))) := GMap.get_set_self ..
      have h1 : namedValue ring (fieldValue ring n) g!"A" pre g!"T" g = structValue ring (fieldValue ring n) g!"A" pre g!"T" g := rfl
      have h2 : structValue ring (fieldValue ring n) g!"A" pre g!"T" g = .panic := by
        unfold structValue
        rw [show ring.avro g!"T" = some [f g!"A" (.star (.ident g!"T"))] from rfl]
        simp only [hg]
        have h3 : genFields (fieldValue ring n) (pre ++ [g!"A"]) (GMap.set (fieldKey g!"A") (f g!"A" (.star (.ident g!"T"))) []) [f g!"A" (.star (.ident g!"T"))] = .panic := by
          rw [f, genFields, if_neg (by decide)]
          have hm' := hm
          rw [f] at hm'
          rw [hm']
          simp only [ih n (by omega) _ (GoField.mk (some g!"A") (.star (.ident g!"T")) {}) rfl, Res.bind]
        exact congrArg (fun x => Res.bind (Res.bind x _) _) h3
      simp only [fieldValue, h1, h2, Res.bind]

/-- Avro types that are circular are not written, whatever the depth. -/
example : ∀ n pre, fieldValue ring n g!"A" pre (.star (.ident g!"T")) (f g!"A" (.star (.ident g!"T"))) = .panic := fun n pre => ring_panics n pre _ rfl

end C92avro

namespace C92schema
open C58ex

variable {w : World}

theorem acc_leaf {t : Str} (h1 : world.pkg t = none) (h2 : world.files t = none) : Acc (Spec.GoPart world) (.ident t) :=
  .intro _ fun _ h => by
    generalize hi : GoType.ident t = ti at h
    cases h with
    | named h _ => cases hi; rw [h1] at h; cases h
    | embedded h _ => cases hi; rw [h2] at h; cases h
    | _ => cases hi

theorem acc_fields : ∀ f ∈ fields, Acc (Spec.GoPart world) f.type := by
  have hs : Acc (Spec.GoPart world) (.ident g!"string") := acc_leaf rfl rfl
  intro f hf
  simp only [fields, List.mem_cons, List.not_mem_nil, or_false] at hf
  rcases hf with rfl | rfl | rfl | rfl
  · refine .intro _ fun _ h => ?_
    generalize hi : (emb g!"Base").type = ti at h
    cases h with
    | named h _ => cases hi; cases h
    | embedded h hf =>
      cases hi; cases h
      simp only [List.mem_cons, List.not_mem_nil, or_false] at hf
      rcases hf with rfl | rfl <;> exact hs
    | _ => cases hi
  · refine .intro _ fun _ h => ?_
    cases h
    refine .intro _ fun _ h => ?_
    generalize hi : GoType.ident g!"Item" = ti at h
    cases h with
    | embedded h _ => cases hi; cases h
    | named h hf =>
      cases hi; cases h
      simp only [List.mem_cons, List.not_mem_nil, or_false] at hf
      subst hf
      exact .intro _ fun _ h => by cases h; exact hs
    | _ => cases hi
  · exact .intro _ fun _ h => nomatch h
  · refine .intro _ fun _ h => ?_
    cases h with
    | field hf =>
      simp only [List.mem_cons, List.not_mem_nil, or_false] at hf
      rcases hf with rfl | rfl
      · exact hs
      · refine .intro _ fun _ h => ?_
        cases h with
        | key => exact hs
        | val => exact acc_leaf rfl rfl

/-- The struct of C58 with an embedded and a named struct. -/
example : ∃ N, ∀ n, N ≤ n → ∃ txt, avroSchema world n g!"Root" fields = .ok txt := C92_schema_partial acc_fields _

end C92schema

end JT.Go
