import Verif.Proofs.AvroMap
import Verif.Proofs.Build
/- C75: the generated conversion to the Avro struct compiles and carries the values over. -/
namespace JT.Go
open Spec

/-! ### Specification -/

/-- The fields of the generated struct and of the Avro struct go together: the selector `z.k` denotes a field for every Avro field `k` that is not written by the template,
no other field has its key, its name is not reserved, and the type in the Avro struct is the one for its type.  `L` are the lists of structs in it. -/
structure Spec.Pair (d : Decls) (files : Str → Option (List GoField)) (l afs : List GoField) (L : List ListOf) : Prop where
  flat : Spec.Flat files
  named : ∀ f ∈ afs, f.name ≠ none
  nodup : (afs.map GoField.name).Nodup
  found : ∃ (Ls : Str → List ListOf) (ks : List Str), FieldNames afs ks ∧ L.Perm (ks.flatMap Ls) ∧ ∀ k a tag, GoField.mk (some k) a tag ∈ afs → ¬ Meta k →
    k ∉ Spec.methods ∧ Spec.KeyOnly files l k ∧ ∃ f, Spec.Selects files l k f ∧ Fits d false f.type a (Ls k)

/-- The types of the selectors of the generated struct. -/
def Spec.fieldType (files : Str → Option (List GoField)) (l : List GoField) (k : Str) (t : GoType) : Prop :=
  ∃ f, Spec.Selects files l k f ∧ f.type = t

/-- Values for all selectors of the generated struct. -/
def Spec.Message (d : Decls) (files : Str → Option (List GoField)) (l : List GoField) (vals : List (Str × GV)) : Prop :=
  ∀ k t, Spec.fieldType files l k t → ∃ v, GMap.get k vals = some v ∧ Val d t v

/-! ### Proof -/

variable {d : Decls} {files : Str → Option (List GoField)} {ord : GMap GoField → GMap GoField}

theorem mapLoop_mono {rec rec' : List GoField → Res (GMap GoField)} (hr : ∀ fs m, rec fs = .ok m → rec' fs = .ok m) :
    ∀ (l : List GoField) (m r : GMap GoField), mapLoop files ord rec l m = .ok r → mapLoop files ord rec' l m = .ok r := by
  intro l
  induction l with
  | nil => intro m r h; exact h
  | cons f t ih =>
    intro m r h
    obtain ⟨n, ty, tg⟩ := f
    cases n with
    | some k => exact ih _ r h
    | none =>
      cases ty with
      | ident e =>
        rw [mapLoop] at h ⊢
        cases hf : files e with
        | none => simp [hf] at h
        | some fs =>
          simp only [hf] at h ⊢
          obtain ⟨em, h1, h2⟩ := Res.bind_eq_ok.mp h
          rw [hr fs em h1]
          exact ih _ r h2
      | _ => exact ih m r h

theorem mapFields_mono : ∀ {n k : Nat} {l : List GoField} {m : GMap GoField}, mapFields files ord n l = .ok m → n ≤ k → mapFields files ord k l = .ok m
  | 0, _, _, _, h, _ => by cases h
  | n + 1, 0, _, _, _, hk => by omega
  | n + 1, k + 1, l, m, h, hk => mapLoop_mono (fun _ _ h' => mapFields_mono h' (by omega)) l [] m h

/-- The selected field has the name. -/
theorem selects_name {l : List GoField} {k : Str} {f : GoField} (h : Spec.Selects files l k f) : f.name = some k := by
  obtain ⟨e, hp, hx⟩ := h
  clear hx
  induction hp with
  | own _ hn => exact hn
  | via _ _ _ ih => exact ih

theorem selects_unique {l : List GoField} {k : Str} {f g : GoField} (hf : Spec.Selects files l k f) (hg : Spec.Selects files l k g) : f = g := by
  obtain ⟨a, h1, h2, h3⟩ := hf
  obtain ⟨b, h4, h5, h6⟩ := hg
  rcases Nat.lt_trichotomy a b with h | h | h
  · exact absurd h1 (h5 a h f)
  · subst h; exact h6 f h1
  · exact absurd h4 (h2 b h g)

/-- Whatever the structs: if each Avro field has its field in the generated struct, with the type that belongs to it, then the conversion is generated; and if no
two lists of structs in the message have the same structs and record, it compiles and gives for every message, in which no list of pointers to structs has a nil entry, a record with the write
time and one field for every field of the Avro struct that is not metadata, which represents the value of the field of the message of that name. -/
theorem C75_partial (hord : ∀ m, (ord m).Perm m) {l afs : List GoField} {n0 : Nat} {m : GMap GoField} (hm : mapFields files ord n0 l = .ok m)
    {L : List ListOf} (hp : Spec.Pair d files l afs L) {name : Str} (ha : d.avro name = some afs) :
    ∃ N, ∀ n, N ≤ n → ∃ fl fns, mapStruct d files ord n l afs = .ok (fl, fns) ∧ (fns.map SliceFn.name).Perm (L.map fnName) ∧ ((L.map fnName).Nodup →
      Compiles d (Spec.fieldType files l) name fns fl ∧
      ∀ vals aTime, Spec.Message d files l vals → ∃ gs, convertToAvro aTime name fns fl (.ptr (.struct vals)) = some (.ptr (.record name ((g!"AvroWriteTime", .int aTime) :: gs))) ∧
        FieldNames afs (gs.map Prod.fst) ∧ ∀ k a, (k, a) ∈ gs → ∃ v, GMap.get k vals = some v ∧ Spec.Conv d v a) := by
  obtain ⟨Ls, ks, hks, hL, hfound⟩ := hp.found
  have hex : ∀ k, ∃ t, ∀ f, Spec.Selects files l k f → f.type = t := fun k => by
    by_cases h : ∃ f, Spec.Selects files l k f
    · obtain ⟨f, hf⟩ := h
      exact ⟨f.type, fun g hg => by rw [selects_unique hf hg]⟩
    · exact ⟨.ident [], fun f hf => absurd ⟨f, hf⟩ h⟩
  obtain ⟨ty, hty⟩ := Classical.axiomOfChoice hex
  have hsel : ∀ k a tag, GoField.mk (some k) a tag ∈ afs → ¬ Meta k → Spec.fieldType files l k (ty k) := fun k a tag hk hM => by
    obtain ⟨_, _, f, hf, _⟩ := hfound k a tag hk hM
    exact ⟨f, hf, hty k f hf⟩
  obtain ⟨N, hN⟩ := genFields_ok (d := d) (ty := ty) (Ls := Ls) (m := m) afs hp.named
    (fun k a tag hk hM => by
      obtain ⟨hi, hko, f, hf, _⟩ := hfound k a tag hk hM
      have hg := C68_partial hord hm hp.flat hko hf
      rw [Spec.key, if_neg hi] at hg
      have hn := selects_name hf
      obtain ⟨nm, t, tg⟩ := f
      simp only [GoField.name] at hn
      subst hn
      exact ⟨tg, by rw [hg, ← hty k _ hf]; rfl⟩)
    fun k a tag hk hM => by
      obtain ⟨_, _, f, hf, hfit⟩ := hfound k a tag hk hM
      rw [← hty k f hf]
      exact fitsOk hfit
  refine ⟨max N n0, fun n hn => ?_⟩
  obtain ⟨fl, fns, hg, hl1, hl2, hpm, hl3⟩ := hN n (by omega) []
  refine ⟨fl, fns, by simp only [mapStruct, mapFields_mono hm (by omega : n0 ≤ n), Res.bind, hg], hpm.trans (fieldNames_perm hp.nodup hks hL), fun hnd => ?_⟩
  replace hnd := (hpm.trans (fieldNames_perm hp.nodup hks hL)).nodup_iff.mpr hnd
  refine ⟨⟨?_, ?_⟩, fun vals aTime hvals => ?_⟩
  · intro x g y hxy
    obtain ⟨e, he, _, _, hT⟩ := hl2 x g y hxy
    refine ⟨fun h hh heq => ?_, e, he, hT _ fun h hh e' he' => ⟨h, hh, rfl, he', rfl⟩⟩
    rw [hxy, List.map_append, List.map_cons] at hnd
    exact (List.nodup_append.mp hnd).2.2 _ (List.mem_map.mpr ⟨h, hh, rfl⟩) _ (List.mem_cons_self ..) heq
  · have hex : ∀ k, ∃ a, ∀ b tag, GoField.mk (some k) b tag ∈ afs → a = b := fun k => by
      by_cases h : ∃ b tag, GoField.mk (some k) b tag ∈ afs
      · obtain ⟨b, tag, hb⟩ := h
        exact ⟨b, fun b' tag' hb' => type_of_name hp.nodup hb hb'⟩
      · exact ⟨.ident [], fun b tag hb => absurd ⟨b, tag, hb⟩ h⟩
    obtain ⟨aty, haty⟩ := Classical.axiomOfChoice hex
    have hmem : ∀ k c, (k, c) ∈ fl → ¬ Meta k ∧ ∃ t tag, GoField.mk (some k) t tag ∈ afs := fun k c hkc =>
      mem_ownNames.mp (hl1 ▸ List.mem_map.mpr ⟨_, hkc, rfl⟩)
    refine .lit aty ha (by rw [hl1]; exact nodup_ownNames hp.nodup) (fun k c hkc => ?_) fun k c hkc => ?_
    · obtain ⟨_, a, tag, hk⟩ := hmem k c hkc
      exact ⟨tag, by rw [haty k a tag hk]; exact hk⟩
    · obtain ⟨a, tag, hk, _, hT⟩ := hl3 k c hkc
      rw [haty k a tag hk]
      exact hT _ _ (fun h hh e' he' => ⟨h, hh, rfl, he', rfl⟩) (.one (hsel k a tag hk (hmem k c hkc).1))
  · have hfn : ∀ g ∈ fns, FnOk d (funs fns.reverse) g := fun g hgm =>
      Fns.funs fns.reverse (by rw [List.reverse_reverse]; exact hl2)
        (by rw [List.map_reverse]; exact List.pairwise_reverse.mpr (hnd.imp fun h => h.symm)) g (List.mem_reverse.mpr hgm)
    obtain ⟨gs, he, hk, hP⟩ := evalFields_ok (env := funs fns.reverse) (z := .ptr (.struct vals)) (fl := fl)
        (P := fun k a => ∃ v, GMap.get k vals = some v ∧ Spec.Conv d v a) fun k c hkc => by
      obtain ⟨hM, a, tag, hka⟩ := mem_ownNames.mp (hl1 ▸ List.mem_map.mpr ⟨_, hkc, rfl⟩ : k ∈ ownNames afs)
      obtain ⟨v, hv, hvt⟩ := hvals k _ (hsel k a tag hka hM)
      obtain ⟨_, _, _, hev, _⟩ := hl3 k c hkc
      obtain ⟨x, hx, hc⟩ := hev _ (.ptr (.struct vals)) v hfn hv hvt
      exact ⟨x, hx, v, hv, hc⟩
    refine ⟨gs, by rw [convertToAvro, he]; rfl; simp, ?_, hP⟩
    rw [hk, hl1]
    exact fieldNames_own hp.nodup

/-- The record of a message that is nil: only the write time and the mark that it is deleted. -/
theorem C75_nil (aTime : Int) (name : Str) (fns : List SliceFn) (fl : List (Str × Code)) :
    convertToAvro aTime name fns fl .nil = some (.ptr (.record name [(g!"AvroWriteTime", .int aTime), (g!"AvroDeleted", .bool true)])) := rfl

/-! ### Structs that embed nothing -/

/-- The own fields are selected. -/
theorem selects_own {l : List GoField} (h : Named l) {k : Str} {t : GoType} {tag : Tag} (hk : .mk (some k) t tag ∈ l) :
    Spec.Selects files l k (.mk (some k) t tag) ∧ Spec.KeyOnly files l k := by
  have hone : ∀ e k' f, Spec.Promoted files l e k' f → f ∈ l ∧ f.name = some k' ∧ e = 0 := fun e k' f hf => by
    cases hf with
    | own h1 h2 => exact ⟨h1, h2, rfl⟩
    | via h1 h2 _ =>
      obtain ⟨x, hx, _⟩ := h.1 _ h1
      rw [h2.1] at hx; cases hx
  have hkey : ∀ k' f, f ∈ l → f.name = some k' → Spec.key k' = k' := fun k' f h1 h2 => by
    obtain ⟨x, hx, hi⟩ := h.1 f h1
    rw [h2] at hx; cases hx
    rw [Spec.key, if_neg hi]
  refine ⟨⟨0, .own hk rfl, fun _ h => absurd h (by omega), fun f hf => ?_⟩, fun e k' f hf he => ?_⟩
  · obtain ⟨h1, h2, _⟩ := hone 0 k f hf
    have : ∀ l : List GoField, (l.map GoField.name).Nodup → f ∈ l → GoField.mk (some k) t tag ∈ l → f = .mk (some k) t tag := by
      intro l
      induction l with
      | nil => intro _ h; cases h
      | cons g l ih =>
        intro hn ha hb
        obtain ⟨h3, h4⟩ := List.nodup_cons.mp hn
        rcases List.mem_cons.mp ha with ha | ha <;> rcases List.mem_cons.mp hb with hb | hb
        · rw [ha, hb]
        · exact absurd (List.mem_map.mpr ⟨_, hb, by rw [← ha, h2]; rfl⟩) h3
        · exact absurd (List.mem_map.mpr ⟨_, ha, by rw [← hb, h2]; rfl⟩) h3
        · exact ih h4 ha hb
    exact this l h.2 h1 hk
  · obtain ⟨h1, h2, _⟩ := hone e k' f hf
    rw [hkey k' f h1 h2, hkey k _ hk rfl] at he
    exact he

/-- For structs that embed nothing it is enough that the fields fit. -/
theorem Spec.Pair.plain {l afs : List GoField} (hl : Named l) (h1 : ∀ f ∈ afs, f.name ≠ none) (h2 : (afs.map GoField.name).Nodup) (Ls : Str → List ListOf) {ks : List Str} (h4 : FieldNames afs ks)
    (h3 : ∀ k a tag, GoField.mk (some k) a tag ∈ afs → ¬ Meta k → ∃ t tg, GoField.mk (some k) t tg ∈ l ∧ Fits d false t a (Ls k)) :
    Spec.Pair d (fun _ => none) l afs (ks.flatMap Ls) where
  flat := fun _ _ h => by cases h
  named := h1
  nodup := h2
  found := ⟨Ls, ks, h4, .refl _, fun k a tag hk hM => by
    obtain ⟨t, tg, hm, hf⟩ := h3 k a tag hk hM
    obtain ⟨hs, hko⟩ := selects_own (files := fun _ => none) hl hm
    obtain ⟨x, hx, hi⟩ := hl.1 _ hm
    cases hx
    exact ⟨hi, hko, _, hs, hf⟩⟩

/-! ### Cases -/

namespace C75ex

def f (k : Str) (t : GoType) : GoField := .mk (some k) t {}
def str : GoType := .ident g!"string"
def metas : List GoField := [f g!"AvroWriteTime" long, f g!"AvroDeleted" (.ident g!"bool")]

def author : List GoField := [f g!"Name" str, f g!"Born" (.star Spec.time)]
def place : List GoField := [f g!"Lat" (.ident g!"float64")]
def item : List GoField := [f g!"N" (.ident g!"int64"), f g!"Label" str]

/-- A generated struct with a field of almost every kind. -/
def msg : List GoField :=
  [f g!"ID" str, f g!"At" Spec.time, f g!"Late" (.star Spec.time), f g!"Title" str, f g!"Tags" (.array str), f g!"Times" (.array (.star Spec.time)),
   f g!"By" (.star (.ident g!"Author")), f g!"Place" (.struct place), f g!"Items" (.array (.struct item)), f g!"All" (.array (.star (.ident g!"Author"))),
   f g!"Notes" (.map str str)]
/-- Its Avro struct. -/
def msgAvro : List GoField := metas ++
  [f g!"ID" str, f g!"At" long, f g!"Late" (.star (.ident g!"UnionNullLong")), f g!"Title" (.star (.ident g!"UnionNullString")), f g!"Tags" (.array str),
   f g!"Times" (.array long), f g!"By" (.star (.ident g!"UnionNullBy_record")), f g!"Place" (.star (.ident g!"Place_record")),
   f g!"Items" (.array (.star (.ident g!"Items_record"))), f g!"All" (.array (.star (.ident g!"By_record"))), f g!"Notes" (.map str str)]

def decls : Decls where
  gen n := if n = g!"Author" then some author else none
  avro n :=
    if n = g!"Msg" then some msgAvro
    else if n = g!"By_record" then some [f g!"Name" (.star (.ident g!"UnionNullString")), f g!"Born" (.star (.ident g!"UnionNullLong"))]
    else if n = g!"Place_record" then some [f g!"Lat" (.star (.ident g!"UnionNullDouble"))]
    else if n = g!"Items_record" then some [f g!"N" long, f g!"Label" (.star (.ident g!"UnionNullString"))]
    else none

theorem recName {r : Str} (h : r.head? ≠ some 'U') (h1 : r ∉ basics) (h2 : r ≠ g!"Double" ∧ r ≠ g!"Long" ∧ r ≠ g!"String") : RecName r := by
  refine ⟨h1, ?_, h2⟩
  rintro ⟨x, rfl⟩
  exact h rfl

theorem fits_author : Fits decls true (.ident g!"Author") (.ident g!"By_record") [] := by
  refine .record (fs := author) (afs := [f g!"Name" (.star (.ident g!"UnionNullString")), f g!"Born" (.star (.ident g!"UnionNullLong"))])
    (fun k => if k = g!"Name" then str else .star Spec.time) (fun _ => []) (.inr ⟨_, rfl, by decide, rfl⟩) ?_ (recName (by decide) (by decide) (by decide)) rfl ?_ (by decide) ?_ ?_ (fieldNames_own (by decide)) (.refl _)
  · exact ⟨by simp [author, f, GoField.name, Spec.methods], by decide⟩
  · simp [f, GoField.name]
  · intro k a tag hk _
    simp only [f, List.mem_cons, GoField.mk.injEq, Option.some.injEq, List.not_mem_nil, or_false] at hk
    rcases hk with ⟨rfl, rfl, rfl⟩ | ⟨rfl, rfl, rfl⟩ <;> exact ⟨{}, by simp [author, f]⟩
  · intro k a tag hk _
    simp only [f, List.mem_cons, GoField.mk.injEq, Option.some.injEq, List.not_mem_nil, or_false] at hk
    rcases hk with ⟨rfl, rfl, rfl⟩ | ⟨rfl, rfl, rfl⟩
    · exact .optional (m := g!"String") (by decide)
    · exact .ptrTime

theorem fits_place : Fits decls true (.struct place) (.ident g!"Place_record") [] := by
  refine .record (fs := place) (afs := [f g!"Lat" (.star (.ident g!"UnionNullDouble"))])
    (fun _ => .ident g!"float64") (fun _ => []) (.inl rfl) ?_ (recName (by decide) (by decide) (by decide)) rfl ?_ (by decide) ?_ ?_ (fieldNames_own (by decide)) (.refl _)
  · exact ⟨by simp [place, f, GoField.name, Spec.methods], by decide⟩
  · simp [f, GoField.name]
  · intro k a tag hk _
    simp only [f, List.mem_cons, GoField.mk.injEq, Option.some.injEq, List.not_mem_nil, or_false] at hk
    obtain ⟨rfl, rfl, rfl⟩ := hk
    exact ⟨{}, by simp [place, f]⟩
  · intro k a tag hk _
    simp only [f, List.mem_cons, GoField.mk.injEq, Option.some.injEq, List.not_mem_nil, or_false] at hk
    obtain ⟨rfl, rfl, rfl⟩ := hk
    exact .optional (m := g!"Double") (by decide)

theorem fits_item : Fits decls true (.struct item) (.ident g!"Items_record") [] := by
  refine .record (fs := item) (afs := [f g!"N" long, f g!"Label" (.star (.ident g!"UnionNullString"))])
    (fun k => if k = g!"N" then .ident g!"int64" else str) (fun _ => []) (.inl rfl) ?_ (recName (by decide) (by decide) (by decide)) rfl ?_ (by decide) ?_ ?_ (fieldNames_own (by decide)) (.refl _)
  · exact ⟨by simp [item, f, GoField.name, Spec.methods], by decide⟩
  · simp [f, GoField.name]
  · intro k a tag hk _
    simp only [f, List.mem_cons, GoField.mk.injEq, Option.some.injEq, List.not_mem_nil, or_false] at hk
    rcases hk with ⟨rfl, rfl, rfl⟩ | ⟨rfl, rfl, rfl⟩ <;> exact ⟨{}, by simp [item, f]⟩
  · intro k a tag hk _
    simp only [f, List.mem_cons, GoField.mk.injEq, Option.some.injEq, List.not_mem_nil, or_false] at hk
    rcases hk with ⟨rfl, rfl, rfl⟩ | ⟨rfl, rfl, rfl⟩
    · exact .same (by decide)
    · exact .optional (m := g!"String") (by decide)

/-- The lists of structs in the fields. -/
def lists (k : Str) : List ListOf :=
  if k = g!"Items" then [(none, g!"Items_record")] else if k = g!"All" then [(some g!"Author", g!"By_record")] else []

theorem pair : Spec.Pair decls (fun _ => none) msg msgAvro ((ownNames msgAvro).flatMap lists) := by
  refine .plain ⟨by simp [msg, f, GoField.name, Spec.methods], by decide⟩ (by simp [msgAvro, metas, f, GoField.name]) (by decide) lists (fieldNames_own (by decide)) ?_
  intro k a tag hk hM
  simp only [msgAvro, metas, f, List.mem_cons, List.mem_append, GoField.mk.injEq, Option.some.injEq, List.not_mem_nil, or_false] at hk
  have hmem : ∀ t, f k t ∈ msg → Fits decls false t a (lists k) → ∃ t tg, GoField.mk (some k) t tg ∈ msg ∧ Fits decls false t a (lists k) := fun t h1 h2 => ⟨t, {}, h1, h2⟩
  rcases hk with (⟨rfl, rfl, rfl⟩ | ⟨rfl, rfl, rfl⟩) | ⟨rfl, rfl, rfl⟩ | ⟨rfl, rfl, rfl⟩ | ⟨rfl, rfl, rfl⟩ | ⟨rfl, rfl, rfl⟩ | ⟨rfl, rfl, rfl⟩ | ⟨rfl, rfl, rfl⟩ |
    ⟨rfl, rfl, rfl⟩ | ⟨rfl, rfl, rfl⟩ | ⟨rfl, rfl, rfl⟩ | ⟨rfl, rfl, rfl⟩ | ⟨rfl, rfl, rfl⟩
  · exact absurd ⟨g!"WriteTime", rfl⟩ hM
  · exact absurd ⟨g!"Deleted", rfl⟩ hM
  · exact hmem str (by simp [msg]) (.same (by decide))
  · exact hmem Spec.time (by simp [msg]) .time
  · exact hmem (.star Spec.time) (by simp [msg]) .ptrTime
  · exact hmem str (by simp [msg]) (.optional (m := g!"String") (by decide))
  · exact hmem (.array str) (by simp [msg]) (.slice (by decide))
  · exact hmem (.array (.star Spec.time)) (by simp [msg]) .ptrTimes
  · exact hmem (.star (.ident g!"Author")) (by simp [msg]) (.ptrStruct fits_author)
  · exact hmem (.struct place) (by simp [msg]) (.struct fits_place)
  · exact hmem (.array (.struct item)) (by simp [msg]) (.structs fits_item fun fs h => by cases h; exact ⟨by simp, trivial, by simp, trivial, trivial⟩)
  · exact hmem (.array (.star (.ident g!"Author"))) (by simp [msg]) (.ptrStructs fits_author fun fs h => by cases h)
  · exact hmem (.map str str) (by simp [msg]) (.map (by decide))

/-- The local functions. -/
def fnsOf : Res (List (Str × Code) × List SliceFn) → List Str
  | .ok r => r.2.map SliceFn.name
  | _ => []

/-- The hypotheses are met: the fields are found, and the two lists have different structs. -/
example : (((ownNames msgAvro).flatMap lists).map fnName).Nodup ∧ (∃ m, mapFields (fun _ => none) id 1 msg = .ok m) ∧ decls.avro g!"Msg" = some msgAvro ∧
    fnsOf (mapStruct decls (fun _ => none) id 8 msg msgAvro) = [g!"Items_recordSlice", g!"Author_By_recordSlice"] := ⟨by decide, ⟨_, rfl⟩, rfl, by decide +kernel⟩

/-- There are such messages. -/
example : Spec.Message decls (fun _ => none) [f g!"ID" str, f g!"At" Spec.time] [(g!"ID", .str g!"x"), (g!"At", .time ⟨1, 5⟩)] := by
  rintro k t ⟨g, ⟨e, hp, _⟩, rfl⟩
  cases hp with
  | own hm hn =>
    simp only [List.mem_cons, List.not_mem_nil, or_false] at hm
    rcases hm with rfl | rfl <;> cases hn
    · exact ⟨_, rfl, .str⟩
    · exact ⟨_, rfl, .time⟩
  | via _ he _ => obtain ⟨_, _, _, h⟩ := he; cases h

end C75ex

/-! ### Where it fails -/

theorem selT_nil {root : Str → GoType → Prop} {t : GoType} : ¬ SelT d root [] t := by
  intro h
  generalize hp : ([] : List Str) = p at h
  cases h with
  | one _ => cases hp
  | more _ _ => simp at hp

theorem selT_one {root : Str → GoType → Prop} {k : Str} {t : GoType} (h : SelT d root [k] t) : root k t := by
  generalize hp : [k] = p at h
  cases h with
  | one h => cases hp; exact h
  | @more q k' _ _ h1 _ =>
    have : q = [] := by
      cases q with
      | nil => rfl
      | cons x q => simp at hp
    subst this
    exact absurd h1 selT_nil

/-- The types of the fields of a struct with one field that embeds nothing. -/
theorem fieldType_one {k k' : Str} {t u : GoType} {tag : Tag} (h : Spec.fieldType (fun _ => none) [.mk (some k) t tag] k' u) : k' = k ∧ u = t := by
  obtain ⟨g, ⟨e, hp, _⟩, rfl⟩ := h
  cases hp with
  | own hm hn =>
    simp only [List.mem_cons, List.not_mem_nil, or_false] at hm
    subst hm
    cases hn
    exact ⟨rfl, rfl⟩
  | via _ he _ => obtain ⟨_, _, _, h⟩ := he; cases h

/-- In code that compiles the value of each field has the type of the field. -/
theorem Spec.Compiles.field {root : Str → GoType → Prop} {name : Str} {fns : List SliceFn} {fl : List (Str × Code)} (h : Compiles d root name fns fl)
    {afs : List GoField} (ha : d.avro name = some afs) (hn : (afs.map GoField.name).Nodup) {k : Str} {c : Code} (hk : (k, c) ∈ fl) {a : GoType} {tag : Tag}
    (hf : .mk (some k) a tag ∈ afs) : HasType d (sigs fns) root c a := by
  cases h.2 with
  | lit ty h1 _ h3 h4 =>
    rw [ha] at h1; cases h1
    obtain ⟨tag', h5⟩ := h3 k c hk
    rw [type_of_name hn hf h5]
    exact h4 k c hk

namespace C75ex

/-- Structs `M`, `R` of the Avro package and the struct `T` of the generated package. -/
def pkg (gen avro rec : List GoField) : Decls where
  gen n := if n = g!"T" then some gen else none
  avro n := if n = g!"M" then some avro else if n = g!"R" then some rec else none

end C75ex
open C75ex

/-- A nil entry in a list of pointers to structs makes the conversion panic, although everything else is as it should be. -/
theorem C75_refuted_nil : ∃ (d : Decls) (l afs : List GoField) (L : List ListOf) (fl : List (Str × Code)) (fns : List SliceFn) (vals : List (Str × GV)),
    Spec.Pair d (fun _ => none) l afs L ∧ (L.map fnName).Nodup ∧ d.avro g!"M" = some afs ∧ mapStruct d (fun _ => none) id 8 l afs = .ok (fl, fns) ∧
    l = [f g!"X" (.array (.star (.ident g!"T")))] ∧ vals = [(g!"X", .slice [.nil])] ∧ ∀ aTime, convertToAvro aTime g!"M" fns fl (.ptr (.struct vals)) = none := by
  refine ⟨pkg [f g!"A" str] [f g!"X" (.array (.star (.ident g!"R")))] [f g!"A" str], _, [f g!"X" (.array (.star (.ident g!"R")))], _, _, _, _,
    .plain (ks := [g!"X"]) ⟨by simp [f, GoField.name, Spec.methods], by decide⟩ (by simp [f, GoField.name]) (by decide) (fun _ => [(some g!"T", g!"R")])
      (fieldNames_own (afs := [f g!"X" (.array (.star (.ident g!"R")))]) (by decide)) ?_, by decide, rfl, rfl, rfl, rfl, fun _ => rfl⟩
  · show ∀ k a tag, _ → _
    intro k a tag hk hM
    simp only [f, List.mem_cons, GoField.mk.injEq, Option.some.injEq, List.not_mem_nil, or_false] at hk
    obtain ⟨rfl, rfl, rfl⟩ := hk
    refine ⟨_, {}, List.mem_cons_self .., .ptrStructs (L := []) ?_ fun fs h => by cases h⟩
    refine .record (fs := [f g!"A" str]) (afs := [f g!"A" str]) (fun _ => str) (fun _ => []) (.inr ⟨_, rfl, by decide, rfl⟩) ⟨by simp [f, GoField.name, Spec.methods], by decide⟩
      (recName (by decide) (by decide) (by decide)) rfl (by simp [f, GoField.name]) (by decide) ?_ ?_ (fieldNames_own (by decide)) (.refl _)
    · intro k a tag hk _
      simp only [f, List.mem_cons, GoField.mk.injEq, Option.some.injEq, List.not_mem_nil, or_false] at hk
      obtain ⟨rfl, rfl, rfl⟩ := hk
      exact ⟨{}, by simp [f]⟩
    · intro k a tag hk _
      simp only [f, List.mem_cons, GoField.mk.injEq, Option.some.injEq, List.not_mem_nil, or_false] at hk
      obtain ⟨rfl, rfl, rfl⟩ := hk
      exact .same (by decide)

/-- Two lists of the same structs under the same name in different structs: the local function is declared twice, which does not compile. -/
theorem C75_refuted_twice : ∃ (d : Decls) (l afs : List GoField) (fl : List (Str × Code)) (fns : List SliceFn),
    d.avro g!"M" = some afs ∧ mapStruct d (fun _ => none) id 8 l afs = .ok (fl, fns) ∧
    l = [f g!"P" (.struct [f g!"X" (.array (.ident g!"T"))]), f g!"Q" (.struct [f g!"X" (.array (.ident g!"T"))])] ∧
    ∀ root, ¬ Compiles d root g!"M" fns fl := by
  refine ⟨⟨fun n => if n = g!"T" then some [f g!"A" str] else none, fun n =>
      if n = g!"M" then some [f g!"P" (.star (.ident g!"P_record")), f g!"Q" (.star (.ident g!"Q_record"))]
      else if n = g!"X_record" then some [f g!"A" str] else some [f g!"X" (.array (.star (.ident g!"X_record")))]⟩, _,
    [f g!"P" (.star (.ident g!"P_record")), f g!"Q" (.star (.ident g!"Q_record"))], _, _, rfl, rfl, rfl, fun root h => ?_⟩
  have := (h.1 [_] _ [] rfl).1 _ (List.mem_cons_self ..)
  exact this rfl

/-- An optional string that is null in JSON: the pointer is put into the union, which does not compile. -/
theorem C75_refuted_null : ∃ (d : Decls) (l afs : List GoField) (fl : List (Str × Code)) (fns : List SliceFn),
    d.avro g!"M" = some afs ∧ mapStruct d (fun _ => none) id 8 l afs = .ok (fl, fns) ∧
    l = [f g!"X" (.star str)] ∧ afs = [f g!"X" (.star (.ident g!"UnionNullString"))] ∧ ¬ Compiles d (Spec.fieldType (fun _ => none) l) g!"M" fns fl := by
  refine ⟨pkg [] [f g!"X" (.star (.ident g!"UnionNullString"))] [], _, _, _, _, rfl, rfl, rfl, rfl, fun h => ?_⟩
  have h1 := h.field rfl (by decide) (List.mem_cons_self ..) (List.mem_cons_self ..)
  cases h1 with
  | guard _ h2 =>
    cases h2 with
    | addr _ h3 =>
      cases h3 with
      | union hm h4 =>
        cases h4 with
        | field h5 =>
          obtain ⟨_, rfl⟩ := fieldType_one (selT_one h5)
          generalize g!"UnionNullString" = u at hm
          generalize hs : GoType.star str = s at hm
          cases hm with
          | scalar _ => cases hs
          | record =>
            simp only [str, GoType.star.injEq, GoType.ident.injEq] at hs
            revert hs; decide

/-- A property whose exported name starts with `Avro` is taken for metadata: its value is not in the record. -/
theorem C75_refuted_meta : ∃ (d : Decls) (l afs : List GoField) (fl : List (Str × Code)) (fns : List SliceFn),
    d.avro g!"M" = some afs ∧ mapStruct d (fun _ => none) id 8 l afs = .ok (fl, fns) ∧ l = [f g!"Avrocado" str] ∧ afs = [f g!"Avrocado" str] ∧
    ∀ aTime s, convertToAvro aTime g!"M" fns fl (.ptr (.struct [(g!"Avrocado", .str s)])) = some (.ptr (.record g!"M" [(g!"AvroWriteTime", .int aTime)])) :=
  ⟨pkg [] [f g!"Avrocado" str] [], _, _, _, _, rfl, rfl, rfl, rfl, fun _ _ => rfl⟩

/-- An optional field whose name is reserved in the Avro struct: the selector has the name of the Avro field, which does not compile. -/
theorem C75_refuted_reserved : ∃ (d : Decls) (l afs : List GoField) (fl : List (Str × Code)) (fns : List SliceFn),
    d.avro g!"M" = some afs ∧ mapStruct d (fun _ => none) id 8 l afs = .ok (fl, fns) ∧
    l = [f g!"Schema" str] ∧ afs = [f g!"Field_Schema" (.star (.ident g!"UnionNullString"))] ∧ ¬ Compiles d (Spec.fieldType (fun _ => none) l) g!"M" fns fl := by
  refine ⟨pkg [] [f g!"Field_Schema" (.star (.ident g!"UnionNullString"))] [], _, _, _, _, rfl, rfl, rfl, rfl, fun h => ?_⟩
  have h1 := h.field rfl (by decide) (List.mem_cons_self ..) (List.mem_cons_self ..)
  cases h1 with
  | addr _ h3 =>
    cases h3 with
    | union hm h4 =>
      cases h4 with
      | field h5 =>
        have := (fieldType_one (selT_one h5)).1
        revert this; decide

/-- A required struct that may be null: the type of the guarded value has no name, which does not compile. -/
theorem C75_refuted_guard : ∃ (d : Decls) (l afs : List GoField) (fl : List (Str × Code)) (fns : List SliceFn),
    d.avro g!"M" = some afs ∧ mapStruct d (fun _ => none) id 8 l afs = .ok (fl, fns) ∧
    l = [f g!"X" (.star (.struct [f g!"A" str]))] ∧ afs = [f g!"X" (.star (.ident g!"R"))] ∧ ∀ root, ¬ Compiles d root g!"M" fns fl := by
  refine ⟨pkg [] [f g!"X" (.star (.ident g!"R"))] [f g!"A" str], _, _, _, _, rfl, rfl, rfl, rfl, fun root h => ?_⟩
  have h1 := h.field rfl (by decide) (List.mem_cons_self ..) (List.mem_cons_self ..)
  cases h1

/-- A list of structs without a name that have an optional time: the argument of the local function lacks the field, which does not compile. -/
theorem C75_refuted_list : ∃ (d : Decls) (l afs : List GoField) (fl : List (Str × Code)) (fns : List SliceFn),
    d.avro g!"M" = some afs ∧ mapStruct d (fun _ => none) id 8 l afs = .ok (fl, fns) ∧
    l = [f g!"X" (.array (.struct [f g!"At" (.star Spec.time)]))] ∧ afs = [f g!"X" (.array (.star (.ident g!"R")))] ∧
    ¬ Compiles d (Spec.fieldType (fun _ => none) l) g!"M" fns fl := by
  refine ⟨pkg [] [f g!"X" (.array (.star (.ident g!"R")))] [f g!"At" (.star (.ident g!"UnionNullLong"))], _, _, _, _, rfl, rfl, rfl, rfl, fun h => ?_⟩
  have h1 := h.field rfl (by decide) (List.mem_cons_self ..) (List.mem_cons_self ..)
  cases h1 with
  | call hs hp =>
    have h2 := (fieldType_one (selT_one hp)).2
    obtain ⟨g, hg, _, he, _⟩ := hs
    rcases List.mem_singleton.mp hg with rfl
    simp only [GoType.array.injEq] at h2
    subst h2
    cases he

/-- A struct field whose struct embeds another: nothing is generated, although its fields can be selected. -/
theorem C75_refuted_embedded (d : Decls) (fs afs : List GoField) (e : Str) (tag : Tag) (name : Str) (pre : List Str) (r : Str) (ha : d.avro r = some afs) (fv : ValueFn)
    (tg : Tag) (a b : List GoField) (hab : fs = a ++ .mk none (.ident e) tag :: b) : structValue d fv name pre r (.mk (some name) (.struct fs) tg) = .err := by
  have : ∀ (l : List GoField) (m : GMap GoField), ∃ x, mapLoop (fun _ => none) id (mapFields (fun _ => none) id 0) (l ++ .mk none (.ident e) tag :: b) m = x ∧ x = .err := by
    intro l
    induction l with
    | nil => intro m; exact ⟨_, rfl, rfl⟩
    | cons g l ih =>
      intro m
      obtain ⟨n, t, tg⟩ := g
      cases n with
      | some k => exact ih _
      | none =>
        cases t with
        | ident _ => exact ⟨_, rfl, rfl⟩
        | _ => exact ih m
  obtain ⟨x, hx, rfl⟩ := this a []
  have hm : mapFields (fun _ => none) id 1 fs = .err := by rw [hab]; exact hx
  simp only [structValue, ha, GoField.type, childStruct, unstar, childFields, Res.bind, hm]

end JT.Go
