import Verif.Model.AvroWrite
import Verif.Props.C75
/- C78: the methods that write one message to an Avro container file. -/
namespace JT.Go
open Spec

/-! ### Specification -/

/-- The fields of a record behind a pointer. -/
def Spec.fieldsOf : AV → Option (Str × List (Str × AV))
  | .ptr (.record n fs) => some (n, fs)
  | _ => none

/-- The time of writing: the given time, or the current one if none is given. -/
def Spec.WriteTime (now t w : Avro.Time) : Prop :=
  ((t.sec = -62135596800 ∧ t.nsec = 0) ∧ w = now) ∨ (¬ (t.sec = -62135596800 ∧ t.nsec = 0) ∧ w = t)

/-- A record for a message: the write time, the mark for deleted ones, and one field for every field of the Avro struct that is not metadata, which represents the
value of the message. -/
structure Spec.RecordFor (d : Decls) (name : Str) (afs : List GoField) (vals : List (Str × GV)) (w : Avro.Time) (deleted : Bool) (r : AV) : Prop where
  record : ∃ fs, Spec.fieldsOf r = some (name, fs) ∧ (fs.map Prod.fst).Nodup ∧
    GMap.get g!"AvroWriteTime" fs = some (.int (Avro.avroTime w)) ∧
    (GMap.get g!"AvroDeleted" fs = if deleted = true then some (.bool true) else none) ∧
    ∀ k, ¬ Meta k → ((∃ a, GMap.get k fs = some a) ↔ ∃ t tag, GoField.mk (some k) t tag ∈ afs) ∧
      ∀ a, GMap.get k fs = some a → ∃ v, GMap.get k vals = some v ∧ Spec.Conv d v a

/-- What may happen when a record is written: it ends well with the file complete, or there is an error and the file is not complete. -/
inductive Spec.Written (c : Container) (r : AV) : CFEnd × List CFEv → Prop
  | new : c.new = false → Spec.Written c r (.err, [])
  | write : c.new = true → c.write r = false → Spec.Written c r (.err, [.header])
  | flush : c.new = true → c.write r = true → c.flush = false → Spec.Written c r (.err, [.header, .record r])
  | done : c.new = true → c.write r = true → c.flush = true → Spec.Written c r (.ok, [.header, .record r, .flushed])

/-! ### Proof -/

theorem writeTimeOf_spec (now t : Avro.Time) : Spec.WriteTime now t (writeTimeOf now t) := by
  unfold Spec.WriteTime writeTimeOf zeroTime
  by_cases h : t.sec = -62135596800 ∧ t.nsec = 0
  · left; exact ⟨h, by rw [if_pos (by simp [h])]⟩
  · right
    refine ⟨h, if_neg ?_⟩
    simp only [Bool.and_eq_true, decide_eq_true_eq]
    exact h

theorem writeOne_spec {c : Container} {r : AV} (h : c.new = true) : Spec.Written c r (writeOne c r) := by
  unfold writeOne
  cases h1 : c.write r
  · rw [if_pos rfl]; exact .write h h1
  · rw [if_neg (by simp)]
    cases h2 : c.flush
    · rw [if_pos rfl]; exact .flush h h1 h2
    · rw [if_neg (by simp)]; exact .done h h1 h2

theorem get_filter_ne {β : Type} {k k' : Str} (h : k ≠ k') (l : List (Str × β)) : GMap.get k (l.filter fun kv => kv.1 ≠ k') = GMap.get k l := by
  induction l with
  | nil => rfl
  | cons x t ih =>
    obtain ⟨a, b⟩ := x
    by_cases hx : a = k'
    · rw [List.filter_cons_of_neg (by simp [hx]), ih]
      simp only [GMap.get]
      rw [if_neg (by rw [hx]; exact h)]
    · rw [List.filter_cons_of_pos (by simp [hx])]
      simp only [GMap.get, ih]

theorem getA_none {β : Type} {k : Str} {l : List (Str × β)} (h : k ∉ l.map Prod.fst) : GMap.get k l = none := by
  cases hg : GMap.get k l with
  | none => rfl
  | some v => exact absurd (List.mem_map.2 ⟨(k, v), GMap.get_some_mem hg, rfl⟩) h

theorem getA_some {β : Type} {k : Str} {l : List (Str × β)} (h : k ∈ l.map Prod.fst) : ∃ v, GMap.get k l = some v := by
  cases hg : GMap.get k l with
  | some v => exact ⟨v, rfl⟩
  | none =>
    exfalso
    induction l with
    | nil => cases h
    | cons x t ih =>
      obtain ⟨a, b⟩ := x
      simp only [GMap.get] at hg
      split at hg
      · cases hg
      · rename_i hne
        simp only [List.map_cons, List.mem_cons] at h
        exact ih (h.resolve_left hne) hg

theorem getA_append {β : Type} {k : Str} (l r : List (Str × β)) : GMap.get k (l ++ r) = (GMap.get k l).or (GMap.get k r) := by
  induction l with
  | nil => rfl
  | cons x t ih =>
    obtain ⟨a, b⟩ := x
    simp only [List.cons_append, GMap.get]
    split
    · rfl
    · exact ih

theorem meta_deleted : Meta g!"AvroDeleted" := ⟨g!"Deleted", rfl⟩
theorem meta_time : Meta g!"AvroWriteTime" := ⟨g!"WriteTime", rfl⟩

theorem recordFor {d : Decls} {name : Str} {afs : List GoField} {vals : List (Str × GV)} {w : Avro.Time} {gs : List (Str × AV)} (h1 : FieldNames afs (gs.map Prod.fst))
    (h2 : ∀ k a, (k, a) ∈ gs → ∃ v, GMap.get k vals = some v ∧ Spec.Conv d v a) :
    Spec.RecordFor d name afs vals w false (.ptr (.record name ((g!"AvroWriteTime", .int (Avro.avroTime w)) :: gs))) ∧
    Spec.RecordFor d name afs vals w true (setField g!"AvroDeleted" (.bool true) (.ptr (.record name ((g!"AvroWriteTime", .int (Avro.avroTime w)) :: gs)))) := by
  have hno : ∀ k, Meta k → k ∉ gs.map Prod.fst := fun k hk hm => ((h1.2 k).1 hm).1 hk
  have hbody : ∀ k, ¬ Meta k → ((∃ a, GMap.get k gs = some a) ↔ ∃ t tag, GoField.mk (some k) t tag ∈ afs) ∧
      ∀ a, GMap.get k gs = some a → ∃ v, GMap.get k vals = some v ∧ Spec.Conv d v a := by
    intro k hk
    refine ⟨⟨fun ⟨a, ha⟩ => ((h1.2 k).1 (List.mem_map.2 ⟨(k, a), GMap.get_some_mem ha, rfl⟩)).2, fun h => getA_some ((h1.2 k).2 ⟨hk, h⟩)⟩, ?_⟩
    intro a ha
    exact h2 k a (GMap.get_some_mem ha)
  have hw : ∀ k, ¬ Meta k → GMap.get k ((g!"AvroWriteTime", AV.int (Avro.avroTime w)) :: gs) = GMap.get k gs := by
    intro k hk
    simp only [GMap.get]
    rw [if_neg]
    rintro rfl
    exact hk meta_time
  have hnd : (((g!"AvroWriteTime", AV.int (Avro.avroTime w)) :: gs).map Prod.fst).Nodup := by
    rw [List.map_cons, List.nodup_cons]
    exact ⟨hno _ meta_time, h1.1⟩
  have hd : GMap.get g!"AvroDeleted" ((g!"AvroWriteTime", AV.int (Avro.avroTime w)) :: gs) = none := by
    refine getA_none ?_
    rw [List.map_cons, List.mem_cons]
    rintro (h | h)
    · simp at h
    · exact hno _ meta_deleted h
  refine ⟨⟨_, rfl, hnd, by simp [GMap.get], by rw [hd]; rfl, fun k hk => by rw [hw k hk]; exact hbody k hk⟩, ⟨_, rfl, ?_, ?_, ?_, ?_⟩⟩
  · rw [List.map_append, List.nodup_append]
    refine ⟨hnd.sublist (List.Sublist.map _ List.filter_sublist), by simp, ?_⟩
    intro a ha b hb e
    simp only [List.map_cons, List.map_nil, List.mem_singleton] at hb
    subst hb; subst e
    obtain ⟨x, hx, hxe⟩ := List.mem_map.1 ha
    have := (List.mem_filter.1 hx).2
    simp [hxe] at this
  · rw [getA_append, get_filter_ne (by decide)]
    simp [GMap.get]
  · rw [getA_append, getA_none]
    · simp [GMap.get]
    · intro h
      obtain ⟨x, hx, hxe⟩ := List.mem_map.1 h
      have := (List.mem_filter.1 hx).2
      simp [hxe] at this
  · intro k hk
    have hne : k ≠ g!"AvroDeleted" := by rintro rfl; exact hk meta_deleted
    have : GMap.get k (((g!"AvroWriteTime", AV.int (Avro.avroTime w)) :: gs).filter (fun kv => kv.1 ≠ g!"AvroDeleted") ++ [(g!"AvroDeleted", AV.bool true)]) = GMap.get k gs := by
      rw [getA_append, get_filter_ne hne, hw k hk]
      have : GMap.get k [(g!"AvroDeleted", AV.bool true)] = none := by simp [GMap.get, hne]
      rw [this, Option.or_none]
    rw [this]
    exact hbody k hk

theorem resBind_ok {α β : Type} {x : Res α} {f : α → Res β} {b : β} (h : x.bind f = .ok b) : ∃ a, x = .ok a ∧ f a = .ok b := by
  cases x with
  | ok a => exact ⟨a, rfl, h⟩
  | err => cases h
  | panic => cases h

variable {d : Decls} {files : Str → Option (List GoField)} {ord : GMap GoField → GMap GoField}

/-- **C78**, with the hypotheses of C75 about the structs: both methods write exactly one record for the message and complete the file, or return the error of the Avro
library; the record has the given time, or the current one if the time is zero, and is marked as deleted by the second method only.  Given nil they return an error and
touch nothing.
Missing: structs for which C75 is false. -/
theorem C78_partial (hord : ∀ m, (ord m).Perm m) {l afs : List GoField} {n0 : Nat} {m : GMap GoField} (hm : mapFields files ord n0 l = .ok m)
    {L : List ListOf} (hp : Spec.Pair d files l afs L) (hL : (L.map fnName).Nodup) {name : Str} (ha : d.avro name = some afs) :
    ∃ N, ∀ n, N ≤ n → ∃ fl fns, mapStruct d files ord n l afs = .ok (fl, fns) ∧ ∀ (c : Container) (now t : Avro.Time),
      (∀ vals, Spec.Message d files l vals → ∃ w r r', Spec.WriteTime now t w ∧ Spec.RecordFor d name afs vals w false r ∧ Spec.RecordFor d name afs vals w true r' ∧
        Spec.Written c r (writeAvroCF c now (fun aTime => convertToAvro aTime name fns fl) t (.ptr (.struct vals))) ∧
        Spec.Written c r' (writeAvroDeletedCF c now (fun aTime => convertToAvro aTime name fns fl) t (.ptr (.struct vals)))) ∧
      writeAvroCF c now (fun aTime => convertToAvro aTime name fns fl) t .nil = (.err, []) ∧
      writeAvroDeletedCF c now (fun aTime => convertToAvro aTime name fns fl) t .nil = (.err, []) := by
  obtain ⟨N, hN⟩ := C75_partial hord hm hp ha
  refine ⟨N, fun n hn => ?_⟩
  obtain ⟨fl, fns, h1, -, h2⟩ := hN n hn
  refine ⟨fl, fns, h1, fun c now t => ⟨fun vals hv => ?_, rfl, rfl⟩⟩
  obtain ⟨gs, hg, hf, hc⟩ := (h2 hL).2 vals (Avro.avroTime (writeTimeOf now t)) hv
  obtain ⟨r1, r2⟩ := recordFor (name := name) (w := writeTimeOf now t) hf hc
  refine ⟨writeTimeOf now t, _, _, writeTimeOf_spec now t, r1, r2, ?_, ?_⟩
  · unfold writeAvroCF
    dsimp only
    rw [hg]
    cases hcn : c.new
    · exact .new hcn
    · exact writeOne_spec hcn
  · unfold writeAvroDeletedCF
    dsimp only
    rw [hg]
    cases hcn : c.new
    · exact .new hcn
    · exact writeOne_spec hcn

/-- An Avro field that has no counterpart in the generated struct: no conversion is generated. -/
theorem C75_missing {l afs : List GoField} {n : Nat} {m : GMap GoField} (hm : mapFields files ord n l = .ok m) {k : Str} {a : GoType} {tag : Tag}
    (hk : .mk (some k) a tag ∈ afs) (hmeta : ¬ Meta k) (hno : GMap.get k m = none) : ∀ r, mapStruct d files ord n l afs ≠ .ok r := by
  have key : ∀ (t : List GoField), GoField.mk (some k) a tag ∈ t → ∀ r, genFields (fieldValue d n) [] m t ≠ .ok r := by
    intro t
    induction t with
    | nil => intro h; cases h
    | cons f t ih =>
      intro h r hr
      obtain ⟨nm, ty, tg⟩ := f
      cases nm with
      | none => cases hr
      | some k' =>
        rw [genFields] at hr
        rcases List.mem_cons.1 h with he | ht
        · cases he
          rw [if_neg, hno] at hr
          · cases hr
          · intro hpre
            exact hmeta (List.isPrefixOf_iff_prefix.1 hpre)
        · split at hr
          · exact ih ht _ hr
          · split at hr
            · cases hr
            · obtain ⟨v, -, hr⟩ := resBind_ok hr
              obtain ⟨r', hr', -⟩ := resBind_ok hr
              exact ih ht _ hr'
  intro r hr
  unfold mapStruct at hr
  rw [hm] at hr
  exact key afs hk r hr

/-- C78 does not hold for every message: a nil entry in a list of pointers to structs makes both methods panic after the header has been written, although the structs belong
together. -/
theorem C78_refuted : ∃ (d : Decls) (l afs : List GoField) (L : List ListOf) (fl : List (Str × Code)) (fns : List SliceFn) (vals : List (Str × GV)),
    Spec.Pair d (fun _ => none) l afs L ∧ (L.map fnName).Nodup ∧ d.avro g!"M" = some afs ∧ mapStruct d (fun _ => none) id 8 l afs = .ok (fl, fns) ∧
    l = [.mk (some g!"X") (.array (.star (.ident g!"T"))) {}] ∧ vals = [(g!"X", .slice [.nil])] ∧ ∀ (c : Container) (now t : Avro.Time), c.new = true →
      writeAvroCF c now (fun aTime => convertToAvro aTime g!"M" fns fl) t (.ptr (.struct vals)) = (.panic, [.header]) ∧
      writeAvroDeletedCF c now (fun aTime => convertToAvro aTime g!"M" fns fl) t (.ptr (.struct vals)) = (.panic, [.header]) := by
  obtain ⟨d, l, afs, L, fl, fns, vals, h1, h2, h3, h4, h5, h6, h7⟩ := C75_refuted_nil
  refine ⟨d, l, afs, L, fl, fns, vals, h1, h2, h3, h4, h5, h6, fun c now t hc => ⟨?_, ?_⟩⟩
  · unfold writeAvroCF
    simp only [hc, h7, Bool.true_eq_false, if_false]
  · unfold writeAvroDeletedCF
    simp only [hc, h7, Bool.true_eq_false, if_false]

namespace C78ex
open C75ex

/-- A message with a string and a time, written at the zero time. -/
def l : List GoField := [f g!"ID" str, f g!"At" Spec.time]
def afs : List GoField := [f g!"AvroWriteTime" Spec.long, f g!"ID" str, f g!"At" Spec.long]
def decl : Decls := ⟨fun _ => none, fun n => if n = g!"M" then some afs else none⟩
def c : Container := ⟨true, fun _ => true, true⟩
def fl : List (Str × Code) := [(g!"ID", .field [g!"ID"]), (g!"At", .time false false [g!"At"])]

example : mapStruct decl (fun _ => none) id 3 l afs = .ok (fl, []) ∧ decl.avro g!"M" = some afs ∧ ∃ m, mapFields (fun _ => none) id 1 l = .ok m := ⟨rfl, rfl, _, rfl⟩

example : Spec.Pair decl (fun _ => none) l afs [] := by
  refine .plain (ks := [g!"ID", g!"At"]) ⟨by simp [l, f, GoField.name, Spec.methods], by decide⟩ (by simp [afs, f, GoField.name]) (by decide) (fun _ => [])
    (fieldNames_own (afs := afs) (by decide)) ?_
  intro k a tag hk hM
  simp only [afs, f, List.mem_cons, GoField.mk.injEq, Option.some.injEq, List.not_mem_nil, or_false] at hk
  rcases hk with ⟨rfl, rfl, rfl⟩ | ⟨rfl, rfl, rfl⟩ | ⟨rfl, rfl, rfl⟩
  · exact absurd meta_time hM
  · exact ⟨str, {}, by simp [l, f], .same (by decide)⟩
  · exact ⟨_, {}, by simp [l, f], .time⟩

example : writeAvroDeletedCF c ⟨7, 0⟩ (fun aTime => convertToAvro aTime g!"M" [] fl) ⟨-62135596800, 0⟩ (.ptr (.struct [(g!"ID", .str g!"x"), (g!"At", .time ⟨1, 5⟩)])) =
    (.ok, [.header, .record (.ptr (.record g!"M" [(g!"AvroWriteTime", .int 7000), (g!"ID", .str g!"x"), (g!"At", .int 1000), (g!"AvroDeleted", .bool true)])), .flushed]) := rfl

/-- A field of the Avro struct that the generated struct lacks. -/
example : ∀ r, mapStruct decl (fun _ => none) id 3 [f g!"ID" str] afs ≠ .ok r :=
  C75_missing (k := g!"At") (a := Spec.long) (tag := {}) (m := [(g!"ID", f g!"ID" str)]) rfl (by simp [afs, f]) (by unfold Meta; decide) rfl

end C78ex

end JT.Go
