import Verif.Props.C41Circle
import Verif.Props.C88
import Verif.Props.C100
/- C45 and C88, the other direction: schemas that need each other in a circle are never loaded, under no schedule. -/
namespace JT.Cache

variable {V : Type}

/-- A program cannot give a value without one of the keys: on every way it ends with an error or loads one of them, and it ends with an error if that fails. -/
inductive Needs (G : Str → Prop) : Prog V → Prop where
  | fails : Needs G (.ret none)
  | now {key : Str} {k : Option V → Prog V} : G key → k none = .ret none → Needs G (.load key k)
  | later {key : Str} {k : Option V → Prog V} : (∀ r, Needs G (k r)) → Needs G (.load key k)

theorem needs_alone {b : Str → Prog V} {G : Str → Prop} (hG : ∀ key, G key → Needs G (b key)) {p : Prog V} {r : Option V} (h : Alone b p r) : Needs G p → r = none := by
  induction h with
  | ret => intro hn; cases hn; rfl
  | @load key k r r' _ h2 ih1 ih2 =>
    intro hn
    cases hn with
    | now hk hf =>
      have := ih1 (hG _ hk)
      subst this
      rw [hf] at h2
      cases h2
      rfl
    | later hl => exact ih2 (hl _)

end JT.Cache

namespace JT
open Spec Cache

/-- **C45**, the converse: if the builder of each of some keys needs one of these keys, no program that needs one of them gets a value, whatever the other goroutines do and under every
schedule. -/
theorem C45_circular {V : Type} (b : Str → Prog V) (G : Str → Prop) (hG : ∀ key, G key → Needs G (b key)) (ps : List (Prog V)) (s : State V) (hs : Steps (Det b) (init ps) s)
    (i : Nat) (p : Prog V) (hp : ps[i]? = some p) (hn : Needs G p) (v : V) : s.threads[i]? ≠ some ⟨.run (.ret (some v)), []⟩ := by
  intro h
  have := needs_alone hG ((C67 b ps hs).2 i p _ hp h) hn
  simp at this

namespace Spec
/-- A document at `path` refers to another file, with a reference that stands alone. -/
def RefersTo (F : Files) (path : Str) (d : P) (file : Str) : Prop :=
  ∃ p m raw, Searched p d ∧ d.at p = some (.obj m) ∧ OnlyRef m raw ∧ LeadsTo F path (unescStr raw) file
end Spec

namespace Ref

/-- Resolving a reference leaves the other references that stand alone. -/
theorem ref_kept {w : World} {schemaPath : Str} {dest p : List Str} {d d' : P} {mp : List (Str × P)} {rawp : Str} (hset : TidyWorld w) (hs : Tidy d)
    (h : derefOne w schemaPath (dest ++ [refKey]) d = .ok d') (hsr : Searched p d) (hpat : d.at p = some (.obj mp)) (hal : OnlyRef mp rawp) :
    Tidy d' ∧ (refString (dest ++ [refKey]) d = .ok (unescStr rawp) ∨ (d'.at p = some (.obj mp) ∧ Searched p d')) := by
  have h0 := h
  unfold derefOne at h
  rw [Res.bind_eq_ok] at h
  obtain ⟨ref, h1, h⟩ := h
  rw [Res.bind_eq_ok] at h
  obtain ⟨r0, h2, h⟩ := h
  obtain ⟨m, raw, hat, hraw, rfl⟩ := refString_ok h1
  have hms := tidy_at hs hat
  have hm : (m.map Prod.fst).Nodup := by simp only [Tidy] at hms; exact hms.1
  have same : m = mp → refString (dest ++ [refKey]) d = .ok (unescStr rawp) := by
    rintro rfl
    have := hal.1
    rw [show GMap.get g!"$ref" m = _ from hraw] at this
    simp only [Option.some.injEq, P.sc.injEq, Scal.str.injEq] at this
    rw [← this]; exact h1
  by_cases hd : dest = []
  · subst hd
    simp only [P.at, Option.some.injEq] at hat
    subst hat
    rw [List.nil_append, derefOne_root (w := w) hraw h2, Res.ok.injEq] at h0
    subst h0
    refine ⟨tidy_del hs, ?_⟩
    rcases p with _ | ⟨k, ks⟩
    · simp only [P.at, Option.some.injEq, P.obj.injEq] at hpat
      exact Or.inl (same hpat)
    · right
      obtain ⟨q, h3, h4⟩ := at_cons.1 hpat
      have hk : k ≠ refKey := by
        rintro rfl
        simp only [P.step, hraw, Option.some.injEq] at h3
        subst h3
        cases ks <;> simp [P.at, P.step] at h4
      have hstep : (P.obj (delField refKey m)).step k = some q := by
        simp only [P.step] at h3 ⊢
        rw [get_delField_ne hk, h3]
      refine ⟨at_cons.2 ⟨q, hstep, h4⟩, ?_⟩
      obtain ⟨q2, h5, _, h6⟩ := hsr
      rw [h3] at h5
      injection h5 with h5
      subst h5
      exact ⟨q, hstep, fun ⟨l, hl⟩ => (nomatch hl), h6⟩
  · obtain ⟨r, rfl, hrs⟩ := resolved_tidy hset hs h2
    obtain ⟨d2, h3, h4⟩ := derefOne_eq hd hat hraw h2
    rw [h3, Res.ok.injEq] at h0
    subst h0
    have hds := tidy_del (k := refKey) hms
    refine ⟨?_, ?_⟩
    · refine tidy_set (tidy_overlay ?_ hrs) hs hat h4
      simp only [Tidy] at hds
      exact hds.2
    · rcases set_places hat h4 hpat hsr with ⟨ha, hb⟩ | ⟨a, s, rfl, ha, hb, hsa⟩ | ⟨k, s, ha⟩
      · exact Or.inr ⟨ha, hb⟩
      · rw [at_append, ha, Option.bind_some] at hpat
        rcases s with _ | ⟨k, s⟩
        · simp only [P.at, Option.some.injEq, P.obj.injEq] at hpat
          exact Or.inl (same hpat)
        · obtain ⟨_, q, hq, hx⟩ := searched_append.1 hsr
          rw [ha] at hq
          injection hq with hq
          subst hq
          obtain ⟨h5, h6⟩ := kept_below (r := r) hm hraw hpat
          right
          refine ⟨?_, searched_append.2 ⟨hsa, _, hb, h6 hx⟩⟩
          rw [at_append, hb, Option.bind_some]; exact h5
      · exact absurd ha (alone_below hal)

end Ref

namespace Loading
open Ref

/-- Loading a file that could not be loaded is an error. -/
theorem derefOne_noload {F : Files} {path file : Str} {refPath : List Str} {d : P} (h : derefLoads F path refPath d = some file) (d' : P) :
    derefOne (F.world fun _ => .err) path refPath d ≠ .ok d' := by
  intro hc
  unfold derefLoads at h
  split at h
  · rename_i ref he
    unfold derefOne at hc
    rw [he, ok_bind, Res.bind_eq_ok] at hc
    obtain ⟨r0, hr, _⟩ := hc
    unfold resolveRef at hr
    rw [Res.bind_eq_ok] at hr
    obtain ⟨src, hsrc, _⟩ := hr
    unfold refSource at hsrc
    unfold refLoads at h
    split at h
    · simp at h
    · rename_i h0
      rw [if_neg h0] at hsrc
      split at h
      · simp at h
      · rename_i h1
        rw [if_neg h1] at hsrc
        simp only [Files.world] at hsrc
        split at h
        · rename_i rp hrp
          rw [hrp] at hsrc
          simp only at hsrc
          split at h
          · simp at h
          · rename_i h2
            rw [if_neg h2] at hsrc
            simp at hsrc
        · simp at h
  · simp at h

theorem builds_needs {F : Files} {o : Str} {fl : Bool} {path : Str} {G : Str → Prop} (hnet : ∀ url p, F.http url = .ok p → Tidy p) {refs : List (List Str)} {d : P} {p : Prog Loaded}
    (h : Builds F Subtype.val o fl path refs d p) : (∀ r ∈ refs, ∃ dest, r = dest ++ [refKey]) → Tidy d → (∃ file, RefersTo F path d file ∧ G file) →
    Needs (fun key => ∃ file, G file ∧ key = schemaKey file o fl) p := by
  have hw : ∀ r : Option Loaded, TidyWorld (F.world fun _ => loadAnswer Subtype.val r) :=
    fun r => ⟨fun _ p hp => (tame_answer r p hp).2, fun url p hp => hnet url p hp⟩
  induction h with
  | @inside refPath refs d d' p h1 h2 _ ih =>
    rintro hr hs ⟨file, ⟨pl, mp, raw, hsr, hat, hal, hl⟩, hg⟩
    obtain ⟨dest, rfl⟩ := hr _ List.mem_cons_self
    obtain ⟨ht, hk | ⟨ha, hb⟩⟩ := ref_kept (hw none) hs h2 hsr hat hal
    · rw [derefLoads, hk] at h1
      simp only at h1
      rw [refLoads_iff.2 hl] at h1
      simp at h1
    · exact ih (fun r h => hr r (List.mem_cons_of_mem _ h)) ht ⟨file, ⟨pl, mp, raw, hb, ha, hal, hl⟩, hg⟩
  | fails => intros; exact .fails
  | @load refPath refs d file' k h1 h2 h3 ih =>
    rintro hr hs ⟨file, ⟨pl, mp, raw, hsr, hat, hal, hl⟩, hg⟩
    obtain ⟨dest, rfl⟩ := hr _ List.mem_cons_self
    by_cases hgf : G file'
    · exact .now ⟨file', hgf, rfl⟩ (h3 none (derefOne_noload h1))
    · refine .later fun r => ?_
      by_cases hd : ∃ d', derefOne (F.world fun _ => loadAnswer Subtype.val r) path (dest ++ [refKey]) d = .ok d'
      · obtain ⟨d', hd⟩ := hd
        obtain ⟨ht, hk | ⟨ha, hb⟩⟩ := ref_kept (hw r) hs hd hsr hat hal
        · rw [derefLoads, hk] at h1
          simp only at h1
          rw [refLoads_iff.2 hl, Option.some.injEq] at h1
          exact absurd (h1 ▸ hg) hgf
        · exact ih r d' hd (fun r h => hr r (List.mem_cons_of_mem _ h)) ht ⟨file, ⟨pl, mp, raw, hb, ha, hal, hl⟩, hg⟩
      · rw [h3 r fun d' hd' => hd ⟨d', hd'⟩]
        exact .fails
  | noObject => intros; exact .fails
  | again h1 _ _ ih => exact fun _ hs hg => ih (findRefs_last h1) hs hg
  | made h1 _ =>
    rintro _ _ ⟨file, ⟨pl, mp, raw, hsr, hat, hal, hl⟩, hg⟩
    obtain ⟨⟨m, rfl⟩, hno⟩ := findRefs_nil_iff.1 h1
    obtain ⟨x, hx⟩ := searched_found hal.1 _ pl m (Nat.le_refl _) hat hsr
    exact absurd hx (hno x)
  | unfit => intros; exact .fails

open Classical in
/-- The builder of each key; a key without one, because its builder would not end, loads itself. -/
noncomputable def someBuilder (F : Files) (key : Str) : Prog Loaded :=
  if h : ∃ p, FileBuilder F Subtype.val key p then h.choose else .load key .ret

theorem builder_det {F : Files} {key : Str} {p : Prog Loaded} (h : FileBuilder F Subtype.val key p) : p = someBuilder F key := by
  have he : ∃ p : Prog Loaded, FileBuilder F Subtype.val key p := ⟨p, h⟩
  unfold someBuilder
  rw [dif_pos he]
  exact builder_unique h he.choose_spec

theorem tstep_mono {V : Type} {B B' : Str → Prog V → Prop} (hB : ∀ key p, B key p → B' key p) {s s' : Shared V} {th th' : Thread V} (h : TStep B s th s' th') : TStep B' s th s' th' := by
  cases h with
  | load => exact .load
  | join h => exact .join h
  | lead h => exact .lead h
  | hit h => exact .hit h
  | miss h h' => exact .miss h (hB _ _ h')
  | failed => exact .failed
  | built => exact .built
  | store => exact .store
  | finish => exact .finish
  | wake h => exact .wake h
  | back => exact .back

theorem steps_mono {V : Type} {B B' : Str → Prog V → Prop} (hB : ∀ key p, B key p → B' key p) {s s' : State V} (h : Steps B s s') : Steps B' s s' := by
  induction h with
  | refl => exact .refl
  | tail _ h2 ih =>
    cases h2 with
    | mk h => exact .tail ih (.mk (tstep_mono hB h))

end Loading

open Loading in
/-- **C88**, the converse: if each of some files refers to one of these files, none of them is ever loaded: whatever else is loaded at the same time, under every schedule, no load of one
of them gives a schema. -/
theorem C88_circular (F : Files) (hnet : ∀ url p, F.http url = .ok p → Tidy p) (hread : ∀ path d, F.read path = .ok d → Tidy d) (G : Str → Prop)
    (hG : ∀ path d, G path → F.read path = .ok d → ∃ file, RefersTo F path d file ∧ G file)
    (o : Str) (ho : '|' ∉ o) (fl : Bool) (ps : List (Prog Loaded)) (s : State Loaded) (hs : Steps (FileBuilder F Subtype.val) (init ps) s)
    (i : Nat) (path : Str) (hpath : G path) (hp : ps[i]? = some (.load (schemaKey path o fl) .ret)) (v : Loaded) : s.threads[i]? ≠ some ⟨.run (.ret (some v)), []⟩ := by
  refine C45_circular (someBuilder F) (fun key => ∃ file, G file ∧ key = schemaKey file o fl) ?_ ps s (steps_mono (fun _ _ h => builder_det h) hs) i _ hp (.now ⟨path, hpath, rfl⟩ rfl) v
  rintro key ⟨file, hg, rfl⟩
  unfold someBuilder
  split
  · rename_i he
    have hb := builder_file ho he.choose_spec
    generalize he.choose = q at hb ⊢
    cases hb with
    | unreadable => exact .fails
    | invalid => exact .fails
    | start h1 _ h3 => exact builds_needs hnet h3 (by simp) (hread _ _ h1) (hG _ _ hg h1)
  · exact .now ⟨file, hg, rfl⟩ rfl

namespace C88circle
open C88ex Loading

def places : Str → Prop := fun p => p = g!"/s/a.json" ∨ p = g!"/s/b.json"

example (ps : List (Prog Loaded)) (s : State Loaded) (hs : Steps (FileBuilder circle Subtype.val) (init (.load keyA .ret :: ps)) s) (v : Loaded) :
    s.threads[0]? ≠ some ⟨.run (.ret (some v)), []⟩ := by
  refine C88_circular circle ?_ ?_ places ?_ [] (by simp) true _ s hs 0 g!"/s/a.json" (Or.inl rfl) rfl v
  · intro url p h; simp [circle, files] at h
  · intro path d h
    simp only [circle] at h
    split at h
    · simp only [Res.ok.injEq] at h; subst h; simp [left, Tidy, TidyFields, str]
    · split at h
      · simp only [Res.ok.injEq] at h; subst h; simp [right, Tidy, TidyFields, str]
      · simp at h
  · rintro path d (rfl | rfl) h
    · have h' : d = left := by simpa [circle] using h.symm
      subst h'
      refine ⟨g!"/s/b.json", ⟨[g!"properties", g!"x"], _, g!"b.json", ⟨_, rfl, (fun h => by obtain ⟨_, h⟩ := h; cases h), _, rfl, (fun h => by obtain ⟨_, h⟩ := h; cases h), trivial⟩, rfl, ⟨rfl, ?_⟩, ?_⟩, Or.inr rfl⟩
      · intro kv hkv
        simp only [List.mem_singleton] at hkv
        subst hkv
        exact Or.inl ⟨rfl, rfl⟩
      · exact ⟨g!"b.json", [], .file (by decide), by decide, by decide, by rfl, by decide⟩
    · have h' : d = right := by
        simp only [circle] at h
        rw [if_neg (by decide), if_pos trivial] at h
        simpa using h.symm
      subst h'
      refine ⟨g!"/s/a.json", ⟨[g!"properties", g!"x"], _, g!"a.json", ⟨_, rfl, (fun h => by obtain ⟨_, h⟩ := h; cases h), _, rfl, (fun h => by obtain ⟨_, h⟩ := h; cases h), trivial⟩, rfl, ⟨rfl, ?_⟩, ?_⟩, Or.inl rfl⟩
      · intro kv hkv
        simp only [List.mem_singleton] at hkv
        subst hkv
        exact Or.inl ⟨rfl, rfl⟩
      · exact ⟨g!"a.json", [], .file (by decide), by decide, by decide, by rfl, by decide⟩
end C88circle

end JT
