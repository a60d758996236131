import Verif.Proofs.GoPackage
import Verif.Props.C65
import Verif.Props.C86
import Verif.Props.C95
/- C102: documents go through the structs of the Go package that `BuildStructs` writes. -/
namespace JT.GoText
open Gen Spec JT.Spec GoJson Flat

variable {u : Unicode} {title : Str → Str}

/-- What is asked of a schema: that the file for it can be written (C93, C94), and that names give exported names of fields and names in tags. -/
structure PartOk (u : Unicode) (title : Str → Str) (args : Args) (pkg : Str) (embeds es : List Str) (p : Part) : Prop where
  keys : p.keys.Nodup
  written : (Writable u title args p.schema p.props pkg p.name embeds es ∧ Names u title args.fieldNames p.props ∧
      ∀ k q, Listed p.props k q → Clean u title args.fieldNames args.descTag q) ∨
    (FlatWritable u title args p.schema p.props pkg p.name embeds es ∧ FlatText args p.schema ∧ NoEmptyPointers args p.schema)
  upper : ∀ c t, title p.name = c :: t → c.isLower = false
  names : CleanNames title args.fieldNames p.props
  clean : ∀ k q, Listed p.props k q → GoJson.Clean title args.fieldNames args.descTag q

/-- The names of the structs for a schema: its own, and those for the objects in it if they have structs of their own. -/
def StructName (title : Str → Str) (args : Args) (p : Part) (n : Str) : Prop :=
  n = title p.name ∨ (args.noNested = true ∧ ∃ l m rq, l ≠ [] ∧ ObjectAt p.schema l m rq ∧ (∃ k q, Listed m k q) ∧ n = keyOf title p.name l)

/-- What is known of the file for a schema. -/
structure PartFile (title : Str → Str) (args : Args) (pkg : Str) (es : List Str) (p : Part) (f : File) (Fs : List Field) : Prop where
  pkg : f.pkg = pkg
  imports : f.ImportsUsed
  times : ∀ p ∈ f.imports, p = g!"time"
  closed : f.Closed es
  fresh : Fresh f
  upper : ∀ n ∈ f.types.map Prod.fst, ∃ c t, n = c :: t ∧ c.isLower = false
  names : ∀ n ∈ f.types.map Prod.fst, StructName title args p n
  mem : structDecl (title p.name) es Fs ∈ f.types
  fields : ∀ doc n t tag, Field.mk doc (some n) t tag ∈ Fs → ∃ k q, Listed p.props k q ∧ n = goName title args.fieldNames k
  means : ∀ c : Codec, c.Lawful → ∃ sfs, StructMeans c args.pointers f p.props p.schema.required Fs sfs

theorem fresh_of {f : File} (h : ∀ n ∈ f.types.map Prod.fst, ∃ c t, n = c :: t ∧ c.isLower = false) : Fresh f := fun n hn hm => not_small (h n hm) hn

theorem some_codec : ∃ c : Codec, c.Lawful := ⟨C76ex.codec, C76ex.lawful⟩

/-- The file for a schema. -/
theorem part_file {args : Args} {pkg : Str} {embeds es : List Str} {p : Part} (h : PartOk u title args pkg embeds es p) :
    ∃ f Fs, PartFile title args pkg es p f Fs ∧ ∀ sched, ∃ g, newGoFile sched title args p.schema p.name embeds = .ok g ∧ Source u (fileSource pkg (g.text title args)) f := by
  rcases h.written with ⟨hw, hn, hcl⟩ | ⟨hw, ht, he⟩
  · obtain ⟨ks, Fs, h1, imports, h2, h3⟩ := C93_partial hw hn hcl
    have hup : ∀ n ∈ (⟨pkg, [notice], imports, [structDecl (title p.name) es Fs]⟩ : File).types.map Prod.fst, ∃ c t, n = c :: t ∧ c.isLower = false := by
      intro n hm
      obtain rfl := List.mem_singleton.1 hm
      obtain ⟨⟨c', t, e, _⟩, _⟩ := hw.name
      exact ⟨c', t, e, h.upper c' t e⟩
    have hmeans : ∀ c : Codec, c.Lawful → ∃ sfs, StructMeans c args.pointers ⟨pkg, [notice], imports, [structDecl (title p.name) es Fs]⟩ p.props p.schema.required Fs sfs :=
      fun c hc => structFor_means hc (fresh_of hup) h1 h.names h.clean fun hu => (h2.2 _).2 ⟨_, List.mem_singleton.2 rfl, by simpa [structDecl, Ty.uses, fieldsUse_embeds] using hu⟩
    refine ⟨_, Fs, ⟨rfl, h2, ?_, ⟨by simp, ?_⟩, fresh_of hup, hup, ?_, List.mem_singleton.2 rfl, ?_, hmeans⟩, h3⟩
    · intro q hq
      obtain ⟨d, hd, hu⟩ := (h2.2 q).1 hq
      obtain rfl := List.mem_singleton.1 hd
      have hu : fieldsUse q (es.map (fun e => Field.mk [] none (.name e) none) ++ Fs) = true := hu
      rw [fieldsUse_embeds] at hu
      obtain ⟨c, hc⟩ := some_codec
      obtain ⟨sfs, hs⟩ := hmeans c hc
      exact denotes_uses hs.denotes hu
    · intro d hd n hn'
      obtain rfl := List.mem_singleton.1 hd
      have hn' : n ∈ fieldsNames (es.map (fun e => Field.mk [] none (.name e) none) ++ Fs) := hn'
      rw [fieldsNames_embeds, List.mem_append] at hn'
      rcases hn' with hn' | hn'
      · exact .inr (.inr hn')
      · obtain ⟨c, hc⟩ := some_codec
        obtain ⟨sfs, hs⟩ := hmeans c hc
        cases hs.denotes with
        | struct hf _ =>
          rcases fieldsDenote_names hf n hn' with h' | h'
          · exact .inl h'
          · exact .inr (.inl h')
    · intro n hm
      exact .inl (List.mem_singleton.1 hm)
    · cases h1 with
      | mk _ _ h1 => exact fieldsFor_names h1
  · obtain ⟨f, hf, hcl, hsrc⟩ := C94_partial hw ht he
    obtain ⟨Fs, ds, t1, t2, t3, t4, t5⟩ := hf.types
    have hnames : ∀ n ∈ f.types.map Prod.fst, ∃ l, n = keyOf title p.name l ∧ (l = [] ∨ ∃ m rq, l ≠ [] ∧ ObjectAt p.schema l m rq ∧ (∃ k q, Listed m k q)) := by
      intro n hm
      rw [t1] at hm
      obtain ⟨d, hd, rfl⟩ := List.mem_map.1 hm
      rcases List.mem_cons.1 hd with rfl | hd
      · exact ⟨[], by simp [structDecl, keyOf, Spec.names], .inl rfl⟩
      · obtain ⟨l, hl, hs⟩ := t4 d hd
        cases hs with
        | mk a1 a2 _ => exact ⟨l, rfl, .inr ⟨_, _, hl, a1, a2⟩⟩
    have hup : ∀ n ∈ f.types.map Prod.fst, ∃ c t, n = c :: t ∧ c.isLower = false := by
      intro n hm
      obtain ⟨l, rfl, _⟩ := hnames n hm
      obtain ⟨c, t, h1, _, h2⟩ := key_big (u := u) hw.rootName hw.upper l
      exact ⟨c, t, h1, h2⟩
    have hmem : structDecl (title p.name) es Fs ∈ f.types := by rw [t1]; exact List.mem_cons_self
    have hroot : ObjectAt p.schema [] p.props p.schema.required := .root hw.properties
    refine ⟨f, Fs, ⟨hf.pkg, hf.imports, ?_, hcl, fresh_of hup, hup, ?_, hmem, ?_, ?_⟩, hsrc⟩
    · intro q hq
      obtain ⟨d, hd, hu⟩ := (hf.imports.2 q).1 hq
      rw [t1] at hd
      rcases List.mem_cons.1 hd with rfl | hd
      · have hu : fieldsUse q (es.map (fun e => Field.mk [] none (.name e) none) ++ Fs) = true := hu
        rw [fieldsUse_embeds] at hu
        obtain ⟨ks, _, _, h3⟩ := t2
        exact flatFieldsFor_uses h3 hu
      · obtain ⟨l, hl, hs⟩ := t4 d hd
        cases hs with
        | mk a1 a2 a3 =>
          obtain ⟨ks, _, _, h3⟩ := a3
          exact flatFieldsFor_uses h3 hu
    · intro n hm
      obtain ⟨l, rfl, rfl | ⟨m, rq, h1, h2, h3⟩⟩ := hnames n hm
      · exact .inl (by simp [keyOf, Spec.names])
      · exact .inr ⟨hw.flat, l, m, rq, h1, h2, h3, rfl⟩
    · obtain ⟨ks, _, _, h3⟩ := t2
      exact flatFieldsFor_names h3
    · intro c hc
      exact flat_struct_means (c := c) hc (fresh_of hup) h.names h.clean t2
        (fun k q hl => named_means hc hw.conditions hf (fresh_of hup) (h.clean k q hl) [.key k] (by simp) (listed_at hw.conditions hroot hl))
        (fun hu => (hf.imports.2 _).2 ⟨_, hmem, by simpa [structDecl, Ty.uses, fieldsUse_embeds] using hu⟩)

/-! ### Structs in a package -/

/-- What is asked of a schema and of the schemas of the structs that its struct embeds. -/
structure Together (title : Str → Str) (rename : GMap Str) (own : Part) (commons : List Part) : Prop where
  /-- No embedded struct has the name of a field. -/
  named : ∀ p ∈ commons, ∀ k q, Listed own.props k q → goName title rename k ≠ title p.name
  /-- No property is in two of the others, -/
  apart : Apart own commons
  /-- and no property of the schema that is only for GraphQL is one of the others. -/
  hydrated : ∀ k q, GMap.get k own.props = some q → Hydrated q → ∀ p ∈ commons, k ∉ p.keys

/-- The files of some schemas in a package. -/
theorem commons_stand {args : Args} {pkg : Str} {files : List File} {c : Codec} (hc : c.Lawful) (hfresh : ∀ f ∈ files, Fresh f) (fo : File) : ∀ {commons : List Part},
    (∀ p ∈ commons, ∃ f Fs, f ∈ files ∧ PartFile title args pkg [] p f Fs) →
    ∃ ess, Each (fun e es => Stands files fo (.name e) (.struct es)) (commons.map fun p => title p.name) ess ∧ Each (FieldsGood c args.pointers) commons ess
  | [], _ => ⟨[], .nil, .nil⟩
  | p :: ps, h => by
    obtain ⟨ess, h1, h2⟩ := commons_stand hc hfresh fo (commons := ps) fun p hp => h p (by simp [hp])
    obtain ⟨f, Fs, hf, hp⟩ := h p (by simp)
    obtain ⟨sfs, hs⟩ := hp.means c hc
    exact ⟨sfs :: ess, .cons (.named hf (show (title p.name, Ty.struct Fs) ∈ f.types from hp.mem) (stands_of hf hfresh hs.denotes)) h1, .cons ⟨hs.nodup, hs.sound, hs.complete⟩ h2⟩

/-- Documents go through a struct of the package. -/
theorem package_through {args : Args} {pkg : Str} {files : List File} {c : Codec} {own : Part} {commons : List Part} {fo : File} {Fs : List Field} (hc : c.Lawful)
    (hfresh : ∀ f ∈ files, Fresh f) (hk : own.keys.Nodup) (hsome : ∃ k q, Listed own.props k q) (ho : fo ∈ files)
    (hown : PartFile title args pkg (commons.map fun p => title p.name) own fo Fs) (hcs : ∀ p ∈ commons, ∃ f Fs, f ∈ files ∧ PartFile title args pkg [] p f Fs)
    (hone : (commons.map fun p => title p.name).Nodup) (ht : Together title args.fieldNames own commons) :
    ∃ sfs, StructIn files (title own.name) sfs ∧
      ∀ l, Members c true args.pointers own.props own.schema.required l → (∀ p ∈ commons, Members c true args.pointers p.props p.schema.required l) →
        ∃ l', Through c sfs l l' ∧ SameMembers c true (joined own commons) (ownersRequired own commons) l l' := by
  obtain ⟨ess, h1, h2⟩ := commons_stand hc hfresh fo hcs
  obtain ⟨sfs, hs⟩ := hown.means c hc
  obtain ⟨v1, v2, v3⟩ := visible_good hk ht.apart ht.hydrated ⟨hs.nodup, hs.sound, hs.complete⟩ h2
  refine ⟨_, .mk ho hown.mem (stands_of ho hfresh hs.denotes) h1 ?_, fun l hl hls => ?_⟩
  · cases hs.denotes with
    | struct hf hck =>
      have hnd : (sfs.map SF.name).Nodup := by
        unfold checked at hck
        split at hck
        · rename_i hh; exact hh.1
        · cases hck
      rw [List.nodup_append]
      refine ⟨hone, hnd, ?_⟩
      rintro a ha b hb rfl
      obtain ⟨p, hp, e1⟩ := List.mem_map.1 ha
      obtain ⟨s, hs', e2⟩ := List.mem_map.1 hb
      obtain ⟨doc, t, tag, hm⟩ := fieldsDenote_fields hf s hs'
      obtain ⟨k, q, hl, e3⟩ := hown.fields _ _ _ _ hm
      exact ht.named p hp k q hl (by rw [← e3, e2, e1])
  · obtain ⟨vs, l', d1, d2, d3, _⟩ := struct_good v1 v2 v3 (members_joined ht.apart hsome hl hls)
    exact ⟨l', ⟨_, d1, by simp [encode, d2]⟩, d3⟩

/-! ### `BuildStructs` -/

/-- The schemas whose structs the struct of a job embeds. -/
def commonsOf (part : Gen.Spec.Job → Part) (jobs : List Gen.Spec.Job) (j : Gen.Spec.Job) : List Part := (jobs.filter fun c => decide (c.name ∈ j.embeds)).map part

/-- What is asked of the schemas of the structs to be generated. -/
structure Schemas (u : Unicode) (w : World) (args : BuildArgs) (dir : Str) (jobs : List Gen.Spec.Job) (part : Gen.Spec.Job → Part) : Prop where
  read : ∀ j ∈ jobs, w.schema true (resolve args j.ref) j.name = .ok (part j).schema
  name : ∀ j ∈ jobs, (part j).name = j.name
  ok : ∀ j ∈ jobs, PartOk u w.title args.toArgs (pathBase dir) j.embeds j.embeds (part j)
  /-- The names of embedded structs stay as they are. -/
  exported : ∀ j ∈ jobs, ∀ e ∈ j.embeds, w.title e = e
  /-- No two schemas give structs of the same name. -/
  distinct : ∀ j ∈ jobs, ∀ j' ∈ jobs, ∀ n, StructName w.title args.toArgs (part j) n → StructName w.title args.toArgs (part j') n → j = j'

/-- The files with the given contents are Go source of the package. -/
def Written (u : Unicode) (fs : Files) (args : BuildArgs) (dir : Str) (j : Gen.Spec.Job) (f : File) : Prop :=
  ∀ path, Gen.Spec.FileFor dir (resolve args j.ref) path → ∃ time structs, fs path = some (.go (pathBase dir) time structs) ∧ Source u (fileSource (pathBase dir) (time, structs)) f

theorem each_exists {α β : Type} {R : α → β → Prop} : ∀ {l : List α}, (∀ a ∈ l, ∃ b, R a b) → ∃ bs, Each R l bs
  | [], _ => ⟨[], .nil⟩
  | a :: l, h => by
    obtain ⟨b, hb⟩ := h a (by simp)
    obtain ⟨bs, hbs⟩ := each_exists (l := l) fun a ha => h a (by simp [ha])
    exact ⟨b :: bs, .cons hb hbs⟩

theorem package_nodup {args : Args} {pkg : Str} {part : Gen.Spec.Job → Part} : ∀ {jobs : List Gen.Spec.Job} {files : List File},
    Each (fun j f => ∃ Fs, PartFile title args pkg j.embeds (part j) f Fs) jobs files → jobs.Nodup →
    (∀ j ∈ jobs, ∀ j' ∈ jobs, ∀ n, StructName title args (part j) n → StructName title args (part j') n → j = j') → (packageNames files).Nodup
  | _, _, .nil, _, _ => List.nodup_nil
  | j :: jobs, f :: files, .cons ⟨Fs, hf⟩ he, hn, hd => by
    rw [List.nodup_cons] at hn
    show ((f.types.map Prod.fst) ++ packageNames files).Nodup
    rw [List.nodup_append]
    refine ⟨hf.closed.1, package_nodup he hn.2 fun a ha b hb => hd a (by simp [ha]) b (by simp [hb]), ?_⟩
    rintro a ha b hb rfl
    obtain ⟨f', hf', hm⟩ := mem_packageNames.1 hb
    obtain ⟨j', hj', Fs', hp⟩ := Each.right he f' hf'
    exact hn.1 (hd j (by simp) j' (by simp [hj']) a (hf.names a ha) (hp.names a hm) ▸ hj')

theorem jobs_nodup {args : BuildArgs} {jobs : List Gen.Spec.Job} {stems : List Str} (h : Gen.Spec.Stems args jobs stems) (hn : stems.Nodup) : jobs.Nodup := by
  rw [stems_eq h] at hn
  exact (List.pairwise_map.1 hn).imp fun h e => h (by rw [e])

theorem zip_names {R : Str → Str → Prop} : ∀ {refs ns : List Str}, Each R refs ns → ((refs.zip ns).map fun rn => (⟨rn.1, rn.2, []⟩ : Gen.Spec.Job)).map Gen.Spec.Job.name = ns
  | _, _, .nil => rfl
  | _, _, .cons _ h => by simp only [List.zip_cons_cons, List.map_cons, zip_names h]

/-- The schemas whose structs are embedded. -/
theorem commons_of {title : Str → Str} {args : Args} {names : GMap Str} {doc : P} {abs : Res Str} {jobs : List Gen.Spec.Job} {part : Gen.Spec.Job → Part}
    (h : Gen.Spec.Jobs title names doc abs jobs) (hname : ∀ j ∈ jobs, (part j).name = j.name) (hx : ∀ j ∈ jobs, ∀ e ∈ j.embeds, title e = e) (hn : jobs.Nodup)
    (hd : ∀ j ∈ jobs, ∀ j' ∈ jobs, ∀ n, StructName title args (part j) n → StructName title args (part j') n → j = j') {j : Gen.Spec.Job} (hj : j ∈ jobs) :
    (commonsOf part jobs j).map (fun p => title p.name) = j.embeds ∧ (∀ p ∈ commonsOf part jobs j, ∃ c ∈ jobs, c.embeds = [] ∧ part c = p) ∧ j.embeds.Nodup := by
  have hinj : ∀ a ∈ jobs, ∀ b ∈ jobs, a.name = b.name → a = b := fun a ha b hb e =>
    hd a ha b hb (title a.name) (.inl (by rw [hname a ha])) (.inl (by rw [hname b hb, e]))
  cases h with
  | @mk refs ns os h1 h2 h3 =>
    unfold commonsOf
    by_cases he : j.embeds = []
    · have : ∀ l : List Gen.Spec.Job, l.filter (fun c => decide (c.name ∈ j.embeds)) = [] := fun l => List.filter_eq_nil_iff.2 fun a _ => by simp [he]
      rw [this]
      exact ⟨by simp [he], by simp, by simp [he]⟩
    · have hns : j.embeds = ns := by
        rcases List.mem_append.1 hj with hj | hj
        · obtain ⟨rn, _, rfl⟩ := List.mem_map.1 hj
          exact absurd rfl he
        · obtain ⟨rn, _, rfl⟩ := List.mem_map.1 hj
          rfl
      have hz := zip_names h2
      generalize hA : ((refs.zip ns).map fun rn => (⟨rn.1, rn.2, []⟩ : Gen.Spec.Job)) = A at *
      have hAe : ∀ a ∈ A, a.embeds = [] := by
        intro a ha
        rw [← hA] at ha
        obtain ⟨rn, _, rfl⟩ := List.mem_map.1 ha
        rfl
      rw [hns] at he ⊢
      have hAn : ∀ a ∈ A, a.name ∈ ns := fun a ha => by rw [← hz]; exact List.mem_map.2 ⟨a, ha, rfl⟩
      have hf : ∀ B : List Gen.Spec.Job, (∀ b ∈ B, b.embeds = ns) → (∀ b ∈ A ++ B, ∀ a ∈ A ++ B, b.name = a.name → b = a) →
          (A ++ B).filter (fun c => decide (c.name ∈ ns)) = A := by
        intro B hB hi
        rw [List.filter_append, List.filter_eq_self.2 fun a ha => decide_eq_true (hAn a ha), List.filter_eq_nil_iff.2, List.append_nil]
        intro b hb hm
        have hm := of_decide_eq_true hm
        rw [← hz] at hm
        obtain ⟨a, ha, e⟩ := List.mem_map.1 hm
        have := hi b (List.mem_append_right _ hb) a (List.mem_append_left _ ha) e.symm
        rw [← hB b hb, this, hAe a ha] at he
        exact he rfl
      rw [hf _ (fun b hb => by obtain ⟨rn, _, rfl⟩ := List.mem_map.1 hb; rfl) hinj]
      refine ⟨?_, ?_, ?_⟩
      · rw [List.map_map]
        calc A.map ((fun p => title p.name) ∘ part) = A.map fun a => a.name := by
              refine List.map_congr_left fun a ha => ?_
              show title (part a).name = a.name
              rw [hname a (List.mem_append_left _ ha)]
              exact hx j hj _ (by rw [hns]; exact hAn a ha)
          _ = ns := hz
      · intro p hp
        obtain ⟨a, ha, rfl⟩ := List.mem_map.1 hp
        exact ⟨a, List.mem_append_left _ ha, hAe a ha, rfl⟩
      · rw [← hz]
        unfold List.Nodup
        rw [List.pairwise_map]
        refine List.Pairwise.imp_of_mem ?_ (List.nodup_append.1 hn).1
        intro a b ha hb hne e
        exact hne (hinj a (List.mem_append_left _ ha) b (List.mem_append_left _ hb) e)

theorem nameOf_unique {names : GMap Str} {f : Str → Str} {r n n' : Str} (h : NameOf names f r n) (h' : NameOf names f r n') : n = n' := by
  obtain ⟨s, h1, h2⟩ := h
  obtain ⟨s', h1', h2'⟩ := h'
  obtain rfl : s = s' := (subName_baseName h1).symm.trans (subName_baseName h1')
  rcases h2 with h2 | ⟨h2, rfl⟩ <;> rcases h2' with h2' | ⟨h2', rfl⟩ <;> rw [h2] at h2' <;> first | rfl | cases h2' <;> rfl

theorem jobs_unique {names : GMap Str} {doc : P} {abs : Res Str} {jobs jobs' : List Gen.Spec.Job} (h : Gen.Spec.Jobs title names doc abs jobs)
    (h' : Gen.Spec.Jobs title names doc abs jobs') : jobs = jobs' := by
  cases h with
  | mk h1 h2 h3 =>
    cases h' with
    | mk h1' h2' h3' =>
      have : ∀ {r r' : List Str}, Gen.Spec.Commons doc abs r → Gen.Spec.Commons doc abs r' → r = r' := by
        intro r r' a b
        cases a <;> cases b
        · rename_i a1 a2 _ b1 b2
          rw [a2] at b2
          cases b2
          rfl
        · contradiction
        · contradiction
        · rfl
      obtain rfl := this h1 h1'
      obtain rfl := each_unique (R := NameOf names title) (S := NameOf names title) (fun _ _ _ h h' => nameOf_unique h h') h2 h2'
      obtain rfl := each_unique (R := NameOf names id) (S := NameOf names id) (fun _ _ _ h h' => nameOf_unique h h') h3 h3'
      rfl

theorem dir_unique {args : BuildArgs} {cwd : Res Str} {d d' : Str} (h : Gen.Spec.Dir args cwd d) (h' : Gen.Spec.Dir args cwd d') : d = d' := by
  cases h <;> cases h'
  · rfl
  · contradiction
  · contradiction
  · rename_i a1 _ b1
    rw [a1] at b1
    cases b1
    rfl

/-- **C102**, partial: if `BuildStructs` succeeds, then the files it leaves are source of a Go package in which each struct to be generated is declared, and documents of its
schema and of the schemas whose structs it embeds go through it: each property comes back, except that optional properties with blank values may be lost, if the document
meets the conditions of `Valid` with `strict`.  If a property is in the schema itself and in one of the others, that of the schema counts.  Missing: properties that two of
the other schemas have; and `EmbedAllOf`, for which see `C102_embedded_partial`. -/
theorem C102_partial {w : World} {args : BuildArgs} {fs fs' : Files} {x : Unit} {doc : P} {dir : Str} {jobs : List Gen.Spec.Job} {stems : List Str}
    {part : Gen.Spec.Job → Part} (h : buildStructs w args fs = (.ok x, fs')) (he : args.embedAllOf = false) (hdoc : w.read args.schemaPath = .ok doc)
    (hdir : Gen.Spec.Dir args w.getwd dir) (h3 : Gen.Spec.Jobs w.title args.structNames doc (w.abs args.schemaPath) jobs) (hst : Gen.Spec.Stems args jobs stems)
    (hnd : stems.Nodup) (hsl : ∀ s ∈ stems, '/' ∉ s) (hs : Schemas u w args dir jobs part) :
    ∃ files, GoPackage (pathBase dir) files ∧ Each (Written u fs' args dir) jobs files ∧
      ∀ j ∈ jobs, Together w.title args.fieldNames (part j) (commonsOf part jobs j) → ∀ c : Codec, c.Lawful → ∃ sfs, StructIn files (w.title j.name) sfs ∧
        ∀ l, Members c true args.pointers (part j).props (part j).schema.required l →
          (∀ p ∈ commonsOf part jobs j, Members c true args.pointers p.props p.schema.required l) →
          ∃ l', Through c sfs l l' ∧ SameMembers c true (joined (part j) (commonsOf part jobs j)) (ownersRequired (part j) (commonsOf part jobs j)) l l' := by
  obtain ⟨doc', dir', jobs', h1, h2, h3', h4, _⟩ := C65_partial h
  obtain rfl := Res.ok.inj (hdoc.symm.trans h1)
  obtain rfl := dir_unique hdir h2
  obtain rfl := jobs_unique h3 h3'
  have hjn := jobs_nodup hst hnd
  have hfiles : ∃ files, Each (fun j f => Written u fs' args dir j f ∧ ∃ Fs, PartFile w.title args.toArgs (pathBase dir) j.embeds (part j) f Fs) jobs files := by
    apply each_exists
    intro j hj
    obtain ⟨f, Fs, hp, hg⟩ := part_file (hs.ok j hj)
    refine ⟨f, fun path hpath => ?_, Fs, hp⟩
    obtain ⟨_, ⟨inst, g, a1, a2, a3, rfl⟩, a4⟩ := h4 stems hst hnd hsl j hj path hpath
    have he' : (if args.embedAllOf = true then false else true) = true := by rw [he]; rfl
    have a1 : w.schema (if args.embedAllOf = true then false else true) (resolve args j.ref) j.name = .ok inst := a1
    rw [he', hs.read j hj] at a1
    cases a1
    obtain ⟨g', b1, b2⟩ := hg w.sched
    rw [hs.name j hj] at b1
    have a2 : newGoFile w.sched w.title args.toArgs (part j).schema j.name j.embeds = .ok g := a2
    rw [a2] at b1
    cases b1
    exact ⟨_, _, a4, b2⟩
  obtain ⟨files, hfiles⟩ := hfiles
  have hparts : Each (fun j f => ∃ Fs, PartFile w.title args.toArgs (pathBase dir) j.embeds (part j) f Fs) jobs files := Each.imp' (fun _ _ h => h.2) hfiles
  have hfresh : ∀ f ∈ files, Fresh f := by
    intro f hf
    obtain ⟨j, _, Fs, hp⟩ := Each.right hparts f hf
    exact hp.fresh
  have hof : ∀ j ∈ jobs, ∃ f Fs, f ∈ files ∧ PartFile w.title args.toArgs (pathBase dir) j.embeds (part j) f Fs := by
    intro j hj
    obtain ⟨f, hf, Fs, hp⟩ := Each.left hparts j hj
    exact ⟨f, Fs, hf, hp⟩
  have hcommons := fun j hj => commons_of (args := args.toArgs) h3 hs.name hs.exported hjn hs.distinct (j := j) hj
  refine ⟨files, ⟨?_, package_nodup hparts hjn hs.distinct, ?_, ?_, ?_⟩, Each.imp' (fun _ _ h => h.1) hfiles, ?_⟩
  · intro f hf
    obtain ⟨j, _, Fs, hp⟩ := Each.right hparts f hf
    exact hp.pkg
  · intro f hf
    obtain ⟨j, _, Fs, hp⟩ := Each.right hparts f hf
    exact hp.imports
  · intro f hf p hp hm
    obtain ⟨j, _, Fs, hpf⟩ := Each.right hparts f hf
    obtain rfl := hpf.times p hp
    obtain ⟨f', hf', hm⟩ := mem_packageNames.1 hm
    obtain ⟨j', _, Fs', hpf'⟩ := Each.right hparts f' hf'
    obtain ⟨c, t, e, hl⟩ := hpf'.upper _ hm
    cases e
    exact absurd hl (by decide)
  · intro f hf d hd n hn
    obtain ⟨j, hj, Fs, hp⟩ := Each.right hparts f hf
    rcases hp.closed.2 d hd n hn with h' | h' | h'
    · exact .inl h'
    · exact .inr (mem_packageNames.2 ⟨f, hf, h'⟩)
    · obtain ⟨e1, e2, _⟩ := hcommons j hj
      rw [← e1] at h'
      obtain ⟨p, hp', rfl⟩ := List.mem_map.1 h'
      obtain ⟨c, hc, _, rfl⟩ := e2 p hp'
      obtain ⟨f', Fs', hf', hpf⟩ := hof c hc
      exact .inr (mem_packageNames.2 ⟨f', hf', List.mem_map.2 ⟨_, hpf.mem, rfl⟩⟩)
  · intro j hj ht c hc
    obtain ⟨e1, e2, e3⟩ := hcommons j hj
    obtain ⟨f, Fs, hf, hp⟩ := hof j hj
    have hsome : ∃ k q, Listed (part j).props k q := by
      rcases (hs.ok j hj).written with ⟨hw, _⟩ | ⟨hw, _⟩
      · exact hw.some
      · exact hw.some
    rw [← hs.name j hj]
    rw [← e1] at hp e3
    refine package_through hc hfresh (hs.ok j hj).keys hsome hf hp ?_ e3 ht
    intro p hp'
    obtain ⟨a, ha, hae, rfl⟩ := e2 p hp'
    obtain ⟨f', Fs', hf', hpf⟩ := hof a ha
    rw [hae] at hpf
    exact ⟨f', Fs', hf', hpf⟩

/-- **C102** for schemas that share no properties: each document goes through the struct unchanged for each of the schemas. -/
theorem C102_apart {w : World} {args : BuildArgs} {fs fs' : Files} {x : Unit} {doc : P} {dir : Str} {jobs : List Gen.Spec.Job} {stems : List Str}
    {part : Gen.Spec.Job → Part} (h : buildStructs w args fs = (.ok x, fs')) (he : args.embedAllOf = false) (hdoc : w.read args.schemaPath = .ok doc)
    (hdir : Gen.Spec.Dir args w.getwd dir) (hj : Gen.Spec.Jobs w.title args.structNames doc (w.abs args.schemaPath) jobs) (hst : Gen.Spec.Stems args jobs stems)
    (hnd : stems.Nodup) (hsl : ∀ s ∈ stems, '/' ∉ s) (hs : Schemas u w args dir jobs part) :
    ∃ files, GoPackage (pathBase dir) files ∧ Each (Written u fs' args dir) jobs files ∧
      ∀ j ∈ jobs, Together w.title args.fieldNames (part j) (commonsOf part jobs j) → (∀ p ∈ commonsOf part jobs j, ∀ k ∈ p.keys, k ∉ (part j).keys) →
        ∀ c : Codec, c.Lawful → ∃ sfs, StructIn files (w.title j.name) sfs ∧
          ∀ l, Members c true args.pointers (part j).props (part j).schema.required l →
            (∀ p ∈ commonsOf part jobs j, Members c true args.pointers p.props p.schema.required l) →
            ∃ l', Through c sfs l l' ∧ SameMembers c true (part j).props (part j).schema.required l (l'.filter fun kv => decide (kv.1 ∈ (part j).keys)) ∧
              ∀ p ∈ commonsOf part jobs j, SameMembers c true p.props p.schema.required l (l'.filter fun kv => decide (kv.1 ∈ p.keys)) := by
  obtain ⟨files, h1, h2, h3⟩ := C102_partial h he hdoc hdir hj hst hnd hsl hs
  refine ⟨files, h1, h2, fun j hjm ht hd c hc => ?_⟩
  obtain ⟨sfs, h4, h5⟩ := h3 j hjm ht c hc
  refine ⟨sfs, h4, fun l hl hls => ?_⟩
  obtain ⟨l', h6, h7⟩ := h5 l hl hls
  refine ⟨l', h6, same_part h7 (fun k q hk => joined_own hk) (fun k hk hr => (required_own hk).2 hr), fun p hp => ?_⟩
  exact same_part h7 (fun k q hk => joined_common ht.apart hp (hd p hp k (mem_keys_of_get hk)) hk) fun k hk hr => (required_common ht.apart hp (hd p hp k hk) hk).2 hr

/-- The package declares one struct of a name only. -/
theorem C102_unique {name n : Str} {files : List File} {sfs sfs' : List SF} (h : GoPackage name files) (h1 : StructIn files n sfs) (h2 : StructIn files n sfs') : sfs = sfs' :=
  structIn_unique h.once h1 h2

/-- **C102**, in full: each document of a schema and of the schemas whose structs its struct embeds goes through the struct unchanged, up to properties that none of the
schemas lists. -/
def C102_statement (u : Unicode) : Prop := ∀ (w : World) (args : BuildArgs) (fs fs' : Files) (x : Unit) (doc : P) (dir : Str) (jobs : List Gen.Spec.Job) (stems : List Str)
  (part : Gen.Spec.Job → Part) (files : List File) (c : Codec), buildStructs w args fs = (.ok x, fs') → args.embedAllOf = false → w.read args.schemaPath = .ok doc →
  Gen.Spec.Dir args w.getwd dir → Gen.Spec.Jobs w.title args.structNames doc (w.abs args.schemaPath) jobs → Gen.Spec.Stems args jobs stems → stems.Nodup → (∀ s ∈ stems, '/' ∉ s) →
  Schemas u w args dir jobs part → Each (Written u fs' args dir) jobs files → c.Lawful → ∀ j ∈ jobs, ∃ sfs, StructIn files (w.title j.name) sfs ∧
    ∀ l, Members c true args.pointers (part j).props (part j).schema.required l →
      (∀ p ∈ commonsOf part jobs j, Members c true args.pointers p.props p.schema.required l) →
      ∃ l', Through c sfs l l' ∧ SameMembers c true (part j).props (part j).schema.required l (l'.filter fun kv => decide (kv.1 ∈ (part j).keys)) ∧
        ∀ p ∈ commonsOf part jobs j, SameMembers c true p.props p.schema.required l (l'.filter fun kv => decide (kv.1 ∈ p.keys))

/-! ### Examples -/

namespace C102ex
open C76ex Toy C93ex

/-- A schema with one property. -/
def single (name k : Str) (q : P) (r : List Str) : Part := ⟨name, { Instance.zero with properties := some [(k, q)], required := r }, [(k, q)]⟩

theorem single_listed {name k k' : Str} {q q' : P} {r : List Str} (h : Listed (single name k q r).props k' q') : k' = k ∧ q' = q := by
  have := GMap.get_some_mem h.1
  simpa [single] using this

theorem single_ok {name k : Str} {q : P} {r embeds : List Str} (hq : ((schemaPositions instNode ⟨some [(k, q)], none⟩).all fun x => C56ex.quietB x.1 x.2) = true)
    (ho : ((schemaPositions instNode ⟨some [(k, q)], none⟩).all fun x => C56ex.oneB x.1 x.2) = true)
    (hp : ((schemaPositions instNode ⟨some [(k, q)], none⟩).all fun x => C56ex.plainB x.1 x.2) = true) (ht : TagName k)
    (he : Exported (goName C56ex.capital [] k)) (hr : (k.all fun c => c != '`' && c != '\r' && sourceChar c) = true)
    (hh : ¬ Hydrated q) (hn : Exported (C56ex.capital name)) (hs : ∀ e ∈ embeds, Exported e) (hup : ∀ c t, C56ex.capital name = c :: t → c.isLower = false)
    (h1 : Clean ascii C56ex.capital [] false q) (h2 : GoJson.Clean C56ex.capital [] false q) :
    PartOk ascii C56ex.capital args g!"out" embeds embeds (single name k q r) := by
  refine ⟨by simp [Part.keys, single], .inl ⟨⟨rfl, rfl, rfl, by simp [single], C56ex.quiet hq, C56ex.one ho, C56ex.plain hp, .off rfl, ⟨k, q, by simp [single, GMap.get], hh⟩,
    ascii_name (by decide), exported_name hn, fun e h => exported_name (hs e h)⟩, ⟨?_, ?_, ?_⟩, ?_⟩, hup, ⟨?_, ?_, ?_⟩, ?_⟩
  · intro k' q' h; rw [(single_listed h).1]; exact raw_of hr
  · intro k' q' h; rw [(single_listed h).1]; exact exported_name he
  · intro k1 q1 k2 q2 h1 h2 _; rw [(single_listed h1).1, (single_listed h2).1]
  · intro k' q' h; rw [(single_listed h).2]; exact h1
  · intro k' q' h; rw [(single_listed h).1]; exact ht
  · intro k' q' h; rw [(single_listed h).1]; exact he
  · intro k1 q1 k2 q2 h1 h2 _; rw [(single_listed h1).1, (single_listed h2).1]
  · intro k' q' h; rw [(single_listed h).2]; exact h2

/-- Two schemas with a flag, and one that has a number. -/
def partOf (ref : Str) : Part :=
  if ref = g!"flags.json" then single g!"Flags" g!"flag" pBool [g!"flag"]
  else if ref = g!"more.json" then single g!"More" g!"flag" pBool [g!"flag"]
  else single g!"thing" g!"n" pInt []
def part (j : Gen.Spec.Job) : Part := partOf j.ref

def world (all : List Str) : World := ⟨Sched.id, C56ex.capital, .err, .ok, fun _ => .ok (C65ex.doc all [g!"thing.json"]), fun _ p _ => .ok (partOf (p.drop 3)).schema, fun _ => true, fun _ _ => true⟩
def bargs : BuildArgs := ⟨args, g!"/s/root.json", g!"/out"⟩

def flags : Gen.Spec.Job := ⟨g!"flags.json", g!"Flags", []⟩
def more : Gen.Spec.Job := ⟨g!"more.json", g!"More", []⟩
def thing (embeds : List Str) : Gen.Spec.Job := ⟨g!"thing.json", g!"thing", embeds⟩

def run (all : List Str) : Res Unit × Files := buildStructs (world all) bargs fun _ => none

def textAt (fs : Files) (p : Str) : Option Str := match fs p with
  | some (.go pkg time structs) => if pkg = g!"out" then some (fileSource pkg (time, structs)) else none
  | _ => none

/-- The files. -/
def flagFile (n : Str) : File := ⟨g!"out", [notice], [], [structDecl n [] [.mk [] (some g!"Flag") (.name g!"bool") (some g!"json:\"flag\"")]]⟩
def thingFile (embeds : List Str) : File := ⟨g!"out", [notice], [], [structDecl g!"Thing" embeds [.mk [] (some g!"N") (.name g!"int64") (some g!"json:\"n,omitempty\"")]]⟩

theorem two_ok : (run [g!"flags.json", g!"more.json"]).1 = .ok () ∧
    (textAt (run [g!"flags.json", g!"more.json"]).2 g!"/out/flags.go").bind (lex ascii) = some (flagFile g!"Flags").toks ∧
    (textAt (run [g!"flags.json", g!"more.json"]).2 g!"/out/more.go").bind (lex ascii) = some (flagFile g!"More").toks ∧
    (textAt (run [g!"flags.json", g!"more.json"]).2 g!"/out/thing.go").bind (lex ascii) = some (thingFile [g!"Flags", g!"More"]).toks := by decide +kernel

theorem one_ok : (run [g!"flags.json"]).1 = .ok () := by decide +kernel

theorem clean_bool {b : Bool} : Clean ascii C56ex.capital [] b pBool := .leaf decoded.1 rfl (by decide) (C93ex.doc rfl)

theorem flag_ok {name : Str} (hn : Exported (C56ex.capital name)) (hup : ∀ c t, C56ex.capital name = c :: t → c.isLower = false) :
    PartOk ascii C56ex.capital args g!"out" [] [] (single name g!"flag" pBool [g!"flag"]) :=
  single_ok (by decide +kernel) (by decide +kernel) (by decide +kernel) (by decide) (by decide) (by decide) (not_hydrated (by decide +kernel)) hn (fun _ h => (nomatch h)) hup
    clean_bool (.leaf decoded.1 rfl (by decide) (desc rfl))

theorem thing_ok {embeds : List Str} (h : ∀ e ∈ embeds, Exported e) : PartOk ascii C56ex.capital args g!"out" embeds embeds (single g!"thing" g!"n" pInt []) :=
  single_ok (by decide +kernel) (by decide +kernel) (by decide +kernel) (by decide) (by decide) (by decide) (not_hydrated (by decide +kernel)) (by decide) h
    (by intro c t e; cases e; decide) C93ex.clean_int C76ex.clean_int

/-- The jobs for two schemas with a flag. -/
def jobs2 : List Gen.Spec.Job := [flags, more, thing [g!"Flags", g!"More"]]
def jobs1 : List Gen.Spec.Job := [flags, thing [g!"Flags"]]

theorem jobs_for {all refs : List Str} {jobs : List Gen.Spec.Job} (h : buildPlan (world all) bargs = .ok (g!"/out", refs, refsIn (C65ex.doc all [g!"thing.json"]) g!"oneOf"))
    (hj : jobsOf (world all) bargs refs (refsIn (C65ex.doc all [g!"thing.json"]) g!"oneOf") = jobs) :
    Gen.Spec.Jobs (world all).title bargs.structNames (C65ex.doc all [g!"thing.json"]) ((world all).abs bargs.schemaPath) jobs := by
  obtain ⟨doc, _, h2, h3, _⟩ := plan_of h
  cases h2
  rw [← hj]
  exact jobs_of h3

theorem stem {p s : Str} (h : subName p = s) : BaseName p s := by
  obtain ⟨s', hs⟩ := baseName_total p
  rw [subName_baseName hs] at h
  exact h ▸ hs

theorem name_of {p : Part} {n : Str} (h : StructName C56ex.capital args p n) : n = C56ex.capital p.name := by
  rcases h with h | ⟨h, _⟩
  · exact h
  · cases h

theorem schemas {all : List Str} {jobs : List Gen.Spec.Job} (h : ∀ j ∈ jobs, j = flags ∨ j = more ∨ ∃ es, j = thing es ∧ (∀ e ∈ es, Exported e ∧ C56ex.capital e = e))
    (hone : ∀ es es', thing es ∈ jobs → thing es' ∈ jobs → es = es') : Schemas ascii (world all) bargs g!"/out" jobs part := by
  refine ⟨?_, ?_, ?_, ?_, ?_⟩
  · intro j hj
    rcases h j hj with rfl | rfl | ⟨es, rfl, _⟩ <;> rfl
  · intro j hj
    rcases h j hj with rfl | rfl | ⟨es, rfl, _⟩ <;> rfl
  · intro j hj
    rcases h j hj with rfl | rfl | ⟨es, rfl, he⟩
    · exact flag_ok (name := g!"Flags") (by decide) (by intro c t e; cases e; decide)
    · exact flag_ok (name := g!"More") (by decide) (by intro c t e; cases e; decide)
    · exact thing_ok fun e h => (he e h).1
  · intro j hj
    rcases h j hj with rfl | rfl | ⟨es, rfl, he⟩
    · exact fun e h => (nomatch h)
    · exact fun e h => (nomatch h)
    · exact fun e h => (he e h).2
  · intro j hj j' hj' n hn hn'
    have e : C56ex.capital (part j).name = C56ex.capital (part j').name := (name_of hn).symm.trans (name_of hn')
    rcases h j hj with rfl | rfl | ⟨es, rfl, he⟩ <;> rcases h j' hj' with rfl | rfl | ⟨es', rfl, he'⟩
    · rfl
    · exact absurd e (by decide)
    · exact absurd e (by decide : C56ex.capital g!"Flags" ≠ C56ex.capital g!"thing")
    · exact absurd e (by decide)
    · rfl
    · exact absurd e (by decide : C56ex.capital g!"More" ≠ C56ex.capital g!"thing")
    · exact absurd e (by decide : C56ex.capital g!"thing" ≠ C56ex.capital g!"Flags")
    · exact absurd e (by decide : C56ex.capital g!"thing" ≠ C56ex.capital g!"More")
    · rw [hone es es' hj hj']

theorem names_ok {l : List Str} (h : (l.all fun e => decide (Exported e ∧ C56ex.capital e = e)) = true) : ∀ e ∈ l, Exported e ∧ C56ex.capital e = e :=
  fun e he => of_decide_eq_true (List.all_eq_true.1 h e he)

theorem schemas1 : Schemas ascii (world [g!"flags.json"]) bargs g!"/out" jobs1 part := by
  refine schemas (fun j hj => ?_) (fun es es' h h' => ?_)
  · simp only [jobs1, List.mem_cons, List.not_mem_nil, or_false] at hj
    rcases hj with rfl | rfl
    · exact .inl rfl
    · exact .inr (.inr ⟨_, rfl, names_ok (by decide)⟩)
  · simp only [jobs1, List.mem_cons, List.not_mem_nil, or_false, thing, flags, Gen.Spec.Job.mk.injEq] at h h'
    rcases h with h | h <;> rcases h' with h' | h'
    · exact absurd h.1 (by decide)
    · exact absurd h.1 (by decide)
    · exact absurd h'.1 (by decide)
    · rw [h.2.2, h'.2.2]

theorem schemas2 : Schemas ascii (world [g!"flags.json", g!"more.json"]) bargs g!"/out" jobs2 part := by
  refine schemas (fun j hj => ?_) (fun es es' h h' => ?_)
  · simp only [jobs2, List.mem_cons, List.not_mem_nil, or_false] at hj
    rcases hj with rfl | rfl | rfl
    · exact .inl rfl
    · exact .inr (.inl rfl)
    · exact .inr (.inr ⟨_, rfl, names_ok (by decide)⟩)
  · simp only [jobs2, List.mem_cons, List.not_mem_nil, or_false, thing, flags, more, Gen.Spec.Job.mk.injEq] at h h'
    rcases h with h | h | h <;> rcases h' with h' | h' | h' <;> first | exact absurd h.1 (by decide) | exact absurd h'.1 (by decide) | rw [h.2.2, h'.2.2]

theorem stems1 : Gen.Spec.Stems bargs jobs1 [g!"flags", g!"thing"] := .cons (stem (by decide)) (.cons (stem (by decide)) .nil)
theorem stems2 : Gen.Spec.Stems bargs jobs2 [g!"flags", g!"more", g!"thing"] := .cons (stem (by decide)) (.cons (stem (by decide)) (.cons (stem (by decide)) .nil))

/-- A document. -/
def document : List (Str × J) := [(g!"flag", .bool false), (g!"n", .num g!"7")]

theorem flag_members {name : Str} : Members codec true false (single name g!"flag" pBool [g!"flag"]).props [g!"flag"] document := by
  have hk : ∀ kv ∈ document, codec.fold g!"flag" = codec.fold kv.1 → g!"flag" = kv.1 := by decide +kernel
  refine ⟨by decide, ?_, ?_, ?_, ?_, ?_⟩
  · intro k h
    rw [List.mem_singleton.1 h]
    exact ⟨_, List.mem_cons_self⟩
  · intro k v q h hq
    have hq := GMap.get_some_mem hq
    have hq : k = g!"flag" ∧ q = pBool := by simpa [single] using hq
    obtain ⟨rfl, rfl⟩ := hq
    simp only [document, List.mem_cons, Prod.mk.injEq, true_and, List.not_mem_nil, or_false] at h
    rcases h with rfl | ⟨h, _⟩
    · exact .bool decoded.1 rfl
    · exact absurd h (by decide)
  · intro _ h
    exact absurd ⟨rfl, not_hydrated (by decide +kernel)⟩ (h g!"flag" pBool)
  · intro _ k v hv k' q hq
    rw [(single_listed hq).1]
    exact hk _ hv
  · intro _ k q hq hr
    exact absurd (by rw [(single_listed hq).1]; exact List.mem_singleton.2 rfl) hr

theorem thing_members : Members codec true false (single g!"thing" g!"n" pInt []).props [] document := by
  have hk : ∀ kv ∈ document, codec.fold g!"n" = codec.fold kv.1 → g!"n" = kv.1 := by decide +kernel
  refine ⟨by decide, fun k h => (nomatch h), ?_, ?_, ?_, ?_⟩
  · intro k v q h hq
    have hq := GMap.get_some_mem hq
    have hq : k = g!"n" ∧ q = pInt := by simpa [single] using hq
    obtain ⟨rfl, rfl⟩ := hq
    simp only [document, List.mem_cons, Prod.mk.injEq, true_and, List.not_mem_nil, or_false] at h
    rcases h with ⟨h, _⟩ | rfl
    · exact absurd h (by decide)
    · exact .integer (n := 7) decoded.2.1 rfl (.inl (by decide)) (fun _ => ⟨by decide, by decide⟩)
  · intro _ h
    exact absurd ⟨rfl, not_hydrated (by decide +kernel)⟩ (h g!"n" pInt)
  · intro _ k v hv k' q hq
    rw [(single_listed hq).1]
    exact hk _ hv
  · intro _ k q hq hr hb
    rw [(single_listed hq).1]
    exact ⟨_, List.mem_cons_of_mem _ List.mem_cons_self⟩

theorem plan1 : Gen.Spec.Jobs (world [g!"flags.json"]).title bargs.structNames (C65ex.doc [g!"flags.json"] [g!"thing.json"]) ((world [g!"flags.json"]).abs bargs.schemaPath) jobs1 :=
  jobs_for (refs := [g!"flags.json"]) (by rfl) (by rfl)

theorem plan2 : Gen.Spec.Jobs (world [g!"flags.json", g!"more.json"]).title bargs.structNames (C65ex.doc [g!"flags.json", g!"more.json"] [g!"thing.json"])
    ((world [g!"flags.json", g!"more.json"]).abs bargs.schemaPath) jobs2 := jobs_for (refs := [g!"flags.json", g!"more.json"]) (by rfl) (by rfl)

/-- The theorem applies to a schema with one entry in allOf and one in oneOf: the document comes back with the flag, which is required. -/
example : ∃ files sfs l', GoPackage g!"out" files ∧ Each (Written ascii (run [g!"flags.json"]).2 bargs g!"/out") jobs1 files ∧ StructIn files g!"Thing" sfs ∧
    Through codec sfs document l' ∧ SameMembers codec true [(g!"n", pInt), (g!"flag", pBool)] [g!"flag"] document l' := by
  obtain ⟨files, h1, h2, h3⟩ := C102_partial (u := ascii) (w := world [g!"flags.json"]) (args := bargs) (Prod.ext one_ok rfl) rfl rfl (.given (by decide)) plan1 stems1 (by decide)
    (by decide) schemas1
  have ht : Together C56ex.capital [] (part (thing [g!"Flags"])) (commonsOf part jobs1 (thing [g!"Flags"])) := by
    refine ⟨?_, by unfold Apart; decide, ?_⟩
    · intro p hp k q hl
      obtain rfl := List.mem_singleton.1 (show p ∈ [part flags] from hp)
      rw [(single_listed (name := g!"thing") (k := g!"n") (q := pInt) (r := []) hl).1]
      decide
    · intro k q hk hh
      have := GMap.get_some_mem (show GMap.get k [(g!"n", pInt)] = some q from hk)
      have : k = g!"n" ∧ q = pInt := by simpa using this
      rw [this.2] at hh
      exact absurd hh (not_hydrated (by decide +kernel))
  obtain ⟨sfs, h4, h5⟩ := h3 (thing [g!"Flags"]) (by simp [jobs1]) ht codec lawful
  obtain ⟨l', h6, h7⟩ := h5 document thing_members (fun p hp => by obtain rfl := List.mem_singleton.1 (show p ∈ [part flags] from hp); exact flag_members)
  exact ⟨files, sfs, l', h1, h2, h4, h6, h7⟩

def files2 : List File := [flagFile g!"Flags", flagFile g!"More", thingFile [g!"Flags", g!"More"]]

theorem source_of {fs : Files} {p : Str} {f : File} (h : (textAt fs p).bind (lex ascii) = some f.toks) :
    ∃ time structs, fs p = some (.go (pathBase g!"/out") time structs) ∧ Source ascii (fileSource (pathBase g!"/out") (time, structs)) f := by
  unfold textAt at h
  split at h
  · rename_i pkg time structs hfs
    split at h
    · rename_i hpkg
      subst hpkg
      exact ⟨time, structs, hfs, h⟩
    · cases h
  · cases h

theorem written2 : Each (Written ascii (run [g!"flags.json", g!"more.json"]).2 bargs g!"/out") jobs2 files2 := by
  refine .cons (fun path h => ?_) (.cons (fun path h => ?_) (.cons (fun path h => ?_) .nil)) <;> rw [fileFor_iff] at h <;> subst h
  · exact source_of two_ok.2.1
  · exact source_of two_ok.2.2.1
  · exact source_of two_ok.2.2.2

def flagField : SF := .mk g!"Flag" g!"flag" .never .bool
def nField : SF := .mk g!"N" g!"n" .empty .int64

theorem flag_stands {f : File} {n : Str} (h : flagFile n ∈ files2) : Stands files2 f (.name n) (.struct [flagField]) :=
  .named h (List.mem_singleton.2 rfl) (.struct (.cons (by decide +kernel) (.basic (by decide) (by simp [basicTypes])) .nil) (by
    unfold checked
    rw [if_pos]
    decide))

theorem in2 : StructIn files2 g!"Thing" [nField] := by
  have := StructIn.mk (pkg := files2) (n := g!"Thing") (f := thingFile [g!"Flags", g!"More"]) (es := [g!"Flags", g!"More"]) (sfs := [nField])
    (ess := [[flagField], [flagField]]) (by simp [files2]) (List.mem_singleton.2 rfl)
    (.struct (.cons (by decide +kernel) (.basic (by decide) (by simp [basicTypes])) .nil) (by
      unfold checked
      rw [if_pos]
      decide)) (.cons (flag_stands (by simp [files2])) (.cons (flag_stands (by simp [files2])) .nil)) (by decide)
  exact this

end C102ex

open C102ex C76ex C93ex in
/-- The statement is false: a property that two of the embedded structs have is lost, though it is required. -/
theorem C102_refuted : ∃ u, ¬ C102_statement u := by
  refine ⟨ascii, fun h => ?_⟩
  obtain ⟨sfs, h1, h2⟩ := h (world [g!"flags.json", g!"more.json"]) bargs (fun _ => none) _ () _ g!"/out" jobs2 _ part files2 codec (Prod.ext two_ok.1 rfl) rfl rfl
    (.given (by decide)) plan2 stems2 (by decide) (by decide) schemas2 written2 lawful (thing [g!"Flags", g!"More"]) (by simp [jobs2])
  have hn : (packageNames files2).Nodup := by decide
  obtain rfl := structIn_unique hn h1 in2
  obtain ⟨l', ⟨v, h3, h4⟩, _, h5⟩ := h2 document thing_members (fun p hp => by
    have hp : p ∈ [part flags, part more] := hp
    simp only [List.mem_cons, List.not_mem_nil, or_false] at hp
    rcases hp with rfl | rfl <;> exact flag_members)
  have hv : decode codec (.struct [nField]) (zero codec (.struct [nField])) (.obj document) = some v := h3
  have hb : (decode codec (.struct [nField]) (zero codec (.struct [nField])) (.obj document)).bind (encode codec (.struct [nField])) = some (.obj l') := by
    rw [hv]; exact h4
  have hk : g!"flag" ∉ C86ex.keysOf ((decode codec (.struct [nField]) (zero codec (.struct [nField])) (.obj document)).bind (encode codec (.struct [nField]))) := by decide +kernel
  rw [hb] at hk
  rcases (h5 (part flags) (List.mem_cons_self)).complete g!"flag" (.bool false) pBool List.mem_cons_self ⟨rfl, not_hydrated (by decide +kernel)⟩ with ⟨v', hv'⟩ | ⟨_, hr, _⟩
  · exact hk (List.mem_map.2 ⟨_, (List.mem_filter.1 hv').1, rfl⟩)
  · exact hr (List.mem_singleton.2 rfl)

end JT.GoText
