import Verif.Proofs.GoMeaning
/- C95: documents of a schema go through the types that the generated Go source declares. -/
namespace JT.GoText
open Gen Spec JT.Spec GoJson Flat

variable {u : Unicode} {title : Str → Str}

/-- However the schema is walked, the text of the file is Go source in which the name of the schema's struct means the struct with the fields `sfs`. -/
def Declared (u : Unicode) (title : Str → Str) (args : Args) (schema : Instance) (pkg name : Str) (embeds : List Str) (sfs : List SF) : Prop :=
  ∃ f, (f.types.map Prod.fst).Nodup ∧ Denotes f (.name (title name)) (.struct sfs) ∧
    ∀ sched, ∃ g, newGoFile sched title args schema name embeds = .ok g ∧ Source u (fileSource pkg (g.text title args)) f

/-- What is asked of a schema: that the file for it can be written (C93, C94), and that names give exported names of fields and names in tags. -/
structure Passable (u : Unicode) (title : Str → Str) (args : Args) (schema : Instance) (m : GMap P) (pkg name : Str) (embeds : List Str) : Prop where
  written : (Writable u title args schema m pkg name embeds [] ∧ Names u title args.fieldNames m ∧ ∀ k q, Listed m k q → Clean u title args.fieldNames args.descTag q) ∨
    (FlatWritable u title args schema m pkg name embeds [] ∧ FlatText args schema ∧ NoEmptyPointers args schema)
  upper : ∀ c t, title name = c :: t → c.isLower = false
  names : CleanNames title args.fieldNames m
  clean : ∀ k q, Listed m k q → GoJson.Clean title args.fieldNames args.descTag q

/-- **C95**, in full: each document of the schema goes through the declared struct unchanged, up to properties that the schema does not list. -/
def C95_statement (u : Unicode) (title : Str → Str) : Prop := ∀ (c : Codec) (args : Args) (schema : Instance) (m : GMap P) (pkg name : Str) (embeds : List Str),
  c.Lawful → Passable u title args schema m pkg name embeds → ∃ sfs, Declared u title args schema pkg name embeds sfs ∧
    ∀ l, Members c false args.pointers m schema.required l → ∃ l', Through c sfs l l' ∧ SameMembers c false m schema.required l l'

theorem not_small {n : Str} (hn : ∃ c t, n = c :: t ∧ c.isLower = false) : n ∉ scalarTable.map Prod.snd := by
  obtain ⟨c, t, rfl, h⟩ := hn
  intro hm
  have : ∀ n ∈ scalarTable.map Prod.snd, (n.headD 'A').isLower = true := by decide
  have := this _ hm
  simp only [List.headD_cons, h] at this
  cases this

theorem struct_through {c : Codec} {pointers : Bool} {f : File} {m : GMap P} {r : List Str} {Fs : List Field} {sfs : List SF} (h : StructMeans c pointers f m r Fs sfs)
    {l : List (Str × J)} (hl : Members c true pointers m r l) : ∃ l', Through c sfs l l' ∧ SameMembers c true m r l l' := by
  obtain ⟨vs, l', a1, a2, a3, a4⟩ := struct_good h.nodup h.sound h.complete hl
  exact ⟨l', ⟨_, a1, by simp [encode, a2]⟩, a3⟩

/-- **C95**, partial: except that optional properties with blank values may be lost, and if the document meets the conditions of `Valid` with `strict`. -/
theorem C95_partial {c : Codec} {args : Args} {schema : Instance} {m : GMap P} {pkg name : Str} {embeds : List Str} (hc : c.Lawful)
    (h : Passable u title args schema m pkg name embeds) : ∃ sfs, Declared u title args schema pkg name embeds sfs ∧
    ∀ l, Members c true args.pointers m schema.required l → ∃ l', Through c sfs l l' ∧ SameMembers c true m schema.required l l' := by
  rcases h.written with ⟨hw, hn, hcl⟩ | ⟨hw, ht, he⟩
  · obtain ⟨ks, Fs, h1, imports, h2, h3⟩ := C93_partial hw hn hcl
    have hfresh : Fresh ⟨pkg, [notice], imports, [structDecl (title name) [] Fs]⟩ := by
      intro n hn' hm
      obtain rfl := List.mem_singleton.1 hm
      obtain ⟨⟨c', t, e, _⟩, _⟩ := hw.name
      exact not_small ⟨c', t, e, h.upper c' t e⟩ hn'
    obtain ⟨sfs, hs⟩ := structFor_means hc hfresh h1 h.names h.clean fun hu => (h2.2 _).2 ⟨_, List.mem_singleton.2 rfl, by simpa [structDecl, Ty.uses] using hu⟩
    exact ⟨sfs, ⟨_, by simp, .named (List.mem_singleton.2 rfl) hs.denotes, h3⟩, fun l hl => struct_through hs hl⟩
  · obtain ⟨f, hf, hcl, hsrc⟩ := C94_partial hw ht he
    obtain ⟨Fs, ds, t1, t2, t3, t4, t5⟩ := hf.types
    have hbig : ∀ l, ∃ c t, keyOf title name l = c :: t ∧ c.isLower = false := fun l => by
      obtain ⟨c, t, h1, _, h2⟩ := key_big (u := u) hw.rootName hw.upper l
      exact ⟨c, t, h1, h2⟩
    have hfresh : Fresh f := by
      intro n hn' hm
      rw [t1] at hm
      obtain ⟨d, hd, rfl⟩ := List.mem_map.1 hm
      rcases List.mem_cons.1 hd with rfl | hd
      · have := hbig []
        rw [show keyOf title name [] = title name by simp [keyOf, Spec.names]] at this
        exact not_small this hn'
      · obtain ⟨l, _, hs⟩ := t4 d hd
        cases hs with
        | mk _ _ _ => exact not_small (hbig l) hn'
    have hmem : structDecl (title name) [] Fs ∈ f.types := by rw [t1]; exact List.mem_cons_self
    have hroot : ObjectAt schema [] m schema.required := .root hw.properties
    obtain ⟨sfs, hs⟩ := flat_struct_means (c := c) hc hfresh h.names h.clean t2
      (fun k q hl => named_means hc hw.conditions hf hfresh (h.clean k q hl) [.key k] (by simp) (listed_at hw.conditions hroot hl))
      (fun hu => (hf.imports.2 _).2 ⟨_, hmem, by simpa [structDecl, Ty.uses] using hu⟩)
    exact ⟨sfs, ⟨f, hcl.1, .named hmem hs.denotes, hsrc⟩, fun l hl => struct_through hs hl⟩

/-- The text declares one struct of that name only. -/
theorem C95_unique {args : Args} {schema : Instance} {pkg name : Str} {embeds : List Str} {sfs sfs' : List SF} (h : Declared u title args schema pkg name embeds sfs)
    (h' : Declared u title args schema pkg name embeds sfs') : sfs = sfs' := by
  obtain ⟨f, h1, h2, h3⟩ := h
  obtain ⟨f', h1', h2', h3'⟩ := h'
  obtain ⟨g, a1, a2⟩ := h3 Sched.id
  obtain ⟨g', a1', a2'⟩ := h3' Sched.id
  obtain rfl := Res.ok.inj (a1.symm.trans a1')
  obtain rfl := C93_unique a2 a2'
  exact GT.struct.inj (denotes_unique h1 h2 h2')

/-! ### Examples -/

namespace C95ex
open C76ex Toy C93ex

/-- Objects are not nullable. -/
def solidB (_ : List Seg) (q : P) : Bool := match decodeInstance false q with
  | .ok i => decide (g!"object" ∈ i.type → g!"null" ∉ i.type)
  | _ => true

theorem solid {args : Args} {name : Str} {m : GMap P} {rq : List Str} (hp : args.pointers = false) (hc : Conditions C56ex.capital name ⟨some m, none⟩)
    (h : ((schemaPositions instNode ⟨some m, none⟩).all fun x => solidB x.1 x.2) = true) :
    NoEmptyPointers args { Instance.zero with properties := some m, required := rq } := by
  intro l m' rq' k q i m'' ho hl hi _
  refine ⟨?_, fun e => by rw [hp] at e; cases e⟩
  have hq := listed_at (schema := { Instance.zero with properties := some m, required := rq }) hc ho hl
  have hcheck : ∀ l q', SchemaAt instNode ⟨some m, none⟩ l q' → decodeInstance false q' = .ok i → TypeIs i g!"object" → g!"null" ∉ i.type := by
    intro l q' h1 h2 h3
    have := check_positions instNode_shrinks h h1
    unfold solidB at this
    rw [h2] at this
    exact of_decide_eq_true this ((mem_type h3 (by decide)).2 rfl)
  cases hi with
  | object h1 h2 h3 => exact hcheck _ _ hq h1 h2
  | items h1 h2 h3 h4 h5 h6 =>
    exact hcheck _ _ (items_at (schema := { Instance.zero with properties := some m, required := rq }) hc hq h1 h2 h3) h4 h5

theorem upper_thing : ∀ c t, C56ex.capital g!"thing" = c :: t → c.isLower = false := by
  intro c t e
  cases e
  decide

/-- A schema with properties of all types meets the conditions, with a struct inside. -/
theorem inline_props : Passable ascii C56ex.capital args schema props g!"things" g!"thing" [] :=
  ⟨.inl ⟨⟨rfl, rfl, rfl, by decide, C56ex.quiet (by decide +kernel), C56ex.one (by decide +kernel), C56ex.plain (by decide +kernel), .off rfl,
    ⟨g!"at", pTime, rfl, not_hydrated (by decide +kernel)⟩, ascii_name (by decide), exported_name (by decide), fun e he => (nomatch he)⟩,
    C93ex.names (by decide +kernel) (by decide +kernel) (by decide +kernel), fun _ _ h => C93ex.clean_props _ _ (listed h)⟩,
    upper_thing, names_props, fun _ _ h => C76ex.clean_props _ _ (listed h)⟩

theorem flat_conditions : Conditions C56ex.capital g!"thing" ⟨some props, none⟩ := C56flatex.conditions (by decide +kernel) (by decide +kernel) (by decide +kernel)

/-- The same with structs of their own. -/
theorem flat_props : Passable ascii C56ex.capital C56ex.flat schema props g!"things" g!"thing" [] := by
  obtain ⟨h1, h2⟩ := C94ex.writable (args := C56ex.flat) (rq := [g!"in", g!"text"]) (embeds := []) rfl rfl rfl flat_conditions (by decide +kernel) (by decide +kernel) (by decide +kernel)
    (C94ex.listed_any (by decide +kernel)) (by decide)
  exact ⟨.inr ⟨h1, h2, solid rfl flat_conditions (by decide +kernel)⟩, upper_thing, names_props, fun _ _ h => C76ex.clean_props _ _ (listed h)⟩

/-- A document with an object inside, a list and a property that is not listed meets the conditions and goes through the declared struct. -/
example : ∃ sfs l', Declared ascii C56ex.capital C56ex.flat schema g!"things" g!"thing" [] sfs ∧ Through codec sfs doc l' ∧ SameMembers codec true props schema.required doc l' := by
  obtain ⟨sfs, h1, h2⟩ := C95_partial (c := codec) lawful flat_props
  obtain ⟨l', h3, h4⟩ := h2 doc doc_members
  exact ⟨sfs, l', h1, h3, h4⟩

/-- One number. -/
def one : GMap P := [(g!"n", pInt)]
def oneSchema : Instance := { Instance.zero with properties := some one }

theorem one_text : (text C56ex.flat oneSchema).bind (lex ascii) = some (File.toks ⟨g!"things", [notice], [],
    [structDecl g!"Thing" [] [.mk [] (some g!"N") (.name g!"int64") (some g!"json:\"n,omitempty\"")]]⟩) := by decide +kernel

theorem one_listed {k : Str} {q : P} (h : Listed one k q) : k = g!"n" ∧ q = pInt := by
  have := GMap.get_some_mem h.1
  simpa [one] using this

theorem one_passable : Passable ascii C56ex.capital C56ex.flat oneSchema one g!"things" g!"thing" [] := by
  have hc : Conditions C56ex.capital g!"thing" ⟨some one, none⟩ := C56flatex.conditions (by decide +kernel) (by decide +kernel) (by decide +kernel)
  obtain ⟨h1, h2⟩ := C94ex.writable (args := C56ex.flat) (rq := []) (embeds := []) rfl rfl rfl hc (by decide +kernel) (by decide +kernel) (by decide +kernel)
    (C94ex.listed_any (by decide +kernel)) (by decide)
  refine ⟨.inr ⟨h1, h2, solid rfl hc (by decide +kernel)⟩, upper_thing, ⟨fun k q h => ?_, fun k q h => ?_, fun k q k' q' h h' _ => ?_⟩, fun k q h => ?_⟩
  · rw [(one_listed h).1]; decide
  · rw [(one_listed h).1]; decide
  · rw [(one_listed h).1, (one_listed h').1]
  · rw [(one_listed h).2]; exact C76ex.clean_int

end C95ex

/-- The statement is false: `1.0` is an integer in JSON schemas, and no number for a field of type `int64`. -/
theorem C95_refuted : ∃ u title, ¬ C95_statement u title := by
  refine ⟨C93ex.ascii, C56ex.capital, fun h => ?_⟩
  obtain ⟨sfs, ⟨f, hn, hd, hs⟩, hall⟩ := h C76ex.codec _ _ _ _ _ _ C76ex.lawful C95ex.one_passable
  obtain ⟨g, hg, hl⟩ := hs Sched.id
  have ht := C95ex.one_text
  unfold C93ex.text at ht
  rw [hg] at ht
  obtain rfl := C93_unique hl ht
  have hd' : Denotes ⟨g!"things", [notice], [], [structDecl g!"Thing" [] [.mk [] (some g!"N") (.name g!"int64") (some g!"json:\"n,omitempty\"")]]⟩ (.name g!"Thing")
      (.struct [.mk g!"N" g!"n" .empty .int64]) :=
    .named (List.mem_singleton.2 rfl) (.struct (.cons (by decide +kernel) (.basic (by decide) (by simp [basicTypes])) .nil) (by
      unfold checked
      rw [if_pos]
      decide))
  obtain rfl := GT.struct.inj (denotes_unique hn hd hd')
  obtain ⟨l', ⟨v, hv, _⟩, _⟩ := hall [(g!"n", .num g!"1.0")] ⟨by decide, fun k hk => (nomatch hk), fun k v q hk hq => by
      cases List.mem_singleton.1 hk
      cases hq
      exact .integer (n := 1) C76ex.decoded.2.1 rfl (.inr (by decide)) (fun h => (nomatch h)), fun h => (nomatch h), fun h => (nomatch h), fun h => (nomatch h)⟩
  have : decode C76ex.codec (.struct [.mk g!"N" g!"n" .empty .int64]) (zero C76ex.codec (.struct [.mk g!"N" g!"n" .empty .int64])) (.obj [(g!"n", .num g!"1.0")]) = none := by rfl
  rw [this] at hv
  cases hv

end JT.GoText
