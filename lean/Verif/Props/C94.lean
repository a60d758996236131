import Verif.Proofs.GoFlat
import Verif.Props.C93
import Verif.Props.C65
/- C94: with structs of their own for objects, the generated Go file is Go source that declares them all. -/
namespace JT.GoText
open Gen Spec JT.Spec GoJson Flat

variable {u : Unicode} {title : Str → Str}

/-- However the schema is walked, the text of the file is Go source: that of the file that the schema asks for, in which every type is declared. -/
def FlatDeclares (u : Unicode) (title : Str → Str) (args : Args) (schema : Instance) (m : GMap P) (pkg name : Str) (embeds es : List Str) : Prop :=
  ∃ f, FlatFile title args schema m pkg name es f ∧ f.Closed es ∧
    ∀ sched, ∃ g, newGoFile sched title args schema name embeds = .ok g ∧ Source u (fileSource pkg (g.text title args)) f

/-- **C94**, in full: for schemas of the usual types whose names give different names in Go. -/
def C94_statement (u : Unicode) (title : Str → Str) : Prop := ∀ (args : Args) (schema : Instance) (m : GMap P) (pkg name : Str) (embeds es : List Str),
  FlatWritable u title args schema m pkg name embeds es → FlatText args schema → FlatDeclares u title args schema m pkg name embeds es

/-! ### Files with several structs -/

/-- The text of a struct after others. -/
theorem runs_decl {s : StructText} {fs : List Field} (hn : Name u s.name) (he : ∀ e ∈ s.embeds, Name u e)
    (hbody : Runs u (.start false) (textOf s.body) (fieldsToks fs) (.start false)) (b : Bool) :
    ∃ ts, Runs u (.start b) (g!"\n\n" ++ s.source) (semiTok b ++ ts) (.start true) ∧ ts ++ [.punct ';'] = typeToks (structDecl s.name s.embeds fs) := by
  have h6 : Runs u (.start b) g!"\n\ntype " (semiTok b ++ [.keyword g!"type"]) (.start false) := by cases b <;> rfl
  have h7 := runs_name hn false (c := ' ') (.inr rfl)
  have h8 : Runs u (.start true) g!"struct {\n" [.keyword g!"struct", .punct '{'] (.start false) := rfl
  have h9 := runs_embeds he
  have h10 : Runs u (.start false) g!"}" [.punct '}'] (.start true) := rfl
  have := h6.append (h7.append (h8.append (h9.append (hbody.append h10))))
  have htext : g!"\n\n" ++ s.source = g!"\n\ntype " ++ ((s.name ++ [' ']) ++ (g!"struct {\n" ++ (embedsText s.embeds ++ (textOf s.body ++ g!"}")))) := by
    simp [StructText.source, textOf]
  rw [htext]
  rw [List.append_assoc (semiTok b)] at this
  refine ⟨_, this, ?_⟩
  simp [typeToks, structDecl, Ty.toks, fieldsToks_append]

theorem runs_decls {α : Type} {T : α → StructText} {D : α → Str × Ty} : ∀ {l : List α} (b : Bool),
    (∀ x ∈ l, Name u (T x).name ∧ (∀ e ∈ (T x).embeds, Name u e) ∧
      ∃ fs, D x = structDecl (T x).name (T x).embeds fs ∧ Runs u (.start false) (textOf (T x).body) (fieldsToks fs) (.start false)) →
    ∃ ts b', Runs u (.start b) ((l.map T).flatMap fun s => g!"\n\n" ++ s.source) ts (.start b') ∧ ts ++ semiTok b' = semiTok b ++ (l.map D).flatMap typeToks
  | [], b, _ => ⟨[], b, .nil _, by simp⟩
  | x :: l, b, h => by
    obtain ⟨h1, h2, fs, h3, h4⟩ := h x (by simp)
    obtain ⟨ts, h5, h6⟩ := runs_decl h1 h2 h4 b
    obtain ⟨us, b', h7, h8⟩ := runs_decls (T := T) (D := D) (l := l) true fun y hy => h y (by simp [hy])
    refine ⟨_, b', by rw [List.map_cons, List.flatMap_cons]; exact h5.append h7, ?_⟩
    rw [List.append_assoc, h8, List.map_cons, List.flatMap_cons, h3, ← h6]
    simp [semiTok]

/-- The text of a file with several structs. -/
theorem file_sources {pkg : Str} {α : Type} {T : α → StructText} {D : α → Str × Ty} {l : List α} (b : Bool) (hp : Name u pkg)
    (h : ∀ x ∈ l, Name u (T x).name ∧ (∀ e ∈ (T x).embeds, Name u e) ∧
      ∃ fs, D x = structDecl (T x).name (T x).embeds fs ∧ Runs u (.start false) (textOf (T x).body) (fieldsToks fs) (.start false)) :
    Source u (fileSource pkg (b, l.map T)) ⟨pkg, [notice], if b then [g!"time"] else [], l.map D⟩ := by
  have h1 : Runs u (.start false) g!"package " [.keyword g!"package"] (.start false) := rfl
  have h2 := runs_name_line hp false
  have h3 : Runs u (.start false) g!"\n" [] (.start false) := rfl
  have h4 := runs_comment (u := u) (s := notice) (by unfold CommentText; decide) (by decide) false
  have h5 : Runs u (.start false) (if b then g!"import \"time\"\n" else []) ((if b then [g!"time"] else []).flatMap importToks) (.start false) := by cases b <;> rfl
  obtain ⟨ts, b', h6, h7⟩ := runs_decls (T := T) (D := D) false h
  have := h1.append (h2.append (h3.append (h4.append (h3.append (h5.append h6)))))
  have htext : fileSource pkg (b, l.map T) = g!"package " ++ ((pkg ++ g!"\n") ++ (g!"\n" ++ ((g!"//" ++
      notice ++ g!"\n") ++ (g!"\n" ++ ((if b then g!"import \"time\"\n" else []) ++ (l.map T).flatMap fun s => g!"\n\n" ++ s.source))))) := by
    simp [fileSource, disclaimer, notice]
  unfold Source lex
  rw [htext, show run u (.start false) _ = _ from this]
  simp only [finish, Option.map_some, File.toks, Option.some.injEq]
  simp only [List.append_assoc, h7]
  simp [semiTok]

/-! ### The structs of a file -/

theorem sorted_nested {sched : Sched} {args : Args} {schema : Instance} {name : Str} {embeds : List Str} {g : GoFile} (ha : args.noNested = true)
    (h : newGoFile sched title args schema name embeds = .ok g) : g.nested.Sorted := by
  obtain ⟨r, h1, rfl⟩ := Res.map_eq_ok.1 h
  refine walkSchema_inv (I := fun g : GoFile => g.nested.Sorted) ?_ (show GMap.Sorted [] from trivial) h1
  intro path i s s' hs hf
  unfold walkFunc at hf
  rw [if_neg (by simp [ha])] at hf
  unfold walkFlat at hf
  simp only at hf
  split at hf
  · cases hf
  · obtain ⟨fs, _, rfl⟩ := Res.map_eq_ok.1 hf
    have hn : (if g!"object" ∈ i.type then GMap.set (List.flatten (title s.root.name :: List.map title (splitJSONPath path)))
        (⟨List.flatten (title s.root.name :: List.map title (splitJSONPath path)), [], i.required, []⟩ : GStruct) s.nested else s.nested).Sorted := by
      split
      · exact GMap.sorted_set hs
      · exact hs
    split
    · exact hn
    · split
      · exact hn
      · exact GMap.sorted_set hn

theorem propsAt_of {schema : Instance} {l : List Seg} {m : GMap P} {rq : List Str} (h : ObjectAt schema l m rq) : PropsAt ⟨schema.properties, schema.items⟩ l m := by
  cases h with
  | root hm => exact .root hm
  | inner h1 h2 h3 h4 =>
    refine .inner h1 ?_
    have ho : g!"object" ∈ _ := (mem_type h3 (by decide)).2 rfl
    unfold instNode
    rw [h2]
    simp only [ho, if_true, h4, Option.map_some]

/-- The position of a property. -/
theorem listed_at {name : Str} {schema : Instance} (hc : Conditions title name ⟨schema.properties, schema.items⟩) {l : List Seg} {m : GMap P} {rq : List Str} (h : ObjectAt schema l m rq)
    {k : Str} {q : P} (hl : Listed m k q) : SchemaAt instNode ⟨schema.properties, schema.items⟩ (l ++ [.key k]) q := by
  obtain ⟨vs, hv⟩ := hc.visits
  exact (prop_at hv (propsAt_of h)).2 (GMap.get_some_mem hl.1)

theorem items_at {name : Str} {schema : Instance} (hc : Conditions title name ⟨schema.properties, schema.items⟩) {l : List Seg} {q items : P} {i : Instance}
    (h : SchemaAt instNode ⟨schema.properties, schema.items⟩ l q) (hd : decodeInstance false q = .ok i) (ht : TypeIs i g!"array") (hi : i.items = some items) :
    SchemaAt instNode ⟨schema.properties, schema.items⟩ (l ++ [.star]) items := by
  obtain ⟨vs, hv⟩ := hc.visits
  refine (item_at hv h).2 ?_
  unfold instNode
  rw [hd]
  have h1 : g!"object" ∉ i.type := fun h => absurd ((mem_type ht (by decide)).1 h) (by decide)
  have h2 : g!"array" ∈ i.type := (mem_type ht (by decide)).2 rfl
  simp only [h1, h2, if_true, if_false, hi, Option.map_some]

/-- The object in a property has a position, and its struct the name for the property. -/
theorem inner_at {name : Str} {schema : Instance} (hc : Conditions title name ⟨schema.properties, schema.items⟩) {l : List Seg} {m : GMap P} {rq : List Str} (h : ObjectAt schema l m rq)
    {k : Str} {q : P} (hl : Listed m k q) {i : Instance} {m' : GMap P} (hi : Inner q i m') :
    ∃ l', l' ≠ [] ∧ ObjectAt schema l' m' i.required ∧ keyOf title name l' = keyOf title name (l ++ [.key k]) := by
  have hq := listed_at hc h hl
  cases hi with
  | object h1 h2 h3 => exact ⟨l ++ [.key k], by simp, .inner hq h1 h2 h3, rfl⟩
  | items h1 h2 h3 h4 h5 h6 =>
    exact ⟨(l ++ [.key k]) ++ [.star], by simp, .inner (items_at hc hq h1 h2 h3) h4 h5 h6, keyOf_star title name _⟩

theorem key_big {name : Str} (hn : Name u (title name)) (hu : ∀ c t, title name = c :: t → c.isLower = false) (l : List Seg) : Big u (keyOf title name l) := by
  obtain ⟨⟨c, t, h1, h2, _⟩, _⟩ := hn
  refine ⟨c, t ++ ((names l).map title).flatten, by simp [keyOf, h1], h2, hu c t h1⟩

theorem fields_nil {args : Args} {rq : List Str} {key : Str → Str} {m : GMap P} {fs : GMap EField} (h : FlatFields title args rq key m fs) : fs = [] ↔ ∀ k q, ¬ Listed m k q := by
  constructor
  · rintro rfl k q hl
    exact hl.2 ((h.names k).1 rfl q hl.1)
  · intro hno
    cases fs with
    | nil => rfl
    | cons kf t =>
      have := (h.names kf.1).2 fun q hq => Classical.byContradiction fun hh => hno kf.1 q ⟨hq, hh⟩
      rw [GMap.get_mem_nodup h.sorted.nodup List.mem_cons_self] at this
      cases this

/-- What is known of the structs in a file. -/
def HasStructs (title : Str → Str) (args : Args) (schema : Instance) (name : Str) (g : GoFile) : Prop :=
  ∀ l m rq, ObjectAt schema l m rq → ∃ st, structAt title name g l = some st ∧ (l ≠ [] → st.name = keyOf title name l ∧ st.embeds = []) ∧ st.required = rq ∧
    FlatFields title args rq (fun k => keyOf title name (l ++ [.key k])) m st.fields

/-- The struct for an object. -/
theorem struct_flat {args : Args} {schema : Instance} {m0 : GMap P} {pkg name : Str} {embeds es : List Str} (h : FlatWritable u title args schema m0 pkg name embeds es)
    (ht : FlatText args schema) (he : NoEmptyPointers args schema) {g : GoFile} (hall : HasStructs title args schema name g) {exclude : List Str} (hc : Ctx u g.nested exclude)
    {l : List Seg} {m : GMap P} {rq : List Str} (ho : ObjectAt schema l m rq) {fs : GMap EField} (hf : FlatFields title args rq (fun k => keyOf title name (l ++ [.key k])) m fs) :
    ∃ Fs, FlatStruct title args.fieldNames args.descTag args.pointers (fun k => keyOf title name (l ++ [.key k])) m rq Fs ∧
      (∀ p, fieldsUse p Fs = (includeTime fs && decide (p = g!"time"))) ∧
      ∀ ind, Tabs ind → Runs u (.start false) (textOf (sortedByName (linesAll args.descTag args.pointers exclude g.nested ind rq fs)).flatten) (fieldsToks Fs) (.start false) := by
  have hcond := h.conditions
  refine fields_flat hf (h.fields _ _ _ ho).2 fun k q f hl hg => ?_
  have hq := listed_at hcond ho hl
  have hdec : ∀ i t, decodeInstance false q = .ok i → TypeIs i t → (t = g!"object" → i.properties ≠ none) := by
    intro i t h1 h2 h3
    obtain ⟨i', t', h4, h5, h6, _⟩ := hcond.one _ _ hq
    rw [h1] at h4
    cases h4
    exact h6 ((typeIs_unique h5 h2).trans h3)
  refine field_flat hc (hf.each _ _ _ hl.1 hg) ((h.fields _ _ _ ho).1 _ _ hl) (ht.tag _ _ _ _ _ ho hl) (fun i hi => ht.doc _ _ _ hq hi) ?_ ?_ (fun i h1 h2 => hdec i _ h1 h2 rfl) ?_ ?_
  · intro i t h1 h2 h3
    rcases h.types _ _ _ _ hq h1 h2 with h4 | h4
    · exact h4
    · simp only [List.mem_cons, List.not_mem_nil, or_false] at h4
      rcases h4 with h4 | h4 | h4
      · exact absurd h4 h3.1
      · exact absurd h4 h3.2.1
      · exact absurd h4 h3.2.2
  · intro i items j t h1 h2 h3 h4 h5 h6
    rcases h.types _ _ _ _ (items_at hcond hq h1 h2 h3) h4 h5 with h7 | h7
    · exact h7
    · simp only [List.mem_cons, List.not_mem_nil, or_false] at h7
      rcases h7 with h7 | h7 | h7
      · exact absurd h7 h6.1
      · exact absurd h7 h6.2.1
      · exact absurd h7 h6.2.2
  · intro i items j h1 h2 h3 h4 h5
    obtain ⟨i', t', h6, h7, h8, _⟩ := hcond.one _ _ (items_at hcond hq h1 h2 h3)
    rw [h4] at h6
    cases h6
    exact h8 (typeIs_unique h7 h5)
  · intro i m' hi
    obtain ⟨l', hne, ho', hk⟩ := inner_at hcond ho hl hi
    obtain ⟨st, s1, s2, s3, s4⟩ := hall _ _ _ ho'
    rw [structAt, if_neg hne, hk] at s1
    refine ⟨?_, key_big h.rootName h.upper _, ⟨st, s1, fields_nil s4⟩, fun hno => he _ _ _ _ _ _ _ ho hl hi hno⟩
    have := (h.keys _ _ _ hne ho').1
    rwa [hk] at this

theorem position {schema : Instance} {l : List Seg} {m : GMap P} {rq : List Str} (hl : l ≠ []) (h : ObjectAt schema l m rq) :
    ∃ q i, SchemaAt instNode ⟨schema.properties, schema.items⟩ l q ∧ decodeInstance false q = .ok i ∧ TypeIs i g!"object" ∧ i.properties = some m ∧ i.required = rq ∧ IsObject q := by
  cases h with
  | root h => exact absurd rfl hl
  | inner h1 h2 h3 h4 => exact ⟨_, _, h1, h2, h3, h4, rfl, node_object h2 h3 (by rw [h4]; simp)⟩

theorem objectAt_unique {name : Str} {schema : Instance} (hc : Conditions title name ⟨schema.properties, schema.items⟩) {l : List Seg} {m m' : GMap P} {rq rq' : List Str}
    (hl : l ≠ []) (h : ObjectAt schema l m rq) (h' : ObjectAt schema l m' rq') : m = m' ∧ rq = rq' := by
  obtain ⟨vs, hv⟩ := hc.visits
  obtain ⟨q, i, h1, h2, _, h3, rfl, _⟩ := position hl h
  obtain ⟨q', i', h1', h2', _, h3', rfl, _⟩ := position hl h'
  obtain rfl := at_unique hv h1 h1'
  obtain rfl := same_instance h2 h2'
  exact ⟨Option.some.inj (h3.symm.trans h3'), rfl⟩

theorem same_position {name : Str} {schema : Instance} (hc : Conditions title name ⟨schema.properties, schema.items⟩) {l l' : List Seg} {m m' : GMap P} {rq rq' : List Str}
    (hl : l ≠ []) (hl' : l' ≠ []) (h : ObjectAt schema l m rq) (h' : ObjectAt schema l' m' rq') (hk : keyOf title name l = keyOf title name l') : l = l' := by
  obtain ⟨q, i, h1, _, _, _, _, h2⟩ := position hl h
  obtain ⟨q', i', h1', _, _, _, _, h2'⟩ := position hl' h'
  exact hc.plain.apart _ _ _ _ h1 h1' h2 h2' hk

/-- One order of walking. -/
theorem flat_source {args : Args} {schema : Instance} {m0 : GMap P} {pkg name : Str} {embeds es : List Str} (h : FlatWritable u title args schema m0 pkg name embeds es)
    (ht : FlatText args schema) (he : NoEmptyPointers args schema) (sched : Sched) :
    ∃ f g, FlatFile title args schema m0 pkg name es f ∧ newGoFile sched title args schema name embeds = .ok g ∧ Source u (fileSource pkg (g.text title args)) f := by
  obtain ⟨g, hg, hname, hemb, hall, honly⟩ := C56_flat_partial (title := title) (args := args) (schema := schema) (name := name) embeds h.flat h.conditions sched
  have hsort := sorted_nested h.flat hg
  -- The structs besides the root.
  have hnested : ∀ κ st, (κ, st) ∈ g.nested → ∃ l m, l ≠ [] ∧ κ = keyOf title name l ∧ st.name = κ ∧ st.embeds = [] ∧ ObjectAt schema l m st.required ∧
      FlatFields title args st.required (fun k => keyOf title name (l ++ [.key k])) m st.fields := by
    intro κ st hm
    obtain ⟨l, m, h1, h2, h3, h4⟩ := honly κ st (GMap.get_mem_nodup hsort.nodup hm)
    obtain ⟨st', h5, h6, h7, h8⟩ := hall l m _ h3
    rw [h4] at h5
    cases h5
    exact ⟨l, m, h1, h2, (h6 h1).1.trans h2.symm, (h6 h1).2, h3, h8⟩
  have hpairs : (g.nested.map fun kv => (kv.2.name, kv.2)) = g.nested := by
    conv => rhs; rw [← List.map_id g.nested]
    refine List.map_congr_left fun kv hkv => ?_
    obtain ⟨κ, st⟩ := kv
    obtain ⟨l, m, _, _, h3, _⟩ := hnested κ st hkv
    simp [h3]
  obtain ⟨ord, hp, hord, hsorted⟩ := sorted_spec (l := g.nested) hsort.nodup
  have hstructs : g.structs = g.root :: ord.map Prod.snd := by
    unfold GoFile.structs
    rw [hpairs, hsorted]
  -- The root.
  obtain ⟨str, hr1, _, hr3, hr4⟩ := hall [] m0 schema.required (.root h.properties)
  rw [structAt, if_pos rfl] at hr1
  cases hr1
  have hrne : g.root.fields ≠ [] := by
    intro e
    obtain ⟨k, q, hl⟩ := h.some
    exact (fields_nil hr4).1 e k q hl
  -- What is left out.
  have hctx : Ctx u g.nested ((g.structs.filter fun s => s.fields.length = 0).map GStruct.name) := by
    refine ⟨fun κ st hk => ?_, fun s hs => ?_⟩
    · obtain ⟨l, m, _, rfl, _⟩ := honly κ st hk
      exact key_big h.rootName h.upper l
    · obtain ⟨st, hst, rfl⟩ := List.mem_map.1 hs
      rw [List.mem_filter, hstructs, List.mem_cons] at hst
      obtain ⟨hst, hlen⟩ := hst
      have hnil : st.fields = [] := by simpa using hlen
      rcases hst with rfl | hst
      · exact absurd hnil hrne
      · obtain ⟨kv, hkv, rfl⟩ := List.mem_map.1 hst
        have hm := hp.mem_iff.1 hkv
        obtain ⟨l, m, _, _, h3, _⟩ := hnested kv.1 kv.2 hm
        exact ⟨kv.2, by rw [h3]; exact GMap.get_mem_nodup hsort.nodup hm, hnil⟩
  generalize hex : (g.structs.filter fun s => s.fields.length = 0).map GStruct.name = exclude at hctx
  -- The declarations.
  have hbig : ∀ (l : List Seg) (m : GMap P) (st : GStruct), ObjectAt schema l m st.required → FlatFields title args st.required (fun k => keyOf title name (l ++ [.key k])) m st.fields →
      ∃ Fs, FlatStruct title args.fieldNames args.descTag args.pointers (fun k => keyOf title name (l ++ [.key k])) m st.required Fs ∧
        (∀ p, fieldsUse p Fs = (includeTime st.fields && decide (p = g!"time"))) ∧
        Runs u (.start false) (textOf (st.text title args exclude g.nested).body) (fieldsToks Fs) (.start false) := by
    intro l m st ho hf
    obtain ⟨Fs, h1, h2, h3⟩ := struct_flat h ht he hall hctx ho hf
    exact ⟨Fs, h1, h2, h3 _ (by unfold Tabs; decide)⟩
  have hroot := hr4
  rw [← hr3] at hroot
  obtain ⟨FR, r1, r2, r3⟩ := hbig [] m0 g.root (by rw [hr3]; exact .root h.properties) hroot
  rw [hr3] at r1
  have hone : ∀ kv : Str × GStruct, ∃ Fs : List Field, kv ∈ g.nested →
      (kv.2.fields ≠ [] → ∃ l, l ≠ [] ∧ StructAt title args schema name l (structDecl kv.1 [] Fs)) ∧
      (∀ p, fieldsUse p Fs = (includeTime kv.2.fields && decide (p = g!"time"))) ∧
        Runs u (.start false) (textOf (kv.2.text title args exclude g.nested).body) (fieldsToks Fs) (.start false) := by
    intro kv
    by_cases hm : kv ∈ g.nested
    · obtain ⟨l, m, h1, h2, h3, h4, h5, h6⟩ := hnested kv.1 kv.2 hm
      obtain ⟨Fs, k1, k2, k3⟩ := hbig l m kv.2 h5 h6
      refine ⟨Fs, fun _ => ⟨fun hn => ⟨l, h1, ?_⟩, k2, k3⟩⟩
      rw [h2]
      exact .mk h5 (Classical.byContradiction fun hno => hn ((fields_nil h6).2 fun k q hl => hno ⟨k, q, hl⟩)) k1
    · exact ⟨[], fun h => absurd h hm⟩
  obtain ⟨F, hF⟩ := Classical.axiomOfChoice hone
  let kept : List (Str × GStruct) := ord.filter fun kv => kv.2.fields.length ≠ 0
  have hkept : ∀ kv, kv ∈ kept ↔ kv ∈ g.nested ∧ kv.2.fields ≠ [] := by
    intro kv
    simp only [kept, List.mem_filter, hp.mem_iff]
    simp
  let T : Option (Str × GStruct) → StructText := fun x => GStruct.text title args exclude g.nested (x.elim g.root Prod.snd)
  let D : Option (Str × GStruct) → Str × Ty := fun x => x.elim (structDecl (title name) es FR) fun kv => structDecl kv.1 [] (F kv)
  have hT : (none :: kept.map some).map T = (g.structs.filter fun s => s.fields.length ≠ 0).map (GStruct.text title args exclude g.nested) := by
    rw [hstructs, List.filter_cons_of_pos (by simpa using hrne), List.filter_map, List.map_cons, List.map_cons, List.map_map, List.map_map]
    rfl
  have hD : (none :: kept.map some).map D = structDecl (title name) es FR :: kept.map fun kv => structDecl kv.1 [] (F kv) := by
    rw [List.map_cons, List.map_map]
    rfl
  have hnameT : ∀ kv ∈ g.nested, title kv.2.name = kv.1 ∧ Name u kv.1 ∧ kv.2.embeds = [] := by
    intro kv hm
    obtain ⟨l, m, h1, h2, h3, h4, h5, h6⟩ := hnested kv.1 kv.2 hm
    have := h.keys l m _ h1 h5
    rw [h3, h2]
    exact ⟨this.2, this.1, h4⟩
  have hsrc := file_sources (u := u) (pkg := pkg) (T := T) (D := D) (l := none :: kept.map some) (g.structs.any fun s => includeTime s.fields) h.pkg (by
    intro x hx
    rcases List.mem_cons.1 hx with rfl | hx
    · refine ⟨?_, ?_, FR, ?_, r3⟩
      · show Name u (title g.root.name)
        rw [hname]; exact h.rootName
      · show ∀ e ∈ g.root.embeds, Name u e
        rw [(embeds_iff.1 hemb).trans (embeds_iff.1 h.embedded).symm]
        exact h.embedNames
      · show structDecl (title name) es FR = structDecl (title g.root.name) g.root.embeds FR
        rw [hname, (embeds_iff.1 hemb).trans (embeds_iff.1 h.embedded).symm]
    · obtain ⟨kv, hkv, rfl⟩ := List.mem_map.1 hx
      obtain ⟨hm, hn⟩ := (hkept kv).1 hkv
      obtain ⟨n1, n2, n3⟩ := hnameT kv hm
      refine ⟨?_, ?_, F kv, ?_, (hF kv hm).2.2⟩
      · show Name u (title kv.2.name)
        rw [n1]; exact n2
      · show ∀ e ∈ kv.2.embeds, Name u e
        rw [n3]; simp
      · show structDecl kv.1 [] (F kv) = structDecl (title kv.2.name) kv.2.embeds (F kv)
        rw [n1, n3])
  refine ⟨_, g, ?_, hg, by rw [hT] at hsrc; unfold GoFile.text; simp only [hex]; exact hsrc⟩
  rw [hD]
  refine ⟨rfl, rfl, ⟨by split <;> simp, fun p => ?_⟩, FR, kept.map fun kv => structDecl kv.1 [] (F kv), rfl, r1, ?_, ?_, ?_⟩
  · have e1 : (∃ d ∈ structDecl (title name) es FR :: kept.map (fun kv => structDecl kv.1 [] (F kv)), d.2.uses p = true) ↔
        (g.structs.any fun s => includeTime s.fields) = true ∧ p = g!"time" := by
      rw [hstructs]
      simp only [List.mem_cons, List.mem_map, exists_eq_or_imp, structDecl, Ty.uses, fieldsUse_embeds, r2, List.any_cons, Bool.or_eq_true, Bool.and_eq_true, decide_eq_true_eq, List.any_eq_true]
      constructor
      · rintro (⟨h1, h2⟩ | ⟨d, ⟨kv, hkv, rfl⟩, hd⟩)
        · exact ⟨.inl h1, h2⟩
        · obtain ⟨hm, hn⟩ := (hkept kv).1 hkv
          simp only [List.map_nil, List.nil_append, Ty.uses, (hF kv hm).2.1, Bool.and_eq_true, decide_eq_true_eq] at hd
          exact ⟨.inr ⟨kv.2, ⟨kv, hp.mem_iff.2 hm, rfl⟩, hd.1⟩, hd.2⟩
      · rintro ⟨h1 | ⟨st, ⟨kv, hkv, rfl⟩, h1⟩, h2⟩
        · exact .inl ⟨h1, h2⟩
        · have hm := hp.mem_iff.1 hkv
          refine .inr ⟨_, ⟨kv, (hkept kv).2 ⟨hm, fun e => ?_⟩, rfl⟩, ?_⟩
          · rw [e] at h1; cases h1
          · simp only [List.map_nil, List.nil_append, Ty.uses, (hF kv hm).2.1, Bool.and_eq_true, decide_eq_true_eq]
            exact ⟨h1, h2⟩
    rw [e1]
    cases (g.structs.any fun s => includeTime s.fields) <;> simp
  · rw [List.map_map]
    have : (Prod.fst ∘ fun kv : Str × GStruct => structDecl kv.1 [] (F kv)) = Prod.fst := rfl
    rw [this, List.pairwise_map]
    exact List.Pairwise.filter _ hord
  · intro d hd
    obtain ⟨kv, hkv, rfl⟩ := List.mem_map.1 hd
    obtain ⟨hm, hn⟩ := (hkept kv).1 hkv
    exact (hF kv hm).1 hn
  · intro l m rq hl ho hsome
    obtain ⟨st, s1, s2, s3, s4⟩ := hall l m rq ho
    rw [structAt, if_neg hl] at s1
    have hm : (keyOf title name l, st) ∈ g.nested := GMap.get_some_mem s1
    have hn : st.fields ≠ [] := by
      intro e
      obtain ⟨k, q, hkq⟩ := hsome
      exact (fields_nil s4).1 e k q hkq
    refine ⟨_, List.mem_map.2 ⟨_, (hkept _).2 ⟨hm, hn⟩, rfl⟩, ?_⟩
    obtain ⟨l', h1, h2⟩ := (hF _ hm).1 hn
    generalize F (keyOf title name l, st) = Fs at h2 ⊢
    simp only at h2 ⊢
    have hk : keyOf title name l' = keyOf title name l := by
      generalize hd : structDecl (keyOf title name l) [] Fs = d at h2
      cases h2 with
      | mk h3 _ _ => exact (congrArg Prod.fst hd).symm
    have : l' = l := by
      generalize structDecl (keyOf title name l) [] Fs = d at h2
      cases h2 with
      | mk h3 _ _ => exact same_position h.conditions h1 hl h3 ho hk
    rw [← this]
    rw [← this] at h2
    exact h2

/-! ### The schema asks for one file -/

theorem flatType_unique {pointers : Bool} {key : Str} {raw : P} {required : Bool} {t t' : Ty} {s s' : Bool} : FlatType pointers key raw required t s →
    FlatType pointers key raw required t' s' → t = t' ∧ s = s'
  | .scalar hd ht hb hn, h' => by
    cases h' with
    | scalar hd' ht' hb' hn' =>
      obtain rfl := same_instance hd hd'
      obtain rfl := typeIs_unique ht ht'
      rw [scalar_fun hb hb']
      exact ⟨rfl, rfl⟩
    | time hd' ht' hf' =>
      obtain rfl := same_instance hd hd'
      exact absurd ⟨typeIs_unique ht ht', hf'⟩ hn
    | dict hd' ht' => exact absurd (same_type hd hd' ht ht' ▸ hb) not_object
    | struct hd' ht' => exact absurd (same_type hd hd' ht ht' ▸ hb) not_object
    | scalars hd' ht' => exact absurd (same_type hd hd' ht ht' ▸ hb) not_array
    | times hd' ht' => exact absurd (same_type hd hd' ht ht' ▸ hb) not_array
    | dicts hd' ht' => exact absurd (same_type hd hd' ht ht' ▸ hb) not_array
    | structs hd' ht' => exact absurd (same_type hd hd' ht ht' ▸ hb) not_array
  | .time hd ht hf, h' => by
    cases h' with
    | scalar hd' ht' hb' hn' =>
      obtain rfl := same_instance hd hd'
      exact absurd ⟨typeIs_unique ht' ht, hf⟩ hn'
    | time hd' ht' hf' =>
      obtain rfl := same_instance hd hd'
      exact ⟨rfl, rfl⟩
    | dict hd' ht' => exact absurd (same_type hd hd' ht ht') (by decide)
    | struct hd' ht' => exact absurd (same_type hd hd' ht ht') (by decide)
    | scalars hd' ht' => exact absurd (same_type hd hd' ht ht') (by decide)
    | times hd' ht' => exact absurd (same_type hd hd' ht ht') (by decide)
    | dicts hd' ht' => exact absurd (same_type hd hd' ht ht') (by decide)
    | structs hd' ht' => exact absurd (same_type hd hd' ht ht') (by decide)
  | .dict hd ht hp hl, h' => by
    cases h' with
    | scalar hd' ht' hb' => exact absurd ((same_type hd hd' ht ht').symm ▸ hb') not_object
    | time hd' ht' => exact absurd (same_type hd hd' ht ht') (by decide)
    | dict hd' ht' =>
      obtain rfl := same_instance hd hd'
      exact ⟨rfl, rfl⟩
    | struct hd' ht' hp' hl' =>
      obtain rfl := same_instance hd hd'
      obtain rfl := Option.some.inj (hp.symm.trans hp')
      obtain ⟨k, q, h⟩ := hl'
      exact absurd h (hl k q)
    | scalars hd' ht' => exact absurd (same_type hd hd' ht ht') (by decide)
    | times hd' ht' => exact absurd (same_type hd hd' ht ht') (by decide)
    | dicts hd' ht' => exact absurd (same_type hd hd' ht ht') (by decide)
    | structs hd' ht' => exact absurd (same_type hd hd' ht ht') (by decide)
  | .struct hd ht hp hl, h' => by
    cases h' with
    | scalar hd' ht' hb' => exact absurd ((same_type hd hd' ht ht').symm ▸ hb') not_object
    | time hd' ht' => exact absurd (same_type hd hd' ht ht') (by decide)
    | dict hd' ht' hp' hl' =>
      obtain rfl := same_instance hd hd'
      obtain rfl := Option.some.inj (hp.symm.trans hp')
      obtain ⟨k, q, h⟩ := hl
      exact absurd h (hl' k q)
    | struct hd' ht' hp' hl' =>
      obtain rfl := same_instance hd hd'
      obtain rfl := Option.some.inj (hp.symm.trans hp')
      exact ⟨rfl, rfl⟩
    | scalars hd' ht' => exact absurd (same_type hd hd' ht ht') (by decide)
    | times hd' ht' => exact absurd (same_type hd hd' ht ht') (by decide)
    | dicts hd' ht' => exact absurd (same_type hd hd' ht ht') (by decide)
    | structs hd' ht' => exact absurd (same_type hd hd' ht ht') (by decide)
  | .scalars hd ht hi hj hjt hb hn, h' => by
    cases h' with
    | scalar hd' ht' hb' => exact absurd ((same_type hd hd' ht ht').symm ▸ hb') not_array
    | time hd' ht' => exact absurd (same_type hd hd' ht ht') (by decide)
    | dict hd' ht' => exact absurd (same_type hd hd' ht ht') (by decide)
    | struct hd' ht' => exact absurd (same_type hd hd' ht ht') (by decide)
    | scalars hd' ht' hi' hj' hjt' hb' =>
      obtain rfl := same_instance hd hd'
      obtain rfl := Option.some.inj (hi.symm.trans hi')
      obtain rfl := same_instance hj hj'
      obtain rfl := typeIs_unique hjt hjt'
      rw [scalar_fun hb hb']
      exact ⟨rfl, rfl⟩
    | times hd' ht' hi' hj' hjt' hf' =>
      obtain rfl := same_instance hd hd'
      obtain rfl := Option.some.inj (hi.symm.trans hi')
      obtain rfl := same_instance hj hj'
      exact absurd ⟨typeIs_unique hjt hjt', hf'⟩ hn
    | dicts hd' ht' hi' hj' hjt' =>
      obtain rfl := same_instance hd hd'
      obtain rfl := Option.some.inj (hi.symm.trans hi')
      exact absurd (same_type hj hj' hjt hjt' ▸ hb) not_object
    | structs hd' ht' hi' hj' hjt' =>
      obtain rfl := same_instance hd hd'
      obtain rfl := Option.some.inj (hi.symm.trans hi')
      exact absurd (same_type hj hj' hjt hjt' ▸ hb) not_object
  | .times hd ht hi hj hjt hf, h' => by
    cases h' with
    | scalar hd' ht' hb' => exact absurd ((same_type hd hd' ht ht').symm ▸ hb') not_array
    | time hd' ht' => exact absurd (same_type hd hd' ht ht') (by decide)
    | dict hd' ht' => exact absurd (same_type hd hd' ht ht') (by decide)
    | struct hd' ht' => exact absurd (same_type hd hd' ht ht') (by decide)
    | scalars hd' ht' hi' hj' hjt' hb' hn' =>
      obtain rfl := same_instance hd hd'
      obtain rfl := Option.some.inj (hi.symm.trans hi')
      obtain rfl := same_instance hj hj'
      exact absurd ⟨typeIs_unique hjt' hjt, hf⟩ hn'
    | times hd' ht' hi' hj' hjt' hf' =>
      obtain rfl := same_instance hd hd'
      exact ⟨rfl, rfl⟩
    | dicts hd' ht' hi' hj' hjt' =>
      obtain rfl := same_instance hd hd'
      obtain rfl := Option.some.inj (hi.symm.trans hi')
      exact absurd (same_type hj hj' hjt hjt') (by decide)
    | structs hd' ht' hi' hj' hjt' =>
      obtain rfl := same_instance hd hd'
      obtain rfl := Option.some.inj (hi.symm.trans hi')
      exact absurd (same_type hj hj' hjt hjt') (by decide)
  | .dicts hd ht hi hj hjt hp hl, h' => by
    cases h' with
    | scalar hd' ht' hb' => exact absurd ((same_type hd hd' ht ht').symm ▸ hb') not_array
    | time hd' ht' => exact absurd (same_type hd hd' ht ht') (by decide)
    | dict hd' ht' => exact absurd (same_type hd hd' ht ht') (by decide)
    | struct hd' ht' => exact absurd (same_type hd hd' ht ht') (by decide)
    | scalars hd' ht' hi' hj' hjt' hb' =>
      obtain rfl := same_instance hd hd'
      obtain rfl := Option.some.inj (hi.symm.trans hi')
      exact absurd ((same_type hj hj' hjt hjt').symm ▸ hb') not_object
    | times hd' ht' hi' hj' hjt' hf' =>
      obtain rfl := same_instance hd hd'
      obtain rfl := Option.some.inj (hi.symm.trans hi')
      exact absurd (same_type hj hj' hjt hjt') (by decide)
    | dicts hd' ht' hi' hj' hjt' =>
      obtain rfl := same_instance hd hd'
      exact ⟨rfl, rfl⟩
    | structs hd' ht' hi' hj' hjt' hp' hl' =>
      obtain rfl := same_instance hd hd'
      obtain rfl := Option.some.inj (hi.symm.trans hi')
      obtain rfl := same_instance hj hj'
      obtain rfl := Option.some.inj (hp.symm.trans hp')
      obtain ⟨k, q, h⟩ := hl'
      exact absurd h (hl k q)
  | .structs hd ht hi hj hjt hp hl, h' => by
    cases h' with
    | scalar hd' ht' hb' => exact absurd ((same_type hd hd' ht ht').symm ▸ hb') not_array
    | time hd' ht' => exact absurd (same_type hd hd' ht ht') (by decide)
    | dict hd' ht' => exact absurd (same_type hd hd' ht ht') (by decide)
    | struct hd' ht' => exact absurd (same_type hd hd' ht ht') (by decide)
    | scalars hd' ht' hi' hj' hjt' hb' =>
      obtain rfl := same_instance hd hd'
      obtain rfl := Option.some.inj (hi.symm.trans hi')
      exact absurd ((same_type hj hj' hjt hjt').symm ▸ hb') not_object
    | times hd' ht' hi' hj' hjt' hf' =>
      obtain rfl := same_instance hd hd'
      obtain rfl := Option.some.inj (hi.symm.trans hi')
      exact absurd (same_type hj hj' hjt hjt') (by decide)
    | dicts hd' ht' hi' hj' hjt' hp' hl' =>
      obtain rfl := same_instance hd hd'
      obtain rfl := Option.some.inj (hi.symm.trans hi')
      obtain rfl := same_instance hj hj'
      obtain rfl := Option.some.inj (hp.symm.trans hp')
      obtain ⟨k, q, h⟩ := hl
      exact absurd h (hl' k q)
    | structs hd' ht' hi' hj' hjt' hp' hl' =>
      obtain rfl := same_instance hd hd'
      obtain rfl := Option.some.inj (hi.symm.trans hi')
      obtain rfl := same_instance hj hj'
      obtain rfl := Option.some.inj (hp.symm.trans hp')
      exact ⟨rfl, rfl⟩

theorem flatFieldsFor_unique {rename : GMap Str} {descTag pointers : Bool} {key : Str → Str} {m : GMap P} {r ks : List Str} {fs fs' : List Field} :
    FlatFieldsFor title rename descTag pointers key m r ks fs → FlatFieldsFor title rename descTag pointers key m r ks fs' → fs = fs'
  | .nil, h' => by cases h'; rfl
  | .cons hl hd ht hf, h' => by
    cases h' with
    | cons hl' hd' ht' hf' =>
      obtain rfl := Option.some.inj (hl.1.symm.trans hl'.1)
      obtain rfl := same_instance hd hd'
      obtain ⟨rfl, rfl⟩ := flatType_unique ht ht'
      rw [flatFieldsFor_unique hf hf']

theorem flatStruct_unique {rename : GMap Str} {descTag pointers : Bool} {key : Str → Str} {m : GMap P} {r : List Str} {fs fs' : List Field}
    (h : FlatStruct title rename descTag pointers key m r fs) (h' : FlatStruct title rename descTag pointers key m r fs') : fs = fs' := by
  obtain ⟨ks, h1, h2, h3⟩ := h
  obtain ⟨ks', h1', h2', h3'⟩ := h'
  obtain rfl : ks = ks' := Go.same_of_ordered h1 h1' fun k => (h2 k).trans (h2' k).symm
  exact flatFieldsFor_unique h3 h3'

theorem structAt_unique {args : Args} {name : Str} {schema : Instance} (hc : Conditions title name ⟨schema.properties, schema.items⟩) {l : List Seg} {d d' : Str × Ty} (hl : l ≠ [])
    (h : StructAt title args schema name l d) (h' : StructAt title args schema name l d') : d = d' := by
  cases h with
  | mk h1 h2 h3 =>
    cases h' with
    | mk h1' h2' h3' =>
      obtain ⟨rfl, rfl⟩ := objectAt_unique hc hl h1 h1'
      rw [flatStruct_unique h3 h3']

theorem flatType_uses {pointers : Bool} {key : Str} {raw : P} {r : Bool} {t : Ty} {s : Bool} (h : FlatType pointers key raw r t s) (p : Str) (hp : t.uses p = true) : p = g!"time" := by
  cases h <;> simp only [ptrIf] at hp <;> (try split at hp) <;> simp_all [Ty.uses]

theorem flatFields_uses {rename : GMap Str} {descTag pointers : Bool} {key : Str → Str} {m : GMap P} {r ks : List Str} {fs : List Field} (p : Str) :
    FlatFieldsFor title rename descTag pointers key m r ks fs → fieldsUse p fs = true → p = g!"time"
  | .nil, h => by cases h
  | .cons hl hd ht hf, h => by
    simp only [fieldsUse, Bool.or_eq_true] at h
    rcases h with h | h
    · exact flatType_uses ht p h
    · exact flatFields_uses p hf h

/-- The schema asks for one file only. -/
theorem C94_unique {args : Args} {schema : Instance} {m : GMap P} {pkg name : Str} {es : List Str} (hc : Conditions title name ⟨schema.properties, schema.items⟩) {f f' : File}
    (h : FlatFile title args schema m pkg name es f) (h' : FlatFile title args schema m pkg name es f') : f = f' := by
  obtain ⟨fs, ds, t1, t2, t3, t4, t5⟩ := h.types
  obtain ⟨fs', ds', t1', t2', t3', t4', t5'⟩ := h'.types
  have hfs := flatStruct_unique t2 t2'
  have hsub : ∀ {ds ds' : List (Str × Ty)}, (∀ d ∈ ds, ∃ l, l ≠ [] ∧ StructAt title args schema name l d) →
      (∀ l m rq, l ≠ [] → ObjectAt schema l m rq → (∃ k q, Listed m k q) → ∃ d ∈ ds', StructAt title args schema name l d) → ∀ d, d ∈ ds → d ∈ ds' := by
    intro ds ds' a b d hd
    obtain ⟨l, hl, hs⟩ := a d hd
    have hs2 := hs
    cases hs2 with
    | mk h1 h2 h3 =>
      obtain ⟨d', hd', hs'⟩ := b l _ _ hl h1 h2
      rw [structAt_unique hc hl hs hs']
      exact hd'
  have hds : ds = ds' := Go.same_of_ordered t3 t3' fun d => ⟨hsub t4 t5' d, hsub t4' t5 d⟩
  have htypes : f.types = f'.types := by rw [t1, t1', hfs, hds]
  have huse : ∀ p, p ∈ f.imports ↔ p ∈ f'.imports := fun p => by rw [h.imports.2, h'.imports.2, htypes]
  have honly : ∀ p, p ∈ f.imports → p = g!"time" := by
    intro p hp
    obtain ⟨d, hd, hu⟩ := (h.imports.2 p).1 hp
    rw [t1] at hd
    rcases List.mem_cons.1 hd with rfl | hd
    · obtain ⟨_, _, _, t⟩ := t2
      simp only [structDecl, Ty.uses, fieldsUse_embeds] at hu
      exact flatFields_uses p t hu
    · obtain ⟨l, _, hs⟩ := t4 d hd
      cases hs with
      | mk _ _ h3 =>
        obtain ⟨_, _, _, t⟩ := h3
        simp only [structDecl, Ty.uses, fieldsUse_embeds] at hu
        exact flatFields_uses p t hu
  have himp : f.imports = f'.imports := by
    have hlen : ∀ l : List Str, l.Nodup → (∀ p ∈ l, p = g!"time") → l = [] ∨ l = [g!"time"] := by
      intro l hn hl
      cases l with
      | nil => exact .inl rfl
      | cons a t =>
        cases t with
        | nil => exact .inr (by rw [hl a (by simp)])
        | cons b t =>
          exact absurd ((hl a (by simp)).trans (hl b (by simp)).symm) fun e => (List.nodup_cons.1 hn).1 (by rw [e]; simp)
    rcases hlen _ h.imports.1 honly with e | e <;> rcases hlen _ h'.imports.1 (fun p hp => honly p ((huse p).2 hp)) with e' | e'
    · rw [e, e']
    · have := (huse g!"time").2 (by rw [e']; simp)
      rw [e] at this; cases this
    · have := (huse g!"time").1 (by rw [e]; simp)
      rw [e'] at this; cases this
    · rw [e, e']
  have hpkg := h.pkg.trans h'.pkg.symm
  have hdoc := h.doc.trans h'.doc.symm
  clear h h' t1 t1' huse honly
  cases f; cases f'
  simp only at hpkg hdoc himp htypes
  rw [hpkg, hdoc, himp, htypes]

/-! ### Every type is declared -/

theorem flatType_names {pointers : Bool} {key : Str} {raw : P} {r : Bool} {t : Ty} {s : Bool} (h : FlatType pointers key raw r t s) (n : Str) (hn : n ∈ t.names) :
    n ∈ scalarTable.map Prod.snd ∨ (n = key ∧ ∃ i m, Inner raw i m ∧ ∃ k q, Listed m k q) := by
  have hptr : ∀ (p : Prop) [Decidable p] (t : Ty), (ptrIf p t).names = t.names := by
    intro p _ t
    unfold ptrIf
    split <;> rfl
  have hstr : n ∈ (Ty.map (.name g!"string") (.name g!"string")).names → n ∈ scalarTable.map Prod.snd := by
    intro h
    simp only [Ty.names, List.mem_append, List.mem_singleton, or_self] at h
    rw [h]; decide
  cases h with
  | scalar _ _ hb _ =>
    rw [hptr] at hn
    exact .inl (List.mem_map.2 ⟨_, hb, (List.mem_singleton.1 hn).symm⟩)
  | time => rw [hptr] at hn; cases hn
  | dict => rw [hptr] at hn; exact .inl (hstr hn)
  | struct h1 h2 h3 h4 => rw [hptr] at hn; exact .inr ⟨List.mem_singleton.1 hn, _, _, .object h1 h2 h3, h4⟩
  | scalars _ _ _ _ _ hb _ =>
    rw [Ty.names, hptr] at hn
    exact .inl (List.mem_map.2 ⟨_, hb, (List.mem_singleton.1 hn).symm⟩)
  | times => rw [Ty.names, hptr] at hn; cases hn
  | dicts => rw [Ty.names, hptr] at hn; exact .inl (hstr hn)
  | structs h1 h2 h3 h4 h5 h6 h7 => rw [Ty.names, hptr] at hn; exact .inr ⟨List.mem_singleton.1 hn, _, _, .items h1 h2 h3 h4 h5 h6, h7⟩

theorem flatFields_names {rename : GMap Str} {descTag pointers : Bool} {key : Str → Str} {m : GMap P} {r ks : List Str} {fs : List Field} (n : Str) :
    FlatFieldsFor title rename descTag pointers key m r ks fs → n ∈ fieldsNames fs →
    n ∈ scalarTable.map Prod.snd ∨ ∃ k q, Listed m k q ∧ n = key k ∧ ∃ i m', Inner q i m' ∧ ∃ k q, Listed m' k q
  | .nil, h => by cases h
  | .cons hl hd ht hf, h => by
    simp only [fieldsNames, List.mem_append] at h
    rcases h with h | h
    · rcases flatType_names ht n h with h | h
      · exact .inl h
      · exact .inr ⟨_, _, hl, h⟩
    · exact flatFields_names n hf h

theorem fieldsNames_embeds (es : List Str) (fs : List Field) : fieldsNames (es.map (fun e => .mk [] none (.name e) none) ++ fs) = es ++ fieldsNames fs := by
  induction es with
  | nil => rfl
  | cons e es ih => rw [List.map_cons, List.cons_append, fieldsNames, ih]; rfl

/-- Every type in the file is declared, and none twice. -/
theorem C94_closed {args : Args} {schema : Instance} {m : GMap P} {pkg name : Str} {es : List Str} (hc : Conditions title name ⟨schema.properties, schema.items⟩)
    (hp : schema.properties = some m) {f : File} (h : FlatFile title args schema m pkg name es f) : f.Closed es := by
  obtain ⟨fs, ds, t1, t2, t3, t4, t5⟩ := h.types
  have hdecl : ∀ (l : List Seg) (m : GMap P) (rq : List Str) (fs : List Field), ObjectAt schema l m rq →
      FlatStruct title args.fieldNames args.descTag args.pointers (fun k => keyOf title name (l ++ [.key k])) m rq fs → ∀ n ∈ fieldsNames fs,
      n ∈ scalarTable.map Prod.snd ∨ n ∈ f.types.map Prod.fst := by
    intro l m rq fs ho ⟨ks, _, _, hf⟩ n hn
    rcases flatFields_names n hf hn with h1 | ⟨k, q, hl, rfl, i, m', hi, hsome⟩
    · exact .inl h1
    · refine .inr ?_
      obtain ⟨l', hl', ho', hk⟩ := inner_at hc ho hl hi
      obtain ⟨d, hd, hs⟩ := t5 l' _ _ hl' ho' hsome
      cases hs with
      | mk _ _ _ => exact List.mem_map.2 ⟨_, by rw [t1]; exact List.mem_cons_of_mem _ hd, hk⟩
  constructor
  · rw [t1, List.map_cons, List.nodup_cons]
    constructor
    · intro hm
      obtain ⟨d, hd, he⟩ := List.mem_map.1 hm
      obtain ⟨l, hl, hs⟩ := t4 d hd
      cases hs with
      | mk h1 _ _ =>
        obtain ⟨q, i, h2, _, _, _, _, h3⟩ := position hl h1
        exact hc.plain.root l q h2 h3 he
    · exact t3.imp fun {a b} hab e => by rw [e, strLt_irrefl] at hab; cases hab
  · intro d hd n hn
    rw [t1] at hd
    rcases List.mem_cons.1 hd with rfl | hd
    · simp only [structDecl, Ty.names, fieldsNames_embeds, List.mem_append] at hn
      rcases hn with hn | hn
      · exact .inr (.inr hn)
      · rcases hdecl [] m schema.required fs (.root hp) t2 n hn with h | h
        · exact .inl h
        · exact .inr (.inl h)
    · obtain ⟨l, hl, hs⟩ := t4 d hd
      cases hs with
      | mk h1 _ h3 =>
        simp only [structDecl, Ty.names, fieldsNames_embeds, List.nil_append] at hn
        rcases hdecl l _ _ _ h1 h3 n hn with h | h
        · exact .inl h
        · exact .inr (.inl h)

/-- **C94**, but for the condition on pointers, without which it is false (`C94_refuted`). -/
theorem C94_partial {args : Args} {schema : Instance} {m : GMap P} {pkg name : Str} {embeds es : List Str} (h : FlatWritable u title args schema m pkg name embeds es)
    (ht : FlatText args schema) (he : NoEmptyPointers args schema) : FlatDeclares u title args schema m pkg name embeds es := by
  obtain ⟨f, _, hf, _⟩ := flat_source h ht he Sched.id
  refine ⟨f, hf, C94_closed h.conditions h.properties hf, fun sched => ?_⟩
  obtain ⟨f', g, hf', hg, hs⟩ := flat_source h ht he sched
  rw [C94_unique h.conditions hf hf']
  exact ⟨g, hg, hs⟩

/-! ### Examples -/

namespace C94ex
open Toy C93ex

/-- Checks for concrete schemas. -/
def mapB (m : GMap P) : Bool :=
  (m.all fun kv => (kv.1.all fun c => c != '`' && c != '\r' && sourceChar c) && decide (Exported (goName C56ex.capital [] kv.1))) &&
  m.all fun kv => m.all fun kv' => decide (goName C56ex.capital [] kv.1 = goName C56ex.capital [] kv'.1 → kv.1 = kv'.1)

def posB (name : Str) (l : List Seg) (q : P) : Bool :=
  (match decodeInstance false q with
    | .ok i => decide (i.description = []) && (i.type.filter (fun x => x ≠ g!"null")).all fun t =>
        decide (t ∈ scalarTable.map Prod.fst ∨ t ∈ [g!"object", g!"array", g!"graphql-hydration"])
    | _ => true) &&
  match instNode q with
    | some (.object m) => mapB m && decide (Exported (keyOf C56ex.capital name l)) && decide (C56ex.capital (keyOf C56ex.capital name l) = keyOf C56ex.capital name l)
    | _ => true

theorem mapB_of {m : GMap P} (h : mapB m = true) : (∀ k q, Listed m k q → RawText k ∧ Name ascii (goName C56ex.capital [] k)) ∧
    ∀ k q k' q', Listed m k q → Listed m k' q' → goName C56ex.capital [] k = goName C56ex.capital [] k' → k = k' := by
  unfold mapB at h
  rw [Bool.and_eq_true] at h
  refine ⟨fun k q hl => ?_, fun k q k' q' hl hl' => ?_⟩
  · have := List.all_eq_true.1 h.1 _ (GMap.get_some_mem hl.1)
    rw [Bool.and_eq_true] at this
    exact ⟨raw_of this.1, exported_name (of_decide_eq_true this.2)⟩
  · have := List.all_eq_true.1 (List.all_eq_true.1 h.2 _ (GMap.get_some_mem hl.1)) _ (GMap.get_some_mem hl'.1)
    exact of_decide_eq_true this

theorem object_of {name : Str} {sc : Schema} (h : ((schemaPositions instNode sc).all fun x => posB name x.1 x.2) = true) {l : List Seg} {q : P} {m : GMap P}
    (hat : SchemaAt instNode sc l q) (hm : instNode q = some (.object m)) :
    mapB m = true ∧ Exported (keyOf C56ex.capital name l) ∧ C56ex.capital (keyOf C56ex.capital name l) = keyOf C56ex.capital name l := by
  have := check_positions instNode_shrinks h hat
  unfold posB at this
  rw [hm] at this
  simp only [Bool.and_eq_true] at this
  exact ⟨this.2.1.1, of_decide_eq_true this.2.1.2, of_decide_eq_true this.2.2⟩

theorem view_of {q : P} {i : Instance} {m : GMap P} (h2 : decodeInstance false q = .ok i) (h3 : TypeIs i g!"object") (h4 : i.properties = some m) : instNode q = some (.object m) := by
  have ho : g!"object" ∈ i.type := (mem_type h3 (by decide)).2 rfl
  unfold instNode
  rw [h2]
  simp only [ho, if_true, h4, Option.map_some]

theorem writable {args : Args} {m : GMap P} {rq : List Str} {name : Str} {embeds : List Str} (hn : args.noNested = true) (hf : args.fieldNames = []) (he : args.embedAllOf = false)
    (hc : Conditions C56ex.capital name ⟨some m, none⟩) (hm : mapB m = true) (h : ((schemaPositions instNode ⟨some m, none⟩).all fun x => posB name x.1 x.2) = true)
    (hr : Exported (C56ex.capital name)) (hs : ∃ k q, Listed m k q) (hemb : ∀ e ∈ embeds, Exported e) :
    FlatWritable ascii C56ex.capital args { Instance.zero with properties := some m, required := rq } m g!"things" name embeds embeds ∧
      FlatText args { Instance.zero with properties := some m, required := rq } := by
  have hobj : ∀ l m' rq', ObjectAt { Instance.zero with properties := some m, required := rq } l m' rq' → mapB m' = true := by
    intro l m' rq' ho
    cases ho with
    | root h1 => cases h1; exact hm
    | inner h1 h2 h3 h4 => exact (object_of h h1 (view_of h2 h3 h4)).1
  have hpos : ∀ l q i, SchemaAt instNode ⟨some m, none⟩ l q → decodeInstance false q = .ok i → i.description = [] ∧
      ∀ t, TypeIs i t → t ∈ scalarTable.map Prod.fst ∨ t ∈ [g!"object", g!"array", g!"graphql-hydration"] := by
    intro l q i hat hd
    have := check_positions instNode_shrinks h hat
    unfold posB at this
    rw [hd] at this
    simp only [Bool.and_eq_true] at this
    refine ⟨of_decide_eq_true this.1.1, fun t ht => ?_⟩
    exact of_decide_eq_true (List.all_eq_true.1 this.1.2 t (by rw [show i.type.filter (fun x => x ≠ g!"null") = [t] from ht]; simp))
  refine ⟨⟨hn, hc, rfl, .off he, hs, ascii_name (by decide), exported_name hr, ?_, fun e h => exported_name (hemb e h), ?_, ?_, fun l q i t hat hd => (hpos l q i hat hd).2 t⟩, ?_, ?_⟩
  · intro c t e
    obtain ⟨⟨c', t', h1, h2⟩, _⟩ := hr
    rw [h1] at e
    cases e
    simp only [Char.isLower, Char.isUpper, Bool.and_eq_true, decide_eq_true_eq, ge_iff_le, Bool.and_eq_false_iff, decide_eq_false_iff_not] at h2 ⊢
    left
    intro hh
    exact absurd (UInt32.le_trans hh h2.2) (by decide)
  · intro l m' rq' hl ho
    cases ho with
    | root => exact absurd rfl hl
    | inner h1 h2 h3 h4 =>
      have := object_of h h1 (view_of h2 h3 h4)
      exact ⟨exported_name this.2.1, this.2.2⟩
  · intro l m' rq' ho
    rw [hf]
    exact ⟨fun k q hl => ((mapB_of (hobj _ _ _ ho)).1 k q hl).2, (mapB_of (hobj _ _ _ ho)).2⟩
  · intro l m' rq' k q ho hl
    exact ((mapB_of (hobj _ _ _ ho)).1 k q hl).1
  · intro l q i hat hd
    exact doc (hpos l q i hat hd).1

/-- All objects have properties. -/
def someB (m : GMap P) : Bool := m.any fun kv => match GMap.get kv.1 m with
  | some q => match decodeInstance false q with | .ok i => decide (g!"graphql-hydration" ∉ i.type) | _ => true
  | none => false

def fullB (_ : List Seg) (q : P) : Bool := match instNode q with
  | some (.object m) => someB m
  | _ => true

theorem listed_any {m : GMap P} (h : someB m = true) : ∃ k q, Listed m k q := by
  obtain ⟨kv, _, h⟩ := List.any_eq_true.1 h
  split at h
  · rename_i q hq
    exact ⟨kv.1, q, hq, C76ex.not_hydrated h⟩
  · cases h

theorem full {args : Args} {name : Str} {m : GMap P} {rq : List Str} (hc : Conditions C56ex.capital name ⟨some m, none⟩)
    (h : ((schemaPositions instNode ⟨some m, none⟩).all fun x => fullB x.1 x.2) = true) :
    NoEmptyPointers args { Instance.zero with properties := some m, required := rq } := by
  intro l m' rq' k q i m'' ho hl hi hno
  obtain ⟨l', hne, ho', _⟩ := inner_at hc ho hl hi
  obtain ⟨q', i', h1, h2, h3, h4, _⟩ := position hne ho'
  have := check_positions instNode_shrinks h h1
  unfold fullB at this
  rw [view_of h2 h3 h4] at this
  obtain ⟨k, q, hkq⟩ := listed_any this
  exact absurd hkq (hno k q)

theorem good : Conditions C56ex.capital g!"thing" ⟨some C56flatex.good, none⟩ := C56flatex.conditions (by decide +kernel) (by decide +kernel) (by decide +kernel)

/-- A schema with objects in objects and lists meets the conditions, with pointers and an embedded struct. -/
example : FlatWritable ascii C56ex.capital C56flatex.args (C56ex.schema C56flatex.good) C56flatex.good g!"things" g!"thing" [g!"Flags"] [g!"Flags"] ∧
    FlatText C56flatex.args (C56ex.schema C56flatex.good) ∧ NoEmptyPointers C56flatex.args (C56ex.schema C56flatex.good) := by
  obtain ⟨h1, h2⟩ := writable (args := C56flatex.args) (rq := [g!"c"]) (embeds := [g!"Flags"]) rfl rfl rfl good (by decide +kernel) (by decide +kernel) (by decide +kernel)
    (listed_any (by decide +kernel)) (by decide)
  exact ⟨h1, h2, full good (by decide +kernel)⟩

/-- What is declared for it. -/
example : (text C56flatex.args (C56ex.schema C56flatex.good)).bind (lex ascii) = some (File.toks ⟨g!"things", [notice], [g!"time"], [
    structDecl g!"Thing" [] [
      .mk [] (some g!"A") (.slice (.star (.name g!"ThingA"))) (some g!"json:\"a,omitempty\""),
      .mk [] (some g!"C") (.star (.name g!"string")) (some g!"json:\"c\""),
      .mk [] (some g!"F") (.star (.name g!"ThingF")) (some g!"json:\"f,omitempty\""),
      .mk [] (some g!"T") (.star (.sel g!"time" g!"Time")) (some g!"json:\"t,omitempty\"")],
    structDecl g!"ThingA" [] [
      .mk [] (some g!"B") (.name g!"int64") (some g!"json:\"b\""),
      .mk [] (some g!"D") (.star (.name g!"ThingAD")) (some g!"json:\"d,omitempty\"")],
    structDecl g!"ThingAD" [] [.mk [] (some g!"E") (.slice (.name g!"float64")) (some g!"json:\"e,omitempty\"")],
    structDecl g!"ThingF" [] [.mk [] (some g!"G") (.name g!"bool") (some g!"json:\"g,omitempty\"")]]⟩) := by decide +kernel

/-- An object without properties. -/
def empty : GMap P := [(g!"a", o [(g!"type", s g!"object"), (g!"properties", o [])])]
def emptySchema : Instance := { Instance.zero with properties := some empty }

theorem empty_text : (text C56flatex.args emptySchema).bind (lex ascii) = some (File.toks ⟨g!"things", [notice], [],
    [structDecl g!"Thing" [] [.mk [] (some g!"A") (.star (.name g!"ThingA")) (some g!"json:\"a,omitempty\"")]]⟩) := by decide +kernel

/-- Without pointers it is a map. -/
example : (text C56ex.flat emptySchema).bind (lex ascii) = some (File.toks ⟨g!"things", [notice], [],
    [structDecl g!"Thing" [] [.mk [] (some g!"A") (.map (.name g!"string") (.name g!"string")) (some g!"json:\"a,omitempty\"")]]⟩) := by decide +kernel

end C94ex

/-- With pointers the statement is false: an object without properties gets a pointer to a struct that is not declared. -/
theorem C94_refuted : ∃ u title, ¬ C94_statement u title := by
  refine ⟨C93ex.ascii, C56ex.capital, fun h => ?_⟩
  obtain ⟨h1, h2⟩ := C94ex.writable (args := C56flatex.args) (m := C94ex.empty) (rq := []) (name := g!"thing") (embeds := []) rfl rfl rfl
    (C56flatex.conditions (by decide +kernel) (by decide +kernel) (by decide +kernel)) (by decide +kernel) (by decide +kernel) (by decide +kernel)
    (C94ex.listed_any (by decide +kernel)) (by decide)
  obtain ⟨f, _, hc, hs⟩ := h _ _ _ _ _ _ _ h1 h2
  obtain ⟨g, hg, hl⟩ := hs Sched.id
  have ht := C94ex.empty_text
  unfold C93ex.text C94ex.emptySchema at ht
  rw [show newGoFile Sched.id C56ex.capital C56flatex.args { Instance.zero with properties := some C94ex.empty } g!"thing" [] = _ from hg] at ht
  obtain rfl := C93_unique hl ht
  exact absurd (hc.2 (structDecl g!"Thing" [] [.mk [] (some g!"A") (.star (.name g!"ThingA")) (some g!"json:\"a,omitempty\"")]) (List.mem_singleton.2 rfl) g!"ThingA" (by decide)) (by decide)

end JT.GoText
