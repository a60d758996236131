import Verif.Model.GraphqlInlineAll
import Verif.Props.C99
import Verif.Props.C90
/- C99 for all schemas: allOf and oneOf entries. -/
namespace JT.Gql
open JT.Spec
open Gen (sortedByName)

/-- The same type, built in the two ways. -/
structure SameFile (f : IFile) (g : GFile) : Prop where
  nested : g.nested = []
  fields : outer f.fields = g.root.fields
  leaves : ∀ kf ∈ f.fields, kf.2.field.jsonType ≠ g!"object"
  required : f.required = g.root.required
  head : g.root.target = [] ∧ g.root.buildType = f.buildType ∧ g.root.implements = f.implements ∧ g.root.description = f.description ∧ g.root.jsonName = f.jsonName ∧ g.root.name = f.name
  shown : f.buildType ≠ .ignored

theorem file_alike {sched : Sched} {title lower : Str → Str} {args : Args} {schema : Instance} {name : Str} {implements : Bool} (hs : NoObjects ⟨schema.properties, schema.items⟩) :
    Alike SameFile (newInlineFile sched title lower args schema name implements) (newFile sched title lower args schema name implements) := by
  generalize hroot : ({ Gql.newObject (rootNames title lower args name implements).1 (rootNames title lower args name implements).2 schema.required with
    description := schema.description, buildType := if schema.oneOf.length ≠ 0 then BuildType.interface else BuildType.type } : GObject) = root
  have hw : Alike (Same root) (newInline sched title args schema) (newFile sched title lower args schema name implements) := by
    unfold newInline newFile
    simp only [hroot]
    refine Gen.alike_map (Gen.walk_alike (R := Same root) hs.names sched 0 _ _ (fun l q i s t hl hd hst => ?_) ?_) fun x y h => h
    · obtain ⟨k, hk⟩ := noObjects_path hs hl
      exact walk_same hst (hs.types l q i hl hd) hk
    · subst hroot
      exact ⟨rfl, ⟨[], rfl, rfl, by simp⟩, rfl, rfl⟩
  unfold newInlineFile
  generalize newInline sched title args schema = a at hw
  generalize newFile sched title lower args schema name implements = b at hw
  cases hw with
  | err => exact .err
  | panic => exact .panic
  | @ok n g h =>
    obtain ⟨h1, ⟨fs, h2, h3, h4⟩, h5, h6⟩ := h
    refine .ok ⟨h1, by simp only [h2, Option.getD_some, h3], by simpa only [h2, Option.getD_some] using h4, by simp only [h5, Option.getD_some], ?_, ?_⟩
    · rw [h6]
      subst hroot
      exact ⟨rfl, rfl, rfl, rfl, rfl, rfl⟩
    · simp only
      split <;> simp

theorem text_same {isPrint : Char → Bool} {title : Str → Str} {args : Args} {f : IFile} {g : GFile} (h : SameFile f g) : f.text isPrint title args = .ok (g.text isPrint title args) := by
  obtain ⟨h1, h3, h4, h5, ⟨r1, r2, r3, r4, r5, r6⟩, h7⟩ := h
  unfold IFile.text
  rw [body_leaves _ _ _ _ ?_]
  · simp only [Res.map]
    congr 1
    unfold GFile.text GFile.structs
    rw [h1]
    have hsort : Gen.sortedByName (List.map (fun kv : Str × GObject => (kv.2.name, kv.2)) []) = [] := rfl
    rw [hsort]
    simp only [List.flatMap_cons, List.flatMap_nil, List.append_nil, r1, r2, true_and, ne_eq, h7, not_false_eq_true, if_true]
    congr 1
    unfold GObject.text rootText
    have e0 : ¬(g.root.target ≠ [] ∨ g.root.buildType = .ignored) := by simp [r1, r2, h7]
    rw [if_neg e0]
    simp only [r2, r3, r4, r5, r6, ne_eq]
    unfold fieldTexts
    rw [← h3, h5]
    have e1 : (outer f.fields).map (fun kf => (kf.2.name, kf.2)) = (f.fields.map fun kf => (kf.2.field.name, kf.2)).map fun x => (x.1, x.2.field) := by
      simp [outer, List.map_map, Function.comp_def]
    rw [e1, sorted_map (g := INode.field), List.map_map]
    have e2 : (outer f.fields).any (fun kf => decide (kf.2.jsonType ≠ g!"graphql-hydration")) = f.fields.any fun kf => decide (kf.2.field.jsonType ≠ g!"graphql-hydration") := by
      unfold outer
      rw [List.any_map]
      rfl
    simp only [ne_eq] at e2
    rw [e2]
    simp only [List.append_assoc]
    rfl
  · intro x hx
    obtain ⟨k, hk⟩ := sorted_mem hx
    obtain ⟨kf, hkf, he⟩ := List.mem_map.1 hk
    cases he
    exact h4 _ hkf

theorem outer_setAll : ∀ (m n : List (Str × INode)), outer (setAll m n) = setAll (outer m) (outer n)
  | [], _ => rfl
  | (k, f) :: m, n => by
    have := outer_setAll m (GMap.set k f n)
    unfold setAll at this ⊢
    rw [List.foldl_cons, this, outer_set]
    rfl

theorem setAll_mem {α : Type} {kf : Str × α} : ∀ {m n : GMap α}, kf ∈ setAll m n → kf ∈ m ∨ kf ∈ n
  | [], _, h => .inr h
  | (k, f) :: m, n, h => by
    rcases setAll_mem (m := m) (n := GMap.set k f n) h with h | h
    · exact .inl (by simp [h])
    · rcases GMap.mem_set h with rfl | h
      · exact .inl (by simp)
      · exact .inr h

theorem fold_same : ∀ {cs : List IFile} {gs : List GFile}, Each SameFile cs gs → ∀ acc : List (Str × INode), (∀ kf ∈ acc, kf.2.field.jsonType ≠ g!"object") →
    outer (cs.foldl (fun acc c => setAll c.fields acc) acc) = gs.foldl (fun acc c => setAll c.root.fields acc) (outer acc) ∧
      (∀ kf ∈ cs.foldl (fun acc c => setAll c.fields acc) acc, kf.2.field.jsonType ≠ g!"object") ∧ (cs.map fun c => c.required) = gs.map (fun c => c.root.required) ∧
      gs.foldl (fun acc c => setAll c.nested acc) [] = []
  | _, _, .nil, acc, ha => ⟨rfl, ha, rfl, rfl⟩
  | _, _, .cons (a := c) (b := g) (as := cs) (bs := gs) h hs, acc, ha => by
    obtain ⟨h1, h2, h3, h4⟩ := fold_same hs (setAll c.fields acc) fun kf hk => (setAll_mem hk).elim (h.leaves kf) (ha kf)
    refine ⟨?_, h2, ?_, ?_⟩
    · rw [List.foldl_cons, h1, outer_setAll, h.fields]
      rfl
    · rw [List.map_cons, List.map_cons, h3, h.required]
    · rw [List.foldl_cons, h.nested]
      exact h4

theorem interface_same {title : Str → Str} {args : Args} {packageName ref : Str} {oneOf : Bool} {cs : List IFile} {gs : List GFile} (h : Each SameFile cs gs) :
    SameFile (interfaceFileI title args packageName ref oneOf cs) (interfaceFile title args packageName ref oneOf gs) := by
  obtain ⟨h1, h2, h3, h4⟩ := fold_same h [] (by simp)
  refine ⟨h4, h1, h2, ?_, ⟨rfl, rfl, rfl, rfl, rfl, rfl⟩, ?_⟩
  · simp only [interfaceFileI, interfaceFile, h3]
  · simp only [interfaceFileI]
    split <;> simp

theorem merge_same {implements : Str} {cs : List IFile} {gs : List GFile} {f : IFile} {g : GFile} (h : Each SameFile cs gs) (hf : SameFile f g) :
    SameFile (mergeCommonI cs implements f) (mergeCommon gs implements g) := by
  obtain ⟨h1, h2, h3, h4⟩ := fold_same h [] (by simp)
  obtain ⟨f1, f2, f3, f4, ⟨r1, r2, r3, r4, r5, r6⟩, f6⟩ := hf
  refine ⟨f1, ?_, ?_, ?_, ⟨r1, r2, rfl, r4, r5, r6⟩, f6⟩
  · simp only [mergeCommonI, mergeCommon, outer_setAll, h1, f2]
    rfl
  · intro kf hk
    exact (setAll_mem hk).elim (f3 kf) (h2 kf)
  · simp only [mergeCommonI, mergeCommon, h3, f4]

theorem mapRes_alike {α β γ : Type} {R : β → γ → Prop} {f : α → Res β} {f' : α → Res γ} : ∀ {l : List α}, (∀ x ∈ l, Alike R (f x) (f' x)) → Alike (Each R) (mapRes f l) (mapRes f' l)
  | [], _ => .ok .nil
  | x :: l, h => by
    have h1 := h x (by simp)
    have h2 := mapRes_alike (l := l) fun y hy => h y (by simp [hy])
    simp only [mapRes]
    generalize f x = a at h1 ⊢
    generalize f' x = b at h1 ⊢
    generalize mapRes f l = c at h2 ⊢
    generalize mapRes f' l = d at h2 ⊢
    cases h1 with
    | err => exact .err
    | panic => exact .panic
    | ok h1 => cases h2 with
      | err => exact .err
      | panic => exact .panic
      | ok h2 => exact .ok (.cons h1 h2)

theorem each_append {α β : Type} {R : α → β → Prop} {as : List α} {bs : List β} (h : Each R as bs) {as' : List α} {bs' : List β} (h' : Each R as' bs') : Each R (as ++ as') (bs ++ bs') := by
  induction h with
  | nil => exact h'
  | cons h _ ih => exact .cons h ih

theorem more_alike {sched : Sched} {title lower : Str → Str} {args : Args} {s : Instance} (h : ∀ a ∈ s.allOf, NoObjects ⟨a.properties, a.items⟩) :
    Alike (Each SameFile) (moreFilesI sched title lower args s) (moreFiles sched title lower args s) := by
  unfold moreFilesI moreFiles
  split
  · exact mapRes_alike fun a ha => file_alike (h a ha)
  · exact .ok .nil

theorem oneOf_texts {sched : Sched} {isPrint : Char → Bool} {title lower : Str → Str} {args : Args} {name : Str} {hasAllOf : Bool} : ∀ {ss : List Instance} {cs : List IFile} {gs : List GFile},
    Each SameFile cs gs → (∀ s ∈ ss, NoObjects ⟨s.properties, s.items⟩) → (∀ s ∈ ss, ∀ a ∈ s.allOf, NoObjects ⟨a.properties, a.items⟩) →
      oneOfTextsI sched isPrint title lower args name hasAllOf ss cs = (oneOfFiles sched title lower args name hasAllOf ss gs).map (List.map fun ng => (ng.1, ng.2.text isPrint title args))
  | [], _, _, _, _, _ => rfl
  | s :: ss, cs, gs, hc, h1, h2 => by
    have ha := file_alike (sched := sched) (title := title) (lower := lower) (args := args) (name := subName s.fromRef) (implements := hasAllOf) (h1 s (by simp))
    have hb := more_alike (sched := sched) (title := title) (lower := lower) (args := args) (h2 s (by simp))
    simp only [oneOfTextsI, oneOfFiles]
    generalize newInlineFile sched title lower args s (subName s.fromRef) hasAllOf = a at ha ⊢
    generalize newFile sched title lower args s (subName s.fromRef) hasAllOf = a' at ha ⊢
    generalize moreFilesI sched title lower args s = b at hb ⊢
    generalize moreFiles sched title lower args s = b' at hb ⊢
    cases ha with
    | err => rfl
    | panic => rfl
    | ok ha => cases hb with
      | err => rfl
      | panic => rfl
      | ok hb =>
        have hm := each_append hc hb
        have ih := oneOf_texts (sched := sched) (isPrint := isPrint) (title := title) (lower := lower) (args := args) (name := name) (hasAllOf := hasAllOf) (ss := ss) hm
          (fun x hx => h1 x (by simp [hx])) (fun x hx => h2 x (by simp [hx]))
        simp only [bind, Res.bind, pure, text_same (merge_same hm ha), ih]
        generalize oneOfFiles sched title lower args name hasAllOf ss _ = r
        cases r <;> rfl

theorem oneOfFiles_length {sched : Sched} {title lower : Str → Str} {args : Args} {name : Str} {hasAllOf : Bool} : ∀ {ss : List Instance} {gs : List GFile} {r : List (Str × GFile)},
    oneOfFiles sched title lower args name hasAllOf ss gs = .ok r → r.length = ss.length
  | [], _, _, h => by cases h; rfl
  | s :: ss, gs, r, h => by
    simp only [oneOfFiles] at h
    obtain ⟨g, _, h⟩ := Res.bind_eq_ok.1 h
    obtain ⟨more, _, h⟩ := Res.bind_eq_ok.1 h
    obtain ⟨rest, hr, h⟩ := Res.bind_eq_ok.1 h
    cases h
    rw [List.length_cons, List.length_cons, oneOfFiles_length hr]

end JT.Gql

namespace JT
open Spec Gql

/-- The full statement of **C99** for all schemas: the same files are written with inline objects. -/
def C99_files_statement : Prop := ∀ (sched : Sched) (isPrint : Char → Bool) (title lower : Str → Str) (args : Gql.Args) (schema : Instance) (name packageName : Str),
  inlineFiles sched isPrint title lower args schema name packageName = graphqlFiles sched isPrint title lower args schema name packageName

/-- None of the schemas that types are made of has an object as property or item: the schema itself, or its allOf and oneOf entries and those of the oneOf entries. -/
structure Spec.NoObjectsIn (schema : Instance) : Prop where
  own : schema.allOf = [] → schema.oneOf = [] → NoObjects ⟨schema.properties, schema.items⟩
  allOf : ∀ s ∈ schema.allOf, NoObjects ⟨s.properties, s.items⟩
  oneOf : ∀ s ∈ schema.oneOf, NoObjects ⟨s.properties, s.items⟩
  more : ∀ s ∈ schema.oneOf, ∀ a ∈ s.allOf, NoObjects ⟨a.properties, a.items⟩

/-- **C99**, partial, for all schemas: if no property or item is an object, the same files are written with inline objects, and both ways fail alike. -/
theorem C99_files_partial (sched : Sched) (isPrint : Char → Bool) (title lower : Str → Str) (args : Gql.Args) (schema : Instance) (name packageName : Str) (hs : NoObjectsIn schema) :
    inlineFiles sched isPrint title lower args schema name packageName = graphqlFiles sched isPrint title lower args schema name packageName := by
  have h1 : Alike (Each SameFile) (allOfFilesI sched title lower args (fun _ => subName (schema.allOf.headD Instance.zero).fromRef) schema.allOf)
      (allOfFiles sched title lower args (fun _ => subName (schema.allOf.headD Instance.zero).fromRef) schema.allOf) := mapRes_alike fun s h => file_alike (hs.allOf s h)
  unfold inlineFiles graphqlFiles buildFiles
  generalize allOfFilesI sched title lower args (fun _ => subName (schema.allOf.headD Instance.zero).fromRef) schema.allOf = a at h1 ⊢
  generalize allOfFiles sched title lower args (fun _ => subName (schema.allOf.headD Instance.zero).fromRef) schema.allOf = b at h1 ⊢
  cases h1 with
  | err => rfl
  | panic => rfl
  | @ok cs gs hc =>
    have h2 : firstTextI isPrint title args packageName schema cs = .ok ((if schema.allOf.length ≠ 0 then
        [(name ++ g!".graphqls", interfaceFile title args packageName (schema.allOf.headD Instance.zero).fromRef (decide (schema.oneOf.length ≠ 0)) gs)] else []).flatMap
          fun ng => ng.2.text isPrint title args) := by
      unfold firstTextI
      split
      · rw [text_same (interface_same hc)]
        simp
      · rfl
    have h3 := oneOf_texts (sched := sched) (isPrint := isPrint) (title := title) (lower := lower) (args := args) (name := name) (hasAllOf := decide (schema.allOf.length ≠ 0)) hc hs.oneOf hs.more
    have h4 : ownTextI sched isPrint title lower args schema name = (ownFile sched title lower args schema name).map (List.flatMap fun ng => ng.2.text isPrint title args) := by
      unfold ownTextI ownFile
      split
      · rename_i h
        have ha := file_alike (sched := sched) (title := title) (lower := lower) (args := args) (name := name) (implements := false)
          (hs.own (List.length_eq_zero_iff.1 h.1) (List.length_eq_zero_iff.1 h.2))
        generalize newInlineFile sched title lower args schema name false = a at ha ⊢
        generalize newFile sched title lower args schema name false = b at ha ⊢
        cases ha with
        | err => rfl
        | panic => rfl
        | ok h => simp [bind, Res.bind, Res.map, text_same h]
      · rfl
    have h5 : ∀ l, ownFile sched title lower args schema name = .ok l → l = [] ∨ schema.oneOf = [] := by
      intro l hl
      unfold ownFile at hl
      split at hl
      · exact .inr (List.length_eq_zero_iff.1 (by rename_i h; exact h.2))
      · cases hl; exact .inl rfl
    simp only [bind, Res.bind, pure, h2, h3, h4]
    generalize (if schema.allOf.length ≠ 0 then
        [(name ++ g!".graphqls", interfaceFile title args packageName (schema.allOf.headD Instance.zero).fromRef (decide (schema.oneOf.length ≠ 0)) gs)] else []) = first
    cases hr : oneOfFiles sched title lower args name (decide (schema.allOf.length ≠ 0)) schema.oneOf gs with
    | err => rfl
    | panic => rfl
    | ok r =>
      cases ho : ownFile sched title lower args schema name with
      | err => rfl
      | panic => rfl
      | ok o =>
        have hlen := oneOfFiles_length hr
        simp only [Res.map]
        split
        · congr 1
          rcases h5 o ho with rfl | h0
          · have hn : (first ++ r.map (fun ng : Str × GFile => (oneOfPath args name ng.1, ng.2)) ++ []).length - schema.oneOf.length = first.length := by simp [hlen]
            rw [hn]
            simp only [List.append_nil, List.drop_left, List.take_left, List.flatMap_nil, List.foldl_map]
            congr 2
            · funext m ng
              simp [fileText]
            · simp [fileText, List.flatMap_map]
          · rw [h0] at hlen
            obtain rfl := List.length_eq_zero_iff.1 hlen
            simp only [h0, List.map_nil, List.append_nil, List.length_nil, Nat.sub_zero, List.drop_length, List.take_length, List.foldl_nil]
            simp [fileText, List.flatMap_map]
        · congr 3
          simp [fileText, List.flatMap_map]

/-- For a schema without allOf and oneOf entries these are the files of C99. -/
theorem inlineFiles_own (sched : Sched) (isPrint : Char → Bool) (title lower : Str → Str) (args : Gql.Args) (schema : Instance) (name packageName : Str) (ha : schema.allOf = [])
    (ho : schema.oneOf = []) : inlineFiles sched isPrint title lower args schema name packageName =
      (inlineText sched isPrint title lower args schema name).map fun t => [(name ++ g!".graphqls", t)] := by
  unfold inlineFiles allOfFilesI firstTextI ownTextI inlineText newInlineFile
  simp only [ha, ho, List.length_nil, ne_eq, not_true_eq_false, if_false, and_self, if_true, mapRes, oneOfTextsI]
  cases newInline sched title args schema with
  | err => rfl
  | panic => rfl
  | ok n =>
    simp only [bind, Res.bind, pure, Res.map, IFile.text, ne_eq, not_true_eq_false, if_false, List.append_nil]
    generalize rootBody isPrint args.pointers _ _ = b
    cases b with
    | err => rfl
    | panic => rfl
    | ok b => cases args.interfaceFiles <;> simp

/-- The full statement of C99 is false. -/
theorem C99_files_refuted : ¬ C99_files_statement := fun h => C99_refuted fun sched isPrint title lower args schema name packageName ha ho => by
  rw [← h sched isPrint title lower args schema name packageName, inlineFiles_own _ _ _ _ _ _ _ _ ha ho]

namespace C99ex
/-- A schema with two common parts and two alternatives. -/
def parts : Instance := { Instance.zero with
  allOf := [C90ex.part g!"base.json" [] [(g!"id", str), (g!"l", list str)] [g!"id"], C90ex.tags]
  oneOf := [C90ex.part g!"photo.json" g!"A photo." [(g!"size", str)] [], C90ex.video] }

theorem noObjects_of {m : GMap P} (hm : NamesOK m) (h : ((schemaPositions instNode ⟨some m, none⟩).all fun x => noObjB x.1 x.2) = true) : NoObjects ⟨some m, none⟩ :=
  noObjB_of (by intro m' hm'; cases hm'; exact hm) h

/-- The hypotheses of `C99_files_partial` hold for it. -/
theorem parts_plain : NoObjectsIn parts where
  own h := nomatch h
  allOf s h := by
    simp only [parts, List.mem_cons, List.not_mem_nil, or_false] at h
    rcases h with rfl | rfl
    · exact noObjects_of (by unfold NamesOK; decide) (by decide +kernel)
    · exact noObjects_of (by unfold NamesOK; decide) (by decide +kernel)
  oneOf s h := by
    simp only [parts, List.mem_cons, List.not_mem_nil, or_false] at h
    rcases h with rfl | rfl
    · exact noObjects_of (by unfold NamesOK; decide) (by decide +kernel)
    · exact noObjects_of (by unfold NamesOK; decide) (by decide +kernel)
  more s h a ha := by
    simp only [parts, List.mem_cons, List.not_mem_nil, or_false] at h
    rcases h with rfl | rfl <;> exact nomatch ha

/-- Three files are written, one with the interface and one for each alternative. -/
example : ∃ a b c, inlineFiles Sched.id (fun _ => true) C89ex.title id (C90ex.args true) parts g!"doc" g!"doc" =
    .ok [(g!"doc.graphqls", a), (g!"doc_photo.graphqls", b), (g!"doc_video.graphqls", c)] := by
  rw [C99_files_partial _ _ _ _ _ _ _ _ parts_plain]
  have h : ((C90ex.filesOf parts true).map Prod.fst = [g!"doc.graphqls", g!"doc_photo.graphqls", g!"doc_video.graphqls"]) := by decide +kernel
  have h' : C89ex.isOk (graphqlFiles Sched.id (fun _ => true) C89ex.title id (C90ex.args true) parts g!"doc" g!"doc") = true := by decide +kernel
  unfold C90ex.filesOf at h
  generalize graphqlFiles Sched.id (fun _ => true) C89ex.title id (C90ex.args true) parts g!"doc" g!"doc" = r at h h'
  match r, h' with
  | .ok fs, _ =>
    match fs, h with
    | [(_, a), (_, b), (_, c)], h =>
      simp only [List.map_cons, List.map_nil, List.cons.injEq, and_true] at h
      obtain ⟨rfl, rfl, rfl⟩ := h
      exact ⟨a, b, c, rfl⟩
end C99ex

end JT
