import Verif.Props.C105
import Verif.Props.C90
import Verif.Props.C99All
/- C126: the command with the GraphQL option leaves the GraphQL files of the schema. -/
namespace JT.Gen
open JT.Spec Gql GqlText

/-! ### Specification -/

namespace Spec

/-- The options for GraphQL. -/
def gqlOptions (args : AllArgs) : Gql.Args :=
  ⟨args.pointers, args.embedAllOf, args.interfaceFiles, args.scalarAny, args.importPath, args.structNames, args.fieldNames, args.graphqlNames⟩

/-- The texts of the GraphQL files of a schema, by the names of the files, with types of their own for the objects or with inline objects. -/
def GraphqlTexts (isPrint : Char → Bool) (w : World) (lower : Str → Str) (args : AllArgs) (schema : Instance) (name pkg : Str) (files : GMap Str) : Prop :=
  if args.noNested = true then graphqlFiles w.sched isPrint w.title lower (gqlOptions args) schema name pkg = .ok files
  else inlineFiles w.sched isPrint w.title lower (gqlOptions args) schema name pkg = .ok files

/-- If it succeeds, the tool for GraphQL has written the files of Model/Graphql (C89, C90) for the schema that it loads: flattened, unless allOf entries are embedded. -/
def GraphqlTool (isPrint : Char → Bool) (t : Tools) : Prop :=
  ∀ args name pkg fs l, t.graphql args name pkg fs = (l, .ok ()) → ∃ schema files, t.schema (!args.embedAllOf) (resolve args.toBuildArgs args.schemaPath) name = .ok schema ∧
    GraphqlTexts isPrint t.toWorld t.lower args schema name pkg files ∧ l.map (fun f => (f.1 ++ g!".graphqls", f.2)) = files.map fun f => (f.1, Content.other f.2)

/-- The code that gogen-avro makes is Go. -/
def GoCode (t : Tools) : Prop := ∀ names name c, ∀ f ∈ (t.gogen names name c).1, g!".go" <:+ f.1

end Spec
open Spec

/-! ### No other step writes such files -/

theorem not_graphql {q s : Str} (h : s.getLast? = some 'o' ∨ s.getLast? = some 'c') : ¬ g!".graphqls" <:+ q ++ s := by
  rintro ⟨r, hr⟩
  have := congrArg List.getLast? hr
  rw [List.getLast?_append, List.getLast?_append] at this
  rcases h with h | h <;> rw [h] at this <;> exact absurd this (by simp)

theorem not_graphql_join {d x s : Str} (hx : '/' ∉ x) (hs : '/' ∉ s) (h3 : 2 < s.length) (h : s.getLast? = some 'o' ∨ s.getLast? = some 'c') :
    ¬ g!".graphqls" <:+ joinPath d (x ++ s) := by
  obtain ⟨p, hp⟩ := joinPath_elem d
  rw [hp _ (elem_suffix hx hs h3), ← List.append_assoc]
  exact not_graphql h

theorem not_graphql_code {d f : Str} (he : Elem f) (h : g!".go" <:+ f) : ¬ g!".graphqls" <:+ joinPath d f := by
  obtain ⟨p, hp⟩ := joinPath_elem d
  obtain ⟨r, rfl⟩ := h
  rw [hp _ he, ← List.append_assoc]
  exact not_graphql (.inl rfl)

variable {t : Tools} {args : AllArgs}

/-- Files that are not for GraphQL. -/
abbrev Other (p : Str) : Prop := ¬ g!".graphqls" <:+ p

theorem avro_other {dir path name : Str} (ht : Tidy t) (hg : GoCode t) (hp : '/' ∉ subName path) (hn : BareName (t.lower (t.title name))) :
    Touches Other (avroStep t args name (outPath dir path)) := by
  refine .next ?_ (.next ?_ ?_)
  · exact touches_from fun fs c _ => touches_put (by rw [avsc_path hp hn]; exact not_graphql_join hn.2.1 (by decide) (by decide) (.inr rfl))
  · intro fs p hno
    refine touches_writeAll (S := Other) ?_ fs p hno
    intro f hf
    obtain ⟨g, hm, rfl⟩ := List.mem_map.1 hf
    exact not_graphql_code (ht.gogen _ _ _ g hm) (hg _ _ _ g hm)
  · refine touches_from fun fs c _ => .next (touches_put ?_) (touches_from fun _ _ _ => touches_put ?_)
    · exact not_graphql_join hn.2.1 (by decide) (by decide) (.inl rfl)
    · exact not_graphql_join hn.2.1 (by decide) (by decide) (.inl rfl)

theorem steps_other {pkg : Str} (ht : Tidy t) (hg : GoCode t) : ∀ {jobs : List Spec.Job}, TidyJobs t args.toBuildArgs jobs → Touches Other (runSteps t args pkg jobs)
  | [], _ => fun _ _ _ => rfl
  | j :: jobs, hj => by
    have h1 := hj j (by simp)
    have hs := job_stem h1.1
    refine Touches.next (.next ?_ (.when fun _ => avro_other ht hg hs h1.2)) (steps_other ht hg fun k hk => hj k (List.mem_cons_of_mem _ hk))
    refine touches_struct.mono ?_
    rintro p rfl
    obtain ⟨q, hq⟩ := joinPath_elem args.outputDir
    unfold outPath
    rw [hq _ (elem_go hs), ← List.append_assoc]
    exact not_graphql (.inl rfl)

theorem msgp_other (ht : Tidy t) : Touches Other (msgpStep t args) := by
  refine touches_from fun fs x hx => ?_
  cases x with
  | none => intro fs p _; rfl
  | some x =>
    have := ht.msgp _ _ _ hx
    exact .next (touches_put (not_graphql_join this (by decide) (by decide) (.inl rfl))) (touches_put (not_graphql_join this (by decide) (by decide) (.inl rfl)))

/-! ### The files have different names -/

theorem foldl_set_sorted {α : Type} {f : α → Str} {g : α → Str} : ∀ {l : List α} {m : GMap Str}, GMap.Sorted m → GMap.Sorted (l.foldl (fun m x => GMap.set (f x) (g x) m) m)
  | [], _, h => h
  | _ :: l, _, h => foldl_set_sorted (l := l) (GMap.sorted_set h)

theorem texts_nodup {isPrint : Char → Bool} {w : World} {lower : Str → Str} {schema : Instance} {name pkg : Str} {files : GMap Str}
    (h : GraphqlTexts isPrint w lower args schema name pkg files) : (files.map Prod.fst).Nodup := by
  unfold GraphqlTexts at h
  refine GMap.Sorted.nodup ?_
  split at h
  · unfold graphqlFiles at h
    obtain ⟨a, _, h⟩ := Res.bind_eq_ok.1 h
    split at h
    · obtain rfl := Res.pure_eq_ok.1 h
      exact foldl_set_sorted (by simp [GMap.Sorted])
    · obtain rfl := Res.pure_eq_ok.1 h
      simp [GMap.Sorted]
  · unfold inlineFiles at h
    obtain ⟨a, _, h⟩ := Res.bind_eq_ok.1 h
    obtain ⟨b, _, h⟩ := Res.bind_eq_ok.1 h
    obtain ⟨c, _, h⟩ := Res.bind_eq_ok.1 h
    obtain ⟨d, _, h⟩ := Res.bind_eq_ok.1 h
    split at h
    · obtain rfl := Res.pure_eq_ok.1 h
      exact foldl_set_sorted (by simp [GMap.Sorted])
    · obtain rfl := Res.pure_eq_ok.1 h
      simp [GMap.Sorted]

/-! ### The generator -/

/-- If the generator succeeds with the option, the GraphQL files are those for the schema, in the directory for them; no other file ending in `.graphqls` has changed. -/
theorem graphql_left {isPrint : Char → Bool} {fs fs' : Files} {u : Unit} (ht : Tidy t) (hg : GoCode t) (ha : GraphqlTool isPrint t) (hgq : args.generateGraphQL = true)
    (h : buildAll t args fs = (.ok u, fs')) :
    ∃ doc dir jobs gdir stem schema files, t.read args.schemaPath = .ok doc ∧ Spec.Dir args.toBuildArgs t.getwd dir ∧
      Spec.Jobs t.title args.structNames doc (t.abs args.schemaPath) jobs ∧ GraphqlDir args dir gdir ∧ BaseName args.schemaPath stem ∧
      t.schema (!args.embedAllOf) (resolve args.toBuildArgs args.schemaPath) stem = .ok schema ∧ GraphqlTexts isPrint t.toWorld t.lower args schema stem (pathBase dir) files ∧
      (TidyJobs t args.toBuildArgs jobs → (∀ f text, GMap.get f files = some text → fs' (joinPath gdir f) = some (.other text)) ∧
        ∀ p, g!".graphqls" <:+ p → (∀ f text, GMap.get f files = some text → p ≠ joinPath gdir f) → fs' p = fs p) := by
  rcases all_plan h with h | h | ⟨doc, dir, refs, hd, hr, hc, hpl, h⟩
  · cases h
  · cases h
  · obtain ⟨_, fs1, h1, h⟩ := next_ok h
    obtain ⟨v3, fs3, h2, h3⟩ := next_ok h
    rw [struct_steps] at h2
    have hgq' : (withDirs args dir).generateGraphQL = true := hgq
    unfold Act.when at h1
    rw [if_pos hgq'] at h1
    unfold graphqlStep writeAll at h1
    rcases htl : t.graphql (withDirs args dir) (subName (withDirs args dir).schemaPath) (pathBase (withDirs args dir).outputDir) fs with ⟨l, r⟩
    rw [htl] at h1
    simp only [Prod.mk.injEq] at h1
    obtain ⟨rfl, h1⟩ := h1
    obtain ⟨schema, files, a1, a2, a3⟩ := ha _ _ _ _ _ htl
    obtain ⟨stem, hst⟩ := baseName_total args.schemaPath
    have hsn : subName args.schemaPath = stem := subName_baseName hst
    have a1 : t.schema (!args.embedAllOf) (resolve args.toBuildArgs args.schemaPath) (subName args.schemaPath) = .ok schema := a1
    have a2 : GraphqlTexts isPrint t.toWorld t.lower args schema (subName args.schemaPath) (pathBase dir) files := a2
    rw [hsn] at a1 a2
    refine ⟨doc, dir, _, (withDirs args dir).outputDirGraphQL, stem, schema, files, hr, dir_of hd, jobs_of hc, ?_, hst, a1, a2, fun hj => ?_⟩
    · simp only [withDirs]
      split
      · exact .same ‹_›
      · exact .given ‹_›
    · have hsame : ∀ p, g!".graphqls" <:+ p → fs' p = fs1 p := by
        intro p hp
        have b1 := steps_other (args := withDirs args dir) (pkg := pathBase dir) ht hg hj fs1 p (fun h => h hp)
        have b2 := Touches.when (c := (withDirs args dir).generateMessagePack) (fun _ => msgp_other (args := withDirs args dir) ht) fs3 p (fun h => h hp)
        have h2' := congrArg Prod.snd h2
        have h3' := congrArg Prod.snd h3
        simp only at h2' h3'
        rw [← h3', b2, ← h2']
        exact b1
      obtain ⟨q, hq⟩ := joinPath_elem (withDirs args dir).outputDirGraphQL
      have hel : ∀ f ∈ l, Elem (f.1 ++ g!".graphqls") := by
        intro f hf
        have := ht.graphql (withDirs args dir) (subName (withDirs args dir).schemaPath) (pathBase (withDirs args dir).outputDir) fs f (by rw [htl]; exact hf)
        exact elem_suffix this (by decide) (by decide)
      have hnd := texts_nodup a2
      have hnl : (l.map fun f => joinPath (withDirs args dir).outputDirGraphQL (f.1 ++ g!".graphqls")).Nodup := by
        have e : (l.map fun f => f.1 ++ g!".graphqls") = files.map Prod.fst := by
          have := congrArg (List.map Prod.fst) a3
          simpa only [List.map_map, Function.comp_def] using this
        rw [← e] at hnd
        have e2 : (l.map fun f => joinPath (withDirs args dir).outputDirGraphQL (f.1 ++ g!".graphqls")) = (l.map fun f => f.1 ++ g!".graphqls").map (q ++ ·) := by
          rw [List.map_map]
          exact List.map_congr_left fun f hf => hq _ (hel f hf)
        rw [e2]
        exact List.Pairwise.map _ (fun a b hab hx => hab (List.append_cancel_left hx)) hnd
      have hin : ∀ f text, GMap.get f files = some text → ∃ k ∈ l, f = k.1 ++ g!".graphqls" ∧ k.2 = .other text := by
        intro f text hf
        have := List.mem_map_of_mem (f := fun f : Str × Str => (f.1, Content.other f.2)) (GMap.get_some_mem hf)
        rw [← a3] at this
        obtain ⟨k, hk, he⟩ := List.mem_map.1 this
        simp only [Prod.mk.injEq] at he
        exact ⟨k, hk, he.1.symm, he.2⟩
      refine ⟨fun f text hf => ?_, fun p hp hno => ?_⟩
      · obtain ⟨k, hk, rfl, he⟩ := hin f text hf
        rw [hsame _ ?_, ← h1, ← he]
        · exact foldl_put_mem (g := fun x => joinPath (withDirs args dir).outputDirGraphQL (x ++ g!".graphqls")) hnl k hk
        · rw [hq _ (hel k hk), ← List.append_assoc]
          exact List.suffix_append _ _
      · rw [hsame p hp, ← h1]
        refine foldl_put (S := fun x => x ≠ p) ?_ (by simp)
        intro x hx e
        obtain ⟨k, hk, rfl⟩ := List.mem_map.1 hx
        have hm : (k.1 ++ g!".graphqls", k.2) ∈ files.map fun f => (f.1, Content.other f.2) := by rw [← a3]; exact List.mem_map.2 ⟨k, hk, rfl⟩
        obtain ⟨⟨f, text⟩, hf, he⟩ := List.mem_map.1 hm
        simp only [Prod.mk.injEq] at he
        refine hno f text (GMap.get_mem_nodup hnd hf) ?_
        rw [he.1]
        exact e.symm

/-- Without the option no file ending in `.graphqls` changes, however it ends. -/
theorem graphql_none {fs : Files} {p : Str} (ht : Tidy t) (hg : GoCode t) (hgq : args.generateGraphQL = false) (hp : g!".graphqls" <:+ p)
    (hj : ∀ doc jobs, t.read args.schemaPath = .ok doc → Spec.Jobs t.title args.structNames doc (t.abs args.schemaPath) jobs → TidyJobs t args.toBuildArgs jobs) :
    (buildAll t args fs).2 p = fs p := by
  rcases all_plan (t := t) (args := args) (fs := fs) rfl with h | h | ⟨doc, dir, refs, hd, hr, hc, hpl, h⟩
  · rw [h]
  · rw [h]
  · rw [← h]
    have hj := hj doc _ hr (jobs_of (w := t.toWorld) (args := (withDirs args dir).toBuildArgs) hc)
    refine Touches.next (S := Other) (.when fun hx => ?_) (.next ?_ (.when fun _ => msgp_other ht)) fs p fun h => h hp
    · exact absurd (hgq.symm.trans hx) (by decide)
    · intro fs p hp
      rw [struct_steps]
      exact steps_other (args := withDirs args dir) ht hg hj fs p hp

/-! ### The command -/

/-- **C126**: if the command succeeds, it leaves the GraphQL files for the schema that its arguments name, with the options that they ask for, in the directory that they name for
them; and no other file ending in `.graphqls` has changed.  Without the option there is none that has changed.  The names of schema files and structs are as in C85 (`TidyJobs`). -/
theorem C126 {isPrint : Char → Bool} {abs : Str → Option Str} {argv : List Str} {fs fs' : Files} (ht : Tidy t) (hg : GoCode t) (ha : GraphqlTool isPrint t)
    (h : program abs t argv fs = (0, fs')) (hh : ¬ Help argv) :
    ∃ c os ps, GoText.Called abs t argv fs c ∧ Options argv os ps ∧ (∀ o ∈ os, Suits o) ∧ Asked abs os ps c ∧
      (c.graphql = true → ∃ doc dir jobs gdir stem schema files, t.read c.schemaPath = .ok doc ∧ Spec.Dir c.args.toBuildArgs t.getwd dir ∧
        Spec.Jobs t.title c.structNames doc (t.abs c.schemaPath) jobs ∧ GraphqlDir c.args dir gdir ∧ BaseName c.schemaPath stem ∧
        t.schema (!c.embedAllOf) (resolve c.args.toBuildArgs c.schemaPath) stem = .ok schema ∧ GraphqlTexts isPrint t.toWorld t.lower c.args schema stem (pathBase dir) files ∧
        (TidyJobs t c.args.toBuildArgs jobs → (∀ f text, GMap.get f files = some text → fs' (joinPath gdir f) = some (.other text)) ∧
          ∀ p, g!".graphqls" <:+ p → (∀ f text, GMap.get f files = some text → p ≠ joinPath gdir f) → fs' p = fs p)) ∧
      (c.graphql = false → (∀ doc jobs, t.read c.schemaPath = .ok doc → Spec.Jobs t.title c.structNames doc (t.abs c.schemaPath) jobs → TidyJobs t c.args.toBuildArgs jobs) →
        ∀ p, g!".graphqls" <:+ p → fs' p = fs p) := by
  obtain ⟨c, os, ps, h0, h1, h2, h3, h4⟩ := GoText.program_ok h hh
  refine ⟨c, os, ps, h0, h1, h2, h3, fun hq => graphql_left ht hg ha hq h4, fun hq hj p hp => ?_⟩
  have := graphql_none (t := t) (args := c.args) (fs := fs) ht hg hq hp hj
  rw [h4] at this
  exact this

/-- What C90 says of these files, if no property or item is an object or the objects have types of their own. -/
theorem C126_says {isPrint : Char → Bool} {schema : Instance} {name pkg rn0 gn0 : Str} {hd : TypeHead} {M : GMap P} {RQ : List Str} {es : List Entry} {files : GMap Str}
    (hi : args.noNested = true ∨ NoObjectsIn schema) (hc : FilesConditions t.title t.lower (gqlOptions args) schema name pkg rn0 gn0 hd M RQ es)
    (hw : FilesWritable isPrint t.title (gqlOptions args) schema rn0 gn0 hd M RQ es) (hp : args.interfaceFiles = true → FilesApart (gqlOptions args) name es)
    (h : GraphqlTexts isPrint t.toWorld t.lower args schema name pkg files) :
    ∃ ds0 dss, FirstMean isPrint t.title (gqlOptions args) schema rn0 gn0 hd M RQ ds0 ∧ Each (EntryMeans isPrint t.title (gqlOptions args) gn0) es dss ∧
      FilesSay (gqlOptions args) name es ds0 dss files := by
  have h : graphqlFiles t.sched isPrint t.title t.lower (gqlOptions args) schema name pkg = .ok files := by
    unfold GraphqlTexts at h
    split at h
    · exact h
    · rcases hi with hi | hi
      · contradiction
      · rw [← C99_files_partial _ _ _ _ _ _ _ _ hi]
        exact h
  obtain ⟨files', ds0, dss, h1, h2⟩ := C90_partial hc hw hp t.sched
  rw [h] at h1
  cases h1
  exact ⟨ds0, dss, h2⟩

/-- What C89 says of the file for a schema without allOf and oneOf entries: it is the only one, and there is one way to read it. -/
theorem C126_own {isPrint : Char → Bool} {schema : Instance} {name pkg : Str} {files : GMap Str} (hi : args.noNested = true ∨ NoObjectsIn schema) (h1 : schema.allOf = [])
    (h2 : schema.oneOf = [])
    (hc : Gql.Conditions t.title (gqlOptions args) (rootNames t.title t.lower (gqlOptions args) name false).1 (rootNames t.title t.lower (gqlOptions args) name false).2
      ⟨schema.properties, schema.items⟩)
    (hw : Gql.Writable isPrint t.title (gqlOptions args) (rootNames t.title t.lower (gqlOptions args) name false).1
      (rootNames t.title t.lower (gqlOptions args) name false).2 schema)
    (h : GraphqlTexts isPrint t.toWorld t.lower args schema name pkg files) :
    ∃ text l, files = [(name ++ g!".graphqls", text)] ∧
      SchemaMeans isPrint t.title (gqlOptions args) (rootNames t.title t.lower (gqlOptions args) name false).1 (rootNames t.title t.lower (gqlOptions args) name false).2 schema l ∧
      ∀ defs, Denotes text defs ↔ defs = anyScalar (gqlOptions args) true ++ l.map fun pd => Def.type pd.2 := by
  have h : graphqlFiles t.sched isPrint t.title t.lower (gqlOptions args) schema name pkg = .ok files := by
    unfold GraphqlTexts at h
    split at h
    · exact h
    · rcases hi with hi | hi
      · contradiction
      · rw [← C99_files_partial _ _ _ _ _ _ _ _ hi]
        exact h
  obtain ⟨g, l, a1, a2, a3⟩ := C89_partial (implements := false) hc hw t.sched
  refine ⟨fileText isPrint t.title (gqlOptions args) true [g], l, ?_, a2, a3 true⟩
  unfold graphqlFiles Gql.buildFiles ownFile allOfFiles at h
  simp only [h1, h2, List.length_nil, ne_eq, not_true_eq_false, if_false, and_self, if_true, mapRes, oneOfFiles, a1] at h
  revert h
  cases (gqlOptions args).interfaceFiles <;> intro h <;> simp [Res.map, bind, pure, Res.bind] at h <;> exact h.symm

/-! ### Example -/

namespace C126ex

/-- A tool for GraphQL like that of the code: it writes the files of the model. -/
def write (isPrint : Char → Bool) (w : World) (lower : Str → Str) (args : AllArgs) (name pkg : Str) : List (Str × Content) × Res Unit :=
  match w.schema (!args.embedAllOf) (resolve args.toBuildArgs args.schemaPath) name with
  | .ok schema =>
    match if args.noNested = true then graphqlFiles w.sched isPrint w.title lower (gqlOptions args) schema name pkg
      else inlineFiles w.sched isPrint w.title lower (gqlOptions args) schema name pkg with
    | .ok files =>
      let l := files.map fun f => (f.1.take (f.1.length - 9), Content.other f.2)
      if (∀ f ∈ l, '/' ∉ f.1) ∧ ∀ f ∈ files, f.1.take (f.1.length - 9) ++ g!".graphqls" = f.1 then (l, .ok ()) else ([], .err)
    | _ => ([], .err)
  | _ => ([], .err)

def printable : Char → Bool := fun _ => true

/-- What all tools with `write` have in common. -/
theorem write_ok {isPrint : Char → Bool} {w : World} {lower : Str → Str} {args : AllArgs} {name pkg : Str} : (∀ f ∈ (write isPrint w lower args name pkg).1, '/' ∉ f.1) ∧
    ∀ l, write isPrint w lower args name pkg = (l, .ok ()) → ∃ schema files, w.schema (!args.embedAllOf) (resolve args.toBuildArgs args.schemaPath) name = .ok schema ∧
      GraphqlTexts isPrint w lower args schema name pkg files ∧ l.map (fun f => (f.1 ++ g!".graphqls", f.2)) = files.map fun f => (f.1, Content.other f.2) := by
  unfold write
  split
  · rename_i schema hs
    split
    · rename_i files hf
      simp only
      split
      · rename_i hx
        refine ⟨hx.1, fun l h => ⟨schema, files, hs, ?_, ?_⟩⟩
        · unfold GraphqlTexts
          split at hf
          · rw [if_pos ‹_›]; exact hf
          · rw [if_neg ‹_›]; exact hf
        · simp only [Prod.mk.injEq] at h
          rw [← h.1, List.map_map]
          refine List.map_congr_left fun f hm => ?_
          simp only [Function.comp]
          rw [hx.2 f hm]
      · exact ⟨fun f h => (nomatch h), fun l h => by cases h⟩
    · exact ⟨fun f h => (nomatch h), fun l h => by cases h⟩
  · exact ⟨fun f h => (nomatch h), fun l h => by cases h⟩

def doc : P := .obj [(g!"properties", .obj C89ex.props)]

def world : World := ⟨Sched.id, C89ex.title, .err, .ok, fun _ => .ok doc, fun _ _ _ => .ok C89ex.schema, fun _ => true, fun _ _ => true⟩

def tools : Tools :=
  { world with
    lower := id, graphql := fun args name pkg _ => write printable world id args name pkg, avsc := fun _ _ _ => .err, gogen := fun _ _ _ => ([], .ok ()),
    helper := fun _ _ _ _ => .err, msgp := fun _ _ => .err }

theorem tidy : Tidy tools := ⟨fun _ _ _ _ => write_ok.1, fun _ _ _ _ h => (nomatch h), fun _ _ _ h => (nomatch h)⟩

theorem tool : GraphqlTool printable tools := fun args name pkg _ => (write_ok (isPrint := printable) (w := world) (lower := id) (args := args) (name := name) (pkg := pkg)).2

theorem code : GoCode tools := fun _ _ _ _ h => (nomatch h)

def argv : List Str := [g!"-graphql", g!"-importPath=x/y", g!"-pointers", g!"-scalarAny", g!"-embedAllOf=false", g!"-nestedStructs=false", g!"-outputPathGraphQL=/gql",
  g!"-renameGraphQLType", g!"_T_f=Other", g!"/s/thing.json", g!"/out"]

theorem succeeds : (program some tools argv fun _ => none).1 = 0 := by decide +kernel

theorem no_help : ¬ Help argv := by
  rw [← help_iff]
  exact fun h => nomatch h

def job : Spec.Job := ⟨g!"/s/thing.json", g!"Thing", []⟩

theorem called (c : Command) (h : GoText.Called some tools argv (fun _ => none) c) : c.graphql = true ∧ c.noNested = true ∧ gqlOptions c.args = C89ex.args ∧
    c.schemaPath = g!"/s/thing.json" ∧ c.outputDirGraphQL = g!"/gql" ∧ c.structNames = [] ∧ c.outputDir = g!"/out" := by
  have : some c = _ := h.symm
  cases this
  exact ⟨rfl, rfl, rfl, rfl, rfl, rfl, rfl⟩

theorem plan : Spec.Jobs tools.title [] doc (tools.abs g!"/s/thing.json") [job] := by
  let a : BuildArgs := ⟨⟨false, true, true, false, [], []⟩, g!"/s/thing.json", g!"/out"⟩
  obtain ⟨doc, _, h2, h3, _⟩ := plan_of (w := tools.toWorld) (args := a) (dir := g!"/out") (refs := [g!"/s/thing.json"]) (oneOf := []) (by rfl)
  cases h2
  exact jobs_of (w := tools.toWorld) (args := a) h3

/-- The command leaves one GraphQL file that says what the schema says. -/
example : ∃ text l, (program some tools argv fun _ => none).2 g!"/gql/thing.graphqls" = some (.other text) ∧
    SchemaMeans printable C89ex.title C89ex.args g!"Thing" g!"Thing" C89ex.schema l ∧
    ∀ defs, Denotes text defs ↔ defs = anyScalar C89ex.args true ++ l.map fun pd => Def.type pd.2 := by
  obtain ⟨c, _, _, h0, _, _, _, h1, _⟩ := C126 tidy code tool (Prod.ext succeeds (Eq.refl _)) no_help
  obtain ⟨e1, e2, e3, e4, e5, e6, e7⟩ := called c h0
  obtain ⟨doc', dir, jobs, gdir, stem, schema, files, a1, a2, a3, a4, a5, a6, a7, a8⟩ := h1 e1
  rw [e4] at a1 a3 a5
  rw [e6] at a3
  obtain rfl : doc = doc' := Res.ok.inj a1
  obtain rfl : [job] = jobs := GoText.jobs_unique plan a3
  obtain rfl : C89ex.schema = schema := Res.ok.inj a6
  have hs : stem = g!"thing" := by rw [← subName_baseName a5]; decide
  subst hs
  obtain rfl : g!"/gql" = gdir := by
    cases a4 with
    | given h => exact e5.symm
    | same h => exact absurd (e5.symm.trans h) (by decide)
  obtain ⟨b1, _⟩ := a8 (by
    intro j hj
    obtain rfl := List.mem_singleton.1 hj
    refine ⟨fun s hs => ?_, by unfold BareName; decide⟩
    rw [← subName_baseName hs]
    have : resolve c.args.toBuildArgs job.ref = g!"/s/thing.json" := by unfold resolve; rfl
    rw [this]
    decide)
  obtain ⟨text, l, d1, d2, d3⟩ := C126_own (t := tools) (args := c.args) (.inl e2) rfl rfl (by rw [e3]; exact C89ex.conds) (by rw [e3]; exact C89ex.writes _) a7
  rw [e3] at d2 d3
  refine ⟨text, l, ?_, d2, d3⟩
  have := b1 g!"thing.graphqls" text (by rw [d1]; rfl)
  have e8 : joinPath g!"/gql" g!"thing.graphqls" = g!"/gql/thing.graphqls" := by decide +kernel
  rw [e8] at this
  exact this

end C126ex

end JT.Gen
