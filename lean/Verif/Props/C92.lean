import Verif.Proofs.GenCalm
import Verif.Props.C56
import Verif.Props.C85
/- C92: loading schemas and generating files ends with files or an error, not with a panic. -/
namespace JT
open Spec

/-! ### Loading -/

/-- The surroundings do not panic. -/
structure World.Calm (w : World) : Prop where
  load : ∀ p, w.load p ≠ .panic
  http : ∀ p, w.http p ≠ .panic
  absRef : ∀ s p, w.absRef s p ≠ .panic

theorem applySiblings_calm (dest : List Str) : ∀ (l : List (Str × P)) (data : P), applySiblings dest l data ≠ .panic
  | [], _ => fun h => nomatch h
  | (k, v) :: t, data => by
    unfold applySiblings
    split
    · exact applySiblings_calm dest t _
    · exact fun h => nomatch h

theorem placeRef_calm (dest : List Str) (resolved data : P) : placeRef dest resolved data ≠ .panic := by
  unfold placeRef
  split
  · split
    · exact applySiblings_calm _ _ _
    · exact fun h => nomatch h
  · exact fun h => nomatch h
  · split <;> exact fun h => nomatch h

theorem derefOne_calm {w : World} (hw : w.Calm) (schemaPath : Str) (refPath : List Str) (data : P) : derefOne w schemaPath refPath data ≠ .panic := by
  refine Res.calm_bind ?_ fun ref _ => Res.calm_bind (Res.calm_bind ?_ fun src _ => Res.calm_bind ?_ fun p _ => ?_) fun r _ => ?_
  · unfold refString; split <;> exact fun h => nomatch h
  · unfold refSource
    split
    · exact fun h => nomatch h
    · split
      · exact hw.http _
      · have := hw.absRef schemaPath (splitRef ref).1
        split
        · split
          · exact fun h => nomatch h
          · exact hw.load _
        · exact fun h => nomatch h
        · exact absurd ‹_› this
  · unfold refTarget
    split
    · exact fun h => nomatch h
    · split <;> exact fun h => nomatch h
  · unfold markRef; split <;> exact fun h => nomatch h
  · simp only
    split
    · exact fun h => nomatch h
    · exact placeRef_calm _ _ _

theorem foldRes_calm {σ β : Type} {f : β → σ → Res σ} (h : ∀ x s, f x s ≠ .panic) : ∀ (l : List β) (s : σ), foldRes f l s ≠ .panic
  | [], _ => fun h => nomatch h
  | x :: l, s => by
    simp only [foldRes]
    have := h x s
    split
    · exact foldRes_calm h l _
    · exact fun h => nomatch h
    · exact absurd ‹_› this

/-- Resolving references does not panic unless loading another file does. -/
theorem C92_dereference {w : World} (hw : w.Calm) (schemaPath : Str) : ∀ (n : Nat) (data : P), dereference w schemaPath n data ≠ some .panic
  | 0, _ => fun h => nomatch h
  | n + 1, data => by
    unfold dereference
    split
    · exact fun h => nomatch h
    · rename_i refs _
      have := foldRes_calm (fun x s => derefOne_calm hw schemaPath x s) refs data
      split
      · exact fun h => nomatch h
      · exact absurd ‹_› this
      · split
        · exact fun h => nomatch h
        · exact fun h => nomatch h
        · exact C92_dereference hw schemaPath n _

/-! ### Go structs -/

namespace Gen

theorem addField_calm (title : Str → Str) (rename : GMap Str) (inst : Instance) (name : Str) (fields : GMap EField) : addField title rename inst [name] fields ≠ .panic := by
  unfold addField
  split
  · exact fun h => nomatch h
  · exact addLeaf_calm _ _ _ _ _

theorem names_mono {a b : Str} (h : splitJSONPath a ≠ []) : splitJSONPath (a ++ '.' :: b) ≠ [] := by
  unfold splitJSONPath at h ⊢
  rw [splitC_general, List.filter_append, List.map_append]
  exact fun he => h (List.append_eq_nil_iff.1 he).1

theorem names_key {path : Str} (k : Str) (hp : path ≠ []) (h : splitJSONPath path ≠ []) : prependPath path k ≠ [] ∧ splitJSONPath (prependPath path k) ≠ [] := by
  unfold prependPath
  rw [if_neg hp]
  split
  · exact ⟨hp, h⟩
  · have : path ++ g!"." ++ k = path ++ '.' :: k := by simp
    rw [this]
    exact ⟨by simp, names_mono h⟩

theorem join_mem {c : Char} {sep : Str} : ∀ {l : List Str}, c ∈ join sep l → c ∈ sep ∨ ∃ p ∈ l, c ∈ p
  | [], h => nomatch h
  | [p], h => .inr ⟨p, by simp, h⟩
  | p :: q :: r, h => by
    rw [join] at h
    rcases List.mem_append.1 h with h | h
    · rcases List.mem_append.1 h with h | h
      · exact .inr ⟨p, by simp, h⟩
      · exact .inl h
    · rcases join_mem h with h | ⟨x, h1, h2⟩
      · exact .inl h
      · exact .inr ⟨x, List.mem_cons_of_mem _ h1, h2⟩

theorem names_star (path : Str) : starPath path ≠ [] ∧ splitJSONPath (starPath path) ≠ [] := by
  refine ⟨by simp [starPath], fun h => ?_⟩
  unfold splitJSONPath at h
  rw [List.map_eq_nil_iff] at h
  have hc : '*' ∈ join g!"." (splitC '.' (starPath path)) := by rw [join_splitC]; simp [starPath]
  rcases join_mem hc with h1 | ⟨p, h1, h2⟩
  · exact absurd h1 (by decide)
  · have hm : p ∈ (splitC '.' (starPath path)).filter fun s => s ≠ g!"$" := List.mem_filter.2 ⟨h1, by
      simp only [decide_eq_true_eq]
      rintro rfl
      exact absurd h2 (by decide)⟩
    rw [h] at hm
    cases hm

theorem walkFlat_safe (title : Str → Str) (args : Args) : SafeFn (walkFlat title args) (fun _ _ => True) (fun p _ => p ≠ [] ∧ splitJSONPath p ≠ []) (fun _ => True) (fun _ => True) where
  refl _ := trivial
  trans _ _ _ _ _ := trivial
  mono _ _ _ _ h := h
  calm p i s hp _ := by
    unfold walkFlat
    simp only
    split
    · rename_i h
      exact absurd (List.getLast?_eq_none_iff.1 h) hp.2
    · exact Res.calm_map (addField_calm _ _ _ _ _)
  step p i s s' hp _ _ := ⟨trivial, names_star p, fun _ k _ => names_key k hp.1 hp.2⟩

theorem walkFunc_inline (title : Str → Str) (args : Args) (hn : args.noNested = false) : SafeFn (walkFunc title args) (fun a b => ∀ t, Has t a.root.fields → Has t b.root.fields)
    (fun p g => p ≠ [] ∧ Has (parentNames p) g.root.fields) (fun i => g!"object" ∈ i.type → g!"graphql-hydration" ∉ i.type) (fun k => '.' ∉ k) := by
  have hs := walkInline_safe title args
  refine ⟨fun _ _ h => h, fun _ _ _ h1 h2 t h => h2 t (h1 t h), fun p s s' h hp => ⟨hp.1, h _ hp.2⟩, fun p i s hp hg => ?_, fun p i s s' hp hg h => ?_⟩
  · unfold walkFunc
    rw [if_pos hn]
    exact Res.calm_map (hs.calm p i _ hp hg)
  · unfold walkFunc at h
    rw [if_pos hn] at h
    obtain ⟨fs, h1, rfl⟩ := Res.map_eq_ok.1 h
    exact hs.step p i _ _ hp hg h1

theorem walkFunc_flat (title : Str → Str) (args : Args) (hn : args.noNested = true) :
    SafeFn (walkFunc title args) (fun _ _ => True) (fun p _ => p ≠ [] ∧ splitJSONPath p ≠ []) (fun _ => True) (fun _ => True) := by
  have : walkFunc title args = walkFlat title args := by
    funext p i g
    unfold walkFunc
    rw [if_neg (by rw [hn]; decide)]
  rw [this]
  exact walkFlat_safe title args

/-- Structs can be made of a schema with these options. -/
def SafeFor (args : Args) (sc : Schema) : Prop := (args.noNested = false → InlineSafe sc) ∧ (args.noNested = true → FlatSafe sc)

theorem flatSafe_names {sc : Schema} (h : FlatSafe sc) (m : GMap P) (hm : sc.properties = some m) (kv : Str × P) (hkv : kv ∈ m) : prependPath g!"$" kv.1 ≠ [] ∧ splitJSONPath (prependPath g!"$" kv.1) ≠ [] := by
  obtain ⟨hne, part, h1, h2⟩ := h m hm kv hkv
  unfold prependPath
  rw [if_neg (by decide), if_neg hne]
  have : g!"$" ++ g!"." ++ kv.1 = g!"$" ++ '.' :: kv.1 := by simp
  rw [this]
  refine ⟨by simp, ?_⟩
  unfold splitJSONPath
  rw [splitC_general]
  intro h
  rw [List.map_eq_nil_iff] at h
  have hm : part ∈ (splitC '.' g!"$" ++ splitC '.' kv.1).filter fun s => s ≠ g!"$" := List.mem_filter.2 ⟨List.mem_append_right _ h1, by simpa using h2⟩
  rw [h] at hm
  cases hm

/-- **C92 (Go structs)**: making the structs of a schema does not panic. -/
theorem C92_structs_partial (sched : Sched) (title : Str → Str) (args : Args) (schema : Instance) (name : Str) (embeds : List Str)
    (h : SafeFor args ⟨schema.properties, schema.items⟩) : newGoFile sched title args schema name embeds ≠ .panic := by
  unfold newGoFile
  refine Res.calm_map ?_
  cases hn : args.noNested with
  | false =>
    have hs := h.1 hn
    refine walkSchema_safe (walkFunc_inline title args hn) sched 0 (fun m hm kv hkv => ?_) (fun _ => ⟨by simp [starPath], ?_⟩) fun l q i hq hi =>
      ⟨hs.objects l q i hq hi, fun ho m hm => hs.names l q i m hq hi ho hm⟩
    · have hd := hs.root m hm kv hkv
      by_cases hne : kv.1 = []
      · rw [hne]
        exact ⟨by decide, trivial⟩
      · rw [parentNames_key hd hne (by decide)]
        exact ⟨by unfold prependPath; rw [if_neg (by decide), if_neg hne]; simp, trivial⟩
    · rw [parentNames_star]
      exact trivial
  | true =>
    have hs := h.2 hn
    exact walkSchema_safe (walkFunc_flat title args hn) sched 0 (fun m hm kv hkv => flatSafe_names hs m hm kv hkv) (fun _ => names_star _) fun _ _ _ _ _ => ⟨trivial, fun _ _ _ _ _ => trivial⟩

end Gen

/-! ### GraphQL types -/

namespace Gql
open Gen (splitJSONPath names_key names_star flatSafe_names)

theorem addLeaf_calm (title : Str → Str) (args : Args) (gqlType : Option (List Str)) (inst : Instance) (k : Str) (fields : GMap GField) (required : List Str) :
    addLeaf title args gqlType inst k fields required ≠ .panic := by
  unfold addLeaf
  have := Gen.oneType_calm (gqlType.getD inst.type) []
  simp only
  split
  · exact fun h => nomatch h
  · exact absurd ‹_› this
  · split
    · exact fun h => nomatch h
    · refine Res.calm_map ?_
      unfold again
      split <;> exact fun h => nomatch h

theorem walkFunc_safe (title : Str → Str) (args : Args) : SafeFn (walkFunc title args) (fun _ _ => True) (fun p _ => p ≠ [] ∧ splitJSONPath p ≠ []) (fun _ => True) (fun _ => True) where
  refl _ := trivial
  trans _ _ _ _ _ := trivial
  mono _ _ _ _ h := h
  calm p i s hp _ := by
    unfold walkFunc
    simp only
    split
    · rename_i h
      exact absurd (List.getLast?_eq_none_iff.1 h) hp.2
    · exact Res.calm_map (addLeaf_calm _ _ _ _ _ _ _)
  step p i s s' hp _ _ := ⟨trivial, names_star p, fun _ k _ => names_key k hp.1 hp.2⟩

theorem newFile_calm (sched : Sched) (title lower : Str → Str) (args : Args) {schema : Instance} (name : Str) (implements : Bool)
    (h : FlatSafe ⟨schema.properties, schema.items⟩) : newFile sched title lower args schema name implements ≠ .panic := by
  unfold newFile
  exact Res.calm_map (walkSchema_safe (walkFunc_safe title args) sched 0 (fun m hm kv hkv => flatSafe_names h m hm kv hkv) (fun _ => names_star _)
    fun _ _ _ _ _ => ⟨trivial, fun _ _ _ _ _ => trivial⟩)

/-- The schema and its entries, and the entries of entries, can be made types of. -/
structure SafeSchema (schema : Instance) : Prop where
  own : FlatSafe ⟨schema.properties, schema.items⟩
  allOf : ∀ s ∈ schema.allOf, FlatSafe ⟨s.properties, s.items⟩
  oneOf : ∀ s ∈ schema.oneOf, FlatSafe ⟨s.properties, s.items⟩
  more : ∀ s ∈ schema.oneOf, ∀ a ∈ s.allOf, FlatSafe ⟨a.properties, a.items⟩

theorem oneOfFiles_calm (sched : Sched) (title lower : Str → Str) (args : Args) (name : Str) (hasAllOf : Bool) : ∀ (l : List Instance) (common : List GFile),
    (∀ s ∈ l, FlatSafe ⟨s.properties, s.items⟩ ∧ ∀ a ∈ s.allOf, FlatSafe ⟨a.properties, a.items⟩) → oneOfFiles sched title lower args name hasAllOf l common ≠ .panic
  | [], _, _ => fun h => nomatch h
  | s :: ss, common, h => by
    refine Res.calm_bind (newFile_calm _ _ _ _ _ _ (h s (by simp)).1) fun g _ => Res.calm_bind ?_ fun more _ =>
      Res.calm_bind (oneOfFiles_calm sched title lower args name hasAllOf ss _ fun t ht => h t (by simp [ht])) fun _ _ => Res.calm_pure _
    unfold moreFiles
    split
    · exact mapRes_calm fun a ha => newFile_calm _ _ _ _ _ _ ((h s (by simp)).2 a ha)
    · exact fun h => nomatch h

/-- **C92 (GraphQL)**: making the GraphQL files of a schema does not panic. -/
theorem C92_graphql_partial (sched : Sched) (isPrint : Char → Bool) (title lower : Str → Str) (args : Args) (schema : Instance) (name packageName : Str)
    (h : SafeSchema schema) : graphqlFiles sched isPrint title lower args schema name packageName ≠ .panic := by
  refine Res.calm_bind (Res.calm_bind (mapRes_calm fun s hs => newFile_calm _ _ _ _ _ _ (h.allOf s hs)) fun c _ =>
    Res.calm_bind (oneOfFiles_calm _ _ _ _ _ _ _ _ fun s hs => ⟨h.oneOf s hs, h.more s hs⟩) fun o _ => Res.calm_bind ?_ fun _ _ => Res.calm_pure _) fun files _ => ?_
  · unfold ownFile
    split
    · exact Res.calm_map (newFile_calm _ _ _ _ _ _ h.own)
    · exact fun h => nomatch h
  · split <;> exact Res.calm_pure _

end Gql

/-! ### The commands -/

namespace Gen

/-- What the generator uses does not panic, and the schemas it reads can be made structs of. -/
structure World.Calm (w : World) (args : Args) : Prop where
  getwd : w.getwd ≠ .panic
  abs : ∀ p, w.abs p ≠ .panic
  read : ∀ p, w.read p ≠ .panic
  schema : ∀ b p n, w.schema b p n ≠ .panic
  safe : ∀ b p n s, w.schema b p n = .ok s → SafeFor args ⟨s.properties, s.items⟩

theorem buildPlan_calm {w : World} {args : BuildArgs} (hw : w.Calm args.toArgs) : buildPlan w args ≠ .panic := by
  refine Res.calm_bind ?_ fun dir _ => Res.calm_bind (hw.read _) fun data _ => Res.calm_bind (schemaTypes_calm _ _) fun types _ => Res.calm_bind ?_ fun _ _ => Res.calm_pure _
  · unfold outputDir
    split
    · exact hw.getwd
    · exact fun h => nomatch h
  · unfold withSelf
    split
    · exact Res.calm_map (hw.abs _)
    · exact fun h => nomatch h

theorem buildStructFile_calm {w : World} {args : BuildArgs} (hw : w.Calm args.toArgs) (child name pkg : Str) (embeds : List Str) (fs : Files) :
    (buildStructFile w args child name pkg embeds fs).1 ≠ .panic := by
  have h : structFile w args (resolve args child) name embeds ≠ .panic :=
    Res.calm_bind (hw.schema _ _ _) fun s hs => C92_structs_partial _ _ _ _ _ _ (hw.safe _ _ _ s hs)
  unfold buildStructFile
  split
  · unfold writeFile
    split
    · exact fun h => nomatch h
    · simp only
      split <;> exact fun h => nomatch h
  · exact fun h => nomatch h
  · exact absurd ‹_› h

theorem buildAllOf_calm {w : World} {args : BuildArgs} (hw : w.Calm args.toArgs) (pkg : Str) : ∀ (l embeds : List Str) (fs : Files), (buildAllOf w args pkg l embeds fs).1 ≠ .panic
  | [], _, _ => fun h => nomatch h
  | path :: rest, embeds, fs => by
    have h := buildStructFile_calm hw path (allOfName w args path) pkg [] fs
    unfold buildAllOf
    split
    · exact buildAllOf_calm hw pkg rest _ _
    · exact fun h => nomatch h
    · rename_i he
      exact absurd (by rw [he]) h

theorem buildOneOf_calm {w : World} {args : BuildArgs} (hw : w.Calm args.toArgs) (pkg : Str) (embeds : List Str) : ∀ (l : List Str) (fs : Files),
    (buildOneOf w args pkg embeds l fs).1 ≠ .panic
  | [], _ => fun h => nomatch h
  | path :: rest, fs => by
    have h := buildStructFile_calm hw path (oneOfName args path) pkg embeds fs
    unfold buildOneOf
    split
    · exact buildOneOf_calm hw pkg embeds rest _
    · exact fun h => nomatch h
    · rename_i he
      exact absurd (by rw [he]) h

/-- **C92 (BuildStructsWithArgs)**: with the options for Go structs, it does not panic. -/
theorem C92_build_partial (w : World) (args : BuildArgs) (hw : w.Calm args.toArgs) (fs : Files) : (buildStructs w args fs).1 ≠ .panic := by
  have hp := buildPlan_calm hw
  unfold buildStructs
  split
  · rename_i dir allOf oneOf _
    have h := buildAllOf_calm (args := { args with outputDir := dir }) hw (pathBase dir) allOf [] fs
    unfold buildFiles
    split
    · exact buildOneOf_calm (args := { args with outputDir := dir }) hw _ _ _ _
    · exact fun h => nomatch h
    · rename_i he
      exact absurd (by rw [he]) h
  · exact fun h => nomatch h
  · exact absurd ‹_› hp

/-- The tools for the other files do not panic either. -/
structure Tools.Calm (t : Tools) (args : AllArgs) : Prop where
  world : t.toWorld.Calm args.toArgs
  graphql : ∀ a n p fs, (t.graphql a n p fs).2 ≠ .panic
  avsc : ∀ n p fs, t.avsc n p fs ≠ .panic
  gogen : ∀ m n c, (t.gogen m n c).2 ≠ .panic
  helper : ∀ n p i fs, t.helper n p i fs ≠ .panic
  tests : ∀ n p i fs c, t.helper n p i fs = .ok c → c.2 ≠ .panic
  msgp : ∀ d fs, t.msgp d fs ≠ .panic

theorem next_calm {a b : Act} (ha : ∀ fs, (a fs).1 ≠ .panic) (hb : ∀ fs, (b fs).1 ≠ .panic) (fs : Files) : (Act.next a b fs).1 ≠ .panic := by
  have h := ha fs
  unfold Act.next
  split
  · exact hb _
  · exact fun h => nomatch h
  · rename_i he
    exact absurd (by rw [he]) h

theorem when_calm {c : Bool} {a : Act} (ha : ∀ fs, (a fs).1 ≠ .panic) (fs : Files) : (Act.when c a fs).1 ≠ .panic := by
  unfold Act.when
  split
  · exact ha fs
  · exact fun h => nomatch h

theorem from_calm {α : Type} {make : Files → Res α} {use : α → Act} {fs : Files} (hm : make fs ≠ .panic) (hu : ∀ x, make fs = .ok x → (use x fs).1 ≠ .panic) :
    (Act.from make use fs).1 ≠ .panic := by
  unfold Act.from
  split
  · exact hu _ ‹_›
  · exact fun h => nomatch h
  · exact absurd ‹_› hm

theorem putFile_calm (t : Tools) (path : Str) (c : Content) (fs : Files) : (t.putFile path c fs).1 ≠ .panic := by
  unfold Tools.putFile
  split <;> exact fun h => nomatch h

theorem avroStep_calm {t : Tools} {args : AllArgs} (ht : t.Calm args) (a : AllArgs) (name path : Str) (fs : Files) : (avroStep t a name path fs).1 ≠ .panic := by
  refine next_calm (fun fs => from_calm (ht.avsc _ _ _) fun c _ => putFile_calm _ _ _ _) (next_calm (fun fs => ht.gogen _ _ _) fun fs =>
    from_calm (ht.helper _ _ _ _) fun c hc => next_calm (fun fs => putFile_calm _ _ _ _) (fun fs => from_calm (ht.tests _ _ _ _ c hc) fun _ _ => putFile_calm _ _ _ _) _) fs

theorem structStep_calm {t : Tools} {args : AllArgs} (ht : t.Calm args) {a : AllArgs} (ha : a.toArgs = args.toArgs) (child name pkg : Str) (embeds : List Str) (fs : Files) :
    (structStep t a child name pkg embeds fs).1 ≠ .panic :=
  next_calm (fun fs => buildStructFile_calm (by rw [ha]; exact ht.world) _ _ _ _ fs) (fun fs => when_calm (avroStep_calm ht a _ _) fs) fs

theorem allOfSteps_calm {t : Tools} {args : AllArgs} (ht : t.Calm args) {a : AllArgs} (ha : a.toArgs = args.toArgs) (pkg : Str) : ∀ (l embeds : List Str) (fs : Files),
    (allOfSteps t a pkg l embeds fs).1 ≠ .panic
  | [], _, _ => fun h => nomatch h
  | path :: rest, embeds, fs => by
    have h := structStep_calm ht ha path (allOfName t.toWorld a.toBuildArgs path) pkg [] fs
    unfold allOfSteps
    split
    · exact allOfSteps_calm ht ha pkg rest _ _
    · exact fun h => nomatch h
    · rename_i he
      exact absurd (by rw [he]) h

theorem oneOfSteps_calm {t : Tools} {args : AllArgs} (ht : t.Calm args) {a : AllArgs} (ha : a.toArgs = args.toArgs) (pkg : Str) (embeds : List Str) : ∀ (l : List Str) (fs : Files),
    (oneOfSteps t a pkg embeds l fs).1 ≠ .panic
  | [], _ => fun h => nomatch h
  | path :: rest, fs => by
    unfold oneOfSteps
    exact next_calm (fun fs => structStep_calm ht ha _ _ _ _ fs) (fun fs => oneOfSteps_calm ht ha pkg embeds rest fs) fs

/-- **C92 (BuildStructsWithArgs)**: with all options, it does not panic unless the tools it uses do. -/
theorem C92_all_partial (t : Tools) (args : AllArgs) (ht : t.Calm args) (fs : Files) : (buildAll t args fs).1 ≠ .panic := by
  have hp := buildPlan_calm (args := args.toBuildArgs) ht.world
  unfold buildAll
  split
  · rename_i dir allOf oneOf _
    refine next_calm (fun fs => when_calm (fun fs => ht.graphql _ _ _ _) fs) (fun fs => next_calm (fun fs => ?_) (fun fs => when_calm (fun fs => ?_) fs) fs) fs
    · have h := allOfSteps_calm ht (a := withDirs args dir) rfl (pathBase (withDirs args dir).outputDir) allOf [] fs
      unfold structSteps
      split
      · exact oneOfSteps_calm ht (a := withDirs args dir) rfl _ _ _ _
      · exact fun h => nomatch h
      · rename_i he
        exact absurd (by rw [he]) h
    · refine from_calm (ht.msgp _ _) fun c _ => ?_
      split
      · exact next_calm (fun fs => putFile_calm _ _ _ _) (fun fs => putFile_calm _ _ _ _) _
      · exact fun h => nomatch h
  · exact fun h => nomatch h
  · exact absurd ‹_› hp

end Gen

/-! ### Examples and counterexamples -/

namespace C92ex
open Toy

def inlineB (q : P) : Bool :=
  match decodeInstance false q with
  | .ok i => decide (g!"object" ∈ i.type → g!"graphql-hydration" ∉ i.type) && (i.properties.getD []).all fun kv => decide ('.' ∉ kv.1)
  | _ => true

theorem inline {sc : Schema} (hr : ((sc.properties.getD []).all fun kv => decide ('.' ∉ kv.1)) = true) (h : ((schemaPositions instNode sc).all fun x => inlineB x.2) = true) :
    InlineSafe sc := by
  refine ⟨fun m hm kv hkv => ?_, fun l q i m hq hi ho hm kv hkv => ?_, fun l q i hq hi ho => ?_⟩
  · rw [hm] at hr
    exact of_decide_eq_true (List.all_eq_true.1 hr kv hkv)
  · have := check_positions instNode_shrinks (f := fun _ x => inlineB x) h hq
    simp only [inlineB, hi, hm, Option.getD_some, Bool.and_eq_true, decide_eq_true_eq, List.all_eq_true] at this
    exact this.2 kv hkv
  · have := check_positions instNode_shrinks (f := fun _ x => inlineB x) h hq
    simp only [inlineB, hi, Bool.and_eq_true, decide_eq_true_eq] at this
    exact this.1 ho

/-- The schema of C56 can be made inline structs of, and structs and types of their own. -/
example : InlineSafe ⟨some C56ex.good, none⟩ ∧ FlatSafe ⟨some C56ex.good, none⟩ := by
  refine ⟨inline (by decide +kernel) (by decide +kernel), fun m hm kv hkv => ?_⟩
  cases hm
  have h : (C56ex.good.all fun kv => decide (kv.1 ≠ [] ∧ ∃ part ∈ splitC '.' kv.1, part ≠ g!"$")) = true := by decide +kernel
  exact of_decide_eq_true (List.all_eq_true.1 h kv hkv)

/-- The tools of C85 and the schemas they read are covered. -/
example (d : P) : (Gen.C85ex.tools d).Calm Gen.C85ex.opts := by
  refine ⟨⟨fun h => (nomatch h), fun _ h => (nomatch h), fun _ h => (nomatch h), fun _ _ _ h => (nomatch h), fun b p n s h => ?_⟩, fun _ _ _ _ h => (nomatch h),
    fun _ _ _ h => (nomatch h), fun _ _ _ h => (nomatch h), fun _ _ _ _ h => (nomatch h), fun _ _ _ _ c h => (by cases h; exact fun h => nomatch h), fun _ _ h => (nomatch h)⟩
  cases h
  refine ⟨fun _ => ?_, fun h => nomatch h⟩
  unfold Gen.C65ex.schemaOf
  split
  · exact inline rfl rfl
  · split
    · exact inline (by decide +kernel) (by decide +kernel)
    · exact inline (by decide +kernel) (by decide +kernel)

/-- Options for inline structs, and for structs of their own. -/
def args (flat : Bool) : Gen.Args := ⟨false, flat, false, false, [], []⟩

def object (m : List (Str × P)) : P := o [(g!"type", s g!"object"), (g!"properties", o m)]
def text : P := o [(g!"type", s g!"string")]
def schema (m : GMap P) : Instance := { Instance.zero with properties := some m }

def isPanic {α : Type} : Res α → Bool
  | .panic => true
  | _ => false

theorem of_isPanic {α : Type} {r : Res α} (h : isPanic r = true) : r = .panic := by
  cases r with
  | panic => rfl
  | ok => cases h
  | err => cases h

/-- A name with a dot, beside a property with the name before the dot. -/
theorem dot_panics : Gen.newGoFile Sched.id id (args false) (schema [(g!"a", text), (g!"a.b", text)]) g!"T" [] = .panic := of_isPanic (by decide +kernel)

/-- Items of an array that are objects and of the type that is ignored. -/
theorem hydration_panics : Gen.newGoFile Sched.id id (args false)
    (schema [(g!"a", o [(g!"type", s g!"array"), (g!"items", o [(g!"type", a [s g!"graphql-hydration", s g!"object"]), (g!"properties", o [(g!"b", text)])])])]) g!"T" [] = .panic :=
  of_isPanic (by decide +kernel)

/-- A property called `$`, or without a name. -/
theorem dollar_panics : Gen.newGoFile Sched.id id (args true) (schema [(g!"$", text)]) g!"T" [] = .panic := of_isPanic (by decide +kernel)
theorem empty_panics : Gen.newGoFile Sched.id id (args true) (schema [([], text)]) g!"T" [] = .panic := of_isPanic (by decide +kernel)

end C92ex

/-- The property for all schemas, for Go structs and for GraphQL. -/
def C92_statement : Prop :=
  (∀ sched title args schema name embeds, Gen.newGoFile sched title args schema name embeds ≠ .panic) ∧
  ∀ sched isPrint title lower args schema name packageName, Gql.graphqlFiles sched isPrint title lower args schema name packageName ≠ .panic

theorem C92_refuted : ¬ C92_statement := fun h => h.1 _ _ _ _ _ _ C92ex.dot_panics

/-- A property called `$` makes the generation of GraphQL files panic. -/
theorem C92_refuted_graphql : ∃ sched isPrint title lower args schema name packageName, Gql.graphqlFiles sched isPrint title lower args schema name packageName = .panic :=
  ⟨Sched.id, fun _ => true, id, id, ⟨false, false, false, false, [], [], [], []⟩, C92ex.schema [(g!"$", C92ex.text)], g!"t", g!"p", C92ex.of_isPanic (by decide +kernel)⟩

end JT
