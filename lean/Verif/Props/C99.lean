import Verif.Model.GraphqlInline
import Verif.Props.C89
import Verif.Props.ExactMore
import Verif.Proofs.Full
/- C99: GraphQL types do not depend on whether Go structs are inline. -/
namespace JT.Spec

/-- `Alike R a b`: both fail in the same way, or both succeed with results that are related. -/
inductive Alike {α β : Type} (R : α → β → Prop) : Res α → Res β → Prop where
  | ok {a : α} {b : β} : R a b → Alike R (.ok a) (.ok b)
  | err : Alike R .err .err
  | panic : Alike R .panic .panic

end JT.Spec

namespace JT.Gen
open JT.Spec

theorem alike_map {α β γ δ : Type} {R : α → β → Prop} {S : γ → δ → Prop} {a : Res α} {b : Res β} (h : Alike R a b) {f : α → γ} {g : β → δ} (hf : ∀ x y, R x y → S (f x) (g y)) :
    Alike S (a.map f) (b.map g) := by
  cases h with
  | ok h => exact .ok (hf _ _ h)
  | err => exact .err
  | panic => exact .panic

/-- Walking with related states. -/
theorem walk_alike {σ τ : Type} {R : σ → τ → Prop} {sc : Schema} (hn : SchemaNames instNode sc) (sched : Sched) (tick : Nat) (fn : Str → Instance → σ → Res σ)
    (fn' : Str → Instance → τ → Res τ)
    (h : ∀ l q i s t, SchemaAt instNode sc l q → decodeInstance false q = .ok i → R s t → Alike R (fn (pathOf l) i s) (fn' (pathOf l) i t)) {s : σ} {t : τ} (hs : R s t) :
    Alike (fun a b => R a.2 b.2) (walkSchema sched tick fn sc s) (walkSchema sched tick fn' sc t) := by
  obtain ⟨vs, done, tk, h1, h2⟩ := gwalkSchema_visits instNode_shrinks (order := fun n m => sched.perm n _ m) (fun n m => sched.isPerm _ _ _) sc tick hn
  rw [walkSchema_gwalk, walkSchema_gwalk, h2 σ (onInst fn) s, h2 τ (onInst fn') t]
  have hf : ∀ (l : List (List Seg × P)), (∀ x ∈ l, SchemaAt instNode sc x.1 x.2) → ∀ s t, R s t →
      Alike R (foldRes (fnAt (onInst fn) g!"$") l s) (foldRes (fnAt (onInst fn') g!"$") l t) := by
    intro l
    induction l with
    | nil => intro _ s t hs; exact .ok hs
    | cons x l ih =>
      intro hl s t hs
      simp only [foldRes]
      have hx : Alike R (fnAt (onInst fn) g!"$" x s) (fnAt (onInst fn') g!"$" x t) := by
        unfold fnAt onInst
        cases hd : decodeInstance false x.2 with
        | ok i => exact h _ _ _ _ _ (hl x (by simp)) hd hs
        | err => exact .err
        | panic => exact .panic
      generalize fnAt (onInst fn) g!"$" x s = a at hx
      generalize fnAt (onInst fn') g!"$" x t = b at hx
      cases hx with
      | ok hx => exact ih (fun y hy => hl y (by simp [hy])) _ _ hx
      | err => exact .err
      | panic => exact .panic
  have := hf vs h1.sound s t hs
  generalize foldRes (fnAt (onInst fn) g!"$") vs s = a at this
  generalize foldRes (fnAt (onInst fn') g!"$") vs t = b at this
  cases this with
  | ok h => cases done
            · exact .err
            · exact .ok h
  | err => cases done <;> exact .err
  | panic => cases done <;> exact .panic

end JT.Gen

namespace JT.Gql
open JT.Spec
open Gen (splitJSONPath oneType sortedByName)

/-- The fields without their own fields. -/
def outer (fs : List (Str × INode)) : GMap GField := fs.map fun kf => (kf.1, kf.2.field)

theorem outer_set (k : Str) (f : INode) : ∀ fs : List (Str × INode), outer (GMap.set k f fs) = GMap.set k f.field (outer fs)
  | [] => rfl
  | (k', f') :: fs => by
    unfold outer
    simp only [GMap.set, List.map_cons]
    split
    · rfl
    · split
      · rfl
      · rw [List.map_cons]
        exact congrArg _ (outer_set k f fs)

theorem outer_get (k : Str) (fs : List (Str × INode)) : GMap.get k (outer fs) = (GMap.get k fs).map INode.field := get_map_snd (g := INode.field) k fs

/-- What is known of the root in both ways of building it. -/
structure Same (root : GObject) (n : INode) (g : GFile) : Prop where
  nested : g.nested = []
  fields : ∃ fs, n.fields = some fs ∧ outer fs = g.root.fields ∧ ∀ kf ∈ fs, kf.2.field.jsonType ≠ g!"object"
  required : n.required = some g.root.required
  root : g.root = { root with fields := g.root.fields, required := g.root.required }

theorem oneType_mem : ∀ {l : List Str} {t r : Str}, oneType l t = .ok r → r = t ∨ r ∈ l
  | [], t, r, h => by simp only [oneType, Res.ok.injEq] at h; exact .inl h.symm
  | a :: l, t, r, h => by
    simp only [oneType] at h
    split at h
    · exact (oneType_mem h).imp id (List.mem_cons_of_mem _)
    · split at h
      · cases h
      · rcases oneType_mem h with h | h
        · exact .inr (by simp [h])
        · exact .inr (List.mem_cons_of_mem _ h)

theorem dateTime_type {inst : Instance} {f : GField} (h : f.jsonType ≠ g!"object") : (dateTime inst f).jsonType ≠ g!"object" := by
  unfold dateTime
  split
  · simp
  · exact h

theorem again_type {pointers : Bool} {required : List Str} {t : Str} {inst : Instance} {f f' : GField} (ht : t ≠ g!"object") (hf : f.jsonType ≠ g!"object")
    (h : again pointers required t inst f = .ok f') : f'.jsonType ≠ g!"object" := by
  unfold again at h
  split at h
  · cases h
    split <;> split <;> first | exact ht | exact hf
  · cases h

theorem store_same {title : Str → Str} {fieldName k : Str} {inst : Instance} {root : GObject} {n : INode} {g : GFile} (h : Same root n g) {f : INode}
    (hf : f.field.jsonType ≠ g!"object") :
    Alike (Same root) (storeI title fieldName k inst f n)
      (.ok ⟨{ g.root with fields := (store title fieldName k inst f.field g.root.fields g.root.required).1, required := (store title fieldName k inst f.field g.root.fields g.root.required).2 }, g.nested⟩) := by
  obtain ⟨h1, ⟨fs, h2, h3, h4⟩, h5, h6⟩ := h
  unfold storeI store
  rw [h2, h5]
  simp only
  by_cases ha : f.field.jsonType = g!"array"
  · rw [if_pos ha, if_pos ha]
    refine .ok ⟨h1, ⟨_, rfl, ?_, ?_⟩, rfl, ?_⟩
    · rw [outer_set, outer_set, h3]
    · intro kf hk
      rcases GMap.mem_set hk with rfl | hk
      · simp
      · rcases GMap.mem_set hk with rfl | hk
        · simp [totalField]
        · exact h4 _ hk
    · rw [h6]
  · rw [if_neg ha, if_neg ha, if_neg hf, if_neg (fun h => hf h.1)]
    refine .ok ⟨h1, ⟨_, rfl, ?_, ?_⟩, rfl, ?_⟩
    · rw [outer_set, h3]
    · intro kf hk
      rcases GMap.mem_set hk with rfl | hk
      · exact hf
      · exact h4 _ hk
    · rw [h6]

theorem leaf_same {title : Str → Str} {args : Args} {inst : Instance} {k : Str} {root : GObject} {n : INode} {g : GFile} (h : Same root n g) (ho : g!"object" ∉ inst.type) :
    Alike (Same root) (addLeafI title args inst k n)
      ((addLeaf title args none inst k g.root.fields g.root.required).map fun fr => ⟨{ g.root with fields := fr.1, required := fr.2 }, g.nested⟩) := by
  unfold addLeafI addLeaf
  simp only [Option.getD_none]
  cases ht : oneType inst.type [] with
  | err => exact .err
  | panic => exact .panic
  | ok t =>
    have htne : t ≠ g!"object" := by
      rcases oneType_mem ht with rfl | hm
      · simp
      · rintro rfl; exact ho hm
    obtain ⟨fs, h2, h3, h4⟩ := h.fields
    simp only
    rw [h2, ← h3, outer_get, Option.getD_some, h.required, Option.getD_some]
    cases hk : GMap.get k fs with
    | none =>
      have := store_same (title := title) (fieldName := (GMap.get k args.fieldNames).getD k) (k := k) (inst := inst) h
        (f := ⟨dateTime inst (newField title ((GMap.get k args.fieldNames).getD k) k t inst), [], none, none⟩) (dateTime_type htne)
      rw [← h3] at this
      exact this
    | some e =>
      simp only [Option.map_some]
      cases hag : again args.pointers g.root.required t inst e.field with
      | err => exact .err
      | panic => exact .panic
      | ok f =>
        have := store_same (title := title) (fieldName := (GMap.get k args.fieldNames).getD k) (k := k) (inst := inst) h
          (f := { e with field := dateTime inst f }) (dateTime_type (again_type htne (h4 _ (GMap.get_some_mem hk)) hag))
        rw [← h3] at this
        exact this

theorem walk_same {title : Str → Str} {args : Args} {path : Str} {k : Str} {inst : Instance} {root : GObject} {n : INode} {g : GFile} (h : Same root n g)
    (ho : g!"object" ∉ inst.type) (hp : splitJSONPath path = [k]) : Alike (Same root) (walkInlineG title args path inst n) (walkFunc title args path inst g) := by
  unfold walkInlineG walkFunc
  rw [hp]
  simp only [h.nested, ho, decide_false, Bool.false_eq_true, if_false, List.getLast?_singleton, GMap.get, Option.getD_none]
  have := leaf_same (title := title) (args := args) (k := k) h ho
  rw [h.nested] at this
  exact this

/-! ### The text -/

theorem leafText_eq (isPrint : Char → Bool) (ef : GField) (required pointers : Bool) : leafText isPrint g!"  " ef required pointers = ef.text isPrint required pointers := rfl

theorem text_leaf (isPrint : Char → Bool) (pointers : Bool) {n : INode} (h : n.field.jsonType ≠ g!"object") (required : Bool) :
    n.text isPrint pointers g!"  " required = .ok (n.field.text isPrint required pointers) := by
  obtain ⟨ef, order, fields, rq⟩ := n
  unfold INode.text
  rw [if_pos h]
  rfl

theorem body_leaves (isPrint : Char → Bool) (pointers : Bool) (required : List Str) : ∀ ns : List INode, (∀ n ∈ ns, n.field.jsonType ≠ g!"object") →
    rootBody isPrint pointers required ns = .ok (join g!"\n" (ns.map fun n => n.field.text isPrint (decide (n.field.jsonName ∈ required)) pointers))
  | [], _ => rfl
  | [n], h => by
    rw [rootBody, text_leaf _ _ (h n (by simp))]
    rfl
  | n :: m :: ns, h => by
    rw [rootBody, text_leaf _ _ (h n (by simp)), body_leaves isPrint pointers required (m :: ns) fun x hx => h x (by simp [hx])]
    · simp [Res.map, join]
    · simp

theorem sorted_map {α β : Type} (g : α → β) (l : List (Str × α)) : sortedByName (l.map fun x => (x.1, g x.2)) = (sortedByName l).map g := by
  unfold sortedByName
  rw [List.map_map, List.map_filterMap]
  refine congrArg₂ _ (funext fun n => ?_) rfl
  rw [← List.map_reverse, get_map_snd]

theorem sorted_mem {α : Type} {l : List (Str × α)} {x : α} (h : x ∈ sortedByName l) : ∃ k, (k, x) ∈ l := by
  unfold sortedByName at h
  obtain ⟨n, _, hn⟩ := List.mem_filterMap.1 h
  exact ⟨n, List.mem_reverse.1 (GMap.get_some_mem hn)⟩

end JT.Gql

namespace JT
open Spec Gql

/-- No property or item of the schema is an object, and the names of properties are plain. -/
structure Spec.NoObjects (sc : Schema) : Prop where
  names : SchemaNames instNode sc
  quiet : ∀ l q, SchemaAt instNode sc l q → QuietPath l
  types : ∀ l q i, SchemaAt instNode sc l q → decodeInstance false q = .ok i → g!"object" ∉ i.type

/-- The full statement of **C99** for schemas without allOf and oneOf entries: the same text is written with inline objects. -/
def C99_statement : Prop := ∀ (sched : Sched) (isPrint : Char → Bool) (title lower : Str → Str) (args : Gql.Args) (schema : Instance) (name packageName : Str),
  schema.allOf = [] → schema.oneOf = [] →
    graphqlFiles sched isPrint title lower args schema name packageName =
      (inlineText sched isPrint title lower args schema name).map fun t => [(name ++ g!".graphqls", t)]

/-- Below something that is not an object there are only items. -/
theorem stars_below {q r : P} {l : List Seg} (h : At instNode q l r) : (∀ l' r' i, At instNode q l' r' → decodeInstance false r' = .ok i → g!"object" ∉ i.type) → ∀ s ∈ l, s = .star := by
  induction h with
  | here => intro _ s hs; cases hs
  | @prop raw q' r' m k l' hv _ _ _ =>
    intro ho
    unfold instNode at hv
    split at hv
    · rename_i i hi
      rw [if_neg (ho _ _ i .here hi)] at hv
      split at hv
      · cases hi' : i.items <;> rw [hi'] at hv <;> cases hv
      · cases hv
    · cases hv
  | item hv _ ih =>
    intro ho s hs
    rcases List.mem_cons.1 hs with rfl | hs
    · rfl
    · exact ih (fun l' r' i h' => ho _ _ i (.item hv h')) s hs

theorem groups_stars : ∀ {l : List Seg}, (∀ s ∈ l, s = .star) → (groups l).2 = []
  | [], _ => rfl
  | s :: l, h => by
    have ih := groups_stars (l := l) fun x hx => h x (by simp [hx])
    cases s with
    | star => exact ih
    | key k => exact absurd (h _ List.mem_cons_self) (by simp)

theorem noObjects_path {sc : Schema} (hs : NoObjects sc) {l : List Seg} {q : P} (h : SchemaAt instNode sc l q) : ∃ k, Gen.splitJSONPath (pathOf l) = [k] := by
  rw [C66_exact (hs.quiet l q h)]
  cases h with
  | @prop m q' r k l' hm hk ha =>
    have h1 := groups_stars (stars_below ha fun l' r' i h' hd => hs.types _ _ i (.prop hm hk h') hd)
    exact ⟨k ++ starsText ((groups l').1 - 1), by simp [groups, h1]⟩
  | @item q' r l' hm ha =>
    have h1 := groups_stars (stars_below ha fun l' r' i h' hd => hs.types _ _ i (.item hm h') hd)
    exact ⟨g!"$" ++ starsText (groups l').1, by simp [groups, h1]⟩

/-- **C99**, partial: if no property or item is an object, the same file is written with inline objects. -/
theorem C99_partial (sched : Sched) (isPrint : Char → Bool) (title lower : Str → Str) (args : Gql.Args) (schema : Instance) (name packageName : Str)
    (hs : NoObjects ⟨schema.properties, schema.items⟩) (ha : schema.allOf = []) (ho : schema.oneOf = []) :
    graphqlFiles sched isPrint title lower args schema name packageName =
      (inlineText sched isPrint title lower args schema name).map fun t => [(name ++ g!".graphqls", t)] := by
  generalize hroot : ({ Gql.newObject (rootNames title lower args name false).1 (rootNames title lower args name false).2 schema.required with
    description := schema.description, buildType := BuildType.type } : GObject) = root
  have hw : Alike (Same root) (newInline sched title args schema) (newFile sched title lower args schema name false) := by
    unfold newInline newFile
    simp only [ho, List.length_nil, ne_eq, not_true_eq_false, if_false, hroot]
    refine Gen.alike_map (Gen.walk_alike (R := Same root) hs.names sched 0 _ _ (fun l q i s t hl hd hst => ?_) ?_) fun x y h => h
    · obtain ⟨k, hk⟩ := noObjects_path hs hl
      exact walk_same hst (hs.types l q i hl hd) hk
    · subst hroot
      exact ⟨rfl, ⟨[], rfl, rfl, by simp⟩, rfl, rfl⟩
  have hf : graphqlFiles sched isPrint title lower args schema name packageName =
      (newFile sched title lower args schema name false).map fun g => [(name ++ g!".graphqls", fileText isPrint title args true [g])] := by
    unfold graphqlFiles buildFiles ownFile allOfFiles
    simp only [ha, ho, List.length_nil, ne_eq, not_true_eq_false, if_false, and_self, if_true, mapRes, oneOfFiles]
    cases newFile sched title lower args schema name false with
    | err => rfl
    | panic => rfl
    | ok g =>
      cases hi : args.interfaceFiles <;> simp [Res.map, bind, pure, Res.bind]
  rw [hf]
  unfold inlineText
  generalize newInline sched title args schema = a at hw
  generalize newFile sched title lower args schema name false = b at hw
  cases hw with
  | err => rfl
  | panic => rfl
  | @ok n g h =>
    obtain ⟨h1, ⟨fs, h2, h3, h4⟩, h5, h6⟩ := h
    simp only [h2, h5, Option.getD_some]
    rw [body_leaves _ _ _ _ ?_]
    · simp only [Res.map]
      congr 3
      unfold fileText
      simp only [List.flatMap_cons, List.flatMap_nil, List.append_nil]
      congr 1
      unfold GFile.text GFile.structs
      rw [h1]
      have hr1 : g.root.target = [] ∧ g.root.buildType = .type ∧ g.root.implements = [] ∧ g.root.description = schema.description ∧
          g.root.jsonName = (rootNames title lower args name false).2 ∧ g.root.name = (rootNames title lower args name false).1 := by
        rw [h6]
        subst hroot
        exact ⟨rfl, rfl, rfl, rfl, rfl, rfl⟩
      obtain ⟨r1, r2, r3, r4, r5, r6⟩ := hr1
      have hsort : Gen.sortedByName (List.map (fun kv : Str × GObject => (kv.2.name, kv.2)) []) = [] := rfl
      rw [hsort]
      simp only [List.flatMap_cons, List.flatMap_nil, List.append_nil, r1, r2, true_and, ne_eq, reduceCtorEq, not_false_eq_true, if_true]
      congr 1
      unfold GObject.text rootText
      rw [if_neg (by simp [r1, r2])]
      simp only [r2, r3, r4, r5, r6, ne_eq, not_true_eq_false, if_false, List.append_nil]
      unfold fieldTexts
      rw [← h3]
      have e1 : (outer fs).map (fun kf => (kf.2.name, kf.2)) = (fs.map fun kf => (kf.2.field.name, kf.2)).map fun x => (x.1, x.2.field) := by
        simp [outer, List.map_map, Function.comp_def]
      rw [e1, sorted_map (g := INode.field), List.map_map]
      have e2 : (outer fs).any (fun kf => decide (kf.2.jsonType ≠ g!"graphql-hydration")) = fs.any fun kf => decide (kf.2.field.jsonType ≠ g!"graphql-hydration") := by
        unfold outer
        rw [List.any_map]
        rfl
      simp only [ne_eq] at e2
      rw [e2]
      rfl
    · intro x hx
      obtain ⟨k, hk⟩ := sorted_mem hx
      obtain ⟨kf, hkf, he⟩ := List.mem_map.1 hk
      cases he
      exact h4 _ hkf

end JT

namespace JT.GqlText
open JT.Spec Gql

/-- After each opening parenthesis comes something else than a punctuator. -/
def Opened : List Tok → Prop
  | [] => True
  | t :: ts => (t = .punct '(' → ∃ u us, ts = u :: us ∧ ∀ c, u ≠ .punct c) ∧ Opened ts

theorem Opened.append : ∀ {a b : List Tok}, Opened a → Opened b → Opened (a ++ b)
  | [], _, _, h => h
  | t :: ts, b, h, h' => by
    refine ⟨fun e => ?_, Opened.append h.2 h'⟩
    obtain ⟨u, us, rfl, hu⟩ := h.1 e
    exact ⟨u, us ++ b, rfl, hu⟩

theorem Opened.one {t : Tok} (h : t ≠ .punct '(') {ts : List Tok} (h' : Opened ts) : Opened (t :: ts) := ⟨fun e => absurd e h, h'⟩

theorem Opened.flatMap {α : Type} {f : α → List Tok} (h : ∀ a, Opened (f a)) : ∀ l : List α, Opened (l.flatMap f)
  | [] => trivial
  | a :: l => by rw [List.flatMap_cons]; exact (h a).append (Opened.flatMap h l)

theorem opened_bang (b : Bool) : Opened (nonNullTok b) := by cases b <;> simp [nonNullTok, Opened]

theorem opened_type : ∀ t : GType, Opened t.toks
  | .named n b => .one (by simp) (opened_bang b)
  | .list t b => .one (by simp) ((opened_type t).append (.one (by simp) (opened_bang b)))

theorem opened_desc (d : Option Str) : Opened (descTok d) := by cases d <;> simp [descTok, Opened]

theorem opened_parens {α : Type} {f : α → List Tok} (h : ∀ a, Opened (f a)) (hne : ∀ a, ∃ t ts, f a = t :: ts ∧ Begins t) (l : List α) : Opened (parens f l) := by
  cases l with
  | nil => trivial
  | cons a l =>
    obtain ⟨t, ts, he, hb⟩ := hne a
    exact ⟨fun _ => ⟨t, ts ++ l.flatMap f ++ [.punct ')'], by rw [List.flatMap_cons, he]; simp, hb⟩, (Opened.flatMap h (a :: l)).append (.one (by simp) trivial)⟩

theorem opened_argTok (a : Str × Val) : Opened (argTok a) :=
  .one (by simp) (.one (by simp) (.one (t := a.2.tok) (by cases a.2 <;> simp [Val.tok]) (by simp [Opened])))

theorem opened_dir (d : Directive) : Opened d.toks :=
  .one (by simp) (.one (by simp) (opened_parens opened_argTok (fun a => ⟨.name a.1, [.punct ':', a.2.tok], rfl, by simp [Begins]⟩) d.args))

theorem opened_arg (a : ArgDef) : Opened a.toks := (opened_desc _).append (.one (by simp) (.one (by simp) (opened_type _)))

theorem opened_field (f : FieldDef) : Opened f.toks :=
  (opened_desc _).append (.one (by simp) ((opened_parens opened_arg (fun a => begins_desc a.description a.name _) f.args).append
    (.one (by simp) ((opened_type _).append (.flatMap opened_dir _)))))

theorem opened_def : ∀ d : Def, Opened d.toks
  | .scalar n => .one (by simp) (.one (by simp) trivial)
  | .type d => (opened_desc _).append (.one (by simp) (.one (by simp) (by
      refine Opened.append ?_ ((Opened.flatMap opened_dir _).append (.one (by simp) ((Opened.flatMap opened_field _).append (.one (by simp) trivial))))
      cases d.implements with
      | none => trivial
      | some n => exact .one (by simp) (.one (by simp) trivial))))

theorem opened_two {c : Char} {b : List Tok} : ∀ {a : List Tok}, ¬ Opened (a ++ .punct '(' :: .punct c :: b)
  | [], h => by
    obtain ⟨u, us, he, hu⟩ := h.1 rfl
    cases he
    exact hu c rfl
  | _ :: _, h => opened_two h.2

/-- A text with a part, from the beginning, in which a punctuator comes after an opening parenthesis. -/
def Broken (s : Str) : Prop := ∃ A B ts c, s = A ++ B ∧ Whole A (ts ++ [.punct '(', .punct c])

theorem Broken.not {s : Str} (h : Broken s) (defs : List Def) : ¬ Denotes s defs := by
  rintro ⟨h1, _⟩
  obtain ⟨A, B, ts, c, rfl, hA⟩ := h
  unfold lex at h1
  cases hB : run .start B with
  | none =>
    have : run .start (A ++ B) = none := by
      clear h1
      have hst' : ∀ {st st' : St} {A : Str} {us : List Tok}, Reads st A us st' → run st' B = none → run st (A ++ B) = none := by
        intro st st' A
        induction A generalizing st with
        | nil => intro us h h'; cases h; exact h'
        | cons x A ih =>
          intro us h h'
          unfold Reads at h
          simp only [run] at h
          rw [List.cons_append, run]
          split at h
          · cases h
          · rename_i h1
            split at h
            · cases h
            · rename_i h2
              cases h
              rw [ih h2 h']
      exact hst' hA hB
    rw [this] at h1
    cases h1
  | some r =>
    have h2 : Reads .start (A ++ B) _ r.2 := Reads.append hA (us := r.1) (by exact hB)
    rw [show run .start (A ++ B) = _ from h2] at h1
    simp only at h1
    cases hf : finish r.2 with
    | none => rw [hf] at h1; cases h1
    | some fs =>
      rw [hf] at h1
      simp only [Option.map_some, Option.some.injEq] at h1
      have : Opened (defs.flatMap Def.toks) := Opened.flatMap opened_def _
      rw [← h1] at this
      exact opened_two (a := ts) (c := c) (b := r.1 ++ fs) (by simpa using this)

theorem Broken.after {A s : Str} {ts : List Tok} (hA : Whole A ts) (h : Broken s) : Broken (A ++ s) := by
  obtain ⟨A', B, ts', c, rfl, h⟩ := h
  exact ⟨A ++ A', B, ts ++ ts', c, by simp, by simpa using hA.append h⟩

theorem Broken.before {s : Str} (h : Broken s) (B : Str) : Broken (s ++ B) := by
  obtain ⟨A, B', ts', c, rfl, h⟩ := h
  exact ⟨A, B' ++ B, ts', c, by simp, h⟩

theorem Broken.space {c : Char} {s : Str} (hc : c ∈ ignored) (h : Broken s) : Broken (c :: s) := by
  obtain ⟨A, B, ts', d, rfl, h⟩ := h
  exact ⟨c :: A, B, ts', d, rfl, reads_space hc h⟩

theorem Broken.punct {c : Char} {s : Str} (hc : c ∈ puncts) (h : Broken s) : Broken (c :: s) := by
  obtain ⟨A, B, ts', d, rfl, h⟩ := h
  exact ⟨c :: A, B, .punct c :: ts', d, rfl, reads_punct hc h⟩

theorem Broken.name {n s : Str} {c : Char} (hn : GqlName n) (hc : nameRest c = false) (h : Broken (c :: s)) : Broken (n ++ c :: s) := by
  obtain ⟨A, B, ts', d, e, h⟩ := h
  cases A with
  | nil =>
    have := congrArg (Option.map fun x => x.1.length) (show run .start [] = _ from h)
    simp [run] at this
  | cons x A =>
    cases e
    exact ⟨n ++ c :: A, B, .name n :: ts', d, by simp, reads_name_then hn hc h⟩

/-- The text of an object that is written inline is broken. -/
theorem object_broken {isPrint : Char → Bool} {ef : GField} {required pointers : Bool} {body : Str} (hj : ef.jsonType = g!"object") (ht : ef.target = [])
    (hn : GqlName ef.jsonName) (hd : ∃ d ds, FieldText isPrint ef.description d ds) : Broken (objectText isPrint g!"  " ef required pointers body) := by
  obtain ⟨d, ds, hd⟩ := hd
  obtain ⟨h1, _⟩ := field_description hd
  unfold objectText
  have hb : baseType ef required pointers = g!"(!" ∨ baseType ef required pointers = g!"(" := by
    unfold baseType
    simp only [ht, hj, ne_eq, not_true_eq_false, if_false]
    split
    · exact .inl (by decide)
    · exact .inr (by decide)
  simp only [List.append_assoc]
  refine Broken.after h1 (Broken.space (by decide) (Broken.space (by decide) ?_))
  unfold graphqlType
  rw [if_neg (by rw [hj]; decide)]
  by_cases ha : ef.array = true
  · simp only [ha, if_true]
    refine Broken.name hn (c := '(') (by decide) (Broken.after (A := listArguments) whole_listArguments ?_)
    refine Broken.space (c := '\t') (by decide) ?_
    simp only [List.append_assoc]
    refine Broken.punct (c := '[') (by decide) ?_
    rcases hb with hb | hb
    · rw [hb]
      exact ⟨g!"(!", _, [], '!', rfl, by rfl⟩
    · rw [hb]
      split
      · exact ⟨g!"(]", _, [], ']', rfl, by rfl⟩
      · exact ⟨g!"(]", _, [], ']', rfl, by rfl⟩
  · simp only [ha, Bool.false_eq_true, if_false, List.nil_append]
    refine Broken.name hn (c := '\t') (by decide) (Broken.space (by decide) ?_)
    rcases hb with hb | hb
    · rw [hb]
      exact ⟨g!"(!", _, [], '!', rfl, by rfl⟩
    · rw [hb]
      exact ⟨g!"( {", _, [], '{', rfl, by rfl⟩

/-- The fields up to an object, with the object. -/
theorem body_broken {isPrint : Char → Bool} {pointers : Bool} {required : List Str} {n : INode} {post : List INode} (hj : n.field.jsonType = g!"object") (ht : n.field.target = [])
    (hn : GqlName n.field.jsonName) (hd : ∃ d ds, FieldText isPrint n.field.description d ds) : ∀ {pre : List INode} {t : Str},
    (∀ m ∈ pre, ∃ fd, FieldMeans isPrint pointers m.field (decide (m.field.jsonName ∈ required)) fd) → (∀ m ∈ pre, m.field.jsonType ≠ g!"object") →
    rootBody isPrint pointers required (pre ++ n :: post) = .ok t → Broken t
  | [], t, _, _, h => by
    have key : ∀ r u, n.text isPrint pointers g!"  " r = .ok u → Broken u := by
      intro r u hu
      obtain ⟨ef, order, fields, rq⟩ := n
      unfold INode.text at hu
      rw [if_neg (by simpa using hj)] at hu
      obtain ⟨body, _, rfl⟩ := Res.map_eq_ok.1 hu
      exact object_broken hj ht hn hd
    cases post with
    | nil => exact key _ _ h
    | cons m post =>
      simp only [List.nil_append, rootBody] at h
      split at h
      · cases h
      · cases h
      · rename_i u hu
        obtain ⟨r, _, rfl⟩ := Res.map_eq_ok.1 h
        exact (key _ _ hu).before _
  | m :: pre, t, hf, ho, h => by
    obtain ⟨fd, hfd⟩ := hf m (by simp)
    have hne : pre ++ n :: post ≠ [] := by simp
    generalize hl : pre ++ n :: post = l at hne
    cases l with
    | nil => exact absurd rfl hne
    | cons x l =>
      rw [List.cons_append, hl] at h
      simp only [rootBody, text_leaf isPrint pointers (ho m (by simp))] at h
      obtain ⟨r, hr, rfl⟩ := Res.map_eq_ok.1 h
      refine Broken.after (field_text hfd) (Broken.space (by decide) ?_)
      rw [← hl] at hr
      exact body_broken hj ht hn hd (fun y hy => hf y (by simp [hy])) (fun y hy => ho y (by simp [hy])) hr

end JT.GqlText

namespace JT
open Spec Gql GqlText
open JT.Go (quote)

/-- What is written inline is not GraphQL: whatever the fields of the root are, if one of them is an object with properties, and the names and descriptions up to the first such field can be
written, then the text that is written is not GraphQL. -/
theorem C99_inline {sched : Sched} {isPrint : Char → Bool} {title lower : Str → Str} {args : Gql.Args} {schema : Instance} {name t : Str} {root n : INode} {pre post : List INode}
    (hroot : newInline sched title args schema = .ok root) (ht : inlineText sched isPrint title lower args schema name = .ok t)
    (hfields : Gen.sortedByName ((root.fields.getD []).map fun kf => (kf.2.field.name, kf.2)) = pre ++ n :: post)
    (hpre : ∀ m ∈ pre, m.field.jsonType ≠ g!"object" ∧ ∃ fd, FieldMeans isPrint args.pointers m.field (decide (m.field.jsonName ∈ root.required.getD [])) fd)
    (hobj : n.field.jsonType = g!"object" ∧ n.field.target = [] ∧ GqlName n.field.jsonName ∧ ∃ d ds, FieldText isPrint n.field.description d ds)
    (hname : GqlName (rootNames title lower args name false).2) (hdesc : ∃ d, DescribedAs schema.description d)
    (hshown : ∀ c ∈ args.importPath ++ '.' :: title (rootNames title lower args name false).1, Shown isPrint c) (defs : List Def) : ¬ Denotes t defs := by
  refine Broken.not ?_ defs
  unfold inlineText at ht
  rw [hroot] at ht
  simp only [hfields] at ht
  obtain ⟨body, hb, rfl⟩ := Res.map_eq_ok.1 ht
  have h1 := body_broken hobj.1 hobj.2.1 hobj.2.2.1 hobj.2.2.2 (fun m hm => (hpre m hm).2) (fun m hm => (hpre m hm).1) hb
  refine Broken.after (whole_header args true) (Broken.space (by decide) ?_)
  unfold rootText
  simp only [List.append_assoc]
  obtain ⟨d, hd⟩ := hdesc
  refine Broken.after (described_whole hd (pre := []) (by intro c hc; cases hc)) ?_
  refine Broken.name (n := g!"type") (name_of_b (by decide)) (c := ' ') (by decide) (Broken.space (by decide) ?_)
  refine Broken.name hname (c := ' ') (by decide) (Broken.space (by decide) ?_)
  have h2 : Broken (g!"{\n" ++ (body ++ g!"}\n")) := Broken.punct (by decide) (Broken.space (by decide) (h1.before _))
  split
  · have h3 : Whole (quote isPrint (join g!"." [args.importPath, title (rootNames title lower args name false).1]) ++ ')' :: [' '])
        (.str (args.importPath ++ '.' :: title (rootNames title lower args name false).1) :: [.punct ')']) := by
      rw [show join g!"." [args.importPath, title (rootNames title lower args name false).1] = args.importPath ++ '.' :: title (rootNames title lower args name false).1 by simp [join]]
      exact reads_quote_then hshown (by decide) (reads_punct (by decide) (reads_space (by decide) (Reads.nil _)))
    have h4 : Whole g!"@goModel(model: " [.punct '@', .name g!"goModel", .punct '(', .name g!"model", .punct ':'] := by rfl
    have := Broken.after (h4.append h3) h2
    simpa [List.append_assoc] using this
  · exact h2

end JT

namespace JT.C99ex
open JT.Spec Gql GqlText Toy C89ex

def noObjB (l : List Seg) (q : P) : Bool := C56ex.quietB l q && match decodeInstance false q with
  | .ok i => decide (g!"object" ∉ i.type)
  | _ => true

theorem noObjB_of {sc : Schema} (hm : ∀ m, sc.properties = some m → NamesOK m) (h : ((schemaPositions instNode sc).all fun x => noObjB x.1 x.2) = true) : NoObjects sc := by
  have hq : ((schemaPositions instNode sc).all fun x => C56ex.quietB x.1 x.2) = true :=
    List.all_eq_true.2 fun x hx => ((Bool.and_eq_true _ _).mp (List.all_eq_true.1 h x hx)).1
  have ht : ∀ l q i, SchemaAt instNode sc l q → decodeInstance false q = .ok i → g!"object" ∉ i.type := by
    intro l q i hat hd
    have := ((Bool.and_eq_true _ _).mp (check_positions instNode_shrinks h hat)).2
    rw [hd] at this
    exact of_decide_eq_true this
  refine ⟨⟨hm, fun l q m hat hv => ?_⟩, fun l q hat k hk => (C56ex.quiet hq l q hat k hk).2, ht⟩
  unfold instNode at hv
  split at hv
  · rename_i i hi
    rw [if_neg (ht l q i hat hi)] at hv
    split at hv
    · cases hi' : i.items <;> rw [hi'] at hv <;> cases hv
    · cases hv
  · cases hv

def str : P := o [(g!"type", s g!"string")]
def list (p : P) : P := o [(g!"type", s g!"array"), (g!"items", p)]
def plain : GMap P := [(g!"c", str), (g!"l", list str), (g!"m", list (list (o [(g!"type", s g!"string"), (g!"format", s g!"date-time")])))]
def withObject : GMap P := [(g!"a", str), (g!"b", o [(g!"type", s g!"object"), (g!"properties", o [(g!"l", list str)])])]
def dotted : GMap P := [(g!"a.b", list str)]
def schemaOf (m : GMap P) : Instance := { C89ex.schema with properties := some m }

/-- The conditions of `C99_partial` hold for it. -/
example : NoObjects ⟨some plain, none⟩ := noObjB_of (by intro m hm; cases hm; unfold NamesOK; decide) (by decide +kernel)

def inline (m : GMap P) : Res Str := inlineText Sched.id (fun _ => true) C89ex.title id C89ex.args (schemaOf m) g!"thing"
def flat (m : GMap P) : Res (GMap Str) := graphqlFiles Sched.id (fun _ => true) C89ex.title id C89ex.args (schemaOf m) g!"thing" g!"thing"

example : C89ex.isOk (inline plain) = true := by decide +kernel

def root : Res INode := newInline Sched.id C89ex.title C89ex.args (schemaOf withObject)

def texts (r : Res Str) : Str := match r with
  | .ok t => t
  | _ => []

/-- An object is written like this; a list in it is written twice. -/
example : ∃ A B C, texts (inline withObject) = A ++ g!"  a: String!\n\n  b\t(! {\n  \tl(" ++ B ++ g!"  \tl(" ++ C :=
  ⟨g!"# // Code generated by github.com/GannettDigital/jstransform; DO NOT EDIT.\n\nscalar Any\n\n\"The root.\"\ntype Thing @goModel(model: \"x/y.Thing\") {\n",
    listArguments.tail ++ g!": [String!] @goField(forceResolver: true)\n", listArguments.tail ++
    g!": [String!] @goField(forceResolver: true)\n  \t\"The total length of the l list at this same level in the data, this number is unaffected by filtering.\"\n  \ttotalL: Int!\n  \t}}\n", by decide +kernel⟩

def fieldA : GField := ⟨[], false, false, [], g!"a", g!"string", g!"A", false, []⟩
def total : GField := totalField C89ex.title g!"totalL" (totalDescription g!"l" [])
def fieldL : GField := ⟨[], true, false, [], g!"l", g!"string", g!"L", false, []⟩
def fieldB : GField := ⟨[], false, false, [], g!"b", g!"object", g!"B", false, []⟩
def nodeB : INode := ⟨fieldB, [g!"totalL", g!"l", g!"l"], some [(g!"l", ⟨fieldL, [], none, none⟩), (g!"totalL", ⟨total, [], none, none⟩)], some [g!"totalL"]⟩
def theRoot : INode :=
  ⟨{ arguments := [], array := false, arrayNullable := false, description := g!"The root.", jsonName := [], jsonType := [], name := [], nullable := false, target := [] },
    [g!"a", g!"b"], some [(g!"a", ⟨fieldA, [], none, none⟩), (g!"b", nodeB)], some [g!"c"]⟩

/-- The conditions of `C99_inline` hold for it: an object is not written as GraphQL. -/
theorem not_graphql (defs : List Def) : ¬ Denotes (texts (inline withObject)) defs := by
  have ht : inline withObject = .ok (texts (inline withObject)) := by
    have : C89ex.isOk (inline withObject) = true := by decide +kernel
    unfold texts
    cases h : inline withObject with
    | ok t => rfl
    | err => rw [h] at this; cases this
    | panic => rw [h] at this; cases this
  refine C99_inline (root := theRoot) (n := nodeB) (pre := [⟨fieldA, [], none, none⟩]) (post := []) rfl ht rfl ?_ ⟨rfl, rfl, name_of_b rfl, textB_of rfl⟩ (name_of_b rfl)
    (described_of rfl) ?_ defs
  · intro m hm
    rw [List.mem_singleton] at hm
    subst hm
    obtain ⟨d, ds, hd⟩ := textB_of (isPrint := fun _ => true) (d := fieldA.description) rfl
    exact ⟨by decide, _, .field (name_of_b rfl) (.one (by decide) rfl (.scalar rfl .string)) hd⟩
  · intro c hc
    left
    revert c
    decide

end JT.C99ex

namespace JT
open Spec Gql GqlText

/-- If a property is an object, what is written with inline objects is not what is written otherwise. -/
theorem C99_refuted : ¬ C99_statement := fun h => by
  have h1 := h Sched.id (fun _ => true) C89ex.title id C89ex.args (C99ex.schemaOf C99ex.withObject) g!"thing" g!"thing" rfl rfl
  have h2 := congrArg (fun r : Res (GMap Str) => match r with
    | .ok m => List.map (fun x : Str × Str => x.2.length) m
    | _ => []) h1
  revert h2
  decide +kernel

/-- The generator crashes for a list whose name has a dot, with inline objects only. -/
theorem C99_refuted_crash : C99ex.inline C99ex.dotted = .panic ∧ C89ex.isOk (C99ex.flat C99ex.dotted) = true := ⟨rfl, by decide +kernel⟩

end JT
