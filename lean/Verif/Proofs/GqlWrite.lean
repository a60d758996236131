import Verif.Proofs.GqlLex
import Verif.Proofs.Strings
import Verif.Props.C62
import Verif.Props.C54
/- The text of GraphQL types. -/
namespace JT.GqlText
open Spec Gql
open JT.Go (quote quoteChar)
open JT.Gen (sortedByName)

/-! ### Types -/

theorem text_ne {t : GType} (h : t.Named) : t.text ≠ [] := by
  cases t with
  | named n b =>
    have h : GqlName n := h
    obtain ⟨_, _⟩ := h
    simp [GType.text]
  | list t b => simp [GType.text]

theorem bang_text {t : GType} (h : t.nullable = true) (b : Bool) : (t.bang b).text = t.text ++ (if b then ['!'] else []) := by
  cases t with
  | named n c => cases c <;> simp_all [GType.text, GType.bang, GType.nullable]
  | list n c => cases c <;> simp_all [GType.text, GType.bang, GType.nullable]

theorem bang_named {t : GType} (h : t.Named) (b : Bool) : (t.bang b).Named := by
  cases t <;> exact h

theorem name_of_b {n : Str} (h : (match n with | [] => false | c :: cs => nameStart c && cs.all nameRest) = true) : GqlName n := by
  cases n with
  | nil => cases h
  | cons c cs =>
    simp only [Bool.and_eq_true, List.all_eq_true] at h
    exact .name h.1 h.2

theorem not_name {n : Str} (h : ¬ (∀ c ∈ n, nameRest c = true)) : ¬ GqlName n := by
  rintro ⟨h1, h2⟩
  rename_i c cs
  refine h fun d hd => ?_
  rcases List.mem_cons.1 hd with rfl | hd
  · simp only [nameStart, Bool.or_eq_true] at h1
    simp only [nameRest, Bool.or_eq_true, Char.isAlphanum]
    rcases h1 with h1 | h1
    · exact .inl (.inl h1)
    · exact .inr h1
  · exact h2 d hd

theorem elem_text {ef : GField} {required pointers : Bool} {t : GType} (h : ElemType ef required pointers t) : baseType ef required pointers = t.text ∧ t.Named := by
  cases h with
  | @scalar s ht hs =>
    have hn : GqlName s := by generalize ef.jsonType = j at hs; cases hs <;> exact name_of_b (by decide)
    refine ⟨?_, hn⟩
    obtain ⟨h1, h2, h3, _⟩ := scalarName_of hs
    unfold baseType
    simp only [ht, h1, ne_eq, not_true_eq_false, if_false, Option.getD_some, decide_true, Option.isSome_some, Bool.and_self, true_and, h2, not_false_eq_true, h3, and_true, GType.text]
    cases required <;> cases pointers <;> cases ef.nullable <;> simp
  | time ht hj =>
    refine ⟨?_, name_of_b (by decide)⟩
    unfold baseType
    simp only [ht, hj, scalarName_time, ne_eq, not_true_eq_false, if_false, Option.getD_some, false_and, GType.text]
    simp
  | object ht hn hj =>
    refine ⟨?_, hn⟩
    have hdt : ef.jsonType ≠ g!"date-time" := by intro e; rw [e] at hn; exact not_name (by decide) hn
    simp only [List.mem_cons, List.not_mem_nil, or_false, not_or] at hj
    have hs : scalarName ef.jsonType = none := scalarName_none (by
      simp only [List.mem_cons, List.not_mem_nil, or_false, not_or]
      exact ⟨hj.1, hj.2.1, hj.2.2.1, hj.2.2.2.1, hdt, hj.2.2.2.2.1⟩)
    unfold baseType
    simp only [ht, hs, ne_eq, not_true_eq_false, if_false, Option.getD_none, decide_true, Option.isSome_none, Bool.and_false, Bool.false_eq_true, false_and, false_or,
      hj.2.2.2.2.2, not_false_eq_true, true_and, GType.text]
    by_cases ha : ef.jsonType = g!"Any" <;> cases required <;> cases pointers <;> simp [ha]
  | @given t ht hn hb hd =>
    refine ⟨?_, bang_named hn _⟩
    have hne : ef.target ≠ [] := by rw [ht]; exact text_ne hn
    have hdt : t.text ≠ g!"DateTime" := by
      intro e
      cases t with
      | named n b => cases b with
        | true => cases hb
        | false => simp only [GType.text, Bool.false_eq_true, if_false, List.append_nil] at e; exact hd (by rw [e])
      | list t b => simp [GType.text] at e
    rw [bang_text hb]
    unfold baseType
    simp only [hne, ne_eq, not_false_eq_true, if_true, decide_false, Bool.false_and, Bool.false_eq_true, false_and, false_or]
    rw [ht]
    by_cases ha : ef.jsonType = g!"Any" <;> cases required <;> cases pointers <;> simp [ha, hdt]
  | givenTime ht =>
    refine ⟨?_, name_of_b (by decide)⟩
    unfold baseType
    simp only [ht]
    simp [GType.text]

/-! ### Arguments -/

theorem finish_newline {st : St} {fs : List Tok} (h : finish st = some fs) : Reads st g!"\n" fs .start := by
  cases st <;> simp only [finish, Option.some.injEq, reduceCtorEq] at h <;> subst h
  · exact Reads.cons (ts := []) rfl (Reads.nil _)
  · rename_i r
    refine Reads.cons (ts := [.name r.reverse]) (st' := .start) rfl (Reads.nil _)
  · exact Reads.cons (ts := []) rfl (Reads.nil _)
  · exact Reads.cons (ts := [.str []]) (st' := .start) rfl (Reads.nil _)

theorem lex_line {s : Str} {ts : List Tok} (h : lex s = some ts) : Whole (s ++ g!"\n") ts := by
  unfold lex at h
  split at h
  · cases h
  · rename_i ts0 st hr
    cases hf : finish st with
    | none => rw [hf] at h; cases h
    | some fs =>
      rw [hf] at h
      simp only [Option.map_some, Option.some.injEq] at h
      rw [← h]
      exact Reads.append hr (finish_newline hf)

theorem join_lines (y : Str) : ∀ l : List Str, join g!"\n" (l ++ [y]) = l.flatMap (fun a => a ++ g!"\n") ++ y
  | [] => rfl
  | [a] => by simp [join]
  | a :: b :: l => by
    have := join_lines y (b :: l)
    simp only [List.cons_append, join, List.flatMap_cons] at this ⊢
    rw [this]
    simp

theorem whole_arguments : ∀ {texts : List Str} {tss : List (List Tok)}, Each (fun t ts => lex t = some ts) texts tss →
    Whole ((texts.map fun a => if a ≠ [] then g!"    " ++ a else a).flatMap fun a => a ++ g!"\n") tss.flatten
  | _, _, .nil => rfl
  | _, _, .cons (a := a) h hs => by
    rw [List.map_cons, List.flatMap_cons, List.flatten_cons]
    refine Whole.append ?_ (whole_arguments hs)
    split
    · exact reads_space (by decide) (reads_space (by decide) (reads_space (by decide) (reads_space (by decide) (lex_line h))))
    · exact lex_line h

/-- What is written for arguments, type and directives of a field. -/
structure Written (ef : GField) (required pointers : Bool) (as : List ArgDef) (t : GType) (ds : List Directive) (A D : Str) : Prop where
  eq : graphqlType ef required pointers = (A, t.text ++ D)
  named : t.Named
  args : A = [] ∧ as = [] ∨ ∃ A', A = '(' :: A' ∧ Whole A (parens ArgDef.toks as)
  dirs : D = [] ∧ ds = [] ∨ ∃ D', D = ' ' :: D' ∧ Whole D (ds.flatMap Directive.toks)

theorem whole_listArguments : run .start listArguments = some (parens ArgDef.toks listArgs, .start) := by decide +kernel

theorem type_text {ef : GField} {required pointers : Bool} {as : List ArgDef} {t : GType} {ds : List Directive} (h : FieldType ef required pointers as t ds) :
    ∃ A D, Written ef required pointers as t ds A D := by
  cases h with
  | hydrated hj ha ht hn => exact ⟨[], [], by simp [graphqlType, hj, ha, hydrationArguments, ht], hn, .inl ⟨rfl, rfl⟩, .inl ⟨rfl, rfl⟩⟩
  | hydratedArgs hj ha ht hn =>
    obtain ⟨tss, h1, h2, h3⟩ := ha
    have hne : ef.arguments ≠ [] := by
      intro e
      rw [e] at h1
      cases h1
      cases as with
      | nil => exact h3 rfl
      | cons a as =>
        obtain ⟨d, n, t⟩ := a
        cases d <;> simp [ArgDef.toks, descTok] at h2
    have hA : hydrationArguments ef.arguments = g!"(\n" ++ ((ef.arguments.map fun a => if a ≠ [] then g!"    " ++ a else a).flatMap fun a => a ++ g!"\n") ++ g!"  )" := by
      unfold hydrationArguments
      rw [if_neg (by simpa using hne), join_lines]
      simp
    refine ⟨hydrationArguments ef.arguments, [], by simp [graphqlType, hj, ht], hn, .inr ?_, .inl ⟨rfl, rfl⟩⟩
    refine ⟨_, by rw [hA]; rfl, ?_⟩
    rw [hA]
    have hp : parens ArgDef.toks as = [.punct '('] ++ tss.flatten ++ [.punct ')'] := by
      rw [h2]
      cases as with
      | nil => exact absurd rfl h3
      | cons a as => simp [parens]
    rw [hp]
    exact Whole.append (Whole.append (by rfl) (whole_arguments h1)) (by rfl)
  | one hj ha he =>
    obtain ⟨h1, h2⟩ := elem_text he
    exact ⟨[], [], by simp [graphqlType, hj, ha, h1], h2, .inl ⟨rfl, rfl⟩, .inl ⟨rfl, rfl⟩⟩
  | @list t hj ha hn he =>
    obtain ⟨h1, h2⟩ := elem_text he
    refine ⟨listArguments, g!" @goField(forceResolver: true)", ?_, h2, .inr ⟨_, rfl, whole_listArguments⟩, .inr ⟨_, rfl, by rfl⟩⟩
    cases required <;> cases pointers <;> simp [graphqlType, hj, ha, hn, h1, GType.text]

/-! ### Descriptions -/

theorem white_iff {c : Char} : spaces.contains c = true ↔ White c := by
  have h : ∀ n : Nat, (Char.ofNat n).toNat = n → (c = Char.ofNat n ↔ c.toNat = n) := by
    intro n hn
    constructor
    · rintro rfl
      exact hn
    · rintro rfl
      rw [Char.ofNat_toNat]
  rw [List.contains_iff_mem]
  unfold spaces
  simp only [List.map_cons, List.map_nil, List.mem_cons, List.not_mem_nil, or_false]
  rw [h _ (by decide), h _ (by decide), h _ (by decide), h _ (by decide), h _ (by decide), h _ (by decide), h _ (by decide), h _ (by decide), h _ (by decide), h _ (by decide),
    h _ (by decide), h _ (by decide), h _ (by decide), h _ (by decide), h _ (by decide), h _ (by decide), h _ (by decide), h _ (by decide), h _ (by decide), h _ (by decide),
    h _ (by decide), h _ (by decide), h _ (by decide), h _ (by decide), h _ (by decide)]
  unfold White
  simp only [List.mem_cons, List.not_mem_nil, or_false]
  omega

theorem trimLeft_white : ∀ {a t : Str}, (∀ c ∈ a, White c) → (∀ c, t.head? = some c → ¬ White c) → trimLeft spaces (a ++ t) = t
  | [], [], _, _ => rfl
  | [], c :: t, _, h => by
    have : spaces.contains c = false := by
      rw [Bool.eq_false_iff]
      exact fun e => h c rfl (white_iff.1 e)
    rw [List.nil_append, trimLeft, List.dropWhile_cons_of_neg (by rw [this]; decide)]
  | c :: a, t, h, h' => by
    have ih := trimLeft_white (a := a) (t := t) (fun d hd => h d (by simp [hd])) h'
    rw [trimLeft] at ih ⊢
    rw [List.cons_append, List.dropWhile_cons_of_pos (white_iff.2 (h c (by simp))), ih]

theorem trim_trimmed {s t : Str} (h : Trimmed s t) : trim spaces s = t := by
  obtain ⟨a, b, rfl, ha, hb, h1, h2⟩ := h
  have e1 : ∀ x : Str, (∀ c ∈ x, White c) → trimLeft spaces x = [] := fun x hx => by simpa using trimLeft_white (t := []) hx (by simp)
  have hr : trimRight spaces (t ++ b) = t := by
    unfold trimRight
    rw [List.reverse_append, trimLeft_white (fun c hc => hb c (List.mem_reverse.1 hc)) (by rw [List.head?_reverse]; exact h2), List.reverse_reverse]
  unfold trim
  rw [List.append_assoc]
  cases t with
  | nil =>
    rw [List.nil_append, e1 (a ++ b) (fun c hc => (List.mem_append.1 hc).elim (ha c) (hb c))]
    rfl
  | cons c t =>
    rw [trimLeft_white ha (by simpa using h1), hr]

theorem described_whole {d : Str} {o : Option Str} (h : DescribedAs d o) {pre : Str} (hp : Blanks pre) : Whole (if d ≠ [] then comment pre d else []) (descTok o) := by
  cases h with
  | none => rfl
  | some hne hd => rw [if_pos hne]; exact whole_comment hp hd

theorem prefix_cut {p x : Str} : hasPrefix (p ++ x) p = true := by
  unfold hasPrefix
  rw [List.isPrefixOf_iff_prefix]
  exact List.prefix_append _ _

/-- What is written for the description of a field. -/
theorem field_description {isPrint : Char → Bool} {d : Str} {o : Option Str} {ds : List Directive} (h : FieldText isPrint d o ds) :
    Whole (if (deprecation isPrint d).2 ≠ [] then comment g!"  " (deprecation isPrint d).2 else []) (descTok o) ∧
    ((deprecation isPrint d).1 = [] ∧ ds = [] ∨ ∃ D', (deprecation isPrint d).1 = ' ' :: D' ∧ Whole (deprecation isPrint d).1 (ds.flatMap Directive.toks)) := by
  have hb : Blanks g!"  " := by intro c hc; simpa using hc
  have hdir : ∀ reason : Str, (∀ c ∈ reason, Shown isPrint c) → Whole (g!" @deprecated(reason: " ++ quote isPrint reason ++ g!")")
      ([⟨g!"deprecated", [(g!"reason", .str reason)]⟩].flatMap Directive.toks) := by
    intro reason hr
    rw [List.append_assoc]
    have h1 : Whole (quote isPrint reason ++ ')' :: []) (.str reason :: [.punct ')']) := reads_quote_then hr (by decide) (reads_punct (by decide) (Reads.nil _))
    have h2 : Whole g!" @deprecated(reason: " [.punct '@', .name g!"deprecated", .punct '(', .name g!"reason", .punct ':'] := by rfl
    exact h2.append h1
  cases h with
  | plain hn hd =>
    have : deprecation isPrint d = ([], d) := by
      unfold deprecation
      rw [if_neg (by unfold hasPrefix; rwa [List.isPrefixOf_iff_prefix])]
    rw [this]
    exact ⟨described_whole hd hb, .inl ⟨rfl, rfl⟩⟩
  | @deprecated line more reason rest _ hl ht ht' hr hd =>
    have hl' : '\n' ∉ g!"DEPRECATED:" ++ line := by
      intro hm
      rcases List.mem_append.1 hm with h | h
      · exact absurd h (by decide)
      · exact hl h
    have : deprecation isPrint (g!"DEPRECATED:" ++ line ++ '\n' :: more) = (g!" @deprecated(reason: " ++ quote isPrint reason ++ g!")", rest) := by
      unfold deprecation
      rw [if_pos (by rw [List.append_assoc]; exact prefix_cut)]
      simp only
      rw [JT.splitC_append '\n' _ _ hl']
      simp only [List.headD_cons, List.tail_cons]
      rw [join_splitC, trim_trimmed ht']
      rw [show (g!"DEPRECATED:" ++ line).drop 11 = line from rfl, trim_trimmed ht]
    rw [this]
    exact ⟨described_whole hd hb, .inr ⟨_, rfl, hdir reason hr⟩⟩
  | @deprecatedOnly line reason hl ht hr =>
    have hl' : '\n' ∉ g!"DEPRECATED:" ++ line := by
      intro hm
      rcases List.mem_append.1 hm with h | h
      · exact absurd h (by decide)
      · exact hl h
    have : deprecation isPrint (g!"DEPRECATED:" ++ line) = (g!" @deprecated(reason: " ++ quote isPrint reason ++ g!")", []) := by
      unfold deprecation
      rw [if_pos prefix_cut]
      simp only
      rw [JT.splitC_no '\n' _ hl']
      simp only [List.headD_cons, List.tail_cons]
      rw [show (g!"DEPRECATED:" ++ line).drop 11 = line from rfl, trim_trimmed ht]
      rfl
    rw [this]
    exact ⟨by rfl, .inr ⟨_, rfl, hdir reason hr⟩⟩

/-! ### Fields and types -/

theorem reads_dirs {D : Str} {ds : List Directive} (h : D = [] ∧ ds = [] ∨ ∃ D', D = ' ' :: D' ∧ Whole D (ds.flatMap Directive.toks)) {s : Str} {ts : List Tok} {st : St}
    (hr : Reads .start s ts st) : Reads .start (D ++ s) (ds.flatMap Directive.toks ++ ts) st := by
  rcases h with ⟨rfl, rfl⟩ | ⟨D', _, h⟩
  · exact hr
  · exact Reads.append h hr

theorem field_text {isPrint : Char → Bool} {pointers required : Bool} {ef : GField} {fd : FieldDef} (h : FieldMeans isPrint pointers ef required fd) :
    Whole (ef.text isPrint required pointers) fd.toks := by
  cases h with
  | @field d as t ds ds' hn ht hx =>
    obtain ⟨A, D, hw⟩ := type_text ht
    obtain ⟨h1, h2⟩ := field_description hx
    unfold GField.text
    rw [hw.eq]
    simp only
    generalize hdep : (deprecation isPrint ef.description).1 = E at h2
    have h3 : Whole (E ++ g!"\n") (ds'.flatMap Directive.toks ++ []) := reads_dirs h2 (by rfl)
    have h4 : Whole (D ++ (E ++ g!"\n")) (ds.flatMap Directive.toks ++ (ds'.flatMap Directive.toks ++ [])) := reads_dirs hw.dirs h3
    have h5 : Whole (t.text ++ (D ++ (E ++ g!"\n"))) (t.toks ++ (ds.flatMap Directive.toks ++ (ds'.flatMap Directive.toks ++ []))) := by
      have hh : ∃ c s, D ++ (E ++ g!"\n") = c :: s ∧ nameRest c = false := by
        rcases hw.dirs with ⟨rfl, _⟩ | ⟨D', rfl, _⟩
        · rcases h2 with ⟨rfl, _⟩ | ⟨E', rfl, _⟩
          · exact ⟨_, _, rfl, by decide⟩
          · exact ⟨_, _, rfl, by decide⟩
        · exact ⟨_, _, rfl, by decide⟩
      obtain ⟨c, s, e, hc⟩ := hh
      rw [e] at h4 ⊢
      exact reads_type_then hw.named hc h4
    have h6 : Whole (g!": " ++ (t.text ++ (D ++ (E ++ g!"\n")))) (.punct ':' :: (t.toks ++ (ds.flatMap Directive.toks ++ (ds'.flatMap Directive.toks ++ [])))) :=
      reads_punct (by decide) (reads_space (by decide) h5)
    have h7 : Whole (ef.jsonName ++ (A ++ (g!": " ++ (t.text ++ (D ++ (E ++ g!"\n"))))))
        (.name ef.jsonName :: (parens ArgDef.toks as ++ .punct ':' :: (t.toks ++ (ds.flatMap Directive.toks ++ (ds'.flatMap Directive.toks ++ []))))) := by
      rcases hw.args with ⟨rfl, rfl⟩ | ⟨A', rfl, hA⟩
      · exact reads_name_then hn (by decide) h6
      · exact reads_name_then hn (by decide) (Reads.append hA h6)
    have h8 := h1.append (reads_space (c := ' ') (by decide) (reads_space (c := ' ') (by decide) h7))
    simpa [FieldDef.toks, List.append_assoc] using h8

theorem whole_join {texts : List Str} {tss : List (List Tok)} (h : Each (fun t ts => Whole t ts) texts tss) : Whole (join g!"\n" texts) tss.flatten := by
  induction h with
  | nil => rfl
  | cons h hs ih =>
    cases hs with
    | nil => simpa [join] using h
    | cons h' hs' =>
      rw [join, List.append_assoc, List.flatten_cons]
      exact h.append (reads_space (by decide) ih)

theorem object_text {isPrint : Char → Bool} {title : Str → Str} {args : Args} {o : GObject} {d : TypeDef} (h : TypeMeans isPrint title args o d) (ht : o.target = []) :
    Whole (o.text isPrint title args) d.toks := by
  obtain ⟨l, hl1, hl2, hl3⟩ := h.fields
  have hfields : Whole (join g!"\n" (fieldTexts isPrint args.pointers o)) (d.fields.flatMap FieldDef.toks) := by
    have hnd : ((o.fields.map fun kf => (kf.2.name, kf.2)).map Prod.fst).Nodup := by
      refine (hl1.map Prod.fst).nodup_iff.1 ?_
      have : l.Pairwise fun a b => a.1 ≠ b.1 := hl2.imp fun {a b} hab e => by
        rw [e, strLt_irrefl] at hab
        cases hab
      exact List.pairwise_map.2 this
    obtain ⟨l', g1, g2, g3⟩ := Gen.sorted_spec hnd
    have : l' = l := Gen.ordered_unique g2 hl2 (g1.trans hl1.symm)
    subst this
    unfold fieldTexts
    rw [g3, List.flatMap_def]
    refine whole_join ?_
    clear g1 g2 g3 hl1 hl2
    generalize d.fields = fds at hl3 ⊢
    induction hl3 with
    | nil => exact .nil
    | cons h1 h2 ih => exact .cons (field_text h1) ih
  have hb : o.buildType ≠ .ignored := by
    rcases h.interface with ⟨e, _⟩ | ⟨e, _⟩ <;> rw [e] <;> decide
  unfold GObject.text
  rw [if_neg (by simp [ht, hb])]
  simp only
  generalize hI : (if o.implements ≠ [] then g!" implements " ++ o.implements else []) = I
  generalize hM : (if (o.fields.any fun kf => kf.2.jsonType ≠ g!"graphql-hydration") = true then
    g!"@goModel(model: " ++ quote isPrint (join g!"." [args.importPath, title o.name]) ++ g!") " else []) = M
  have t1 : Whole (g!"{\n" ++ (join g!"\n" (fieldTexts isPrint args.pointers o) ++ g!"}\n")) (.punct '{' :: (d.fields.flatMap FieldDef.toks ++ [.punct '}'])) :=
    reads_punct (by decide) (reads_space (by decide) (hfields.append (by rfl)))
  have t2 : Whole (M ++ (g!"{\n" ++ (join g!"\n" (fieldTexts isPrint args.pointers o) ++ g!"}\n")))
      (d.directives.flatMap Directive.toks ++ .punct '{' :: (d.fields.flatMap FieldDef.toks ++ [.punct '}'])) := by
    refine Whole.append ?_ t1
    rw [← hM]
    generalize hds : d.directives = ds
    have hmod := h.model
    rw [hds] at hmod
    cases hmod with
    | virtual hv =>
      rw [if_neg]
      · rfl
      · simp only [List.any_eq_true, decide_eq_true_eq, not_exists, not_and]
        intro kf hkf hne
        exact hne (hv kf.1 kf.2 hkf)
    | stored hm hne hs =>
      rw [if_pos (List.any_eq_true.2 ⟨_, hm, by simpa using hne⟩), show join g!"." [args.importPath, title o.name] = args.importPath ++ '.' :: title o.name by simp [join]]
      rw [List.append_assoc]
      have h1 : Whole (quote isPrint (args.importPath ++ '.' :: title o.name) ++ ')' :: [' ']) (.str (args.importPath ++ '.' :: title o.name) :: [.punct ')']) :=
        reads_quote_then hs (by decide) (reads_punct (by decide) (reads_space (by decide) (Reads.nil _)))
      have h2 : Whole g!"@goModel(model: " [.punct '@', .name g!"goModel", .punct '(', .name g!"model", .punct ':'] := by rfl
      exact h2.append h1
  generalize hR : M ++ (g!"{\n" ++ (join g!"\n" (fieldTexts isPrint args.pointers o) ++ g!"}\n")) = R at t2
  have t3 : Whole (' ' :: R) _ := reads_space (by decide) t2
  have t4 : ∃ X, I ++ ' ' :: R = ' ' :: X ∧ Whole (' ' :: X) (implementsTok d.implements ++ (d.directives.flatMap Directive.toks ++
      .punct '{' :: (d.fields.flatMap FieldDef.toks ++ [.punct '}']))) := by
    have himp := h.implements
    generalize d.implements = im at himp ⊢
    rw [← hI]
    generalize o.implements = oi at himp
    cases himp with
    | none => exact ⟨R, rfl, t3⟩
    | some hn =>
      have hne : oi ≠ [] := by rintro rfl; cases hn
      rw [if_pos hne]
      refine ⟨g!"implements " ++ (oi ++ ' ' :: R), by simp, ?_⟩
      refine reads_space (by decide) ?_
      exact reads_name_then (n := g!"implements") (name_of_b (by decide)) (c := ' ') (by decide) (reads_space (by decide) (reads_name_then hn (by decide) t3))
  obtain ⟨X, hX, t4⟩ := t4
  have t5 : Whole (o.jsonName ++ ' ' :: X) _ := reads_name_then h.name.1 (by decide) t4
  have hk : GqlName o.buildType.text ∧ o.buildType.text = if d.interface then g!"interface" else g!"type" := by
    rcases h.interface with ⟨e, e'⟩ | ⟨e, e'⟩ <;> rw [e, e'] <;> exact ⟨name_of_b (by decide), rfl⟩
  have t6 : Whole (o.buildType.text ++ ' ' :: (o.jsonName ++ ' ' :: X)) _ := reads_name_then hk.1 (by decide) (reads_space (by decide) t5)
  have t7 := (described_whole h.description (pre := []) (by intro c hc; cases hc)).append t6
  rw [← hX, ← hR] at t7
  rw [TypeDef.toks, ← hk.2, h.name.2]
  simpa [List.append_assoc] using t7

theorem file_text {isPrint : Char → Bool} {title : Str → Str} {args : Args} : ∀ {os : List GObject} {ds : List TypeDef},
    Each (fun o d => TypeMeans isPrint title args o d) (os.filter fun o => decide (o.target = [] ∧ o.buildType ≠ .ignored)) ds →
    Whole (os.flatMap fun s => if s.target = [] ∧ s.buildType ≠ .ignored then '\n' :: s.text isPrint title args else []) (ds.flatMap TypeDef.toks)
  | [], _, h => by cases h; rfl
  | o :: os, ds, h => by
    rw [List.flatMap_cons]
    by_cases ho : o.target = [] ∧ o.buildType ≠ .ignored
    · rw [List.filter_cons_of_pos (by simpa using ho)] at h
      cases h with
      | cons h1 h2 =>
        rw [if_pos ho, List.flatMap_cons]
        exact Whole.append (reads_space (by decide) (object_text h1 ho.1)) (file_text h2)
    · rw [List.filter_cons_of_neg (by simpa using ho)] at h
      rw [if_neg ho]
      exact file_text h

end JT.GqlText
