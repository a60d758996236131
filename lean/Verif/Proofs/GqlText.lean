import Verif.Spec.GqlText
/- Facts about the GraphQL language: a text denotes one list of definitions only; reading texts that are put together. -/
namespace JT.GqlText
open Spec

/-! ### The grammar is not ambiguous -/

/-- The next token is not the punctuator. -/
def NotNext (c : Char) (r : List Tok) : Prop := r.head? ≠ some (.punct c)

theorem nonNull_inj {b b' : Bool} {r r' : List Tok} (h : nonNullTok b ++ r = nonNullTok b' ++ r') (h1 : NotNext '!' r) (h2 : NotNext '!' r') : b = b' ∧ r = r' := by
  cases b <;> cases b' <;> simp only [nonNullTok, Bool.false_eq_true, if_false, if_true, List.nil_append, List.cons_append, List.cons.injEq, true_and] at h
  · exact ⟨rfl, h⟩
  · subst h; exact absurd rfl h1
  · subst h; exact absurd rfl h2
  · exact ⟨rfl, h⟩

theorem notNext_cons {c : Char} {t : Tok} {r : List Tok} (h : t ≠ .punct c) : NotNext c (t :: r) := by
  simpa [NotNext] using h

theorem type_inj : ∀ {t t' : GType} {r r' : List Tok}, t.toks ++ r = t'.toks ++ r' → NotNext '!' r → NotNext '!' r' → t = t' ∧ r = r'
  | .named n b, .named n' b', r, r', h, h1, h2 => by
    simp only [GType.toks, List.cons_append, List.cons.injEq, Tok.name.injEq] at h
    obtain ⟨rfl, rfl⟩ := nonNull_inj h.2 h1 h2
    exact ⟨by rw [h.1], rfl⟩
  | .named n b, .list t b', r, r', h, _, _ => by simp [GType.toks] at h
  | .list t b, .named n' b', r, r', h, _, _ => by simp [GType.toks] at h
  | .list t b, .list t' b', r, r', h, h1, h2 => by
    simp only [GType.toks, List.cons_append, List.append_assoc, List.cons.injEq, true_and] at h
    replace h := type_inj h (notNext_cons (by decide)) (notNext_cons (by decide))
    obtain ⟨rfl, h⟩ := h
    simp only [List.cons.injEq, true_and] at h
    obtain ⟨rfl, rfl⟩ := nonNull_inj h h1 h2
    exact ⟨rfl, rfl⟩

/-- Things that follow each other can be told apart. -/
theorem many_inj {α : Type} {f : α → List Tok} {First : Tok → Prop} {Ok : List Tok → Prop} (hne : ∀ a, ∃ t ts, f a = t :: ts ∧ First t)
    (hone : ∀ a b r r', f a ++ r = f b ++ r' → Ok r → Ok r' → a = b ∧ r = r') (hf : ∀ t ts, First t → Ok (t :: ts)) :
    ∀ {as bs : List α} {r r' : List Tok}, as.flatMap f ++ r = bs.flatMap f ++ r' → (Ok r ∧ ∀ t ts, r = t :: ts → ¬ First t) → (Ok r' ∧ ∀ t ts, r' = t :: ts → ¬ First t) →
      as = bs ∧ r = r'
  | [], [], r, r', h, _, _ => ⟨rfl, h⟩
  | [], b :: bs, r, r', h, h1, _ => by
    obtain ⟨t, ts, hb, hF⟩ := hne b
    rw [List.flatMap_cons, hb] at h
    exact absurd hF (h1.2 t _ h)
  | a :: as, [], r, r', h, _, h2 => by
    obtain ⟨t, ts, hb, hF⟩ := hne a
    rw [List.flatMap_cons, hb] at h
    exact absurd hF (h2.2 t _ h.symm)
  | a :: as, b :: bs, r, r', h, h1, h2 => by
    have hok : ∀ (l : List α) {s : List Tok}, Ok s → Ok (l.flatMap f ++ s) := by
      intro l s hs
      cases l with
      | nil => exact hs
      | cons c l =>
        obtain ⟨t, ts, hb, hF⟩ := hne c
        rw [List.flatMap_cons, hb]
        exact hf t _ hF
    rw [List.flatMap_cons, List.flatMap_cons, List.append_assoc, List.append_assoc] at h
    replace h := hone _ _ _ _ h (hok as h1.1) (hok bs h2.1)
    obtain ⟨rfl, h⟩ := h
    obtain ⟨rfl, rfl⟩ := many_inj hne hone hf h h1 h2
    exact ⟨rfl, rfl⟩

theorem desc_inj {d d' : Option Str} {n n' : Str} {r r' : List Tok} (h : descTok d ++ .name n :: r = descTok d' ++ .name n' :: r') : d = d' ∧ n = n' ∧ r = r' := by
  cases d <;> cases d' <;> simp [descTok] at h ⊢ <;> assumption

/-- The first token of a field or an argument. -/
def Begins (t : Tok) : Prop := ∀ c, t ≠ .punct c

theorem begins_desc (d : Option Str) (n : Str) (r : List Tok) : ∃ t ts, descTok d ++ .name n :: r = t :: ts ∧ Begins t := by
  cases d
  · exact ⟨_, _, rfl, fun _ => nofun⟩
  · exact ⟨_, _, rfl, fun _ => nofun⟩

theorem arg_inj {a b : ArgDef} {r r' : List Tok} (h : a.toks ++ r = b.toks ++ r') (h1 : NotNext '!' r) (h2 : NotNext '!' r') : a = b ∧ r = r' := by
  obtain ⟨d, n, t⟩ := a
  obtain ⟨d', n', t'⟩ := b
  simp only [ArgDef.toks, List.append_assoc, List.cons_append] at h
  replace h := desc_inj h
  obtain ⟨rfl, rfl, h⟩ := h
  simp only [List.cons.injEq, true_and] at h
  obtain ⟨rfl, rfl⟩ := type_inj h h1 h2
  exact ⟨rfl, rfl⟩

/-- Things in parentheses can be told apart. -/
theorem parens_inj {α : Type} {f : α → List Tok} (hne : ∀ a, ∃ t ts, f a = t :: ts ∧ Begins t)
    (hone : ∀ a b r r', f a ++ r = f b ++ r' → NotNext '!' r → NotNext '!' r' → a = b ∧ r = r') {as bs : List α} {r r' : List Tok}
    (h : parens f as ++ r = parens f bs ++ r') (h1 : NotNext '(' r) (h2 : NotNext '(' r') : as = bs ∧ r = r' := by
  have key : ∀ as bs : List α, as.flatMap f ++ .punct ')' :: r = bs.flatMap f ++ .punct ')' :: r' → as = bs ∧ r = r' := by
    intro as bs h
    replace h := many_inj (First := Begins) (Ok := NotNext '!') hne hone (fun t ts ht => notNext_cons (ht _)) h
      ⟨notNext_cons (by decide), fun t ts e hb => by cases e; exact hb _ rfl⟩ ⟨notNext_cons (by decide), fun t ts e hb => by cases e; exact hb _ rfl⟩
    obtain ⟨rfl, h⟩ := h
    cases h
    exact ⟨rfl, rfl⟩
  cases as with
  | nil =>
    cases bs with
    | nil => exact ⟨rfl, h⟩
    | cons b bs => simp only [parens, List.nil_append, List.cons_append] at h; subst h; exact absurd rfl h1
  | cons a as =>
    cases bs with
    | nil => simp only [parens, List.nil_append, List.cons_append] at h; subst h; exact absurd rfl h2
    | cons b bs =>
      simp only [parens, List.cons_append, List.cons.injEq, true_and, List.append_assoc] at h
      exact key _ _ h

theorem argTok_inj {a b : Str × Val} {r r' : List Tok} (h : argTok a ++ r = argTok b ++ r') : a = b ∧ r = r' := by
  obtain ⟨n, v⟩ := a
  obtain ⟨n', v'⟩ := b
  cases v <;> cases v' <;> simp [argTok, Val.tok] at h ⊢ <;> simp [h]

theorem directive_inj {a b : Directive} {r r' : List Tok} (h : a.toks ++ r = b.toks ++ r') (h1 : NotNext '(' r) (h2 : NotNext '(' r') : a = b ∧ r = r' := by
  obtain ⟨n, as⟩ := a
  obtain ⟨n', bs⟩ := b
  simp only [Directive.toks, List.cons_append, List.cons.injEq, true_and, Tok.name.injEq] at h
  replace h := h
  obtain ⟨rfl, h⟩ := h
  obtain ⟨rfl, rfl⟩ := parens_inj (f := argTok) (fun a => ⟨_, _, rfl, fun _ h => by cases h⟩) (fun a b r r' h _ _ => argTok_inj h) h h1 h2
  exact ⟨rfl, rfl⟩

/-- The end of a field or the head of a type. -/
structure Ends (r : List Tok) : Prop where
  bang : NotNext '!' r
  dir : NotNext '@' r
  paren : NotNext '(' r

theorem ends_begin {t : Tok} {ts : List Tok} (h : Begins t) : Ends (t :: ts) := ⟨notNext_cons (h _), notNext_cons (h _), notNext_cons (h _)⟩

theorem directives_inj {as bs : List Directive} {r r' : List Tok} (h : as.flatMap Directive.toks ++ r = bs.flatMap Directive.toks ++ r') (h1 : Ends r) (h2 : Ends r') :
    as = bs ∧ r = r' :=
  many_inj (First := fun t => t = .punct '@') (Ok := NotNext '(') (fun a => ⟨_, _, rfl, rfl⟩) (fun a b r r' h h1 h2 => directive_inj h h1 h2)
    (fun t ts ht => notNext_cons (by rw [ht]; decide)) h ⟨h1.paren, fun t ts e ht => h1.dir (by rw [e, ht]; rfl)⟩ ⟨h2.paren, fun t ts e ht => h2.dir (by rw [e, ht]; rfl)⟩

/-- What follows a type is not an exclamation mark, with directives or without. -/
theorem notBang_directives (ds : List Directive) {r : List Tok} (h : Ends r) : NotNext '!' (ds.flatMap Directive.toks ++ r) := by
  cases ds with
  | nil => exact h.bang
  | cons d ds => exact notNext_cons (by decide)

theorem field_inj {a b : FieldDef} {r r' : List Tok} (h : a.toks ++ r = b.toks ++ r') (h1 : Ends r) (h2 : Ends r') : a = b ∧ r = r' := by
  obtain ⟨d, n, as, t, ds⟩ := a
  obtain ⟨d', n', as', t', ds'⟩ := b
  simp only [FieldDef.toks, List.append_assoc, List.cons_append] at h
  replace h := desc_inj h
  obtain ⟨rfl, rfl, h⟩ := h
  replace h := parens_inj (f := ArgDef.toks) (fun a => begins_desc _ _ _) (fun a b r r' h h1 h2 => arg_inj h h1 h2) h (notNext_cons (by decide)) (notNext_cons (by decide))
  obtain ⟨rfl, h⟩ := h
  simp only [List.cons.injEq, true_and] at h
  replace h := type_inj h (notBang_directives ds h1) (notBang_directives ds' h2)
  obtain ⟨rfl, h⟩ := h
  obtain ⟨rfl, rfl⟩ := directives_inj h h1 h2
  exact ⟨rfl, rfl⟩

theorem fields_inj {as bs : List FieldDef} {r r' : List Tok} (h : as.flatMap FieldDef.toks ++ .punct '}' :: r = bs.flatMap FieldDef.toks ++ .punct '}' :: r') :
    as = bs ∧ r = r' := by
  replace h := many_inj (First := Begins) (Ok := Ends) (fun a => begins_desc _ _ _) (fun a b r r' h h1 h2 => field_inj h h1 h2) (fun t ts => ends_begin) h
    ⟨⟨notNext_cons (by decide), notNext_cons (by decide), notNext_cons (by decide)⟩, fun t ts e hb => by cases e; exact hb _ rfl⟩
    ⟨⟨notNext_cons (by decide), notNext_cons (by decide), notNext_cons (by decide)⟩, fun t ts e hb => by cases e; exact hb _ rfl⟩
  obtain ⟨rfl, h⟩ := h
  cases h
  exact ⟨rfl, rfl⟩

theorem typeDef_inj {a b : TypeDef} {r r' : List Tok} (h : a.toks ++ r = b.toks ++ r') : a = b ∧ r = r' := by
  obtain ⟨d, i, n, m, ds, fs⟩ := a
  obtain ⟨d', i', n', m', ds', fs'⟩ := b
  simp only [TypeDef.toks, List.append_assoc, List.cons_append] at h
  replace h := desc_inj h
  obtain ⟨rfl, hi, h⟩ := h
  have hi : i = i' := by cases i <;> cases i' <;> simp at hi ⊢
  subst hi
  simp only [List.cons.injEq, Tok.name.injEq] at h
  replace h := h
  obtain ⟨rfl, h⟩ := h
  have hm : m = m' ∧ ds.flatMap Directive.toks ++ .punct '{' :: (fs.flatMap FieldDef.toks ++ .punct '}' :: r) =
      ds'.flatMap Directive.toks ++ .punct '{' :: (fs'.flatMap FieldDef.toks ++ .punct '}' :: r') := by
    cases m with
    | none =>
      cases m' with
      | none => simpa [implementsTok] using h
      | some m' => cases ds <;> simp [implementsTok, Directive.toks] at h
    | some m =>
      cases m' with
      | none => cases ds' <;> simp [implementsTok, Directive.toks] at h
      | some m' => simpa [implementsTok] using h
  replace h := hm
  obtain ⟨rfl, h⟩ := h
  have he : ∀ r, Ends (.punct '{' :: r) := fun r => ⟨notNext_cons (by decide), notNext_cons (by decide), notNext_cons (by decide)⟩
  replace h := directives_inj h (he _) (he _)
  obtain ⟨rfl, h⟩ := h
  simp only [List.cons.injEq, true_and] at h
  obtain ⟨rfl, rfl⟩ := fields_inj h
  exact ⟨rfl, rfl⟩

theorem def_inj {a b : Def} {r r' : List Tok} (h : a.toks ++ r = b.toks ++ r') : a = b ∧ r = r' := by
  cases a with
  | scalar n =>
    cases b with
    | scalar n' => simp [Def.toks] at h ⊢; exact h
    | type d => obtain ⟨d, i, _, _, _, _⟩ := d; cases d <;> cases i <;> simp [Def.toks, TypeDef.toks, descTok] at h
  | type d =>
    cases b with
    | scalar n' => obtain ⟨d, i, _, _, _, _⟩ := d; cases d <;> cases i <;> simp [Def.toks, TypeDef.toks, descTok] at h
    | type d' =>
      replace h := typeDef_inj h
      obtain ⟨rfl, h⟩ := h
      exact ⟨rfl, h⟩

/-- Tokens are those of one list of definitions only. -/
theorem defs_inj {as bs : List Def} (h : as.flatMap Def.toks = bs.flatMap Def.toks) : as = bs := by
  have hne : ∀ a : Def, ∃ t ts, a.toks = t :: ts ∧ Begins t := by
    intro a
    cases a with
    | scalar n => exact ⟨_, _, rfl, fun _ => nofun⟩
    | type d => exact begins_desc _ _ _
  exact (many_inj (First := Begins) (Ok := fun _ => True) (r := []) (r' := []) hne (fun a b r r' h _ _ => def_inj h) (fun _ _ _ => trivial) (by simpa using h)
    ⟨trivial, nofun⟩ ⟨trivial, nofun⟩).1

/-- A text denotes one list of definitions only. -/
theorem denotes_unique {text : Str} {as bs : List Def} (ha : Denotes text as) (hb : Denotes text bs) : as = bs :=
  defs_inj (Option.some.inj (ha.1.symm.trans hb.1))

end JT.GqlText
