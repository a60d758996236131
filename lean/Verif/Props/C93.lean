import Verif.Proofs.GoSource
import Verif.Spec.GoFlat
import Verif.Props.C81
/- C93: the generated Go file is Go source that declares the struct for the schema. -/
namespace JT.GoText
open Gen Spec JT.Spec GoJson

variable {u : Unicode} {title : Str → Str}

/-- What is asked of a schema and of the names given to the generator. -/
structure Writable (u : Unicode) (title : Str → Str) (args : Args) (schema : Instance) (m : GMap P) (pkg name : Str) (embeds es : List Str) : Prop where
  inline : args.noNested = false
  properties : schema.properties = some m
  items : schema.items = none
  nodup : (m.map Prod.fst).Nodup
  quiet : QuietSchema ⟨schema.properties, schema.items⟩
  one : OneTypeEach ⟨schema.properties, schema.items⟩
  plain : PlainItems ⟨schema.properties, schema.items⟩
  embedded : JT.Spec.Embeds title args embeds schema.allOf es
  some : ∃ k q, Listed m k q
  pkg : Name u pkg
  name : Name u (title name)
  embeds : ∀ e ∈ es, Name u e

/-- Schemas of the usual types, with names that are names in Go, and different ones. -/
inductive Usual (u : Unicode) (title : Str → Str) (rename : GMap Str) : P → Prop where
  | leaf {raw : P} {i : Instance} {t : Str} : decodeInstance false raw = .ok i → TypeIs i t → t ∈ scalarTable.map Prod.fst → Usual u title rename raw
  | array {raw items : P} {i : Instance} : decodeInstance false raw = .ok i → TypeIs i g!"array" → i.items = Option.some items → Usual u title rename items →
      Usual u title rename raw
  | object {raw : P} {i : Instance} {m : GMap P} : decodeInstance false raw = .ok i → TypeIs i g!"object" → i.properties = Option.some m →
      (∀ k q, Listed m k q → Name u (goName title rename k)) →
      (∀ k q k' q', Listed m k q → Listed m k' q' → goName title rename k = goName title rename k' → k = k') →
      (∀ k q, Listed m k q → Usual u title rename q) → Usual u title rename raw

/-- However the schema is walked, the text of the file is Go source: the package clause, the comment for generated code, the imports that are used and the declaration of the
struct, with the embedded structs and the fields for the properties. -/
def Declares (u : Unicode) (title : Str → Str) (args : Args) (schema : Instance) (m : GMap P) (pkg name : Str) (embeds es : List Str) : Prop :=
  ∃ ks fs, StructFor title args.fieldNames args.descTag args.pointers m schema.required ks fs ∧
    ∃ imports, (⟨pkg, [notice], imports, [structDecl (title name) es fs]⟩ : File).ImportsUsed ∧
    ∀ sched, ∃ g, newGoFile sched title args schema name embeds = .ok g ∧ Source u (fileSource pkg (g.text title args))
      ⟨pkg, [notice], imports, [structDecl (title name) es fs]⟩

/-- **C93**, in full: for schemas of the usual types whose names are names in Go.  Descriptions may be any text, as may be names in JSON. -/
def C93_statement (u : Unicode) (title : Str → Str) : Prop := ∀ (args : Args) (schema : Instance) (m : GMap P) (pkg name : Str) (embeds es : List Str),
  Writable u title args schema m pkg name embeds es →
  (∀ k q, Listed m k q → Name u (goName title args.fieldNames k)) →
  (∀ k q k' q', Listed m k q → Listed m k' q' → goName title args.fieldNames k = goName title args.fieldNames k' → k = k') →
  (∀ k q, Listed m k q → Usual u title args.fieldNames q) →
  Declares u title args schema m pkg name embeds es

/-! ### Proof -/

theorem embeds_lines : ∀ {es : List Str}, es ≠ [] → join g!"\n" es ++ g!"\n\n" = es.flatMap (· ++ g!"\n") ++ g!"\n"
  | [], h => absurd rfl h
  | [e], _ => by simp [join]
  | e :: f :: es, _ => by
    have := embeds_lines (es := f :: es) (by simp)
    rw [join, List.flatMap_cons, List.append_assoc, List.append_assoc, List.append_assoc, List.append_assoc, this]

theorem runs_embeds {es : List Str} (h : ∀ e ∈ es, Name u e) :
    Runs u (.start false) (embedsText es) (fieldsToks (es.map fun e => .mk [] none (.name e) none)) (.start false) := by
  have hall : ∀ {es : List Str}, (∀ e ∈ es, Name u e) →
      Runs u (.start false) (es.flatMap (· ++ g!"\n")) (fieldsToks (es.map fun e => .mk [] none (.name e) none)) (.start false) := by
    intro es
    induction es with
    | nil => intro _; exact .nil _
    | cons e es ih =>
      intro h
      rw [List.flatMap_cons, List.map_cons, fieldsToks]
      exact (runs_name_line (h e (by simp)) false).append (ih fun x hx => h x (by simp [hx]))
  unfold embedsText
  by_cases hes : es = []
  · subst hes; exact .nil _
  · rw [if_pos, embeds_lines hes]
    · have := (hall h).append (b := g!"\n") (us := []) (st2 := .start false) rfl
      rwa [List.append_nil] at this
    · intro e
      obtain ⟨x, t, rfl⟩ := List.exists_cons_of_ne_nil hes
      obtain ⟨⟨c, s, rfl, _⟩, _⟩ := h x (by simp)
      cases t <;> simp [join] at e

theorem fieldsToks_append : ∀ (a b : List Field), fieldsToks (a ++ b) = fieldsToks a ++ fieldsToks b
  | [], _ => rfl
  | f :: a, b => by rw [List.cons_append, fieldsToks, fieldsToks, fieldsToks_append a b, List.append_assoc]

theorem fieldsUse_embeds (p : Str) (es : List Str) (fs : List Field) : fieldsUse p (es.map (fun e => .mk [] none (.name e) none) ++ fs) = fieldsUse p fs := by
  induction es with
  | nil => rfl
  | cons e es ih => rw [List.map_cons, List.cons_append, fieldsUse, ih]; rfl

/-- The text of a file with one struct. -/
theorem file_source {pkg name : Str} {es : List Str} {body : List Line} {fs : List Field} (b : Bool) (hp : Name u pkg) (hn : Name u name) (he : ∀ e ∈ es, Name u e)
    (hbody : Runs u (.start false) (textOf body) (fieldsToks fs) (.start false)) :
    Source u (fileSource pkg (b, [⟨name, es, body⟩]))
      ⟨pkg, [notice], if b then [g!"time"] else [], [structDecl name es fs]⟩ := by
  have h1 : Runs u (.start false) g!"package " [.keyword g!"package"] (.start false) := rfl
  have h2 := runs_name_line hp false
  have h3 : Runs u (.start false) g!"\n" [] (.start false) := rfl
  have h4 := runs_comment (u := u) (s := notice) (by unfold CommentText; decide) (by decide) false
  have h5 : Runs u (.start false) (if b then g!"import \"time\"\n" else []) ((if b then [g!"time"] else []).flatMap importToks) (.start false) := by cases b <;> rfl
  have h6 : Runs u (.start false) g!"\n\ntype " [.keyword g!"type"] (.start false) := rfl
  have h7 := runs_name hn false (c := ' ') (.inr rfl)
  have h8 : Runs u (.start true) g!"struct {\n" [.keyword g!"struct", .punct '{'] (.start false) := rfl
  have h9 := runs_embeds he
  have h10 : Runs u (.start false) g!"}" [.punct '}'] (.start true) := rfl
  have := h1.append (h2.append (h3.append (h4.append (h3.append (h5.append (h6.append (h7.append (h8.append (h9.append (hbody.append h10))))))))))
  have htext : fileSource pkg (b, [⟨name, es, body⟩]) = g!"package " ++ ((pkg ++ g!"\n") ++ (g!"\n" ++ ((g!"//" ++
      notice ++ g!"\n") ++ (g!"\n" ++ ((if b then g!"import \"time\"\n" else []) ++ (g!"\n\ntype " ++
      ((name ++ [' ']) ++ (g!"struct {\n" ++ (embedsText es ++ (textOf body ++ g!"}")))))))))) := by
    simp [fileSource, StructText.source, disclaimer, textOf, notice]
  unfold Source lex
  rw [htext, show run u (.start false) _ = _ from this]
  simp [finish, semiTok, File.toks, typeToks, structDecl, Ty.toks, fieldsToks_append]

/-- **C93**, partial: the text of the file is Go source that declares the struct, with the embedded structs and one field per property.  `C93_unique`, `C93_struct`: the text can
be read in no other way, and no other fields are those for the schema.  Missing: text that Go does not allow within a tag or comment (`C93_refuted`), and
`format.Source`.  Structs of their own for nested objects are the subject of C94. -/
theorem C93_partial {args : Args} {schema : Instance} {m : GMap P} {pkg name : Str} {embeds es : List Str} (h : Writable u title args schema m pkg name embeds es)
    (hm : Names u title args.fieldNames m) (hcl : ∀ k q, Listed m k q → Clean u title args.fieldNames args.descTag q) :
    Declares u title args schema m pkg name embeds es := by
  obtain ⟨fs, hf, hg⟩ := inline_file (title := title) name embeds h.inline h.properties h.items h.nodup h.quiet h.one h.plain
  obtain ⟨ks, Fs, h1, h2, h3⟩ := fields_source (u := u) (descTag := args.descTag) (pointers := args.pointers) (r := schema.required) hf hm
    (fun k q f hl hk => field_source (hf.each _ _ _ hl.1 hk) (hm.name _ _ hl) (hm.tag _ _ hl) (hcl _ _ hl) _)
  have hne : fs ≠ [] := by
    obtain ⟨k, q, hl⟩ := h.some
    rintro rfl
    exact hl.2 ((hf.names k).1 rfl q hl.1)
  refine ⟨ks, Fs, h1, if includeTime fs then [g!"time"] else [], ⟨by split <;> simp, fun p => ?_⟩, fun sched => ⟨_, hg sched, ?_⟩⟩
  · simp only [List.mem_singleton, exists_eq_left, structDecl, Ty.uses, fieldsUse_embeds, h2]
    cases includeTime fs <;> simp
  · have hs : ∀ r : GStruct, GoFile.structs ⟨r, []⟩ = [r] := fun r => rfl
    have htext : GoFile.text title args ⟨⟨name, fs, schema.required, embeds ++ embedNames title args schema.allOf⟩, []⟩ =
        (includeTime fs, [⟨title name, es, (sortedByName (linesAll args.descTag args.pointers [] [] g!"\t" schema.required fs)).flatten⟩]) := by
      simp only [GoFile.text, hs, ← embeds_iff.1 h.embedded]
      rw [List.filter_cons_of_neg (by simpa using hne), List.filter_cons_of_pos (by simpa using hne)]
      simp [GStruct.text]
    rw [htext]
    exact file_source _ h.pkg h.name h.embeds (h3 _ (by unfold Tabs; decide))

/-! ### Only one reading -/

/-- Tokens a type may begin with. -/
def Starts : Tok → Prop
  | .ident _ | .keyword _ => True
  | .punct c => c = '*' ∨ c = '['
  | _ => False

theorem ty_starts : ∀ t : Ty, ∃ x xs, t.toks = x :: xs ∧ Starts x
  | .star _ => ⟨_, _, rfl, .inl rfl⟩
  | .name _ => ⟨_, _, rfl, trivial⟩
  | .sel _ _ => ⟨_, _, rfl, trivial⟩
  | .map _ _ => ⟨_, _, rfl, trivial⟩
  | .slice _ => ⟨_, _, rfl, .inr rfl⟩
  | .struct _ => ⟨_, _, rfl, trivial⟩

def NoDot (r : List Tok) : Prop := ∀ r', r ≠ .punct '.' :: r'

theorem docs_inj {d d' : List Str} {r r' : List Tok} (hr : ∀ s x, r ≠ .comment s :: x) (hr' : ∀ s x, r' ≠ .comment s :: x)
    (h : d.map Tok.comment ++ r = d'.map Tok.comment ++ r') : d = d' ∧ r = r' := by
  induction d generalizing d' with
  | nil => cases d' with
    | nil => exact ⟨rfl, h⟩
    | cons s d' => exact absurd h (hr _ _)
  | cons s d ih => cases d' with
    | nil => exact absurd h.symm (hr' _ _)
    | cons s' d' =>
      simp only [List.map_cons, List.cons_append, List.cons.injEq, Tok.comment.injEq] at h
      obtain ⟨rfl, h⟩ := h
      replace h := ih h
      obtain ⟨rfl, h⟩ := h
      exact ⟨rfl, h⟩

theorem nodot_tag (tag : Option Str) (r : List Tok) : NoDot (tagTok tag ++ .punct ';' :: r) := by
  cases tag <;> intro r' h <;> simp [tagTok] at h

theorem tag_inj {t t' : Option Str} {r r' : List Tok} (h : tagTok t ++ .punct ';' :: r = tagTok t' ++ .punct ';' :: r') : t = t' ∧ r = r' := by
  cases t <;> cases t' <;> simp [tagTok] at h ⊢ <;> exact h

theorem tag_starts (t : Option Str) (r : List Tok) : ∃ x xs, tagTok t ++ .punct ';' :: r = x :: xs ∧ ¬ Starts x := by
  cases t
  · exact ⟨_, _, rfl, by simp [Starts]⟩
  · exact ⟨_, _, rfl, by simp [Starts]⟩

theorem starts_ne {t : Ty} {r s : List Tok} {x : Tok} (hx : ¬ Starts x) : t.toks ++ r ≠ x :: s := by
  obtain ⟨y, ys, h, hy⟩ := ty_starts t
  rw [h]
  intro e
  rw [List.cons_append, List.cons.injEq] at e
  rw [e.1] at hy
  exact hx hy

theorem named_ne {n : Str} {t t' : Ty} {tag : Option Str} {r r' : List Tok} : t.toks ++ (tagTok tag ++ .punct ';' :: r) ≠ .ident n :: (t'.toks ++ r') := by
  intro e
  cases t with
  | name s =>
    rw [Ty.toks, List.cons_append, List.nil_append, List.cons.injEq] at e
    obtain ⟨x, xs, h, hx⟩ := tag_starts tag r
    rw [h] at e
    exact starts_ne hx e.2.symm
  | sel p s =>
    rw [Ty.toks, List.cons_append, List.cons.injEq] at e
    exact starts_ne (x := .punct '.') (by simp [Starts]) e.2.symm
  | star _ | map _ _ | slice _ | struct _ => simp [Ty.toks] at e

/-- What comes after the comments of a field. -/
theorem head_field (n : Option Str) (t : Ty) (r : List Tok) : ∃ x xs, nameTok n ++ (t.toks ++ r) = x :: xs ∧ Starts x := by
  cases n with
  | none =>
    obtain ⟨x, xs, h, hx⟩ := ty_starts t
    exact ⟨x, xs ++ r, by rw [h]; rfl, hx⟩
  | some n => exact ⟨_, _, rfl, trivial⟩

theorem field_ne {f : Field} {r s : List Tok} : f.toks ++ r ≠ .punct '}' :: s := by
  obtain ⟨doc, n, t, tag⟩ := f
  intro e
  rw [Field.toks] at e
  cases doc with
  | cons d doc => simp at e
  | nil =>
    obtain ⟨x, xs, h, hx⟩ := head_field n t (tagTok tag ++ [.punct ';'])
    rw [h] at e
    simp only [List.map_nil, List.nil_append, List.cons_append, List.cons.injEq] at e
    rw [e.1] at hx
    simp [Starts] at hx

mutual
theorem ty_inj : ∀ (t t' : Ty) (r r' : List Tok), t.toks ++ r = t'.toks ++ r' → NoDot r → NoDot r' → t = t' ∧ r = r'
  | .star t, t', r, r', h, hr, hr' => by
    cases t' with
    | star t' =>
      simp only [Ty.toks, List.cons_append, List.cons.injEq, true_and] at h
      replace h := ty_inj t t' r r' h hr hr'
      obtain ⟨rfl, h⟩ := h
      exact ⟨rfl, h⟩
    | _ => simp [Ty.toks] at h
  | .name s, t', r, r', h, hr, hr' => by
    cases t' with
    | name s' => simpa [Ty.toks] using h
    | sel p s' =>
      simp only [Ty.toks, List.cons_append, List.nil_append, List.cons.injEq, Tok.ident.injEq] at h
      exact absurd h.2 (hr _)
    | _ => simp [Ty.toks] at h
  | .sel p s, t', r, r', h, hr, hr' => by
    cases t' with
    | sel p' s' => simpa [Ty.toks, and_assoc] using h
    | name s' =>
      simp only [Ty.toks, List.cons_append, List.nil_append, List.cons.injEq, Tok.ident.injEq] at h
      exact absurd h.2.symm (hr' _)
    | _ => simp [Ty.toks] at h
  | .map k v, t', r, r', h, hr, hr' => by
    cases t' with
    | map k' v' =>
      simp only [Ty.toks, List.cons_append, List.append_assoc, List.cons.injEq, true_and] at h
      replace h := ty_inj k k' _ _ h (fun _ => by simp) (fun _ => by simp)
      obtain ⟨rfl, h⟩ := h
      replace h := ty_inj v v' _ _ (List.cons.inj h).2 hr hr'
      obtain ⟨rfl, h⟩ := h
      exact ⟨rfl, h⟩
    | _ => simp [Ty.toks] at h
  | .slice t, t', r, r', h, hr, hr' => by
    cases t' with
    | slice t' =>
      simp only [Ty.toks, List.cons_append, List.cons.injEq, true_and] at h
      replace h := ty_inj t t' r r' h hr hr'
      obtain ⟨rfl, h⟩ := h
      exact ⟨rfl, h⟩
    | _ => simp [Ty.toks] at h
  | .struct fs, t', r, r', h, hr, hr' => by
    cases t' with
    | struct fs' =>
      simp only [Ty.toks, List.cons_append, List.append_assoc, List.nil_append, List.cons.injEq, true_and] at h
      replace h := fields_inj fs fs' r r' h
      obtain ⟨rfl, h⟩ := h
      exact ⟨rfl, h⟩
    | _ => simp [Ty.toks] at h
theorem field_inj : ∀ (f f' : Field) (r r' : List Tok), f.toks ++ r = f'.toks ++ r' → f = f' ∧ r = r'
  | .mk doc n t tag, .mk doc' n' t' tag', r, r', h => by
    simp only [Field.toks, List.append_assoc, List.cons_append, List.nil_append] at h
    have hc : ∀ (n : Option Str) (t : Ty) (r : List Tok) s x, nameTok n ++ (t.toks ++ r) ≠ .comment s :: x := by
      intro n t r s x e
      obtain ⟨y, ys, h, hy⟩ := head_field n t r
      rw [h, List.cons.injEq] at e
      rw [e.1] at hy
      exact hy
    replace h := docs_inj (hc _ _ _) (hc _ _ _) h
    obtain ⟨rfl, h⟩ := h
    have hn : n = n' ∧ t.toks ++ (tagTok tag ++ .punct ';' :: r) = t'.toks ++ (tagTok tag' ++ .punct ';' :: r') := by
      cases n with
      | none => cases n' with
        | none => exact ⟨rfl, h⟩
        | some n' => exact absurd h named_ne
      | some n => cases n' with
        | none => exact absurd h.symm named_ne
        | some n' => simpa [nameTok] using h
    clear h
    obtain ⟨rfl, h⟩ := hn
    replace h := ty_inj t t' _ _ h (nodot_tag _ _) (nodot_tag _ _)
    obtain ⟨rfl, h⟩ := h
    replace h := tag_inj h
    obtain ⟨rfl, h⟩ := h
    exact ⟨rfl, h⟩
theorem fields_inj : ∀ (fs fs' : List Field) (r r' : List Tok), fieldsToks fs ++ .punct '}' :: r = fieldsToks fs' ++ .punct '}' :: r' → fs = fs' ∧ r = r'
  | [], [], r, r', h => ⟨rfl, by simpa [fieldsToks] using h⟩
  | [], f' :: fs', r, r', h => by
    rw [fieldsToks, List.nil_append, fieldsToks, List.append_assoc] at h
    exact absurd h.symm field_ne
  | f :: fs, [], r, r', h => by
    rw [show fieldsToks [] = [] from rfl, List.nil_append, fieldsToks, List.append_assoc] at h
    exact absurd h field_ne
  | f :: fs, f' :: fs', r, r', h => by
    rw [fieldsToks.eq_2, fieldsToks.eq_2, List.append_assoc, List.append_assoc] at h
    replace h := field_inj f f' _ _ h
    obtain ⟨rfl, h⟩ := h
    replace h := fields_inj fs fs' r r' h
    obtain ⟨rfl, h⟩ := h
    exact ⟨rfl, h⟩
end

theorem types_inj : ∀ {l l' : List (Str × Ty)}, l.flatMap typeToks = l'.flatMap typeToks → l = l'
  | [], [], _ => rfl
  | [], d :: l', h => by simp [typeToks] at h
  | d :: l, [], h => by simp [typeToks] at h
  | (n, t) :: l, (n', t') :: l', h => by
    simp only [List.flatMap_cons, typeToks, List.cons_append, List.append_assoc, List.nil_append, List.cons.injEq, true_and, Tok.ident.injEq] at h
    obtain ⟨rfl, h⟩ := h
    replace h := ty_inj t t' _ _ h (fun _ => by simp) (fun _ => by simp)
    obtain ⟨rfl, h⟩ := h
    rw [types_inj (List.cons.inj h).2]

theorem imports_inj {a b : List (Str × Ty)} : ∀ {l l' : List Str}, l.flatMap importToks ++ a.flatMap typeToks = l'.flatMap importToks ++ b.flatMap typeToks →
    l = l' ∧ a.flatMap typeToks = b.flatMap typeToks
  | [], [], h => ⟨rfl, h⟩
  | [], p :: l', h => by cases a <;> simp [typeToks, importToks] at h
  | p :: l, [], h => by cases b <;> simp [typeToks, importToks] at h
  | p :: l, p' :: l', h => by
    simp only [List.flatMap_cons, importToks, List.cons_append, List.append_assoc, List.nil_append, List.cons.injEq, true_and, Tok.str.injEq] at h
    obtain ⟨rfl, h⟩ := h
    replace h := imports_inj h
    obtain ⟨rfl, h⟩ := h
    exact ⟨rfl, h⟩

/-- A text can be read in one way only. -/
theorem C93_unique {text : Str} {f f' : File} (h : Source u text f) (h' : Source u text f') : f = f' := by
  have e : f.toks = f'.toks := Option.some.inj (h.symm.trans h')
  obtain ⟨p, d, i, t⟩ := f
  obtain ⟨p', d', i', t'⟩ := f'
  simp only [File.toks, List.cons.injEq, true_and, Tok.ident.injEq] at e
  obtain ⟨rfl, e⟩ := e
  have hc : ∀ (i : List Str) (t : List (Str × Ty)) s x, i.flatMap importToks ++ t.flatMap typeToks ≠ .comment s :: x := by
    intro i t s x h
    cases i <;> cases t <;> simp [importToks, typeToks] at h
  replace e := docs_inj (hc _ _) (hc _ _) e
  obtain ⟨rfl, e⟩ := e
  replace e := imports_inj e
  obtain ⟨rfl, e⟩ := e
  rw [types_inj e]

/-! ### Only one struct -/

theorem scalar_fun {t b b' : Str} (h : (t, b) ∈ scalarTable) (h' : (t, b') ∈ scalarTable) : b = b' := by
  simp only [scalarTable, List.mem_cons, Prod.mk.injEq, List.not_mem_nil, or_false] at h h'
  rcases h with ⟨rfl, rfl⟩ | ⟨rfl, rfl⟩ | ⟨rfl, rfl⟩ | ⟨rfl, rfl⟩ <;> (simp at h'; exact h'.symm)

theorem not_object {b : Str} : (g!"object", b) ∉ scalarTable := by simp [scalarTable]
theorem not_array {b : Str} : (g!"array", b) ∉ scalarTable := by simp [scalarTable]

theorem same_instance {q : P} {i i' : Instance} (h : decodeInstance false q = .ok i) (h' : decodeInstance false q = .ok i') : i = i' := by
  rw [h] at h'; cases h'; rfl

variable {rename : GMap Str} {descTag pointers : Bool}

mutual
theorem typeFor_unique {raw : P} {required : Bool} {t t' : Ty} {s s' : Bool} : TypeFor title rename descTag pointers raw required t s →
    TypeFor title rename descTag pointers raw required t' s' → t = t' ∧ s = s'
  | .scalar hd ht hb hn, h' => by
    cases h' with
    | scalar hd' ht' hb' hn' =>
      obtain rfl := same_instance hd hd'
      obtain rfl := typeIs_unique ht ht'
      rw [scalar_fun hb hb']
      exact ⟨rfl, rfl⟩
    | time hd' ht' hf' =>
      obtain rfl := same_instance hd hd'
      exact absurd ⟨typeIs_unique ht ht', hf'⟩ hn
    | dict hd' ht' => exact absurd (same_type hd hd' ht ht' ▸ hb) not_object
    | struct hd' ht' => exact absurd (same_type hd hd' ht ht' ▸ hb) not_object
    | scalars hd' ht' => exact absurd (same_type hd hd' ht ht' ▸ hb) not_array
    | times hd' ht' => exact absurd (same_type hd hd' ht ht' ▸ hb) not_array
    | dicts hd' ht' => exact absurd (same_type hd hd' ht ht' ▸ hb) not_array
    | structs hd' ht' => exact absurd (same_type hd hd' ht ht' ▸ hb) not_array
  | .time hd ht hf, h' => by
    cases h' with
    | scalar hd' ht' hb' hn' =>
      obtain rfl := same_instance hd hd'
      exact absurd ⟨typeIs_unique ht' ht, hf⟩ hn'
    | time hd' ht' hf' =>
      obtain rfl := same_instance hd hd'
      exact ⟨rfl, rfl⟩
    | dict hd' ht' => exact absurd (same_type hd hd' ht ht') (by decide)
    | struct hd' ht' => exact absurd (same_type hd hd' ht ht') (by decide)
    | scalars hd' ht' => exact absurd (same_type hd hd' ht ht') (by decide)
    | times hd' ht' => exact absurd (same_type hd hd' ht ht') (by decide)
    | dicts hd' ht' => exact absurd (same_type hd hd' ht ht') (by decide)
    | structs hd' ht' => exact absurd (same_type hd hd' ht ht') (by decide)
  | .dict hd ht hp hl, h' => by
    cases h' with
    | scalar hd' ht' hb' => exact absurd ((same_type hd hd' ht ht').symm ▸ hb') not_object
    | time hd' ht' => exact absurd (same_type hd hd' ht ht') (by decide)
    | dict hd' ht' =>
      obtain rfl := same_instance hd hd'
      exact ⟨rfl, rfl⟩
    | struct hd' ht' hp' hl' =>
      obtain rfl := same_instance hd hd'
      obtain rfl := Option.some.inj (hp.symm.trans hp')
      obtain ⟨k, q, h⟩ := hl'
      exact absurd h (hl k q)
    | scalars hd' ht' => exact absurd (same_type hd hd' ht ht') (by decide)
    | times hd' ht' => exact absurd (same_type hd hd' ht ht') (by decide)
    | dicts hd' ht' => exact absurd (same_type hd hd' ht ht') (by decide)
    | structs hd' ht' => exact absurd (same_type hd hd' ht ht') (by decide)
  | .struct hd ht hp hl hs, h' => by
    cases h' with
    | scalar hd' ht' hb' => exact absurd ((same_type hd hd' ht ht').symm ▸ hb') not_object
    | time hd' ht' => exact absurd (same_type hd hd' ht ht') (by decide)
    | dict hd' ht' hp' hl' =>
      obtain rfl := same_instance hd hd'
      obtain rfl := Option.some.inj (hp.symm.trans hp')
      obtain ⟨k, q, h⟩ := hl
      exact absurd h (hl' k q)
    | struct hd' ht' hp' hl' hs' =>
      obtain rfl := same_instance hd hd'
      obtain rfl := Option.some.inj (hp.symm.trans hp')
      rw [(structFor_unique hs hs').2]
      exact ⟨rfl, rfl⟩
    | scalars hd' ht' => exact absurd (same_type hd hd' ht ht') (by decide)
    | times hd' ht' => exact absurd (same_type hd hd' ht ht') (by decide)
    | dicts hd' ht' => exact absurd (same_type hd hd' ht ht') (by decide)
    | structs hd' ht' => exact absurd (same_type hd hd' ht ht') (by decide)
  | .scalars hd ht hi hj hjt hb hn, h' => by
    cases h' with
    | scalar hd' ht' hb' => exact absurd ((same_type hd hd' ht ht').symm ▸ hb') not_array
    | time hd' ht' => exact absurd (same_type hd hd' ht ht') (by decide)
    | dict hd' ht' => exact absurd (same_type hd hd' ht ht') (by decide)
    | struct hd' ht' => exact absurd (same_type hd hd' ht ht') (by decide)
    | scalars hd' ht' hi' hj' hjt' hb' =>
      obtain rfl := same_instance hd hd'
      obtain rfl := Option.some.inj (hi.symm.trans hi')
      obtain rfl := same_instance hj hj'
      obtain rfl := typeIs_unique hjt hjt'
      rw [scalar_fun hb hb']
      exact ⟨rfl, rfl⟩
    | times hd' ht' hi' hj' hjt' hf' =>
      obtain rfl := same_instance hd hd'
      obtain rfl := Option.some.inj (hi.symm.trans hi')
      obtain rfl := same_instance hj hj'
      exact absurd ⟨typeIs_unique hjt hjt', hf'⟩ hn
    | dicts hd' ht' hi' hj' hjt' =>
      obtain rfl := same_instance hd hd'
      obtain rfl := Option.some.inj (hi.symm.trans hi')
      exact absurd (same_type hj hj' hjt hjt' ▸ hb) not_object
    | structs hd' ht' hi' hj' hjt' =>
      obtain rfl := same_instance hd hd'
      obtain rfl := Option.some.inj (hi.symm.trans hi')
      exact absurd (same_type hj hj' hjt hjt' ▸ hb) not_object
  | .times hd ht hi hj hjt hf, h' => by
    cases h' with
    | scalar hd' ht' hb' => exact absurd ((same_type hd hd' ht ht').symm ▸ hb') not_array
    | time hd' ht' => exact absurd (same_type hd hd' ht ht') (by decide)
    | dict hd' ht' => exact absurd (same_type hd hd' ht ht') (by decide)
    | struct hd' ht' => exact absurd (same_type hd hd' ht ht') (by decide)
    | scalars hd' ht' hi' hj' hjt' hb' hn' =>
      obtain rfl := same_instance hd hd'
      obtain rfl := Option.some.inj (hi.symm.trans hi')
      obtain rfl := same_instance hj hj'
      exact absurd ⟨typeIs_unique hjt' hjt, hf⟩ hn'
    | times hd' ht' hi' hj' hjt' hf' =>
      obtain rfl := same_instance hd hd'
      exact ⟨rfl, rfl⟩
    | dicts hd' ht' hi' hj' hjt' =>
      obtain rfl := same_instance hd hd'
      obtain rfl := Option.some.inj (hi.symm.trans hi')
      exact absurd (same_type hj hj' hjt hjt') (by decide)
    | structs hd' ht' hi' hj' hjt' =>
      obtain rfl := same_instance hd hd'
      obtain rfl := Option.some.inj (hi.symm.trans hi')
      exact absurd (same_type hj hj' hjt hjt') (by decide)
  | .dicts hd ht hi hj hjt hp hl, h' => by
    cases h' with
    | scalar hd' ht' hb' => exact absurd ((same_type hd hd' ht ht').symm ▸ hb') not_array
    | time hd' ht' => exact absurd (same_type hd hd' ht ht') (by decide)
    | dict hd' ht' => exact absurd (same_type hd hd' ht ht') (by decide)
    | struct hd' ht' => exact absurd (same_type hd hd' ht ht') (by decide)
    | scalars hd' ht' hi' hj' hjt' hb' =>
      obtain rfl := same_instance hd hd'
      obtain rfl := Option.some.inj (hi.symm.trans hi')
      exact absurd ((same_type hj hj' hjt hjt').symm ▸ hb') not_object
    | times hd' ht' hi' hj' hjt' hf' =>
      obtain rfl := same_instance hd hd'
      obtain rfl := Option.some.inj (hi.symm.trans hi')
      exact absurd (same_type hj hj' hjt hjt') (by decide)
    | dicts hd' ht' hi' hj' hjt' =>
      obtain rfl := same_instance hd hd'
      exact ⟨rfl, rfl⟩
    | structs hd' ht' hi' hj' hjt' hp' hl' =>
      obtain rfl := same_instance hd hd'
      obtain rfl := Option.some.inj (hi.symm.trans hi')
      obtain rfl := same_instance hj hj'
      obtain rfl := Option.some.inj (hp.symm.trans hp')
      obtain ⟨k, q, h⟩ := hl'
      exact absurd h (hl k q)
  | .structs hd ht hi hj hjt hp hl hs, h' => by
    cases h' with
    | scalar hd' ht' hb' => exact absurd ((same_type hd hd' ht ht').symm ▸ hb') not_array
    | time hd' ht' => exact absurd (same_type hd hd' ht ht') (by decide)
    | dict hd' ht' => exact absurd (same_type hd hd' ht ht') (by decide)
    | struct hd' ht' => exact absurd (same_type hd hd' ht ht') (by decide)
    | scalars hd' ht' hi' hj' hjt' hb' =>
      obtain rfl := same_instance hd hd'
      obtain rfl := Option.some.inj (hi.symm.trans hi')
      exact absurd ((same_type hj hj' hjt hjt').symm ▸ hb') not_object
    | times hd' ht' hi' hj' hjt' hf' =>
      obtain rfl := same_instance hd hd'
      obtain rfl := Option.some.inj (hi.symm.trans hi')
      exact absurd (same_type hj hj' hjt hjt') (by decide)
    | dicts hd' ht' hi' hj' hjt' hp' hl' =>
      obtain rfl := same_instance hd hd'
      obtain rfl := Option.some.inj (hi.symm.trans hi')
      obtain rfl := same_instance hj hj'
      obtain rfl := Option.some.inj (hp.symm.trans hp')
      obtain ⟨k, q, h⟩ := hl
      exact absurd h (hl' k q)
    | structs hd' ht' hi' hj' hjt' hp' hl' hs' =>
      obtain rfl := same_instance hd hd'
      obtain rfl := Option.some.inj (hi.symm.trans hi')
      obtain rfl := same_instance hj hj'
      obtain rfl := Option.some.inj (hp.symm.trans hp')
      rw [(structFor_unique hs hs').2]
      exact ⟨rfl, rfl⟩
theorem structFor_unique {m : GMap P} {r ks ks' : List Str} {fs fs' : List Field} : StructFor title rename descTag pointers m r ks fs →
    StructFor title rename descTag pointers m r ks' fs' → ks = ks' ∧ fs = fs'
  | .mk h1 h2 h3, h' => by
    cases h' with
    | mk h1' h2' h3' =>
      obtain rfl : ks = ks' := Go.same_of_ordered h1 h1' fun k => (h2 k).trans (h2' k).symm
      exact ⟨rfl, fieldsFor_unique h3 h3'⟩
theorem fieldsFor_unique {m : GMap P} {r ks : List Str} {fs fs' : List Field} : FieldsFor title rename descTag pointers m r ks fs →
    FieldsFor title rename descTag pointers m r ks fs' → fs = fs'
  | .nil, h' => by cases h'; rfl
  | .cons hl hd ht hf, h' => by
    cases h' with
    | cons hl' hd' ht' hf' =>
      obtain rfl := Option.some.inj (hl.1.symm.trans hl'.1)
      obtain rfl := same_instance hd hd'
      obtain ⟨rfl, rfl⟩ := typeFor_unique ht ht'
      rw [fieldsFor_unique hf hf']
end

/-- The schema asks for these fields only. -/
theorem C93_struct {m : GMap P} {r ks ks' : List Str} {fs fs' : List Field} (h : StructFor title rename descTag pointers m r ks fs)
    (h' : StructFor title rename descTag pointers m r ks' fs') : fs = fs' := (structFor_unique h h').2

/-! ### Examples -/

/-- Names in ASCII that begin with an upper case letter. -/
theorem exported_name {n : Str} (h : Exported n) : Name u n := by
  obtain ⟨⟨c, t, rfl, hc⟩, h2⟩ := h
  have hl : isLetter u c = true := by simp [isLetter, Char.isAlpha, hc]
  refine ⟨⟨c, t, rfl, hl, fun x hx => ?_⟩, fun hk => ?_⟩
  · have := h2 x (by simp [hx])
    simp only [Char.isAlphanum, Bool.or_eq_true] at this
    simp only [isLetter, isDigit, Bool.or_eq_true]
    rcases this with (h | h) | h
    · exact .inl (.inl (.inl h))
    · exact .inr (.inl h)
    · exact .inl (.inl (.inr h))
  · have : ∀ k ∈ keywords, (k.headD 'a').isUpper = false := by decide
    rw [show c = (c :: t).headD 'a' from rfl, this _ hk] at hc
    cases hc

namespace C93ex
open C76ex Go.C81ex Toy

def ascii : Unicode := ⟨fun _ => false, fun _ => false⟩

theorem raw_of {k : Str} (h : (k.all fun c => c != '`' && c != '\r' && sourceChar c) = true) : RawText k := by
  intro c hc
  have := List.all_eq_true.1 h c hc
  simp only [Bool.and_eq_true, bne_iff_ne] at this
  exact ⟨this.1.1, this.1.2, this.2⟩

theorem names {m : GMap P} (h1 : ∀ kv ∈ m, (kv.1.all fun c => c != '`' && c != '\r' && sourceChar c) = true) (h2 : ∀ kv ∈ m, Exported (goName C56ex.capital [] kv.1))
    (h3 : ∀ kv ∈ m, ∀ kv' ∈ m, goName C56ex.capital [] kv.1 = goName C56ex.capital [] kv'.1 → kv.1 = kv'.1) : Names ascii C56ex.capital [] m :=
  ⟨fun k q h => raw_of (h1 (k, q) (GMap.get_some_mem h.1)), fun k q h => exported_name (h2 (k, q) (GMap.get_some_mem h.1)),
    fun k q k' q' h h' => h3 (k, q) (GMap.get_some_mem h.1) (k', q') (GMap.get_some_mem h'.1)⟩

theorem doc {b : Bool} {i : Instance} (h : i.description = []) : DocText b i := by
  unfold DocText
  split <;> intro c hc <;> rw [h] at hc <;> cases hc

theorem clean_int {b : Bool} : Clean ascii C56ex.capital [] b pInt := .leaf decoded.2.1 rfl (by decide) (doc rfl)
theorem clean_text {b : Bool} : Clean ascii C56ex.capital [] b pText := .leaf decoded.2.2.2.1 rfl (by decide) (doc rfl)

theorem clean_props : ∀ k q, (k, q) ∈ props → Clean ascii C56ex.capital [] false q := by
  refine cases_props ?_ ?_ ?_ ?_ ?_ ?_ ?_
  · exact .leaf decoded.2.2.1 rfl (by decide) (doc rfl)
  · exact .object decoded.2.2.2.2.2.1 rfl rfl (doc rfl) (names (by decide) (by decide) (by decide)) fun _ _ h => (nomatch h.1)
  · exact .object decoded.2.2.2.2.2.2 rfl rfl (doc rfl) (names (by decide +kernel) (by decide +kernel) (by decide +kernel)) fun _ _ h => (listed_one h).2 ▸ clean_int
  · exact clean_int
  · exact .leaf decoded.1 rfl (by decide) (doc rfl)
  · exact .array decoded.2.2.2.2.1 rfl rfl (doc rfl) clean_text
  · exact clean_text

theorem ascii_name {n : Str} (h : n ∉ keywords ∧ n ≠ [] ∧ (n.all fun c => c.isAlpha) = true) : Name ascii n := by
  obtain ⟨h1, h2, h3⟩ := h
  obtain ⟨c, t, rfl⟩ := List.exists_cons_of_ne_nil h2
  have ha : ∀ x ∈ c :: t, isLetter ascii x = true := fun x hx => by
    have := List.all_eq_true.1 h3 x hx
    simp [isLetter, this]
  exact ⟨⟨c, t, rfl, ha c (by simp), fun x hx => by rw [ha x (by simp [hx])]; rfl⟩, h1⟩

/-- A schema with properties of all types and an embedded struct meets the conditions. -/
example : Writable ascii C56ex.capital args schema props g!"things" g!"thing" [g!"Flags"] [g!"Flags"] ∧ Names ascii C56ex.capital args.fieldNames props ∧
    ∀ k q, Listed props k q → Clean ascii C56ex.capital args.fieldNames args.descTag q :=
  ⟨⟨rfl, rfl, rfl, by decide, C56ex.quiet (by decide +kernel), C56ex.one (by decide +kernel), C56ex.plain (by decide +kernel), .off rfl,
    ⟨g!"at", pTime, rfl, not_hydrated (by decide +kernel)⟩, ascii_name (by decide), exported_name (by decide),
    fun e he => by rw [List.mem_singleton.1 he]; exact exported_name (by decide)⟩,
    names (by decide +kernel) (by decide +kernel) (by decide +kernel), fun _ _ h => clean_props _ _ (listed h)⟩

/-- The text of the file for a schema. -/
def text (args : Args) (schema : Instance) : Option Str := match newGoFile Sched.id C56ex.capital args schema g!"thing" [] with
  | .ok g => some (fileSource g!"things" (g.text C56ex.capital args))
  | _ => none

/-- A number with a description. -/
def pDoc (d : Str) : P := o [(g!"type", s g!"integer"), (g!"description", s d)]
def docSchema (d : Str) : Instance := { Instance.zero with properties := some [(g!"n", pDoc d)] }
def tagArgs : Args := ⟨true, false, false, false, [], []⟩

/-- A description of two lines becomes two comments. -/
example : (text args (docSchema g!"one\ntwo")).bind (lex ascii) = some
    (File.toks ⟨g!"things", [notice], [], [structDecl g!"Thing" [] [.mk [g!" one", g!" two"] (some g!"N") (.name g!"int64") (some g!"json:\"n,omitempty\"")]]⟩) := by decide +kernel

/-- The first line of it goes to the tag. -/
example : (text tagArgs (docSchema g!"one\ntwo")).bind (lex ascii) = some
    (File.toks ⟨g!"things", [notice], [], [structDecl g!"Thing" [] [.mk [] (some g!"N") (.name g!"int64") (some g!"json:\"n,omitempty\" description:\"one\"")]]⟩) := by decide +kernel

theorem back_decoded : decodeInstance false (pDoc g!"a`b") = .ok { Instance.zero with type := [g!"integer"], description := g!"a`b" } := rfl

theorem back_text : (text tagArgs (docSchema g!"a`b")).isSome = true ∧ (text tagArgs (docSchema g!"a`b")).bind (lex ascii) = none := by decide +kernel

theorem back_writable : Writable ascii C56ex.capital tagArgs (docSchema g!"a`b") [(g!"n", pDoc g!"a`b")] g!"things" g!"thing" [] [] :=
  ⟨rfl, rfl, rfl, by decide, C56ex.quiet (by decide +kernel), C56ex.one (by decide +kernel), C56ex.plain (by decide +kernel), .off rfl,
    ⟨g!"n", pDoc g!"a`b", rfl, not_hydrated (by decide +kernel)⟩, ascii_name (by decide), exported_name (by decide), fun _ h => (nomatch h)⟩

/-- Lists of what is for GraphQL only are left out, but not their comments: these are then about the next property. -/
def strays : Instance := { Instance.zero with properties := some [(g!"a", o [(g!"type", s g!"array"), (g!"description", s g!"about a"), (g!"items", o [(g!"type", s g!"graphql-hydration")])]), (g!"b", pInt)] }

theorem stray_comment : (text args strays).bind (lex ascii) = some
    (File.toks ⟨g!"things", [notice], [], [structDecl g!"Thing" [] [.mk [g!" about a"] (some g!"B") (.name g!"int64") (some g!"json:\"b,omitempty\"")]]⟩) := by decide +kernel

end C93ex

/-- Without the conditions on texts the statement is false: a backquote in a description ends the tag, and the rest of the file is no Go source. -/
theorem C93_refuted : ∃ u title, ¬ C93_statement u title := by
  refine ⟨C93ex.ascii, C56ex.capital, fun h => ?_⟩
  have hd := h _ _ _ _ _ _ _ C93ex.back_writable
    (fun k q hl => (Go.C81ex.listed_one hl).1 ▸ exported_name (by decide))
    (fun k q k' q' hl hl' _ => (Go.C81ex.listed_one hl).1.trans (Go.C81ex.listed_one hl').1.symm)
    (fun k q hl => (Go.C81ex.listed_one hl).2 ▸ .leaf C93ex.back_decoded rfl (by decide))
  obtain ⟨_, _, _, _, _, hs⟩ := hd
  obtain ⟨g, hg, hl⟩ := hs Sched.id
  have := C93ex.back_text.2
  unfold C93ex.text at this
  rw [hg] at this
  simp only [Option.bind_some] at this
  rw [Source, this] at hl
  cases hl

end JT.GoText
