import Verif.Model.GoText
import Verif.Spec.GoText
import Verif.Proofs.AvroSchema
/- Reading the text of generated Go files. -/
namespace JT.GoText
open Gen Spec GoJson

variable {u : Unicode}

/-- Reading the text in the state gives the tokens and leads to the other state. -/
def Runs (u : Unicode) (st : St) (s : Str) (ts : List Tok) (st' : St) : Prop := run u st s = some (ts, st')

theorem Runs.nil (st : St) : Runs u st [] [] st := rfl

theorem Runs.cons {st st1 st2 : St} {c : Char} {s : Str} {ts us : List Tok} (h : step u st c = some (ts, st1)) (h' : Runs u st1 s us st2) :
    Runs u st (c :: s) (ts ++ us) st2 := by
  unfold Runs at *
  simp only [run, h, h']

theorem Runs.append {st st1 st2 : St} {a b : Str} {ts us : List Tok} (h : Runs u st a ts st1) (h' : Runs u st1 b us st2) : Runs u st (a ++ b) (ts ++ us) st2 := by
  induction a generalizing st ts with
  | nil => cases h; exact h'
  | cons c a ih =>
    unfold Runs at h
    simp only [run] at h
    split at h
    · cases h
    · rename_i ts1 stx hs
      split at h
      · cases h
      · rename_i us1 sty hr
        cases h
        rw [List.cons_append, List.append_assoc]
        exact .cons hs (ih hr)

/-- The letters of a word. -/
theorem runs_letters {r s : Str} (h : ∀ x ∈ s, (isLetter u x || isDigit u x) = true) : Runs u (.word r) s [] (.word (s.reverse ++ r)) := by
  induction s generalizing r with
  | nil => exact .nil _
  | cons c s ih =>
    have h1 : step u (.word r) c = some ([], .word (c :: r)) := by simp only [step]; rw [if_pos (h c (by simp))]
    have := Runs.cons h1 (ih (r := c :: r) fun x hx => h x (by simp [hx]))
    simpa using this

theorem letter_start {c : Char} (h : isLetter u c = true) (b : Bool) : step u (.start b) c = some ([], .word [c]) := by
  have key : ∀ d : Char, d.toNat < 128 → d.isAlpha = false → d ≠ '_' → c ≠ d := by
    rintro d h1 h2 h3 rfl
    simp only [isLetter, h2, Bool.false_or, Bool.or_eq_true, Bool.and_eq_true, beq_iff_eq, decide_eq_true_eq] at h
    rcases h with h | h
    · exact h3 h
    · omega
  simp only [step, stepStart, puncts, List.mem_cons, List.not_mem_nil, or_false]
  rw [if_neg (key _ (by decide) (by decide) (by decide)),
    if_neg (by rintro (h | h | h) <;> exact key _ (by decide) (by decide) (by decide) h), if_neg (key _ (by decide) (by decide) (by decide)),
    if_neg (key _ (by decide) (by decide) (by decide)), if_neg (key _ (by decide) (by decide) (by decide)),
    if_neg (by rintro (h | h | h | h | h | h | h | h | h | h) <;> exact key _ (by decide) (by decide) (by decide) h), if_pos h]

/-- A name and the white space after it. -/
theorem runs_name {n : Str} (h : Name u n) (b : Bool) {c : Char} (hc : c = '\t' ∨ c = ' ') : Runs u (.start b) (n ++ [c]) [.ident n] (.start true) := by
  obtain ⟨⟨d, t, rfl, h1, h2⟩, h3⟩ := h
  have hw := Runs.cons (letter_start h1 b) (runs_letters (r := [d]) h2)
  refine hw.append (ts := []) (us := [.ident (d :: t)]) ?_
  have hr : (t.reverse ++ [d]).reverse = d :: t := by simp
  have hn : (isLetter u c || isDigit u c) = false := by rcases hc with rfl | rfl <;> rfl
  refine (Runs.cons (ts := [.ident (d :: t)]) (us := []) (st1 := .start true) ?_ (.nil _))
  simp only [step, hn, hr, wordTok, wordSemi, h3]
  rcases hc with rfl | rfl <;> rfl

/-- A name at the end of a line. -/
theorem runs_name_line {n : Str} (h : Name u n) (b : Bool) : Runs u (.start b) (n ++ g!"\n") [.ident n, .punct ';'] (.start false) := by
  obtain ⟨⟨d, t, rfl, h1, h2⟩, h3⟩ := h
  have hw := Runs.cons (letter_start h1 b) (runs_letters (r := [d]) h2)
  refine hw.append (ts := []) (us := [.ident (d :: t), .punct ';']) ?_
  have hr : (t.reverse ++ [d]).reverse = d :: t := by simp
  have hn : (isLetter u '\n' || isDigit u '\n') = false := rfl
  refine (Runs.cons (ts := [.ident (d :: t), .punct ';']) (us := []) (st1 := .start false) ?_ (.nil _))
  simp only [step, hn, hr, wordTok, wordSemi, h3]
  rfl

theorem runs_comment_text {b : Bool} {r s : Str} (h : CommentText s) (hn : '\n' ∉ s) : Runs u (.comment b r) s [] (.comment b (s.reverse ++ r)) := by
  induction s generalizing r with
  | nil => exact .nil _
  | cons c s ih =>
    have h1 : step u (.comment b r) c = some ([], .comment b (c :: r)) := by
      simp only [step]
      rw [if_neg (show ¬ c = '\n' from fun e => hn (by simp [e])), if_neg (h c (by simp)).1, if_pos (h c (by simp)).2]
    have := Runs.cons h1 (ih (r := c :: r) (fun x hx => h x (by simp [hx])) fun h => hn (by simp [h]))
    simpa using this

/-- A line with a comment. -/
theorem runs_comment {s : Str} (h : CommentText s) (hn : '\n' ∉ s) (b : Bool) :
    Runs u (.start b) (g!"//" ++ s ++ g!"\n") (.comment s :: semiTok b) (.start false) := by
  have h1 : Runs u (.start b) g!"//" [] (.comment b []) := rfl
  refine (h1.append (runs_comment_text h hn)).append (ts := []) ?_
  refine Runs.cons (ts := .comment s :: semiTok b) (us := []) (st1 := .start false) ?_ (.nil _) |> fun h => by simpa using h
  simp [step]

theorem runs_raw_text {r s : Str} (h : RawText s) : Runs u (.raw r) s [] (.raw (s.reverse ++ r)) := by
  induction s generalizing r with
  | nil => exact .nil _
  | cons c s ih =>
    have h1 : step u (.raw r) c = some ([], .raw (c :: r)) := by
      simp only [step]
      rw [if_neg (h c (by simp)).1, if_neg (h c (by simp)).2.1, if_pos (h c (by simp)).2.2]
    have := Runs.cons h1 (ih (r := c :: r) (fun x hx => h x (by simp [hx])))
    simpa using this

/-- A string in backquotes at the end of a line. -/
theorem runs_raw {s : Str} (h : RawText s) (b : Bool) : Runs u (.start b) (g!"`" ++ s ++ g!"`\n") [.raw s, .punct ';'] (.start false) := by
  have h1 : Runs u (.start b) g!"`" [] (.raw []) := rfl
  refine (h1.append (runs_raw_text h)).append (ts := []) ?_
  refine Runs.cons (ts := [.raw s]) (us := [.punct ';']) (st1 := .start true) ?_ rfl
  simp [step]

/-- Tabs. -/
theorem runs_tabs {s : Str} (h : ∀ c ∈ s, c = '\t') (b : Bool) : Runs u (.start b) s [] (.start b) := by
  induction s with
  | nil => exact .nil _
  | cons c s ih =>
    have hc := h c (by simp)
    subst hc
    exact Runs.cons (ts := []) rfl (ih fun c hc => h c (by simp [hc]))

/-! ### Types -/

/-- The text of a type: a word after the signs for pointers and slices. -/
def signs (slice star : Bool) (word : Str) : Str := (if slice then g!"[]" else []) ++ ((if star then g!"*" else []) ++ word)

/-- The words for types. -/
def words : List (Str × Ty) :=
  [(g!"bool", .name g!"bool"), (g!"float64", .name g!"float64"), (g!"int64", .name g!"int64"), (g!"string", .name g!"string"), (g!"time.Time", .sel g!"time" g!"Time"),
   (g!"map[string]string", .map (.name g!"string") (.name g!"string"))]

/-- The type with pointers and slices. -/
def signed (slice star : Bool) (t : Ty) : Ty := if slice then .slice (if star then .star t else t) else if star then .star t else t

/-- The signs are tokens. -/
def signToks (slice star : Bool) : List Tok := (if slice then [.punct '[', .punct ']'] else []) ++ (if star then [.punct '*'] else [])

theorem signed_toks (slice star : Bool) (t : Ty) : (signed slice star t).toks = signToks slice star ++ t.toks := by
  cases slice <;> cases star <;> simp [signed, signToks, Ty.toks]

theorem runs_signs (slice star : Bool) (b : Bool) : ∃ b', Runs u (.start b) (signs slice star []) (signToks slice star) (.start b') := by
  cases slice <;> cases star
  · exact ⟨b, rfl⟩
  · exact ⟨false, rfl⟩
  · exact ⟨true, rfl⟩
  · exact ⟨false, rfl⟩

theorem signs_word (slice star : Bool) (w : Str) : signs slice star w = signs slice star [] ++ w := by simp [signs]

theorem runs_word {w : Str} {t : Ty} (h : (w, t) ∈ words) (b : Bool) : Runs u (.start b) (w ++ g!"\t") t.toks (.start true) := by
  simp only [words, List.mem_cons, Prod.mk.injEq, List.not_mem_nil, or_false] at h
  rcases h with ⟨rfl, rfl⟩ | ⟨rfl, rfl⟩ | ⟨rfl, rfl⟩ | ⟨rfl, rfl⟩ | ⟨rfl, rfl⟩ | ⟨rfl, rfl⟩ <;> rfl

/-- A type and the tab after it. -/
theorem runs_type {w : Str} {t : Ty} (h : (w, t) ∈ words) (slice star b : Bool) :
    Runs u (.start b) (signs slice star w ++ g!"\t") (signed slice star t).toks (.start true) := by
  obtain ⟨b', hb⟩ := runs_signs (u := u) slice star b
  rw [signs_word, signed_toks, List.append_assoc]
  exact hb.append (runs_word h b')

/-- The beginning of an inline struct. -/
theorem runs_struct (slice star b : Bool) :
    Runs u (.start b) (signs slice star g!"struct" ++ g!" {\n") (signToks slice star ++ [.keyword g!"struct", .punct '{']) (.start false) := by
  obtain ⟨b', hb⟩ := runs_signs (u := u) slice star b
  rw [signs_word, List.append_assoc]
  refine hb.append ?_
  rfl

/-! ### Lines -/

/-- The text of lines. -/
def textOf (l : List Line) : Str := l.flatMap Line.text

theorem textOf_append (a b : List Line) : textOf (a ++ b) = textOf a ++ textOf b := List.flatMap_append

theorem linesOf_eq (s : Str) : linesOf s = splitC '\n' s := by
  induction s with
  | nil => rfl
  | cons c s ih =>
    rw [linesOf, splitC, ih]
    rfl

theorem mem_splitC_no {c : Char} : ∀ {s l : Str}, l ∈ splitC c s → c ∉ l
  | [], l, h => by
    simp only [splitC, List.mem_singleton] at h
    subst h
    simp
  | x :: s, l, h => by
    rw [splitC] at h
    split at h
    · rcases List.mem_cons.1 h with rfl | h
      · simp
      · exact mem_splitC_no h
    · rename_i hx
      cases hs : splitC c s with
      | nil =>
        rw [hs] at h
        simp only [List.mem_singleton] at h
        subst h
        simpa using fun e => hx e.symm
      | cons p ps =>
        rw [hs] at h
        rcases List.mem_cons.1 h with rfl | h
        · have := mem_splitC_no (c := c) (s := s) (l := p) (by rw [hs]; simp)
          simp only [List.mem_cons, not_or]
          exact ⟨fun e => hx e.symm, this⟩
        · exact mem_splitC_no (c := c) (s := s) (by rw [hs]; simp [h])

theorem mem_splitC_sub {c : Char} : ∀ {s l : Str} {x : Char}, l ∈ splitC c s → x ∈ l → x ∈ s
  | [], l, x, h, hx => by
    simp only [splitC, List.mem_singleton] at h
    subst h
    exact hx
  | y :: s, l, x, h, hx => by
    rw [splitC] at h
    split at h
    · rcases List.mem_cons.1 h with rfl | h
      · cases hx
      · exact List.mem_cons_of_mem _ (mem_splitC_sub h hx)
    · cases hs : splitC c s with
      | nil =>
        rw [hs] at h
        simp only [List.mem_singleton] at h
        subst h
        simp only [List.mem_singleton] at hx
        simp [hx]
      | cons p ps =>
        rw [hs] at h
        rcases List.mem_cons.1 h with rfl | h
        · rcases List.mem_cons.1 hx with rfl | hx
          · simp
          · exact List.mem_cons_of_mem _ (mem_splitC_sub (c := c) (s := s) (l := p) (by rw [hs]; simp) hx)
        · exact List.mem_cons_of_mem _ (mem_splitC_sub (c := c) (s := s) (l := l) (by rw [hs]; simp [h]) hx)

theorem runs_comments {l : List Str} (h : ∀ s ∈ l, CommentText s ∧ '\n' ∉ s) :
    Runs u (.start false) (textOf (l.map Line.comment)) ((l.map (' ' :: ·)).map Tok.comment) (.start false) := by
  induction l with
  | nil => exact .nil _
  | cons s l ih =>
    obtain ⟨h1, h2⟩ := h s (by simp)
    have h3 := runs_comment (u := u) (s := ' ' :: s) (fun c hc => by
      rcases List.mem_cons.1 hc with rfl | hc
      · decide
      · exact h1 c hc) (by simpa using h2) false
    have := h3.append (ih fun s hs => h s (by simp [hs]))
    simpa [textOf, Line.text, semiTok] using this

/-- The comments for the description of a field. -/
theorem runs_doc {ef : EField} {descTag : Bool} (h : descTag = false → CommentText ef.description) :
    Runs u (.start false) (textOf (commentLines ef descTag)) ((docOf descTag ef.description).map Tok.comment) (.start false) := by
  unfold commentLines docOf
  by_cases hd : descTag = false ∧ ef.description ≠ []
  · rw [if_pos hd, if_neg (by simp [hd]), linesOf_eq]
    exact runs_comments fun s hs => ⟨fun c hc => h hd.1 c (mem_splitC_sub hs hc), mem_splitC_no hs⟩
  · rw [if_neg hd, if_pos (by
      cases descTag
      · right; simpa using hd
      · left; rfl)]
    exact .nil _

/-! ### Tags -/

theorem structTag_eq (ef : EField) (required descTag : Bool) (nested : GMap GStruct) :
    structTag ef required descTag nested = g!"`" ++ tagOf descTag ef.jsonName (omitOption ef required nested) ef.description ++ g!"`\n" := by
  rw [(Go.literal_spec ef required descTag nested).1]
  unfold Go.literal Go.descriptionPart tagOf
  split <;> simp only [List.cons_append, List.append_assoc, List.nil_append]

theorem rawText_append {a b : Str} (ha : RawText a) (hb : RawText b) : RawText (a ++ b) := fun c hc => by
  rcases List.mem_append.1 hc with h | h
  · exact ha c h
  · exact hb c h

instance (s : Str) : Decidable (RawText s) := inferInstanceAs (Decidable (∀ c ∈ s, _))

theorem tag_raw {descTag : Bool} {k opt d : Str} (hk : RawText k) (ho : RawText opt) (hd : descTag = true → RawText (firstLine d)) : RawText (tagOf descTag k opt d) := by
  unfold tagOf
  refine rawText_append (rawText_append (rawText_append (rawText_append (by decide) hk) ho) (by decide)) ?_
  split
  · rename_i h
    exact rawText_append (rawText_append (by decide) (hd h.1)) (by decide)
  · intro c hc; cases hc

theorem omit_raw (ef : EField) (required : Bool) (nested : GMap GStruct) : RawText (omitOption ef required nested) := by
  rcases Go.omit_quiet ef required nested with ⟨e, -⟩ | ⟨e, -⟩ | ⟨e, -⟩ <;> rw [e] <;> decide

/-- The tag at the end of a line. -/
theorem runs_tag {ef : EField} {descTag : Bool} (required : Bool) (nested : GMap GStruct) (hk : RawText ef.jsonName) (hd : descTag = true → RawText (firstLine ef.description))
    (b : Bool) : Runs u (.start b) (structTag ef required descTag nested) [.raw (tagOf descTag ef.jsonName (omitOption ef required nested) ef.description), .punct ';'] (.start false) := by
  rw [structTag_eq]
  exact runs_raw (tag_raw hk (omit_raw _ _ _) hd) b

/-! ### Fields -/

/-- Tabs only. -/
def Tabs (s : Str) : Prop := ∀ c ∈ s, c = '\t'

theorem Tabs.more {s : Str} (h : Tabs s) : Tabs (s ++ g!"\t") := fun c hc => by
  rcases List.mem_append.1 hc with hc | hc
  · exact h c hc
  · simpa using hc

/-- The lines written for a field are its declaration. -/
def Writes (u : Unicode) (descTag pointers : Bool) (exclude : List Str) (nested : GMap GStruct) (required : Bool) (f : EField) (F : Field) : Prop :=
  ∀ ind, Tabs ind → Runs u (.start false) (textOf (f.lines descTag pointers exclude nested ind required)) F.toks (.start false)

variable {descTag pointers required : Bool} {exclude : List Str} {nested : GMap GStruct}

theorem textOf_cons (x : Line) (l : List Line) : textOf (x :: l) = x.text ++ textOf l := rfl

/-- The lines of a field on a single line. -/
theorem lines_plain {f : EField} {ind : Str} (hx : goType f required pointers nested ∉ exclude) (hsl : goType f required pointers nested ≠ g!"[]")
    (hfs : f.fields = none ∨ f.fields = some [] ∨ f.jsonType ≠ g!"object") : f.lines descTag pointers exclude nested ind required =
      commentLines f descTag ++ [.field ind f.name (goType f required pointers nested) (structTag f required descTag nested)] := by
  obtain ⟨a, d, fs, j, t, n, u, r⟩ := f
  cases fs with
  | none =>
    simp only [EField.lines]
    rw [if_neg (by simp only [not_or]; exact ⟨hx, hsl⟩)]
  | some fs =>
    simp only [EField.lines]
    rw [if_neg (by simp only [not_or]; exact ⟨hx, hsl⟩), if_pos]
    rcases hfs with h | h | h
    · cases h
    · right
      simp only [Option.some.injEq] at h
      simp [h]
    · exact .inl h

/-- A field on a single line. -/
theorem writes_plain {f : EField} {t : Ty} (hn : Name u f.name) (hk : RawText f.jsonName) (hd : descTag = true → RawText (firstLine f.description))
    (hc : descTag = false → CommentText f.description) (hw : ∀ b, Runs u (.start b) (goType f required pointers nested ++ g!"\t") t.toks (.start true))
    (hx : goType f required pointers nested ∉ exclude) (hsl : goType f required pointers nested ≠ g!"[]")
    (hfs : f.fields = none ∨ f.fields = some [] ∨ f.jsonType ≠ g!"object") :
    Writes u descTag pointers exclude nested required f
      (.mk (docOf descTag f.description) (some f.name) t (some (tagOf descTag f.jsonName (omitOption f required nested) f.description))) := by
  intro ind hind
  rw [lines_plain hx hsl hfs, textOf_append]
  rw [Field.toks]
  refine (runs_doc hc).append ?_
  rw [show textOf [Line.field ind f.name (goType f required pointers nested) (structTag f required descTag nested)] =
    ind ++ ((f.name ++ ['\t']) ++ ((goType f required pointers nested ++ g!"\t") ++ structTag f required descTag nested)) from by simp [textOf, Line.text]]
  exact (runs_tabs hind false).append ((runs_name hn false (.inl rfl)).append ((hw true).append (runs_tag required nested hk hd true)))

/-- A field with an inline struct. -/
theorem writes_struct {a : Bool} {d : Str} {fs : List (Str × EField)} {j n : Str} {nu : Bool} {r : List Str} {Fs : List Field} {sl st : Bool}
    (hn : Name u n) (hk : RawText j) (hd : descTag = true → RawText (firstLine d)) (hc : descTag = false → CommentText d) (hne : fs ≠ [])
    (hty : goType ⟨a, d, some fs, j, g!"object", n, nu, r⟩ required pointers nested = signs sl st g!"struct")
    (hx : goType ⟨a, d, some fs, j, g!"object", n, nu, r⟩ required pointers nested ∉ exclude)
    (hbody : ∀ ind, Tabs ind → Runs u (.start false) (textOf (sortedByName (linesAll descTag pointers exclude nested ind r fs)).flatten) (fieldsToks Fs) (.start false)) :
    Writes u descTag pointers exclude nested required ⟨a, d, some fs, j, g!"object", n, nu, r⟩
      (.mk (docOf descTag d) (some n) (signed sl st (.struct Fs)) (some (tagOf descTag j (omitOption ⟨a, d, some fs, j, g!"object", n, nu, r⟩ required nested) d))) := by
  intro ind hind
  have hlen : fs.length ≠ 0 := by simpa using hne
  have hsl : goType ⟨a, d, some fs, j, g!"object", n, nu, r⟩ required pointers nested ≠ g!"[]" := by
    rw [hty]; cases sl <;> cases st <;> decide
  have hlines : EField.lines descTag pointers exclude nested ind required ⟨a, d, some fs, j, g!"object", n, nu, r⟩ =
      commentLines ⟨a, d, some fs, j, g!"object", n, nu, r⟩ descTag ++
      .open ind n (goType ⟨a, d, some fs, j, g!"object", n, nu, r⟩ required pointers nested) ::
        ((sortedByName (linesAll descTag pointers exclude nested (ind ++ g!"\t") r fs)).flatten ++
          [.close ind (structTag ⟨a, d, some fs, j, g!"object", n, nu, r⟩ required descTag nested)]) := by
    simp only [EField.lines]
    rw [if_neg (by simp only [not_or]; exact ⟨hx, hsl⟩), if_neg (by simp [hlen])]
  rw [hlines, textOf_append, Field.toks]
  refine (runs_doc hc).append ?_
  rw [textOf_cons, textOf_append]
  have htag := runs_tag (u := u) (ef := ⟨a, d, some fs, j, g!"object", n, nu, r⟩) required nested hk hd true
  have hopen : Runs u (.start false) (Line.open ind n (goType ⟨a, d, some fs, j, g!"object", n, nu, r⟩ required pointers nested)).text
      (.ident n :: (signToks sl st ++ [.keyword g!"struct", .punct '{'])) (.start false) := by
    rw [hty, show (Line.open ind n (signs sl st g!"struct")).text = ind ++ ((n ++ ['\t']) ++ (signs sl st g!"struct" ++ g!" {\n")) from by simp [Line.text]]
    exact (runs_tabs hind false).append ((runs_name hn false (.inl rfl)).append (runs_struct sl st true))
  have hclose : Runs u (.start false) (textOf [.close ind (structTag ⟨a, d, some fs, j, g!"object", n, nu, r⟩ required descTag nested)])
      [.punct '}', .raw (tagOf descTag j (omitOption ⟨a, d, some fs, j, g!"object", n, nu, r⟩ required nested) d), .punct ';'] (.start false) := by
    rw [show textOf [Line.close ind (structTag ⟨a, d, some fs, j, g!"object", n, nu, r⟩ required descTag nested)] =
      ind ++ (g!"\t}\t" ++ structTag ⟨a, d, some fs, j, g!"object", n, nu, r⟩ required descTag nested) from by simp [textOf, Line.text]]
    refine (runs_tabs hind false).append (ts := []) (Runs.append (ts := [.punct '}']) rfl htag)
  have := hopen.append ((hbody _ hind.more).append hclose)
  rw [signed_toks]
  simpa [nameTok, tagTok, Ty.toks] using this

theorem fieldsToks_map {α : Type} (S : α → Field) (l : List α) : fieldsToks (l.map S) = l.flatMap fun x => (S x).toks := by
  induction l with
  | nil => rfl
  | cons x l ih => rw [List.map_cons, fieldsToks, ih]; rfl

/-- Fields one after the other. -/
theorem writes_all {α : Type} {S : α → Field} {L : α → List Line} : ∀ (ord : List α), (∀ x ∈ ord, Runs u (.start false) (textOf (L x)) (S x).toks (.start false)) →
    Runs u (.start false) (textOf (ord.map L).flatten) (fieldsToks (ord.map S)) (.start false) := by
  intro ord
  induction ord with
  | nil => intro _; exact .nil _
  | cons x ord ih =>
    intro h
    rw [List.map_cons, List.map_cons, List.flatten_cons, textOf_append, fieldsToks]
    exact (h x (by simp)).append (ih fun y hy => h y (by simp [hy]))

end JT.GoText
