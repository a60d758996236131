import Verif.Proofs.GqlText
import Verif.Spec.GqlMeans
/- Reading the texts that generate/graphql.go writes. -/
namespace JT.GqlText
open Spec Gql
open JT.Go (quote quoteChar)

/-- Reading a text gives tokens and leads from one place to another. -/
def Reads (st : St) (s : Str) (ts : List Tok) (st' : St) : Prop := run st s = some (ts, st')

theorem Reads.nil (st : St) : Reads st [] [] st := rfl

theorem Reads.cons {st st' st'' : St} {c : Char} {cs : Str} {ts us : List Tok} (h : step st c = some (ts, st')) (h' : Reads st' cs us st'') :
    Reads st (c :: cs) (ts ++ us) st'' := by
  unfold Reads at *
  simp only [run, h, h']

theorem Reads.append : ∀ {s s' : Str} {st st' st'' : St} {ts us : List Tok}, Reads st s ts st' → Reads st' s' us st'' → Reads st (s ++ s') (ts ++ us) st''
  | [], s', st, st', st'', ts, us, h, h' => by
    cases h
    exact h'
  | c :: cs, s', st, st', st'', ts, us, h, h' => by
    unfold Reads at h
    simp only [run] at h
    split at h
    · cases h
    · rename_i ts1 st1 h1
      split at h
      · cases h
      · rename_i us1 st2 h2
        cases h
        rw [List.append_assoc]
        exact Reads.cons h1 (Reads.append h2 h')

/-- From between tokens to between tokens. -/
abbrev Whole (s : Str) (ts : List Tok) : Prop := Reads .start s ts .start

theorem Whole.append {s s' : Str} {ts us : List Tok} (h : Whole s ts) (h' : Whole s' us) : Whole (s ++ s') (ts ++ us) := Reads.append h h'

theorem Whole.lex {s : Str} {ts : List Tok} (h : Whole s ts) : lex s = some ts := by
  have h : run .start s = some (ts, .start) := h
  simp [GqlText.lex, h, finish]

theorem Whole.flatMap {α : Type} {f : α → Str} {g : α → List Tok} : ∀ {l : List α}, (∀ a ∈ l, Whole (f a) (g a)) → Whole (l.flatMap f) (l.flatMap g)
  | [], _ => rfl
  | a :: l, h => by
    rw [List.flatMap_cons, List.flatMap_cons]
    exact (h a (by simp)).append (Whole.flatMap fun b hb => h b (by simp [hb]))

/-- White space in front. -/
theorem reads_space {c : Char} {s : Str} {ts : List Tok} {st : St} (hc : c ∈ ignored) (h : Reads .start s ts st) : Reads .start (c :: s) ts st :=
  Reads.cons (ts := []) (by simp [step, stepStart, hc]) h

/-- A punctuator in front. -/
theorem reads_punct {c : Char} {s : Str} {ts : List Tok} {st : St} (hc : c ∈ puncts) (h : Reads .start s ts st) : Reads .start (c :: s) (.punct c :: ts) st := by
  refine Reads.cons (ts := [.punct c]) ?_ h
  have h1 : c ∉ ignored := by revert c; decide
  have h2 : c ≠ '#' ∧ c ≠ '"' := by revert c; decide
  simp only [step, stepStart, if_neg h1, if_neg h2.1, if_neg h2.2, if_pos hc]

theorem reads_letters : ∀ {cs : Str} {r : Str}, (∀ d ∈ cs, nameRest d = true) → Reads (.name r) cs [] (.name (cs.reverse ++ r))
  | [], r, _ => rfl
  | c :: cs, r, h => by
    have := reads_letters (cs := cs) (r := c :: r) fun d hd => h d (by simp [hd])
    rw [List.reverse_cons, List.append_assoc]
    exact Reads.cons (ts := []) (by simp [step, h c]) this

theorem start_letter {c : Char} (h : nameStart c = true) : stepStart c = some ([], .name [c]) := by
  have h1 : c ∉ ignored := by rintro hc; simp only [ignored, List.mem_cons, List.not_mem_nil, or_false] at hc; rcases hc with rfl | rfl | rfl | rfl | rfl <;> exact absurd h (by decide)
  have h2 : c ∉ puncts := by
    rintro hc; simp only [puncts, List.mem_cons, List.not_mem_nil, or_false] at hc
    rcases hc with rfl | rfl | rfl | rfl | rfl | rfl | rfl | rfl | rfl | rfl | rfl | rfl | rfl <;> exact absurd h (by decide)
  have h3 : c ≠ '#' := by rintro rfl; exact absurd h (by decide)
  have h4 : c ≠ '"' := by rintro rfl; exact absurd h (by decide)
  simp only [stepStart, if_neg h1, if_neg h2, if_neg h3, if_neg h4, if_pos h]

theorem reads_name {n : Str} (hn : GqlName n) : Reads .start n [] (.name n.reverse) := by
  obtain ⟨h1, h2⟩ := hn
  rename_i c cs
  refine Reads.cons (ts := []) (start_letter h1) ?_
  rw [List.reverse_cons]
  exact reads_letters h2

/-- A name in front of something that is not part of it. -/
theorem reads_name_then {n s : Str} {c : Char} {ts : List Tok} {st : St} (hn : GqlName n) (hc : nameRest c = false) (h : Reads .start (c :: s) ts st) :
    Reads .start (n ++ c :: s) (.name n :: ts) st := by
  have h1 := reads_name hn
  refine h1.append (us := .name n :: ts) ?_
  unfold Reads at h ⊢
  simp only [run, step] at h ⊢
  rw [if_neg (by rw [hc]; decide)]
  split at h
  · cases h
  · rename_i ts1 st1 h1
    rw [h1]
    simp only [Option.map_some, List.reverse_reverse]
    split at h
    · cases h
    · rename_i us1 st2 h2
      cases h
      rfl

/-! ### Types -/

theorem reads_bang {b : Bool} {s : Str} {ts : List Tok} {st : St} (h : Reads .start s ts st) : Reads .start ((if b then ['!'] else []) ++ s) (nonNullTok b ++ ts) st := by
  cases b
  · exact h
  · exact reads_punct (by decide) h

/-- A type in front of something that is not part of a name. -/
theorem reads_type_then : ∀ {t : GType} {s : Str} {c : Char} {ts : List Tok} {st : St}, t.Named → nameRest c = false → Reads .start (c :: s) ts st →
    Reads .start (t.text ++ c :: s) (t.toks ++ ts) st
  | .named n b, s, c, ts, st, hn, hc, h => by
    cases b
    · simpa [GType.text, GType.toks, nonNullTok] using reads_name_then hn hc h
    · simpa [GType.text, GType.toks, nonNullTok] using reads_name_then hn (c := '!') (by decide) (reads_punct (by decide) h)
  | .list t b, s, c, ts, st, hn, hc, h => by
    have h1 : Reads .start (']' :: ((if b then ['!'] else []) ++ c :: s)) (.punct ']' :: (nonNullTok b ++ ts)) st := reads_punct (by decide) (reads_bang h)
    have h2 := reads_punct (c := '[') (by decide) (reads_type_then (t := t) hn (by decide) h1)
    simpa [GType.text, GType.toks] using h2

/-! ### Strings -/

theorem shown_source {isPrint : Char → Bool} {c : Char} (h : Shown isPrint c) : sourceChar c = true ∧ c ≠ '\n' ∧ c ≠ '\r' := by
  have h20 : 0x20 ≤ c.toNat := by rcases h with h | h <;> omega
  refine ⟨by simp [sourceChar, h20], ?_, ?_⟩ <;> rintro rfl <;> exact absurd h20 (by decide)

theorem reads_quoted {isPrint : Char → Bool} : ∀ {s : Str} {r : Str}, (∀ c ∈ s, Shown isPrint c) →
    Reads (.str r) (s.flatMap (quoteChar isPrint)) [] (.str (s.reverse ++ r))
  | [], r, _ => rfl
  | c :: s, r, h => by
    have ih := reads_quoted (s := s) (r := c :: r) fun d hd => h d (by simp [hd])
    rw [List.flatMap_cons, List.reverse_cons, List.append_assoc]
    refine Reads.append (ts := []) (st' := .str (c :: r)) ?_ ih
    obtain ⟨hs, hn, hr⟩ := shown_source (h c (by simp))
    unfold quoteChar
    split
    · rename_i hq
      refine Reads.cons (ts := []) (st' := .esc r) ?_ (Reads.cons (ts := []) (st' := .str (c :: r)) ?_ (Reads.nil _))
      · simp [step, stepStr]
      · rcases hq with rfl | rfl <;> simp [step, stepEsc]
    · rename_i hq
      have hh := h c (by simp)
      unfold Shown at hh
      rw [if_pos hh]
      refine Reads.cons (ts := []) ?_ (Reads.nil _)
      simp only [not_or] at hq
      simp [step, stepStr, hq.1, hq.2, hn, hr, hs]

/-- A string in quotes, in front of something else. -/
theorem reads_string_then {w s rest : Str} {c : Char} {ts : List Tok} {st : St} (h : Reads (.str []) w [] (.str s.reverse)) (hw : w.head? ≠ some '"') (he : w = [] → s = [])
    (hc : c ≠ '"') (hr : Reads .start (c :: rest) ts st) : Reads .start ('"' :: (w ++ '"' :: c :: rest)) (.str s :: ts) st := by
  refine Reads.cons (ts := []) (st' := .open1) rfl ?_
  cases w with
  | nil =>
    rw [he rfl]
    refine Reads.cons (ts := []) (st' := .open2) rfl ?_
    unfold Reads at hr ⊢
    simp only [run, step] at hr ⊢
    rw [if_neg hc]
    split at hr
    · cases hr
    · rename_i ts1 st1 h1
      rw [h1]
      simp only [Option.map_some]
      split at hr
      · cases hr
      · cases hr
        rfl
  | cons a w =>
    have ha : a ≠ '"' := fun e => hw (by rw [e]; rfl)
    have h1 : Reads .open1 (a :: w) [] (.str s.reverse) := by
      unfold Reads at h ⊢
      simp only [run, step] at h ⊢
      rw [if_neg ha]
      exact h
    refine h1.append (us := .str s :: ts) (Reads.cons (ts := [.str s]) (st' := .start) ?_ hr)
    simp [step, stepStr]

theorem head_ite {p : Prop} [Decidable p] {a b : Str} (ha : ∃ d r, a = d :: r ∧ d ≠ '"') (hb : ∃ d r, b = d :: r ∧ d ≠ '"') :
    ∃ d r, (if p then a else b) = d :: r ∧ d ≠ '"' := by
  split <;> assumption

theorem quoteChar_head (isPrint : Char → Bool) (c : Char) : ∃ d r, quoteChar isPrint c = d :: r ∧ d ≠ '"' := by
  have hb : ∀ r, ∃ d s, '\\' :: r = d :: s ∧ d ≠ '"' := fun r => ⟨_, _, rfl, by decide⟩
  unfold quoteChar
  by_cases h : c = '"' ∨ c = '\\'
  · rw [if_pos h]; exact hb _
  · rw [if_neg h]
    simp only [not_or] at h
    refine head_ite ⟨_, _, rfl, h.1⟩ ?_
    exact head_ite (hb _) (head_ite (hb _) (head_ite (hb _) (head_ite (hb _) (head_ite (hb _) (head_ite (hb _) (head_ite (hb _) (head_ite (hb _) (head_ite (hb _) (hb _)))))))))

/-- A string that Go quotes, in front of something else. -/
theorem reads_quote_then {isPrint : Char → Bool} {s rest : Str} {c : Char} {ts : List Tok} {st : St} (h : ∀ c ∈ s, Shown isPrint c) (hc : c ≠ '"')
    (hr : Reads .start (c :: rest) ts st) : Reads .start (quote isPrint s ++ c :: rest) (.str s :: ts) st := by
  have h1 := reads_string_then (w := s.flatMap (quoteChar isPrint)) (s := s) (by simpa using reads_quoted (r := []) h) ?_ ?_ hc hr
  · simpa [quote] using h1
  · cases s with
    | nil => simp
    | cons a s =>
      obtain ⟨d, r, e, hd⟩ := quoteChar_head isPrint a
      simpa [e] using hd
  · cases s with
    | nil => simp
    | cons a s =>
      obtain ⟨d, r, e, hd⟩ := quoteChar_head isPrint a
      simp [e]

/-! ### Descriptions -/

theorem reads_plain : ∀ {d : Str} {r : Str}, (∀ c ∈ d, sourceChar c = true ∧ c ≠ '\n' ∧ c ≠ '\r' ∧ c ≠ '"' ∧ c ≠ '\\') → Reads (.str r) d [] (.str (d.reverse ++ r))
  | [], r, _ => rfl
  | c :: d, r, h => by
    have ih := reads_plain (d := d) (r := c :: r) fun x hx => h x (by simp [hx])
    rw [List.reverse_cons, List.append_assoc]
    obtain ⟨h1, h2, h3, h4, h5⟩ := h c (by simp)
    exact Reads.cons (ts := []) (by simp [step, stepStr, h1, h2, h3, h4, h5]) ih

/-- One line as a description, in front of something else. -/
theorem reads_single_then {d rest : Str} {c : Char} {ts : List Tok} {st : St} (hd : Describable d) (hn : '\n' ∉ d) (hc : c ≠ '"')
    (hr : Reads .start (c :: rest) ts st) : Reads .start ('"' :: (d ++ '"' :: c :: rest)) (.str d :: ts) st := by
  obtain ⟨h1, h2⟩ := hd.single hn
  have hpl := reads_plain (d := d) (r := []) ?_
  · refine reads_string_then (by simpa using hpl) ?_ id hc hr
    intro e
    exact h1 (List.mem_of_mem_head? e)
  · intro x hx
    refine ⟨?_, fun e => hn (e ▸ hx), ?_, fun e => h1 (e ▸ hx), fun e => h2 (e ▸ hx)⟩
    · rcases hd.chars x hx with h | rfl | rfl
      · simp [sourceChar, h]
      · rfl
      · rfl
    · rintro rfl
      exact absurd (hd.chars _ hx) (by decide)

/-! Block strings. -/

theorem lines_cons {c : Char} {cs : Str} (hr : c ≠ '\r') : lines (c :: cs) = if c = '\n' then [] :: lines cs else match lines cs with
    | [] => [[c]]
    | p :: ps => (c :: p) :: ps := by
  rw [lines]
  · simp only [hr, or_false]
    split
    · rfl
    · cases lines cs <;> rfl
  · rintro cs' rfl; exact absurd rfl hr

theorem lines_line : ∀ {l rest : Str}, (∀ c ∈ l, c ≠ '\n' ∧ c ≠ '\r') → lines (l ++ '\n' :: rest) = l :: lines rest
  | [], rest, _ => by rw [List.nil_append, lines_cons (by decide), if_pos rfl]
  | c :: l, rest, h => by
    obtain ⟨h1, h2⟩ := h c (by simp)
    rw [List.cons_append, lines_cons h2, if_neg h1, lines_line fun d hd => h d (by simp [hd])]

theorem lines_last : ∀ {l : Str}, (∀ c ∈ l, c ≠ '\n' ∧ c ≠ '\r') → lines l = [l]
  | [], _ => rfl
  | c :: l, h => by
    obtain ⟨h1, h2⟩ := h c (by simp)
    rw [lines_cons h2, if_neg h1, lines_last fun d hd => h d (by simp [hd])]

theorem lines_all : ∀ {ls : List Str} {last : Str}, (∀ l ∈ ls, ∀ c ∈ l, c ≠ '\n' ∧ c ≠ '\r') → (∀ c ∈ last, c ≠ '\n' ∧ c ≠ '\r') →
    lines (ls.flatMap (fun l => l ++ g!"\n") ++ last) = ls ++ [last]
  | [], last, _, h => lines_last h
  | l :: ls, last, h, h' => by
    rw [List.flatMap_cons, List.append_assoc, List.append_assoc, show g!"\n" ++ (ls.flatMap (fun l => l ++ g!"\n") ++ last) =
      '\n' :: (ls.flatMap (fun l => l ++ g!"\n") ++ last) from rfl, lines_line (h l (by simp)), lines_all (fun l hl => h l (by simp [hl])) h']
    rfl

/-- A line with a prefix, if it is not empty. -/
def prefixed (pre l : Str) : Str := if l ≠ [] then pre ++ l else []

def Blanks (pre : Str) : Prop := ∀ c ∈ pre, c = ' '

theorem blank_prefixed {pre : Str} (hp : Blanks pre) (l : Str) : blank (prefixed pre l) = blank l := by
  unfold prefixed
  split
  · have : pre.all (fun c => c == ' ' || c == '\t') = true := List.all_eq_true.2 fun c hc => by rw [hp c hc]; rfl
    simp only [blank, List.all_append, this, Bool.true_and]
  · simp_all

theorem blank_pre {pre : Str} (hp : Blanks pre) : blank pre = true := List.all_eq_true.2 fun c hc => by rw [hp c hc]; rfl

theorem indent_prefixed : ∀ {pre : Str}, Blanks pre → ∀ l : Str, indent (pre ++ l) = pre.length + indent l
  | [], _, l => by simp
  | c :: pre, hp, l => by
    have hc := hp c (by simp)
    subst hc
    have ih := indent_prefixed (pre := pre) (fun d hd => hp d (by simp [hd])) l
    unfold indent at ih ⊢
    rw [List.cons_append, List.takeWhile_cons_of_pos (by rfl), List.length_cons, ih, List.length_cons]
    omega

theorem margin_prefixed {pre : Str} (hp : Blanks pre) : ∀ ls : List Str, margin (ls.map (prefixed pre)) = (margin ls).map (pre.length + ·)
  | [] => rfl
  | l :: ls => by
    simp only [List.map_cons, margin, blank_prefixed hp, margin_prefixed hp ls]
    split
    · rfl
    · rename_i hb
      have hl : l ≠ [] := by rintro rfl; exact hb rfl
      have hi : indent (prefixed pre l) = pre.length + indent l := by rw [prefixed, if_pos hl, indent_prefixed hp]
      cases hm : margin ls with
      | none => simp [hi]
      | some n => simp [hi]

theorem margin_snoc {b : Str} (hb : blank b = true) : ∀ ls : List Str, margin (ls ++ [b]) = margin ls
  | [] => by simp [margin, hb]
  | l :: ls => by simp only [List.cons_append, margin, margin_snoc hb ls]

theorem margin_none : ∀ {ls : List Str}, margin ls = none → ∀ l ∈ ls, blank l = true
  | [], _, l, hl => nomatch hl
  | a :: ls, h, l, hl => by
    simp only [margin] at h
    split at h
    · rename_i ha
      rcases List.mem_cons.1 hl with rfl | hl
      · exact ha
      · exact margin_none h l hl
    · cases h

theorem trimBlank_all {ls : List Str} (h : ∀ l ∈ ls, blank l = true) : trimBlank ls = [] := by
  have : ls.dropWhile blank = [] := by
    induction ls with
    | nil => rfl
    | cons a ls ih => rw [List.dropWhile_cons_of_pos (h a (by simp))]; exact ih fun l hl => h l (by simp [hl])
  simp [trimBlank, this]

theorem dropWhile_snoc {b : Str} (hb : blank b = true) : ∀ ls : List Str, (ls ++ [b]).dropWhile blank = ls.dropWhile blank ++ (if ls.dropWhile blank = [] then [] else [b])
  | [] => by simp [hb]
  | a :: ls => by
    by_cases ha : blank a = true
    · rw [List.cons_append, List.dropWhile_cons_of_pos ha, List.dropWhile_cons_of_pos ha, dropWhile_snoc hb ls]
    · rw [List.cons_append, List.dropWhile_cons_of_neg ha, List.dropWhile_cons_of_neg ha, if_neg (by simp)]
      rfl

theorem trimBlank_snoc {b : Str} (hb : blank b = true) (ls : List Str) : trimBlank (ls ++ [b]) = trimBlank ls := by
  unfold trimBlank
  rw [dropWhile_snoc hb]
  split
  · simp
  · rw [List.reverse_append]
    simp [hb]

theorem dedent_prefixed {pre : Str} (hp : Blanks pre) (ls : List Str) : trimBlank (dedent (ls.map (prefixed pre) ++ [pre])) = trimBlank (dedent ls) := by
  have hm : margin (ls.map (prefixed pre) ++ [pre]) = (margin ls).map (pre.length + ·) := by rw [margin_snoc (blank_pre hp), margin_prefixed hp]
  unfold dedent
  rw [hm]
  cases h : margin ls with
  | none =>
    have hb := margin_none h
    simp only [Option.map_none]
    rw [trimBlank_all hb, trimBlank_all]
    intro l hl
    rcases List.mem_append.1 hl with hl | hl
    · obtain ⟨l', hl', rfl⟩ := List.mem_map.1 hl
      rw [blank_prefixed hp, hb l' hl']
    · rw [List.mem_singleton.1 hl, blank_pre hp]
  | some n =>
    simp only [Option.map_some, List.map_append, List.map_map, List.map_cons, List.map_nil]
    rw [show pre.drop (pre.length + n) = [] from List.drop_eq_nil_of_le (by omega), trimBlank_snoc rfl]
    congr 1
    apply List.map_congr_left
    intro l _
    simp only [Function.comp, prefixed]
    split
    · rw [← List.drop_drop, List.drop_left]
    · simp_all

/-- Reading text of a block string without three quotes. -/
theorem reads_block : ∀ {d r : Str} {q : Nat}, (∀ c ∈ d, sourceChar c = true) → ¬ g!"\"\"\"" <:+: List.replicate q '"' ++ d → q ≤ 2 →
    ∃ r' q', Reads (.block r q) d [] (.block r' q') ∧ List.replicate q' '"' ++ r' = d.reverse ++ (List.replicate q '"' ++ r)
  | [], r, q, _, _, _ => ⟨r, q, rfl, rfl⟩
  | c :: d, r, q, hs, hq, hq2 => by
    by_cases hc : c = '"'
    · subst hc
      have hlt : q < 2 := by
        rcases Nat.lt_or_ge q 2 with h | h
        · exact h
        · exfalso
          have : q = 2 := by omega
          subst this
          exact hq ⟨[], d, rfl⟩
      obtain ⟨r', q', h1, h2⟩ := reads_block (d := d) (r := r) (q := q + 1) (fun c hc => hs c (by simp [hc]))
        (by rw [List.replicate_succ', List.append_assoc]; exact hq) (by omega)
      refine ⟨r', q', Reads.cons (ts := []) (by simp [step, stepBlock, hlt]) h1, ?_⟩
      rw [h2, List.replicate_succ]
      simp
    · obtain ⟨r', q', h1, h2⟩ := reads_block (d := d) (r := c :: (List.replicate q '"' ++ r)) (q := 0) (fun c hc => hs c (by simp [hc]))
        (fun ⟨a, b, e⟩ => hq ⟨List.replicate q '"' ++ c :: a, b, by rw [← List.nil_append d, ← show List.replicate 0 '"' ++ d = [] ++ d from rfl, ← e]; simp⟩) (by omega)
      refine ⟨r', q', Reads.cons (ts := []) (by simp [step, stepBlock, hc, hs c (by simp)]) h1, ?_⟩
      rw [h2]
      simp

/-- The same with a character at the end that is not a quote. -/
theorem reads_block_then {d r : Str} {c : Char} (hs : ∀ c ∈ d, sourceChar c = true) (hq : ¬ g!"\"\"\"" <:+: d) (hc : c ≠ '"') (hc' : sourceChar c = true) :
    Reads (.block r 0) (d ++ [c]) [] (.block ((d ++ [c]).reverse ++ r) 0) := by
  obtain ⟨r', q', h1, h2⟩ := reads_block (r := r) (q := 0) hs (by simpa using hq) (by omega)
  refine h1.append (us := []) (Reads.cons (ts := []) ?_ (Reads.nil _))
  simp [step, stepBlock, hc, hc', h2]

theorem reads_blanks : ∀ {pre r : Str}, Blanks pre → Reads (.block r 0) pre [] (.block (pre.reverse ++ r) 0)
  | [], r, _ => rfl
  | c :: pre, r, hp => by
    have hc := hp c (by simp)
    subst hc
    have ih := reads_blanks (pre := pre) (r := ' ' :: r) fun d hd => hp d (by simp [hd])
    rw [List.reverse_cons, List.append_assoc]
    exact Reads.cons (ts := []) rfl ih

theorem reads_block_lines {pre : Str} (hp : Blanks pre) : ∀ {ls : List Str} {r : Str}, (∀ l ∈ ls, (∀ c ∈ l, sourceChar c = true) ∧ ¬ g!"\"\"\"" <:+: l) →
    Reads (.block r 0) (ls.flatMap fun l => prefixed pre l ++ g!"\n") [] (.block ((ls.flatMap fun l => prefixed pre l ++ g!"\n").reverse ++ r) 0)
  | [], r, _ => rfl
  | l :: ls, r, h => by
    obtain ⟨h1, h2⟩ := h l (by simp)
    have h3 : Reads (.block r 0) (prefixed pre l ++ g!"\n") [] (.block ((prefixed pre l ++ g!"\n").reverse ++ r) 0) := by
      unfold prefixed
      split
      · have := (reads_blanks (r := r) hp).append (reads_block_then (c := '\n') (r := pre.reverse ++ r) h1 h2 (by decide) (by decide))
        simpa using this
      · exact Reads.cons (ts := []) rfl (Reads.nil _)
    have h4 := h3.append (reads_block_lines hp (ls := ls) (r := (prefixed pre l ++ g!"\n").reverse ++ r) fun l hl => h l (by simp [hl]))
    rw [List.flatMap_cons, List.reverse_append, List.append_assoc (List.reverse _)]
    exact h4

theorem splitC_infix {s : Char} : ∀ {d l : Str}, l ∈ splitC s d → l <:+: d ∧ ((splitC s d).head? = some l → l <+: d)
  | [], l, h => by
    simp only [splitC, List.mem_singleton] at h
    subst h
    exact ⟨List.infix_rfl, fun _ => List.prefix_rfl⟩
  | c :: d, l, h => by
    rw [splitC] at h ⊢
    split at h
    · rename_i hc
      rw [if_pos hc]
      rcases List.mem_cons.1 h with rfl | h
      · exact ⟨⟨[], c :: d, rfl⟩, fun _ => List.nil_prefix⟩
      · obtain ⟨⟨a, b, e⟩, h2⟩ := splitC_infix h
        refine ⟨⟨c :: a, b, by rw [← e]; rfl⟩, fun e' => ?_⟩
        simp only [List.head?_cons, Option.some.injEq] at e'
        rw [← e']
        exact List.nil_prefix
    · rename_i hc
      rw [if_neg hc]
      cases hs : splitC s d with
      | nil =>
        rw [hs] at h
        simp only [List.mem_singleton] at h
        subst h
        exact ⟨⟨[], d, rfl⟩, fun _ => ⟨d, rfl⟩⟩
      | cons p ps =>
        rw [hs] at h
        simp only at h ⊢
        rcases List.mem_cons.1 h with rfl | h
        · obtain ⟨t, e⟩ := (splitC_infix (d := d) (l := p) (by rw [hs]; simp)).2 (by rw [hs]; rfl)
          have hpre : (c :: p) <+: c :: d := ⟨t, by rw [← e]; rfl⟩
          exact ⟨hpre.isInfix, fun _ => hpre⟩
        · obtain ⟨⟨a, b, e⟩, h2⟩ := splitC_infix (d := d) (l := l) (by rw [hs]; simp [h])
          refine ⟨⟨c :: a, b, by rw [← e]; rfl⟩, fun e' => ?_⟩
          simp only [List.head?_cons, Option.some.injEq] at e'
          subst e'
          obtain ⟨t, e⟩ := (splitC_infix (d := d) (l := p) (by rw [hs]; simp)).2 (by rw [hs]; rfl)
          exact ⟨t, by rw [← e]; rfl⟩

theorem splitC_no {s : Char} : ∀ {d l : Str}, l ∈ splitC s d → s ∉ l
  | [], l, h => by simp only [splitC, List.mem_singleton] at h; subst h; simp
  | c :: d, l, h => by
    rw [splitC] at h
    split at h
    · rcases List.mem_cons.1 h with rfl | h
      · simp
      · exact splitC_no h
    · rename_i hc
      cases hs : splitC s d with
      | nil =>
        rw [hs] at h
        simp only [List.mem_singleton] at h
        subst h
        simpa using fun e => hc e.symm
      | cons p ps =>
        rw [hs] at h
        rcases List.mem_cons.1 h with rfl | h
        · have := splitC_no (s := s) (d := d) (l := p) (by rw [hs]; simp)
          simpa using ⟨fun e => hc e.symm, this⟩
        · exact splitC_no (d := d) (by rw [hs]; simp [h])

theorem describable_source {d : Str} (hd : Describable d) {c : Char} (hc : c ∈ d) : sourceChar c = true ∧ c ≠ '\r' := by
  rcases hd.chars c hc with h | rfl | rfl
  · refine ⟨by simp [sourceChar, h], ?_⟩
    rintro rfl; exact absurd h (by decide)
  · decide
  · decide

/-- The value of a description of several lines. -/
theorem blockValue_comment {pre d : Str} (hp : Blanks pre) (hd : Describable d) :
    blockValue ('\n' :: (((splitC '\n' d).flatMap fun l => prefixed pre l ++ g!"\n") ++ pre)) = unlines (trimBlank (dedent (splitC '\n' d))) := by
  have hpre : ∀ c ∈ pre, c ≠ '\n' ∧ c ≠ '\r' := fun c hc => by rw [hp c hc]; decide
  have hl : ∀ l ∈ (splitC '\n' d).map (prefixed pre), ∀ c ∈ l, c ≠ '\n' ∧ c ≠ '\r' := by
    intro l hl c hc
    obtain ⟨l', hl', rfl⟩ := List.mem_map.1 hl
    have hcl : c ∈ pre ∨ c ∈ l' := by
      unfold prefixed at hc
      split at hc
      · exact List.mem_append.1 hc
      · cases hc
    rcases hcl with h | h
    · exact hpre c h
    · exact ⟨fun e => splitC_no hl' (e ▸ h), (describable_source hd ((splitC_infix hl').1.subset h)).2⟩
  have e1 : ((splitC '\n' d).flatMap fun l => prefixed pre l ++ g!"\n") = ((splitC '\n' d).map (prefixed pre)).flatMap fun l => l ++ g!"\n" := by
    rw [List.flatMap_map]
  unfold blockValue
  rw [lines_cons (by decide), if_pos rfl, e1, lines_all hl hpre]
  simp only
  rw [show ∀ x, trimBlank ([] :: x) = trimBlank x from fun x => by rw [trimBlank, List.dropWhile_cons_of_pos rfl]; rfl, dedent_prefixed hp]

/-- A description. -/
theorem whole_comment {pre d : Str} (hp : Blanks pre) (hd : Describable d) : Whole (comment pre d) [.str (described d)] := by
  have hblank : ∀ {s : Str} {ts : List Tok}, Whole s ts → Whole (pre ++ s) ts := by
    intro s ts h
    induction pre with
    | nil => exact h
    | cons c pre ih =>
      rw [hp c (by simp)]
      exact reads_space (by decide) (ih fun d hd => hp d (by simp [hd]))
  unfold comment described
  by_cases hn : '\n' ∈ d
  · rw [if_neg (by simpa using hn), if_pos hn, ← blockValue_comment hp hd]
    rw [show (fun line => (if line ≠ [] then pre ++ line else []) ++ g!"\n") = fun l => prefixed pre l ++ g!"\n" from rfl]
    rw [List.append_assoc, List.append_assoc, List.append_assoc]
    refine hblank ?_
    generalize hW : ((splitC '\n' d).flatMap fun l => prefixed pre l ++ g!"\n") = W
    refine Reads.cons (ts := []) (st' := .open1) rfl (Reads.cons (ts := []) (st' := .open2) rfl (Reads.cons (ts := []) (st' := .block [] 0) rfl ?_))
    refine Reads.cons (ts := []) (st' := .block ['\n'] 0) rfl ?_
    have h1 := reads_block_lines hp (ls := splitC '\n' d) (r := ['\n']) fun l hl =>
      ⟨fun c hc => (describable_source hd ((splitC_infix hl).1.subset hc)).1, fun h => hd.block (h.trans (splitC_infix hl).1)⟩
    rw [hW] at h1
    refine h1.append (us := [.str _]) ((reads_blanks (r := W.reverse ++ ['\n']) hp).append (us := [.str _]) ?_)
    refine Reads.cons (ts := []) rfl (Reads.cons (ts := []) rfl (Reads.cons (ts := [.str _]) (st' := .start) ?_ (reads_space (by decide) (Reads.nil _))))
    have hh : ∀ x, pre.reverse ++ (W.reverse ++ ['\n']) ≠ '\\' :: x := by
      intro x e
      cases hpr : pre.reverse with
      | cons a t =>
        have : a = ' ' := hp a (List.mem_reverse.1 (by rw [hpr]; simp))
        rw [hpr, this] at e
        cases e
      | nil =>
        rw [hpr] at e
        cases hls : splitC '\n' d with
        | nil =>
          rw [hls] at hW
          subst hW
          cases e
        | cons l ls =>
          have : ∃ y, W = y ++ ['\n'] := by
            rw [← hW]
            obtain ⟨ls', l', e'⟩ : ∃ ls' l', splitC '\n' d = ls' ++ [l'] := by
              rcases List.eq_nil_or_concat (splitC '\n' d) with h | ⟨a, b, h⟩
              · rw [h] at hls; cases hls
              · exact ⟨a, b, by simpa using h⟩
            rw [e']
            exact ⟨ls'.flatMap (fun l => prefixed pre l ++ g!"\n") ++ prefixed pre l', by simp⟩
          obtain ⟨y, hy⟩ := this
          rw [hy] at e
          simp at e
    have hrev : '\n' :: (W ++ pre) = (pre.reverse ++ (W.reverse ++ ['\n'])).reverse := by simp
    rw [hrev]
    generalize pre.reverse ++ (W.reverse ++ ['\n']) = R at hh
    simp only [step, stepBlock]
    cases R with
    | nil => rfl
    | cons a R =>
      by_cases ha : a = '\\'
      · exact absurd (by rw [ha]) (hh R)
      · simp
  · rw [if_pos hn, if_neg hn, List.append_assoc, List.append_assoc]
    refine hblank ?_
    exact reads_single_then hd hn (by decide) (reads_space (by decide) (Reads.nil _))

end JT.GqlText
