import Verif.Spec.Json
/- Building JSON texts, and telling that a text is not JSON. -/
namespace JT.Json

theorem ws_nil : Ws [] := by intro c h; cases h

theorem elem {v : Str} (h : Val v) : Elems v := by
  have := Elems.one ws_nil h ws_nil
  simpa using this

theorem elems_append {a b : Str} (ha : Elems a) (hb : Elems b) : Elems (a ++ ',' :: b) := by
  refine Elems.rec (motive_1 := fun _ _ => True) (motive_2 := fun a _ => Elems (a ++ ',' :: b)) (motive_3 := fun _ _ => True)
    ?_ ?_ ?_ ?_ ?_ ?_ ?_ ?_ ?_ ?_ ?_ ha
  case refine_8 => intro a v b' h1 h2 h3 _; exact .cons h1 h2 h3 hb
  case refine_9 =>
    intro a v b' t h1 h2 h3 _ _ ih
    have := Elems.cons h1 h2 h3 ih
    simpa using this
  all_goals intros; trivial

theorem mem {k v : Str} (hk : Chars k) (hv : Val v) : Mems ('"' :: k ++ '"' :: ':' :: v) := by
  have := Mems.one ws_nil hk ws_nil ws_nil hv ws_nil
  simpa using this

/-- With a space after the colon. -/
theorem mem' {k v : Str} (hk : Chars k) (hv : Val v) : Mems ('"' :: k ++ '"' :: ':' :: ' ' :: v) := by
  have := Mems.one (c := [' ']) ws_nil hk ws_nil (by intro c h; simp at h; exact Or.inl h) hv ws_nil
  simpa using this

theorem mems_append {a b : Str} (ha : Mems a) (hb : Mems b) : Mems (a ++ ',' :: b) := by
  refine Mems.rec (motive_1 := fun _ _ => True) (motive_2 := fun _ _ => True) (motive_3 := fun a _ => Mems (a ++ ',' :: b))
    ?_ ?_ ?_ ?_ ?_ ?_ ?_ ?_ ?_ ?_ ?_ ha
  case refine_10 => intro a k b' c v d h1 h2 h3 h4 h5 h6 _; exact .cons h1 h2 h3 h4 h5 h6 hb
  case refine_11 =>
    intro a k b' c v d t h1 h2 h3 h4 h5 h6 _ _ ih
    have := Mems.cons h1 h2 h3 h4 h5 h6 ih
    simpa using this
  all_goals intros; trivial

theorem text {v : Str} (h : Val v) : Text v := ⟨[], v, [], ws_nil, h, ws_nil, by simp⟩

/-! ### Plain strings -/

/-- Nothing needs escaping. -/
def plain (s : Str) : Bool := s.all fun c => decide (0x20 ≤ c.toNat) && c != '"' && c != '\\'

theorem chars_plain : ∀ {s : Str}, plain s = true → Chars s
  | [], _ => .nil
  | c :: s, h => by
    simp only [plain, List.all_cons, Bool.and_eq_true, decide_eq_true_eq, bne_iff_ne, ne_eq] at h
    have := Chars.cons (.plain h.1.1.1 h.1.1.2 h.1.2) (chars_plain (s := s) h.2)
    simpa using this

theorem val_plain {s : Str} (h : plain s = true) : Val ('"' :: s ++ ['"']) := .str (chars_plain h)

theorem chars_append {a b : Str} (ha : Chars a) (hb : Chars b) : Chars (a ++ b) := by
  induction ha with
  | nil => exact hb
  | cons hp _ ih => rw [List.append_assoc]; exact .cons hp ih

/-! ### A scanner that every JSON text passes -/

/-- Outside of strings after something, outside after a comma, in a string, after a backslash in a string. -/
inductive Q where
  | out | comma | str | esc
deriving DecidableEq

/-- The characters that occur outside of strings. -/
def outside (c : Char) : Bool := c ∈ ("{}[]:, \t\n\r0123456789+-.eEtrufalsn".toList)

def step : Q → Char → Option Q
  | .out, c => if c = '"' then some .str else if c = ',' then some .comma else if outside c then some .out else none
  | .comma, c =>
    if c = '"' then some .str else if c = ',' ∨ c = ']' ∨ c = '}' then none
    else if c = ' ' ∨ c = '\t' ∨ c = '\n' ∨ c = '\r' then some .comma else if outside c then some .out else none
  | .str, c => if c = '"' then some .out else if c = '\\' then some .esc else some .str
  | .esc, c => if c ∈ ['"', '\\', '/', 'b', 'f', 'n', 'r', 't', 'u'] then some .str else none

def run : Q → Str → Option Q
  | q, [] => some q
  | q, c :: s => (step q c).bind fun q => run q s

theorem run_append : ∀ (q : Q) (a b : Str), run q (a ++ b) = (run q a).bind fun q => run q b
  | _, [], _ => rfl
  | q, c :: a, b => by
    simp only [List.cons_append, run]
    cases step q c with
    | none => rfl
    | some q' => exact run_append q' a b

def isOut : Q → Prop
  | .out => True
  | .comma => True
  | _ => False

theorem run_ws : ∀ {s : Str} (q : Q), Ws s → isOut q → run q s = some q
  | [], _, _, _ => rfl
  | c :: s, q, h, hq => by
    have hc := h c (List.mem_cons_self ..)
    have ih := run_ws (s := s) q (fun c hc => h c (List.mem_cons_of_mem _ hc)) hq
    have hs : step q c = some q := by
      cases q <;> simp [isOut] at hq <;> rcases hc with rfl | rfl | rfl | rfl <;> decide
    simp [run, hs, ih]

theorem run_piece {s : Str} (h : Piece s) : run .str s = some .str := by
  cases h with
  | plain h1 h2 h3 => simp [run, step, h2, h3]
  | esc hc =>
    have h0 : step .str '\\' = some .esc := by decide
    have h1 : ∀ c ∈ ['"', '\\', '/', 'b', 'f', 'n', 'r', 't'], step .esc c = some .str := by decide
    simp [run, h0, h1 _ hc]
  | uni h1 h2 h3 h4 =>
    have hx : ∀ c, hexDigit c → step .str c = some .str := by
      intro c hc
      have h1 : c ≠ '"' := by rintro rfl; simp [hexDigit, digit] at hc
      have h2 : c ≠ '\\' := by rintro rfl; simp [hexDigit, digit] at hc
      simp [step, h1, h2]
    have h0 : step .str '\\' = some .esc := by decide
    have hu : step .esc 'u' = some .str := by decide
    simp [run, h0, hu, hx _ h1, hx _ h2, hx _ h3, hx _ h4]

theorem run_chars {s : Str} (h : Chars s) : run .str s = some .str := by
  induction h with
  | nil => rfl
  | cons hp _ ih => rw [run_append, run_piece hp]; exact ih

theorem run_quoted {s : Str} (h : Chars s) (q : Q) (hq : isOut q) : run q ('"' :: s ++ ['"']) = some .out := by
  have h0 : step q '"' = some .str := by cases q <;> simp [isOut] at hq <;> decide
  simp only [List.cons_append, run, h0, Option.bind_some]
  rw [run_append, run_chars h]
  rfl

/-- Characters of numbers and literals. -/
def word (c : Char) : Bool := c ∈ ("0123456789+-.eEtrufalsn".toList)

theorem step_word {c : Char} (h : word c = true) (q : Q) (hq : isOut q) : step q c = some .out := by
  have : ∀ c ∈ ("0123456789+-.eEtrufalsn".toList), ∀ q ∈ [Q.out, Q.comma], step q c = some .out := by decide
  refine this c (by simpa [word] using h) q ?_
  cases q <;> simp [isOut] at hq <;> simp

theorem run_word : ∀ {s : Str}, (∀ c ∈ s, word c = true) → s ≠ [] → ∀ q, isOut q → run q s = some .out
  | [], _, h, _, _ => absurd rfl h
  | [c], h, _, q, hq => by simp [run, step_word (h c (List.mem_cons_self ..)) q hq]
  | c :: d :: s, h, _, q, hq => by
    rw [run, step_word (h c (List.mem_cons_self ..)) q hq]
    exact run_word (s := d :: s) (fun c hc => h c (List.mem_cons_of_mem _ hc)) (by simp) .out trivial

theorem word_digit {c : Char} (h : digit c) : word c = true := by
  have h1 : c = Char.ofNat c.toNat := by simp
  rw [h1]
  simp only [digit] at h
  have : ∀ n ∈ [48,49,50,51,52,53,54,55,56,57], word (Char.ofNat n) = true := by decide
  apply this
  have a : '0'.toNat = 48 := rfl
  have b : '9'.toNat = 57 := rfl
  rw [a, b] at h
  simp only [List.mem_cons, List.not_mem_nil, or_false]
  omega

theorem num_word {s : Str} (h : Num s) : (∀ c ∈ s, word c = true) ∧ s ≠ [] := by
  obtain ⟨sign, int, frac, exp, rfl, h1, h2, h3, h4⟩ := h
  have hd : ∀ {d : Str}, Digits d → ∀ c ∈ d, word c = true := fun hd c hc => word_digit (hd.2 c hc)
  have hint : (∀ c ∈ int, word c = true) ∧ int ≠ [] := by
    rcases h2 with rfl | h2
    · exact ⟨by decide, by simp⟩
    · exact ⟨hd h2.1, h2.1.1⟩
  refine ⟨?_, by simp [hint.2]⟩
  intro c hc
  simp only [List.mem_append] at hc
  rcases hc with ((hc | hc) | hc) | hc
  · rcases h1 with rfl | rfl
    · cases hc
    · simp only [List.mem_singleton] at hc; subst hc; decide
  · exact hint.1 c hc
  · rcases h3 with rfl | ⟨d, h, rfl⟩
    · cases hc
    · cases hc with
      | head => decide
      | tail _ hc => exact hd h c hc
  · rcases h4 with rfl | ⟨e, sg, d, he, hs, h, rfl⟩
    · cases hc
    · simp only [List.cons_append, List.mem_cons, List.mem_append] at hc
      rcases hc with rfl | hc | hc
      · rcases he with rfl | rfl <;> decide
      · rcases hs with rfl | rfl | rfl
        · cases hc
        · simp only [List.mem_singleton] at hc; subst hc; decide
        · simp only [List.mem_singleton] at hc; subst hc; decide
      · exact hd h c hc

theorem step_open {c : Char} (hc : c = '[' ∨ c = '{' ∨ c = ':') (q : Q) (hq : isOut q) : step q c = some .out := by
  cases q <;> simp [isOut] at hq <;> rcases hc with rfl | rfl | rfl <;> decide

theorem step_close {c : Char} (hc : c = ']' ∨ c = '}') : step .out c = some .out := by
  rcases hc with rfl | rfl <;> decide

/-- Every value passes the scanner. -/
theorem run_val {s : Str} (h : Val s) : ∀ q, isOut q → run q s = some .out := by
  have hw : ∀ {q : Q} {s : Str} {o c : Char}, isOut q → (o = '[' ∨ o = '{' ∨ o = ':') → (c = ']' ∨ c = '}') → run .out s = some .out → run q (o :: s ++ [c]) = some .out := by
    intro q s o c hq ho hc h
    simp only [List.cons_append, run, step_open ho q hq, Option.bind_some]
    rw [run_append, h]
    simp [run, step_close hc]
  refine Val.rec (motive_1 := fun s _ => ∀ q, isOut q → run q s = some .out) (motive_2 := fun s _ => ∀ q, isOut q → run q s = some .out)
    (motive_3 := fun s _ => ∀ q, isOut q → run q s = some .out) ?_ ?_ ?_ ?_ ?_ ?_ ?_ ?_ ?_ ?_ ?_ h
  · intro s h q hq; exact run_quoted h q hq
  · intro s h q hq
    rcases h with rfl | rfl | rfl
    all_goals exact run_word (by decide) (by simp) q hq
  · intro s h q hq; exact run_word (num_word h).1 (num_word h).2 q hq
  · intro w h q hq; exact hw hq (by simp) (by simp) (run_ws .out h trivial)
  · intro s _ ih q hq; exact hw hq (by simp) (by simp) (ih .out trivial)
  · intro w h q hq; exact hw hq (by simp) (by simp) (run_ws .out h trivial)
  · intro s _ ih q hq; exact hw hq (by simp) (by simp) (ih .out trivial)
  · intro a v b ha _ hb ih q hq
    rw [run_append, run_append, run_ws q ha hq, Option.bind_some, ih q hq, Option.bind_some, run_ws .out hb trivial]
  · intro a v b t ha _ hb _ ih1 ih2 q hq
    rw [run_append, run_append, run_append, run_ws q ha hq, Option.bind_some, ih1 q hq, Option.bind_some, run_ws .out hb trivial, Option.bind_some]
    have : step .out ',' = some .comma := by decide
    simp only [run, this, Option.bind_some]
    exact ih2 .comma trivial
  · intro a k b c v d ha hk hb hc _ hd ih q hq
    have h1 : a ++ '"' :: k ++ '"' :: b ++ ':' :: c ++ v ++ d = a ++ (('"' :: k ++ ['"']) ++ (b ++ (':' :: (c ++ (v ++ d))))) := by simp
    rw [h1, run_append, run_ws q ha hq, Option.bind_some, run_append, run_quoted hk q hq, Option.bind_some, run_append, run_ws .out hb trivial, Option.bind_some,
      run, step_open (by simp) .out trivial, Option.bind_some, run_append, run_ws .out hc trivial, Option.bind_some, run_append, ih .out trivial,
      Option.bind_some, run_ws .out hd trivial]
  · intro a k b c v d t ha hk hb hc _ hd _ ih1 ih2 q hq
    have h1 : a ++ '"' :: k ++ '"' :: b ++ ':' :: c ++ v ++ d ++ ',' :: t =
        a ++ (('"' :: k ++ ['"']) ++ (b ++ (':' :: (c ++ (v ++ (d ++ (',' :: t))))))) := by simp
    have hcomma : step .out ',' = some .comma := by decide
    rw [h1, run_append, run_ws q ha hq, Option.bind_some, run_append, run_quoted hk q hq, Option.bind_some, run_append, run_ws .out hb trivial, Option.bind_some,
      run, step_open (by simp) .out trivial, Option.bind_some, run_append, run_ws .out hc trivial, Option.bind_some, run_append, ih1 .out trivial,
      Option.bind_some, run_append, run_ws .out hd trivial, Option.bind_some, run, hcomma, Option.bind_some, ih2 .comma trivial]

/-- A text that the scanner does not pass is not JSON. -/
theorem not_text {s : Str} (h : run .out s ≠ some .out) : ¬ Text s := by
  rintro ⟨a, v, b, ha, hv, hb, rfl⟩
  apply h
  rw [run_append, run_append, run_ws .out ha trivial, Option.bind_some, run_val hv .out trivial, Option.bind_some, run_ws .out hb trivial]

end JT.Json
