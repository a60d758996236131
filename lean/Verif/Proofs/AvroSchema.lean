import Verif.Spec.AvroSchema
import Verif.Proofs.GoJson
import Verif.Props.C80
/- From the lines of a generated struct to the Avro schema. -/
namespace JT.Go
open Gen Spec GoJson

/-! ### Texts -/

theorem quote_plain {p : Char → Bool} {s : Str} (h : PlainText p s) : quote p s = Spec.str s := by
  unfold quote Spec.str
  have : s.flatMap (quoteChar p) = s := by
    induction s with
    | nil => rfl
    | cons c s ih =>
      obtain ⟨h1, h2, _, h3⟩ := h c List.mem_cons_self
      rw [List.flatMap_cons, ih fun x hx => h x (List.mem_cons_of_mem _ hx)]
      unfold quoteChar
      rw [if_neg (by simp [h1, h2]), if_pos h3]
      rfl
  rw [this]

theorem plain_append {p : Char → Bool} {a b : Str} (ha : PlainText p a) (hb : PlainText p b) : PlainText p (a ++ b) := by
  intro c hc
  rcases List.mem_append.1 hc with h | h
  · exact ha c h
  · exact hb c h

theorem plain_join {p : Char → Bool} : ∀ {l : List Str}, (∀ x ∈ l, PlainText p x) → PlainText p (join g!"." l)
  | [], _ => fun c hc => by cases hc
  | [a], h => h a List.mem_cons_self
  | a :: b :: l, h => by
    refine plain_append (plain_append (h a List.mem_cons_self) ?_) (plain_join fun x hx => h x (List.mem_cons_of_mem _ hx))
    intro c hc
    simp only [List.mem_cons, List.not_mem_nil, or_false] at hc
    subst hc
    exact ⟨by decide, by decide, by decide, Or.inl (by decide)⟩

theorem plain_ascii {p : Char → Bool} {s : Str} (h : ∀ c ∈ s, c ≠ '"' ∧ c ≠ '\\' ∧ c ≠ '`' ∧ 0x20 ≤ c.toNat ∧ c.toNat ≤ 0x7e) : PlainText p s :=
  fun c hc => ⟨(h c hc).1, (h c hc).2.1, (h c hc).2.2.1, Or.inl (h c hc).2.2.2⟩

theorem plain_quiet {p : Char → Bool} {s : Str} (h : PlainText p s) : Quiet s := by
  intro c hc
  obtain ⟨h1, h2, h3, h4⟩ := h c hc
  refine ⟨h1, h2, h3, ?_, ?_⟩ <;> rintro rfl <;> rcases h4 with h4 | h4 <;> exact absurd h4.1 (by decide)

theorem tagName_plain {p : Char → Bool} {k : Str} (h : TagName k) : PlainText p k ∧ ',' ∉ k := by
  have key : ∀ c, tagChar c = true → (c ≠ '"' ∧ c ≠ '\\' ∧ c ≠ '`' ∧ 0x20 ≤ c.toNat ∧ c.toNat ≤ 0x7e) ∧ c ≠ ',' := by
    intro c hc
    unfold tagChar at hc
    rw [Bool.or_eq_true] at hc
    rcases hc with hc | hc
    · have hb : (48 ≤ c.toNat ∧ c.toNat ≤ 57) ∨ (65 ≤ c.toNat ∧ c.toNat ≤ 90) ∨ (97 ≤ c.toNat ∧ c.toNat ≤ 122) := by
        simp only [Char.isAlphanum, Char.isAlpha, Char.isUpper, Char.isLower, Char.isDigit, Bool.or_eq_true, Bool.and_eq_true, decide_eq_true_eq, ge_iff_le,
          UInt32.le_iff_toNat_le] at hc
        simp only [Char.toNat]
        have : 'a'.val.toNat = 97 := rfl
        have : (97 : UInt32).toNat = 97 := rfl
        have : 'z'.val.toNat = 122 := rfl
        have : (122 : UInt32).toNat = 122 := rfl
        have : 'A'.val.toNat = 65 := rfl
        have : (65 : UInt32).toNat = 65 := rfl
        have : 'Z'.val.toNat = 90 := rfl
        have : (90 : UInt32).toNat = 90 := rfl
        have : '0'.val.toNat = 48 := rfl
        have : (48 : UInt32).toNat = 48 := rfl
        have : '9'.val.toNat = 57 := rfl
        have : (57 : UInt32).toNat = 57 := rfl
        omega
      refine ⟨⟨?_, ?_, ?_, by omega, by omega⟩, ?_⟩ <;> rintro rfl <;> revert hb <;> decide
    · have : ∀ c ∈ "!#$%&()*+-./:;<=>?@[]^_{|}~ ".toList, (c ≠ '"' ∧ c ≠ '\\' ∧ c ≠ '`' ∧ 0x20 ≤ c.toNat ∧ c.toNat ≤ 0x7e) ∧ c ≠ ',' := by decide
      exact this c (by simpa using hc)
  exact ⟨plain_ascii fun c hc => (key c (h.2.2 c hc)).1, fun hm => (key _ (h.2.2 _ hm)).2 rfl⟩

/-! ### Types -/

/-- The text of a Go type is that of the Avro type. -/
def GoodT (w : World) (t : GoType) (x : AType) : Prop := ∃ N, ∀ n, N ≤ n → ∀ ns seen name nullable, (∀ y ∈ ns, PlainText w.isPrint y) → PlainText w.isPrint name →
  avroType w n ns seen t name nullable = .ok (if nullable = true then orMissing x (x.text ns name) else x.text ns name, seen)

theorem goodT_scalar {w : World} {i p : Str} (h : primitive i = some p) (hp : PlainText w.isPrint p) : GoodT w (.ident i) (.scalar p) := by
  refine ⟨1, fun n hn ns seen name nullable _ _ => ?_⟩
  obtain ⟨n, rfl⟩ : ∃ k, n = k + 1 := ⟨n - 1, by omega⟩
  simp only [avroType, h, primitiveText, quote_plain hp, orMissing, AType.text]

theorem goodT_time {w : World} : GoodT w (.selector g!"Time") .time := by
  refine ⟨1, fun n hn ns seen name nullable _ _ => ?_⟩
  obtain ⟨n, rfl⟩ : ∃ k, n = k + 1 := ⟨n - 1, by omega⟩
  cases nullable <;> rfl

theorem goodT_map {w : World} : GoodT w (.map (.ident g!"string") (.ident g!"string")) .strings := by
  refine ⟨2, fun n hn ns seen name nullable _ _ => ?_⟩
  obtain ⟨n, rfl⟩ : ∃ k, n = k + 2 := ⟨n - 2, by omega⟩
  have : ∀ seen, avroType w (n + 1) ns seen (.ident g!"string") name false = .ok (g!"\"string\"", seen) := fun seen => rfl
  simp only [avroType, Res.bind] at this ⊢
  rw [this]
  simp only [this]
  cases nullable <;> rfl

theorem goodT_star {w : World} {t : GoType} {x : AType} (h : GoodT w t x) : GoodT w (.star t) x := by
  obtain ⟨N, h⟩ := h
  refine ⟨N + 1, fun n hn ns seen name nullable h1 h2 => ?_⟩
  obtain ⟨n, rfl⟩ : ∃ k, n = k + 1 := ⟨n - 1, by omega⟩
  simp only [avroType]
  exact h n (by omega) ns seen name nullable h1 h2

theorem text_list (ns : List Str) (name : Str) : ∀ x : AType, (AType.list x).text ns name = arrayText (x.text ns name)
  | .scalar n => by simp [AType.text, arrayText, Spec.str, hasPrefix]
  | .time => rfl
  | .strings => rfl
  | .record fs => by simp [AType.text, arrayText, hasPrefix]
  | .list x => by
    have : ∃ t, (AType.list x).text ns name = '{' :: t := by
      cases x <;> exact ⟨_, by simp only [AType.text]; rfl⟩
    obtain ⟨t, ht⟩ := this
    rw [AType.text]
    · rw [ht]; simp [arrayText, hasPrefix]
    · intro _ h; cases h

theorem goodT_array {w : World} {t : GoType} {x : AType} (h : GoodT w t x) : GoodT w (.array t) (.list x) := by
  obtain ⟨N, h⟩ := h
  refine ⟨N + 1, fun n hn ns seen name nullable h1 h2 => ?_⟩
  obtain ⟨n, rfl⟩ : ∃ k, n = k + 1 := ⟨n - 1, by omega⟩
  simp only [avroType]
  rw [h n (by omega) ns seen name false h1 h2]
  simp only [Res.bind, Bool.false_eq_true, if_false, text_list, orMissing, ite_self]

/-- A field gives the Avro field. -/
structure GoodF (w : World) (f : GoField) (x : AField) : Prop where
  named : ∃ k, f.name = some k
  name : f.tag.name = x.name
  doc : f.tag.description = x.doc
  optional : f.tag.omitEmpty = x.optional
  ne : x.name ≠ []
  plainName : PlainText w.isPrint x.name
  plainDoc : PlainText w.isPrint x.doc
  type : GoodT w f.type x.type

/-- The fields give the Avro fields. -/
def GoodFs (w : World) (l : List GoField) (fs : List AField) : Prop := ∃ N, ∀ n, N ≤ n → ∀ ns seen, (∀ y ∈ ns, PlainText w.isPrint y) →
  avroFields w n [] ns l seen = .ok (join g!"," (fieldTexts ns fs), seen)

theorem goodF_text {w : World} {f : GoField} {x : AField} (h : GoodF w f x) {exf : List Str} (hex : ∀ k, f.name = some k → k ∉ exf) :
    ∃ N, ∀ n, N ≤ n → ∀ fields ns fm seen, (∀ y ∈ ns, PlainText w.isPrint y) → oneField w (avroType w n) fields exf ns fm f seen = .ok (x.text ns, true, seen) := by
  obtain ⟨N, ht⟩ := h.type
  refine ⟨N, fun n hn fields ns fm seen hns => ?_⟩
  obtain ⟨k, hk⟩ := h.named
  obtain ⟨fn, t, tag⟩ := f
  obtain ⟨xn, xd, xt, xo⟩ := x
  have h1 : tag.name = xn := h.name
  have h2 : tag.description = xd := h.doc
  have h3 : tag.omitEmpty = xo := h.optional
  have h4 : xn ≠ [] := h.ne
  have h5 : PlainText w.isPrint xn := h.plainName
  have h6 : PlainText w.isPrint xd := h.plainDoc
  have hk : fn = some k := hk
  subst hk
  have hex := hex k rfl
  have hname : avroName k tag = xn := by unfold avroName; rw [h1, if_neg h4]
  have ht' := ht n hn ns seen xn xo hns h5
  simp only [GoField.type, AField.type] at ht'
  simp only [oneField, hex, if_false, hname, h2, h3, ht', Res.bind, fieldText, AField.text, nsText, quote_plain h5, quote_plain h6, quote_plain (plain_join hns)]

theorem goodFs_of {w : World} : ∀ {l : List (GoField × AField)}, (∀ p ∈ l, GoodF w p.1 p.2) → GoodFs w (l.map Prod.fst) (l.map Prod.snd) := by
  intro l h
  have key : ∀ l : List (GoField × AField), (∀ p ∈ l, GoodF w p.1 p.2) → ∃ N, ∀ n, N ≤ n → ∀ fields ns fm seen, (∀ y ∈ ns, PlainText w.isPrint y) →
      fieldLoop w (avroType w n) fields [] ns fm (l.map Prod.fst) seen = .ok (join g!"," (fieldTexts ns (l.map Prod.snd)), seen) := by
    intro l
    induction l with
    | nil => exact fun _ => ⟨0, fun n _ fields ns fm seen _ => by simp [fieldLoop, fieldTexts, join]⟩
    | cons p l ih =>
      intro h
      obtain ⟨N1, h1⟩ := ih fun q hq => h q (List.mem_cons_of_mem _ hq)
      obtain ⟨N2, h2⟩ := goodF_text (h p List.mem_cons_self) (exf := []) (fun _ _ h => nomatch h)
      refine ⟨N1 + N2, fun n hn fields ns fm seen hns => ?_⟩
      simp only [List.map_cons, fieldLoop]
      rw [h2 n (by omega) fields ns fm seen hns]
      simp only [Res.bind]
      rw [h1 n (by omega) fields ns fm seen hns]
      cases l with
      | nil => simp [comma, fieldTexts, join]
      | cons q l => simp [comma, fieldTexts, join]
  obtain ⟨N, hN⟩ := key l h
  refine ⟨N + 1, fun n hn ns seen hns => ?_⟩
  obtain ⟨n, rfl⟩ : ∃ k, n = k + 1 := ⟨n - 1, by omega⟩
  simp only [avroFields]
  exact hN n (by omega) _ ns _ seen hns

theorem goodT_struct {w : World} {l : List GoField} {fs : List AField} (h : GoodFs w l fs) : GoodT w (.struct l) (.record fs) := by
  obtain ⟨N, h⟩ := h
  refine ⟨N + 1, fun n hn ns seen name nullable h1 h2 => ?_⟩
  obtain ⟨n, rfl⟩ : ∃ k, n = k + 1 := ⟨n - 1, by omega⟩
  have h3 : ∀ y ∈ ns ++ [name], PlainText w.isPrint y := by
    intro y hy
    rcases List.mem_append.1 hy with hy | hy
    · exact h1 y hy
    · rw [List.mem_singleton.1 hy]; exact h2
  simp only [avroType]
  rw [h n (by omega) _ seen h3]
  have h4 : PlainText w.isPrint (name ++ g!"_record") := plain_append h2 (plain_ascii (by decide))
  cases nullable <;>
    simp [Res.bind, nestedText, recordHead, AType.text, orMissing, nsText, quote_plain h4, quote_plain (plain_join h3)]

/-- The file for a struct. -/
theorem schema_text {w : World} {l : List GoField} {fs : List AField} {name : Str} (h : GoodFs w l fs) (hn : PlainText w.isPrint name) (hne : fs ≠ []) :
    ∃ N, ∀ n, N ≤ n → avroSchema w n name l = .ok (fileText name fs) := by
  obtain ⟨N, h⟩ := h
  refine ⟨N, fun n hN => ?_⟩
  unfold avroSchema
  rw [h n hN [] [] (fun _ h => by cases h)]
  have hm : metadataFields = writeTimeText ++ g!"," ++ deletedText ++ g!"," := by decide +kernel
  cases fs with
  | nil => exact absurd rfl hne
  | cons f fs => simp [Res.bind, recordHead, fileText, quote_plain hn, hm, fieldTexts, join]

/-! ### Reading the lines -/

theorem dropWhile_no {α : Type} {p : α → Bool} {a b : List α} (h : ∀ x ∈ a, p x = true) : (a ++ b).dropWhile p = b.dropWhile p := by
  induction a with
  | nil => rfl
  | cons x a ih => rw [List.cons_append, List.dropWhile_cons, if_pos (h x List.mem_cons_self)]; exact ih fun y hy => h y (List.mem_cons_of_mem _ hy)

theorem readLiteral_tag {ef : EField} (required descTag : Bool) (hq : Quiet ef.jsonName) (hd : descTag = true → Quiet (firstLine ef.description)) :
    readLiteral (structTag ef required descTag []) = some (literal ef required descTag []) := by
  obtain ⟨h1, h2⟩ := literal_spec ef required descTag []
  have hb : ∃ b, literal ef required descTag [] = '`' :: b ++ ['`'] ∧ ∀ c ∈ b, c ≠ '`' := by
    refine ⟨g!"json:\"" ++ (ef.jsonName ++ omitOption ef required []) ++ '"' :: descriptionPart ef descTag, ?_, ?_⟩
    · unfold literal; simp
    · intro c hc
      have hv := value_quiet (ef := ef) required [] hq
      rcases List.mem_append.1 hc with hc | hc
      · rcases List.mem_append.1 hc with hc | hc
        · exact (by decide : ∀ c ∈ g!"json:\"", c ≠ '`') c hc
        · exact (hv c hc).2.2.1
      rcases List.mem_cons.1 hc with rfl | hc
      · decide
      unfold descriptionPart at hc
      split at hc
      · rename_i h
        rcases List.mem_append.1 hc with hc | hc
        · rcases List.mem_append.1 hc with hc | hc
          · exact (by decide : ∀ c ∈ g!" description:\"", c ≠ '`') c hc
          · exact (hd h.1 c hc).2.2.1
        · exact (by decide : ∀ c ∈ ['"'], c ≠ '`') c hc
      · cases hc
  obtain ⟨b, hb, hn⟩ := hb
  rw [h1]
  unfold readLiteral
  rw [if_pos, List.dropLast_concat]
  rw [hb]
  refine ⟨rfl, ?_⟩
  show ((b ++ ['`']) ++ g!"\n").dropWhile _ = _
  rw [List.append_assoc, dropWhile_no fun x hx => by simpa using hn x hx]
  decide

/-- A field is read as it should. -/
def ReadsGo (descTag pointers required : Bool) (f : EField) (g : GoField) : Prop :=
  ∀ ind rest st acc, readGoLines (f.lines descTag pointers [] [] ind required ++ rest) st acc = readGoLines rest st (acc ++ [g])

theorem readGo_comments {ef : EField} {descTag : Bool} {rest : List Line} {st : List (Str × Str × List GoField)} {acc : List GoField} :
    readGoLines (commentLines ef descTag ++ rest) st acc = readGoLines rest st acc := by
  unfold commentLines
  split
  · generalize splitC '\n' ef.description = cs
    induction cs with
    | nil => rfl
    | cons x cs ih => simpa [readGoLines] using ih
  · rfl

/-- What the generator finds in the tag. -/
def tagOf (f : EField) (required descTag : Bool) : Tag :=
  { name := f.jsonName, description := if descTag = true then firstLine f.description else [], omitEmpty := decide (omitOption f required [] = g!",omitempty") }

theorem parse_literal {f : EField} (required descTag : Bool) (hq : Quiet f.jsonName) (hc : ',' ∉ f.jsonName) (hd : descTag = true → Quiet (firstLine f.description)) :
    parseStructTag (literal f required descTag []) = tagOf f required descTag := by
  obtain ⟨lit, h1, h2⟩ := C80_partial (ef := f) required descTag [] hq hc hd
  rw [(literal_spec f required descTag []).1] at h1
  rw [List.append_cancel_right h1]
  exact h2

/-- A field on a single line. -/
theorem readsGo_plain {descTag pointers required : Bool} {f : EField} {g : GoType} (hq : Quiet f.jsonName) (hc : ',' ∉ f.jsonName)
    (hd : descTag = true → Quiet (firstLine f.description))
    (hty : readGoType goWord (goType f required pointers []) = some g) (hsl : goType f required pointers [] ≠ g!"[]")
    (hfs : f.fields = none ∨ f.fields = some []) :
    ReadsGo descTag pointers required f (.mk (some f.name) g (tagOf f required descTag)) := by
  intro ind rest st acc
  have hlines : f.lines descTag pointers [] [] ind required = commentLines f descTag ++ [.field ind f.name (goType f required pointers []) (structTag f required descTag [])] := by
    obtain ⟨a, d, fs, j, t, n, u, r⟩ := f
    cases fs with
    | none =>
      simp only [EField.lines]
      rw [if_neg (by simp only [List.not_mem_nil, false_or]; exact hsl)]
    | some fs =>
      simp only [EField.lines]
      rw [if_neg (by simp only [List.not_mem_nil, false_or]; exact hsl), if_pos]
      rcases hfs with h | h
      · cases h
      · right
        simp only [Option.some.injEq] at h
        simp [h]
  rw [hlines, List.append_assoc, readGo_comments]
  simp only [List.cons_append, List.nil_append, readGoLines, hty, readLiteral_tag required descTag hq hd, Option.bind_some, parse_literal required descTag hq hc hd]

/-- A field with an inline struct. -/
theorem readsGo_struct {descTag pointers required : Bool} {a : Bool} {d : Str} {fs : List (Str × EField)} {j n : Str} {u : Bool} {r : List Str}
    {gfs : List GoField} {g : GoType} (hq : Quiet j) (hc : ',' ∉ j) (hd : descTag = true → Quiet (firstLine d)) (hne : fs ≠ [])
    (hty : readGoType (goStructWord gfs) (goType ⟨a, d, some fs, j, g!"object", n, u, r⟩ required pointers []) = some g)
    (hsl : goType ⟨a, d, some fs, j, g!"object", n, u, r⟩ required pointers [] ≠ g!"[]")
    (hbody : ∀ ind rest st acc, readGoLines ((sortedByName (linesAll descTag pointers [] [] ind r fs)).flatten ++ rest) st acc = readGoLines rest st (acc ++ gfs)) :
    ReadsGo descTag pointers required ⟨a, d, some fs, j, g!"object", n, u, r⟩
      (.mk (some n) g (tagOf ⟨a, d, some fs, j, g!"object", n, u, r⟩ required descTag)) := by
  intro ind rest st acc
  have hlen : fs.length ≠ 0 := by simpa using hne
  have hlit := readLiteral_tag (ef := ⟨a, d, some fs, j, g!"object", n, u, r⟩) required descTag hq hd
  have hpar := parse_literal (f := ⟨a, d, some fs, j, g!"object", n, u, r⟩) required descTag hq hc hd
  have hlines : EField.lines descTag pointers [] [] ind required ⟨a, d, some fs, j, g!"object", n, u, r⟩ =
      commentLines ⟨a, d, some fs, j, g!"object", n, u, r⟩ descTag ++
      .open ind n (goType ⟨a, d, some fs, j, g!"object", n, u, r⟩ required pointers []) ::
        ((sortedByName (linesAll descTag pointers [] [] (ind ++ g!"\t") r fs)).flatten ++
          [.close ind (structTag ⟨a, d, some fs, j, g!"object", n, u, r⟩ required descTag [])]) := by
    simp only [EField.lines]
    rw [if_neg (by simp only [List.not_mem_nil, false_or]; exact hsl), if_neg (by simp [hlen])]
  rw [hlines, List.append_assoc, readGo_comments]
  simp only [List.cons_append, readGoLines, List.append_assoc]
  rw [hbody]
  simp only [List.nil_append, readGoLines, hty, hlit, hpar, Option.bind_some]

/-- The fields of a struct are written in the order of their names, at each depth. -/
theorem ordered_lines_in {descTag pointers : Bool} {exclude : List Str} {nested : GMap GStruct} {r : List Str} {fs : List (Str × EField)} (h : (fs.map fun kf => kf.2.name).Nodup) :
    ∃ ord : List (Str × EField), ord.Perm fs ∧ (ord.map fun kf => kf.2.name).Pairwise (fun a b => strLt a b = true) ∧
      ∀ ind, sortedByName (linesAll descTag pointers exclude nested ind r fs) =
        ord.map fun kf => kf.2.lines descTag pointers exclude nested ind (decide (kf.2.jsonName ∈ r)) := by
  have hn : ((fs.map fun kf => (kf.2.name, kf)).map Prod.fst).Nodup := by rw [List.map_map]; exact h
  obtain ⟨l', h1, h2, _⟩ := sorted_spec hn
  have hfst : ∀ x ∈ l', x.1 = x.2.2.name := by
    intro x hx
    obtain ⟨kf, _, rfl⟩ := List.mem_map.1 (h1.mem_iff.1 hx)
    rfl
  refine ⟨l'.map Prod.snd, ?_, ?_, fun ind => ?_⟩
  · have := h1.map Prod.snd
    rw [List.map_map] at this
    rw [show (Prod.snd ∘ fun kf : Str × EField => (kf.2.name, kf)) = id from rfl, List.map_id] at this
    exact this
  · unfold Spec.Ordered at h2
    rw [List.map_map, show l'.map ((fun kf : Str × EField => kf.2.name) ∘ Prod.snd) = l'.map Prod.fst from
      List.map_congr_left fun x hx => (hfst x hx).symm, List.pairwise_map]
    exact h2
  · rw [linesAll_map]
    have hn2 : ((fs.map fun kf => (kf.2.name, kf.2.lines descTag pointers exclude nested ind (decide (kf.2.jsonName ∈ r)))).map Prod.fst).Nodup := by
      rw [List.map_map]; exact h
    obtain ⟨l2, g1, g2, g3⟩ := sorted_spec hn2
    rw [g3]
    have : l2 = l'.map fun x => (x.1, x.2.2.lines descTag pointers exclude nested ind (decide (x.2.2.jsonName ∈ r))) := by
      refine ordered_unique g2 ?_ (g1.trans ?_)
      · unfold Spec.Ordered at h2 ⊢
        rw [List.pairwise_map]
        exact h2
      · have := h1.map fun x : Str × (Str × EField) => (x.1, x.2.2.lines descTag pointers exclude nested ind (decide (x.2.2.jsonName ∈ r)))
        rw [List.map_map] at this
        exact this.symm
    rw [this, List.map_map, List.map_map]
    rfl

theorem ordered_lines {descTag pointers : Bool} {r : List Str} {fs : List (Str × EField)} (h : (fs.map fun kf => kf.2.name).Nodup) :
    ∃ ord : List (Str × EField), ord.Perm fs ∧ (ord.map fun kf => kf.2.name).Pairwise (fun a b => strLt a b = true) ∧
      ∀ ind, sortedByName (linesAll descTag pointers [] [] ind r fs) =
        ord.map fun kf => kf.2.lines descTag pointers [] [] ind (decide (kf.2.jsonName ∈ r)) := ordered_lines_in h

theorem readsGo_all {descTag pointers : Bool} {r : List Str} {S : Str × EField → GoField} : ∀ (ord : List (Str × EField)),
    (∀ kf ∈ ord, ReadsGo descTag pointers (decide (kf.2.jsonName ∈ r)) kf.2 (S kf)) → ∀ ind rest st acc,
    readGoLines ((ord.map fun kf => kf.2.lines descTag pointers [] [] ind (decide (kf.2.jsonName ∈ r))).flatten ++ rest) st acc =
      readGoLines rest st (acc ++ ord.map S) := by
  intro ord
  induction ord with
  | nil => intro _ ind rest st acc; simp
  | cons kf ord ih =>
    intro h ind rest st acc
    simp only [List.map_cons, List.flatten_cons, List.append_assoc]
    rw [h kf List.mem_cons_self, ih (fun x hx => h x (List.mem_cons_of_mem _ hx))]
    simp

/-! ### The fields of a schema -/

variable {title : Str → Str} {rename : GMap Str} {descTag pointers : Bool} {w : World}

/-- The Go types for Avro scalars. -/
def basicTable : List (Str × Str) := [(g!"boolean", g!"bool"), (g!"double", g!"float64"), (g!"long", g!"int64"), (g!"string", g!"string")]

/-- A type or the pointer to it. -/
def starred (b : Bool) (t : GoType) : GoType := if b = true then .star t else t

def stringMap : GoType := .map (.ident g!"string") (.ident g!"string")

/-- The types of a field for a property and of its Avro field. -/
inductive Twin (title : Str → Str) (rename : GMap Str) (pointers : Bool) : P → Bool → GoType → AType → Prop where
  | scalar {raw : P} {i : Instance} {t n b : Str} {required : Bool} : decodeInstance false raw = .ok i → TypeIs i t → (t, n) ∈ scalarTable → (n, b) ∈ basicTable →
      ¬ (t = g!"string" ∧ i.format = g!"date-time") → Twin title rename pointers raw required (starred (decide (g!"null" ∈ i.type)) (.ident b)) (.scalar n)
  | time {raw : P} {i : Instance} {required : Bool} : decodeInstance false raw = .ok i → TypeIs i g!"string" → i.format = g!"date-time" →
      Twin title rename pointers raw required (starred (decide (g!"null" ∈ i.type) || (pointers && !required)) (.selector g!"Time")) .time
  | strings {raw : P} {i : Instance} {m : GMap P} {required : Bool} : decodeInstance false raw = .ok i → TypeIs i g!"object" → i.properties = some m →
      (∀ k q, ¬ Listed m k q) → Twin title rename pointers raw required (starred (decide (g!"null" ∈ i.type)) stringMap) .strings
  | record {raw : P} {i : Instance} {m : GMap P} {ps : List (GoField × AField)} {required : Bool} : decodeInstance false raw = .ok i → TypeIs i g!"object" →
      i.properties = some m → (∃ k q, Listed m k q) →
      (∀ p ∈ ps, p.1.name = some (goName title rename p.2.name)) → (∀ p ∈ ps, ∃ q, Listed m p.2.name q) →
      (ps.map fun p => goName title rename p.2.name).Nodup →
      (∀ p ∈ ps, ∀ q, Listed m p.2.name q → (p.2.optional = true ↔ MayMiss false q (decide (p.2.name ∈ i.required)))) →
      (∀ p ∈ ps, ∀ q, Listed m p.2.name q → Twin title rename pointers q (decide (p.2.name ∈ i.required)) p.1.type p.2.type) →
      Twin title rename pointers raw required (starred (decide (g!"null" ∈ i.type)) (.struct (ps.map Prod.fst))) (.record (ps.map Prod.snd))
  | scalars {raw items : P} {i j : Instance} {t n b : Str} {required : Bool} : decodeInstance false raw = .ok i → TypeIs i g!"array" → i.items = some items →
      decodeInstance false items = .ok j → TypeIs j t → (t, n) ∈ scalarTable → (n, b) ∈ basicTable → ¬ (t = g!"string" ∧ j.format = g!"date-time") →
      Twin title rename pointers raw required (.array (starred (decide (g!"null" ∈ i.type)) (.ident b))) (.list (.scalar n))
  | times {raw items : P} {i j : Instance} {required : Bool} : decodeInstance false raw = .ok i → TypeIs i g!"array" → i.items = some items →
      decodeInstance false items = .ok j → TypeIs j g!"string" → j.format = g!"date-time" →
      Twin title rename pointers raw required (.array (starred (decide (g!"null" ∈ i.type) || (pointers && !required)) (.selector g!"Time"))) (.list .time)
  | dicts {raw items : P} {i j : Instance} {m : GMap P} {g : GoType} {required : Bool} : decodeInstance false raw = .ok i → TypeIs i g!"array" →
      i.items = some items → decodeInstance false items = .ok j → TypeIs j g!"object" → j.properties = some m → (∀ k q, ¬ Listed m k q) →
      Twin title rename pointers raw required g (.list .strings)
  | records {raw items : P} {i j : Instance} {m : GMap P} {ps : List (GoField × AField)} {required : Bool} : decodeInstance false raw = .ok i →
      TypeIs i g!"array" → i.items = some items → decodeInstance false items = .ok j → TypeIs j g!"object" → j.properties = some m →
      (∀ p ∈ ps, p.1.name = some (goName title rename p.2.name)) → (∀ p ∈ ps, ∃ q, Listed m p.2.name q) →
      (ps.map fun p => goName title rename p.2.name).Nodup →
      (∀ p ∈ ps, ∀ q, Listed m p.2.name q → (p.2.optional = true ↔ MayMiss false q (decide (p.2.name ∈ j.required)))) →
      (∀ p ∈ ps, ∀ q, Listed m p.2.name q → Twin title rename pointers q (decide (p.2.name ∈ j.required)) p.1.type p.2.type) →
      Twin title rename pointers raw required (.array (starred (decide (g!"null" ∈ i.type)) (.struct (ps.map Prod.fst)))) (.list (.record (ps.map Prod.snd)))

/-- The fields of a generated struct and of the Avro record for the same properties. -/
structure Twins (title : Str → Str) (rename : GMap Str) (pointers : Bool) (m : GMap P) (r : List Str) (ps : List (GoField × AField)) : Prop where
  name : ∀ p ∈ ps, p.1.name = some (goName title rename p.2.name)
  listed : ∀ p ∈ ps, ∃ q, Listed m p.2.name q
  nodup : (ps.map fun p => goName title rename p.2.name).Nodup
  optional : ∀ p ∈ ps, ∀ q, Listed m p.2.name q → (p.2.optional = true ↔ MayMiss false q (decide (p.2.name ∈ r)))
  type : ∀ p ∈ ps, ∀ q, Listed m p.2.name q → Twin title rename pointers q (decide (p.2.name ∈ r)) p.1.type p.2.type

/-- What is to be shown of the field for a property: it is read as a Go field that gives the Avro field asked for. -/
structure AvroOf (title : Str → Str) (rename : GMap Str) (descTag pointers : Bool) (w : World) (k : Str) (raw : P) (f : EField) (required : Bool)
    (g : GoField) (x : AField) : Prop where
  reads : ReadsGo descTag pointers required f g
  good : GoodF w g x
  name : x.name = k
  doc : DocOf descTag raw x.doc
  optional : x.optional = true ↔ MayMiss false raw required
  type : TypeFor title rename descTag (MayMiss false) raw x.type
  goName : g.name = some (goName title rename k)
  twin : Twin title rename pointers raw required g.type x.type

/-- The fields for some properties, given each. -/
theorem fields_avro {m : GMap P} {fs : GMap EField} {r : List Str} (hf : Spec.FieldsOf title rename m fs) (hm : CleanNames title rename m)
    (hS : ∀ k q f, Listed m k q → GMap.get k fs = some f → ∃ g x, AvroOf title rename descTag pointers w k q f (decide (k ∈ r)) g x) :
    ∃ ps, (∀ ind rest st acc, readGoLines ((sortedByName (linesAll descTag pointers [] [] ind r fs)).flatten ++ rest) st acc =
        readGoLines rest st (acc ++ ps.map Prod.fst)) ∧ (∀ p ∈ ps, GoodF w p.1 p.2) ∧ RecordFor title rename descTag (MayMiss false) m r (ps.map Prod.snd) ∧
      Twins title rename pointers m r ps := by
  have hent : ∀ kf ∈ fs, ∃ q, Listed m kf.1 q ∧ GMap.get kf.1 fs = some kf.2 ∧ Spec.FieldOf title rename kf.1 q kf.2 := by
    intro kf hkf
    have hg : GMap.get kf.1 fs = some kf.2 := GMap.get_mem_nodup hf.sorted.nodup hkf
    have hq : ∃ q, GMap.get kf.1 m = some q ∧ ¬ Spec.Hydrated q := by
      refine Classical.byContradiction fun hno => ?_
      have := (hf.names kf.1).2 fun q hq => Classical.byContradiction fun hh => hno ⟨q, hq, hh⟩
      rw [hg] at this
      cases this
    obtain ⟨q, hq⟩ := hq
    exact ⟨q, hq, hg, hf.each _ _ _ hq.1 hg⟩
  have hex : ∀ kf : Str × EField, ∃ p : GoField × AField, kf ∈ fs → ∃ q, Listed m kf.1 q ∧ kf.2.name = goName title rename kf.1 ∧ kf.2.jsonName = kf.1 ∧
      AvroOf title rename descTag pointers w kf.1 q kf.2 (decide (kf.1 ∈ r)) p.1 p.2 := by
    intro kf
    by_cases hkf : kf ∈ fs
    · obtain ⟨q, h1, h2, h3⟩ := hent kf hkf
      obtain ⟨g, x, h⟩ := hS _ _ _ h1 h2
      exact ⟨(g, x), fun _ => ⟨q, h1, (fieldOf_name h3).2, (fieldOf_name h3).1, h⟩⟩
    · exact ⟨(.mk none (.ident []) {}, .mk [] [] .time false), fun h => absurd h hkf⟩
  obtain ⟨S, hS⟩ := Classical.axiomOfChoice hex
  have hkeys : (fs.map Prod.fst).Nodup := hf.sorted.nodup
  have hnames : (fs.map fun kf => kf.2.name).Nodup := by
    refine nodup_map_on ?_ (nodup_of_map hkeys)
    intro a ha b hb he
    obtain ⟨q, h1, h2, h3⟩ := hent a ha
    obtain ⟨q', h1', h2', h3'⟩ := hent b hb
    rw [(fieldOf_name h3).2, (fieldOf_name h3').2] at he
    have hk := hm.distinct _ _ _ _ h1 h1' he
    rw [hk] at h2
    rw [h2] at h2'
    obtain ⟨a1, a2⟩ := a
    obtain ⟨b1, b2⟩ := b
    simp only at hk
    cases h2'
    rw [hk]
  obtain ⟨ord, hp, hord, hlines⟩ := ordered_lines (descTag := descTag) (pointers := pointers) (r := r) hnames
  have hmem : ∀ kf, kf ∈ ord ↔ kf ∈ fs := fun kf => hp.mem_iff
  have hSo : ∀ kf ∈ ord, _ := fun kf hkf => hS kf ((hmem kf).1 hkf)
  have hinv : ∀ x ∈ (ord.map S).map Prod.snd, ∀ q, Listed m x.name q → ∃ f g, AvroOf title rename descTag pointers w x.name q f (decide (x.name ∈ r)) g x := by
    intro x hx q hq
    rw [List.map_map] at hx
    obtain ⟨kf, hkf, rfl⟩ := List.mem_map.1 hx
    obtain ⟨q', h1, _, _, h2⟩ := hSo kf hkf
    have hn : ((Prod.snd ∘ S) kf).name = kf.1 := h2.name
    rw [hn] at hq
    simp only [hn]
    have : q' = q := Option.some.inj (h1.1.symm.trans hq.1)
    subst this
    exact ⟨_, _, h2⟩
  have hpair : ∀ p ∈ ord.map S, ∃ k q f, Listed m k q ∧ p.2.name = k ∧ AvroOf title rename descTag pointers w k q f (decide (k ∈ r)) p.1 p.2 := by
    intro p hp
    obtain ⟨kf, hkf, rfl⟩ := List.mem_map.1 hp
    obtain ⟨q, h1, _, _, h2⟩ := hSo kf hkf
    exact ⟨kf.1, q, kf.2, h1, h2.name, h2⟩
  have hgo : ((ord.map S).map Prod.snd).map (fun f => Spec.goName title rename f.name) = ord.map fun kf => kf.2.name := by
    rw [List.map_map, List.map_map]
    refine List.map_congr_left fun kf hkf => ?_
    obtain ⟨q, h1, h2, _, h3⟩ := hSo kf hkf
    simp only [Function.comp]
    rw [h3.name, h2]
  refine ⟨ord.map S, ?_, ?_, ⟨?_, ?_, ?_, ?_, ?_⟩, ?_, ?_, ?_, ?_, ?_⟩
  · intro ind rest st acc
    rw [hlines ind, List.map_map]
    refine readsGo_all ord (fun kf hkf => ?_) ind rest st acc
    obtain ⟨q, h1, _, h2, h3⟩ := hSo kf hkf
    rw [h2]
    exact h3.reads
  · intro p hp
    obtain ⟨kf, hkf, rfl⟩ := List.mem_map.1 hp
    obtain ⟨q, h1, _, h2, h3⟩ := hSo kf hkf
    exact h3.good
  · rw [hgo]
    exact hord
  · intro k
    constructor
    · rintro ⟨x, hx, rfl⟩
      rw [List.map_map] at hx
      obtain ⟨kf, hkf, rfl⟩ := List.mem_map.1 hx
      obtain ⟨q, h1, h2, _, h3⟩ := hSo kf hkf
      simp only [Function.comp]
      rw [h3.name]
      exact ⟨q, h1⟩
    · rintro ⟨q, hq⟩
      cases hg : GMap.get k fs with
      | none => exact absurd ((hf.names k).1 hg q hq.1) hq.2
      | some f =>
        have hkf : (k, f) ∈ ord := (hmem _).2 (GMap.get_some_mem hg)
        obtain ⟨q, h1, h2, _, h3⟩ := hSo _ hkf
        exact ⟨(S (k, f)).2, List.mem_map.2 ⟨_, List.mem_map.2 ⟨_, hkf, rfl⟩, rfl⟩, h3.name⟩
  · intro x hx q hq
    obtain ⟨f, g, h⟩ := hinv x hx q hq
    exact h.doc
  · intro x hx q hq
    obtain ⟨f, g, h⟩ := hinv x hx q hq
    exact h.optional
  · intro x hx q hq
    obtain ⟨f, g, h⟩ := hinv x hx q hq
    exact h.type
  · intro p hp
    obtain ⟨k, q, f, _, h2, h3⟩ := hpair p hp
    rw [h2]
    exact h3.goName
  · intro p hp
    obtain ⟨k, q, f, h1, h2, _⟩ := hpair p hp
    rw [h2]
    exact ⟨q, h1⟩
  · rw [show (ord.map S).map (fun p => goName title rename p.2.name) = ((ord.map S).map Prod.snd).map (fun f => goName title rename f.name) by simp only [List.map_map]; rfl, hgo]
    exact (hp.map _).nodup_iff.2 hnames
  · intro p hp q hq
    obtain ⟨k, q', f, h1, h2, h3⟩ := hpair p hp
    subst h2
    obtain rfl : q' = q := Option.some.inj (h1.1.symm.trans hq.1)
    exact h3.optional
  · intro p hp q hq
    obtain ⟨k, q', f, h1, h2, h3⟩ := hpair p hp
    subst h2
    obtain rfl : q' = q := Option.some.inj (h1.1.symm.trans hq.1)
    exact h3.twin

/-- The Go and Avro types for a type without parts; `tm` for times. -/
def LeafTwin (i : Instance) (t : Str) (g : GoType) (x : AType) (tm : Bool) : Prop :=
  (tm = false ∧ ∃ b n, (t, n) ∈ scalarTable ∧ (n, b) ∈ basicTable ∧ ¬ (t = g!"string" ∧ i.format = g!"date-time") ∧ g = .ident b ∧ x = .scalar n) ∨
  (tm = true ∧ t = g!"string" ∧ i.format = g!"date-time" ∧ g = .selector g!"Time" ∧ x = .time)

theorem readGoType_star {word : Str → Option GoType} {s : Str} {g : GoType} (b : Bool) (h : word s = some g) (hs : s.headD ' ' ≠ '*' ∧ s.headD ' ' ≠ '[') :
    readGoType word (starIf b ++ s) = some (if b = true then .star g else g) := by
  have : readGoType word s = some g := by
    unfold readGoType
    split
    · exact absurd rfl hs.1
    · exact absurd rfl hs.2
    · exact h
  cases b with
  | false => exact this
  | true => show (readGoType word s).map GoType.star = _; rw [this]; rfl

theorem readGoType_slice {word : Str → Option GoType} {s : Str} {g : GoType} (h : readGoType word s = some g) : readGoType word (g!"[]" ++ s) = some (.array g) := by
  show (readGoType word s).map GoType.array = _
  rw [h]
  rfl

theorem goodT_starIf {t : GoType} {x : AType} (b : Bool) (h : GoodT w t x) : GoodT w (if b = true then .star t else t) x := by
  cases b
  · exact h
  · exact goodT_star h

/-- The word for a type without parts, and the types it is read as. -/
theorem leaf_avro {q : P} {i : Instance} {t : Str} (hd : decodeInstance false q = .ok i) (ht : Spec.TypeIs i t) (htm : t ∈ scalarTable.map Prod.fst) :
    ∃ s g x, TypeFor title rename descTag (MayMiss false) q x ∧ GoodT w g x ∧ goWord s = some g ∧ (s.headD ' ' ≠ '*' ∧ s.headD ' ' ≠ '[') ∧ s ≠ [] ∧ 
      ∃ tm : Bool, LeafTwin i t g x tm ∧ ∀ a d k n u required, goType ⟨a, d, none, k, Spec.leafType i t, n, u, []⟩ required pointers [] =
        (if a then g!"[]" else []) ++ (starIf (u || (tm && pointers && !required)) ++ s) := by
  simp only [scalarTable, List.map_cons, List.map_nil, List.mem_cons, List.not_mem_nil, or_false] at htm
  rcases htm with rfl | rfl | rfl | rfl
  · refine ⟨g!"bool", _, _, .scalar hd ht (a := g!"boolean") (by decide) (by simp), goodT_scalar (i := g!"bool") rfl (plain_ascii (by decide)), rfl, by decide, by decide, false,
      .inl ⟨rfl, g!"bool", g!"boolean", by decide, by decide, by simp, rfl, rfl⟩, ?_⟩
    intro a d k n u required
    have : Spec.leafType i g!"boolean" = g!"boolean" := if_neg (by simp)
    rw [this]
    cases a <;> cases u <;> rfl
  · refine ⟨g!"float64", _, _, .scalar hd ht (a := g!"double") (by decide) (by simp), goodT_scalar (i := g!"float64") rfl (plain_ascii (by decide)), rfl, by decide, by decide, false,
      .inl ⟨rfl, g!"float64", g!"double", by decide, by decide, by simp, rfl, rfl⟩, ?_⟩
    intro a d k n u required
    have : Spec.leafType i g!"number" = g!"number" := if_neg (by simp)
    rw [this]
    cases a <;> cases u <;> rfl
  · refine ⟨g!"int64", _, _, .scalar hd ht (a := g!"long") (by decide) (by simp), goodT_scalar (i := g!"int64") rfl (plain_ascii (by decide)), rfl, by decide, by decide, false,
      .inl ⟨rfl, g!"int64", g!"long", by decide, by decide, by simp, rfl, rfl⟩, ?_⟩
    intro a d k n u required
    have : Spec.leafType i g!"integer" = g!"integer" := if_neg (by simp)
    rw [this]
    cases a <;> cases u <;> rfl
  · by_cases hf : i.format = g!"date-time"
    · refine ⟨g!"time.Time", _, _, .time hd ht hf, goodT_time, rfl, by decide, by decide, true, .inr ⟨rfl, rfl, hf, rfl, rfl⟩, ?_⟩
      intro a d k n u required
      have : Spec.leafType i g!"string" = g!"date-time" := if_pos ⟨rfl, hf⟩
      rw [this]
      cases a <;> cases u <;> cases pointers <;> cases required <;> rfl
    · refine ⟨g!"string", _, _, .scalar hd ht (a := g!"string") (by decide) (fun h => hf h.2), goodT_scalar (i := g!"string") rfl (plain_ascii (by decide)), rfl, by decide,
        by decide, false, .inl ⟨rfl, g!"string", g!"string", by decide, by decide, fun h => hf h.2, rfl, rfl⟩, ?_⟩
      intro a d k n u required
      have : Spec.leafType i g!"string" = g!"string" := if_neg (fun h => hf h.2)
      rw [this]
      cases a <;> cases u <;> rfl

theorem docOf {raw : P} {i : Instance} (hd : decodeInstance false raw = .ok i) : DocOf descTag raw (if descTag = true then firstLine i.description else []) := ⟨i, hd, rfl⟩

theorem plain_doc {p : Char → Bool} {i : Instance} (h : PlainDoc p descTag i) : PlainText p (if descTag = true then firstLine i.description else []) := by
  split
  · rename_i hd; exact h hd
  · intro c hc; cases hc

/-- When the tag has omitempty. -/
theorem omitEmpty_iff (f : EField) (required : Bool) :
    decide (omitOption f required [] = g!",omitempty") = true ↔ required = false ∧ ¬ (f.array = false ∧ f.nullable = false ∧ (f.fields.getD []).length ≠ 0) := by
  rw [omitOption_eq, decide_eq_true_iff]
  unfold optOf
  cases required
  · by_cases h : f.array = false ∧ f.nullable = false ∧ (f.fields.getD []).length ≠ 0
    · rw [show decide (f.array = false ∧ f.nullable = false ∧ (f.fields.getD []).length ≠ 0) = true from decide_eq_true h]
      exact ⟨fun e => absurd e (by decide), fun e => absurd h e.2⟩
    · rw [show decide (f.array = false ∧ f.nullable = false ∧ (f.fields.getD []).length ≠ 0) = false from decide_eq_false h]
      exact ⟨fun _ => ⟨rfl, h⟩, fun _ => rfl⟩
  · simp [omitText]

theorem bare_iff {raw : P} {i : Instance} {m : GMap P} (hd : decodeInstance false raw = .ok i) (ht : Spec.TypeIs i g!"object") (hp : i.properties = some m) :
    BareObject raw ↔ (∃ k q, Listed m k q) ∧ g!"null" ∉ i.type := by
  constructor
  · rintro ⟨i', m', h1, _, h3, h4, h5⟩
    rw [hd] at h1; cases h1
    rw [hp] at h3; cases h3
    exact ⟨h4, fun hn => h5 ⟨i, hd, hn⟩⟩
  · rintro ⟨h1, h2⟩
    refine ⟨i, m, hd, ht, hp, h1, ?_⟩
    rintro ⟨i', h3, h4⟩
    rw [hd] at h3; cases h3
    exact h2 h4

theorem not_bare {raw : P} {i : Instance} {t : Str} (hd : decodeInstance false raw = .ok i) (ht : Spec.TypeIs i t) (h : t ≠ g!"object") : ¬ BareObject raw := by
  rintro ⟨i', m', h1, h2, _⟩
  exact h (same_type hd h1 ht h2)

/-- The type of a field for an object, or a list of them. -/
theorem object_avro {q : P} {i : Instance} {m : GMap P} {fs : GMap EField} (hd : decodeInstance false q = .ok i) (ht : Spec.TypeIs i g!"object")
    (hp : i.properties = some m) (hf : Spec.FieldsOf title rename m fs) (hm : CleanNames title rename m) {a u required : Bool} {d k n : Str} (hk : TagName k)
    (hdesc : descTag = true → Quiet (firstLine d))
    (hS : ∀ k q f, Listed m k q → GMap.get k fs = some f → ∃ g x, AvroOf title rename descTag pointers w k q f (decide (k ∈ i.required)) g x) :
    ∃ g x, ReadsGo descTag pointers required ⟨a, d, some fs, k, g!"object", n, u, i.required⟩
        (.mk (some n) (if a = true then .array g else g) (tagOf ⟨a, d, some fs, k, g!"object", n, u, i.required⟩ required descTag)) ∧
      GoodT w g x ∧ TypeFor title rename descTag (MayMiss false) q x ∧ (fs ≠ [] ↔ ∃ k q, Listed m k q) ∧
      ((g = starred u stringMap ∧ x = .strings ∧ ∀ k q, ¬ Listed m k q) ∨ ∃ ps, (∃ k q, Listed m k q) ∧ g = starred u (.struct (ps.map Prod.fst)) ∧ x = .record (ps.map Prod.snd) ∧ Twins title rename pointers m i.required ps) := by
  obtain ⟨hkp, hkc⟩ := tagName_plain (p := fun _ => true) hk
  have hkq := plain_quiet hkp
  have hne : fs ≠ [] ↔ ∃ k q, Listed m k q := by
    constructor
    · intro h
      obtain ⟨⟨k, f⟩, t, rfl⟩ := List.exists_cons_of_ne_nil h
      refine ⟨k, Classical.byContradiction fun hno => ?_⟩
      have h1 := (hf.names k).2 fun q hq => Classical.byContradiction fun hh => hno ⟨q, hq, hh⟩
      rw [GMap.get_mem_nodup hf.sorted.nodup List.mem_cons_self] at h1
      cases h1
    · rintro ⟨k, q, hl⟩ rfl
      exact hl.2 ((hf.names k).1 rfl q hl.1)
  by_cases hfs : fs = []
  · have hno : ∀ k q, ¬ Listed m k q := fun k q hl => hne.2 ⟨k, q, hl⟩ hfs
    subst hfs
    refine ⟨if u = true then .star (.map (.ident g!"string") (.ident g!"string")) else .map (.ident g!"string") (.ident g!"string"), .strings, ?_, goodT_starIf u goodT_map,
      .strings hd ht hp hno, hne, .inl ⟨rfl, rfl, hno⟩⟩
    have hty : goType ⟨a, d, some [], k, g!"object", n, u, i.required⟩ required pointers [] =
        (if a then g!"[]" else []) ++ (starIf u ++ g!"map[string]string") := by cases a <;> cases u <;> rfl
    have hread := readGoType_star (word := goWord) (s := g!"map[string]string") u rfl (by decide)
    refine readsGo_plain (f := ⟨a, d, some [], k, g!"object", n, u, i.required⟩) hkq hkc hdesc ?_ ?_ (Or.inr rfl)
    · rw [hty]
      cases a with
      | false => exact hread
      | true => exact readGoType_slice hread
    · rw [hty]
      cases a <;> cases u <;> simp [starIf]
  · obtain ⟨ps, h1, h2, h3, h5⟩ := fields_avro hf hm hS
    have h2 := goodFs_of h2
    have hlen : fs.length ≠ 0 := by simpa using hfs
    refine ⟨if u = true then .star (.struct (ps.map Prod.fst)) else .struct (ps.map Prod.fst), .record (ps.map Prod.snd), ?_, goodT_starIf u (goodT_struct h2),
      .record hd ht hp (hne.1 hfs) h3.order h3.names h3.doc h3.optional h3.type, hne, .inr ⟨ps, hne.1 hfs, rfl, rfl, h5⟩⟩
    have hty : goType ⟨a, d, some fs, k, g!"object", n, u, i.required⟩ required pointers [] =
        (if a then g!"[]" else []) ++ (starIf u ++ g!"struct") := by
      have : ∀ x : Str × Bool, (if ((some fs : Option (GMap EField)).getD []).length = 0 then x else (g!"struct", false)) = (g!"struct", false) := fun x => if_neg hlen
      unfold goType
      simp only [this]
      cases a <;> cases u <;> rfl
    have hread := readGoType_star (word := goStructWord (ps.map Prod.fst)) (s := g!"struct") (g := .struct (ps.map Prod.fst)) u rfl (by decide)
    refine readsGo_struct hkq hkc hdesc hfs ?_ ?_ h1
    · rw [hty]
      cases a with
      | false => exact hread
      | true => exact readGoType_slice hread
    · rw [hty]
      cases a <;> cases u <;> simp [starIf]

/-- The field for a property gives the Avro field for it. -/
theorem field_avro {k : Str} {raw : P} {f : EField} (hf : Spec.FieldOf title rename k raw f) (hk : TagName k)
    (hcl : AvroClean title rename w.isPrint descTag raw) : ∀ required, ∃ g x, AvroOf title rename descTag pointers w k raw f required g x := by
  induction hf with
  | @leaf k raw i t hd ht hl =>
    intro required
    obtain ⟨hkp, hkc⟩ := tagName_plain (p := w.isPrint) hk
    have hkq := plain_quiet hkp
    have hcl' : t ∈ scalarTable.map Prod.fst ∧ PlainDoc w.isPrint descTag i := by
      cases hcl with
      | leaf h1 h2 h3 h4 => rw [hd] at h1; cases h1; rw [typeIs_unique ht h2]; exact ⟨h3, h4⟩
      | array h1 h2 => exact absurd (same_type hd h1 ht h2) hl.2.1
      | object h1 h2 => exact absurd (same_type hd h1 ht h2) hl.1
    obtain ⟨s, g, x, h1, h2, h3, h4, hsne, tm, htw, h5⟩ := leaf_avro (title := title) (rename := rename) (descTag := descTag) (pointers := pointers) (w := w) hd ht hcl'.1
    have hty := h5 false i.description k (Spec.goName title rename k) (decide (g!"null" ∈ i.type)) required
    simp only [Bool.false_eq_true, if_false, List.nil_append] at hty
    have hread := readGoType_star (decide (g!"null" ∈ i.type) || (tm && pointers && !required)) h3 h4
    have hr := readsGo_plain (descTag := descTag) (pointers := pointers) (required := required)
      (f := ⟨false, i.description, none, k, Spec.leafType i t, Spec.goName title rename k, decide (g!"null" ∈ i.type), []⟩) hkq hkc (fun h => plain_quiet (hcl'.2 h))
      (by rw [hty]; exact hread) (by rw [hty]; intro he; rw [he] at hread; simp [readGoType, goWord] at hread) (Or.inl rfl)
    refine ⟨_, .mk k _ x _, hr, ⟨⟨_, rfl⟩, rfl, rfl, rfl, hk.1, hkp, plain_doc hcl'.2, goodT_starIf _ h2⟩, rfl, docOf hd, ?_, h1, rfl, ?_⟩
    rotate_left
    · rcases htw with ⟨rfl, b, n, e1, e2, e3, rfl, rfl⟩ | ⟨rfl, rfl, e1, rfl, rfl⟩
      · exact (Bool.or_false _).symm ▸ Twin.scalar hd ht e1 e2 e3
      · exact Twin.time hd ht e1
    show decide _ = true ↔ _
    rw [omitEmpty_iff]
    simp [MayMiss, not_bare hd ht hl.1]
  | @leaves k raw items i j t hd ht hi hj hjt hl =>
    intro required
    obtain ⟨hkp, hkc⟩ := tagName_plain (p := w.isPrint) hk
    have hkq := plain_quiet hkp
    have hcl' : t ∈ scalarTable.map Prod.fst ∧ PlainDoc w.isPrint descTag i := by
      cases hcl with
      | leaf h1 h2 h3 h4 => rw [← same_type hd h1 ht h2] at h3; exact absurd h3 (by decide)
      | object h1 h2 => exact absurd (same_type hd h1 ht h2) (by decide)
      | array h1 h2 h3 h4 h5 =>
        rw [hd] at h1; cases h1
        rw [hi] at h3; cases h3
        refine ⟨?_, h4⟩
        cases h5 with
        | leaf h1 h2 h3 h4 => rw [same_type hj h1 hjt h2]; exact h3
        | array h1 h2 => exact absurd (same_type hj h1 hjt h2) hl.2.1
        | object h1 h2 => exact absurd (same_type hj h1 hjt h2) hl.1
    obtain ⟨s, g, x, h1, h2, h3, h4, hsne, tm, htw, h5⟩ := leaf_avro (title := title) (rename := rename) (descTag := descTag) (pointers := pointers) (w := w) hj hjt hcl'.1
    have hty := h5 true i.description k (Spec.goName title rename k) (decide (g!"null" ∈ i.type)) required
    simp only [if_true] at hty
    have hread := readGoType_slice (readGoType_star (decide (g!"null" ∈ i.type) || (tm && pointers && !required)) h3 h4)
    have hr := readsGo_plain (descTag := descTag) (pointers := pointers) (required := required)
      (f := ⟨true, i.description, none, k, Spec.leafType j t, Spec.goName title rename k, decide (g!"null" ∈ i.type), []⟩) hkq hkc (fun h => plain_quiet (hcl'.2 h))
      (by rw [hty]; exact hread) (by rw [hty]; intro he; exact hsne (List.append_eq_nil_iff.1 (List.append_cancel_left (he.trans (List.append_nil _).symm))).2) (Or.inl rfl)
    refine ⟨_, .mk k _ (.list x) _, hr, ⟨⟨_, rfl⟩, rfl, rfl, rfl, hk.1, hkp, plain_doc hcl'.2, goodT_array (goodT_starIf _ h2)⟩, rfl, docOf hd, ?_, .list hd ht hi h1, rfl, ?_⟩
    rotate_left
    · rcases htw with ⟨rfl, b, n, e1, e2, e3, rfl, rfl⟩ | ⟨rfl, rfl, e1, rfl, rfl⟩
      · exact (Bool.or_false _).symm ▸ Twin.scalars hd ht hi hj hjt e1 e2 e3
      · exact Twin.times hd ht hi hj hjt e1
    show decide _ = true ↔ _
    rw [omitEmpty_iff]
    simp [MayMiss, not_bare hd ht (by decide)]
  | @object k raw i m fs hd ht hp hs hnone hall ih =>
    intro required
    have hcl' : PlainDoc w.isPrint descTag i ∧ CleanNames title rename m ∧ ∀ k q, Listed m k q → AvroClean title rename w.isPrint descTag q := by
      cases hcl with
      | leaf h1 h2 h3 h4 => rw [← same_type hd h1 ht h2] at h3; exact absurd h3 (by decide)
      | array h1 h2 => exact absurd (same_type hd h1 ht h2) (by decide)
      | object h1 h2 h3 h4 h5 h6 =>
        rw [hd] at h1; cases h1
        rw [hp] at h3; cases h3
        exact ⟨h4, h5, h6⟩
    obtain ⟨g, x, hr, h1, h2, h3, h4⟩ := object_avro (descTag := descTag) (pointers := pointers) (w := w) (a := false) (n := Spec.goName title rename k) (k := k)
      (d := i.description) (u := decide (g!"null" ∈ i.type)) (required := required) hd ht hp ⟨hs, hnone, hall⟩ hcl'.2.1 hk (fun h => plain_quiet (hcl'.1 h))
      (fun k' q f hl hf => ih k' q f hl.1 hf (hcl'.2.1.tag _ _ hl) (hcl'.2.2 _ _ hl) _)
    refine ⟨_, .mk k _ x _, hr, ⟨⟨_, rfl⟩, rfl, rfl, rfl, hk.1, (tagName_plain hk).1, plain_doc hcl'.1, h1⟩, rfl, docOf hd, ?_, h2, rfl, ?_⟩
    rotate_left
    · rcases h4 with ⟨rfl, rfl, h5⟩ | ⟨ps, h6, rfl, rfl, h5⟩
      · exact .strings hd ht hp h5
      · exact .record hd ht hp h6 h5.name h5.listed h5.nodup h5.optional h5.type
    show decide _ = true ↔ _
    rw [omitEmpty_iff]
    simp only [MayMiss, Bool.false_eq_true, if_false, bare_iff hd ht hp, ← h3]
    simp [and_comm]
  | @objects k raw items i j m fs hd ht hi hj hjt hp hs hnone hall ih =>
    intro required
    have hcl' : PlainDoc w.isPrint descTag i ∧ CleanNames title rename m ∧ ∀ k q, Listed m k q → AvroClean title rename w.isPrint descTag q := by
      cases hcl with
      | leaf h1 h2 h3 h4 => rw [← same_type hd h1 ht h2] at h3; exact absurd h3 (by decide)
      | object h1 h2 => exact absurd (same_type hd h1 ht h2) (by decide)
      | array h1 h2 h3 h4 h5 =>
        rw [hd] at h1; cases h1
        rw [hi] at h3; cases h3
        refine ⟨h4, ?_⟩
        cases h5 with
        | leaf h1 h2 h3 h4 => rw [← same_type hj h1 hjt h2] at h3; exact absurd h3 (by decide)
        | array h1 h2 => exact absurd (same_type hj h1 hjt h2) (by decide)
        | object h1 h2 h3 h4 h5 h6 =>
          rw [hj] at h1; cases h1
          rw [hp] at h3; cases h3
          exact ⟨h5, h6⟩
    obtain ⟨g, x, hr, h1, h2, h3, h4⟩ := object_avro (descTag := descTag) (pointers := pointers) (w := w) (a := true) (n := Spec.goName title rename k) (k := k)
      (d := i.description) (u := decide (g!"null" ∈ i.type)) (required := required) hj hjt hp ⟨hs, hnone, hall⟩ hcl'.2.1 hk (fun h => plain_quiet (hcl'.1 h))
      (fun k' q f hl hf => ih k' q f hl.1 hf (hcl'.2.1.tag _ _ hl) (hcl'.2.2 _ _ hl) _)
    refine ⟨_, .mk k _ (.list x) _, hr, ⟨⟨_, rfl⟩, rfl, rfl, rfl, hk.1, (tagName_plain hk).1, plain_doc hcl'.1, goodT_array h1⟩, rfl, docOf hd, ?_, .list hd ht hi h2, rfl, ?_⟩
    rotate_left
    · rcases h4 with ⟨rfl, rfl, h5⟩ | ⟨ps, h6, rfl, rfl, h5⟩
      · exact .dicts hd ht hi hj hjt hp h5
      · exact .records hd ht hi hj hjt hp h5.name h5.listed h5.nodup h5.optional h5.type
    show decide _ = true ↔ _
    rw [omitEmpty_iff]
    simp [MayMiss, not_bare hd ht (by decide)]

end JT.Go
