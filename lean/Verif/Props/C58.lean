import Verif.Model.Avro
import Verif.Proofs.Json
/- C58: the generated Avro schema is JSON. -/
namespace JT.Go
open JT.Json

/-! ### Specification -/

/-- A string whose Go quotation is a JSON string: it has none of the control characters that JSON has no short escape for, and no unprintable character that needs
more than four hexadecimal digits. -/
def Spec.Quotable (isPrint : Char → Bool) (s : Str) : Prop :=
  ∀ c ∈ s, (0x20 ≤ c.toNat ∧ c.toNat ≠ 0x7f ∨ c.toNat ∈ [8, 9, 10, 12, 13]) ∧ (c.toNat < 0x10000 ∨ isPrint c = true)

/-- The name and the description of a field can be quoted. -/
def Spec.QuotableTag (isPrint : Char → Bool) (k : Str) (tag : Tag) : Prop :=
  Spec.Quotable isPrint (if tag.name = [] then k else tag.name) ∧ Spec.Quotable isPrint tag.description

mutual
/-- A type without embedded structs that has an Avro type, and that is finite when the named structs are unfolded. -/
inductive Spec.Good (w : World) : GoType → Prop where
  | star {x} : Spec.Good w x → Spec.Good w (.star x)
  | prim {i} : i ∈ [g!"bool", g!"int", g!"uint", g!"int64", g!"uint64", g!"int8", g!"int16", g!"int32", g!"uint8", g!"uint16", g!"uint32", g!"float32", g!"float64",
      g!"byte", g!"string"] → Spec.Good w (.ident i)
  | named {i fs} : w.pkg i = some fs → Spec.GoodAll w fs → Spec.Good w (.ident i)
  | map {k v} : Spec.Good w k → Spec.Good w v → Spec.Good w (.map k v)
  | array {e} : Spec.Good w e → Spec.Good w (.array e)
  | struct {fs} : Spec.GoodAll w fs → Spec.Good w (.struct fs)
  | time : Spec.Good w (.selector g!"Time")
/-- Fields of such types. -/
inductive Spec.GoodAll (w : World) : List GoField → Prop where
  | nil : Spec.GoodAll w []
  | cons {k t tag l} : Spec.Good w t → Spec.QuotableTag w.isPrint k tag → Spec.GoodAll w l → Spec.GoodAll w (.mk (some k) t tag :: l)
end

/-- A list of fields, some of them embedded structs, whose last field is not left out.  A field is left out if the embedding struct declares its name (`exf`), an embedded
struct if it was embedded before (`seen`, and `seen'` at the end).  `names` are the names that the list itself declares. -/
inductive Spec.Listed (w : World) : (exf names seen : List Str) → List GoField → (seen' : List Str) → Prop where
  | lastField {exf names seen k t tag} : k ∉ exf → Spec.Good w t → Spec.QuotableTag w.isPrint k tag → Spec.Listed w exf names seen [.mk (some k) t tag] seen
  | field {exf names seen k t tag l seen'} : k ∉ exf → Spec.Good w t → Spec.QuotableTag w.isPrint k tag → Spec.Listed w exf names seen l seen' →
      Spec.Listed w exf names seen (.mk (some k) t tag :: l) seen'
  | skipField {exf names seen k t tag l seen'} : k ∈ exf → Spec.Listed w exf names seen l seen' → Spec.Listed w exf names seen (.mk (some k) t tag :: l) seen'
  | lastEmbedded {exf names seen e tag fs seen1} : e ∉ seen → w.files e = some fs → Spec.Quotable w.isPrint e →
      Spec.Listed w names (fs.filterMap GoField.name) seen fs seen1 → Spec.Listed w exf names seen [.mk none (.ident e) tag] (e :: seen1)
  | embedded {exf names seen e tag fs seen1 l seen'} : e ∉ seen → w.files e = some fs → Spec.Quotable w.isPrint e →
      Spec.Listed w names (fs.filterMap GoField.name) seen fs seen1 → Spec.Listed w exf names (e :: seen1) l seen' →
      Spec.Listed w exf names seen (.mk none (.ident e) tag :: l) seen'
  | skipEmbedded {exf names seen e tag l seen'} : e ∈ seen → Spec.Listed w exf names seen l seen' →
      Spec.Listed w exf names seen (.mk none (.ident e) tag :: l) seen'

/-! ### Quotation -/

variable {w : World}

theorem hexChar_hex {n : Nat} (h : n < 16) : hexDigit (hexChar n) := by
  have : ∀ n ∈ List.range 16, (48 ≤ (hexChar n).toNat ∧ (hexChar n).toNat ≤ 57) ∨ (97 ≤ (hexChar n).toNat ∧ (hexChar n).toNat ≤ 102) := by decide
  rcases this n (List.mem_range.2 h) with h | h
  · exact Or.inl h
  · exact Or.inr (Or.inl h)

theorem chars_one {s : Str} (h : Piece s) : Chars s := by
  have := Chars.cons h .nil
  simpa using this

theorem quoteChar_chars {p : Char → Bool} {c : Char} (h : (0x20 ≤ c.toNat ∧ c.toNat ≠ 0x7f ∨ c.toNat ∈ [8, 9, 10, 12, 13]) ∧ (c.toNat < 0x10000 ∨ p c = true)) :
    Chars (quoteChar p c) := by
  obtain ⟨h1, h2⟩ := h
  simp only [List.mem_cons, List.not_mem_nil, or_false] at h1
  unfold quoteChar
  split
  · rename_i hc
    apply chars_one
    exact .esc (by rcases hc with rfl | rfl <;> decide)
  · rename_i hc
    simp only [not_or] at hc
    split
    · rename_i hp
      apply chars_one
      exact .plain (by omega) hc.1 hc.2
    · rename_i hp
      split
      · omega
      split
      · exact chars_one (.esc (by decide))
      split
      · exact chars_one (.esc (by decide))
      split
      · exact chars_one (.esc (by decide))
      split
      · exact chars_one (.esc (by decide))
      split
      · exact chars_one (.esc (by decide))
      split
      · omega
      split
      · omega
      split
      · apply chars_one
        simp only [hexDigits, List.nil_append, List.cons_append]
        exact .uni (hexChar_hex (Nat.mod_lt _ (by decide))) (hexChar_hex (Nat.mod_lt _ (by decide))) (hexChar_hex (Nat.mod_lt _ (by decide)))
          (hexChar_hex (Nat.mod_lt _ (by decide)))
      · exfalso
        apply hp
        rcases h2 with h2 | h2
        · omega
        · exact Or.inr ⟨by omega, h2⟩

theorem flat_chars {p : Char → Bool} : ∀ {s : Str}, Spec.Quotable p s → Chars (s.flatMap (quoteChar p))
  | [], _ => .nil
  | c :: s, h => by
    rw [List.flatMap_cons]
    exact chars_append (quoteChar_chars (h c (List.mem_cons_self ..))) (flat_chars fun c hc => h c (List.mem_cons_of_mem _ hc))

theorem quote_val {p : Char → Bool} {s : Str} (h : Spec.Quotable p s) : Val (quote p s) := .str (flat_chars h)

theorem quotable_append {p : Char → Bool} {a b : Str} (ha : Spec.Quotable p a) (hb : Spec.Quotable p b) : Spec.Quotable p (a ++ b) := by
  intro c hc
  rcases List.mem_append.1 hc with h | h
  · exact ha c h
  · exact hb c h

theorem quotable_join {p : Char → Bool} : ∀ {l : List Str}, (∀ s ∈ l, Spec.Quotable p s) → Spec.Quotable p (join g!"." l)
  | [], _ => by intro c h; cases h
  | [a], h => h a (List.mem_cons_self ..)
  | a :: b :: l, h => by
    have hd : Spec.Quotable p g!"." := by
      intro c hc
      simp only [List.mem_singleton] at hc
      subst hc
      exact ⟨Or.inl (by decide), Or.inl (by decide)⟩
    exact quotable_append (quotable_append (h a (List.mem_cons_self ..)) hd) (quotable_join fun s hs => h s (List.mem_cons_of_mem _ hs))

theorem quotable_ascii {p : Char → Bool} {s : Str} (h : s.all (fun c => decide (0x20 ≤ c.toNat) && decide (c.toNat < 0x7f)) = true) : Spec.Quotable p s := by
  intro c hc
  have := List.all_eq_true.1 h c hc
  simp only [Bool.and_eq_true, decide_eq_true_eq] at this
  exact ⟨Or.inl (by omega), Or.inl (by omega)⟩

/-! ### Pieces of the text -/

/-- A member with a plain key and value. -/
def kv (k v : Str) : Str := '"' :: k ++ '"' :: ':' :: ('"' :: v ++ ['"'])

theorem mems_kv {k v : Str} (hk : plain k = true) (hv : plain v = true) : Mems (kv k v) := mem (chars_plain hk) (val_plain hv)

/-- The text after `"type":` makes a member. -/
def TypeTail (t : Str) : Prop := Mems (g!"\"type\":" ++ t)

theorem tail_of_val {t : Str} (h : Val t) : TypeTail t := mem (k := g!"type") (chars_plain (by decide)) h

theorem val_null {t : Str} (h : Val t) : Val (g!"[\"null\"," ++ t ++ g!"]") := by
  have := Val.arr (elems_append (elem (val_plain (s := g!"null") (by decide))) (elem h))
  simpa using this

theorem primitive_plain {i p : Str} (h : primitive i = some p) : Spec.Quotable w.isPrint p := by
  have : p ∈ [g!"boolean", g!"long", g!"int", g!"float", g!"double", g!"bytes", g!"string"] := by
    unfold primitive at h
    repeat' split at h
    all_goals first | (cases h; done) | (simp only [Option.some.injEq] at h; subst h; decide)
  apply quotable_ascii
  clear h
  revert p
  decide

theorem primitiveText_json {p : Str} (h : Spec.Quotable w.isPrint p) (nullable : Bool) :
    TypeTail (primitiveText w p nullable) ∧ (nullable = false → Val (primitiveText w p nullable)) := by
  have hv := quote_val h
  cases nullable with
  | false => exact ⟨tail_of_val hv, fun _ => hv⟩
  | true =>
    refine ⟨?_, fun h => by cases h⟩
    simp only [primitiveText, if_true]
    split
    · have := mems_append (tail_of_val hv) (mem (k := g!"default") (chars_plain (by decide)) (.lit (s := g!"false") (by simp)))
      simpa [TypeTail] using this
    · exact tail_of_val (val_null hv)

theorem time_val : Val g!"{\"type\":\"long\",\"logicalType\":\"timestamp-millis\"}" := by
  have := Val.obj (mems_append (mems_kv (k := g!"type") (v := g!"long") (by decide) (by decide))
    (mems_kv (k := g!"logicalType") (v := g!"timestamp-millis") (by decide) (by decide)))
  exact this

theorem selectorText_json (nullable : Bool) :
    TypeTail (selectorText w g!"Time" nullable) ∧ (nullable = false → Val (selectorText w g!"Time" nullable)) := by
  cases nullable with
  | false => exact ⟨tail_of_val time_val, fun _ => time_val⟩
  | true => exact ⟨tail_of_val (val_null time_val), fun h => by cases h⟩

theorem arrayText_val {t : Str} (h : Val t) : Val (arrayText t) := by
  have ht : Mems (kv g!"type" g!"array") := mems_kv (by decide) (by decide)
  have hi : Chars g!"items" := chars_plain (by decide)
  unfold arrayText
  split
  · have := Val.obj (mems_append ht (mem hi h))
    simpa [kv] using this
  · have := Val.obj (mems_append ht (mem hi (.obj (mem' (k := g!"type") (chars_plain (by decide)) h))))
    simpa [kv] using this

theorem mapText_val {t : Str} (h : Val t) : Val (g!"{\"type\": \"map\", \"values\": " ++ t ++ g!"}") := by
  have h1 : Mems g!"\"type\": \"map\"" := mem' (k := g!"type") (chars_plain (by decide)) (val_plain (s := g!"map") (by decide))
  have h2 : Mems (g!" \"values\": " ++ t) := by
    have := Mems.one (a := [' ']) (k := g!"values") (c := [' ']) (by intro c h; simp at h; exact Or.inl h) (chars_plain (by decide)) ws_nil
      (by intro c h; simp at h; exact Or.inl h) h ws_nil
    simpa using this
  have := Val.obj (mems_append h1 h2)
  simpa using this

/-- The names of a namespace can be quoted. -/
def NsOk (w : World) (ns : List Str) : Prop := ∀ s ∈ ns, Spec.Quotable w.isPrint s

/-- A record, from the inside of its list of fields. -/
theorem record_val {name : Str} {ns : List Str} {body : Str} (hn : Spec.Quotable w.isPrint name) (hns : NsOk w ns) (hb : body = [] ∨ Elems body) :
    Val (g!"{" ++ (recordHead w name ns [] ++ body) ++ g!"]}") := by
  have hname : Mems (g!"\"name\":" ++ quote w.isPrint name) := mem (k := g!"name") (chars_plain (by decide)) (quote_val hn)
  have htype : Mems g!"\"type\":\"record\"" := mems_kv (k := g!"type") (v := g!"record") (by decide) (by decide)
  have hval : Val (g!"[" ++ body ++ g!"]") := by
    rcases hb with rfl | hb
    · exact .arr0 ws_nil
    · exact .arr hb
  have hfields : Mems (g!"\"fields\":" ++ (g!"[" ++ body ++ g!"]")) := mem (k := g!"fields") (chars_plain (by decide)) hval
  unfold recordHead
  split
  · have := Val.obj (mems_append hname (mems_append htype hfields))
    simpa using this
  · have hnsp : Mems (g!"\"namespace\":" ++ quote w.isPrint (join g!"." ns)) := mem (k := g!"namespace") (chars_plain (by decide)) (quote_val (quotable_join hns))
    have := Val.obj (mems_append hname (mems_append hnsp (mems_append htype hfields)))
    simpa using this

theorem nestedText_json {name : Str} {ns : List Str} {body : Str} (hn : Spec.Quotable w.isPrint name) (hns : NsOk w ns) (hb : body = [] ∨ Elems body) (nullable : Bool) :
    TypeTail (nestedText (recordHead w name ns [] ++ body) nullable) ∧ (nullable = false → Val (nestedText (recordHead w name ns [] ++ body) nullable)) := by
  have hv := record_val hn hns hb
  cases nullable with
  | false => exact ⟨tail_of_val hv, fun _ => hv⟩
  | true =>
    refine ⟨tail_of_val ?_, fun h => by cases h⟩
    have := val_null hv
    simpa [nestedText] using this

theorem fieldText_val {ns : List Str} {name doc t : Str} (hns : NsOk w ns) (hn : Spec.Quotable w.isPrint name) (hd : Spec.Quotable w.isPrint doc) (ht : TypeTail t) :
    Val (fieldText w ns name doc t) := by
  have hname : Mems (g!"\"name\":" ++ quote w.isPrint name) := mem (k := g!"name") (chars_plain (by decide)) (quote_val hn)
  have hnsp : Mems (g!"\"namespace\":" ++ quote w.isPrint (join g!"." ns)) := mem (k := g!"namespace") (chars_plain (by decide)) (quote_val (quotable_join hns))
  have hdoc : Mems (g!"\"doc\":" ++ quote w.isPrint doc) := mem (k := g!"doc") (chars_plain (by decide)) (quote_val hd)
  unfold TypeTail at ht
  unfold fieldText
  split <;> split
  · have := Val.obj (mems_append hname ht)
    simpa using this
  · have := Val.obj (mems_append hname (mems_append hdoc ht))
    simpa using this
  · have := Val.obj (mems_append hname (mems_append hnsp ht))
    simpa using this
  · have := Val.obj (mems_append hname (mems_append hnsp (mems_append hdoc ht)))
    simpa using this

theorem ns_snoc {ns : List Str} {s : Str} (h : NsOk w ns) (hs : Spec.Quotable w.isPrint s) : NsOk w (ns ++ [s]) := by
  intro x hx
  rcases List.mem_append.1 hx with hx | hx
  · exact h x hx
  · simp only [List.mem_singleton] at hx; subst hx; exact hs

theorem record_name {s : Str} (hs : Spec.Quotable w.isPrint s) : Spec.Quotable w.isPrint (s ++ g!"_record") :=
  quotable_append hs (quotable_ascii (by decide))

/-! ### Types -/

/-- The text of a type is JSON. -/
def TypeOk (w : World) (t : GoType) : Prop :=
  ∃ N, ∀ n, N ≤ n → ∀ ns seen name nullable, NsOk w ns → Spec.Quotable w.isPrint name →
    ∃ txt, avroType w n ns seen t name nullable = .ok (txt, seen) ∧ TypeTail txt ∧ (nullable = false → Val txt)

/-- The text of fields is JSON. -/
def FieldsOk (w : World) (l : List GoField) : Prop :=
  ∃ N, ∀ n, N ≤ n → ∀ ns fm seen, NsOk w ns →
    ∃ txt, fieldLoop w (avroType w n) (avroFields w n) [] ns fm l seen = .ok (txt, seen) ∧ (l = [] → txt = []) ∧ (l ≠ [] → Elems txt)

theorem fields_nested {l : List GoField} (h : FieldsOk w l) : ∃ N, ∀ n, N ≤ n → ∀ ns seen, NsOk w ns →
    ∃ txt, avroFields w n [] ns l seen = .ok (txt, seen) ∧ (txt = [] ∨ Elems txt) := by
  obtain ⟨N, hN⟩ := h
  refine ⟨N + 1, fun n hn ns seen hns => ?_⟩
  obtain ⟨n, rfl⟩ : ∃ m, n = m + 1 := ⟨n - 1, by omega⟩
  obtain ⟨txt, h1, h2, h3⟩ := hN n (by omega) ns (fieldNames l) seen hns
  refine ⟨txt, h1, ?_⟩
  by_cases hl : l = []
  · exact Or.inl (h2 hl)
  · exact Or.inr (h3 hl)

theorem prim_some {i : Str} (h : i ∈ [g!"bool", g!"int", g!"uint", g!"int64", g!"uint64", g!"int8", g!"int16", g!"int32", g!"uint8", g!"uint16", g!"uint32", g!"float32",
    g!"float64", g!"byte", g!"string"]) : (primitive i).isSome = true := by
  revert i
  decide

theorem good_type {t : GoType} (h : Spec.Good w t) : TypeOk w t := by
  refine Spec.Good.rec (motive_1 := fun t _ => TypeOk w t) (motive_2 := fun l _ => FieldsOk w l) ?_ ?_ ?_ ?_ ?_ ?_ ?_ ?_ ?_ h
  · rintro x _ ⟨N, ih⟩
    refine ⟨N + 1, fun n hn ns seen name nullable hns hname => ?_⟩
    obtain ⟨n, rfl⟩ : ∃ m, n = m + 1 := ⟨n - 1, by omega⟩
    rw [avroType]
    exact ih n (by omega) ns seen name nullable hns hname
  · intro i hi
    refine ⟨1, fun n hn ns seen name nullable hns hname => ?_⟩
    obtain ⟨n, rfl⟩ : ∃ m, n = m + 1 := ⟨n - 1, by omega⟩
    obtain ⟨p, hp⟩ := Option.isSome_iff_exists.1 (prim_some hi)
    simp only [avroType, hp]
    exact ⟨_, rfl, primitiveText_json (primitive_plain hp) nullable⟩
  · intro i fs hf _ ih
    obtain ⟨N, ih⟩ := fields_nested ih
    refine ⟨N + 1, fun n hn ns seen name nullable hns hname => ?_⟩
    obtain ⟨n, rfl⟩ : ∃ m, n = m + 1 := ⟨n - 1, by omega⟩
    cases hp : primitive i with
    | some p =>
      simp only [avroType, hp]
      exact ⟨_, rfl, primitiveText_json (primitive_plain hp) nullable⟩
    | none =>
      obtain ⟨txt, h1, h2⟩ := ih n (by omega) (ns ++ [name]) seen (ns_snoc hns hname)
      simp only [avroType, hp, hf, h1, Res.bind]
      exact ⟨_, rfl, nestedText_json (record_name hname) (ns_snoc hns hname) h2 nullable⟩
  · rintro k v _ _ ⟨N1, ih1⟩ ⟨N2, ih2⟩
    refine ⟨N1 + N2 + 1, fun n hn ns seen name nullable hns hname => ?_⟩
    obtain ⟨n, rfl⟩ : ∃ m, n = m + 1 := ⟨n - 1, by omega⟩
    obtain ⟨t1, h1, _, _⟩ := ih1 n (by omega) ns seen name false hns hname
    obtain ⟨t2, h2, _, h3⟩ := ih2 n (by omega) ns seen name false hns hname
    simp only [avroType, h1, h2, Res.bind]
    have := mapText_val (h3 rfl)
    exact ⟨_, rfl, tail_of_val this, fun _ => this⟩
  · rintro e _ ⟨N, ih⟩
    refine ⟨N + 1, fun n hn ns seen name nullable hns hname => ?_⟩
    obtain ⟨n, rfl⟩ : ∃ m, n = m + 1 := ⟨n - 1, by omega⟩
    obtain ⟨t1, h1, _, h2⟩ := ih n (by omega) ns seen name false hns hname
    simp only [avroType, h1, Res.bind]
    have := arrayText_val (h2 rfl)
    exact ⟨_, rfl, tail_of_val this, fun _ => this⟩
  · intro fs _ ih
    obtain ⟨N, ih⟩ := fields_nested ih
    refine ⟨N + 1, fun n hn ns seen name nullable hns hname => ?_⟩
    obtain ⟨n, rfl⟩ : ∃ m, n = m + 1 := ⟨n - 1, by omega⟩
    obtain ⟨txt, h1, h2⟩ := ih n (by omega) (ns ++ [name]) seen (ns_snoc hns hname)
    simp only [avroType, h1, Res.bind]
    exact ⟨_, rfl, nestedText_json (record_name hname) (ns_snoc hns hname) h2 nullable⟩
  · refine ⟨1, fun n hn ns seen name nullable hns hname => ?_⟩
    obtain ⟨n, rfl⟩ : ∃ m, n = m + 1 := ⟨n - 1, by omega⟩
    simp only [avroType]
    exact ⟨_, rfl, selectorText_json nullable⟩
  · exact ⟨0, fun n _ ns fm seen _ => ⟨[], rfl, fun _ => rfl, fun h => absurd rfl h⟩⟩
  · rintro k t tag l _ hq _ ⟨N1, ih1⟩ ⟨N2, ih2⟩
    refine ⟨N1 + N2, fun n hn ns fm seen hns => ?_⟩
    obtain ⟨t1, h1, h2, _⟩ := ih1 n (by omega) ns seen (avroName k tag) tag.omitEmpty hns hq.1
    obtain ⟨t2, h3, h4, h5⟩ := ih2 n (by omega) ns fm seen hns
    have hv := fieldText_val (name := avroName k tag) hns hq.1 hq.2 h2
    simp only [fieldLoop, oneField, List.not_mem_nil, if_false, h1, Res.bind, h3]
    refine ⟨_, rfl, fun h => absurd h (List.cons_ne_nil _ _), fun _ => ?_⟩
    cases l with
    | nil =>
      rw [h4 rfl]
      simp only [comma, List.isEmpty_nil, Bool.not_true, Bool.and_false, Bool.false_eq_true, if_false, List.append_nil]
      exact elem hv
    | cons x l =>
      have := elems_append (elem hv) (h5 (by simp))
      simpa [comma] using this

/-! ### Lists with embedded structs -/

theorem listed_ne {exf names seen l seen'} (h : Spec.Listed w exf names seen l seen') : l ≠ [] := by
  cases h <;> simp

theorem listed_json {exf names seen l seen'} (h : Spec.Listed w exf names seen l seen') : ∃ N, ∀ n, N ≤ n → ∀ ns, NsOk w ns →
    ∃ txt, fieldLoop w (avroType w n) (avroFields w n) exf ns names l seen = .ok (txt, seen') ∧ Elems txt := by
  induction h with
  | @lastField exf names seen k t tag hk ht hq =>
    obtain ⟨N, hN⟩ := good_type ht
    refine ⟨N, fun n hn ns hns => ?_⟩
    obtain ⟨t1, h1, h2, _⟩ := hN n hn ns seen (avroName k tag) tag.omitEmpty hns hq.1
    have hv := fieldText_val (name := avroName k tag) hns hq.1 hq.2 h2
    simp only [fieldLoop, oneField, hk, if_false, h1, Res.bind]
    exact ⟨_, rfl, by simpa [comma] using elem hv⟩
  | @field exf names seen k t tag l seen' hk ht hq hl ih =>
    obtain ⟨N, hN⟩ := good_type ht
    obtain ⟨N2, hN2⟩ := ih
    refine ⟨N + N2, fun n hn ns hns => ?_⟩
    obtain ⟨t1, h1, h2, _⟩ := hN n (by omega) ns seen (avroName k tag) tag.omitEmpty hns hq.1
    obtain ⟨t2, h3, h4⟩ := hN2 n (by omega) ns hns
    have hv := fieldText_val (name := avroName k tag) hns hq.1 hq.2 h2
    have hne : l.isEmpty = false := by cases l with | nil => exact absurd rfl (listed_ne hl) | cons => rfl
    simp only [fieldLoop, oneField, hk, if_false, h1, Res.bind, h3]
    refine ⟨_, rfl, ?_⟩
    simpa [comma, hne] using elems_append (elem hv) h4
  | @skipField exf names seen k t tag l seen' hk hl ih =>
    obtain ⟨N2, hN2⟩ := ih
    refine ⟨N2, fun n hn ns hns => ?_⟩
    obtain ⟨t2, h3, h4⟩ := hN2 n hn ns hns
    simp only [fieldLoop, oneField, hk, if_true, Res.bind, h3]
    exact ⟨_, rfl, by simpa [comma] using h4⟩
  | @lastEmbedded exf names seen e tag fs seen1 he hf hq _ ih =>
    obtain ⟨N, hN⟩ := ih
    refine ⟨N + 1, fun n hn ns hns => ?_⟩
    obtain ⟨n, rfl⟩ : ∃ m, n = m + 1 := ⟨n - 1, by omega⟩
    obtain ⟨t1, h1, h2⟩ := hN n (by omega) (ns ++ [e]) (ns_snoc hns hq)
    have h1' : avroFields w (n + 1) names (ns ++ [e]) fs seen = .ok (t1, seen1) := h1
    simp only [fieldLoop, oneField, he, if_false, embedText, hf, h1', Res.bind]
    exact ⟨_, rfl, by simpa [comma] using h2⟩
  | @embedded exf names seen e tag fs seen1 l seen' he hf hq _ hl ih ih2 =>
    obtain ⟨N, hN⟩ := ih
    obtain ⟨N2, hN2⟩ := ih2
    refine ⟨N + N2 + 1, fun n hn ns hns => ?_⟩
    obtain ⟨t2, h3, h4⟩ := hN2 n (by omega) ns hns
    obtain ⟨n, rfl⟩ : ∃ m, n = m + 1 := ⟨n - 1, by omega⟩
    obtain ⟨t1, h1, h2⟩ := hN n (by omega) (ns ++ [e]) (ns_snoc hns hq)
    have h1' : avroFields w (n + 1) names (ns ++ [e]) fs seen = .ok (t1, seen1) := h1
    have hne : l.isEmpty = false := by cases l with | nil => exact absurd rfl (listed_ne hl) | cons => rfl
    simp only [fieldLoop, oneField, he, if_false, embedText, hf, h1', Res.bind, h3]
    refine ⟨_, rfl, ?_⟩
    simpa [comma, hne] using elems_append h2 h4
  | @skipEmbedded exf names seen e tag l seen' he hl ih =>
    obtain ⟨N2, hN2⟩ := ih
    refine ⟨N2, fun n hn ns hns => ?_⟩
    obtain ⟨t2, h3, h4⟩ := hN2 n hn ns hns
    simp only [fieldLoop, oneField, he, if_true, Res.bind, h3]
    exact ⟨_, rfl, by simpa [comma] using h4⟩

/-! ### The fields that every schema has -/

set_option maxRecDepth 10000 in
theorem metadata_json : ∃ m, Elems m ∧ metadataFields = m ++ [','] := by
  refine ⟨'{' :: (kv g!"name" g!"AvroWriteTime" ++ ',' :: (kv g!"doc" g!"The timestamp when this avro data is written. Useful for identifying the newest row of data sharing keys." ++ ',' :: (kv g!"type" g!"long" ++ ',' :: kv g!"logicalType" g!"timestamp-millis"))) ++ ['}'] ++ ',' ::
    ('{' :: (kv g!"name" g!"AvroDeleted" ++ ',' :: (kv g!"doc" g!"This is set to true when the Avro data is recording a delete in the source data." ++ ',' :: (g!"\"default\":false" ++ ',' :: kv g!"type" g!"boolean"))) ++ ['}']), ?_, ?_⟩
  · refine elems_append (elem (.obj ?_)) (elem (.obj ?_))
    · exact mems_append (mems_kv (by decide) (by decide)) (mems_append (mems_kv (by decide) (by decide)) (mems_append (mems_kv (by decide) (by decide)) (mems_kv (by decide) (by decide))))
    · exact mems_append (mems_kv (by decide) (by decide)) (mems_append (mems_kv (by decide) (by decide))
        (mems_append (mem (k := g!"default") (v := g!"false") (chars_plain (by decide)) (.lit (by simp))) (mems_kv (by decide) (by decide))))
  · rfl

/-! ### Theorems -/

/-- The schema of a struct is a JSON text if the last field of no list is left out, all types are supported, and names and descriptions can be quoted. -/
theorem C58_partial {name : Str} {l : List GoField} {seen : List Str} (hn : Spec.Quotable w.isPrint name)
    (hl : Spec.Listed w [] (l.filterMap GoField.name) [] l seen) :
    ∃ N, ∀ n, N ≤ n → ∃ txt, avroSchema w n name l = .ok txt ∧ Text txt := by
  obtain ⟨N, hN⟩ := listed_json hl
  refine ⟨N + 1, fun n hn' => ?_⟩
  obtain ⟨n, rfl⟩ : ∃ m, n = m + 1 := ⟨n - 1, by omega⟩
  obtain ⟨t, h1, h2⟩ := hN n (by omega) [] (by intro s h; cases h)
  have h1' : avroFields w (n + 1) [] [] l [] = .ok (t, seen) := h1
  simp only [avroSchema, h1', Res.bind]
  refine ⟨_, rfl, text ?_⟩
  obtain ⟨m, hm, hme⟩ := metadata_json
  have := record_val (ns := []) hn (by intro s h; cases h) (Or.inr (elems_append hm h2))
  have he : recordHead w name [] metadataFields = recordHead w name [] [] ++ metadataFields := by simp [recordHead]
  rw [he, hme]
  simpa using this

/-! ### The cases exist -/

namespace C58ex

def str (k : Str) : GoField := .mk (some k) (.ident g!"string") {}
def emb (e : Str) : GoField := .mk none (.ident e) {}

/-- `Base` has the fields `Id` and `Title`, `Base2` has `Title` and `Id`; `Item` is a named struct. -/
def world : World :=
  { isPrint := fun _ => true
    pkg := fun n => if n = g!"Item" then some [.mk (some g!"Url") (.star (.ident g!"string")) { name := g!"url", description := g!"A \"link\"", omitEmpty := true }] else none
    files := fun n => if n = g!"Base" then some [str g!"Id", str g!"Title"] else if n = g!"Base2" then some [str g!"Title", str g!"Id"] else none }

/-- A struct that embeds `Base` and has an optional list of `Item`, a time, and an anonymous struct. -/
def fields : List GoField :=
  [emb g!"Base", .mk (some g!"Items") (.array (.ident g!"Item")) { name := g!"items", omitEmpty := true }, .mk (some g!"When") (.selector g!"Time") {},
   .mk (some g!"Id") (.struct [str g!"A", .mk (some g!"B") (.map (.ident g!"string") (.ident g!"bool")) {}]) {}]

theorem quotable {k : Str} {tag : Tag} (h : (k ++ tag.name ++ tag.description).all (fun c => decide (0x20 ≤ c.toNat) && decide (c.toNat < 0x7f)) = true) :
    Spec.QuotableTag world.isPrint k tag := by
  simp only [List.all_append, Bool.and_eq_true] at h
  refine ⟨?_, quotable_ascii h.2⟩
  split
  · exact quotable_ascii h.1.1
  · exact quotable_ascii h.1.2

/-- The hypotheses of `C58_partial` hold for it. -/
theorem listed : Spec.Listed world [] (fields.filterMap GoField.name) [] fields [g!"Base"] := by
  refine .embedded (fs := [str g!"Id", str g!"Title"]) (seen1 := []) (by simp) rfl (quotable_ascii (by decide)) ?_ ?_
  · exact .skipField (by decide) (.lastField (by decide) (.prim (by decide)) (quotable (by decide)))
  · refine .field (by simp) (.array (.named rfl (.cons (.star (.prim (by decide))) (quotable (by decide)) .nil))) (quotable (by decide)) ?_
    refine .field (by simp) .time (quotable (by decide)) ?_
    exact .lastField (by simp) (.struct (.cons (.prim (by decide)) (quotable (by decide)) (.cons (.map (.prim (by decide)) (.prim (by decide))) (quotable (by decide)) .nil)))
      (quotable (by decide))

end C58ex

open C58ex in
example : ∃ N, ∀ n, N ≤ n → ∃ txt, avroSchema world n g!"Root" fields = .ok txt ∧ Text txt := C58_partial (quotable_ascii (by decide)) listed

/-- The text is not JSON. -/
def Broken (w : World) (name : Str) (l : List GoField) : Prop := ∃ n txt, avroSchema w n name l = .ok txt ∧ ¬ Text txt

/-- Whether the scanner stops. -/
def stops (r : Res Str) : Bool :=
  match r with
  | .ok t => run .out t != some .out
  | _ => false

theorem broken_of {w : World} {name : Str} {l : List GoField} (n : Nat) (h : stops (avroSchema w n name l) = true) : Broken w name l := by
  cases hr : avroSchema w n name l with
  | ok t =>
    refine ⟨n, t, hr, not_text ?_⟩
    simpa [hr, stops] using h
  | err => simp [hr, stops] at h
  | panic => simp [hr, stops] at h

open C58ex in
/-- It is not so in general: if a struct declares the field that is the last one of a struct it embeds, there are two commas in a row. -/
theorem C58_refuted : Broken world g!"Root" [emb g!"Base2", str g!"Id"] := broken_of 5 (by decide +kernel)

open C58ex in
/-- Nor for a struct without fields: the list ends in a comma. -/
theorem C58_refuted_empty : Broken world g!"Root" [] := broken_of 5 (by decide +kernel)

open C58ex in
/-- Nor if the same struct is embedded again at the end of a nested struct. -/
theorem C58_refuted_again :
    Broken world g!"Root" [emb g!"Base", .mk (some g!"A") (.struct [str g!"B", emb g!"Base"]) {}] := broken_of 5 (by decide +kernel)

open C58ex in
/-- Nor for types that are not supported. -/
theorem C58_refuted_type : Broken world g!"Root" [.mk (some g!"A") (.ident g!"Other") {}] := broken_of 5 (by decide +kernel)

open C58ex in
/-- Nor for types of other packages than time. -/
theorem C58_refuted_package : Broken world g!"Root" [.mk (some g!"A") (.selector g!"Decimal") {}] := broken_of 5 (by decide +kernel)

open C58ex in
/-- Nor for every description: a bell is written as `\a`. -/
theorem C58_refuted_quote : Broken world g!"Root" [.mk (some g!"A") (.ident g!"string") { description := [Char.ofNat 7] }] := broken_of 5 (by decide +kernel)

end JT.Go
