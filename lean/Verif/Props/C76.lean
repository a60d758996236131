import Verif.Proofs.GoJson
/- C76: documents of a schema go through the generated struct. -/
namespace JT.GoJson
open Gen Spec
variable {title : Str → Str}

/-- What is asked of a schema: names that give field names and tags, and types that have fields. -/
structure GoSchema (title : Str → Str) (args : Args) (schema : Instance) (m : GMap P) (embeds : List Str) : Prop where
  inline : args.noNested = false
  properties : schema.properties = some m
  items : schema.items = none
  nodup : (m.map Prod.fst).Nodup
  quiet : QuietSchema ⟨schema.properties, schema.items⟩
  one : OneTypeEach ⟨schema.properties, schema.items⟩
  plain : PlainItems ⟨schema.properties, schema.items⟩
  alone : JT.Spec.Embeds title args embeds schema.allOf []
  some : ∃ k q, Listed m k q
  names : CleanNames title args.fieldNames m
  clean : ∀ k q, Listed m k q → Clean title args.fieldNames args.descTag q

/-- `Generates title args schema name embeds fs`: the file for the schema declares one struct, with the fields `fs`, however the schema is walked. -/
def Generates (title : Str → Str) (args : Args) (schema : Instance) (name : Str) (embeds : List Str) (fs : List SF) : Prop :=
  ∀ sched, ∃ g body, newGoFile sched title args schema name embeds = .ok g ∧ (g.text title args).2 = [⟨title name, [], body⟩] ∧
    readStruct body = some (.struct fs)

/-- `Through c fs l l'`: unmarshalling the object `l` in an empty value and marshalling this gives `l'`. -/
def Through (c : Codec) (fs : List SF) (l l' : List (Str × J)) : Prop :=
  ∃ v, decode c (.struct fs) (zero c (.struct fs)) (.obj l) = some v ∧ encode c (.struct fs) v = some (.obj l')

/-- **C76**, in full: each document of the schema goes through the generated struct unchanged, up to properties that the schema does not list. -/
def C76_statement (title : Str → Str) : Prop := ∀ (c : Codec) (args : Args) (schema : Instance) (m : GMap P) (name : Str) (embeds : List Str),
  c.Lawful → GoSchema title args schema m embeds → ∃ fs, Generates title args schema name embeds fs ∧
    ∀ l, Members c false args.pointers m schema.required l → ∃ l', Through c fs l l' ∧ SameMembers c false m schema.required l l'

/-- **C76**, partial: the text of the generated file declares a struct such that each document goes through it, except that optional properties with blank values
may be lost, if the document meets the conditions of `Valid` with `strict`. -/
theorem C76_partial {c : Codec} {args : Args} {schema : Instance} {m : GMap P} (name : Str) {embeds : List Str} (hc : c.Lawful)
    (h : GoSchema title args schema m embeds) :
    ∃ fs, Generates title args schema name embeds fs ∧
      ∀ l, Members c true args.pointers m schema.required l → ∃ l', Through c fs l l' ∧ SameMembers c true m schema.required l l' := by
  obtain ⟨fs, hf, hg⟩ := inline_file (title := title) name embeds h.inline h.properties h.items h.nodup h.quiet h.one h.plain
  obtain ⟨sfs, h1, h2, h3, h4, h5, h6, _⟩ := struct_of (c := c) (descTag := args.descTag) (pointers := args.pointers) (r := schema.required) hf h.names
    (fun k q f hl hk => field_good hc (hf.each _ _ _ hl.1 hk) (h.names.tag _ _ hl) (h.clean _ _ hl) _)
  have hne : fs ≠ [] := by
    obtain ⟨k, q, hl⟩ := h.some
    rintro rfl
    exact hl.2 ((hf.names k).1 rfl q hl.1)
  have hlen : fs.length ≠ 0 := by simpa using hne
  refine ⟨sfs, fun sched => ⟨_, (sortedByName (linesAll args.descTag args.pointers [] [] g!"\t" schema.required fs)).flatten, hg sched, ?_, ?_⟩, ?_⟩
  · have hs : ∀ r : GStruct, GoFile.structs ⟨r, []⟩ = [r] := fun r => rfl
    simp only [GoFile.text, hs, ← embeds_iff.1 h.alone]
    rw [List.filter_cons_of_neg (by simpa using hne), List.filter_cons_of_pos (by simpa using hne)]
    rfl
  · unfold readStruct
    have := h3 g!"\t" [] [] []
    rw [List.append_nil] at this
    rw [this]
    simp only [List.nil_append, readLines, h1]
    rfl
  · intro l hl
    obtain ⟨vs, l', a1, a2, a3, a4⟩ := struct_good h4 h5 h6 hl
    exact ⟨l', ⟨_, a1, by simp [encode, a2]⟩, a3⟩

namespace C76ex
open Toy

/-- Numbers and times as they are written. -/
def codec : Codec where
  F := Str
  T := Str
  parseFloat := some
  formatFloat := id
  zeroFloat := g!"0"
  isZeroFloat x := decide (x = g!"0")
  parseTime := some
  formatTime := id
  zeroTime := g!"0001-01-01T00:00:00Z"
  isZeroTime x := decide (x = g!"0001-01-01T00:00:00Z")
  fold s := s.map Char.toLower

theorem lawful : codec.Lawful := ⟨fun _ _ _ => rfl, fun _ _ _ => rfl, rfl, rfl⟩

def pBool : P := o [(g!"type", s g!"boolean")]
def pInt : P := o [(g!"type", s g!"integer")]
def pTime : P := o [(g!"type", s g!"string"), (g!"format", s g!"date-time")]
def pText : P := o [(g!"type", a [s g!"string", s g!"null"])]
def pTags : P := o [(g!"type", s g!"array"), (g!"items", pText)]
def pFree : P := o [(g!"type", s g!"object"), (g!"properties", o [])]
def pIn : P := o [(g!"type", s g!"object"), (g!"properties", o [(g!"n", pInt)]), (g!"required", a [s g!"n"])]

/-- Properties of several types. -/
def props : GMap P := [(g!"at", pTime), (g!"free", pFree), (g!"in", pIn), (g!"n", pInt), (g!"on", pBool), (g!"tags", pTags), (g!"text", pText)]

def args : Args := ⟨false, false, false, false, [], []⟩
def schema : Instance := { Instance.zero with properties := some props, required := [g!"in", g!"text"] }

theorem not_hydrated {q : P} (h : (match decodeInstance false q with | .ok i => decide (g!"graphql-hydration" ∉ i.type) | _ => true) = true) : ¬ Hydrated q := by
  rintro ⟨i, h1, h2, _⟩
  rw [h1] at h
  exact absurd h2 (of_decide_eq_true h)

theorem decoded : (decodeInstance false pBool = .ok { Instance.zero with type := [g!"boolean"] }) ∧ decodeInstance false pInt = .ok { Instance.zero with type := [g!"integer"] } ∧
    decodeInstance false pTime = .ok { Instance.zero with type := [g!"string"], format := g!"date-time" } ∧
    decodeInstance false pText = .ok { Instance.zero with type := [g!"string", g!"null"] } ∧
    decodeInstance false pTags = .ok { Instance.zero with type := [g!"array"], items := some pText } ∧
    decodeInstance false pFree = .ok { Instance.zero with type := [g!"object"], properties := some [] } ∧
    decodeInstance false pIn = .ok { Instance.zero with type := [g!"object"], properties := some [(g!"n", pInt)], required := [g!"n"] } := by
  refine ⟨?_, ?_, ?_, ?_, ?_, ?_, ?_⟩ <;> rfl

theorem listed {k : Str} {q : P} (h : Listed props k q) : (k, q) ∈ props := GMap.get_some_mem h.1

theorem cases_props {motive : Str → P → Prop} (h1 : motive g!"at" pTime) (h2 : motive g!"free" pFree) (h3 : motive g!"in" pIn) (h4 : motive g!"n" pInt)
    (h5 : motive g!"on" pBool) (h6 : motive g!"tags" pTags) (h7 : motive g!"text" pText) : ∀ k q, (k, q) ∈ props → motive k q := by
  intro k q h
  simp only [props, List.mem_cons, List.not_mem_nil, or_false, Prod.mk.injEq] at h
  rcases h with ⟨rfl, rfl⟩ | ⟨rfl, rfl⟩ | ⟨rfl, rfl⟩ | ⟨rfl, rfl⟩ | ⟨rfl, rfl⟩ | ⟨rfl, rfl⟩ | ⟨rfl, rfl⟩ <;> assumption

theorem desc {b : Bool} {i : Instance} (h : i.description = []) : DescOk b i := by
  intro _
  rw [h]
  simp

theorem clean_int {b : Bool} : Clean C56ex.capital [] b pInt := .leaf decoded.2.1 rfl (by decide) (desc rfl)

theorem names_props : CleanNames C56ex.capital [] props := by
  have hd : ∀ kv ∈ props, ∀ kv' ∈ props, goName C56ex.capital [] kv.1 = goName C56ex.capital [] kv'.1 → kv.1 = kv'.1 := by decide +kernel
  refine ⟨fun k q h => ?_, fun k q h => ?_, fun k q k' q' h h' => hd _ (listed h) _ (listed h')⟩
  · have : ∀ kv ∈ props, TagName kv.1 := by decide +kernel
    exact this _ (listed h)
  · have : ∀ kv ∈ props, Exported (goName C56ex.capital [] kv.1) := by decide +kernel
    exact this _ (listed h)

theorem clean_props : ∀ k q, (k, q) ∈ props → Clean C56ex.capital [] false q := by
  refine cases_props ?_ ?_ ?_ ?_ ?_ ?_ ?_
  · exact .leaf decoded.2.2.1 rfl (by decide) (desc rfl)
  · exact .object decoded.2.2.2.2.2.1 rfl rfl (desc rfl) ⟨fun _ _ h => (nomatch h.1), fun _ _ h => (nomatch h.1), fun _ _ _ _ h => (nomatch h.1)⟩ fun _ _ h => (nomatch h.1)
  · refine .object decoded.2.2.2.2.2.2 rfl rfl (desc rfl) ⟨?_, ?_, ?_⟩ ?_
    · intro k q h
      have := GMap.get_some_mem h.1
      simp only [List.mem_singleton, Prod.mk.injEq] at this
      rw [this.1]
      decide
    · intro k q h
      have := GMap.get_some_mem h.1
      simp only [List.mem_singleton, Prod.mk.injEq] at this
      rw [this.1]
      decide
    · intro k q k' q' h h' _
      have h1 := GMap.get_some_mem h.1
      have h2 := GMap.get_some_mem h'.1
      simp only [List.mem_singleton, Prod.mk.injEq] at h1 h2
      rw [h1.1, h2.1]
    · intro k q h
      have := GMap.get_some_mem h.1
      simp only [List.mem_singleton, Prod.mk.injEq] at this
      rw [this.2]
      exact clean_int
  · exact clean_int
  · exact .leaf decoded.1 rfl (by decide) (desc rfl)
  · exact .array decoded.2.2.2.2.1 rfl rfl (desc rfl) (.leaf decoded.2.2.2.1 rfl (by decide) (desc rfl))
  · exact .leaf decoded.2.2.2.1 rfl (by decide) (desc rfl)

/-- The conditions on the schema hold. -/
theorem good : GoSchema C56ex.capital args schema props [] :=
  ⟨rfl, rfl, rfl, by decide, C56ex.quiet (by decide +kernel), C56ex.one (by decide +kernel), C56ex.plain (by decide +kernel), .off rfl,
    ⟨g!"at", pTime, rfl, not_hydrated (by decide +kernel)⟩, names_props, fun _ _ h => clean_props _ _ (listed h)⟩

/-- A document with an object inside, a list and a property that is not listed. -/
def doc : List (Str × J) := [(g!"at", .str g!"2020-01-01T00:00:00Z"), (g!"in", .obj [(g!"n", .num g!"0")]), (g!"n", .num g!"0"), (g!"other", .bool true),
  (g!"tags", .arr [.str g!"x"]), (g!"text", .null)]

theorem itoa_zero : itoa 0 = g!"0" := by decide

theorem valid_zero {b : Bool} : Valid codec b false pInt (.num g!"0") := .integer (n := 0) decoded.2.1 rfl (Or.inl itoa_zero.symm) fun _ => ⟨itoa_zero.symm, by decide⟩

theorem valid_in : Valid codec true false pIn (.obj [(g!"n", .num g!"0")]) := by
  have hl : ∀ k q, Listed [(g!"n", pInt)] k q → k = g!"n" ∧ q = pInt := by
    intro k q h
    have := GMap.get_some_mem h.1
    simpa using this
  refine .object decoded.2.2.2.2.2.2 rfl rfl (by decide) ?_ ?_ ?_ ?_ ?_
  · intro k hk
    simp only [List.mem_singleton] at hk
    exact ⟨_, by rw [hk]; exact List.mem_cons_self⟩
  · intro k v q hk hq
    have := GMap.get_some_mem hq
    simp only [List.mem_singleton, Prod.mk.injEq] at this hk
    rw [this.2, hk.2]
    exact valid_zero
  · intro _ h
    exact absurd ⟨rfl, not_hydrated (by decide +kernel)⟩ (h g!"n" pInt)
  · intro _ k v hk k' q hq _
    simp only [List.mem_singleton, Prod.mk.injEq] at hk
    rw [hk.1, (hl _ _ hq).1]
  · intro _ k q hq hr
    rw [(hl _ _ hq).1] at hr
    exact absurd (by simp) hr

theorem bare_at : ∀ k q, (k, q) ∈ props → BareTime false q → k = g!"at" := by
  refine cases_props ?_ ?_ ?_ ?_ ?_ ?_ ?_ <;> rintro ⟨_, _, i, h1, _, h2⟩
  · rfl
  · rw [decoded.2.2.2.2.2.1] at h1; cases h1; cases h2
  · rw [decoded.2.2.2.2.2.2] at h1; cases h1; cases h2
  · rw [decoded.2.1] at h1; cases h1; cases h2
  · rw [decoded.1] at h1; cases h1; cases h2
  · rw [decoded.2.2.2.2.1] at h1; cases h1; cases h2
  · rw [decoded.2.2.2.1] at h1; cases h1; cases h2

/-- The conditions on the document hold. -/
theorem doc_members : Members codec true false props schema.required doc := by
  have hk : ∀ kv ∈ doc, ∀ kp ∈ props, codec.fold kp.1 = codec.fold kv.1 → kp.1 = kv.1 := by decide +kernel
  refine ⟨by decide, ?_, ?_, ?_, ?_, ?_⟩
  · intro k hk
    simp only [schema, List.mem_cons, List.not_mem_nil, or_false] at hk
    rcases hk with rfl | rfl
    · exact ⟨_, List.mem_cons_of_mem _ List.mem_cons_self⟩
    · exact ⟨.null, by simp [doc]⟩
  · intro k v q hk hq
    simp only [doc, List.mem_cons, List.not_mem_nil, or_false, Prod.mk.injEq] at hk
    rcases hk with ⟨rfl, rfl⟩ | ⟨rfl, rfl⟩ | ⟨rfl, rfl⟩ | ⟨rfl, rfl⟩ | ⟨rfl, rfl⟩ | ⟨rfl, rfl⟩ <;> cases hq
    · exact .time decoded.2.2.1 rfl rfl rfl
    · exact valid_in
    · exact valid_zero
    · refine .array decoded.2.2.2.2.1 rfl rfl ?_ ?_
      · intro x hx
        rw [List.mem_singleton.1 hx]
        exact .string decoded.2.2.2.1 rfl (by decide)
      · intro _ x hx
        rw [List.mem_singleton.1 hx]
        exact fun h => (nomatch h)
    · exact .null ⟨_, decoded.2.2.2.1, by decide⟩
  · intro _ h
    exact absurd ⟨rfl, not_hydrated (by decide +kernel)⟩ (h g!"n" pInt)
  · intro _ k v hv k' q hq
    exact hk _ hv _ (listed hq)
  · intro _ k q hq hr hb
    exact ⟨_, by rw [bare_at k q (listed hq) hb]; exact List.mem_cons_self⟩

/-- The struct that the file declares. -/
def struct : Option GT := match newGoFile Sched.id C56ex.capital args schema g!"T" [] with
  | .ok g => match (g.text C56ex.capital args).2 with
    | [st] => readStruct st.body
    | _ => none
  | _ => none

/-- What comes back for a document. -/
def back (l : List (Str × J)) : Option J := struct.bind fun t => (decode codec t (zero codec t) (.obj l)).bind (encode codec t)

mutual
/-- JSON text. -/
def text : J → Str
  | .null => g!"null"
  | .bool b => if b then g!"true" else g!"false"
  | .num s => s
  | .str s => g!"'" ++ s ++ g!"'"
  | .arr l => g!"[" ++ texts l ++ g!"]"
  | .obj l => g!"{" ++ members l ++ g!"}"
def texts : List J → Str
  | [] => []
  | j :: l => text j ++ g!"," ++ texts l
def members : List (Str × J) → Str
  | [] => []
  | (k, j) :: l => k ++ g!":" ++ text j ++ g!"," ++ members l
end

example : (back doc).map text = some g!"{at:'2020-01-01T00:00:00Z',in:{n:0,},tags:['x',],text:null,}" := by decide +kernel

theorem back_of {fs : List SF} (hg : Generates C56ex.capital args schema g!"T" [] fs) {l l' : List (Str × J)} (h : Through codec fs l l') :
    back l = some (.obj l') := by
  obtain ⟨g, body, h1, h2, h3⟩ := hg Sched.id
  obtain ⟨v, h4, h5⟩ := h
  have : struct = some (.struct fs) := by
    unfold struct
    rw [h1]
    simp only [h2]
    exact h3
  unfold back
  rw [this, Option.bind_some, h4, Option.bind_some, h5]

/-- What each document has. -/
def base : List (Str × J) := [(g!"in", .obj [(g!"n", .num g!"0")]), (g!"text", .null)]

/-- A document with one more property. -/
def withOne (k : Str) (v : J) : List (Str × J) := (k, v) :: base

theorem valid_in' : Valid codec false false pIn (.obj [(g!"n", .num g!"0")]) := by
  refine .object decoded.2.2.2.2.2.2 rfl rfl (by decide) ?_ ?_ (fun h => nomatch h) (fun h => nomatch h) (fun h => nomatch h)
  · intro k hk
    simp only [List.mem_singleton] at hk
    exact ⟨_, by rw [hk]; exact List.mem_cons_self⟩
  · intro k v q hk hq
    have := GMap.get_some_mem hq
    simp only [List.mem_singleton, Prod.mk.injEq] at this hk
    rw [this.2, hk.2]
    exact valid_zero

theorem base_each : ∀ k v q, (k, v) ∈ base → GMap.get k props = some q → Valid codec false false q v := by
  intro k v q hk hq
  simp only [base, List.mem_cons, List.not_mem_nil, or_false, Prod.mk.injEq] at hk
  rcases hk with ⟨rfl, rfl⟩ | ⟨rfl, rfl⟩ <;> cases hq
  · exact valid_in'
  · exact .null ⟨_, decoded.2.2.2.1, by decide⟩

theorem base_given : ∀ k ∈ schema.required, ∃ v, (k, v) ∈ base := by
  intro k hk
  simp only [schema, List.mem_cons, List.not_mem_nil, or_false] at hk
  rcases hk with rfl | rfl
  · exact ⟨_, List.mem_cons_self⟩
  · exact ⟨_, List.mem_cons_of_mem _ List.mem_cons_self⟩

theorem one_members {k : Str} {v : J} (hk : k ∉ [g!"in", g!"text"]) (hv : ∀ q, GMap.get k props = some q → Valid codec false false q v) :
    Members codec false false props schema.required (withOne k v) := by
  refine ⟨?_, ?_, ?_, (fun h => nomatch h), (fun h => nomatch h), (fun h => nomatch h)⟩
  · exact List.nodup_cons.2 ⟨hk, by decide⟩
  · intro k' h'
    obtain ⟨v', hv'⟩ := base_given k' h'
    exact ⟨v', List.mem_cons_of_mem _ hv'⟩
  · intro k' v' q h' hq
    rcases List.mem_cons.1 h' with h' | h'
    · cases h'
      exact hv q hq
    · exact base_each _ _ _ h' hq

end C76ex

open C76ex

/-- An optional property that is false is lost. -/
theorem C76_refuted : ¬ C76_statement C56ex.capital := by
  intro h
  obtain ⟨fs, hg, hl⟩ := h codec args schema props g!"T" [] lawful good
  obtain ⟨l', h1, h2⟩ := hl (withOne g!"on" (.bool false)) (one_members (by decide) fun q hq => by cases hq; exact .bool decoded.1 rfl)
  have hb := back_of hg h1
  have hc := h2.complete g!"on" _ pBool List.mem_cons_self ⟨rfl, not_hydrated (by decide +kernel)⟩
  rcases hc with ⟨v', hv'⟩ | hc
  · have : (match back (withOne g!"on" (.bool false)) with | some (.obj l') => l'.all fun kv => decide (kv.1 ≠ g!"on") | _ => true) = true := by decide +kernel
    rw [hb] at this
    exact absurd rfl (of_decide_eq_true (List.all_eq_true.1 this _ hv'))
  · exact nomatch hc.1

/-- A document that is not handled, even if optional properties with blank values may be lost. -/
def Fails (l : List (Str × J)) : Prop := Members codec false args.pointers props schema.required l ∧
  ∀ fs, Generates C56ex.capital args schema g!"T" [] fs → ∀ l', Through codec fs l l' → ¬ SameMembers codec true props schema.required l l'

theorem fails_error {l : List (Str × J)} (hm : Members codec false false props schema.required l) (hb : (back l).isNone = true) : Fails l := by
  refine ⟨hm, fun fs hg l' ht _ => ?_⟩
  rw [back_of hg ht] at hb
  cases hb

/-- The integer `1.0` is an error. -/
theorem C76_refuted_integer : Fails (withOne g!"n" (.num g!"1.0")) :=
  fails_error (one_members (by decide) fun q hq => by cases hq; exact .integer (n := 1) decoded.2.1 rfl (Or.inr (by decide)) (fun h => nomatch h)) (by decide +kernel)

/-- A free-form object with a number in it is an error. -/
theorem C76_refuted_free : Fails (withOne g!"free" (.obj [(g!"x", .num g!"1")])) := by
  refine fails_error (one_members (by decide) fun q hq => ?_) (by decide +kernel)
  cases hq
  exact .object decoded.2.2.2.2.2.1 rfl rfl (by decide) (fun _ h => nomatch h) (fun k v q _ hq => nomatch hq) (fun h => nomatch h) (fun h => nomatch h) (fun h => nomatch h)

/-- A null in a list of nullable strings comes back as an empty string. -/
theorem C76_refuted_item : Fails (withOne g!"tags" (.arr [.null])) := by
  refine ⟨one_members (by decide) fun q hq => ?_, fun fs hg l' ht hs => ?_⟩
  · cases hq
    refine .array decoded.2.2.2.2.1 rfl rfl ?_ (fun h => nomatch h)
    intro x hx
    rw [List.mem_singleton.1 hx]
    exact .null ⟨_, decoded.2.2.2.1, by decide⟩
  · have hb := back_of hg ht
    have h1 : (match back (withOne g!"tags" (.arr [.null])) with
        | some (.obj l') => l'.all fun kv => if kv.1 = g!"tags" then (match kv.2 with | .arr [.str _] => true | _ => false) else true
        | _ => true) = true := by decide +kernel
    rw [hb] at h1
    have hl : Listed props g!"tags" pTags := ⟨rfl, not_hydrated (by decide +kernel)⟩
    rcases hs.complete g!"tags" _ pTags List.mem_cons_self hl with ⟨v', hv'⟩ | hc
    · have h2 := List.all_eq_true.1 h1 _ hv'
      have h3 := hs.each g!"tags" _ v' pTags List.mem_cons_self hv' hl
      simp only [if_true] at h2
      cases h3 with
      | cons _ _ hx hr =>
        cases hr
        cases hx
        cases h2
    · cases hc.2.2

/-- A key that differs from a property only in case is taken for it. -/
theorem C76_refuted_case : Fails (withOne g!"ON" (.bool true)) := by
  refine ⟨one_members (by decide) fun q hq => (nomatch hq), fun fs hg l' ht hs => ?_⟩
  have hb := back_of hg ht
  have h1 : (match back (withOne g!"ON" (.bool true)) with | some (.obj l') => l'.any fun kv => decide (kv.1 = g!"on") | _ => false) = true := by decide +kernel
  rw [hb] at h1
  obtain ⟨⟨k, v⟩, hkv, hk⟩ := List.any_eq_true.1 h1
  have hk : k = g!"on" := of_decide_eq_true hk
  obtain ⟨v', q, h2, _⟩ := hs.sound k v hkv
  have h3 := List.mem_map_of_mem (f := Prod.fst) h2
  rw [hk] at h3
  exact absurd (show _ ∈ List.map Prod.fst _ from h3) (by show g!"on" ∉ _; decide)

/-- An optional time that is missing comes back as the zero time. -/
theorem C76_refuted_time : Fails base := by
  refine ⟨⟨by decide, base_given, base_each, (fun h => nomatch h), (fun h => nomatch h), (fun h => nomatch h)⟩, fun fs hg l' ht hs => ?_⟩
  have hb := back_of hg ht
  have h1 : (match back base with | some (.obj l') => l'.any fun kv => decide (kv.1 = g!"at") | _ => false) = true := by decide +kernel
  rw [hb] at h1
  obtain ⟨⟨k, v⟩, hkv, hk⟩ := List.any_eq_true.1 h1
  have hk : k = g!"at" := of_decide_eq_true hk
  obtain ⟨v', q, h2, _⟩ := hs.sound k v hkv
  have h3 := List.mem_map_of_mem (f := Prod.fst) h2
  rw [hk] at h3
  exact absurd (show _ ∈ List.map Prod.fst _ from h3) (by show g!"at" ∉ _; decide)

end JT.GoJson
