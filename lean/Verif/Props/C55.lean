import Verif.Props.C53
/- C55: the import of `time`. -/
namespace JT.Spec
open Gen

/-- There is a time in the field, at any depth. -/
inductive HasTime : EField → Prop where
  | here {a d fs j n u r} : HasTime ⟨a, d, fs, j, g!"date-time", n, u, r⟩
  | inner {a d fs j t n u r k f} : (k, f) ∈ fs → HasTime f → HasTime ⟨a, d, some fs, j, t, n, u, r⟩

/-- Only objects have fields, all types are known, and the fields of each struct have different names. -/
inductive Proper : EField → Prop where
  | leaf {a d j n u r} (t : JsonType) : Proper ⟨a, d, none, j, t.name, n, u, r⟩
  | object {a d j n u r} {fs : List (Str × EField)} : (fs.map fun kf => kf.2.name).Nodup → (∀ kf, kf ∈ fs → Proper kf.2) →
      Proper ⟨a, d, some fs, j, g!"object", n, u, r⟩

/-- The type mentions `time.Time`. -/
def GoT.usesTime : GoT → Prop
  | .plain t => t = .time
  | .map => False
  | .struct => False
  | .ptr t => t.usesTime
  | .slice t => t.usesTime

/-- A line with a field whose type mentions `time.Time`. -/
def TimeLine (l : Line) : Prop := ∃ ind name tag, ∃ t : GoT, l = .field ind name t.text tag ∧ t.usesTime

end JT.Spec

namespace JT.Gen
open Spec

mutual
theorem hasTime_iff : ∀ f : EField, f.hasTime = true ↔ HasTime f
  | ⟨a, d, none, j, t, n, u, r⟩ => by
    simp only [EField.hasTime, decide_eq_true_eq]
    constructor
    · rintro rfl; exact .here
    · intro h; cases h; rfl
  | ⟨a, d, some fs, j, t, n, u, r⟩ => by
    simp only [EField.hasTime, Bool.or_eq_true, decide_eq_true_eq, includeTime_iff fs]
    constructor
    · rintro (⟨k, f, hm, hf⟩ | rfl)
      · exact .inner hm hf
      · exact .here
    · intro h
      cases h with
      | here => exact Or.inr rfl
      | inner hm hf => exact Or.inl ⟨_, _, hm, hf⟩
theorem includeTime_iff : ∀ fs : List (Str × EField), includeTime fs = true ↔ ∃ k f, (k, f) ∈ fs ∧ HasTime f
  | [] => by simp [includeTime]
  | (k, f) :: t => by
    simp only [includeTime, Bool.or_eq_true, hasTime_iff f, includeTime_iff t]
    constructor
    · rintro (h | ⟨k', f', hm, hf⟩)
      · exact ⟨k, f, List.mem_cons_self, h⟩
      · exact ⟨k', f', List.mem_cons_of_mem _ hm, hf⟩
    · rintro ⟨k', f', hm, hf⟩
      rcases List.mem_cons.1 hm with h | h
      · cases h; exact Or.inl hf
      · exact Or.inr ⟨k', f', h, hf⟩
end

/-- Texts of types. -/
theorem text_usesTime_elem {ef : EField} {required pointers : Bool} {t : GoT} (h : ElemType ef required pointers t) : t.usesTime ↔ ef.jsonType = g!"date-time" := by
  cases h with
  | @plain t h1 => rw [h1]; cases t <;> simp [GoT.usesTime, JsonType.name]
  | @null t h1 => rw [h1]; cases t <;> simp [GoT.usesTime, JsonType.name]
  | optional h1 => rw [h1]; simp [GoT.usesTime, JsonType.name]
  | map h1 => rw [h1]; simp [GoT.usesTime]
  | nullMap h1 => rw [h1]; simp [GoT.usesTime]
  | struct h1 => rw [h1]; simp [GoT.usesTime]
  | nullStruct h1 => rw [h1]; simp [GoT.usesTime]

theorem text_usesTime {ef : EField} {required pointers : Bool} {t : GoT} (h : FieldType ef required pointers t) : t.usesTime ↔ ef.jsonType = g!"date-time" := by
  cases h with
  | single _ h => exact text_usesTime_elem h
  | array _ h => simp only [GoT.usesTime]; exact text_usesTime_elem h

theorem go_ne (t : JsonType) : t.go.head? ≠ some '*' ∧ t.go.head? ≠ some '[' ∧ t.go ≠ g!"struct" ∧ t.go ≠ g!"map[string]string" := by
  cases t <;> decide

theorem text_inj : ∀ {s t : GoT}, s.text = t.text → s = t
  | .plain a, .plain b, h => by cases a <;> cases b <;> first | rfl | exact absurd h (by decide)
  | .plain a, .map, h => absurd h (go_ne a).2.2.2
  | .plain a, .struct, h => absurd h (go_ne a).2.2.1
  | .plain a, .ptr b, h => absurd (by rw [show a.go = _ from h]; rfl) (go_ne a).1
  | .plain a, .slice b, h => absurd (by rw [show a.go = _ from h]; rfl) (go_ne a).2.1
  | .map, .plain b, h => absurd h.symm (go_ne b).2.2.2
  | .map, .map, _ => rfl
  | .map, .struct, h => absurd h (by decide)
  | .map, .ptr b, h => by simp [GoT.text] at h
  | .map, .slice b, h => by simp [GoT.text] at h
  | .struct, .plain b, h => absurd h.symm (go_ne b).2.2.1
  | .struct, .map, h => absurd h (by decide)
  | .struct, .struct, _ => rfl
  | .struct, .ptr b, h => by simp [GoT.text] at h
  | .struct, .slice b, h => by simp [GoT.text] at h
  | .ptr a, .plain b, h => absurd (by rw [show b.go = _ from h.symm]; rfl) (go_ne b).1
  | .ptr a, .map, h => by simp [GoT.text] at h
  | .ptr a, .struct, h => by simp [GoT.text] at h
  | .ptr a, .ptr b, h => by
    simp only [GoT.text, List.cons.injEq, true_and] at h
    rw [text_inj h]
  | .ptr a, .slice b, h => by simp [GoT.text] at h
  | .slice a, .plain b, h => absurd (by rw [show b.go = _ from h.symm]; rfl) (go_ne b).2.1
  | .slice a, .map, h => by simp [GoT.text] at h
  | .slice a, .struct, h => by simp [GoT.text] at h
  | .slice a, .ptr b, h => by simp [GoT.text] at h
  | .slice a, .slice b, h => by
    simp only [GoT.text, List.append_cancel_left_eq] at h
    rw [text_inj h]

theorem text_ne_brackets : ∀ t : GoT, t.text ≠ g!"[]"
  | .plain t => by cases t <;> decide
  | .map => by decide
  | .struct => by decide
  | .ptr t => by simp [GoT.text]
  | .slice t => by
    have : t.text ≠ [] := by
      cases t with
      | plain t => cases t <;> decide
      | map => decide
      | struct => decide
      | ptr t => simp [GoT.text]
      | slice t => simp [GoT.text]
    simpa [GoT.text] using this

theorem comment_no_time {ef : EField} {descTag : Bool} {l : Line} (h : l ∈ commentLines ef descTag) : ¬ TimeLine l := by
  unfold commentLines at h
  split at h
  · obtain ⟨x, _, rfl⟩ := List.mem_map.1 h
    rintro ⟨_, _, _, _, h, _⟩
    contradiction
  · simp at h

theorem mem_sorted {l : List (Str × List Line)} (h : (l.map Prod.fst).Nodup) {x : Line} : x ∈ (sortedByName l).flatten ↔ ∃ y ∈ l, x ∈ y.2 := by
  obtain ⟨l', h1, _, h3⟩ := sorted_spec h
  rw [h3, List.mem_flatten]
  constructor
  · rintro ⟨y, hy, hx⟩
    obtain ⟨z, hz, rfl⟩ := List.mem_map.1 hy
    exact ⟨z, h1.mem_iff.1 hz, hx⟩
  · rintro ⟨z, hz, hx⟩
    exact ⟨z.2, List.mem_map_of_mem (h1.mem_iff.2 hz), hx⟩

theorem time_lines {descTag pointers : Bool} {f : EField} (hp : Proper f) : ∀ (ind : Str) (required : Bool),
    (∃ l ∈ f.lines descTag pointers [] [] ind required, TimeLine l) ↔ HasTime f := by
  induction hp with
  | @leaf a d j n u r t =>
    intro ind required
    obtain ⟨g, h1, h2⟩ := C53_partial (ef := ⟨a, d, none, j, t.name, n, u, r⟩) required pointers [] (Or.inr ⟨t, rfl⟩)
    simp only [EField.lines, h2, List.not_mem_nil, false_or, if_neg (text_ne_brackets g), List.mem_append, List.mem_singleton]
    have hu := text_usesTime h1
    constructor
    · rintro ⟨l, hl | rfl, ht⟩
      · exact absurd ht (comment_no_time hl)
      · obtain ⟨_, _, _, g', he, hg'⟩ := ht
        injection he with _ _ he _
        rw [← text_inj he, hu] at hg'
        simp only at hg'
        rw [hg']
        exact .here
    · intro h
      have : t.name = g!"date-time" := by
        generalize ht : t.name = x at h
        cases h
        rfl
      exact ⟨_, Or.inr rfl, ind, n, _, g, rfl, hu.2 this⟩
  | @object a d j n u r fs hnd hk ih =>
    intro ind required
    obtain ⟨g, h1, h2⟩ := C53_partial (ef := ⟨a, d, some fs, j, g!"object", n, u, r⟩) required pointers [] (Or.inl rfl)
    have hu := text_usesTime h1
    simp only [EField.lines, h2, List.not_mem_nil, false_or, if_neg (text_ne_brackets g), List.mem_append, ne_eq, not_true_eq_false]
    have hsub : (∃ y ∈ linesAll descTag pointers [] [] (ind ++ g!"\t") r fs, ∃ l ∈ y.2, TimeLine l) ↔ ∃ k f, (k, f) ∈ fs ∧ HasTime f := by
      rw [linesAll_map]
      constructor
      · rintro ⟨y, hy, l, hl, ht⟩
        obtain ⟨⟨k, f⟩, hm, rfl⟩ := List.mem_map.1 hy
        exact ⟨k, f, hm, (ih (k, f) hm _ _).1 ⟨l, hl, ht⟩⟩
      · rintro ⟨k, f, hm, hf⟩
        obtain ⟨l, hl, ht⟩ := (ih (k, f) hm (ind ++ g!"\t") (decide (f.jsonName ∈ r))).2 hf
        exact ⟨_, List.mem_map_of_mem hm, l, hl, ht⟩
    have hnames : ((linesAll descTag pointers [] [] (ind ++ g!"\t") r fs).map Prod.fst).Nodup := by
      rw [linesAll_map, List.map_map]
      exact hnd
    have hobj : HasTime ⟨a, d, some fs, j, g!"object", n, u, r⟩ ↔ ∃ k f, (k, f) ∈ fs ∧ HasTime f := by
      constructor
      · intro h
        generalize hx : g!"object" = x at h
        cases h with
        | here => exact absurd hx (by decide)
        | inner hm hf => exact ⟨_, _, hm, hf⟩
      · rintro ⟨k, f, hm, hf⟩
        exact .inner hm hf
    rw [hobj, ← hsub]
    by_cases hl : fs.length = 0
    · rw [if_pos hl]
      have : fs = [] := List.eq_nil_of_length_eq_zero hl
      subst this
      simp only [linesAll, List.not_mem_nil, false_and, exists_false, iff_false, List.mem_singleton]
      rintro ⟨l, hl | rfl, ht⟩
      · exact comment_no_time hl ht
      · obtain ⟨_, _, _, g', he, hg'⟩ := ht
        injection he with _ _ he _
        rw [← text_inj he, hu] at hg'
        simp at hg'
    · rw [if_neg hl]
      simp only [List.mem_cons, List.mem_append, List.not_mem_nil, or_false, mem_sorted hnames]
      constructor
      · rintro ⟨l, hl | rfl | ⟨y, hy, hl⟩ | rfl, ht⟩
        · exact absurd ht (comment_no_time hl)
        · obtain ⟨_, _, _, _, he, _⟩ := ht; contradiction
        · exact ⟨y, hy, l, hl, ht⟩
        · obtain ⟨_, _, _, _, he, _⟩ := ht; contradiction
      · rintro ⟨y, hy, l, hl, ht⟩
        exact ⟨l, Or.inr (Or.inr (Or.inl ⟨y, hy, hl⟩)), ht⟩

end JT.Gen

namespace JT
open Spec Gen

/-- **C55**: `time` is imported iff some field of a struct is a time, at any depth. -/
theorem C55_depth (title : Str → Str) (args : Args) (g : GoFile) :
    (g.text title args).1 = true ↔ ∃ s ∈ g.structs, ∃ k f, (k, f) ∈ s.fields ∧ HasTime f := by
  simp only [GoFile.text, List.any_eq_true, includeTime_iff]

/-- **C55**, partial: for a file with inline structs, `time` is imported iff a line that is written needs it (no missing and no unused import). -/
theorem C55_partial (title : Str → Str) (args : Args) {g : GoFile} (hn : g.nested = []) (hp : ∀ k f, (k, f) ∈ g.root.fields → Proper f)
    (hd : (g.root.fields.map fun kf => kf.2.name).Nodup) :
    (g.text title args).1 = true ↔ ∃ st ∈ (g.text title args).2, ∃ l ∈ st.body, TimeLine l := by
  have hstr : g.structs = [g.root] := by simp [GoFile.structs, hn, sortedByName, sortStrings]
  rw [C55_depth, hstr]
  simp only [List.mem_singleton, exists_eq_left, GoFile.text, hstr]
  by_cases h0 : g.root.fields.length = 0
  · have : g.root.fields = [] := List.eq_nil_of_length_eq_zero h0
    simp [this]
  · rw [List.filter_cons_of_neg (by simpa using h0), List.filter_cons_of_pos (by simpa using h0)]
    simp only [List.filter_nil, List.map_nil, List.map_cons, List.mem_singleton, exists_eq_left, GStruct.text, hn]
    have hnames : ((linesAll args.descTag args.pointers [] [] g!"\t" g.root.required g.root.fields).map Prod.fst).Nodup := by
      rw [linesAll_map, List.map_map]
      exact hd
    simp only [mem_sorted hnames]
    rw [linesAll_map]
    constructor
    · rintro ⟨k, f, hm, hf⟩
      obtain ⟨l, hl, ht⟩ := (time_lines (descTag := args.descTag) (pointers := args.pointers) (hp k f hm) g!"\t" (decide (f.jsonName ∈ g.root.required))).2 hf
      exact ⟨l, ⟨_, List.mem_map_of_mem hm, hl⟩, ht⟩
    · rintro ⟨l, ⟨y, hy, hl⟩, ht⟩
      obtain ⟨⟨k, f⟩, hm, rfl⟩ := List.mem_map.1 hy
      exact ⟨k, f, hm, (time_lines (hp k f hm) _ _).1 ⟨l, hl, ht⟩⟩

namespace C55ex
def deep : EField := ⟨true, g!"x", some [(g!"t", ⟨false, [], none, g!"t", g!"date-time", g!"T", true, []⟩), (g!"u", ⟨false, [], none, g!"u", g!"string", g!"U", false, []⟩)],
  g!"d", g!"object", g!"D", false, []⟩
def file : GoFile := ⟨⟨g!"r", [(g!"d", deep)], [], []⟩, []⟩

example : Proper deep := by
  refine .object (by decide) ?_
  intro kf hkf
  simp only [List.mem_cons, List.not_mem_nil, or_false] at hkf
  rcases hkf with rfl | rfl
  · exact .leaf .time
  · exact .leaf .string
example : (file.text id ⟨false, false, false, false, [], []⟩).1 = true := by decide +kernel

/-- Two properties with the same Go name, one of them a time. -/
def clash : GoFile := ⟨⟨g!"r", [(g!"A", ⟨false, [], none, g!"A", g!"date-time", g!"A", false, []⟩), (g!"a", ⟨false, [], none, g!"a", g!"string", g!"A", false, []⟩)], [], []⟩, []⟩
end C55ex

/-- C55 as one would like it: the import is there iff it is needed. -/
def C55_statement : Prop := ∀ (title : Str → Str) (args : Args) (g : GoFile), g.nested = [] → (∀ k f, (k, f) ∈ g.root.fields → Proper f) →
  ((g.text title args).1 = true ↔ ∃ st ∈ (g.text title args).2, ∃ l ∈ st.body, TimeLine l)

/-- With two properties of the same Go name the time may be lost, and the import is not used; such a file does not compile. -/
theorem C55_refuted : ¬ C55_statement := by
  intro h
  have hp : ∀ k f, (k, f) ∈ C55ex.clash.root.fields → Proper f := by
    intro k f hkf
    simp only [C55ex.clash, List.mem_cons, List.not_mem_nil, or_false, Prod.mk.injEq] at hkf
    rcases hkf with ⟨rfl, rfl⟩ | ⟨rfl, rfl⟩
    · exact .leaf .time
    · exact .leaf .string
  obtain ⟨st, hst, l, hl, _, _, _, t, he, ht⟩ := (h id ⟨false, false, false, false, [], []⟩ C55ex.clash rfl hp).1 (by decide +kernel)
  have hno : ((C55ex.clash.text id ⟨false, false, false, false, [], []⟩).2.all fun st => st.body.all fun l => match l with
      | .field _ _ ty _ => decide (ty = g!"string")
      | _ => true) = true := by decide +kernel
  have := List.all_eq_true.1 (List.all_eq_true.1 hno st hst) l hl
  rw [he] at this
  have : t = .plain .string := text_inj (of_decide_eq_true this)
  subst this
  cases ht

end JT
