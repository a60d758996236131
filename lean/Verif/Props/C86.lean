import Verif.Props.C76
import Verif.Spec.Decode
import Verif.Spec.GoPackage
/- C86: documents of a schema whose struct embeds others. -/
namespace JT.GoJson
open Gen Spec JT.Spec
variable {title : Str → Str}

/-! ### Packages of structs -/

namespace Embed
/-- The only struct of a name. -/
def declared (pkg : List StructText) (n : Str) : Option StructText :=
  match pkg.filter fun st => decide (st.name = n) with
  | [st] => some st
  | _ => none

/-- The fields of a struct that embeds no other. -/
def flat (pkg : List StructText) (n : Str) : Option (List SF) :=
  (declared pkg n).bind fun st => if st.embeds = [] then readLines st.body [] [] else none

/-- The fields of a struct as encoding/json sees them, if the struct embeds only structs that embed no other.  An embedded struct is a field with the name of its type, and
Go accepts no two fields of the same name. -/
def fieldsIn (pkg : List StructText) (n : Str) : Option (List SF) :=
  (declared pkg n).bind fun st => (readLines st.body [] []).bind fun own => (mapOpt (flat pkg) st.embeds).bind fun es =>
    if (st.embeds ++ own.map SF.name).Nodup then some (visible es own) else none
end Embed
open Embed

/-! ### Schemas -/

/-- A schema that gets a struct of its own: its name and properties. -/
structure Part where
  name : Str
  schema : Instance
  props : GMap P

def Part.keys (p : Part) : List Str := p.props.map Prod.fst

/-- What is asked of a schema; see `GoSchema`. -/
structure GoPart (title : Str → Str) (args : Args) (p : Part) : Prop where
  inline : args.noNested = false
  properties : p.schema.properties = some p.props
  items : p.schema.items = none
  nodup : p.keys.Nodup
  quiet : QuietSchema ⟨p.schema.properties, p.schema.items⟩
  one : OneTypeEach ⟨p.schema.properties, p.schema.items⟩
  plain : PlainItems ⟨p.schema.properties, p.schema.items⟩
  some : ∃ k q, Listed p.props k q
  names : CleanNames title args.fieldNames p.props
  clean : ∀ k q, Listed p.props k q → Clean title args.fieldNames args.descTag q

/-- `InPackage title args pkg p embeds`: the file generated for the schema is part of the package. -/
def InPackage (title : Str → Str) (args : Args) (pkg : List StructText) (p : Part) (embeds : List Str) : Prop :=
  ∃ sched g, newGoFile sched title args p.schema p.name embeds = .ok g ∧ ∀ st ∈ (g.text title args).2, st ∈ pkg

/-- The properties of a schema together with those of others, which do not matter if the schema has the property too. -/
def joined (own : Part) (commons : List Part) : GMap P := own.props ++ (commons.map Part.props).flatten

/-- The properties that the schema which provides them requires. -/
def requiredByOwner (own : Part) (commons : List Part) (k : Str) : Prop :=
  (k ∈ own.keys ∧ k ∈ own.schema.required) ∨ (k ∉ own.keys ∧ ∃ c ∈ commons, k ∈ c.keys ∧ k ∈ c.schema.required)

/-- The same as a list. -/
def ownersRequired (own : Part) (commons : List Part) : List Str :=
  own.schema.required.filter (fun k => decide (k ∈ own.keys)) ++
    (commons.map fun c => c.schema.required.filter fun k => decide (k ∈ c.keys ∧ k ∉ own.keys)).flatten

theorem ownersRequired_iff {own : Part} {commons : List Part} {k : Str} : k ∈ ownersRequired own commons ↔ requiredByOwner own commons k := by
  unfold ownersRequired requiredByOwner
  simp only [List.mem_append, List.mem_filter, List.mem_flatten, List.mem_map, decide_eq_true_eq]
  constructor
  · rintro (⟨h1, h2⟩ | ⟨l, ⟨c, hc, rfl⟩, hk⟩)
    · exact .inl ⟨h2, h1⟩
    · simp only [List.mem_filter, decide_eq_true_eq] at hk
      exact .inr ⟨hk.2.2, c, hc, hk.2.1, hk.1⟩
  · rintro (⟨h1, h2⟩ | ⟨h1, c, hc, h2, h3⟩)
    · exact .inl ⟨h2, h1⟩
    · exact .inr ⟨_, ⟨c, hc, rfl⟩, by simp only [List.mem_filter, decide_eq_true_eq]; exact ⟨h3, h2, h1⟩⟩

/-! ### The struct of one schema -/

theorem part_text {c : Codec} {args : Args} {p : Part} (embeds : List Str) (hc : c.Lawful) (h : GoPart title args p) :
    ∃ st fs, (∀ sched, ∃ g, newGoFile sched title args p.schema p.name embeds = .ok g ∧ (g.text title args).2 = [st]) ∧ st.name = title p.name ∧
      st.embeds = embeds ++ embedNames title args p.schema.allOf ∧ readLines st.body [] [] = some fs ∧ (fs.map SF.json).Nodup ∧
      (∀ s ∈ fs, ∃ q, Listed p.props s.json q ∧ FieldGood c args.pointers (decide (s.json ∈ p.schema.required)) s.json q s) ∧
      (∀ k q, Listed p.props k q → ∃ s ∈ fs, s.json = k) ∧ checked fs = some fs ∧ ∀ s ∈ fs, s.name = goName title args.fieldNames s.json := by
  obtain ⟨fs, hf, hg⟩ := inline_file (title := title) p.name embeds h.inline h.properties h.items h.nodup h.quiet h.one h.plain
  obtain ⟨sfs, h1, h2, h3, h4, h5, h6, h7⟩ := struct_of (c := c) (descTag := args.descTag) (pointers := args.pointers) (r := p.schema.required) hf h.names
    (fun k q f hl hk => field_good hc (hf.each _ _ _ hl.1 hk) (h.names.tag _ _ hl) (h.clean _ _ hl) _)
  have hne : fs ≠ [] := by
    obtain ⟨k, q, hl⟩ := h.some
    rintro rfl
    exact hl.2 ((hf.names k).1 rfl q hl.1)
  refine ⟨⟨title p.name, embeds ++ embedNames title args p.schema.allOf, (sortedByName (linesAll args.descTag args.pointers [] [] g!"\t" p.schema.required fs)).flatten⟩,
    sfs, fun sched => ⟨_, hg sched, ?_⟩, rfl, rfl, ?_, h4, h5, h6, h1, h7⟩
  · have hs : ∀ r : GStruct, GoFile.structs ⟨r, []⟩ = [r] := fun r => rfl
    simp only [GoFile.text, hs]
    rw [List.filter_cons_of_neg (by simpa using hne), List.filter_cons_of_pos (by simpa using hne)]
    rfl
  · have := h3 g!"\t" [] [] []
    rw [List.append_nil] at this
    show readLines (sortedByName _).flatten [] [] = _
    rw [this]
    simp only [List.nil_append, readLines, h1]

/-! ### Joined properties -/

theorem get_append {α : Type} {k : Str} {b : GMap α} : ∀ {a : GMap α}, GMap.get k (a ++ b) = (GMap.get k a).or (GMap.get k b)
  | [] => by simp [GMap.get]
  | (k', v) :: a => by
    simp only [List.cons_append, GMap.get]
    split
    · rfl
    · exact get_append

/-- No property is in two of the schemas, but for those of `own`. -/
def Apart (own : Part) (commons : List Part) : Prop :=
  ((commons.map Part.keys).flatten.filter fun k => decide (k ∉ own.keys)).Nodup

theorem mem_keys_of_get {p : Part} {k : Str} {q : P} (h : GMap.get k p.props = some q) : k ∈ p.keys := List.mem_map.2 ⟨_, GMap.get_some_mem h, rfl⟩

theorem owner_unique {own : Part} {k : Str} (hk : k ∉ own.keys) : ∀ {commons : List Part}, Apart own commons → ∀ c ∈ commons, ∀ c' ∈ commons, k ∈ c.keys → k ∈ c'.keys → c = c'
  | [], _, _, h, _, _, _, _ => nomatch h
  | p :: ps, ha, c, hc, c', hc', h1, h2 => by
    unfold Apart at ha
    rw [List.map_cons, List.flatten_cons, List.filter_append, List.nodup_append] at ha
    have hin : ∀ d ∈ ps, k ∈ d.keys → k ∈ ((ps.map Part.keys).flatten.filter fun k => decide (k ∉ own.keys)) := fun d hd h =>
      List.mem_filter.2 ⟨List.mem_flatten.2 ⟨_, List.mem_map.2 ⟨d, hd, rfl⟩, h⟩, by simpa using hk⟩
    have hp : k ∈ p.keys → k ∈ (p.keys.filter fun k => decide (k ∉ own.keys)) := fun h => List.mem_filter.2 ⟨h, by simpa using hk⟩
    rcases List.mem_cons.1 hc with e | hc1 <;> rcases List.mem_cons.1 hc' with e' | hc2
    · rw [e, e']
    · exact absurd rfl (ha.2.2 _ (hp (e ▸ h1)) _ (hin _ hc2 h2))
    · exact absurd rfl (ha.2.2 _ (hp (e' ▸ h2)) _ (hin _ hc1 h1))
    · exact owner_unique hk ha.2.1 c hc1 c' hc2 h1 h2

theorem get_flatten {k : Str} {q : P} : ∀ {commons : List Part}, GMap.get k (commons.map Part.props).flatten = some q → ∃ c ∈ commons, GMap.get k c.props = some q
  | [], h => nomatch h
  | p :: ps, h => by
    rw [List.map_cons, List.flatten_cons, get_append] at h
    cases hp : GMap.get k p.props with
    | some q' => rw [hp] at h; exact ⟨p, by simp, by simpa [hp] using h⟩
    | none =>
      rw [hp] at h
      obtain ⟨c, hc, h'⟩ := get_flatten (commons := ps) (by simpa using h)
      exact ⟨c, by simp [hc], h'⟩

theorem get_flatten_none {k : Str} : ∀ {commons : List Part}, GMap.get k (commons.map Part.props).flatten = none → ∀ c ∈ commons, k ∉ c.keys
  | [], _, _, h => nomatch h
  | p :: ps, h, c, hc => by
    rw [List.map_cons, List.flatten_cons, get_append, Option.or_eq_none_iff] at h
    rcases List.mem_cons.1 hc with rfl | hc
    · exact GMap.get_none_iff.1 h.1
    · exact get_flatten_none h.2 c hc

theorem joined_own {own : Part} {commons : List Part} {k : Str} {q : P} (h : GMap.get k own.props = some q) : GMap.get k (joined own commons) = some q := by
  rw [joined, get_append, h]; rfl

theorem joined_common {own : Part} {commons : List Part} (ha : Apart own commons) {c : Part} (hc : c ∈ commons) {k : Str} {q : P} (hk : k ∉ own.keys)
    (h : GMap.get k c.props = some q) : GMap.get k (joined own commons) = some q := by
  rw [joined, get_append, GMap.get_none_iff.2 hk, Option.none_or]
  cases hf : GMap.get k (commons.map Part.props).flatten with
  | none => exact absurd (mem_keys_of_get h) (get_flatten_none hf c hc)
  | some q' =>
    obtain ⟨c', hc', h'⟩ := get_flatten hf
    rw [owner_unique hk ha c hc c' hc' (mem_keys_of_get h) (mem_keys_of_get h')] at h
    rw [← h, h']

theorem joined_cases {own : Part} {commons : List Part} {k : Str} {q : P} (h : GMap.get k (joined own commons) = some q) :
    GMap.get k own.props = some q ∨ (k ∉ own.keys ∧ ∃ c ∈ commons, GMap.get k c.props = some q) := by
  rw [joined, get_append] at h
  cases ho : GMap.get k own.props with
  | some q' => rw [ho] at h; exact .inl h
  | none =>
    rw [ho] at h
    exact .inr ⟨GMap.get_none_iff.1 ho, get_flatten (by simpa using h)⟩

theorem required_own {own : Part} {commons : List Part} {k : Str} (hk : k ∈ own.keys) : k ∈ ownersRequired own commons ↔ k ∈ own.schema.required := by
  rw [ownersRequired_iff]
  exact ⟨fun h => h.elim (·.2) fun h => absurd hk h.1, fun h => .inl ⟨hk, h⟩⟩

theorem required_common {own : Part} {commons : List Part} (ha : Apart own commons) {c : Part} (hc : c ∈ commons) {k : Str} (hk : k ∉ own.keys) (hkc : k ∈ c.keys) :
    k ∈ ownersRequired own commons ↔ k ∈ c.schema.required := by
  rw [ownersRequired_iff]
  constructor
  · rintro (h | ⟨_, c', hc', h1, h2⟩)
    · exact absurd h.1 hk
    · rw [owner_unique hk ha c hc c' hc' hkc h1]; exact h2
  · exact fun h => .inr ⟨hk, c, hc, hkc, h⟩

/-- A document of each of the schemas is one of the joined properties. -/
theorem members_joined {c : Codec} {pointers : Bool} {own : Part} {commons : List Part} (ha : Apart own commons) (hs : ∃ k q, Listed own.props k q) {l : List (Str × J)}
    (ho : Members c true pointers own.props own.schema.required l) (hc : ∀ p ∈ commons, Members c true pointers p.props p.schema.required l) :
    Members c true pointers (joined own commons) (ownersRequired own commons) l := by
  refine ⟨ho.nodup, ?_, ?_, ?_, ?_, ?_⟩
  · intro k hk
    rcases ownersRequired_iff.1 hk with h | ⟨_, p, hp, _, h⟩
    · exact ho.given k h.2
    · exact (hc p hp).given k h
  · intro k v q hk hq
    rcases joined_cases hq with h | ⟨_, p, hp, h⟩
    · exact ho.each k v q hk h
    · exact (hc p hp).each k v q hk h
  · intro _ hn
    obtain ⟨k, q, hl⟩ := hs
    exact absurd ⟨joined_own hl.1, hl.2⟩ (hn k q)
  · intro hs' k v hk k' q hq
    rcases joined_cases hq.1 with h | ⟨_, p, hp, h⟩
    · exact ho.fold hs' k v hk k' q ⟨h, hq.2⟩
    · exact (hc p hp).fold hs' k v hk k' q ⟨h, hq.2⟩
  · intro hs' k q hq hr hb
    rcases joined_cases hq.1 with h | ⟨hk, p, hp, h⟩
    · exact ho.times hs' k q ⟨h, hq.2⟩ (fun h' => hr ((required_own (mem_keys_of_get h)).2 h')) hb
    · exact (hc p hp).times hs' k q ⟨h, hq.2⟩ (fun h' => hr ((required_common ha hp hk (mem_keys_of_get h)).2 h')) hb

/-! ### The visible fields -/

theorem jsons_nodup {own : Part} : ∀ {commons : List Part} {fss : List (List SF)},
    Each (fun (p : Part) fs => (fs.map SF.json).Nodup ∧ ∀ s ∈ fs, s.json ∈ p.keys) commons fss → Apart own commons →
    ((fss.flatten.map SF.json).filter fun k => decide (k ∉ own.keys)).Nodup
  | _, _, .nil, _ => by simp
  | p :: ps, fs :: fss, .cons h he, ha => by
    unfold Apart at ha
    rw [List.map_cons, List.flatten_cons, List.filter_append, List.nodup_append] at ha
    rw [List.flatten_cons, List.map_append, List.filter_append, List.nodup_append]
    refine ⟨h.1.filter _, jsons_nodup he ha.2.1, ?_⟩
    have hsub : ∀ {ps : List Part} {fss : List (List SF)}, Each (fun (p : Part) fs => (fs.map SF.json).Nodup ∧ ∀ s ∈ fs, s.json ∈ p.keys) ps fss →
        ∀ k, k ∈ fss.flatten.map SF.json → k ∈ (ps.map Part.keys).flatten := by
      intro ps fss he
      induction he with
      | nil => simp
      | cons h _ ih =>
        intro k hk
        rw [List.flatten_cons, List.map_append, List.mem_append] at hk
        rw [List.map_cons, List.flatten_cons, List.mem_append]
        rcases hk with hk | hk
        · obtain ⟨s, hs, rfl⟩ := List.mem_map.1 hk
          exact .inl (h.2 s hs)
        · exact .inr (ih k hk)
    intro a h1 b h2
    rw [List.mem_filter] at h1 h2
    obtain ⟨s, hs, rfl⟩ := List.mem_map.1 h1.1
    exact ha.2.2 _ (List.mem_filter.2 ⟨h.2 s hs, h1.2⟩) _ (List.mem_filter.2 ⟨hsub he b h2.1, h2.2⟩)

/-- What is known of the fields of a schema. -/
def FieldsGood (c : Codec) (pointers : Bool) (p : Part) (fs : List SF) : Prop :=
  (fs.map SF.json).Nodup ∧ (∀ s ∈ fs, ∃ q, Listed p.props s.json q ∧ FieldGood c pointers (decide (s.json ∈ p.schema.required)) s.json q s) ∧
    ∀ k q, Listed p.props k q → ∃ s ∈ fs, s.json = k

theorem Each.left {α β : Type} {R : α → β → Prop} {as : List α} {bs : List β} (h : Each R as bs) : ∀ a ∈ as, ∃ b ∈ bs, R a b := by
  induction h with
  | nil => exact fun _ h => nomatch h
  | cons h _ ih =>
    intro a ha
    rcases List.mem_cons.1 ha with rfl | ha
    · exact ⟨_, by simp, h⟩
    · obtain ⟨b, hb, hr⟩ := ih a ha
      exact ⟨b, by simp [hb], hr⟩

theorem Each.right {α β : Type} {R : α → β → Prop} {as : List α} {bs : List β} (h : Each R as bs) : ∀ b ∈ bs, ∃ a ∈ as, R a b := by
  induction h with
  | nil => exact fun _ h => nomatch h
  | cons h _ ih =>
    intro b hb
    rcases List.mem_cons.1 hb with rfl | hb
    · exact ⟨_, by simp, h⟩
    · obtain ⟨a, ha, hr⟩ := ih b hb
      exact ⟨a, by simp [ha], hr⟩

theorem Each.imp' {α β : Type} {R S : α → β → Prop} {as : List α} {bs : List β} (hi : ∀ a b, R a b → S a b) (h : Each R as bs) : Each S as bs := by
  induction h with
  | nil => exact .nil
  | cons h _ ih => exact .cons (hi _ _ h) ih

theorem count_one {l : List Str} (hn : l.Nodup) {k : Str} (h : k ∈ l) : l.count k = 1 :=
  Nat.le_antisymm (List.nodup_iff_count.1 hn k) (List.one_le_count_iff.2 h)

theorem visible_good {c : Codec} {pointers : Bool} {own : Part} {commons : List Part} {fs : List SF} {fss : List (List SF)} (hd : own.keys.Nodup)
    (ha : Apart own commons) (hh : ∀ k q, GMap.get k own.props = some q → Hydrated q → ∀ p ∈ commons, k ∉ p.keys)
    (ho : FieldsGood c pointers own fs) (he : Each (FieldsGood c pointers) commons fss) :
    ((visible fss fs).map SF.json).Nodup ∧
      (∀ s ∈ visible fss fs, ∃ q, Listed (joined own commons) s.json q ∧ FieldGood c pointers (decide (s.json ∈ ownersRequired own commons)) s.json q s) ∧
      ∀ k q, Listed (joined own commons) k q → ∃ s ∈ visible fss fs, s.json = k := by
  have hkey : ∀ s ∈ fs, s.json ∈ own.keys := by
    intro s hs
    obtain ⟨q, hl, _⟩ := ho.2.1 s hs
    exact mem_keys_of_get hl.1
  have hnk : ∀ p ∈ commons, ∀ k ∈ p.keys, k ∉ fs.map SF.json → k ∉ own.keys := by
    intro p hp k hk hn hko
    obtain ⟨⟨k', q⟩, hm, rfl⟩ := List.mem_map.1 hko
    have hg := GMap.get_mem_nodup hd hm
    by_cases hy : Hydrated q
    · exact hh _ q hg hy p hp hk
    · obtain ⟨s, hs, e⟩ := ho.2.2 _ q ⟨hg, hy⟩
      exact hn (List.mem_map.2 ⟨s, hs, e⟩)
  have hnd : ((fss.flatten.map SF.json).filter fun k => decide (k ∉ own.keys)).Nodup := by
    refine jsons_nodup (Each.imp' ?_ he) ha
    intro p gs hg
    refine ⟨hg.1, fun s hs => ?_⟩
    obtain ⟨q, hl, _⟩ := hg.2.1 s hs
    exact mem_keys_of_get hl.1
  have hcount : ∀ k, k ∉ own.keys → k ∈ fss.flatten.map SF.json → (fss.flatten.map SF.json).count k = 1 := by
    intro k hk hm
    rw [← List.count_filter (p := fun k => decide (k ∉ own.keys)) (by simpa using hk)]
    exact count_one hnd (List.mem_filter.2 ⟨hm, by simpa using hk⟩)
  have hown : fs.filter (fun f => decide ((fs.map SF.json).count f.json = 1)) = fs := by
    rw [List.filter_eq_self]
    intro s hs
    simpa using count_one ho.1 (List.mem_map.2 ⟨s, hs, rfl⟩)
  unfold visible
  rw [hown]
  refine ⟨?_, ?_, ?_⟩
  · rw [List.map_append, List.nodup_append]
    refine ⟨?_, ho.1, ?_⟩
    · have hsub : ((fss.flatten.filter fun f => decide (f.json ∉ fs.map SF.json ∧ (fss.flatten.map SF.json).count f.json = 1)).map SF.json).Sublist
          ((fss.flatten.map SF.json).filter fun k => decide (k ∉ own.keys)) := by
        have h1 : (fss.flatten.map SF.json).filter (fun k => decide (k ∉ own.keys)) = (fss.flatten.filter fun f => decide (f.json ∉ own.keys)).map SF.json := by
          rw [List.filter_map]; rfl
        rw [h1]
        apply List.Sublist.map
        have h2 : fss.flatten.filter (fun f => decide (f.json ∉ fs.map SF.json ∧ (fss.flatten.map SF.json).count f.json = 1)) =
            (fss.flatten.filter fun f => decide (f.json ∉ own.keys)).filter fun f => decide (f.json ∉ fs.map SF.json ∧ (fss.flatten.map SF.json).count f.json = 1) := by
          rw [List.filter_filter]
          apply List.filter_congr
          intro s hs
          obtain ⟨gs, hgs, hs'⟩ := List.mem_flatten.1 hs
          obtain ⟨p, hp, hg⟩ := Each.right he gs hgs
          obtain ⟨q, hl, _⟩ := hg.2.1 s hs'
          by_cases hc : s.json ∉ fs.map SF.json ∧ (fss.flatten.map SF.json).count s.json = 1
          · have := hnk p hp _ (mem_keys_of_get hl.1) hc.1
            simp only [decide_eq_true hc, decide_eq_true this, Bool.and_true, Bool.true_and]
          · simp only [decide_eq_false hc, Bool.false_and]
        rw [h2]
        exact List.filter_sublist
      exact hsub.nodup hnd
    · intro a h1 b h2 e
      obtain ⟨s, hs, rfl⟩ := List.mem_map.1 h1
      rw [List.mem_filter, decide_eq_true_eq] at hs
      exact hs.2.1 (e ▸ h2)
  · intro s hs
    rcases List.mem_append.1 hs with hs | hs
    · rw [List.mem_filter, decide_eq_true_eq] at hs
      obtain ⟨gs, hgs, hs'⟩ := List.mem_flatten.1 hs.1
      obtain ⟨p, hp, hg⟩ := Each.right he gs hgs
      obtain ⟨q, hl, hf⟩ := hg.2.1 s hs'
      have hk := hnk p hp _ (mem_keys_of_get hl.1) hs.2.1
      refine ⟨q, ⟨joined_common ha hp hk hl.1, hl.2⟩, ?_⟩
      rw [show decide (s.json ∈ ownersRequired own commons) = decide (s.json ∈ p.schema.required) from decide_eq_decide.2 (required_common ha hp hk (mem_keys_of_get hl.1))]
      exact hf
    · obtain ⟨q, hl, hf⟩ := ho.2.1 s hs
      refine ⟨q, ⟨joined_own hl.1, hl.2⟩, ?_⟩
      rw [show decide (s.json ∈ ownersRequired own commons) = decide (s.json ∈ own.schema.required) from decide_eq_decide.2 (required_own (mem_keys_of_get hl.1))]
      exact hf
  · intro k q hl
    rcases joined_cases hl.1 with h | ⟨hk, p, hp, h⟩
    · obtain ⟨s, hs, e⟩ := ho.2.2 k q ⟨h, hl.2⟩
      exact ⟨s, List.mem_append_right _ hs, e⟩
    · obtain ⟨gs, hgs, hg⟩ := Each.left he p hp
      obtain ⟨s, hs, rfl⟩ := hg.2.2 k q ⟨h, hl.2⟩
      have hm : s ∈ fss.flatten := List.mem_flatten.2 ⟨gs, hgs, hs⟩
      refine ⟨s, List.mem_append_left _ (List.mem_filter.2 ⟨hm, decide_eq_true ⟨?_, hcount _ hk (List.mem_map.2 ⟨s, hm, rfl⟩)⟩⟩), rfl⟩
      intro h'
      obtain ⟨s', hs', e⟩ := List.mem_map.1 h'
      exact hk (e ▸ hkey s' hs')

/-! ### The theorem -/

/-- What is asked of a schema and the schemas of the structs that its struct embeds. -/
structure Family (title : Str → Str) (args : Args) (own : Part) (embeds : List Str) (commons : List Part) : Prop where
  good : GoPart title args own
  goods : ∀ p ∈ commons, GoPart title args p
  /-- the struct embeds those of the others, -/
  embedded : JT.Spec.Embeds title args embeds own.schema.allOf (commons.map fun p => title p.name)
  /-- which embed none. -/
  flat : ∀ p ∈ commons, JT.Spec.Embeds title args [] p.schema.allOf []
  /-- No struct is embedded twice -/
  once : (commons.map fun p => title p.name).Nodup
  /-- or has the name of a field. -/
  named : ∀ p ∈ commons, ∀ k q, Listed own.props k q → goName title args.fieldNames k ≠ title p.name
  /-- No property is in two of the others, -/
  apart : Apart own commons
  /-- and no property of the schema that is only for GraphQL is one of the others. -/
  hydrated : ∀ k q, GMap.get k own.props = some q → Hydrated q → ∀ p ∈ commons, k ∉ p.keys

theorem declared_of {pkg : List StructText} {st : StructText} (hn : (pkg.map StructText.name).Nodup) (h : st ∈ pkg) : declared pkg st.name = some st := by
  have : pkg.filter (fun x => decide (x.name = st.name)) = [st] := by
    induction pkg with
    | nil => cases h
    | cons a t ih =>
      rw [List.map_cons, List.nodup_cons] at hn
      rcases List.mem_cons.1 h with rfl | h
      · rw [List.filter_cons_of_pos (by simp)]
        rw [List.filter_eq_nil_iff.2]
        intro x hx e
        exact hn.1 (List.mem_map.2 ⟨x, hx, of_decide_eq_true e⟩)
      · rw [List.filter_cons_of_neg, ih hn.2 h]
        intro e
        exact hn.1 (List.mem_map.2 ⟨st, h, (of_decide_eq_true e).symm⟩)
  unfold declared
  rw [this]

theorem commons_flat {c : Codec} {args : Args} {pkg : List StructText} (hc : c.Lawful) (hn : (pkg.map StructText.name).Nodup) : ∀ {commons : List Part},
    (∀ p ∈ commons, GoPart title args p) → (∀ p ∈ commons, JT.Spec.Embeds title args [] p.schema.allOf []) → (∀ p ∈ commons, InPackage title args pkg p []) →
    ∃ fss, mapOpt (Embed.flat pkg) (commons.map fun p => title p.name) = some fss ∧ Each (FieldsGood c args.pointers) commons fss
  | [], _, _, _ => ⟨[], rfl, .nil⟩
  | p :: ps, h1, h2, h3 => by
    obtain ⟨fss, e, he⟩ := commons_flat (commons := ps) hc hn (fun p hp => h1 p (by simp [hp])) (fun p hp => h2 p (by simp [hp])) (fun p hp => h3 p (by simp [hp]))
    obtain ⟨st, fs, a1, a2, a3, a4, a5, a6, a7, _⟩ := part_text [] hc (h1 p (by simp))
    obtain ⟨sched, g, b1, b2⟩ := h3 p (by simp)
    obtain ⟨g', c1, c2⟩ := a1 sched
    rw [b1] at c1
    cases c1
    have hin : st ∈ pkg := b2 st (by rw [c2]; simp)
    rw [← embeds_iff.1 (h2 p (by simp))] at a3
    refine ⟨fs :: fss, ?_, .cons ⟨a5, a6, a7⟩ he⟩
    have hd : Embed.flat pkg (title p.name) = some fs := by
      unfold Embed.flat
      rw [← a2, declared_of hn hin, Option.bind_some, if_pos (by simpa using a3), a4]
    rw [List.map_cons, mapOpt, hd, Option.bind_some, e]
    rfl

/-- **C86**, in full: each document of a schema and of the schemas whose structs its struct embeds goes through the struct unchanged, up to properties that none of the schemas lists. -/
def C86_statement (title : Str → Str) : Prop := ∀ (c : Codec) (args : Args) (own : Part) (embeds : List Str) (commons : List Part) (pkg : List StructText), c.Lawful →
  GoPart title args own → (∀ p ∈ commons, GoPart title args p) → JT.Spec.Embeds title args embeds own.schema.allOf (commons.map fun p => title p.name) →
  (∀ p ∈ commons, JT.Spec.Embeds title args [] p.schema.allOf []) → (pkg.map StructText.name).Nodup →
  InPackage title args pkg own embeds → (∀ p ∈ commons, InPackage title args pkg p []) →
  ∃ fs, fieldsIn pkg (title own.name) = some fs ∧ ∀ l, Members c true args.pointers own.props own.schema.required l →
    (∀ p ∈ commons, Members c true args.pointers p.props p.schema.required l) → ∃ l', Through c fs l l' ∧
      SameMembers c true own.props own.schema.required l (l'.filter fun kv => decide (kv.1 ∈ own.keys)) ∧
      ∀ p ∈ commons, SameMembers c true p.props p.schema.required l (l'.filter fun kv => decide (kv.1 ∈ p.keys))

/-- **C86**, partial: the structs for a schema and for others that it embeds make a struct such that each document of all of these schemas goes through it, as in `C76_partial`,
for the properties of all schemas together: if a property is in the schema itself and in one of the others, that of the schema counts, and a property is required if the
schema that provides it says so.  Missing: properties that two of the other schemas have. -/
theorem C86_partial {c : Codec} {args : Args} {own : Part} {embeds : List Str} {commons : List Part} {pkg : List StructText} (hc : c.Lawful)
    (h : Family title args own embeds commons) (hn : (pkg.map StructText.name).Nodup) (ho : InPackage title args pkg own embeds)
    (hcs : ∀ p ∈ commons, InPackage title args pkg p []) :
    ∃ fs, fieldsIn pkg (title own.name) = some fs ∧
      ∀ l, Members c true args.pointers own.props own.schema.required l → (∀ p ∈ commons, Members c true args.pointers p.props p.schema.required l) →
        ∃ l', Through c fs l l' ∧ SameMembers c true (joined own commons) (ownersRequired own commons) l l' := by
  obtain ⟨fss, e, he⟩ := commons_flat (c := c) hc hn h.goods h.flat hcs
  obtain ⟨st, fs, a1, a2, a3, a4, a5, a6, a7, a8, a9⟩ := part_text embeds hc h.good
  obtain ⟨sched, g, b1, b2⟩ := ho
  obtain ⟨g', c1, c2⟩ := a1 sched
  rw [b1] at c1
  cases c1
  have hin : st ∈ pkg := b2 st (by rw [c2]; simp)
  obtain ⟨v1, v2, v3⟩ := visible_good h.good.nodup h.apart h.hydrated ⟨a5, a6, a7⟩ he
  refine ⟨visible fss fs, ?_, ?_⟩
  · unfold fieldsIn
    rw [← a2, declared_of hn hin, Option.bind_some, a4, Option.bind_some, a3, ← embeds_iff.1 h.embedded, e, Option.bind_some, if_pos]
    have hnd : (fs.map SF.name).Nodup := by
      unfold checked at a8
      split at a8
      · rename_i hh; exact hh.1
      · cases a8
    rw [List.nodup_append]
    refine ⟨h.once, hnd, ?_⟩
    rintro a ha b hb rfl
    obtain ⟨p, hp, e1⟩ := List.mem_map.1 ha
    obtain ⟨s, hs, e2⟩ := List.mem_map.1 hb
    obtain ⟨q, hl, _⟩ := a6 s hs
    exact h.named p hp _ q hl (by rw [← a9 s hs, e2, e1])
  · intro l hl hls
    obtain ⟨vs, l', d1, d2, d3, _⟩ := struct_good v1 v2 v3 (members_joined h.apart h.good.some hl hls)
    exact ⟨l', ⟨_, d1, by simp [encode, d2]⟩, d3⟩

theorem same_part {c : Codec} {m : GMap P} {r : List Str} {p : Part} {l l' : List (Str × J)} (h : SameMembers c true m r l l')
    (hg : ∀ k q, GMap.get k p.props = some q → GMap.get k m = some q) (hr : ∀ k ∈ p.keys, k ∈ p.schema.required → k ∈ r) :
    SameMembers c true p.props p.schema.required l (l'.filter fun kv => decide (kv.1 ∈ p.keys)) := by
  have hof : ∀ k q, k ∈ p.keys → Listed m k q → Listed p.props k q := by
    intro k q hk hl
    cases e : GMap.get k p.props with
    | none => exact absurd hk (GMap.get_none_iff.1 e)
    | some q' =>
      have := hg k q' e
      rw [hl.1] at this
      cases this
      exact ⟨e, hl.2⟩
  refine ⟨?_, ?_, ?_, ?_⟩
  · exact ((List.filter_sublist (p := fun kv : Str × J => decide (kv.1 ∈ p.keys)) (l := l')).map _).nodup h.nodup
  · intro k v' hk
    rw [List.mem_filter, decide_eq_true_eq] at hk
    obtain ⟨v, q, hv, hl⟩ := h.sound k v' hk.1
    exact ⟨v, q, hv, hof k q hk.2 hl⟩
  · intro k v v' q hv hk hl
    exact h.each k v v' q hv (List.mem_filter.1 hk).1 ⟨hg k q hl.1, hl.2⟩
  · intro k v q hv hl
    rcases h.complete k v q hv ⟨hg k q hl.1, hl.2⟩ with ⟨v', hv'⟩ | ⟨h1, h2, h3⟩
    · exact .inl ⟨v', List.mem_filter.2 ⟨hv', decide_eq_true (mem_keys_of_get hl.1)⟩⟩
    · exact .inr ⟨h1, fun h' => h2 (hr k (mem_keys_of_get hl.1) h'), h3⟩

/-- **C86** for schemas that share no properties: each document goes through the struct unchanged for each of the schemas. -/
theorem C86_apart {c : Codec} {args : Args} {own : Part} {embeds : List Str} {commons : List Part} {pkg : List StructText} (hc : c.Lawful)
    (h : Family title args own embeds commons) (hn : (pkg.map StructText.name).Nodup) (ho : InPackage title args pkg own embeds)
    (hcs : ∀ p ∈ commons, InPackage title args pkg p []) (hd : ∀ p ∈ commons, ∀ k ∈ p.keys, k ∉ own.keys) :
    ∃ fs, fieldsIn pkg (title own.name) = some fs ∧ ∀ l, Members c true args.pointers own.props own.schema.required l →
      (∀ p ∈ commons, Members c true args.pointers p.props p.schema.required l) → ∃ l', Through c fs l l' ∧
        SameMembers c true own.props own.schema.required l (l'.filter fun kv => decide (kv.1 ∈ own.keys)) ∧
        ∀ p ∈ commons, SameMembers c true p.props p.schema.required l (l'.filter fun kv => decide (kv.1 ∈ p.keys)) := by
  obtain ⟨fs, h1, h2⟩ := C86_partial hc h hn ho hcs
  refine ⟨fs, h1, fun l hl hls => ?_⟩
  obtain ⟨l', h3, h4⟩ := h2 l hl hls
  refine ⟨l', h3, same_part h4 (fun k q hk => joined_own hk) (fun k hk hr => (required_own hk).2 hr), fun p hp => ?_⟩
  exact same_part h4 (fun k q hk => joined_common h.apart hp (hd p hp k (mem_keys_of_get hk)) hk) fun k hk hr => (required_common h.apart hp (hd p hp k hk) hk).2 hr

namespace C86ex
open C76ex Toy

def own : Part := ⟨g!"T", schema, props⟩

/-- A schema with a required flag, and one more time. -/
def common (n k : Str) : Part := ⟨n, { Instance.zero with properties := some [(k, pBool)], required := [k] }, [(k, pBool)]⟩

/-- The structs of some schemas. -/
def texts (p : Part) (embeds : List Str) : List StructText := match newGoFile Sched.id C56ex.capital args p.schema p.name embeds with
  | .ok g => (g.text C56ex.capital args).2
  | _ => []

def pkg (embeds : List Str) (commons : List Part) : List StructText := texts own embeds ++ (commons.map fun p => texts p []).flatten

/-- What comes back for a document. -/
def back (embeds : List Str) (commons : List Part) (l : List (Str × J)) : Option J :=
  (fieldsIn (pkg embeds commons) g!"T").bind fun fs => (decode codec (.struct fs) (zero codec (.struct fs)) (.obj l)).bind (encode codec (.struct fs))

theorem own_good : GoPart C56ex.capital args own :=
  ⟨good.inline, good.properties, good.items, good.nodup, good.quiet, good.one, good.plain, good.some, good.names, good.clean⟩

theorem common_listed {n k k' : Str} {q : P} (h : Listed (common n k).props k' q) : k' = k ∧ q = pBool := by
  have := GMap.get_some_mem h.1
  simpa [common] using this

theorem common_good {n k : Str} (hq : ((schemaPositions instNode ⟨some [(k, pBool)], none⟩).all fun x => C56ex.quietB x.1 x.2) = true)
    (ho : ((schemaPositions instNode ⟨some [(k, pBool)], none⟩).all fun x => C56ex.oneB x.1 x.2) = true)
    (hp : ((schemaPositions instNode ⟨some [(k, pBool)], none⟩).all fun x => C56ex.plainB x.1 x.2) = true) (ht : TagName k)
    (he : Exported (goName C56ex.capital [] k)) : GoPart C56ex.capital args (common n k) := by
  refine ⟨rfl, rfl, rfl, by simp [Part.keys, common], C56ex.quiet hq, C56ex.one ho, C56ex.plain hp, ⟨k, pBool, by simp [common, GMap.get], C76ex.not_hydrated (by decide +kernel)⟩, ⟨?_, ?_, ?_⟩, ?_⟩
  · intro k' q h; rw [(common_listed h).1]; exact ht
  · intro k' q h; rw [(common_listed h).1]; exact he
  · intro k1 q1 k2 q2 h1 h2 _; rw [(common_listed h1).1, (common_listed h2).1]
  · intro k' q h; rw [(common_listed h).2]; exact .leaf decoded.1 rfl (by decide) (desc rfl)

theorem texts_in {p : Part} {embeds : List Str} {l : List StructText} (h : texts p embeds ≠ []) (hs : ∀ st ∈ texts p embeds, st ∈ l) :
    InPackage C56ex.capital args l p embeds := by
  unfold texts at h hs
  split at h
  · rename_i g hg
    rw [hg] at hs
    exact ⟨_, g, hg, hs⟩
  · exact absurd rfl h

/-- The document with the flag. -/
def flagged : List (Str × J) := (g!"flag", .bool false) :: doc

theorem own_members : Members codec true false own.props own.schema.required flagged := by
  have hk : ∀ kv ∈ flagged, ∀ kp ∈ props, codec.fold kp.1 = codec.fold kv.1 → kp.1 = kv.1 := by decide +kernel
  refine ⟨by decide, ?_, ?_, ?_, ?_, ?_⟩
  · intro k h
    obtain ⟨v, hv⟩ := doc_members.given k h
    exact ⟨v, List.mem_cons_of_mem _ hv⟩
  · intro k v q h hq
    rcases List.mem_cons.1 h with h | h
    · cases h; cases hq
    · exact doc_members.each k v q h hq
  · intro _ h
    exact absurd ⟨rfl, C76ex.not_hydrated (by decide +kernel)⟩ (h g!"n" pInt)
  · intro _ k v hv k' q hq
    exact hk _ hv _ (listed hq)
  · intro h k q hq hr hb
    obtain ⟨v, hv⟩ := doc_members.times h k q hq hr hb
    exact ⟨v, List.mem_cons_of_mem _ hv⟩

theorem common_members {n : Str} : Members codec true false (common n g!"flag").props (common n g!"flag").schema.required flagged := by
  have hk : ∀ kv ∈ flagged, codec.fold g!"flag" = codec.fold kv.1 → g!"flag" = kv.1 := by decide +kernel
  refine ⟨by decide, ?_, ?_, ?_, ?_, ?_⟩
  · intro k h
    rw [List.mem_singleton.1 (show k ∈ [g!"flag"] from h)]
    exact ⟨_, List.mem_cons_self⟩
  · intro k v q h hq
    have hq := GMap.get_some_mem hq
    have hq : k = g!"flag" ∧ q = pBool := by simpa [common] using hq
    obtain ⟨rfl, rfl⟩ := hq
    rcases List.mem_cons.1 h with h | h
    · cases h; exact .bool decoded.1 rfl
    · have : ∀ kv ∈ doc, kv.1 ≠ g!"flag" := by decide
      exact absurd rfl (this _ h)
  · intro _ h
    exact absurd ⟨rfl, C76ex.not_hydrated (by decide +kernel)⟩ (h g!"flag" pBool)
  · intro _ k v hv k' q hq
    rw [(common_listed hq).1]
    exact hk _ hv
  · intro _ k q hq hr
    exact absurd (by rw [(common_listed hq).1]; exact List.mem_singleton.2 rfl) hr

def one : List Part := [common g!"flags" g!"flag"]
def two : List Part := [common g!"flags" g!"flag", common g!"more" g!"flag"]

theorem flag_good {n : Str} : GoPart C56ex.capital args (common n g!"flag") := common_good (by decide +kernel) (by decide +kernel) (by decide +kernel) (by decide) (by decide)

/-- The conditions hold if one struct is embedded. -/
theorem family : Family C56ex.capital args own [g!"Flags"] one := by
  refine ⟨own_good, ?_, .off rfl, ?_, by decide, ?_, by unfold Apart; decide, ?_⟩
  · intro p hp; rw [List.mem_singleton.1 hp]; exact flag_good
  · intro p hp; rw [List.mem_singleton.1 hp]; exact .off rfl
  · intro p hp k q hl
    rw [List.mem_singleton.1 hp]
    have : ∀ kv ∈ props, goName C56ex.capital [] kv.1 ≠ g!"Flags" := by decide +kernel
    exact this _ (listed hl)
  · intro k q hk _ p hp
    rw [List.mem_singleton.1 hp]
    have : ∀ kv ∈ props, kv.1 ∉ [g!"flag"] := by decide
    exact this _ (GMap.get_some_mem hk)

theorem names_in {embeds : List Str} {commons : List Part} (h : decide (((pkg embeds commons).map StructText.name).Nodup) = true) :
    ((pkg embeds commons).map StructText.name).Nodup := of_decide_eq_true h

theorem own_in {embeds : List Str} {commons : List Part} (h : (texts own embeds).isEmpty = false) : InPackage C56ex.capital args (pkg embeds commons) own embeds :=
  texts_in (by intro e; rw [e] at h; cases h) fun st hst => List.mem_append_left _ hst

theorem common_in {embeds : List Str} {commons : List Part} {p : Part} (hp : p ∈ commons) (h : (texts p []).isEmpty = false) :
    InPackage C56ex.capital args (pkg embeds commons) p [] :=
  texts_in (by intro e; rw [e] at h; cases h) fun st hst => List.mem_append_right _ (List.mem_flatten.2 ⟨_, List.mem_map.2 ⟨p, hp, rfl⟩, hst⟩)

theorem flag_text {n : Str} : (texts (common n g!"flag") []).isEmpty = false := by
  obtain ⟨st, fs, h, _⟩ := part_text [] lawful (flag_good (n := n))
  obtain ⟨g, h1, h2⟩ := h Sched.id
  unfold texts
  rw [h1]
  simp only [h2]
  rfl

/-- The theorem applies: the false flag, which is required, comes back. -/
example : ∃ l', (∃ fs, fieldsIn (pkg [g!"Flags"] one) g!"T" = some fs ∧ Through codec fs flagged l') ∧
    SameMembers codec true own.props own.schema.required flagged (l'.filter fun kv => decide (kv.1 ∈ own.keys)) ∧
    ∀ p ∈ one, SameMembers codec true p.props p.schema.required flagged (l'.filter fun kv => decide (kv.1 ∈ p.keys)) := by
  obtain ⟨fs, h1, h2⟩ := C86_apart (pkg := pkg [g!"Flags"] one) lawful family (names_in (by decide +kernel)) (own_in (by decide +kernel))
    (fun p hp => common_in hp (by rw [List.mem_singleton.1 hp]; exact flag_text)) (by decide)
  obtain ⟨l', h3, h4⟩ := h2 flagged own_members fun p hp => by rw [List.mem_singleton.1 hp]; exact common_members
  exact ⟨l', ⟨fs, h1, h3⟩, h4⟩

example : (back [g!"Flags"] one flagged).map text = some g!"{flag:false,at:'2020-01-01T00:00:00Z',in:{n:0,},tags:['x',],text:null,}" := by decide +kernel

/-- The keys of an object. -/
def keysOf : Option J → List Str
  | some (.obj l) => l.map Prod.fst
  | _ => []

/-- A property that only another schema requires and the schema has itself is lost if it is false. -/
example : g!"on" ∉ keysOf (back [g!"Flags"] [common g!"flags" g!"on"] ((g!"on", .bool false) :: doc)) := by decide +kernel

end C86ex

open C86ex C76ex in
/-- A property that two embedded structs have is lost, though it is required. -/
theorem C86_refuted : ¬ C86_statement C56ex.capital := by
  intro h
  obtain ⟨fs, h1, h2⟩ := h codec args own [g!"Flags", g!"More"] two (pkg [g!"Flags", g!"More"] two) lawful own_good
    (fun p hp => by simp only [two, List.mem_cons, List.not_mem_nil, or_false] at hp; rcases hp with rfl | rfl <;> exact flag_good) (.off rfl)
    (fun p hp => by simp only [two, List.mem_cons, List.not_mem_nil, or_false] at hp; rcases hp with rfl | rfl <;> exact .off rfl)
    (names_in (by decide +kernel)) (own_in (by decide +kernel))
    (fun p hp => common_in hp (by simp only [two, List.mem_cons, List.not_mem_nil, or_false] at hp; rcases hp with rfl | rfl <;> exact flag_text))
  obtain ⟨l', ⟨v, h3, h4⟩, _, h5⟩ := h2 flagged own_members
    (fun p hp => by simp only [two, List.mem_cons, List.not_mem_nil, or_false] at hp; rcases hp with rfl | rfl <;> exact common_members)
  have hb : C86ex.back [g!"Flags", g!"More"] two flagged = some (.obj l') := by
    unfold C86ex.back
    rw [show fieldsIn (pkg [g!"Flags", g!"More"] two) g!"T" = some fs from h1, Option.bind_some, h3, Option.bind_some, h4]
  have hk : g!"flag" ∉ keysOf (C86ex.back [g!"Flags", g!"More"] two flagged) := by decide +kernel
  rw [hb] at hk
  rcases (h5 (common g!"flags" g!"flag") (by simp [two])).complete g!"flag" (.bool false) pBool List.mem_cons_self ⟨rfl, C76ex.not_hydrated (by decide +kernel)⟩ with ⟨v', hv'⟩ | ⟨_, hr, _⟩
  · exact hk (List.mem_map.2 ⟨_, (List.mem_filter.1 hv').1, rfl⟩)
  · exact hr (by simp [common])

end JT.GoJson
