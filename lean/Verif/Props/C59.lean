import Verif.Props.C58
/- C59: the Avro type of a Go type. -/
namespace JT.Go

/-! ### Specification -/

/-- The Avro types of the Go types that have a name. -/
def Spec.scalars : List (Str × Str) :=
  [(g!"bool", g!"boolean"), (g!"int", g!"long"), (g!"uint", g!"long"), (g!"int64", g!"long"), (g!"uint64", g!"long"), (g!"int8", g!"int"), (g!"int16", g!"int"),
   (g!"int32", g!"int"), (g!"uint8", g!"int"), (g!"uint16", g!"int"), (g!"uint32", g!"int"), (g!"float32", g!"float"), (g!"float64", g!"double"), (g!"byte", g!"bytes"),
   (g!"string", g!"string")]

/-- The type that is pointed at, through any number of pointers. -/
def Spec.pointee : GoType → GoType
  | .star x => Spec.pointee x
  | t => t

/-- How many pointers there are. -/
def Spec.pointers : GoType → Nat
  | .star x => Spec.pointers x + 1
  | _ => 0

/-- What the text for an optional field should be, from that of a required one: a union with null first. -/
def Spec.union (t : Str) : Str := g!"[\"null\"," ++ t ++ g!"]"

/-- A list or a map. -/
def Spec.container : GoType → Bool
  | .array _ => true
  | .map _ _ => true
  | _ => false

/-- The type of booleans. -/
def Spec.isBool : GoType → Bool
  | .ident i => i == g!"bool"
  | _ => false

/-- A type that has an Avro type. -/
def Spec.supported (w : World) : GoType → Bool
  | .ident i => Spec.scalars.any (fun p => p.1 == i) || (w.pkg i).isSome
  | .selector s => s == g!"Time"
  | .other _ => false
  | _ => true

variable {w : World}

theorem primitive_scalar {i a : Str} (h : (i, a) ∈ Spec.scalars) : primitive i = some a := by
  have : ∀ p ∈ Spec.scalars, primitive p.1 = some p.2 := by decide
  exact this (i, a) h

theorem scalar_primitive {i a : Str} (h : primitive i = some a) : (i, a) ∈ Spec.scalars := by
  have h1 : ∀ x ∈ [g!"int", g!"uint", g!"int64", g!"uint64"], (x, g!"long") ∈ Spec.scalars := by decide
  have h2 : ∀ x ∈ [g!"int8", g!"int16", g!"int32", g!"uint8", g!"uint16", g!"uint32"], (x, g!"int") ∈ Spec.scalars := by decide
  unfold primitive at h
  repeat' split at h
  all_goals first | (cases h; done) | (simp only [Option.some.injEq] at h; subst h)
  all_goals first | (subst i; decide) | (rename_i hi; first | exact h1 i hi | exact h2 i hi)

theorem quote_scalar {i a : Str} (h : (i, a) ∈ Spec.scalars) : quote w.isPrint a = g!"\"" ++ a ++ g!"\"" := by
  have hc : ∀ p ∈ Spec.scalars, p.2.all (fun c => decide (0x20 ≤ c.toNat) && decide (c.toNat ≤ 0x7e) && c != '"' && c != '\\') = true := by decide
  have h1 := hc _ h
  have : ∀ s : Str, s.all (fun c => decide (0x20 ≤ c.toNat) && decide (c.toNat ≤ 0x7e) && c != '"' && c != '\\') = true → s.flatMap (quoteChar w.isPrint) = s := by
    intro s
    induction s with
    | nil => intro _; rfl
    | cons c s ih =>
      intro hs
      simp only [List.all_cons, Bool.and_eq_true, decide_eq_true_eq, bne_iff_ne, ne_eq] at hs
      have hq : quoteChar w.isPrint c = [c] := by
        unfold quoteChar
        rw [if_neg (by simp [hs.1.1.2, hs.1.2]), if_pos (Or.inl hs.1.1.1)]
      rw [List.flatMap_cons, hq, ih (by simpa using hs.2)]
      rfl
  simp only [quote, this a h1]
  simp

theorem star_step {n : Nat} {ns seen : List Str} {x : GoType} {name : Str} {b : Bool} : avroType w (n + 1) ns seen (.star x) name b = avroType w n ns seen x name b := rfl

/-- Pointers make no difference. -/
theorem C59_pointer : ∀ (t : GoType) (n : Nat) (ns seen : List Str) (name : Str) (b : Bool),
    avroType w (n + Spec.pointers t) ns seen t name b = avroType w n ns seen (Spec.pointee t) name b
  | .star x, n, ns, seen, name, b => by
    rw [Spec.pointers, ← Nat.add_assoc, star_step, Spec.pointee]
    exact C59_pointer x n ns seen name b
  | .ident _, _, _, _, _, _ => rfl
  | .map _ _, _, _, _, _, _ => rfl
  | .array _, _, _, _, _, _ => rfl
  | .struct _, _, _, _, _, _ => rfl
  | .selector _, _, _, _, _, _ => rfl
  | .other _, _, _, _, _, _ => rfl

/-- The documented Avro type of every scalar, behind any number of pointers. -/
theorem C59_scalar {t : GoType} {i a : Str} (h : (i, a) ∈ Spec.scalars) (ht : Spec.pointee t = .ident i) (n : Nat) (ns seen : List Str) (name : Str) :
    avroType w (n + 1 + Spec.pointers t) ns seen t name false = .ok (g!"\"" ++ a ++ g!"\"", seen) := by
  rw [C59_pointer, ht]
  simp only [avroType, primitive_scalar h]
  rw [primitiveText, if_neg (by simp), quote_scalar h]

/-- The Avro type of times. -/
theorem C59_time {t : GoType} (ht : Spec.pointee t = .selector g!"Time") (n : Nat) (ns seen : List Str) (name : Str) :
    avroType w (n + 1 + Spec.pointers t) ns seen t name false = .ok (g!"{\"type\":\"long\",\"logicalType\":\"timestamp-millis\"}", seen) := by
  rw [C59_pointer, ht]
  simp [avroType, selectorText]

/-- A list has the Avro type of lists of its elements' type, which stands in `items`, or in `type` in `items`. -/
theorem C59_array {n : Nat} {ns seen : List Str} {e : GoType} {name : Str} {b : Bool} {r : Str × List Str} (h : avroType w n ns seen e name false = .ok r) :
    ∃ x, avroType w (n + 1) ns seen (.array e) name b = .ok (g!"{\"type\":\"array\",\"items\":" ++ x ++ g!"}", r.2) ∧
      (x = r.1 ∨ x = g!"{\"type\": " ++ r.1 ++ g!"}") := by
  simp only [avroType, h, Res.bind, arrayText]
  split
  · exact ⟨r.1, rfl, Or.inl rfl⟩
  · refine ⟨_, ?_, Or.inr rfl⟩
    simp

/-- A map has the Avro type of maps of its values' type. -/
theorem C59_map {n : Nat} {ns seen : List Str} {k v : GoType} {name : Str} {b : Bool} {r r' : Str × List Str} (hk : avroType w n ns seen k name false = .ok r)
    (hv : avroType w n ns r.2 v name false = .ok r') :
    avroType w (n + 1) ns seen (.map k v) name b = .ok (g!"{\"type\": \"map\", \"values\": " ++ r'.1 ++ g!"}", r'.2) := by
  simp [avroType, hk, hv, Res.bind]

/-- A struct, named or not, is a record in the namespace of its field; its fields are those of the struct. -/
theorem C59_struct {n : Nat} {ns seen : List Str} {t : GoType} {fs : List GoField} {name : Str} {r : Str × List Str}
    (ht : t = .struct fs ∨ ∃ i, t = .ident i ∧ i ∉ Spec.scalars.map Prod.fst ∧ w.pkg i = some fs)
    (hr : avroFields w n [] (ns ++ [name]) fs seen = .ok r) :
    avroType w (n + 1) ns seen t name false = .ok (g!"{\"name\":" ++ quote w.isPrint (name ++ g!"_record") ++ g!",\"namespace\":" ++
      quote w.isPrint (join g!"." (ns ++ [name])) ++ g!",\"type\":\"record\",\"fields\":[" ++ r.1 ++ g!"]}", r.2) := by
  rcases ht with rfl | ⟨i, rfl, hi, hp⟩
  · simp [avroType, hr, Res.bind, nestedText, recordHead]
  · have : primitive i = none := by
      cases hpr : primitive i with
      | none => rfl
      | some p =>
        exfalso
        apply hi
        exact List.mem_map.2 ⟨(i, p), scalar_primitive hpr, rfl⟩
    simp [avroType, hr, this, hp, Res.bind, nestedText, recordHead]

/-- The text for an optional field, from that of a required one: nothing changes for lists and maps, booleans get a default, everything else becomes a union with
null first. -/
theorem C59_optional {t : GoType} (hs : Spec.supported w (Spec.pointee t) = true) {n : Nat} {ns seen seen' : List Str} {name txt : Str}
    (h : avroType w n ns seen t name false = .ok (txt, seen')) :
    avroType w n ns seen t name true =
      .ok (if Spec.container (Spec.pointee t) then txt else if Spec.isBool (Spec.pointee t) then txt ++ g!",\"default\":false" else Spec.union txt, seen') := by
  induction n generalizing t with
  | zero => cases h
  | succ n ih =>
    cases t with
    | star x => exact ih (t := x) hs h
    | ident i =>
      simp only [Spec.pointee] at hs ⊢
      simp only [avroType] at h ⊢
      cases hp : primitive i with
      | some p =>
        simp only [hp] at h ⊢
        simp only [Res.ok.injEq, Prod.mk.injEq] at h
        obtain ⟨rfl, rfl⟩ := h
        have hb : (i == g!"bool") = true ↔ p = g!"boolean" := by
          have hall : ∀ q ∈ Spec.scalars, ((q.1 == g!"bool") = true ↔ q.2 = g!"boolean") := by decide
          exact hall (i, p) (scalar_primitive hp)
        simp only [primitiveText, Spec.container, Spec.isBool, if_true, Bool.false_eq_true, if_false]
        by_cases hi : p = g!"boolean"
        · rw [if_pos hi, if_pos (hb.2 hi)]
        · rw [if_neg hi, if_neg (fun h => hi (hb.1 h))]
          rfl
      | none =>
        have hnb : (i == g!"bool") = false := by
          cases hc : (i == g!"bool") with
          | false => rfl
          | true => rw [eq_of_beq hc] at hp; revert hp; decide
        simp only [hp] at h ⊢
        cases hk : w.pkg i with
        | none =>
          exfalso
          simp only [Spec.supported, hk, Option.isSome_none, Bool.or_false] at hs
          obtain ⟨q, hq, he⟩ := List.any_eq_true.1 hs
          have hq' := primitive_scalar (i := q.1) (a := q.2) hq
          rw [eq_of_beq he, hp] at hq'
          cases hq'
        | some fs =>
          simp only [hk] at h ⊢
          cases hr : avroFields w n [] (ns ++ [name]) fs seen with
          | ok r =>
            simp only [hr, Res.bind, Res.ok.injEq, Prod.mk.injEq] at h ⊢
            obtain ⟨rfl, rfl⟩ := h
            simp [Spec.container, Spec.isBool, hnb, nestedText, Spec.union]
          | err => rw [hr] at h; cases h
          | panic => rw [hr] at h; cases h
    | map k v =>
      simp only [avroType] at h ⊢
      simp only [Spec.pointee, Spec.container, if_true]
      exact h
    | array e =>
      simp only [avroType] at h ⊢
      simp only [Spec.pointee, Spec.container, if_true]
      exact h
    | struct fs =>
      simp only [avroType] at h ⊢
      cases hr : avroFields w n [] (ns ++ [name]) fs seen with
      | ok r =>
        simp only [hr, Res.bind, Res.ok.injEq, Prod.mk.injEq] at h ⊢
        obtain ⟨rfl, rfl⟩ := h
        simp [Spec.pointee, Spec.container, Spec.isBool, nestedText, Spec.union]
      | err => rw [hr] at h; cases h
      | panic => rw [hr] at h; cases h
    | selector s =>
      simp only [Spec.pointee, Spec.supported] at hs
      have := eq_of_beq hs
      subst this
      simp only [avroType, selectorText, if_true, Bool.false_eq_true, if_false, Res.ok.injEq, Prod.mk.injEq] at h ⊢
      obtain ⟨rfl, rfl⟩ := h
      simp [Spec.pointee, Spec.container, Spec.isBool, Spec.union]
    | other d => simp [Spec.pointee, Spec.supported] at hs

/-- An optional field of scalar type other than boolean is a union of null and the documented type. -/
theorem C59_partial {t : GoType} {i a : Str} (h : (i, a) ∈ Spec.scalars) (ht : Spec.pointee t = .ident i) (hb : i ≠ g!"bool") (n : Nat) (ns seen : List Str) (name : Str) :
    avroType w (n + 1 + Spec.pointers t) ns seen t name true = .ok (g!"[\"null\",\"" ++ a ++ g!"\"]", seen) := by
  rw [C59_optional (by
    rw [ht]
    simp only [Spec.supported, Bool.or_eq_true]
    exact Or.inl (List.any_eq_true.2 ⟨(i, a), h, beq_self_eq_true i⟩)) (C59_scalar h ht n ns seen name), ht]
  have : (i == g!"bool") = false := beq_eq_false_iff_ne.2 hb
  simp [Spec.container, Spec.isBool, this, Spec.union]

/-- It is not so for all types: an optional list is no union, and neither is an optional boolean. -/
theorem C59_refuted : ∃ (w : World) (t : GoType) (n : Nat) (txt : Str), avroType w n [] [] t g!"x" false = .ok (txt, []) ∧
    avroType w n [] [] t g!"x" true ≠ .ok (Spec.union txt, []) := by
  refine ⟨C58ex.world, .array (.ident g!"string"), 3, g!"{\"type\":\"array\",\"items\":{\"type\": \"string\"}}", by decide +kernel, by decide +kernel⟩

/-- Nor does a pointer make a field optional. -/
theorem C59_refuted_pointer : avroType C58ex.world 3 [] [] (.star (.ident g!"string")) g!"x" false = .ok (g!"\"string\"", []) := by decide +kernel

/-! ### The cases exist -/

example : (g!"int32", g!"int") ∈ Spec.scalars ∧ Spec.pointee (.star (.star (.ident g!"int32"))) = .ident g!"int32" := ⟨by decide, rfl⟩

example : Spec.supported C58ex.world (Spec.pointee (.star (.ident g!"Item"))) = true ∧
    (avroType C58ex.world 5 [] [] (.star (.ident g!"Item")) g!"x" true).isOk = true := by decide +kernel

end JT.Go
