import Verif.Spec.CheckSimple
import Verif.Spec.TopArray
/- Computable check of `IsolatedSchema`, used in examples. -/
namespace JT.Spec

def rootEnd : Str → Bool
  | [] => true
  | c :: _ => c == '.' || c == '['

/-- The field a path starts with. -/
def rootName : Str → Option Str
  | '$' :: '.' :: r =>
    if isName (r.takeWhile isNameChar) && !(r.dropWhile isNameChar).contains '$' && rootEnd (r.dropWhile isNameChar) then
      some (r.takeWhile isNameChar)
    else none
  | _ => none

theorem rootName_sound {path name : Str} (h : rootName path = some name) : Rooted name path := by
  unfold rootName at h
  split at h
  · rename_i r
    split at h
    · rename_i hc
      simp only [Bool.and_eq_true, Bool.not_eq_true', List.contains_eq_mem, decide_eq_false_iff_not] at hc
      simp only [Option.some.injEq] at h
      subst h
      refine ⟨hc.1.1, r.dropWhile isNameChar, ?_, hc.1.2, ?_⟩
      · have := List.takeWhile_append_dropWhile (p := isNameChar) (l := r)
        show '$' :: '.' :: r = '$' :: '.' :: (List.takeWhile isNameChar r ++ List.dropWhile isNameChar r)
        rw [this]
      · have h3 := hc.2
        generalize r.dropWhile isNameChar = t at h3
        cases t with
        | nil => exact Or.inl rfl
        | cons c t =>
          simp only [rootEnd, Bool.or_eq_true, beq_iff_eq] at h3
          rcases h3 with rfl | rfl
          · exact Or.inr ⟨t, Or.inl rfl⟩
          · exact Or.inr ⟨t, Or.inr rfl⟩
    · contradiction
  · contradiction

def readPaths (ident : Str) (q : P) : List Str :=
  match (q.key g!"transform").bind (P.key ident) with
  | some tr =>
    match tr.key g!"from" with
    | some (.arr l) => l.map entryPath
    | _ => []
  | none => []

theorem readPaths_complete {ident : Str} {q : P} {j : Str} (h : ReadsPath ident q j) : j ∈ readPaths ident q := by
  obtain ⟨tr, l, e, h1, h2, h3, rfl⟩ := h
  unfold readPaths
  rw [h1]
  simp only [h2]
  exact List.mem_map.2 ⟨e, h3, rfl⟩

def arrayB (q : P) : Bool := match fieldType q with
  | .ok (ty, _) => decide (ty = g!"array")
  | _ => false

theorem arrayB_sound {q : P} (h : arrayB q = true) : ArrayDef q := by
  unfold arrayB at h
  split at h
  · rename_i ty nu h1
    exact ⟨nu, by rw [h1, of_decide_eq_true h]⟩
  · contradiction

theorem arrayB_complete {q : P} (h : ArrayDef q) : arrayB q = true := by
  obtain ⟨nu, h⟩ := h
  unfold arrayB
  rw [h]
  exact decide_eq_true rfl

def bareB (ident : Str) (q : P) : Bool := isNilB ((q.key g!"default").getD nilP) && noTransformB ident q

theorem bareB_sound {ident : Str} {q : P} (h : bareB ident q = true) : NoDefault q ∧ NoTransform ident q := by
  unfold bareB at h
  rw [Bool.and_eq_true] at h
  refine ⟨?_, noTransformB_sound h.2⟩
  have := h.1
  unfold NoDefault
  generalize (q.key g!"default").getD nilP = d at this
  unfold isNilB at this
  split at this
  · rfl
  · contradiction

def storedB (ident : Str) (m : List (Str × P)) (k : Str) : Bool := m.any fun kv => decide (kv.1 = k) && arrayB kv.2 && !bareB ident kv.2

theorem storedB_complete {ident : Str} {m : List (Str × P)} {k : Str} (h : Stored ident m k) : storedB ident m k = true := by
  obtain ⟨q, h1, h2, h3⟩ := h
  refine List.any_eq_true.2 ⟨(k, q), h1, ?_⟩
  rw [Bool.and_eq_true, Bool.and_eq_true]
  refine ⟨⟨decide_eq_true rfl, arrayB_complete h2⟩, ?_⟩
  cases hb : bareB ident q with
  | false => rfl
  | true => exact absurd (bareB_sound hb) h3

def readB (ident : Str) (m : List (Str × P)) (k : Str) (path : Str) : Bool := match rootName path with
  | some name => decide (name = k) || !storedB ident m name
  | none => false

theorem readB_sound {ident : Str} {m : List (Str × P)} {k path : Str} (h : readB ident m k path = true) :
    ∃ name, Rooted name path ∧ (name ≠ k → ¬ Stored ident m name) := by
  unfold readB at h
  split at h
  · rename_i name h1
    refine ⟨name, rootName_sound h1, fun hne hs => ?_⟩
    rw [Bool.or_eq_true, decide_eq_true_eq, storedB_complete hs] at h
    rcases h with h | h
    · exact hne h
    · contradiction
  · contradiction

def belowB (ident : Str) (m : List (Str × P)) (k : Str) (r : P) : Bool :=
  (!containerB r || bareB ident r) && (readPaths ident r).all fun j => readB ident m k (atPath (g!"$." ++ k) j)

def checkBelow (f : P → Bool) (n : Nat) (q : P) : Bool :=
  (match q.key g!"properties" with
    | some (.obj m) => m.all fun kv => checkInst f n kv.2
    | _ => true)
  && (match q.key g!"items" with
    | some r => checkInst f n r
    | none => true)

theorem checkBelow_sound {f : P → Bool} {n : Nat} {q r : P} (h : checkBelow f n q = true) (hb : Below q r) : f r = true := by
  unfold checkBelow at h
  rw [Bool.and_eq_true] at h
  rcases hb with ⟨items, h1, h2⟩ | ⟨m, k, x, h1, h2, h3⟩
  · rw [h1] at h
    exact checkInst_sound h.2 h2
  · rw [h1] at h
    exact checkInst_sound (List.all_eq_true.1 h.1 _ h2) h3

def nameMapB (m : List (Str × P)) : Bool := decide (m.map Prod.fst).Nodup && m.all fun kv => isName kv.1

def everyB (ident : Str) (q : P) : Bool :=
  notLastB ident q && noClockB ident q && match q.key g!"properties" with
    | some (.obj m) => nameMapB m
    | _ => true

def topB (ident : Str) (n : Nat) (m : List (Str × P)) (kv : Str × P) : Bool :=
  (!containerB kv.2 || arrayB kv.2 || bareB ident kv.2) && ((readPaths ident kv.2).all fun j => readB ident m kv.1 (atPath g!"$" j)) &&
    checkBelow (belowB ident m kv.1) n kv.2

def isolatedB (ident : Str) (n : Nat) (m : List (Str × P)) : Bool :=
  nameMapB m && checkSchema (everyB ident) n ⟨some m, none⟩ && m.all (topB ident n m)

theorem isolatedB_sound {ident : Str} {n : Nat} {m : List (Str × P)} (h : isolatedB ident n m = true) :
    IsolatedSchema ident ⟨some m, none⟩ m := by
  unfold isolatedB at h
  rw [Bool.and_eq_true, Bool.and_eq_true] at h
  obtain ⟨⟨h1, h2⟩, h3⟩ := h
  unfold nameMapB at h1
  rw [Bool.and_eq_true, decide_eq_true_eq, List.all_eq_true] at h1
  have every : ∀ q, SchemaInst ⟨some m, none⟩ q → everyB ident q = true := fun q hq => checkSchema_sound h2 hq
  have htop : ∀ k q, (k, q) ∈ m → topB ident n m (k, q) = true := fun k q hq => List.all_eq_true.1 h3 _ hq
  have hbelow : ∀ k q r, (k, q) ∈ m → Below q r → belowB ident m k r = true := by
    intro k q r hq hb
    have := htop k q hq
    unfold topB at this
    rw [Bool.and_eq_true] at this
    exact checkBelow_sound this.2 hb
  refine ⟨rfl, rfl, h1.1, fun k q hq => h1.2 _ hq, ?_, ?_, ?_, ?_, ?_, ?_, ?_⟩
  · intro q hq m' hm'
    have := every q hq
    unfold everyB at this
    rw [Bool.and_eq_true, hm'] at this
    have := this.2
    simp only [nameMapB, Bool.and_eq_true, decide_eq_true_eq, List.all_eq_true] at this
    exact this
  · intro q hq
    have := every q hq
    unfold everyB at this
    rw [Bool.and_eq_true, Bool.and_eq_true] at this
    exact notLastB_sound this.1.1
  · intro q hq
    have := every q hq
    unfold everyB at this
    rw [Bool.and_eq_true, Bool.and_eq_true] at this
    exact noClockB_sound this.1.2
  · intro k q hq hc
    have := htop k q hq
    unfold topB at this
    simp only [Bool.and_eq_true, Bool.or_eq_true, containerB_complete hc, Bool.not_true, Bool.false_eq_true, false_or] at this
    rcases this.1.1 with h | h
    · exact Or.inl (arrayB_sound h)
    · exact Or.inr (bareB_sound h)
  · intro k q r hq hb hc
    have := hbelow k q r hq hb
    unfold belowB at this
    simp only [Bool.and_eq_true, Bool.or_eq_true, containerB_complete hc, Bool.not_true, Bool.false_eq_true, false_or] at this
    exact bareB_sound this.1
  · intro k q j hq hr
    have := htop k q hq
    unfold topB at this
    rw [Bool.and_eq_true, Bool.and_eq_true] at this
    exact readB_sound (List.all_eq_true.1 this.1.2 _ (readPaths_complete hr))
  · intro k q r j hq hb hr
    have := hbelow k q r hq hb
    unfold belowB at this
    rw [Bool.and_eq_true] at this
    exact readB_sound (List.all_eq_true.1 this.2 _ (readPaths_complete hr))

end JT.Spec
