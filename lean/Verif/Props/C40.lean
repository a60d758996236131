import Verif.Props.C38
import Verif.Proofs.Reference
/- C49 (reference strings) and C40 (keys beside a reference). -/
namespace JT.Ref
open JT JT.Spec

/-! ### C49 -/

theorem trimLeft_replicate (c : Char) (k : Nat) (s : Str) (h : s.head? ≠ some c) : trimLeft [c] (List.replicate k c ++ s) = s := by
  unfold trimLeft
  induction k with
  | zero =>
    rcases s with _ | ⟨x, xs⟩
    · rfl
    · simp only [List.replicate_zero, List.nil_append]
      rw [List.dropWhile_cons_of_neg]
      simp only [List.contains_cons, List.contains_nil, Bool.or_false, beq_iff_eq]
      rintro rfl
      exact h rfl
  | succ k ih =>
    rw [List.replicate_succ, List.cons_append, List.dropWhile_cons_of_pos (by simp)]
    exact ih

theorem trim_replicate (c : Char) (a b : Nat) (s : Str) (h1 : s ≠ []) (h2 : s.head? ≠ some c) (h3 : s.getLast? ≠ some c) :
    trim [c] (List.replicate a c ++ s ++ List.replicate b c) = s := by
  unfold trim
  rw [List.append_assoc, trimLeft_replicate, trimRight_replicate _ _ _ h3]
  rcases s with _ | ⟨x, xs⟩
  · exact absurd rfl h1
  · exact h2

theorem trim_all (c : Char) (n : Nat) : trim [c] (List.replicate n c) = [] := by
  unfold trim
  have := trimLeft_replicate c n [] (by simp)
  rw [List.append_nil] at this
  rw [this]
  rfl

theorem splitRef_no {f : Str} (h : '#' ∉ f) : splitRef f = (f, []) := by
  unfold splitRef splitN2
  rw [cut_char_none _ _ h]
  have : contains f g!"#" = false := by unfold contains; rw [cut_char_none _ _ h]; rfl
  simp [this]

theorem splitRef_cut {f t : Str} (h : '#' ∉ f) : splitRef (f ++ '#' :: t) = (f, trim ['/'] t) := by
  unfold splitRef splitN2
  rw [cut_char _ _ _ h]

theorem join_head {k : Str} {ks : List Str} (hk : k ≠ []) (hs : '/' ∉ k) : join g!"/" (k :: ks) ≠ [] ∧ (join g!"/" (k :: ks)).head? ≠ some '/' := by
  have : ∃ t, join g!"/" (k :: ks) = k ++ t := by
    cases ks with
    | nil => exact ⟨[], by simp [join]⟩
    | cons a b => exact ⟨'/' :: join g!"/" (a :: b), by simp [join]⟩
  obtain ⟨t, ht⟩ := this
  rw [ht]
  rcases k with _ | ⟨x, k⟩
  · exact absurd rfl hk
  · simp only [List.mem_cons, not_or] at hs
    simp only [List.cons_append, ne_eq, List.head?_cons, Option.some.injEq]
    exact ⟨by simp, fun h => hs.1 h.symm⟩

theorem join_last : ∀ {l : List Str}, l ≠ [] → (∀ x ∈ l, '/' ∉ x) → l.getLast? ≠ some [] → (join g!"/" l).getLast? ≠ some '/'
  | [k], _, h, hl => by
    simp only [join]
    intro he
    exact h k (by simp) (List.mem_of_getLast? he)
  | k :: a :: b, _, h, hl => by
    have ih := join_last (l := a :: b) (by simp) (fun x hx => h x (by simp only [List.mem_cons] at hx ⊢; exact Or.inr hx)) (by simpa using hl)
    simp only [join]
    rcases hj : join g!"/" (a :: b) with _ | ⟨y, ys⟩
    · exfalso
      have h1 := splitC_join '/' (a :: b) (by simp) (fun x hx => h x (by simp only [List.mem_cons] at hx ⊢; exact Or.inr hx))
      rw [hj] at h1
      simp only [splitC, List.cons.injEq] at h1
      obtain ⟨rfl, rfl⟩ := h1
      simp at hl
    · rw [hj] at ih
      rw [List.getLast?_append]
      have : (y :: ys).getLast? = some ((y :: ys).getLast (by simp)) := List.getLast?_eq_some_getLast _
      rw [this] at ih ⊢
      simpa using ih

theorem splitRef_keys {ref f : Str} {keys : List Str} (h : RefParts ref f keys) :
    (splitRef ref).1 = f ∧ ((keys = [] ∧ (splitRef ref).2 = []) ∨ (keys ≠ [] ∧ (splitRef ref).2 ≠ [] ∧ splitC '/' (splitRef ref).2 = keys)) := by
  cases h with
  | file h => rw [splitRef_no h]; exact ⟨rfl, Or.inl ⟨rfl, rfl⟩⟩
  | whole n h => rw [splitRef_cut h, trim_all]; exact ⟨rfl, Or.inl ⟨rfl, rfl⟩⟩
  | keys a b k ks h hs hk hl =>
    have h1 := join_head (ks := ks) hk (hs k (by simp))
    have h2 := join_last (l := k :: ks) (by simp) hs hl
    rw [splitRef_cut h, trim_replicate _ _ _ _ h1.1 h1.2 h2]
    exact ⟨rfl, Or.inr ⟨by simp, h1.1, splitC_join '/' _ (by simp) hs⟩⟩

theorem splitC_noSep (c : Char) : ∀ (s : Str), ∀ x ∈ splitC c s, c ∉ x
  | [], x, hx => by simp only [splitC, List.mem_singleton] at hx; rw [hx]; simp
  | y :: s, x, hx => by
    have ih := splitC_noSep c s
    simp only [splitC] at hx
    split at hx
    · simp only [List.mem_cons] at hx
      rcases hx with rfl | hx
      · simp
      · exact ih x hx
    · rename_i hy
      rcases hs : splitC c s with _ | ⟨a, b⟩
      · exact absurd hs (splitC_ne_nil _ _)
      · rw [hs] at hx ih
        simp only [List.mem_cons] at hx
        rcases hx with rfl | hx
        · simp only [List.mem_cons, not_or]
          exact ⟨fun e => hy e.symm, ih a (by simp)⟩
        · exact ih x (by simp [hx])

/-- Slashes at both ends. -/
theorem strip_slashes (s : Str) : (∃ n, s = List.replicate n '/') ∨
    ∃ a b t, s = List.replicate a '/' ++ t ++ List.replicate b '/' ∧ t ≠ [] ∧ t.head? ≠ some '/' ∧ t.getLast? ≠ some '/' := by
  have left : ∀ s : Str, ∃ n t, s = List.replicate n '/' ++ t ∧ t.head? ≠ some '/' := by
    intro s
    induction s with
    | nil => exact ⟨0, [], rfl, by simp⟩
    | cons x xs ih =>
      by_cases hx : x = '/'
      · obtain ⟨n, t, h1, h2⟩ := ih
        exact ⟨n + 1, t, by rw [hx, h1]; rfl, h2⟩
      · exact ⟨0, x :: xs, rfl, by simpa using hx⟩
  obtain ⟨n, t, rfl, ht⟩ := left s
  obtain ⟨b, t', h1, h2⟩ := left t.reverse
  have h3 : t = t'.reverse ++ List.replicate b '/' := by
    have := congrArg List.reverse h1
    simpa using this
  by_cases h0 : t' = []
  · subst h0
    left
    exact ⟨n + b, by rw [h3]; simp⟩
  · right
    refine ⟨n, b, t'.reverse, by rw [h3, List.append_assoc], by simpa using h0, ?_, by rw [List.getLast?_reverse]; exact h2⟩
    rw [h3] at ht
    intro he
    apply ht
    rcases hr : t'.reverse with _ | ⟨x, xs⟩
    · rw [hr] at he; simp at he
    · rw [hr] at he; simpa using he

end JT.Ref

namespace JT
open Spec

/-- **C49**: every reference string names exactly one file and one path of keys. -/
theorem C49_total (ref : Str) : ∃ f keys, RefParts ref f keys ∧ ∀ f' keys', RefParts ref f' keys' → f' = f ∧ keys' = keys := by
  have hex : ∃ f keys, RefParts ref f keys := by
    rcases split_first '#' ref with h | ⟨f, t, rfl, h⟩
    · exact ⟨_, _, .file h⟩
    · rcases Ref.strip_slashes t with ⟨n, rfl⟩ | ⟨a, b, t, rfl, h0, h1, h2⟩
      · exact ⟨_, _, .whole n h⟩
      · rcases hs : splitC '/' t with _ | ⟨k, ks⟩
        · exact absurd hs (splitC_ne_nil _ _)
        · have hj := join_splitC '/' t
          rw [hs] at hj
          have hno : ∀ x ∈ k :: ks, '/' ∉ x := by rw [← hs]; exact Ref.splitC_noSep '/' t
          rw [← hj]
          refine ⟨f, k :: ks, .keys a b k ks h hno ?_ ?_⟩
          · rintro rfl
            rcases ks with _ | ⟨x, y⟩
            · simp only [join] at hj; exact h0 hj.symm
            · rw [← hj] at h1
              simp [join] at h1
          · intro hl
            obtain ⟨l', hl'⟩ : ∃ l', k :: ks = l' ++ [[]] := by
              rw [List.getLast?_eq_some_iff] at hl
              obtain ⟨l', h⟩ := hl
              exact ⟨l', h⟩
            have : t = [] ∨ t.getLast? = some '/' := by
              rw [← hj, hl']
              clear hl' hl hj hs hno h0 h1 h2
              induction l' with
              | nil => left; rfl
              | cons x y ih =>
                right
                rcases hy : y ++ [[]] with _ | ⟨z, zs⟩
                · simp at hy
                · simp only [List.cons_append, hy, join]
                  rw [hy] at ih
                  rcases ih with h | h
                  · rw [h]; simp
                  · rw [List.getLast?_append, h]; rfl
            rcases this with h | h
            · exact h0 h
            · exact h2 h
  obtain ⟨f, keys, h⟩ := hex
  refine ⟨f, keys, h, ?_⟩
  intro f' keys' h'
  obtain ⟨h1, h2⟩ := Ref.splitRef_keys h
  obtain ⟨h3, h4⟩ := Ref.splitRef_keys h'
  refine ⟨h3.symm.trans h1, ?_⟩
  rcases h2 with ⟨a, b⟩ | ⟨a, b, c⟩ <;> rcases h4 with ⟨d, e⟩ | ⟨d, e, g⟩
  · rw [a, d]
  · exact absurd b e
  · exact absurd e b
  · rw [← c, ← g]

namespace Spec
/-- The document that a reference with the given file part, in the document `data` at `schemaPath`, points into. -/
inductive SourceOf (w : World) (schemaPath : Str) (data : P) : Str → P → Prop where
  | here : SourceOf w schemaPath data [] data
  | http {f : Str} {p : P} : f ≠ [] → g!"http" <+: f → w.http f = .ok p → SourceOf w schemaPath data f p
  | self {f : Str} : f ≠ [] → ¬ g!"http" <+: f → w.absRef schemaPath f = .ok schemaPath → SourceOf w schemaPath data f data
  | file {f path : Str} {p : P} : f ≠ [] → ¬ g!"http" <+: f → w.absRef schemaPath f = .ok path → path ≠ schemaPath → w.load path = .ok p →
      SourceOf w schemaPath data f p
end Spec

theorem refSource_iff {w : World} {schemaPath f : Str} {data p : P} : refSource w schemaPath f data = .ok p ↔ Spec.SourceOf w schemaPath data f p := by
  unfold refSource hasPrefix
  constructor
  · intro h
    split at h
    · rename_i h0; subst h0; injection h with h; subst h; exact .here
    · rename_i h0
      split at h
      · rename_i h1; exact .http h0 (List.isPrefixOf_iff_prefix.1 h1) h
      · rename_i h1
        have h1' : ¬ g!"http" <+: f := fun e => h1 (List.isPrefixOf_iff_prefix.2 e)
        rcases ha : w.absRef schemaPath f with path | _ | _
        · simp only [ha] at h
          split at h
          · rename_i h2; subst h2; injection h with h; subst h; exact .self h0 h1' ha
          · rename_i h2; exact .file h0 h1' ha (fun e => h2 e.symm) h
        · simp [ha] at h
        · simp [ha] at h
  · intro h
    cases h with
    | here => simp
    | http h0 h1 h2 => rw [if_neg h0, if_pos (List.isPrefixOf_iff_prefix.2 h1), h2]
    | self h0 h1 h2 => rw [if_neg h0, if_neg (fun e => h1 (List.isPrefixOf_iff_prefix.1 e)), h2]; simp
    | file h0 h1 h2 h3 h4 =>
      rw [if_neg h0, if_neg (fun e => h1 (List.isPrefixOf_iff_prefix.1 e)), h2]
      simp only
      rw [if_neg (fun e => h3 e.symm), h4]

/-- **C49**: resolving the reference that names a file and keys gives, if anything, the object at these keys in that document (the current document if
there is no file part), with its `fromRef` set to the reference. -/
theorem C49 (w : World) (schemaPath ref f : Str) (keys : List Str) (data r : P) (h : RefParts ref f keys) :
    resolveRef w schemaPath ref data = .ok r ↔ ∃ source m, SourceOf w schemaPath data f source ∧ source.at keys = some (.obj m) ∧
      r = .obj (setField fromRefKey (.sc (.str (w.quote ref))) m) := by
  obtain ⟨h1, h2⟩ := Ref.splitRef_keys h
  have ht : ∀ source, refTarget (splitRef ref).2 source = match source.at keys with | some p => .ok p | none => .err := by
    intro source
    unfold refTarget
    rcases h2 with ⟨a, b⟩ | ⟨a, b, c⟩
    · rw [if_pos b, a]; rfl
    · rw [if_neg b, c]; cases source.at keys <;> rfl
  unfold resolveRef
  rw [h1]
  constructor
  · intro h
    rw [Res.bind_eq_ok] at h
    obtain ⟨source, hs, h⟩ := h
    rw [Res.bind_eq_ok] at h
    obtain ⟨p, hp, h⟩ := h
    rw [ht] at hp
    rcases ha : source.at keys with _ | q
    · simp [ha] at hp
    · simp only [ha, Res.ok.injEq] at hp
      subst hp
      unfold markRef at h
      split at h
      · simp only [Res.ok.injEq] at h
        exact ⟨source, _, refSource_iff.1 hs, ha, h.symm⟩
      · simp at h
  · rintro ⟨source, m, hs, ha, rfl⟩
    rw [refSource_iff.2 hs]
    simp only [Ref.ok_bind]
    rw [ht, ha]
    rfl

/-! ### C40 -/

namespace Ref

theorem hexVal_digit (n : Nat) (h : n < 16) : hexVal (hexDigit n) = n := by
  have : ∀ n : Fin 16, hexVal (hexDigit n) = n := by decide
  exact this ⟨n, h⟩

theorem unesc_simple {d : Char} (h : d ≠ 'u') (t : Str) : unescStr ('\\' :: d :: t) = simpleEsc d :: unescStr t := by
  rw [unescStr]
  intro a b c e t' h'
  exact absurd h' (by simpa using fun h1 => absurd h1 h)

theorem unesc_plain {c : Char} (h : c ≠ '\\') (t : Str) : unescStr (c :: t) = c :: unescStr t := by
  rw [unescStr]
  · intro _ _ _ _ _ h' _; exact absurd h' h
  · intro a t' h' _; exact absurd h' h

theorem unesc_escChar (c : Char) (t : Str) : unescStr (escChar c ++ t) = c :: unescStr t := by
  unfold escChar
  by_cases h1 : c = '"'
  · rw [if_pos h1, h1]; exact unesc_simple (by decide) t
  rw [if_neg h1]
  by_cases h2 : c = '\\'
  · rw [if_pos h2, h2]; exact unesc_simple (by decide) t
  rw [if_neg h2]
  by_cases h3 : c = '\n'
  · rw [if_pos h3, h3]; exact unesc_simple (by decide) t
  rw [if_neg h3]
  by_cases h4 : c = '\r'
  · rw [if_pos h4, h4]; exact unesc_simple (by decide) t
  rw [if_neg h4]
  by_cases h5 : c = '\t'
  · rw [if_pos h5, h5]; exact unesc_simple (by decide) t
  rw [if_neg h5]
  split
  · rename_i h
    have hlt : c.toNat < 65536 := by
      rcases h with h | h | h | h | h | h
      · omega
      · subst h; decide
      · subst h; decide
      · subst h; decide
      · omega
      · omega
    simp only [List.cons_append, List.nil_append, unescStr]
    rw [hexVal_digit _ (by omega), hexVal_digit _ (by omega), hexVal_digit _ (by omega), hexVal_digit _ (by omega)]
    have : 4096 * (c.toNat / 4096) + 256 * (c.toNat / 256 % 16) + 16 * (c.toNat / 16 % 16) + c.toNat % 16 = c.toNat := by omega
    rw [this, Char.ofNat_toNat]
  · exact unesc_plain h2 t

/-- Decoding undoes encoding. -/
theorem unesc_esc (s : Str) : unescStr (escStr s) = s := by
  unfold escStr
  induction s with
  | nil => rfl
  | cons c s ih => rw [List.flatMap_cons, unesc_escChar, ih]

theorem unesc_noescape : ∀ {s : Str}, '\\' ∉ s → unescStr s = s
  | [], _ => rfl
  | c :: s, h => by
    simp only [List.mem_cons, not_or] at h
    rw [unesc_plain (fun e => h.1 e.symm), unesc_noescape h.2]

end Ref

namespace Spec
/-- What a value of a document means: the strings are decoded. -/
def meaning : P → P
  | .sc (.str raw) => .sc (.str (unescStr raw))
  | p => p
end Spec

/-- The part of a document that resolving the reference in the object `m` at `dest` leaves alone stays the same, and the object becomes one whose fields are: for
every name beside the reference, the value given by `value`; for the other names, that of the resolved object `r`. -/
def Resolved (value : P → P) (data data' : P) (dest : List Str) (m r : List (Str × P)) : Prop :=
  (∃ m', data'.at dest = some (.obj m') ∧ ∀ k, GMap.get k m' = match GMap.get k m with
      | some v => if k = refKey then GMap.get k r else some (value v)
      | none => GMap.get k r) ∧
    ∀ other, Ref.Apart data other dest → data'.at other = data.at other

/-- **C40**, what the code does: a key that was beside the reference keeps its value, except that a string is encoded once more (`siblingValue`); the other keys are those
of the resolved object (see `C49`: the target with its `fromRef` set); everything elsewhere in the document stays. -/
theorem C40_code (w : World) (schemaPath raw : Str) (dest : List Str) (data : P) (m r : List (Str × P)) (hd : dest ≠ []) (hat : data.at dest = some (.obj m))
    (hm : (m.map Prod.fst).Nodup) (href : GMap.get refKey m = some (.sc (.str raw))) (hres : resolveRef w schemaPath (unescStr raw) data = .ok (.obj r)) :
    ∃ data', derefOne w schemaPath (dest ++ [refKey]) data = .ok data' ∧ Resolved siblingValue data data' dest m r := by
  obtain ⟨data', h1, h2⟩ := Ref.derefOne_eq hd hat href hres
  refine ⟨data', h1, ⟨Ref.overlay r (delField refKey m), ?_, ?_⟩, fun other ho => Ref.set_frame ho hat h2⟩
  · obtain ⟨x, h3, h4⟩ := Ref.set_some (.obj (Ref.overlay r (delField refKey m))) hat
    rw [h2] at h3
    injection h3 with h3
    rw [h3]
    exact h4
  · intro k
    rw [Ref.get_overlay k _ _ (Ref.nodup_delField hm)]
    by_cases hk : k = refKey
    · subst hk
      rw [Ref.get_delField_self hm, href]
      simp
    · rw [Ref.get_delField_ne hk]
      simp only [if_neg hk]
      cases GMap.get k m <;> rfl

/-- C40 as one would like it: keys beside the reference keep what they mean. -/
def C40_statement : Prop :=
  ∀ (w : World) (schemaPath raw : Str) (dest : List Str) (data : P) (m r : List (Str × P)), data.at dest = some (.obj m) →
    (m.map Prod.fst).Nodup → GMap.get refKey m = some (.sc (.str raw)) → resolveRef w schemaPath (unescStr raw) data = .ok (.obj r) →
    ∃ data' m', derefOne w schemaPath (dest ++ [refKey]) data = .ok data' ∧ data'.at dest = some (.obj m') ∧
      (∀ k v, k ≠ refKey → GMap.get k m = some v → (GMap.get k m').map Spec.meaning = some (Spec.meaning v)) ∧
      (∀ k, GMap.get k m = none → GMap.get k m' = GMap.get k r) ∧ ∀ other, Ref.Apart data other dest → data'.at other = data.at other

/-- **C40**, partial: it holds if the reference is not at the root and no string directly beside it has an escape sequence. -/
theorem C40_partial (w : World) (schemaPath raw : Str) (dest : List Str) (data : P) (m r : List (Str × P)) (hd : dest ≠ []) (hat : data.at dest = some (.obj m))
    (hm : (m.map Prod.fst).Nodup) (href : GMap.get refKey m = some (.sc (.str raw))) (hres : resolveRef w schemaPath (unescStr raw) data = .ok (.obj r))
    (hesc : ∀ k s, k ≠ refKey → GMap.get k m = some (.sc (.str s)) → '\\' ∉ s) :
    ∃ data' m', derefOne w schemaPath (dest ++ [refKey]) data = .ok data' ∧ data'.at dest = some (.obj m') ∧
      (∀ k v, k ≠ refKey → GMap.get k m = some v → (GMap.get k m').map Spec.meaning = some (Spec.meaning v)) ∧
      (∀ k, GMap.get k m = none → GMap.get k m' = GMap.get k r) ∧ ∀ other, Ref.Apart data other dest → data'.at other = data.at other := by
  obtain ⟨data', h1, ⟨m', h2, h3⟩, h4⟩ := C40_code w schemaPath raw dest data m r hd hat hm href hres
  refine ⟨data', m', h1, h2, ?_, ?_, h4⟩
  · intro k v hk hv
    have := h3 k
    rw [hv] at this
    simp only [if_neg hk] at this
    rw [this, Option.map_some]
    congr 1
    rcases v with s | l | l
    · cases s with
      | str s =>
        have hs := hesc k s hk hv
        simp only [siblingValue, Spec.meaning, Ref.unesc_esc, Ref.unesc_noescape hs]
      | _ => rfl
    · rfl
    · rfl
  · intro k hk
    have := h3 k
    rw [hk] at this
    exact this

namespace C40ex

def str (s : Str) : P := .sc (.str s)
/-- No files, no network. -/
def w : World := { load := fun _ => .err, http := fun _ => .err, absRef := fun _ _ => .err, quote := fun s => s }

/-- A definition and two references to it, one with a description of its own, one in an array. -/
def doc : P := .obj [(g!"definitions", .obj [(g!"d", .obj [(g!"type", str g!"object"), (g!"description", str g!"theirs")])]),
  (g!"properties", .obj [(g!"a", .obj [(g!"description", str g!"ours"), (g!"$ref", str g!"#/definitions/d")])]),
  (g!"allOf", .arr [.obj [(g!"$ref", str g!"#/definitions/d/")], .arr [.obj [(g!"$ref", str g!"unseen")]]])]

def res : P := .obj [(g!"definitions", .obj [(g!"d", .obj [(g!"type", str g!"object"), (g!"description", str g!"theirs")])]),
  (g!"properties", .obj [(g!"a", .obj [(g!"type", str g!"object"), (g!"description", str g!"ours"), (g!"fromRef", str g!"#/definitions/d")])]),
  (g!"allOf", .arr [.obj [(g!"type", str g!"object"), (g!"description", str g!"theirs"), (g!"fromRef", str g!"#/definitions/d/")],
    .arr [.obj [(g!"$ref", str g!"unseen")]]])]

example : dereference w [] 1 doc = some (.ok res) := by rfl
example : findRefs doc = some [[g!"properties", g!"a", g!"$ref"], [g!"allOf", g!"[0]", g!"$ref"]] := by rfl
example : RefParts g!"#/definitions/d/" [] [g!"definitions", g!"d"] := .keys (f := []) 1 1 g!"definitions" [g!"d"] (by simp) (by decide) (by decide) (by decide)
example : RefParts g!"file.json#" g!"file.json" [] := .whole (f := g!"file.json") 0 (by decide)
example : resolveRef w [] g!"#/definitions/d" doc = .ok (.obj [(g!"type", str g!"object"), (g!"description", str g!"theirs"), (g!"fromRef", str g!"#/definitions/d")]) := by rfl

/-- A string with an escaped quote beside the reference. -/
def esc : P := .obj [(g!"a", .obj [(g!"description", str ['x', '\\', '"']), (g!"$ref", str g!"#/d")]), (g!"d", .obj [])]

end C40ex

/-- C40 fails for strings with escape sequences: they are encoded twice. -/
theorem C40_refuted : ¬ C40_statement := by
  intro h
  obtain ⟨data', m', h1, h2, h3, _⟩ := h C40ex.w [] g!"#/d" [g!"a"] C40ex.esc _ _ rfl (by decide) rfl rfl
  have h4 := h3 g!"description" (C40ex.str ['x', '\\', '"']) (by decide) rfl
  have h5 : derefOne C40ex.w [] ([g!"a"] ++ [refKey]) C40ex.esc = .ok (.obj [(g!"a", .obj [(g!"fromRef", C40ex.str g!"#/d"), (g!"description",
    C40ex.str ['x', '\\', '\\', '\\', '"'])]), (g!"d", .obj [])]) := by rfl
  rw [h5] at h1
  injection h1 with h1
  subst h1
  have h6 : (P.obj [(g!"a", .obj [(g!"fromRef", C40ex.str g!"#/d"), (g!"description", C40ex.str ['x', '\\', '\\', '\\', '"'])]), (g!"d", .obj [])]).at [g!"a"]
    = some (.obj [(g!"fromRef", C40ex.str g!"#/d"), (g!"description", C40ex.str ['x', '\\', '\\', '\\', '"'])]) := by rfl
  rw [h6] at h2
  injection h2 with h2
  injection h2 with h2
  subst h2
  revert h4
  simp [GMap.get, Spec.meaning, C40ex.str, unescStr, simpleEsc]

/-- C40 fails at the root, even without escape sequences: the reference is resolved but its target is dropped. -/
theorem C40_root (w : World) (schemaPath raw : Str) (m r : List (Str × P)) (href : GMap.get refKey m = some (.sc (.str raw)))
    (hres : resolveRef w schemaPath (unescStr raw) (.obj m) = .ok (.obj r)) :
    derefOne w schemaPath [refKey] (.obj m) = .ok (.obj (delField refKey m)) := Ref.derefOne_root href hres

end JT
