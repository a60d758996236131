import Verif.Spec.Operations
import Verif.Spec.Toy
/- C131: what `replace` replaces, against what the published schema says of it (transformSchema.json:238-250): "the value that
will replace capture group 1". -/
namespace JT
namespace Spec

/-- A match of a regular expression with one capture group: the text before it (from the match before), and the text
that matches, in three parts: before the group, the group, and after it. -/
structure Found where
  before : Str
  lead : Str
  group : Str
  trail : Str

/-- A text made of the matches in it and the text after the last of them, with something in place of each match. -/
def rebuilt (put : Found → Str) : List Found → Str → Str
  | [], tail => tail
  | m :: ms, tail => m.before ++ (put m ++ rebuilt put ms tail)

/-- The contract of the regexp library: the text is cut at the matches, and ReplaceAllString puts the new text in place of
each of them (for new texts without `$`, which has a meaning of its own there). -/
structure Finds (lib : Lib) (re text : Str) (ms : List Found) (tail : Str) : Prop where
  cut : text = rebuilt (fun m => m.lead ++ m.group ++ m.trail) ms tail
  replaces : ∀ new : Str, '$' ∉ new → lib.reReplace re text new = rebuilt (fun _ => new) ms tail

/-- What the published schema says of `replace`: the new text replaces capture group 1 of each match, and nothing else changes. -/
def Documented (new : Str) (ms : List Found) (tail result : Str) : Prop :=
  result = rebuilt (fun m => m.lead ++ new ++ m.trail) ms tail

end Spec
open Spec

theorem rebuilt_length_le (new : Str) : ∀ (ms : List Found) (tail : Str),
    (rebuilt (fun _ => new) ms tail).length ≤ (rebuilt (fun m => m.lead ++ new ++ m.trail) ms tail).length
  | [], _ => Nat.le_refl _
  | m :: ms, tail => by
    have := rebuilt_length_le new ms tail
    simp only [rebuilt, List.length_append]
    omega

theorem rebuilt_same (new : Str) : ∀ (ms : List Found) (tail : Str),
    rebuilt (fun _ => new) ms tail = rebuilt (fun m => m.lead ++ new ++ m.trail) ms tail ↔ ∀ m ∈ ms, m.lead = [] ∧ m.trail = []
  | [], _ => by simp [rebuilt]
  | m :: ms, tail => by
    have hle := rebuilt_length_le new ms tail
    have ih := rebuilt_same new ms tail
    constructor
    · intro h
      have hlen := congrArg List.length h
      simp only [rebuilt, List.length_append] at hlen
      have h1 : m.lead = [] := List.length_eq_zero_iff.1 (by omega)
      have h2 : m.trail = [] := List.length_eq_zero_iff.1 (by omega)
      simp only [rebuilt, h1, h2, List.nil_append, List.append_nil, List.append_cancel_left_eq] at h
      intro m' hm'
      rcases List.mem_cons.1 hm' with rfl | hm'
      · exact ⟨h1, h2⟩
      · exact ih.1 h m' hm'
    · intro h
      obtain ⟨h1, h2⟩ := h m (List.mem_cons_self ..)
      simp only [rebuilt, h1, h2, List.nil_append, List.append_nil]
      rw [ih.2 fun m' hm' => h m' (List.mem_cons_of_mem _ hm')]

/-- **C131**: `replace` of a text gives the text that the published schema says exactly if the capture group covers each match
as a whole (or there is no match). -/
theorem C131 {α : Type} {lib : Lib} {vw : View α} {now : GTime} {re new text tail : Str} {ms : List Found} (hf : Finds lib re text ms tail)
    (hnew : '$' ∉ new) {raw : α} (hraw : vw.shape raw = .sc (.str text)) :
    ∃ r, runOp lib vw now (.replace re new) raw = .ok (.sc (.str r)) ∧
      (Documented new ms tail r ↔ ∀ m ∈ ms, m.lead = [] ∧ m.trail = []) := by
  refine ⟨lib.reReplace re text new, by simp [runOp, onStr, hraw], ?_⟩
  rw [Documented, hf.replaces new hnew]
  exact rebuilt_same new ms tail

/-- **C131**: what it gives instead: the new text for each match, whatever its capture group is. In particular the result has
nothing of a match left, and is the same if the same matches have other groups. -/
theorem C131_whole {α : Type} {lib : Lib} {vw : View α} {now : GTime} {re re' new text tail : Str} {ms ms' : List Found}
    (hf : Finds lib re text ms tail) (hf' : Finds lib re' text ms' tail) (hsame : ms.map (·.before) = ms'.map (·.before))
    (hnew : '$' ∉ new) {raw : α} (hraw : vw.shape raw = .sc (.str text)) :
    runOp lib vw now (.replace re new) raw = runOp lib vw now (.replace re' new) raw := by
  have key : ∀ (a b : List Found), a.map (·.before) = b.map (·.before) → rebuilt (fun _ => new) a tail = rebuilt (fun _ => new) b tail := by
    intro a
    induction a with
    | nil => intro b h; cases b with
      | nil => rfl
      | cons _ _ => cases h
    | cons x a ih => intro b h; cases b with
      | nil => cases h
      | cons y b =>
        simp only [List.map_cons, List.cons.injEq] at h
        simp only [rebuilt, h.1, ih b h.2]
  simp only [runOp, onStr, hraw]
  rw [hf.replaces new hnew, hf'.replaces new hnew, key _ _ hsame]

namespace C131ex

/-- A regexp library as Go's is on one text: `w(i)d` and `(wid)` match once in "a wide b". -/
def lib : Lib := { Toy.lib [] with reReplace := fun _ s new => if s = g!"a wide b" then g!"a " ++ new ++ g!"e b" else s }

/-- A clock reading. -/
def now : GTime := ⟨0, 0, 0⟩

/-- The match of `w(i)d`. -/
def part : List Found := [⟨g!"a ", g!"w", g!"i", g!"d"⟩]
/-- The match of `(wid)`. -/
def all : List Found := [⟨g!"a ", [], g!"wid", []⟩]

theorem part_found : Finds lib g!"w(i)d" g!"a wide b" part g!"e b" := ⟨by decide, fun new _ => by simp [lib, part, rebuilt]⟩
theorem all_found : Finds lib g!"(wid)" g!"a wide b" all g!"e b" := ⟨by decide, fun new _ => by simp [lib, all, rebuilt]⟩

/-- Both give "a oe b". -/
example (now : GTime) : runOp lib P.view now (.replace g!"w(i)d" g!"o") (.sc (.str g!"a wide b")) = .ok (.sc (.str g!"a oe b")) ∧
    Documented g!"o" all g!"e b" g!"a oe b" ∧ Documented g!"o" part g!"e b" g!"a wode b" := ⟨by rfl, by unfold Documented; decide, by unfold Documented; decide⟩

end C131ex

/-- **C131**, negation of what the published schema says: there is a text, and a regular expression with one capture group, for which
`replace` changes more than the group. -/
theorem C131_refuted : ¬ ∀ (lib : Lib) (now : GTime) (re new text tail : Str) (ms : List Found), Finds lib re text ms tail → '$' ∉ new →
    ∃ r, runOp lib P.view now (.replace re new) (.sc (.str text)) = .ok (.sc (.str r)) ∧ Documented new ms tail r := by
  intro h
  obtain ⟨r, hr, hd⟩ := h C131ex.lib C131ex.now _ g!"o" _ _ _ C131ex.part_found (by decide)
  obtain ⟨r', hr', hiff⟩ := C131 (vw := P.view) (now := C131ex.now) (new := g!"o") C131ex.part_found (by decide) (raw := .sc (.str g!"a wide b")) rfl
  rw [hr] at hr'
  cases hr'
  exact absurd ((hiff.1 hd) _ (List.mem_cons_self ..)).1 (by decide)

end JT
