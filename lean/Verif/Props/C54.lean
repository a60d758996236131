import Verif.Model.Struct
import Verif.Proofs.MapMore
import Verif.Props.C34
/- C54: the order of the fields. -/
namespace JT.Spec
open Gen

/-- Ordered by name, no name twice. -/
def Ordered {α : Type} (l : List (Str × α)) : Prop := l.Pairwise fun a b => strLt a.1 b.1 = true

/-- The same field, apart from the order in which maps are visited. -/
inductive Same : EField → EField → Prop where
  | leaf {a d j t n u r} : Same ⟨a, d, none, j, t, n, u, r⟩ ⟨a, d, none, j, t, n, u, r⟩
  | node {a d j t n u r} {fs mid fs' : List (Str × EField)} : fs.length = mid.length →
      (∀ (x : Nat) (h : x < fs.length) (h' : x < mid.length), fs[x].1 = mid[x].1) →
      (∀ (x : Nat) (h : x < fs.length) (h' : x < mid.length), Same fs[x].2 mid[x].2) → mid.Perm fs' →
      Same ⟨a, d, some fs, j, t, n, u, r⟩ ⟨a, d, some fs', j, t, n, u, r⟩

/-- The fields of a struct have different names, and so have the fields of inline structs. -/
inductive DistinctNames : EField → Prop where
  | leaf {a d j t n u r} : DistinctNames ⟨a, d, none, j, t, n, u, r⟩
  | node {a d j t n u r} {fs : List (Str × EField)} : (fs.map fun kf => kf.2.name).Nodup →
      (∀ kf, kf ∈ fs → DistinctNames kf.2) → DistinctNames ⟨a, d, some fs, j, t, n, u, r⟩

end JT.Spec

namespace JT.Gen
open Spec

theorem insertStr_perm (x : Str) : ∀ l, (insertStr x l).Perm (x :: l)
  | [] => List.Perm.refl _
  | y :: l => by
    unfold insertStr
    split
    · exact ((insertStr_perm x l).cons y).trans (.swap x y l)
    · exact List.Perm.refl _

theorem sortStrings_perm : ∀ l, (sortStrings l).Perm l
  | [] => List.Perm.refl _
  | x :: l => (insertStr_perm x _).trans ((sortStrings_perm l).cons x)

theorem insertStr_pairwise {x : Str} : ∀ {l : List Str}, l.Pairwise (fun a b => strLt a b = true) → x ∉ l →
    (insertStr x l).Pairwise (fun a b => strLt a b = true)
  | [], _, _ => by simp [insertStr]
  | y :: l, h, hx => by
    rw [List.pairwise_cons] at h
    rw [List.mem_cons, not_or] at hx
    unfold insertStr
    split
    · rename_i hlt
      rw [List.pairwise_cons]
      refine ⟨?_, insertStr_pairwise h.2 hx.2⟩
      intro z hz
      rcases List.mem_cons.1 ((insertStr_perm x l).mem_iff.1 hz) with rfl | hz
      · exact hlt
      · exact h.1 z hz
    · rename_i hlt
      have hxy : strLt x y = true := by
        rcases strLt_total x y with h | h | h
        · exact h
        · exact absurd h hx.1
        · exact absurd h hlt
      rw [List.pairwise_cons, List.pairwise_cons]
      refine ⟨?_, h⟩
      intro z hz
      rcases List.mem_cons.1 hz with rfl | hz
      · exact hxy
      · exact strLt_trans hxy (h.1 z hz)

theorem sortStrings_pairwise : ∀ {l : List Str}, l.Nodup → (sortStrings l).Pairwise (fun a b => strLt a b = true)
  | [], _ => by simp [sortStrings]
  | x :: l, h => by
    rw [List.nodup_cons] at h
    exact insertStr_pairwise (sortStrings_pairwise h.2) (fun hm => h.1 ((sortStrings_perm l).mem_iff.1 hm))

theorem nodup_of_map {α β : Type} {f : α → β} : ∀ {l : List α}, (l.map f).Nodup → l.Nodup
  | [], _ => by simp
  | x :: l, h => by
    rw [List.map_cons, List.nodup_cons] at h
    exact List.nodup_cons.2 ⟨fun hx => h.1 (List.mem_map_of_mem hx), nodup_of_map h.2⟩

theorem sorted_spec {α : Type} {l : List (Str × α)} (h : (l.map Prod.fst).Nodup) :
    ∃ l' : List (Str × α), l'.Perm l ∧ Ordered l' ∧ sortedByName l = l'.map Prod.snd := by
  have hnr : ((l.reverse).map Prod.fst).Nodup := by rw [List.map_reverse]; exact (List.reverse_perm _).nodup_iff.2 h
  have key : ∀ ns : List Str, (∀ n ∈ ns, n ∈ l.map Prod.fst) → ∃ l' : List (Str × α), l'.map Prod.fst = ns ∧ (∀ x ∈ l', x ∈ l) ∧
      ns.filterMap (fun n => GMap.get n l.reverse) = l'.map Prod.snd := by
    intro ns
    induction ns with
    | nil => intro _; exact ⟨[], rfl, by simp, rfl⟩
    | cons n ns ih =>
      intro hn
      obtain ⟨l', h1, h2, h3⟩ := ih (fun x hx => hn x (List.mem_cons_of_mem _ hx))
      obtain ⟨⟨n', v⟩, hm, rfl⟩ := List.mem_map.1 (hn n List.mem_cons_self)
      have hg := GMap.get_mem_nodup hnr (List.mem_reverse.2 hm)
      refine ⟨(n', v) :: l', by simp [h1], ?_, ?_⟩
      · intro x hx
        rcases List.mem_cons.1 hx with rfl | hx
        · exact hm
        · exact h2 x hx
      · rw [List.filterMap_cons, hg]
        simp [h3]
  obtain ⟨l', h1, h2, h3⟩ := key (sortStrings (l.map Prod.fst)) (fun n hn => (sortStrings_perm _).mem_iff.1 hn)
  have hp := sortStrings_pairwise h
  refine ⟨l', ?_, ?_, h3⟩
  · have hnd' : (l'.map Prod.fst).Nodup := h1 ▸ (sortStrings_perm _).nodup_iff.2 h
    have e1 : l'.Nodup := nodup_of_map hnd'
    have e2 : l.Nodup := nodup_of_map h
    refine (List.perm_ext_iff_of_nodup e1 e2).2 fun x => ⟨h2 x, fun hx => ?_⟩
    have : x.1 ∈ l'.map Prod.fst := by rw [h1]; exact (sortStrings_perm _).mem_iff.2 (List.mem_map_of_mem hx)
    obtain ⟨y, hy, he⟩ := List.mem_map.1 this
    have : x = y := by
      have a := GMap.get_mem_nodup h hx
      have b := GMap.get_mem_nodup h (h2 y hy)
      rw [he] at b
      rw [a] at b
      obtain ⟨x1, x2⟩ := x
      obtain ⟨y1, y2⟩ := y
      simp only at he
      simp only [Option.some.injEq] at b
      rw [he, b]
    exact this ▸ hy
  · unfold Ordered
    rw [← h1, List.pairwise_map] at hp
    exact hp

theorem ordered_unique {α : Type} : ∀ {a b : List (Str × α)}, Ordered a → Ordered b → a.Perm b → a = b
  | [], b, _, _, h => by rw [List.nil_perm.1 h]
  | x :: a, [], _, _, h => by have := h.length_eq; simp at this
  | x :: a, y :: b, ha, hb, h => by
    unfold Ordered at ha hb
    rw [List.pairwise_cons] at ha hb
    have hx : x ∈ y :: b := h.mem_iff.1 List.mem_cons_self
    have hy : y ∈ x :: a := h.mem_iff.2 List.mem_cons_self
    have : x = y := by
      rcases List.mem_cons.1 hx with hx | hx
      · exact hx
      · rcases List.mem_cons.1 hy with hy | hy
        · exact hy.symm
        · have := strLt_trans (ha.1 y hy) (hb.1 x hx)
          rw [strLt_irrefl] at this
          contradiction
    subst this
    rw [ordered_unique ha.2 hb.2 h.cons_inv]

theorem sorted_order {α : Type} {a b : List (Str × α)} (hp : a.Perm b) (h : (a.map Prod.fst).Nodup) : sortedByName a = sortedByName b := by
  obtain ⟨a', h1, h2, h3⟩ := sorted_spec h
  obtain ⟨b', g1, g2, g3⟩ := sorted_spec ((hp.map Prod.fst).nodup_iff.1 h)
  rw [h3, g3, ordered_unique h2 g2 (h1.trans (hp.trans g1.symm))]

theorem linesAll_map (descTag pointers : Bool) (exclude : List Str) (nested : GMap GStruct) (ind : Str) (req : List Str) : ∀ fs : List (Str × EField),
    linesAll descTag pointers exclude nested ind req fs =
      fs.map fun kf => (kf.2.name, kf.2.lines descTag pointers exclude nested ind (decide (kf.2.jsonName ∈ req)))
  | [] => by simp [linesAll]
  | (k, f) :: t => by simp [linesAll, linesAll_map descTag pointers exclude nested ind req t]

theorem same_attrs {f f' : EField} (h : Same f f') : f.name = f'.name ∧ f.jsonName = f'.jsonName := by
  cases h <;> exact ⟨rfl, rfl⟩

theorem linesAll_same {descTag pointers : Bool} {exclude : List Str} {nested : GMap GStruct} {ind : Str} {req : List Str} {fs mid fs' : List (Str × EField)}
    (hl : fs.length = mid.length) (hs : ∀ (x : Nat) (h : x < fs.length) (h' : x < mid.length), Same fs[x].2 mid[x].2)
    (ih : ∀ (x : Nat) (h : x < fs.length) (h' : x < mid.length) (r : Bool), fs[x].2.lines descTag pointers exclude nested ind r = mid[x].2.lines descTag pointers exclude nested ind r)
    (hp : mid.Perm fs') (hn : (fs.map fun kf => kf.2.name).Nodup) :
    sortedByName (linesAll descTag pointers exclude nested ind req fs) = sortedByName (linesAll descTag pointers exclude nested ind req fs') := by
  have e : linesAll descTag pointers exclude nested ind req fs = linesAll descTag pointers exclude nested ind req mid := by
    rw [linesAll_map, linesAll_map]
    refine List.ext_getElem (by simp [hl]) fun x h h' => ?_
    simp only [List.length_map] at h h'
    have hsame := same_attrs (hs x h h')
    simp only [List.getElem_map, hsame.1, hsame.2, ih x h h']
  refine (sorted_order (b := linesAll descTag pointers exclude nested ind req fs') ?_ ?_)
  · rw [e, linesAll_map, linesAll_map]
    exact hp.map _
  · rw [linesAll_map, List.map_map]
    exact hn

end JT.Gen

namespace JT
open Spec Gen

/-- C54 as one would like it: all that is to be written is written once, in the order of the names, whatever the order of the map. -/
def C54_statement : Prop := ∀ (l : List (Str × Nat)), ∃ l' : List (Str × Nat), l'.Perm l ∧ sortedByName l = l'.map Prod.snd

/-- Two fields with the same Go name (say for the properties `a` and `A`): one is written twice, the other is lost, depending on the order of the map. -/
theorem C54_refuted : ¬ C54_statement := by
  intro h
  obtain ⟨l', h1, h2⟩ := h [(g!"A", 1), (g!"A", 2)]
  have h3 := h1.map Prod.snd
  rw [← h2] at h3
  have h4 : sortedByName [(g!"A", 1), (g!"A", 2)] = [2, 2] := by decide
  rw [h4] at h3
  revert h3
  decide

theorem C54_refuted_order : sortedByName [(g!"A", 1), (g!"A", 2)] = [2, 2] ∧ sortedByName [(g!"A", 2), (g!"A", 1)] = [1, 1] := by decide

/-- **C54**, partial: with different Go names every field of a struct is written exactly once, in the order of the names. -/
theorem C54_partial (title : Str → Str) (args : Args) (exclude : List Str) (nested : GMap GStruct) {s : GStruct} (h : (s.fields.map fun kf => kf.2.name).Nodup) :
    ∃ fs : List (Str × EField), fs.Perm s.fields ∧ (fs.map fun kf => kf.2.name).Pairwise (fun a b => strLt a b = true) ∧
      (s.text title args exclude nested).body =
        fs.flatMap fun kf => kf.2.lines args.descTag args.pointers exclude nested g!"\t" (decide (kf.2.jsonName ∈ s.required)) := by
  have hn : ((s.fields.map fun kf => (kf.2.name, kf)).map Prod.fst).Nodup := by rw [List.map_map]; exact h
  obtain ⟨l', h1, h2, _⟩ := sorted_spec hn
  have hall : ∀ x ∈ l', x.1 = x.2.2.name := by
    intro x hx
    obtain ⟨kf, _, rfl⟩ := List.mem_map.1 (h1.mem_iff.1 hx)
    rfl
  refine ⟨l'.map Prod.snd, ?_, ?_, ?_⟩
  · have := h1.map Prod.snd
    rw [List.map_map] at this
    rw [show (Prod.snd ∘ fun kf : Str × EField => (kf.2.name, kf)) = id from rfl, List.map_id] at this
    exact this
  · rw [List.map_map]
    unfold Ordered at h2
    rw [List.pairwise_map]
    refine List.Pairwise.imp_of_mem ?_ h2
    intro a b ha hb hab
    simp only [Function.comp_apply]
    rw [← hall a ha, ← hall b hb]
    exact hab
  · simp only [GStruct.text]
    rw [linesAll_map]
    have hn2 : ((s.fields.map fun kf => (kf.2.name, kf.2.lines args.descTag args.pointers exclude nested g!"\t" (decide (kf.2.jsonName ∈ s.required)))).map Prod.fst).Nodup := by
      rw [List.map_map]; exact h
    obtain ⟨l2, g1, g2, g3⟩ := sorted_spec hn2
    rw [g3]
    have : l2 = l'.map fun x => (x.1, x.2.2.lines args.descTag args.pointers exclude nested g!"\t" (decide (x.2.2.jsonName ∈ s.required))) := by
      refine ordered_unique g2 ?_ (g1.trans ?_)
      · unfold Ordered at h2 ⊢
        rw [List.pairwise_map]
        exact h2
      · have := h1.map fun x : Str × (Str × EField) => (x.1, x.2.2.lines args.descTag args.pointers exclude nested g!"\t" (decide (x.2.2.jsonName ∈ s.required)))
        rw [List.map_map] at this
        exact this.symm
    rw [this, List.map_map, List.flatMap_def, List.map_map]
    rfl

/-- **C54**: the order in which maps are visited makes no difference if the names in each struct differ. -/
theorem C54_order {descTag pointers : Bool} {exclude : List Str} {nested : GMap GStruct} {f f' : EField} (h : Same f f') (hd : DistinctNames f) :
    ∀ (ind : Str) (required : Bool), f.lines descTag pointers exclude nested ind required = f'.lines descTag pointers exclude nested ind required := by
  induction h with
  | leaf => intro ind required; rfl
  | @node a d j t n u r fs mid fs' hl hk hs hp ih =>
    intro ind required
    cases hd with
    | node hnd hd =>
    have hlen : fs.length = fs'.length := hl.trans hp.length_eq
    have hgo : goType ⟨a, d, some fs, j, t, n, u, r⟩ required pointers nested = goType ⟨a, d, some fs', j, t, n, u, r⟩ required pointers nested := by
      simp [goType, hlen]
    have htag : structTag ⟨a, d, some fs, j, t, n, u, r⟩ required descTag nested = structTag ⟨a, d, some fs', j, t, n, u, r⟩ required descTag nested := by
      simp [structTag, omitOption, hlen]
    have hcom : commentLines ⟨a, d, some fs, j, t, n, u, r⟩ descTag = commentLines ⟨a, d, some fs', j, t, n, u, r⟩ descTag := rfl
    have hsub := linesAll_same (req := r) (ind := ind ++ g!"\t") hl hs
      (fun x h h' rq => ih x h h' (hd fs[x] (List.getElem_mem h)) (ind ++ g!"\t") rq) hp hnd
    simp only [EField.lines]
    rw [hgo, htag, hcom, hsub, hlen]

namespace C54ex
/-- Fields of an inline struct. -/
def b : EField := ⟨false, [], none, g!"b", g!"string", g!"B", false, []⟩
def c : EField := ⟨false, [], none, g!"c", g!"integer", g!"C", false, []⟩
def outer (l : List (Str × EField)) : EField := ⟨false, [], some l, g!"o", g!"object", g!"O", false, [g!"b"]⟩

example : DistinctNames (outer [(g!"b", b), (g!"c", c)]) ∧ Same (outer [(g!"b", b), (g!"c", c)]) (outer [(g!"c", c), (g!"b", b)]) := by
  constructor
  · refine .node (by decide) ?_
    intro kf hkf
    simp only [List.mem_cons, List.not_mem_nil, or_false] at hkf
    rcases hkf with rfl | rfl
    · exact .leaf
    · exact .leaf
  · refine .node (mid := [(g!"b", b), (g!"c", c)]) rfl (fun _ _ _ => rfl) ?_ (.swap _ _ _)
    intro x h h'
    match x with
    | 0 => exact .leaf
    | 1 => exact .leaf
    | n + 2 => simp only [List.length_cons, List.length_nil] at h; omega

/-- The lines that are written. -/
example : ((outer [(g!"c", c), (g!"b", b)]).lines false false [] [] g!"\t" false).flatMap Line.text =
    g!"\tO\tstruct {\n\t\tB\tstring\t`json:\"b\"`\n\t\tC\tint64\t`json:\"c,omitempty\"`\n\t\t}\t`json:\"o,omitzero\"`\n" := by decide +kernel
end C54ex

end JT
