import Verif.Proofs.Load
import Verif.Proofs.Build
import Verif.Spec.Mirror
/- NewTransformer builds a tree that mirrors the schema. -/
namespace JT
open Spec

/-! ### Paths -/

/-- Segments of an instance path. -/
inductive Seg where
  | key (k : Str)
  | star

def Seg.str : Seg → Str
  | .key k => k
  | .star => g!"[*]"

def Seg.text : Seg → Str
  | .key k => '.' :: k
  | .star => g!"[*]"

def Seg.plain : Seg → Prop
  | .key k => PlainName k
  | .star => True

def segsText (l : List Seg) : Str := l.flatMap Seg.text

/-- The path of an instance. -/
def pathOf (l : List Seg) : Str := '$' :: segsText l

theorem first_occ (c : Char) : ∀ (s : Str), c ∈ s → ∃ a b, s = a ++ c :: b ∧ c ∉ a := by
  intro s
  induction s with
  | nil => intro h; simp at h
  | cons x xs ih =>
    intro h
    by_cases hx : x = c
    · exact ⟨[], xs, by simp [hx], by simp⟩
    · have : c ∈ xs := by
        simp only [List.mem_cons] at h
        rcases h with h | h
        · exact absurd h.symm hx
        · exact h
      obtain ⟨a, b, h1, h2⟩ := ih this
      exact ⟨x :: a, b, by simp [h1], by simp [h2, Ne.symm hx]⟩

theorem replaceAllLoop_char (c : Char) (new : Str) : ∀ (n : Nat) (s : Str), s.length ≤ n →
    replaceAllLoop [c] new n s = s.flatMap fun d => if d = c then new else [d] := by
  intro n
  induction n with
  | zero =>
    intro s h
    have : s = [] := List.length_eq_zero_iff.1 (by omega)
    subst this
    rfl
  | succ n ih =>
    intro s h
    simp only [replaceAllLoop]
    by_cases hc : c ∈ s
    · obtain ⟨a, b, rfl, hna⟩ := first_occ c s hc
      rw [cut_char c a b hna]
      simp only [List.flatMap_append, List.flatMap_cons, if_true]
      rw [ih b (by simp at h; omega)]
      have : (a.flatMap fun d => if d = c then new else [d]) = a := by
        clear ih h hc
        induction a with
        | nil => rfl
        | cons x xs ih =>
          simp only [List.mem_cons, not_or] at hna
          simp only [List.flatMap_cons, if_neg (Ne.symm hna.1)]
          rw [ih hna.2]
          rfl
      rw [this, List.append_assoc]
    · rw [cut_char_none c s hc]
      simp only
      clear ih h
      induction s with
      | nil => rfl
      | cons x xs ih =>
        simp only [List.mem_cons, not_or] at hc
        simp only [List.flatMap_cons, if_neg (Ne.symm hc.1)]
        rw [← ih hc.2]
        rfl

theorem replaceAll_char (c : Char) (new s : Str) : replaceAll s [c] new = s.flatMap fun d => if d = c then new else [d] :=
  replaceAllLoop_char c new s.length s (Nat.le_refl _)

/-- Each segment with a dot in front. -/
def dotted (l : List Seg) : Str := l.flatMap fun sg => '.' :: sg.str

theorem flatMap_id {c : Char} {new : Str} : ∀ {a : Str}, c ∉ a → (a.flatMap fun d => if d = c then new else [d]) = a
  | [], _ => rfl
  | x :: xs, h => by
    simp only [List.mem_cons, not_or] at h
    simp only [List.flatMap_cons, if_neg (Ne.symm h.1)]
    rw [flatMap_id h.2]
    rfl

theorem replaceAll_segs : ∀ {l : List Seg}, (∀ sg ∈ l, sg.plain) →
    ((segsText l).flatMap fun d => if d = '[' then g!".[" else [d]) = dotted l
  | [], _ => rfl
  | sg :: r, h => by
    have ih := replaceAll_segs (l := r) fun s hs => h s (by simp [hs])
    simp only [segsText, dotted] at ih
    simp only [segsText, dotted, List.flatMap_cons, List.flatMap_append]
    rw [ih]
    congr 1
    cases sg with
    | star => rfl
    | key k =>
      have hk : PlainName k := h (.key k) (by simp)
      simp only [Seg.text, Seg.str, List.flatMap_cons]
      rw [flatMap_id hk.2.2]
      rfl

theorem splitC_general (c : Char) : ∀ (a b : Str), splitC c (a ++ c :: b) = splitC c a ++ splitC c b
  | [], b => by simp [splitC]
  | x :: xs, b => by
    have ih := splitC_general c xs b
    simp only [List.cons_append, splitC]
    split
    · rw [ih]; rfl
    · rw [ih]
      cases h : splitC c xs with
      | nil => exact absurd h (splitC_ne_nil c xs)
      | cons p ps => rfl

theorem splitC_dotted : ∀ (l : List Seg), (∀ sg ∈ l, sg.plain) → ∀ (a : Str), '.' ∉ a → splitC '.' (a ++ dotted l) = a :: l.map Seg.str
  | [], _, a, ha => by simp [dotted, splitC_no _ _ ha]
  | sg :: r, h, a, ha => by
    have hs : '.' ∉ sg.str := by
      cases sg with
      | star => simp [Seg.str]
      | key k => exact (h (.key k) (by simp)).2.1
    have : dotted (sg :: r) = '.' :: (sg.str ++ dotted r) := by simp [dotted]
    rw [this, splitC_append '.' a _ ha, splitC_dotted r (fun s hs => h s (by simp [hs])) sg.str hs]
    rfl

/-- The way to the parent of an instance. -/
theorem parentParts_path {l : List Seg} {sg : Seg} (h : ∀ x ∈ l ++ [sg], x.plain) :
    parentParts (pathOf (l ++ [sg])) = .ok (l.map Seg.str) := by
  unfold parentParts pathOf
  rw [replaceAll_char]
  simp only [List.flatMap_cons]
  rw [if_neg (by decide), replaceAll_segs h]
  have := splitC_dotted (l ++ [sg]) h ['$'] (by simp)
  rw [this]
  simp

theorem pathOf_snoc (l : List Seg) (sg : Seg) : pathOf (l ++ [sg]) = pathOf l ++ sg.text := by
  simp [pathOf, segsText]

theorem prependPath_path (l : List Seg) {k : Str} (hk : k ≠ []) : prependPath (pathOf l) k = pathOf (l ++ [.key k]) := by
  unfold prependPath
  rw [if_neg (by simp [pathOf]), if_neg hk, pathOf_snoc]
  simp [Seg.text]

theorem starPath_path (l : List Seg) : starPath (pathOf l) = pathOf (l ++ [.star]) := by
  rw [pathOf_snoc]; rfl

/-! ### Adding children -/

theorem GMap.set_set {α : Type} (k : Str) (v w : α) (m : GMap α) : GMap.set k w (GMap.set k v m) = GMap.set k w m := by
  induction m with
  | nil => simp [GMap.set]
  | cons x t ih =>
    obtain ⟨k', v'⟩ := x
    simp only [GMap.set]
    by_cases h1 : k = k'
    · simp [h1, GMap.set]
    · rw [if_neg h1, if_neg h1]
      by_cases h2 : strLt k k' = true
      · simp [h2, GMap.set]
      · simp [h2, h1, GMap.set, ih]

theorem addChild_path {node t t' : T} (h : T.addChild node t = .ok t') : t'.path = t.path := by
  cases t with
  | scalar => simp [T.addChild] at h; subst h; rfl
  | array => simp [T.addChild] at h; subst h; rfl
  | object =>
    simp only [T.addChild] at h
    split at h
    · simp at h; subst h; rfl
    · contradiction

theorem getLastD_splitC {k : Str} (hk : '.' ∉ k) (p : Str) : (splitC '.' (p ++ '.' :: k)).getLastD [] = k := by
  rw [splitC_general, splitC_no '.' k hk]
  simp

theorem dropLast_splitC {k : Str} (hk : '.' ∉ k) (p : Str) : (splitC '.' (p ++ '.' :: k)).dropLast = splitC '.' p := by
  rw [splitC_general, splitC_no '.' k hk]
  simp

/-- Adding a bare node and then changing it in place is adding the changed node. -/
theorem updateAt_comp {bare : T} {sg : Seg} {pp : Str} (hp : bare.path = pp ++ sg.text) (hsg : sg.plain) {g : T → Res T}
    (hg : ∀ t', g bare = .ok t' → t'.path = bare.path) : ∀ {parts : List Str} {root root1 root2 : T},
    T.updateAt (T.addChild bare) parts root = .ok root1 → T.updateAt g (parts ++ [sg.str]) root1 = .ok root2 →
    ∃ b', g bare = .ok b' ∧ T.updateAt (T.addChild b') parts root = .ok root2 := by
  intro parts
  induction parts with
  | nil =>
    intro root root1 root2 h1 h2
    simp only [T.updateAt] at h1
    simp only [List.nil_append, T.updateAt] at h2
    cases root with
    | scalar p ty d tid =>
      simp [T.addChild] at h1
      subst h1
      split at h2 <;> simp at h2
    | array p d tid c =>
      simp [T.addChild] at h1
      subst h1
      by_cases hs : sg.str = g!"[*]"
      · rw [if_pos hs] at h2
        simp only at h2
        rw [Res.map_eq_ok] at h2
        obtain ⟨b', h3, rfl⟩ := h2
        exact ⟨b', h3, rfl⟩
      · rw [if_neg hs] at h2
        simp at h2
    | object p d tid cs =>
      simp only [T.addChild] at h1
      split at h1
      · rename_i hpath
        simp only [Res.ok.injEq] at h1
        subst h1
        cases sg with
        | star =>
          rw [if_pos (by rfl)] at h2
          simp at h2
        | key k =>
          have hk : PlainName k := hsg
          have hne : ¬ (Seg.key k).str = g!"[*]" := by
            intro he
            simp only [Seg.str] at he
            exact hk.2.2 (by rw [he]; simp)
          rw [if_neg hne] at h2
          simp only [Seg.str] at h2
          have hlast : (splitC '.' bare.path).getLastD [] = k := by
            rw [hp]; exact getLastD_splitC hk.2.1 pp
          rw [hlast] at h2
          rw [GMap.get_set_self] at h2
          simp only at h2
          rw [Res.map_eq_ok] at h2
          obtain ⟨b', h3, rfl⟩ := h2
          refine ⟨b', h3, ?_⟩
          simp only [T.updateAt, T.addChild, hg b' h3, hpath, if_true, hlast, GMap.set_set]
      · contradiction
  | cons sp rest ih =>
    intro root root1 root2 h1 h2
    simp only [T.updateAt] at h1
    simp only [List.cons_append, T.updateAt] at h2 ⊢
    by_cases hs : sp = g!"[*]"
    · simp only [if_pos hs] at h1 h2 ⊢
      split at h1
      · rename_i p d i c
        rw [Res.map_eq_ok] at h1
        obtain ⟨c1, h3, rfl⟩ := h1
        simp only at h2
        rw [Res.map_eq_ok] at h2
        obtain ⟨c2, h4, rfl⟩ := h2
        obtain ⟨b', h5, h6⟩ := ih h3 h4
        exact ⟨b', h5, by simp only [h6, Res.map]⟩
      · contradiction
    · simp only [if_neg hs] at h1 h2 ⊢
      split at h1
      · rename_i p d i cs
        split at h1
        · rename_i c hc
          rw [Res.map_eq_ok] at h1
          obtain ⟨c1, h3, rfl⟩ := h1
          simp only [GMap.get_set_self] at h2
          rw [Res.map_eq_ok] at h2
          obtain ⟨c2, h4, rfl⟩ := h2
          obtain ⟨b', h5, h6⟩ := ih h3 h4
          refine ⟨b', h5, ?_⟩
          simp only [hc, h6, Res.map, GMap.set_set]
        · contradiction
      · contradiction

/-! ### Growing state -/

/-- The construction only adds cells and instruction sets. -/
structure BExt (s s' : St) : Prop where
  heap : ∀ (a : Nat) c, s.heap[a]? = some c → s'.heap[a]? = some c
  instrs : ∀ (i : Nat) t, s.instrs[i]? = some t → s'.instrs[i]? = some t

theorem BExt.refl (s : St) : BExt s s := ⟨fun _ _ h => h, fun _ _ h => h⟩
theorem BExt.trans {s t u : St} (h1 : BExt s t) (h2 : BExt t u) : BExt s u :=
  ⟨fun a c h => h2.heap a c (h1.heap a c h), fun i c h => h2.instrs i c (h1.instrs i c h)⟩

theorem DefaultIs.mono {s s' : St} (e : BExt s s') {d : V} {raw : P} (h : DefaultIs s d raw) : DefaultIs s' d raw :=
  ((rep_of_toP h).mono (fun _ h => h) (fun a _ c h => e.heap a c h)).toP

theorem InstrsAre.mono {lib : Lib} {ident : Str} {s s' : St} (e : BExt s s') {tid : Option Nat} {path : Str} {kind : Kind} {raw : P}
    (h : InstrsAre lib ident s tid path kind raw) : InstrsAre lib ident s' tid path kind raw := by
  obtain ⟨o, h1, h2⟩ := h
  refine ⟨o, h1, ?_⟩
  cases o with
  | none => cases tid <;> exact h2
  | some tis =>
    cases tid with
    | none => exact h2
    | some i => exact e.instrs i tis h2

mutual
theorem Mirrors.mono {lib : Lib} {ident : Str} {s s' : St} (e : BExt s s') : ∀ {t : T} {path : Str} {raw : P},
    Mirrors lib ident s t path raw → Mirrors lib ident s' t path raw
  | .scalar p ty d tid, path, raw, h => by
    simp only [Mirrors] at h ⊢
    exact ⟨h.1, h.2.1, DefaultIs.mono e h.2.2.1, InstrsAre.mono e h.2.2.2⟩
  | .array p d tid none, path, raw, h => by simp [Mirrors] at h
  | .array p d tid (some c), path, raw, h => by
    simp only [Mirrors] at h ⊢
    obtain ⟨h1, h2, h3, h4, items, h5, h6⟩ := h
    exact ⟨h1, h2, DefaultIs.mono e h3, InstrsAre.mono e h4, items, h5, Mirrors.mono e h6⟩
  | .object p d tid cs, path, raw, h => by
    simp only [Mirrors] at h ⊢
    obtain ⟨h1, h2, h3, h4, m, h5, h9, h6, h7, h8⟩ := h
    exact ⟨h1, h2, DefaultIs.mono e h3, InstrsAre.mono e h4, m, h5, h9, h6, h7, MirrorsKids.mono e h8⟩
theorem MirrorsKids.mono {lib : Lib} {ident : Str} {s s' : St} (e : BExt s s') : ∀ {cs : List (Str × T)} {path : Str} {m : List (Str × P)},
    MirrorsKids lib ident s cs path m → MirrorsKids lib ident s' cs path m
  | [], _, _, _ => trivial
  | (k, t) :: r, path, m, h => by
    simp only [MirrorsKids] at h ⊢
    obtain ⟨⟨q, h1, h2⟩, h3⟩ := h
    exact ⟨⟨q, h1, Mirrors.mono e h2⟩, MirrorsKids.mono e h3⟩
end

theorem MirrorsKids_iff {lib : Lib} {ident : Str} {s : St} {path : Str} {m : List (Str × P)} : ∀ {cs : List (Str × T)},
    MirrorsKids lib ident s cs path m ↔ ∀ kt ∈ cs, ∃ q, (kt.1, q) ∈ m ∧ Mirrors lib ident s kt.2 (path ++ '.' :: kt.1) q
  | [] => by simp [MirrorsKids]
  | (k, t) :: r => by simp [MirrorsKids, MirrorsKids_iff (cs := r)]

theorem Mirrors.path_eq {lib : Lib} {ident : Str} {s : St} : ∀ {t : T} {path : Str} {raw : P},
    Mirrors lib ident s t path raw → t.path = path
  | .scalar p ty d tid, path, raw, h => by simp only [Mirrors] at h; exact h.1
  | .array p d tid none, path, raw, h => by simp [Mirrors] at h
  | .array p d tid (some c), path, raw, h => by simp only [Mirrors] at h; exact h.1
  | .object p d tid cs, path, raw, h => by simp only [Mirrors] at h; exact h.1

/-! ### One instance -/

theorem fieldType_obj {raw : P} {x : Str × Bool} (h : fieldType raw = .ok x) : ∃ m, raw = .obj m := by
  cases raw with
  | obj m => exact ⟨m, rfl⟩
  | sc s => simp [fieldType, P.key] at h
  | arr l => simp [fieldType, P.key] at h

theorem addInstrs_ext {lib : Lib} {ident path : Str} {kind : Kind} {raw : P} {o : Option Instrs} {s s' : St} {tid : Option Nat}
    (he : extractInstrs lib raw ident path kind = .ok o) (h : addInstrs o s = (.ok tid, s')) :
    BExt s s' ∧ InstrsAre lib ident s' tid path kind raw ∧ s'.heap = s.heap := by
  cases o with
  | none =>
    simp [addInstrs] at h
    obtain ⟨rfl, rfl⟩ := h
    exact ⟨BExt.refl _, ⟨none, he, trivial⟩, rfl⟩
  | some tis =>
    simp [addInstrs] at h
    obtain ⟨rfl, rfl⟩ := h
    refine ⟨⟨fun _ _ h => h, ?_⟩, ⟨some tis, he, by simp⟩, rfl⟩
    intro i t hi
    simp only
    rw [List.getElem?_append_left (List.getElem?_eq_some_iff.1 hi).1]
    exact hi

theorem load_ext {p : P} {s s' : St} {v : V} (h : load p s = (.ok v, s')) :
    BExt s s' ∧ s'.heap.toP v = some (canon p) := by
  obtain ⟨v1, s1, h1, g, hr⟩ := load_ref p s
  rw [h] at h1
  simp only [Prod.mk.injEq, Res.ok.injEq] at h1
  obtain ⟨rfl, rfl⟩ := h1
  refine ⟨⟨fun a c hc => g.cell hc, fun i t hi => by rw [g.ext.instrs]; exact hi⟩, (hr (fun _ => true) (fun _ _ => rfl)).toP⟩

theorem schemaDefault_eq {raw d : P} {m : List (Str × P)} (hraw : raw = .obj m) (h : schemaDefault raw = .ok d) :
    d = (raw.key g!"default").getD nilP := by
  subst hraw
  unfold schemaDefault at h
  simp only [asStruct, Res.bind_eq_ok, Res.pure_eq_ok] at h
  obtain ⟨q, hq, h⟩ := h
  simp at hq
  subst hq
  exact h.symm

/-- The transformer made for an instance before its children are added. -/
def Bare (lib : Lib) (ident : Str) (s : St) (t : T) (path : Str) (raw : P) : Prop :=
  (∃ ty d tid, t = .scalar path ty d tid ∧ Mirrors lib ident s t path raw) ∨
  (∃ d tid, t = .array path d tid none ∧ (∃ nu, fieldType raw = .ok (g!"array", nu)) ∧ DefaultIs s (arrD d) raw ∧
    InstrsAre lib ident s tid path .array raw) ∨
  (∃ d tid, t = .object path d tid [] ∧ (∃ nu, fieldType raw = .ok (g!"object", nu)) ∧ raw.key g!"properties" ≠ some (.obj []) ∧ DefaultIs s (objD d) raw ∧
    InstrsAre lib ident s tid path .object raw)

theorem newScalar_bare {lib : Lib} {path ident ty : Str} {nu : Bool} {raw : P} {s s' : St} {t : T}
    (h : newScalar lib path ident raw ty s = (.ok t, s')) (hty : fieldType raw = .ok (ty, nu)) (hna : ty ≠ g!"array")
    (ho : ty = g!"object" → raw.key g!"properties" = some (.obj [])) : BExt s s' ∧ Bare lib ident s' t path raw := by
  obtain ⟨m, hm⟩ := fieldType_obj hty
  unfold newScalar at h
  simp only [M.bind_eq_ok, M.lift_eq_ok, M.pure_eq_ok] at h
  obtain ⟨ty', _, ⟨hst, rfl⟩, tis, _, ⟨htis, rfl⟩, d, _, ⟨hdd, rfl⟩, dv, s1, hl, tid, s2, ha, rfl, rfl⟩ := h
  have hd := schemaDefault_eq hm hdd
  obtain ⟨e1, hv⟩ := load_ext hl
  obtain ⟨e2, hi, hheap⟩ := addInstrs_ext htis ha
  refine ⟨e1.trans e2, Or.inl ⟨ty', dv, tid, rfl, ?_⟩⟩
  simp only [Mirrors]
  refine ⟨trivial, ⟨ty, nu, hty, hna, ho, hst⟩, ?_, hi⟩
  unfold DefaultIs
  rw [hheap, hv, hd]

theorem newArray_bare {lib : Lib} {path ident : Str} {nu : Bool} {raw : P} {s s' : St} {t : T}
    (h : newArray lib path ident raw s = (.ok t, s')) (hty : fieldType raw = .ok (g!"array", nu)) :
    BExt s s' ∧ Bare lib ident s' t path raw := by
  obtain ⟨m, hm⟩ := fieldType_obj hty
  unfold newArray at h
  simp only [M.bind_eq_ok, M.lift_eq_ok] at h
  obtain ⟨tis, _, ⟨htis, rfl⟩, d, _, ⟨hdd, rfl⟩, dv, s1, hl, tid, s2, ha, h⟩ := h
  have hd := schemaDefault_eq hm hdd
  obtain ⟨e1, hv⟩ := load_ext hl
  obtain ⟨e2, hi, hheap⟩ := addInstrs_ext htis ha
  have hdef : DefaultIs s2 dv raw := by unfold DefaultIs; rw [hheap, hv, hd]
  rcases dv with (_ | _) | a | a
  · simp only [M.pure_eq_ok] at h
    obtain ⟨rfl, rfl⟩ := h
    exact ⟨e1.trans e2, Or.inr (Or.inl ⟨none, tid, rfl, ⟨nu, hty⟩, hdef, hi⟩)⟩
  case arr =>
    simp only [M.pure_eq_ok] at h
    obtain ⟨rfl, rfl⟩ := h
    exact ⟨e1.trans e2, Or.inr (Or.inl ⟨some a, tid, rfl, ⟨nu, hty⟩, hdef, hi⟩)⟩
  all_goals simp [M.fail] at h

theorem newObject_bare {lib : Lib} {path ident : Str} {nu : Bool} {raw : P} {s s' : St} {t : T}
    (h : newObject lib path ident raw s = (.ok t, s')) (hty : fieldType raw = .ok (g!"object", nu))
    (hne : raw.key g!"properties" ≠ some (.obj [])) :
    BExt s s' ∧ Bare lib ident s' t path raw := by
  obtain ⟨m, hm⟩ := fieldType_obj hty
  unfold newObject at h
  simp only [M.bind_eq_ok, M.lift_eq_ok] at h
  obtain ⟨tis, _, ⟨htis, rfl⟩, d, _, ⟨hdd, rfl⟩, dv, s1, hl, tid, s2, ha, h⟩ := h
  have hd := schemaDefault_eq hm hdd
  obtain ⟨e1, hv⟩ := load_ext hl
  obtain ⟨e2, hi, hheap⟩ := addInstrs_ext htis ha
  have hdef : DefaultIs s2 dv raw := by unfold DefaultIs; rw [hheap, hv, hd]
  rcases dv with (_ | _) | a | a
  · simp only [M.pure_eq_ok] at h
    obtain ⟨rfl, rfl⟩ := h
    exact ⟨e1.trans e2, Or.inr (Or.inr ⟨none, tid, rfl, ⟨nu, hty⟩, hne, hdef, hi⟩)⟩
  case obj =>
    simp only [M.pure_eq_ok] at h
    obtain ⟨rfl, rfl⟩ := h
    exact ⟨e1.trans e2, Or.inr (Or.inr ⟨some a, tid, rfl, ⟨nu, hty⟩, hne, hdef, hi⟩)⟩
  all_goals simp [M.fail] at h

theorem newInstance_bare {lib : Lib} {path ident : Str} {raw : P} {s s' : St} {t : T}
    (h : newInstance lib ident path raw s = (.ok t, s')) : BExt s s' ∧ Bare lib ident s' t path raw := by
  unfold newInstance at h
  simp only [M.bind_eq_ok, M.lift_eq_ok] at h
  obtain ⟨⟨ty, nu⟩, _, ⟨hty, rfl⟩, h⟩ := h
  simp only at h
  by_cases h1 : ty = g!"object"
  · rw [if_pos h1] at h
    subst h1
    rcases hp : raw.key g!"properties" with _ | (_ | _ | (_ | _))
    · simp [hp, M.fail] at h
    all_goals rw [hp] at h
    · exact newObject_bare h hty (by rw [hp]; simp)
    · exact newObject_bare h hty (by rw [hp]; simp)
    · exact newScalar_bare h hty (by decide) (fun _ => hp)
    · exact newObject_bare h hty (by rw [hp]; simp)
  · rw [if_neg h1] at h
    by_cases h2 : ty = g!"array"
    · rw [if_pos h2] at h
      subst h2
      exact newArray_bare h hty
    · rw [if_neg h2] at h
      exact newScalar_bare h hty h2 (fun h => absurd h h1)

theorem Bare.path_eq {lib : Lib} {ident : Str} {s : St} {t : T} {path : Str} {raw : P} (h : Bare lib ident s t path raw) : t.path = path := by
  rcases h with ⟨_, _, _, rfl, _⟩ | ⟨_, _, rfl, _⟩ | ⟨_, _, rfl, _⟩ <;> rfl

/-- One call of the walk function. -/
theorem walker_ok {lib : Lib} {ident : Str} {l : List Seg} {sg : Seg} (hpl : ∀ x ∈ l ++ [sg], x.plain) {raw : P} {root root' : T} {s s' : St}
    (h : walker lib ident (pathOf (l ++ [sg])) raw (root, s) = .ok (root', s')) :
    ∃ bare, BExt s s' ∧ Bare lib ident s' bare (pathOf (l ++ [sg])) raw ∧ T.updateAt (T.addChild bare) (l.map Seg.str) root = .ok root' := by
  unfold walker at h
  simp only at h
  split at h
  · contradiction
  · contradiction
  · rename_i node s2 hni
    rw [parentParts_path hpl] at h
    simp only at h
    rw [Res.map_eq_ok] at h
    obtain ⟨r, hr, he⟩ := h
    simp at he
    obtain ⟨rfl, rfl⟩ := he
    obtain ⟨h1, h2⟩ := newInstance_bare hni
    exact ⟨node, h1, h2, hr⟩

/-! ### The walk -/


/-- The walk over an instance adds one complete node to its parent. -/
def WalkAdds (lib : Lib) (ident : Str) (n : Nat) (raw : P) : Prop :=
  ∀ (l : List Seg) (sg : Seg) (root root' : T) (s s' : St), (∀ x ∈ l ++ [sg], x.plain) → (∀ q, Inst raw q → PlainProps q) →
    walkRaw (walker lib ident) n raw (pathOf (l ++ [sg])) (root, s) = .ok (root', s') →
    ∃ node, BExt s s' ∧ Mirrors lib ident s' node (pathOf (l ++ [sg])) raw ∧
      T.updateAt (T.addChild node) (l.map Seg.str) root = .ok root'

/-- What holds of the children of an object after some of its properties were added. -/
structure KidsOk (lib : Lib) (ident : Str) (s : St) (path : Str) (fin : List (Str × P)) (cs : List (Str × T)) : Prop where
  sorted : GMap.Sorted cs
  all : ∀ kq ∈ fin, ∃ t, (kq.1, t) ∈ cs
  mirror : ∀ kt ∈ cs, ∃ q, (kt.1, q) ∈ fin ∧ Mirrors lib ident s kt.2 (path ++ '.' :: kt.1) q

theorem KidsOk.add {lib : Lib} {ident : Str} {s s' : St} {path : Str} {fin : List (Str × P)} {cs : List (Str × T)} (h : KidsOk lib ident s path fin cs)
    (e : BExt s s') {k : Str} {q : P} {t : T} (hm : Mirrors lib ident s' t (path ++ '.' :: k) q) :
    KidsOk lib ident s' path (fin ++ [(k, q)]) (GMap.set k t cs) := by
  have hs := GMap.sorted_set (k := k) (v := t) h.sorted
  refine ⟨hs, ?_, ?_⟩
  · intro kq hkq
    rcases List.mem_append.1 hkq with h1 | h1
    · obtain ⟨t1, h2⟩ := h.all kq h1
      by_cases hk : kq.1 = k
      · exact ⟨t, by rw [hk]; exact GMap.get_some_mem (GMap.get_set_self k t cs)⟩
      · refine ⟨t1, GMap.get_some_mem ?_⟩
        rw [GMap.get_set_ne (by exact hk)]
        exact GMap.get_of_mem h.sorted h2
    · simp only [List.mem_singleton] at h1
      subst h1
      exact ⟨t, GMap.get_some_mem (GMap.get_set_self k t cs)⟩
  · intro kt hkt
    have hg := GMap.get_of_mem hs hkt
    by_cases hk : kt.1 = k
    · rw [hk, GMap.get_set_self] at hg
      simp only [Option.some.injEq] at hg
      refine ⟨q, by rw [hk]; simp, ?_⟩
      rw [hk, ← hg]
      exact hm
    · rw [GMap.get_set_ne (by exact hk)] at hg
      obtain ⟨q1, h1, h2⟩ := h.mirror kt (GMap.get_some_mem hg)
      exact ⟨q1, by simp [h1], Mirrors.mono e h2⟩

theorem KidsOk.mono {lib : Lib} {ident : Str} {s s' : St} {path : Str} {fin : List (Str × P)} {cs : List (Str × T)} (h : KidsOk lib ident s path fin cs)
    (e : BExt s s') : KidsOk lib ident s' path fin cs :=
  ⟨h.sorted, h.all, fun kt hkt => let ⟨q, h1, h2⟩ := h.mirror kt hkt; ⟨q, h1, Mirrors.mono e h2⟩⟩

/-- The node of an object receives a property. -/
theorem addChild_object {path k : Str} {d : Option Addr} {tid : Option Nat} {cs : List (Str × T)} {node b' : T} (hk : PlainName k)
    (hn : node.path = path ++ '.' :: k) (h : T.addChild node (.object path d tid cs) = .ok b') : b' = .object path d tid (GMap.set k node cs) := by
  simp only [T.addChild, hn, getLastD_splitC hk.2.1] at h
  split at h
  · simp at h; exact h.symm
  · contradiction

/-- Adding the properties of an object one after the other. -/
theorem props_add {lib : Lib} {ident : Str} {n : Nat} (ih : ∀ raw, WalkAdds lib ident n raw) {l : List Seg} {sg : Seg} (hpl : ∀ x ∈ l ++ [sg], x.plain)
    {d : Option Addr} {tid : Option Nat} {root : T} : ∀ (m : List (Str × P)), (∀ kv ∈ m, PlainName kv.1 ∧ ∀ q, Inst kv.2 q → PlainProps q) →
    ∀ (fin : List (Str × P)) (cs : List (Str × T)) (root1 root2 : T) (s1 s2 : St),
      KidsOk lib ident s1 (pathOf (l ++ [sg])) fin cs →
      T.updateAt (T.addChild (.object (pathOf (l ++ [sg])) d tid cs)) (l.map Seg.str) root = .ok root1 →
      foldRes (fun kv s => walkRaw (walker lib ident) n kv.2 (prependPath (pathOf (l ++ [sg])) kv.1) s) m (root1, s1) = .ok (root2, s2) →
      ∃ cs', BExt s1 s2 ∧ KidsOk lib ident s2 (pathOf (l ++ [sg])) (fin ++ m) cs' ∧
        T.updateAt (T.addChild (.object (pathOf (l ++ [sg])) d tid cs')) (l.map Seg.str) root = .ok root2
  | [], _, fin, cs, root1, root2, s1, s2, hk, hu, h => by
    simp [foldRes] at h
    obtain ⟨rfl, rfl⟩ := h
    exact ⟨cs, BExt.refl _, by simpa using hk, hu⟩
  | (k, q) :: r, hpm, fin, cs, root1, root2, s1, s2, hk, hu, h => by
    have hkq := hpm (k, q) (by simp)
    simp only [foldRes] at h
    rw [prependPath_path _ hkq.1.1] at h
    rcases hw : walkRaw (walker lib ident) n q (pathOf (l ++ [sg] ++ [.key k])) (root1, s1) with ⟨root3, s3⟩ | _ | _
    · rw [hw] at h
      simp only at h
      have hpl' : ∀ x ∈ l ++ [sg] ++ [.key k], x.plain := by
        intro x hx
        rcases List.mem_append.1 hx with h1 | h1
        · exact hpl x h1
        · simp only [List.mem_singleton] at h1
          subst h1
          exact hkq.1
      obtain ⟨node, e1, hm, hu2⟩ := ih q (l ++ [sg]) (.key k) root1 root3 s1 s3 hpl' hkq.2 hw
      rw [List.map_append] at hu2
      obtain ⟨b', hb, hu3⟩ := updateAt_comp (bare := .object (pathOf (l ++ [sg])) d tid cs) (sg := sg) (pp := pathOf l)
        (by simp only [T.path]; exact pathOf_snoc l sg) (hpl sg (by simp)) (g := T.addChild node) (fun t' ht => addChild_path ht) hu hu2
      have hpath : node.path = pathOf (l ++ [sg]) ++ '.' :: k := by
        rw [Mirrors.path_eq hm, pathOf_snoc]; rfl
      have hb' := addChild_object hkq.1 hpath hb
      subst hb'
      have hm' : Mirrors lib ident s3 node (pathOf (l ++ [sg]) ++ '.' :: k) q := by
        rw [pathOf_snoc] at hm; exact hm
      obtain ⟨cs', e2, hk2, hu4⟩ := props_add ih hpl r (fun kv hkv => hpm kv (by simp [hkv])) (fin ++ [(k, q)]) (GMap.set k node cs) root3 root2 s3 s2
        (hk.add e1 hm') hu3 h
      exact ⟨cs', e1.trans e2, by simpa using hk2, hu4⟩
    all_goals rw [hw] at h; simp at h

theorem Bare.object {lib : Lib} {ident : Str} {s : St} {t : T} {path : Str} {raw : P} (h : Bare lib ident s t path raw)
    {nu : Bool} (hty : fieldType raw = .ok (g!"object", nu)) (hp : raw.key g!"properties" ≠ some (.obj [])) :
    ∃ d tid, t = .object path d tid [] ∧ DefaultIs s (objD d) raw ∧ InstrsAre lib ident s tid path .object raw := by
  rcases h with ⟨ty, d, tid, rfl, h⟩ | ⟨d, tid, rfl, ⟨nu', h⟩, _⟩ | ⟨d, tid, rfl, _, _, h⟩
  · simp only [Mirrors] at h
    obtain ⟨_, ⟨ty0, nu0, h1, h2, h3, _⟩, _⟩ := h
    rw [hty] at h1
    simp only [Res.ok.injEq, Prod.mk.injEq] at h1
    exact absurd (h3 h1.1.symm) hp
  · rw [hty] at h
    simp at h
  · exact ⟨d, tid, rfl, h⟩

theorem Bare.array {lib : Lib} {ident : Str} {s : St} {t : T} {path : Str} {raw : P} (h : Bare lib ident s t path raw)
    {nu : Bool} (hty : fieldType raw = .ok (g!"array", nu)) :
    ∃ d tid, t = .array path d tid none ∧ DefaultIs s (arrD d) raw ∧ InstrsAre lib ident s tid path .array raw := by
  rcases h with ⟨ty, d, tid, rfl, h⟩ | ⟨d, tid, rfl, _, h⟩ | ⟨d, tid, rfl, ⟨nu', h⟩, _⟩
  · simp only [Mirrors] at h
    obtain ⟨_, ⟨ty0, nu0, h1, h2, h3, _⟩, _⟩ := h
    rw [hty] at h1
    simp only [Res.ok.injEq, Prod.mk.injEq] at h1
    exact absurd h1.1.symm h2
  · exact ⟨d, tid, rfl, h⟩
  · rw [hty] at h
    simp at h

theorem Bare.scalar {lib : Lib} {ident : Str} {s : St} {t : T} {path : Str} {raw : P} (h : Bare lib ident s t path raw)
    {ty : Str} {nu : Bool} (hty : fieldType raw = .ok (ty, nu)) (ha : ty ≠ g!"array") (ho : ty ≠ g!"object") : Mirrors lib ident s t path raw := by
  rcases h with ⟨_, d, tid, rfl, h⟩ | ⟨d, tid, rfl, ⟨nu', h⟩, _⟩ | ⟨d, tid, rfl, ⟨nu', h⟩, _⟩
  · exact h
  · rw [hty] at h
    simp at h
    exact absurd h.1 ha
  · rw [hty] at h
    simp at h
    exact absurd h.1 ho

theorem Mirrors.of_kids {lib : Lib} {ident : Str} {s : St} {path : Str} {raw : P} {d : Option Addr} {tid : Option Nat} {cs : List (Str × T)}
    {m : List (Str × P)} {nu : Bool} (hty : fieldType raw = .ok (g!"object", nu)) (hd : DefaultIs s (objD d) raw)
    (hi : InstrsAre lib ident s tid path .object raw) (hp : raw.key g!"properties" = some (.obj m)) (hne : m ≠ []) (hk : KidsOk lib ident s path m cs) :
    Mirrors lib ident s (.object path d tid cs) path raw := by
  simp only [Mirrors]
  refine ⟨trivial, ⟨nu, hty⟩, hd, hi, m, hp, hne, hk.sorted, ?_, MirrorsKids_iff.2 hk.mirror⟩
  rintro k ⟨q, hq⟩
  exact hk.all (k, q) hq

theorem walkRaw_adds (lib : Lib) (ident : Str) : ∀ (n : Nat) (raw : P), WalkAdds lib ident n raw := by
  intro n
  induction n with
  | zero =>
    intro raw l sg root root' s s' _ _ h
    simp [walkRaw] at h
  | succ n ih =>
    intro raw l sg root root' s s' hpl hnames h
    simp only [walkRaw] at h
    rcases hw : walker lib ident (pathOf (l ++ [sg])) raw (root, s) with ⟨root1, s1⟩ | _ | _
    · rw [hw] at h
      simp only at h
      obtain ⟨bare, e1, hb, hu⟩ := walker_ok hpl hw
      rcases hf : fieldType raw with ⟨ty, nu⟩ | _ | _
      · rw [hf] at h
        simp only at h
        by_cases ho : ty = g!"object"
        · rw [if_pos ho] at h
          subst ho
          rcases hp : raw.key g!"properties" with _ | (_ | _ | m)
          · rw [hp] at h; simp at h
          · rw [hp] at h; simp at h
          · rw [hp] at h; simp at h
          · rw [hp] at h
            simp only at h
            by_cases hne : m = []
            · subst hne
              simp [foldRes] at h
              obtain ⟨rfl, rfl⟩ := h
              rcases hb with ⟨ty, d, tid, rfl, h⟩ | ⟨d, tid, rfl, ⟨nu', h⟩, _⟩ | ⟨d, tid, rfl, _, h0, h1, h2⟩
              · exact ⟨_, e1, h, hu⟩
              · rw [hf] at h
                simp at h
              · exact absurd hp h0
            · obtain ⟨d, tid, rfl, hd, hi⟩ := hb.object hf (by rw [hp]; simp [hne])
              have hpp := (hnames raw (.self raw) m hp).2
              obtain ⟨cs', e2, hk, hu2⟩ := props_add ih hpl m
                (fun kv hkv => ⟨hpp kv hkv, fun q hq => hnames q (by
                  have h0 : Inst raw kv.2 := Inst.prop (.self raw) hp (by exact hkv)
                  exact Inst.trans h0 hq)⟩) [] [] root1 root' s1 s' ⟨by simp [GMap.Sorted], by simp, by simp⟩ hu h
              exact ⟨_, e1.trans e2, Mirrors.of_kids hf (DefaultIs.mono e2 hd) (InstrsAre.mono e2 hi) hp hne (by simpa using hk), hu2⟩
        · rw [if_neg ho] at h
          by_cases ha : ty = g!"array"
          · rw [if_pos ha] at h
            subst ha
            rcases hit : raw.key g!"items" with _ | items
            · rw [hit] at h; simp at h
            · rw [hit] at h
              simp only [starPath_path] at h
              obtain ⟨d, tid, rfl, hd, hi⟩ := hb.array hf
              have hpl' : ∀ x ∈ l ++ [sg] ++ [.star], x.plain := by
                intro x hx
                rcases List.mem_append.1 hx with h1 | h1
                · exact hpl x h1
                · simp only [List.mem_singleton] at h1
                  subst h1
                  trivial
              obtain ⟨node, e2, hm, hu2⟩ := ih items (l ++ [sg]) .star root1 root' s1 s' hpl'
                (fun q hq => hnames q (Inst.trans (Inst.items (.self raw) hit) hq)) h
              rw [List.map_append] at hu2
              obtain ⟨b', hb', hu3⟩ := updateAt_comp (bare := .array (pathOf (l ++ [sg])) d tid none) (sg := sg) (pp := pathOf l)
                (by simp only [T.path]; exact pathOf_snoc l sg) (hpl sg (by simp)) (g := T.addChild node) (fun t' ht => addChild_path ht) hu hu2
              simp [T.addChild] at hb'
              subst hb'
              refine ⟨_, e1.trans e2, ?_, hu3⟩
              simp only [Mirrors]
              refine ⟨trivial, ⟨nu, hf⟩, DefaultIs.mono e2 hd, InstrsAre.mono e2 hi, items, hit, ?_⟩
              rw [pathOf_snoc] at hm
              exact hm
          · rw [if_neg ha] at h
            simp at h
            obtain ⟨rfl, rfl⟩ := h
            exact ⟨bare, e1, hb.scalar hf ha ho, hu⟩
      all_goals rw [hf] at h; simp at h
    all_goals rw [hw] at h; simp at h

end JT
