import Verif.Proofs.RunObj
/- Loading documents, and the direct semantics of a whole call. -/
namespace JT
open Spec

theorem set_rel {α β : Type} {R : α → β → Prop} {m : GMap α} {n : GMap β} (h : All2 (KVRel R) m n) {k : Str} {v : α} {w : β} (hv : R v w) :
    All2 (KVRel R) (GMap.set k v m) (GMap.set k w n) := by
  induction h with
  | nil => exact .cons ⟨rfl, hv⟩ .nil
  | @cons x y l l' hxy hl ih =>
    obtain ⟨k1, v1⟩ := x
    obtain ⟨k2, v2⟩ := y
    obtain ⟨rfl, h2⟩ := hxy
    simp only at h2
    simp only [GMap.set]
    split
    · exact .cons ⟨rfl, hv⟩ hl
    · split
      · exact .cons ⟨rfl, hv⟩ (.cons ⟨rfl, h2⟩ hl)
      · exact .cons ⟨rfl, h2⟩ ih

theorem ofList_rel {α β : Type} {R : α → β → Prop} {l : List (Str × α)} {l' : List (Str × β)} (h : All2 (KVRel R) l l') :
    All2 (KVRel R) (GMap.ofList l) (GMap.ofList l') := by
  unfold GMap.ofList
  suffices ∀ (m : GMap α) (m' : GMap β), All2 (KVRel R) m m' →
      All2 (KVRel R) (l.foldl (fun m kv => GMap.set kv.1 kv.2 m) m) (l'.foldl (fun m kv => GMap.set kv.1 kv.2 m) m') from
    this _ _ .nil
  induction h with
  | nil => intro m m' h; exact h
  | @cons x y l l' hxy hl ih =>
    intro m m' hm
    simp only [List.foldl_cons]
    apply ih
    rw [hxy.1]
    exact set_rel hm hxy.2

theorem loadP_len (p : P) (h : Heap) : h.length ≤ (loadP p h).2.length ∧ ∀ a < h.length, (loadP p h).2[a]? = h[a]? := by
  obtain ⟨_, _, h3, h4⟩ := loadP_above (w := h.length) p h (Nat.le_refl _) (fun a c ha hc => by
    have := (List.getElem?_eq_some_iff.1 hc).1; omega)
  exact ⟨h3, h4⟩

theorem loadList_len (p : List P) (h : Heap) : h.length ≤ (loadList p h).2.length ∧ ∀ a < h.length, (loadList p h).2[a]? = h[a]? := by
  obtain ⟨_, _, h3, h4⟩ := loadList_above (w := h.length) p h (Nat.le_refl _) (fun a c ha hc => by
    have := (List.getElem?_eq_some_iff.1 hc).1; omega)
  exact ⟨h3, h4⟩

theorem loadFields_len (p : List (Str × P)) (h : Heap) : h.length ≤ (loadFields p h).2.length ∧ ∀ a < h.length, (loadFields p h).2[a]? = h[a]? := by
  obtain ⟨_, _, h3, h4⟩ := loadFields_above (w := h.length) p h (Nat.le_refl _) (fun a c ha hc => by
    have := (List.getElem?_eq_some_iff.1 hc).1; omega)
  exact ⟨h3, h4⟩

theorem keep_of_len {h h' : Heap} (hk : ∀ a < h.length, h'[a]? = h[a]?) (A : Addr → Bool) :
    ∀ a, A a = true → ∀ c, h[a]? = some c → h'[a]? = some c := by
  intro a _ c hc
  rw [hk a (List.getElem?_eq_some_iff.1 hc).1]
  exact hc

theorem keep_append (h : Heap) (x : Cell) (A : Addr → Bool) : ∀ a, A a = true → ∀ c, h[a]? = some c → (h ++ [x])[a]? = some c := by
  intro a _ c hc
  rw [List.getElem?_append_left (List.getElem?_eq_some_iff.1 hc).1]
  exact hc

mutual
/-- A loaded document is the tree of the document, in newly allocated cells. -/
theorem loadP_rep : ∀ (p : P) (h : Heap) (A : Addr → Bool), (∀ a, h.length ≤ a → A a = true) →
    Rep (loadP p h).2 A (loadP p h).1 (canon p)
  | .sc s, h, A, _ => Rep.sc _ _ _
  | .arr l, h, A, hA => by
    have ih := loadList_rep l h A hA
    have hlen := (loadList_len l h).1
    simp only [loadP, canon]
    have ih' := ih.imp fun v p hr => hr.mono (h' := (loadList l h).2 ++ [.slice (loadList l h).1]) (fun _ h => h) (keep_append _ _ A)
    exact rep_arr_iff.2 ⟨hA _ hlen, (loadList l h).1, canonList l, by simp, rfl, ih.length, ih'.idx⟩
  | .obj m, h, A, hA => by
    have ih := loadFields_rep m h A hA
    have hlen := (loadFields_len m h).1
    simp only [loadP, canon]
    have ih' := (ofList_rel ih).imp fun v p (hr : KVRel _ v p) => (⟨hr.1, hr.2.mono
      (h' := (loadFields m h).2 ++ [.map (GMap.ofList (loadFields m h).1)]) (fun _ h => h) (keep_append _ _ A)⟩ :
        KVRel (Rep ((loadFields m h).2 ++ [.map (GMap.ofList (loadFields m h).1)]) A) v p)
    exact rep_obj_iff.2 ⟨hA _ hlen, GMap.ofList (loadFields m h).1, GMap.ofList (canonFields m), by simp, rfl, ih'.length, ih'.idx⟩
theorem loadList_rep : ∀ (l : List P) (h : Heap) (A : Addr → Bool), (∀ a, h.length ≤ a → A a = true) →
    All2 (Rep (loadList l h).2 A) (loadList l h).1 (canonList l)
  | [], h, A, _ => .nil
  | p :: ps, h, A, hA => by
    simp only [loadList, canonList]
    have h1 := loadP_len p h
    have h2 := loadList_len ps (loadP p h).2
    exact .cons ((loadP_rep p h A hA).mono (fun _ h => h) (keep_of_len h2.2 A))
      (loadList_rep ps (loadP p h).2 A fun a ha => hA a (by omega))
theorem loadFields_rep : ∀ (l : List (Str × P)) (h : Heap) (A : Addr → Bool), (∀ a, h.length ≤ a → A a = true) →
    All2 (KVRel (Rep (loadFields l h).2 A)) (loadFields l h).1 (canonFields l)
  | [], h, A, _ => .nil
  | (k, p) :: ps, h, A, hA => by
    simp only [loadFields, canonFields]
    have h1 := loadP_len p h
    have h2 := loadFields_len ps (loadP p h).2
    exact .cons ⟨rfl, (loadP_rep p h A hA).mono (fun _ h => h) (keep_of_len h2.2 A)⟩
      (loadFields_rep ps (loadP p h).2 A fun a ha => hA a (by omega))
end

/-- The outcome of a call, forgetting the difference between an error and a panic. -/
def Res.toOption {α : Type} : Res α → Option α
  | .ok a => some a
  | _ => none

/-- Loading a document. -/
theorem load_ref (p : P) (s : St) : ∃ v s', load p s = (.ok v, s') ∧ Grow s s' ∧
    ∀ A, FreshIn A s → Rep s'.heap A v (canon p) := by
  refine ⟨(loadP p s.heap).1, { s with heap := (loadP p s.heap).2 }, rfl, ?_, ?_⟩
  · obtain ⟨h1, h2⟩ := loadP_len p s.heap
    exact ⟨h1, ⟨h2, rfl, rfl, rfl, [], rfl, by simp⟩⟩
  · intro A hA
    exact loadP_rep p s.heap A hA

/-- A whole call on JSON input: parse, evaluate, render. -/
theorem baseTransform_eval {env : Env} (hf : env.fmt = .json) {t : T} {s : St} {dv : V → P} (ht : t.frag s.instrs)
    (hd : ∀ d ∈ t.defaults, Rep s.heap (fun _ => true) d (dv d)) (raw : Str) :
    (baseTransform env t raw s).1.toOption =
      (env.lib.parseJSON raw).bind fun p => (eval env.lib s.instrs dv t (canon p) id).bind env.lib.marshal := by
  unfold baseTransform
  rw [M.bind_apply]
  unfold readInput
  simp only [hf]
  cases hp : env.lib.parseJSON raw with
  | none => rfl
  | some p =>
    obtain ⟨v, s', hl, g, hr⟩ := load_ref p s
    simp only [hl, Option.bind_some]
    rw [M.bind_apply]
    have hA : FreshIn (fun _ => true) s' := fun _ _ => rfl
    have hrun := runs env hf dv t s' (fun _ => true) (fun _ => True) v (canon p) id hA (by rw [g.ext.instrs]; exact ht) (reads_true _ t id)
      (fun d hd' => (hd d hd').grow g) (.whole (hr _ (fun _ _ => rfl)))
    rw [g.ext.instrs] at hrun
    unfold RefO at hrun
    have hid : (fun p => p : Mod) = id := rfl
    rw [hid]
    rcases hx : t.run env v id s' with ⟨r, s2⟩
    rw [hx] at hrun
    obtain ⟨_, hok⟩ := hrun
    simp only at hok
    generalize he : eval env.lib s.instrs dv t (canon p) id = o at hok
    cases hok with
    | err => rfl
    | panic => rfl
    | @ok v2 q hv =>
      simp only [Option.bind_some]
      rw [M.bind_apply]
      simp only [getHeap, hv.toP]
      cases env.lib.marshal q <;> rfl

end JT
