import Verif.Spec.GoPackage
import Verif.Proofs.GoMeaning
/- Lemmas about packages of Go files. -/
namespace JT.GoText
open Gen Spec JT.Spec GoJson Flat

variable {pkg : List File}

theorem mem_packageNames {n : Str} : n ∈ packageNames pkg ↔ ∃ f ∈ pkg, n ∈ f.types.map Prod.fst := by
  unfold packageNames
  rw [List.mem_flatMap]

/-- A name is declared once in the package. -/
theorem declared_once {β : Type} {l : List (Str × β)} (hn : (l.map Prod.fst).Nodup) {n : Str} {a b : β} (ha : (n, a) ∈ l) (hb : (n, b) ∈ l) : a = b := by
  have h1 := GMap.get_mem_nodup hn ha
  have h2 := GMap.get_mem_nodup hn hb
  rw [h1] at h2
  exact Option.some.inj h2

theorem package_once : ∀ {pkg : List File}, (packageNames pkg).Nodup → ∀ {f f' : File} {n : Str} {t t' : Ty}, f ∈ pkg → f' ∈ pkg → (n, t) ∈ f.types → (n, t') ∈ f'.types →
    f = f' ∧ t = t'
  | [], _, _, _, _, _, _, h, _, _, _ => nomatch h
  | g :: pkg, hn, f, f', n, t, t', h, h', a, a' => by
    unfold packageNames at hn
    rw [List.flatMap_cons, List.nodup_append] at hn
    have hm : ∀ {f : File} {t : Ty}, f ∈ pkg → (n, t) ∈ f.types → n ∈ packageNames pkg := fun h a => mem_packageNames.2 ⟨_, h, List.mem_map.2 ⟨_, a, rfl⟩⟩
    rcases List.mem_cons.1 h with e | h1 <;> rcases List.mem_cons.1 h' with e' | h2
    · subst e; subst e'
      exact ⟨rfl, declared_once hn.1 a a'⟩
    · subst e
      exact absurd rfl (hn.2.2 n (List.mem_map.2 ⟨_, a, rfl⟩) n (hm h2 a'))
    · subst e'
      exact absurd rfl (hn.2.2 n (List.mem_map.2 ⟨_, a', rfl⟩) n (hm h1 a))
    · exact package_once (show (packageNames pkg).Nodup from hn.2.1) h1 h2 a a'

mutual
theorem stands_unique (hn : (packageNames pkg).Nodup) {f : File} {t : Ty} {g g' : GT} : Stands pkg f t g → Stands pkg f t g' → g = g'
  | .basic h1 h2, h' => by
    cases h' with
    | basic h1' h2' => exact basic_fun h2 h2'
    | named h1' h2' _ => exact absurd (mem_packageNames.2 ⟨_, h1', List.mem_map.2 ⟨_, h2', rfl⟩⟩) h1
  | .named h1 h2 h3, h' => by
    cases h' with
    | basic h1' _ => exact absurd (mem_packageNames.2 ⟨_, h1, List.mem_map.2 ⟨_, h2, rfl⟩⟩) h1'
    | named h1' h2' h3' =>
      obtain ⟨rfl, rfl⟩ := package_once hn h1 h1' h2 h2'
      exact stands_unique hn h3 h3'
  | .time _, h' => by cases h'; rfl
  | .dict _ _, h' => by cases h'; rfl
  | .ptr h, h' => by
    cases h' with
    | ptr h' => rw [stands_unique hn h h']
  | .slice h, h' => by
    cases h' with
    | slice h' => rw [stands_unique hn h h']
  | .struct h _, h' => by
    cases h' with
    | struct h' _ => rw [fieldsStand_unique hn h h']
theorem fieldsStand_unique (hn : (packageNames pkg).Nodup) {f : File} {fs : List Field} {s s' : List SF} : FieldsStand pkg f fs s → FieldsStand pkg f fs s' → s = s'
  | .nil, h' => by cases h'; rfl
  | .cons h1 h2 h3, h' => by
    cases h' with
    | cons h1' h2' h3' =>
      have := h1.symm.trans h1'
      cases this
      rw [stands_unique hn h2 h2', fieldsStand_unique hn h3 h3']
end

/-- The fields of a struct are not embedded. -/
theorem fieldsStand_named {f : File} {fs : List Field} {sfs : List SF} (h : FieldsStand pkg f fs sfs) : ∀ x ∈ fs, ∃ doc n t tag, x = .mk doc (some n) t tag :=
  match h with
  | .nil => fun _ h => nomatch h
  | .cons _ _ h => fun x hx => by
    rcases List.mem_cons.1 hx with rfl | hx
    · exact ⟨_, _, _, _, rfl⟩
    · exact fieldsStand_named h x hx

theorem split_embeds : ∀ {es es' : List Str} {fs fs' : List Field}, (∀ x ∈ fs, ∃ doc n t tag, x = Field.mk doc (some n) t tag) →
    (∀ x ∈ fs', ∃ doc n t tag, x = Field.mk doc (some n) t tag) →
    es.map (fun e => Field.mk [] none (.name e) none) ++ fs = es'.map (fun e => Field.mk [] none (.name e) none) ++ fs' → es = es' ∧ fs = fs'
  | [], [], _, _, _, _, e => ⟨rfl, e⟩
  | [], b :: _, fs, _, h, _, e => by
    simp only [List.map_nil, List.nil_append, List.map_cons, List.cons_append] at e
    obtain ⟨_, _, _, _, hx⟩ := h (.mk [] none (.name b) none) (by rw [e]; exact List.mem_cons_self)
    cases hx
  | b :: _, [], _, fs, _, h, e => by
    simp only [List.map_nil, List.nil_append, List.map_cons, List.cons_append] at e
    obtain ⟨_, _, _, _, hx⟩ := h (.mk [] none (.name b) none) (by rw [← e]; exact List.mem_cons_self)
    cases hx
  | a :: es, b :: es', fs, fs', h, h', e => by
    simp only [List.map_cons, List.cons_append, List.cons.injEq, Field.mk.injEq, Ty.name.injEq, true_and, and_true] at e
    obtain ⟨rfl, rfl⟩ := split_embeds h h' e.2
    exact ⟨by rw [e.1], rfl⟩

theorem each_unique {α β : Type} {R : α → β → Prop} {S : α → β → Prop} (hu : ∀ a b b', R a b → S a b' → b = b') : ∀ {as : List α} {bs bs' : List β}, Each R as bs → Each S as bs' → bs = bs'
  | _, _, _, .nil, .nil => rfl
  | _, _, _, .cons h1 h2, .cons h1' h2' => by rw [hu _ _ _ h1 h1', each_unique hu h2 h2']

/-- The package declares one struct of a name only. -/
theorem structIn_unique (hn : (packageNames pkg).Nodup) {n : Str} {s s' : List SF} (h : StructIn pkg n s) (h' : StructIn pkg n s') : s = s' := by
  cases h with
  | mk h1 h2 h3 h4 h5 =>
    cases h' with
    | mk h1' h2' h3' h4' h5' =>
      obtain ⟨rfl, e⟩ := package_once hn h1 h1' h2 h2'
      have hs := h3
      have hs' := h3'
      cases hs with
      | struct hf hck =>
        cases hs' with
        | struct hf' hck' =>
          obtain ⟨rfl, rfl⟩ := split_embeds (fieldsStand_named hf) (fieldsStand_named hf') (Ty.struct.inj e)
          obtain rfl := GT.struct.inj (stands_unique hn h3 h3')
          have := each_unique (fun a b b' ha hb => GT.struct.inj (stands_unique hn (t := .name a) ha hb)) h4 h4'
          rw [this]

mutual
/-- What a type means in a file, it means in the package. -/
theorem stands_of {f : File} (hf : f ∈ pkg) (hfresh : ∀ f' ∈ pkg, Fresh f') {t : Ty} {g : GT} : Denotes f t g → Stands pkg f t g
  | .basic _ h2 => .basic (fun hm => by
      obtain ⟨f', h, hm⟩ := mem_packageNames.1 hm
      refine hfresh f' h _ ?_ hm
      simp only [basicTypes, List.mem_cons, Prod.mk.injEq, List.not_mem_nil, or_false] at h2
      rcases h2 with ⟨rfl, rfl⟩ | ⟨rfl, rfl⟩ | ⟨rfl, rfl⟩ | ⟨rfl, rfl⟩ <;> decide) h2
  | .named h1 h2 => .named hf h1 (stands_of hf hfresh h2)
  | .time h => .time h
  | .dict h1 h2 => .dict (stands_of hf hfresh h1) (stands_of hf hfresh h2)
  | .ptr h => .ptr (stands_of hf hfresh h)
  | .slice h => .slice (stands_of hf hfresh h)
  | .struct h1 h2 => .struct (fieldsStand_of hf hfresh h1) h2
theorem fieldsStand_of {f : File} (hf : f ∈ pkg) (hfresh : ∀ f' ∈ pkg, Fresh f') {fs : List Field} {sfs : List SF} : FieldsDenote f fs sfs → FieldsStand pkg f fs sfs
  | .nil => .nil
  | .cons h1 h2 h3 => .cons h1 (stands_of hf hfresh h2) (fieldsStand_of hf hfresh h3)
end

mutual
/-- The names in a type that means something are declared. -/
theorem denotes_names {f : File} {t : Ty} {g : GT} : Denotes f t g → ∀ n ∈ t.names, n ∈ scalarTable.map Prod.snd ∨ n ∈ f.types.map Prod.fst
  | .basic _ h2 => fun n hn => by
    obtain rfl := List.mem_singleton.1 (show n ∈ [_] from hn)
    left
    simp only [basicTypes, List.mem_cons, Prod.mk.injEq, List.not_mem_nil, or_false] at h2
    rcases h2 with ⟨rfl, rfl⟩ | ⟨rfl, rfl⟩ | ⟨rfl, rfl⟩ | ⟨rfl, rfl⟩ <;> decide
  | .named h1 _ => fun n hn => by
    obtain rfl := List.mem_singleton.1 (show n ∈ [_] from hn)
    exact .inr (List.mem_map.2 ⟨_, h1, rfl⟩)
  | .time _ => fun _ hn => nomatch hn
  | .dict h1 h2 => fun n hn => by
    rcases List.mem_append.1 (show n ∈ _ ++ _ from hn) with h | h
    · exact denotes_names h1 n h
    · exact denotes_names h2 n h
  | .ptr h => fun n hn => denotes_names h n hn
  | .slice h => fun n hn => denotes_names h n hn
  | .struct h1 _ => fun n hn => fieldsDenote_names h1 n hn
theorem fieldsDenote_names {f : File} {fs : List Field} {sfs : List SF} : FieldsDenote f fs sfs → ∀ n ∈ fieldsNames fs, n ∈ scalarTable.map Prod.snd ∨ n ∈ f.types.map Prod.fst
  | .nil => fun _ hn => nomatch hn
  | .cons _ h2 h3 => fun n hn => by
    rcases List.mem_append.1 (show n ∈ _ ++ _ from hn) with h | h
    · exact denotes_names h2 n h
    · exact fieldsDenote_names h3 n h
end

mutual
/-- The only package that is used is that of times. -/
theorem denotes_uses {f : File} {t : Ty} {g : GT} {p : Str} : Denotes f t g → t.uses p = true → p = g!"time"
  | .basic _ _, h => nomatch h
  | .named _ _, h => nomatch h
  | .time _, h => of_decide_eq_true h
  | .dict h1 h2, h => by
    rw [Ty.uses, Bool.or_eq_true] at h
    exact h.elim (denotes_uses h1) (denotes_uses h2)
  | .ptr h1, h => denotes_uses h1 h
  | .slice h1, h => denotes_uses h1 h
  | .struct h1 _, h => fieldsDenote_uses h1 h
theorem fieldsDenote_uses {f : File} {fs : List Field} {sfs : List SF} {p : Str} : FieldsDenote f fs sfs → fieldsUse p fs = true → p = g!"time"
  | .nil, h => nomatch h
  | .cons _ h1 h2, h => by
    rw [fieldsUse, Bool.or_eq_true] at h
    exact h.elim (denotes_uses h1) (fieldsDenote_uses h2)
end

theorem ptrIf_uses {b : Prop} [Decidable b] {t : Ty} {p : Str} : (ptrIf b t).uses p = t.uses p := by
  unfold ptrIf
  split <;> rfl

theorem flatFieldsFor_uses {title : Str → Str} {rename : GMap Str} {descTag pointers : Bool} {key : Str → Str} {m : GMap P} {r ks : List Str} {Fs : List Field} {p : Str}
    (h : FlatFieldsFor title rename descTag pointers key m r ks Fs) : fieldsUse p Fs = true → p = g!"time" := by
  induction h with
  | nil => exact fun h => nomatch h
  | cons _ _ ht _ ih =>
    intro h
    rw [fieldsUse, Bool.or_eq_true] at h
    refine h.elim (fun h => ?_) ih
    cases ht <;> simp only [Ty.uses, ptrIf_uses, Bool.or_self, Bool.false_eq_true, decide_eq_true_eq] at h <;> exact h

theorem fieldsDenote_fields {f : File} {fs : List Field} {sfs : List SF} (h : FieldsDenote f fs sfs) : ∀ s ∈ sfs, ∃ doc t tag, Field.mk doc (some s.name) t tag ∈ fs :=
  match h with
  | .nil => fun _ h => nomatch h
  | .cons _ _ h => fun s hs => by
    rcases List.mem_cons.1 hs with rfl | hs
    · exact ⟨_, _, _, List.mem_cons_self⟩
    · obtain ⟨doc, t, tag, hm⟩ := fieldsDenote_fields h s hs
      exact ⟨doc, t, tag, List.mem_cons_of_mem _ hm⟩

/-- The names of the fields for properties. -/
theorem fieldsFor_names {title : Str → Str} {rename : GMap Str} {descTag pointers : Bool} {m : GMap P} {r ks : List Str} {Fs : List Field}
    (h : FieldsFor title rename descTag pointers m r ks Fs) : ∀ doc n t tag, Field.mk doc (some n) t tag ∈ Fs → ∃ k q, Listed m k q ∧ n = goName title rename k :=
  match h with
  | .nil => fun _ _ _ _ h => nomatch h
  | .cons hl _ _ h => fun doc n t tag hm => by
    rcases List.mem_cons.1 hm with e | hm
    · cases e; exact ⟨_, _, hl, rfl⟩
    · exact fieldsFor_names h doc n t tag hm

theorem flatFieldsFor_names {title : Str → Str} {rename : GMap Str} {descTag pointers : Bool} {key : Str → Str} {m : GMap P} {r ks : List Str} {Fs : List Field}
    (h : FlatFieldsFor title rename descTag pointers key m r ks Fs) : ∀ doc n t tag, Field.mk doc (some n) t tag ∈ Fs → ∃ k q, Listed m k q ∧ n = goName title rename k := by
  induction h with
  | nil => exact fun _ _ _ _ h => nomatch h
  | cons hl _ _ _ ih =>
    intro doc n t tag hm
    rcases List.mem_cons.1 hm with e | hm
    · cases e; exact ⟨_, _, hl, rfl⟩
    · exact ih doc n t tag hm

end JT.GoText
