import Verif.Spec.Decode
import Verif.Props.C03
import Verif.Props.C20
/- C24 with an independent reading of the schema document. -/
namespace JT
open Spec

theorem textAt_of {p : P} {k s : Str} (h : asString (p.key k) = .ok s) : TextAt p k s := by
  unfold asString at h
  split at h
  · rename_i hk; cases h; exact .missing hk
  · rename_i hk; cases h; exact .null hk
  · rename_i hk; cases h; exact .text hk
  · cases h

theorem listAt_of {p : P} {k : Str} {l : List P} (h : asList (p.key k) = .ok l) : ListAt p k l := by
  unfold asList at h
  split at h
  · rename_i hk; cases h; exact .missing hk
  · rename_i hk; cases h; exact .null hk
  · rename_i hk; cases h; exact .list hk
  · cases h

theorem methodNamed_of {s : Str} {m : Method} (h : parseMethod s = .ok m) : MethodNamed s m := by
  unfold parseMethod at h
  repeat' split at h
  all_goals first | (cases h; done) | skip
  all_goals (rename_i hs; subst hs; cases h; constructor)

theorem each_of {α β : Type} {f : α → Res β} {R : α → β → Prop} (hf : ∀ a b, f a = .ok b → R a b) : ∀ {l : List α} {l' : List β}, mapRes f l = .ok l' → Each R l l'
  | [], l', h => by cases h; exact .nil
  | a :: l, l', h => by
    simp only [mapRes, Res.bind_eq_ok] at h
    obtain ⟨b, hb, bs, hbs, h⟩ := h
    cases h
    exact .cons (hf a b hb) (each_of hf hbs)

/-- The entries that the arguments of an operation come from. -/
theorem argAt_of {p : P} {args : GMap Str} (h : parseArgs (p.key g!"args") = .ok args) {k v : Str} (hk : GMap.get k args = some v) : ArgAt p k v := by
  unfold parseArgs at h
  split at h
  · cases h; cases hk
  · cases h; cases hk
  · rename_i m hm
    simp only [Res.bind_eq_ok] at h
    obtain ⟨l, hl, h⟩ := h
    cases h
    refine ⟨m, hm, ?_⟩
    have h1 : (k, v) ∈ l := GMap.mem_ofList (GMap.get_some_mem hk)
    have h2 : ∀ {m : List (Str × P)} {l : List (Str × Str)}, mapRes (fun kv : Str × P => do let s ← asString (some kv.2); return (kv.1, s)) m = .ok l → (k, v) ∈ l →
        (k, .sc (.str v)) ∈ m ∨ ((k, .sc .nil) ∈ m ∧ v = []) := by
      intro m
      induction m with
      | nil => intro l h hm; cases h; cases hm
      | cons x m ih =>
        intro l h hm
        simp only [mapRes, Res.bind_eq_ok] at h
        obtain ⟨b, ⟨s, hs, hb⟩, bs, hbs, h⟩ := h
        cases h
        cases hb
        obtain ⟨k', q⟩ := x
        rcases List.mem_cons.1 hm with h | h
        · cases h
          unfold asString at hs
          split at hs
          · rename_i h; cases h
          · rename_i h; cases h; cases hs; exact .inr ⟨by simp, rfl⟩
          · rename_i h; cases h; cases hs; exact .inl (by simp)
          · cases hs
        · rcases ih hbs h with h | h
          · exact .inl (List.mem_cons_of_mem _ h)
          · exact .inr ⟨List.mem_cons_of_mem _ h.1, h.2⟩
    exact h2 hl h1
  · cases h

theorem opIs_of {lib : Lib} {p : P} {op : Op} (h : parseOp lib p = .ok op) : OpIs p op := by
  unfold parseOp at h
  simp only [Res.bind_eq_ok] at h
  obtain ⟨p', hp, name, hn, args, ha, h⟩ := h
  rw [asStruct_key hp] at hn ha
  have ht := textAt_of hn
  have harg : ∀ k l, requiredArgs l args = true → k ∈ l → ArgAt p k (argOf args k) := by
    intro k l hr hk
    unfold requiredArgs at hr
    simp only [Bool.and_eq_true, List.all_eq_true] at hr
    obtain ⟨v, hv⟩ := Option.isSome_iff_exists.1 (hr.2 k hk)
    unfold argOf
    rw [hv]
    exact argAt_of ha hv
  split at h
  · rename_i op' hop
    cases h
    unfold initOp at hop
    by_cases hc : name = g!"changeCase"
    · rw [if_pos hc] at hop
      subst hc
      by_cases hr : requiredArgs [g!"to"] args = true
      · rw [if_pos hr] at hop
        have hto := harg g!"to" _ hr (by simp)
        by_cases hl : argOf args g!"to" = g!"lower"
        · rw [if_pos hl] at hop
          cases hop
          rw [hl] at hto
          exact .lower ht hto
        · rw [if_neg hl] at hop
          by_cases hl : argOf args g!"to" = g!"upper"
          · rw [if_pos hl] at hop
            cases hop
            rw [hl] at hto
            exact .upper ht hto
          · rw [if_neg hl] at hop
            cases hop
      · rw [if_neg hr] at hop
        cases hop
    rw [if_neg hc] at hop
    clear hc
    by_cases hc : name = g!"currentTime"
    · rw [if_pos hc] at hop
      subst hc
      by_cases hr : requiredArgs [g!"format"] args = true
      · rw [if_pos hr] at hop
        cases hop
        exact .currentTime ht (harg g!"format" _ hr (by simp))
      · rw [if_neg hr] at hop
        cases hop
    rw [if_neg hc] at hop
    clear hc
    by_cases hc : name = g!"duration"
    · rw [if_pos hc] at hop
      subst hc
      cases hop
      exact .duration ht
    rw [if_neg hc] at hop
    clear hc
    by_cases hc : name = g!"inverse"
    · rw [if_pos hc] at hop
      subst hc
      cases hop
      exact .inverse ht
    rw [if_neg hc] at hop
    clear hc
    by_cases hc : name = g!"max"
    · rw [if_pos hc] at hop
      subst hc
      by_cases hr : requiredArgs [g!"by", g!"return"] args = true
      · rw [if_pos hr] at hop
        cases hop
        exact .max ht (harg g!"by" _ hr (by simp)) (harg g!"return" _ hr (by simp))
      · rw [if_neg hr] at hop
        cases hop
    rw [if_neg hc] at hop
    clear hc
    by_cases hc : name = g!"replace"
    · rw [if_pos hc] at hop
      subst hc
      by_cases hr : requiredArgs [g!"regex", g!"new"] args = true
      · rw [if_pos hr] at hop
        by_cases hv : lib.reValid (argOf args g!"regex") = true
        · rw [if_pos hv] at hop
          cases hop
          exact .replace ht (harg g!"regex" _ hr (by simp)) (harg g!"new" _ hr (by simp))
        · rw [if_neg hv] at hop
          cases hop
      · rw [if_neg hr] at hop
        cases hop
    rw [if_neg hc] at hop
    clear hc
    by_cases hc : name = g!"split"
    · rw [if_pos hc] at hop
      subst hc
      by_cases hr : requiredArgs [g!"on"] args = true
      · rw [if_pos hr] at hop
        cases hop
        exact .split ht (harg g!"on" _ hr (by simp))
      · rw [if_neg hr] at hop
        cases hop
    rw [if_neg hc] at hop
    clear hc
    by_cases hc : name = g!"timeParse"
    · rw [if_pos hc] at hop
      subst hc
      by_cases hr : requiredArgs [g!"format", g!"layout"] args = true
      · rw [if_pos hr] at hop
        cases hop
        exact .timeParse ht (harg g!"format" _ hr (by simp)) (harg g!"layout" _ hr (by simp))
      · rw [if_neg hr] at hop
        cases hop
    rw [if_neg hc] at hop
    clear hc
    by_cases hc : name = g!"toCamelCase"
    · rw [if_pos hc] at hop
      subst hc
      by_cases hr : requiredArgs [g!"delimiter"] args = true
      · rw [if_pos hr] at hop
        cases hop
        exact .toCamelCase ht (harg g!"delimiter" _ hr (by simp))
      · rw [if_neg hr] at hop
        cases hop
    rw [if_neg hc] at hop
    clear hc
    by_cases hc : name = g!"removeHTML"
    · rw [if_pos hc] at hop
      subst hc
      cases hop
      exact .removeHTML ht
    rw [if_neg hc] at hop
    clear hc
    by_cases hc : name = g!"convertToFloat64"
    · rw [if_pos hc] at hop
      subst hc
      cases hop
      exact .convertToFloat64 ht
    rw [if_neg hc] at hop
    clear hc
    by_cases hc : name = g!"convertToInt64"
    · rw [if_pos hc] at hop
      subst hc
      cases hop
      exact .convertToInt64 ht
    rw [if_neg hc] at hop
    clear hc
    by_cases hc : name = g!"convertToBool"
    · rw [if_pos hc] at hop
      subst hc
      cases hop
      exact .convertToBool ht
    rw [if_neg hc] at hop
    clear hc
    by_cases hc : name = g!"valueExists"
    · rw [if_pos hc] at hop
      subst hc
      cases hop
      exact .valueExists ht
    rw [if_neg hc] at hop
    clear hc
    cases hop
  · cases h

theorem instrIs_of {lib : Lib} {up : Str} {p : P} {ti : Instr} (h : parseInstr lib p = .ok ti) : InstrIs up p (fullInstr up ti) := by
  have main : (do
    let p ← asStruct p
    let jp ← asString (p.key g!"jsonPath")
    let xp ← asString (p.key g!"xmlPath")
    let opsJ ← asList (p.key g!"operations")
    let ops ← mapRes (parseOp lib) opsJ
    return (⟨jp, xp, ops⟩ : Instr)) = .ok ti → InstrIs up p (fullInstr up ti) := by
    intro h
    simp only [Res.bind_eq_ok] at h
    obtain ⟨p', hp, jp, h1, xp, h2, l, h3, ops, h4, h⟩ := h
    rw [asStruct_key hp] at h1 h2 h3
    cases h
    exact ⟨⟨jp, textAt_of h1, rfl⟩, ⟨xp, textAt_of h2, rfl⟩, l, listAt_of h3, each_of (fun _ _ => opIs_of) h4⟩
  unfold parseInstr at h
  split at h
  · cases h
  · exact main h

theorem each_map {α β : Type} {R S : α → β → Prop} {g : β → β} (hg : ∀ a b, R a b → S a (g b)) : ∀ {l : List α} {l' : List β}, Each R l l' → Each S l (l'.map g)
  | _, _, .nil => .nil
  | _, _, .cons h t => .cons (hg _ _ h) (each_map hg t)

theorem instrsIs_of {lib : Lib} {up : Str} {p : P} {tis : Instrs} (h : parseInstrs lib p = .ok tis) : InstrsIs up p { tis with «from» := tis.from.map (fullInstr up) } := by
  unfold parseInstrs at h
  simp only [Res.bind_eq_ok] at h
  obtain ⟨p', hp, l, h1, fr, h2, ms, h3, opts, h4, d, h5, m, h6, h⟩ := h
  rw [asStruct_key hp] at h1 h3 h4
  cases h
  refine ⟨⟨l, listAt_of h1, each_map (R := fun p ti => parseInstr lib p = .ok ti) (fun a b hab => instrIs_of hab) (each_of (fun _ _ h => h) h2)⟩, ⟨ms, textAt_of h3, methodNamed_of h6⟩, ?_⟩
  rw [asStruct_key h4] at h5
  cases ho : p.key g!"methodOptions" with
  | none =>
    rw [ho] at h5
    cases h5
    exact .missing ho
  | some q =>
    rw [ho] at h4 h5
    cases q with
    | arr => cases h4
    | obj m' => exact .text ho (textAt_of h5)
    | sc c =>
      cases c with
      | nil => cases h5; exact .null ho
      | _ => cases h4

theorem hasTransform_of {lib : Lib} {ident : Str} {s : St} {tid : Option Nat} {path up : Str} {kind : Kind} {raw : P} (hup : parentPathOf kind path = up)
    (hh : up.head? ≠ some '@') (h : InstrsAre lib ident s tid path kind raw) : HasTransform ident up s tid raw := by
  obtain ⟨o, ho, h⟩ := h
  refine ⟨o, ?_, h⟩
  rcases extractInstrs_cases ho with ⟨rfl, hn⟩ | ⟨tr, tis, h1, h2, h3, rfl⟩
  · cases hk : raw.key g!"transform" with
    | none => exact .none hk
    | some tr =>
      rcases hn with hn | hn
      · rw [hk] at hn; exact .other hk hn
      · rw [hk] at hn; exact .empty hk hn
  · rw [hup, replaceBoth hh]
    cases hk : raw.key g!"transform" with
    | none => rw [hk] at h1; cases h1
    | some t => rw [hk] at h1; exact .some hk h1 (instrsIs_of h3)

theorem typeOf_of {raw : P} {t : Str} {nu : Bool} (h : fieldType raw = .ok (t, nu)) : TypeOf raw t := by
  by_cases hne : ∀ l, raw.key g!"type" = some (.arr l) → ∀ t ∈ nonNull l, t ≠ []
  · cases (C47_partial hne t nu).1 h with
    | name hk => exact .name hk
    | list hk _ ht =>
      rcases ht with ht | ⟨ht, rfl⟩
      · exact .list hk ht
      · exact .null hk ht
  · simp only [Classical.not_forall, not_not, exists_prop] at hne
    obtain ⟨l, hk, t', ht, rfl⟩ := hne
    exact .unnamed hk ht

theorem scalarTypeOf_of {raw : P} {t0 t : Str} (h : TypeOf raw t0) (ha : t0 ≠ g!"array") (ho : t0 = g!"object" → raw.key g!"properties" = some (.obj []))
    (hs : scalarType raw t0 = .ok t) : ScalarTypeOf raw t := by
  unfold scalarType at hs
  split at hs
  · rename_i h0
    subst h0
    split at hs
    · rename_i hk
      cases hs
      exact .string h (by rw [hk]; simp)
    · rename_i f hk
      split at hs
      · rename_i hf
        subst hf
        cases hs
        exact .time h hk
      · rename_i hf
        cases hs
        exact .string h (by rw [hk]; simpa using hf)
    · cases hs
  · rename_i h0
    cases hs
    exact .other h h0 ha ho

theorem inst_trans {p q r : P} (h1 : Inst p q) (h2 : Inst q r) : Inst p r := by
  induction h2 with
  | self => exact h1
  | prop _ h3 h4 ih => exact .prop ih h3 h4
  | items _ h3 ih => exact .items ih h3

mutual
theorem describes_of {lib : Lib} {ident : Str} {s : St} : ∀ (t : T) (l : List Seg) (raw : P), l ≠ [] → (∀ x ∈ l, x.plain) → (∀ q, Inst raw q → PlainProps q) →
    Mirrors lib ident s t (pathOf l) raw → Describes ident s t l raw
  | .scalar p ty d tid, l, raw, hl, hp, _, h => by
    simp only [Mirrors] at h
    obtain ⟨h1, ⟨ty0, nu, h2, h3, h4, h5⟩, h6, h7⟩ := h
    simp only [Describes]
    exact ⟨h1, scalarTypeOf_of (typeOf_of h2) h3 h4 h5, h6, hasTransform_of (parentPath_enclosing hl hp (by simp)) (enclosing_head _ _) h7⟩
  | .array p d tid none, l, raw, hl, hp, _, h => by simp only [Mirrors] at h
  | .array p d tid (some c), l, raw, hl, hp, hq, h => by
    simp only [Mirrors] at h
    obtain ⟨h1, ⟨nu, h2⟩, h3, h4, items, h5, h6⟩ := h
    simp only [Describes]
    refine ⟨h1, typeOf_of h2, h3, hasTransform_of (parentPath_enclosing hl hp (by simp)) (enclosing_head _ _) h4, items, h5, ?_⟩
    refine describes_of c (l ++ [.star]) items (by simp) ?_ (fun q hi => hq q (inst_trans (.items (.self raw) h5) hi)) (by rw [pathOf_snoc]; exact h6)
    intro x hx
    rcases List.mem_append.1 hx with hx | hx
    · exact hp x hx
    · simp only [List.mem_singleton] at hx; subst hx; trivial
  | .object p d tid cs, l, raw, hl, hp, hq, h => by
    simp only [Mirrors] at h
    obtain ⟨h1, ⟨nu, h2⟩, h3, h4, m, h5, h6, h7, h8, h9⟩ := h
    simp only [Describes]
    exact ⟨h1, typeOf_of h2, h3, hasTransform_of (parentPath_enclosing hl hp (by simp)) (enclosing_head _ _) h4, m, h5, h6, h7, h8,
      describesKids_of cs l m hp (fun k q hk => ⟨(hq raw (.self raw) m h5).2 _ hk, fun r hr => hq r (inst_trans (.prop (.self raw) h5 hk) hr)⟩) h9⟩
theorem describesKids_of {lib : Lib} {ident : Str} {s : St} : ∀ (cs : List (Str × T)) (l : List Seg) (m : List (Str × P)), (∀ x ∈ l, x.plain) →
    (∀ k q, (k, q) ∈ m → PlainName k ∧ ∀ r, Inst q r → PlainProps r) → MirrorsKids lib ident s cs (pathOf l) m → DescribesKids ident s cs l m
  | [], _, _, _, _, _ => by simp only [DescribesKids]
  | (k, t) :: r, l, m, hp, hm, h => by
    simp only [MirrorsKids] at h
    obtain ⟨⟨q, hk, h1⟩, h2⟩ := h
    simp only [DescribesKids]
    refine ⟨⟨q, hk, describes_of t (l ++ [.key k]) q (by simp) ?_ (hm k q hk).2 (by rw [pathOf_snoc]; exact h1)⟩, describesKids_of r l m hp hm h2⟩
    intro x hx
    rcases List.mem_append.1 hx with hx | hx
    · exact hp x hx
    · simp only [List.mem_singleton] at hx; subst hx; exact (hm k q hk).1
end

/-- **C24**, with an independent reading of the schema: a Transformer has one node per instance of the schema, at the same position, with the type, the default and the
transform (method, delimiter, instructions in order, their paths and operations with arguments) that the document gives. -/
theorem C24_reads {env : Env} {sc : Schema} {ident : Str} {t : T} {s0 : St} (hb : newTransformer env sc ident = .ok (t, s0)) (hpl : PlainSchema sc) :
    DescribesSchema ident s0 t sc := by
  rcases C24 hb hpl with ⟨m, cs, h1, h2, h3, h4, h5, h6⟩ | ⟨q, c, h1, h2, h3, h4⟩
  · refine .inl ⟨m, cs, h1, h2, h3, h4, h5, describesKids_of cs [] m (by simp) (fun k q hk => ⟨(hpl.1 m h1).2 _ hk, fun r hr => hpl.2 r (.inl ⟨m, k, q, h1, hk, hr⟩)⟩) h6⟩
  · exact .inr ⟨q, c, h1, h2, h3, describes_of c [.star] q (by simp) (by intro x hx; simp only [List.mem_singleton] at hx; subst hx; trivial)
      (fun r hr => hpl.2 r (.inr ⟨q, h2, hr⟩)) h4⟩

open Toy in
/-- The hypotheses of `C24_reads` are met by a schema with an array of objects, defaults and operations. -/
example : ∃ t s, newTransformer ⟨lib C03ex.docs, Sched.id, .json⟩ C03ex.sc g!"t" = .ok (t, s) ∧ PlainSchema C03ex.sc := by
  have h : (match newTransformer ⟨lib C03ex.docs, Sched.id, .json⟩ C03ex.sc g!"t" with | .ok _ => true | _ => false) = true := by decide +kernel
  split at h
  · rename_i r h1; exact ⟨r.1, r.2, h1, C03ex.simple.plain⟩
  · cases h

end JT
