import Verif.Props.C31
/- C17 (operation arguments), C47 (FieldType), C48 (type as a string or as an array). -/
namespace JT
open Spec

/-! ### C17 -/

namespace Spec
/-- Operations that take arguments, with the arguments they need. -/
def argTable : List (Str × List Str) :=
  [(g!"changeCase", [g!"to"]), (g!"currentTime", [g!"format"]), (g!"max", [g!"by", g!"return"]), (g!"replace", [g!"regex", g!"new"]),
   (g!"split", [g!"on"]), (g!"timeParse", [g!"format", g!"layout"]), (g!"toCamelCase", [g!"delimiter"])]

/-- Operations that take no arguments. -/
def noArgs : List Str := [g!"duration", g!"inverse", g!"removeHTML", g!"convertToFloat64", g!"convertToInt64", g!"convertToBool", g!"valueExists"]

/-- The operation exists and its arguments are exactly those it needs, with valid values.  (Operations without arguments ignore them.) -/
inductive ArgsOK (lib : Lib) (name : Str) (args : GMap Str) : Prop
  | none : name ∈ noArgs → ArgsOK lib name args
  | some {req : List Str} : (name, req) ∈ argTable → (∀ k, (GMap.get k args).isSome = true ↔ k ∈ req) →
      (name = g!"changeCase" → GMap.get g!"to" args = some g!"lower" ∨ GMap.get g!"to" args = some g!"upper") →
      (name = g!"replace" → ∀ re, GMap.get g!"regex" args = some re → lib.reValid re = true) → ArgsOK lib name args
end Spec

theorem length_eq_of_same {a b : List Str} (ha : a.Nodup) (hb : b.Nodup) (h : ∀ x, x ∈ a ↔ x ∈ b) : a.length = b.length := by
  have h1 : ∀ {a b : List Str}, a.Nodup → (∀ x ∈ a, x ∈ b) → a.length ≤ b.length := by
    intro a
    induction a with
    | nil => intro b _ _; simp
    | cons x a ih =>
      intro b hn hs
      simp only [List.nodup_cons] at hn
      have hx := hs x (by simp)
      have := ih (b := b.erase x) hn.2 fun y hy => by
        have hne : y ≠ x := by rintro rfl; exact hn.1 hy
        exact (List.mem_erase_of_ne hne).2 (hs y (by simp [hy]))
      have hl := List.length_erase_of_mem hx
      have : 0 < b.length := List.length_pos_of_mem hx
      simp only [List.length_cons]
      omega
  exact Nat.le_antisymm (h1 ha fun x hx => (h x).1 hx) (h1 hb fun x hx => (h x).2 hx)

theorem subset_of_length {a b : List Str} (ha : a.Nodup) (hs : ∀ x ∈ a, x ∈ b) (hl : b.length = a.length) : ∀ x ∈ b, x ∈ a := by
  induction a generalizing b with
  | nil => intro x hx; simp at hl; subst hl; simp at hx
  | cons y a ih =>
    intro x hx
    simp only [List.nodup_cons] at ha
    by_cases hxy : x = y
    · simp [hxy]
    · have hy := hs y (by simp)
      have hl' := List.length_erase_of_mem hy
      have := ih (b := b.erase y) ha.2 (fun z hz => by
        have hne : z ≠ y := by rintro rfl; exact ha.1 hz
        exact (List.mem_erase_of_ne hne).2 (hs z (by simp [hz]))) (by simp only [List.length_cons] at hl; omega) x
        ((List.mem_erase_of_ne hxy).2 hx)
      simp [this]

/-- `requiredArgs` accepts exactly the maps with the required keys. -/
theorem requiredArgs_iff {req : List Str} {args : GMap Str} (hn : (args.map Prod.fst).Nodup) (hr : req.Nodup) :
    requiredArgs req args = true ↔ ∀ k, (GMap.get k args).isSome = true ↔ k ∈ req := by
  have hk : ∀ k, (GMap.get k args).isSome = true ↔ k ∈ args.map Prod.fst := by
    intro k
    have := GMap.get_none_iff (k := k) (m := args)
    cases h : GMap.get k args with
    | none => simpa using this.1 h
    | some v => simp only [Option.isSome_some, true_iff]; exact Decidable.byContradiction fun hc => by rw [this.2 hc] at h; simp at h
  simp only [requiredArgs, Bool.and_eq_true, decide_eq_true_eq, List.all_eq_true]
  have hlen : args.length = (args.map Prod.fst).length := by simp
  constructor
  · rintro ⟨h1, h2⟩ k
    rw [hk]
    constructor
    · intro h
      exact subset_of_length hr (fun x hx => (hk x).1 (h2 x hx)) (by rw [← hlen, h1]) k h
    · intro h
      exact (hk k).1 (h2 k h)
  · intro h
    refine ⟨?_, fun x hx => (h x).2 hx⟩
    rw [hlen]
    exact length_eq_of_same hn hr fun x => by rw [← hk, h]

/-- An operation can be initialised iff it exists and its arguments are right. -/
theorem initOp_iff {lib : Lib} {name : Str} {args : GMap Str} (hn : (args.map Prod.fst).Nodup) :
    (∃ op, initOp lib name args = some op) ↔ ArgsOK lib name args := by
  have r1 : ∀ x : Str, requiredArgs [x] args = true ↔ ∀ k, (GMap.get k args).isSome = true ↔ k ∈ [x] := fun x => requiredArgs_iff hn (by simp)
  have r2 : ∀ {x y : Str}, x ≠ y → (requiredArgs [x, y] args = true ↔ ∀ k, (GMap.get k args).isSome = true ↔ k ∈ [x, y]) :=
    fun h => requiredArgs_iff hn (by simp [h])
  constructor
  · rintro ⟨op, h⟩
    unfold initOp at h
    by_cases h1 : name = g!"changeCase"
    · rw [if_pos h1] at h
      split at h
      · rename_i hr
        have ha := (r1 _).1 hr
        refine .some (req := [g!"to"]) (by simp [argTable, h1]) ha ?_ (by intro h2; rw [h1] at h2; simp at h2)
        intro _
        have hto := (ha g!"to").2 (by simp)
        cases hg : GMap.get g!"to" args with
        | none => rw [hg] at hto; simp at hto
        | some v =>
          simp only [argOf, hg, Option.getD_some] at h
          split at h
          · rename_i hv; exact Or.inl (by rw [hv])
          · split at h
            · rename_i hv; exact Or.inr (by rw [hv])
            · contradiction
      · contradiction
    rw [if_neg h1] at h
    by_cases h2 : name = g!"currentTime"
    · rw [if_pos h2] at h
      split at h
      · rename_i hr
        exact .some (by simp [argTable, h2]) ((r1 _).1 hr) (fun e => absurd e h1) (by intro e; rw [h2] at e; simp at e)
      · contradiction
    rw [if_neg h2] at h
    by_cases h3 : name = g!"duration"
    · exact .none (by simp [noArgs, h3])
    rw [if_neg h3] at h
    by_cases h4 : name = g!"inverse"
    · exact .none (by simp [noArgs, h4])
    rw [if_neg h4] at h
    by_cases h5 : name = g!"max"
    · rw [if_pos h5] at h
      split at h
      · rename_i hr
        exact .some (by simp [argTable, h5]) ((r2 (by decide)).1 hr) (fun e => absurd e h1) (by intro e; rw [h5] at e; simp at e)
      · contradiction
    rw [if_neg h5] at h
    by_cases h6 : name = g!"replace"
    · rw [if_pos h6] at h
      split at h
      · rename_i hr
        refine .some (by simp [argTable, h6]) ((r2 (by decide)).1 hr) (fun e => absurd e h1) ?_
        intro _ re hre
        simp only [argOf, hre, Option.getD_some] at h
        split at h
        · rename_i hv; exact hv
        · contradiction
      · contradiction
    rw [if_neg h6] at h
    by_cases h7 : name = g!"split"
    · rw [if_pos h7] at h
      split at h
      · rename_i hr
        exact .some (by simp [argTable, h7]) ((r1 _).1 hr) (fun e => absurd e h1) (fun e => absurd e h6)
      · contradiction
    rw [if_neg h7] at h
    by_cases h8 : name = g!"timeParse"
    · rw [if_pos h8] at h
      split at h
      · rename_i hr
        exact .some (by simp [argTable, h8]) ((r2 (by decide)).1 hr) (fun e => absurd e h1) (fun e => absurd e h6)
      · contradiction
    rw [if_neg h8] at h
    by_cases h9 : name = g!"toCamelCase"
    · rw [if_pos h9] at h
      split at h
      · rename_i hr
        exact .some (by simp [argTable, h9]) ((r1 _).1 hr) (fun e => absurd e h1) (fun e => absurd e h6)
      · contradiction
    rw [if_neg h9] at h
    refine .none ?_
    simp only [noArgs, List.mem_cons]
    by_cases h10 : name = g!"removeHTML"
    · simp [h10]
    rw [if_neg h10] at h
    by_cases h11 : name = g!"convertToFloat64"
    · simp [h11]
    rw [if_neg h11] at h
    by_cases h12 : name = g!"convertToInt64"
    · simp [h12]
    rw [if_neg h12] at h
    by_cases h13 : name = g!"convertToBool"
    · simp [h13]
    rw [if_neg h13] at h
    by_cases h14 : name = g!"valueExists"
    · simp [h14]
    rw [if_neg h14] at h
    contradiction
  · intro h
    cases h with
    | none hm =>
      simp only [noArgs, List.mem_cons, List.not_mem_nil, or_false] at hm
      rcases hm with rfl | rfl | rfl | rfl | rfl | rfl | rfl <;> exact ⟨_, rfl⟩
    | some hm ha hc hre =>
      simp only [argTable, List.mem_cons, Prod.mk.injEq, List.not_mem_nil, or_false] at hm
      rcases hm with ⟨rfl, rfl⟩ | ⟨rfl, rfl⟩ | ⟨rfl, rfl⟩ | ⟨rfl, rfl⟩ | ⟨rfl, rfl⟩ | ⟨rfl, rfl⟩ | ⟨rfl, rfl⟩
      · have hr := (r1 _).2 ha
        unfold initOp
        rw [if_pos rfl, if_pos hr]
        rcases hc rfl with h | h
        · exact ⟨.changeCase false, by simp [argOf, h]⟩
        · exact ⟨.changeCase true, by simp [argOf, h]⟩
      · have hr := (r1 _).2 ha
        exact ⟨.currentTime (argOf args g!"format"), by unfold initOp; rw [if_neg (by decide), if_pos rfl, if_pos hr]⟩
      · have hr := (r2 (by decide)).2 ha
        exact ⟨.max (argOf args g!"by") (argOf args g!"return"), by
          unfold initOp; rw [if_neg (by decide), if_neg (by decide), if_neg (by decide), if_neg (by decide), if_pos rfl, if_pos hr]⟩
      · have hr := (r2 (by decide)).2 ha
        have hs := (ha g!"regex").2 (by simp)
        obtain ⟨re, hg⟩ := Option.isSome_iff_exists.1 hs
        have hv := hre rfl re hg
        refine ⟨.replace re (argOf args g!"new"), ?_⟩
        unfold initOp
        rw [if_neg (by decide), if_neg (by decide), if_neg (by decide), if_neg (by decide), if_neg (by decide), if_pos rfl, if_pos hr]
        simp [argOf, hg, hv]
      · have hr := (r1 _).2 ha
        exact ⟨.split (argOf args g!"on"), by
          unfold initOp
          rw [if_neg (by decide), if_neg (by decide), if_neg (by decide), if_neg (by decide), if_neg (by decide), if_neg (by decide), if_pos rfl, if_pos hr]⟩
      · have hr := (r2 (by decide)).2 ha
        exact ⟨.timeParse (argOf args g!"format") (argOf args g!"layout"), by
          unfold initOp
          rw [if_neg (by decide), if_neg (by decide), if_neg (by decide), if_neg (by decide), if_neg (by decide), if_neg (by decide), if_neg (by decide),
            if_pos rfl, if_pos hr]⟩
      · have hr := (r1 _).2 ha
        exact ⟨.toCamelCase (argOf args g!"delimiter"), by
          unfold initOp
          rw [if_neg (by decide), if_neg (by decide), if_neg (by decide), if_neg (by decide), if_neg (by decide), if_neg (by decide), if_neg (by decide),
            if_neg (by decide), if_pos rfl, if_pos hr]⟩

/-! #### At the level of schemas -/

theorem foldRes_each {σ β : Type} {f : β → σ → Res σ} : ∀ {l : List β} {s s' : σ}, foldRes f l s = .ok s' → ∀ x ∈ l, ∃ t t', f x t = .ok t'
  | [], _, _, _, x, hx => by simp at hx
  | y :: l, s, s', h, x, hx => by
    simp only [foldRes] at h
    split at h
    · rename_i s1 h1
      rcases List.mem_cons.1 hx with rfl | hx
      · exact ⟨s, s1, h1⟩
      · exact foldRes_each h x hx
    · contradiction
    · contradiction

theorem walkRaw_each {σ : Type} {fn : Str → P → σ → Res σ} {raw q : P} {l : List Seg} (hat : At rawNode raw l q) :
    ∀ {n : Nat} {path : Str} {s s' : σ}, walkRaw fn n raw path s = .ok s' → ∃ path t t', fn path q t = .ok t' := by
  induction hat with
  | @here raw =>
    intro n path s s' h
    cases n with
    | zero => simp [walkRaw] at h
    | succ n =>
      simp only [walkRaw] at h
      split at h
      · contradiction
      · contradiction
      · rename_i s1 h1; exact ⟨path, s, s1, h1⟩
  | @prop raw q r m k l h1 h2 _ ih =>
    intro n path s s' h
    cases n with
    | zero => simp [walkRaw] at h
    | succ n =>
      simp only [walkRaw] at h
      split at h
      · contradiction
      · contradiction
      · have hp := rawNode_object h1
        unfold rawNode at h1
        split at h
        · contradiction
        · contradiction
        · rename_i ty nu hf
          rw [hf] at h1
          simp only at h1
          by_cases ho : ty = g!"object"
          · rw [if_pos ho, hp] at h
            obtain ⟨t, t', ht⟩ := foldRes_each h (k, q) h2
            exact ih ht
          · rw [if_neg ho] at h1
            split at h1
            · simp only [Option.map_eq_some_iff] at h1; obtain ⟨_, _, h1⟩ := h1; contradiction
            · simp at h1
  | @item raw q r l h1 _ ih =>
    intro n path s s' h
    cases n with
    | zero => simp [walkRaw] at h
    | succ n =>
      simp only [walkRaw] at h
      split at h
      · contradiction
      · contradiction
      · have hp := rawNode_array h1
        unfold rawNode at h1
        split at h
        · contradiction
        · contradiction
        · rename_i ty nu hf
          rw [hf] at h1
          simp only at h1
          by_cases ho : ty = g!"object"
          · rw [if_pos ho] at h1
            split at h1 <;> simp at h1
          · rw [if_neg ho] at h1 h
            by_cases ha : ty = g!"array"
            · rw [if_pos ha, hp] at h
              exact ih h
            · rw [if_neg ha] at h1; simp at h1

theorem walkRawSchema_each {σ : Type} {fn : Str → P → σ → Res σ} {sched : Sched} {tick : Nat} {sc : Schema} {q : P} {l : List Seg} {s s' : σ}
    (hat : SchemaAt rawNode sc l q) (h : walkRawSchema sched tick fn sc s = .ok s') : ∃ path t t', fn path q t = .ok t' := by
  unfold walkRawSchema at h
  split at h
  · contradiction
  · contradiction
  · rename_i s1 h1
    cases hat with
    | @prop m q0 _ k l hp hm ha =>
      rw [hp] at h1
      obtain ⟨t, t', ht⟩ := foldRes_each h1 (k, q0) ((sched.isPerm tick _ _).mem_iff.2 hm)
      exact walkRaw_each ha ht
    | item hi ha =>
      rw [hi] at h
      exact walkRaw_each ha h

namespace Spec
/-- `op` is an operation in the transform of an instance for an identifier. -/
def OpOf (ident : Str) (q op : P) : Prop :=
  ∃ tr fr instr ops, (q.key g!"transform").bind (P.key ident) = some tr ∧ tr.key g!"from" = some (.arr fr) ∧ instr ∈ fr ∧
    instr.key g!"operations" = some (.arr ops) ∧ op ∈ ops
end Spec

theorem mapRes_each {α β : Type} {f : α → Res β} : ∀ {l : List α} {l' : List β}, mapRes f l = .ok l' → ∀ x ∈ l, ∃ y, f x = .ok y
  | [], _, _, x, hx => by simp at hx
  | z :: l, l', h, x, hx => by
    simp only [mapRes, Res.bind_eq_ok, Res.pure_eq_ok] at h
    obtain ⟨y, hy, ys, hys, _⟩ := h
    rcases List.mem_cons.1 hx with rfl | hx
    · exact ⟨y, hy⟩
    · exact mapRes_each hys x hx

theorem parseArgs_nodup {o : Option P} {args : GMap Str} (h : parseArgs o = .ok args) : (args.map Prod.fst).Nodup := by
  unfold parseArgs at h
  split at h
  · simp at h; subst h; simp
  · simp at h; subst h; simp
  · simp only [Res.bind_eq_ok, Res.pure_eq_ok] at h
    obtain ⟨l, _, rfl⟩ := h
    exact (GMap.sorted_ofList l).nodup
  · contradiction

theorem extractInstrs_ops {lib : Lib} {q op : P} {ident path : Str} {kind : Kind} {o : Option Instrs}
    (h : extractInstrs lib q ident path kind = .ok o) (hop : OpOf ident q op) : ∃ op', parseOp lib op = .ok op' := by
  obtain ⟨tr, fr, instr, ops, h1, h2, h3, h4, h5⟩ := hop
  unfold extractInstrs at h
  rw [h1] at h
  split at h
  · contradiction
  · rename_i he
    simp only [Option.some.injEq] at he
    subst he
    simp [P.key] at h2
  · rename_i p _ he
    simp only [Option.some.injEq] at he
    subst he
    simp only [Res.bind_eq_ok, Res.pure_eq_ok] at h
    obtain ⟨tis, ht, _⟩ := h
    unfold parseInstrs at ht
    simp only [Res.bind_eq_ok, Res.pure_eq_ok] at ht
    obtain ⟨q', hq', fromJ, hfj, fr', hfr, _⟩ := ht
    rw [asStruct_key hq', h2] at hfj
    simp only [asList, Res.ok.injEq] at hfj
    subst hfj
    obtain ⟨y, hy⟩ := mapRes_each hfr instr h3
    unfold parseInstr at hy
    split at hy
    · contradiction
    · simp only [Res.bind_eq_ok, Res.pure_eq_ok] at hy
      obtain ⟨p', hp', _, _, _, _, opsJ, hoj, ops', hops, _⟩ := hy
      rw [asStruct_key hp', h4] at hoj
      simp only [asList, Res.ok.injEq] at hoj
      subst hoj
      exact mapRes_each hops op h5

theorem newInstance_extract {lib : Lib} {ident path : Str} {q : P} {s s' : St} {t : T} (h : newInstance lib ident path q s = (.ok t, s')) :
    ∃ kind o, extractInstrs lib q ident path kind = .ok o := by
  have hlift : ∀ {α : Type} {x : Res α} {f : α → M T} {s : St} {s' : St} {t : T}, (M.lift x >>= f) s = (.ok t, s') → ∃ a, x = .ok a ∧ f a s = (.ok t, s') := by
    intro α x f s s' t h
    rw [M.bind_apply] at h
    cases x with
    | ok a => exact ⟨a, rfl, h⟩
    | err => simp [M.lift] at h
    | panic => simp [M.lift] at h
  have hsc : ∀ {ty : Str}, newScalar lib path ident q ty s = (.ok t, s') → ∃ kind o, extractInstrs lib q ident path kind = .ok o := by
    intro ty h
    unfold newScalar at h
    obtain ⟨_, _, h⟩ := hlift h
    obtain ⟨o, ho, _⟩ := hlift h
    exact ⟨_, o, ho⟩
  unfold newInstance at h
  obtain ⟨⟨ty, nu⟩, hf, h⟩ := hlift h
  by_cases ho : ty = g!"object"
  · simp only [ho, if_true] at h
    match hp : q.key g!"properties" with
    | none => rw [hp] at h; simp [M.fail] at h
    | some (.obj []) => rw [hp] at h; exact hsc h
    | some (.obj (x :: l)) =>
      rw [hp] at h
      unfold newObject at h
      obtain ⟨o, ho, _⟩ := hlift h
      exact ⟨_, o, ho⟩
    | some (.arr l) =>
      rw [hp] at h
      unfold newObject at h
      obtain ⟨o, ho, _⟩ := hlift h
      exact ⟨_, o, ho⟩
    | some (.sc l) =>
      rw [hp] at h
      unfold newObject at h
      obtain ⟨o, ho, _⟩ := hlift h
      exact ⟨_, o, ho⟩
  · simp only [if_neg ho] at h
    by_cases ha : ty = g!"array"
    · simp only [if_pos ha] at h
      unfold newArray at h
      obtain ⟨o, ho, _⟩ := hlift h
      exact ⟨_, o, ho⟩
    · simp only [if_neg ha] at h
      exact hsc h

/-- **C17**: if a Transformer can be created, then every operation in the transforms of all instances exists and has exactly the arguments it
needs, with valid values; and an operation with the right arguments is never rejected (`initOp_iff`). -/
theorem C17 {env : Env} {sc : Schema} {ident : Str} {t : T} {s0 : St} (hb : newTransformer env sc ident = .ok (t, s0))
    {l : List Seg} {q op : P} (hq : SchemaAt rawNode sc l q) (hop : OpOf ident q op) :
    ∃ name args, asString (op.key g!"type") = .ok name ∧ parseArgs (op.key g!"args") = .ok args ∧ ArgsOK env.lib name args := by
  unfold newTransformer at hb
  simp only at hb
  split at hb
  · contradiction
  · rw [Res.map_eq_ok] at hb
    obtain ⟨st, hw, _⟩ := hb
    obtain ⟨path, u, u', hfn⟩ := walkRawSchema_each hq hw
    unfold walker at hfn
    split at hfn
    · contradiction
    · contradiction
    · rename_i node s1 hni
      obtain ⟨kind, o, hx⟩ := newInstance_extract hni
      obtain ⟨op', hp⟩ := extractInstrs_ops hx hop
      unfold parseOp at hp
      simp only [Res.bind_eq_ok] at hp
      obtain ⟨p', hp', name, hname, args, hargs, hi⟩ := hp
      rw [asStruct_key hp'] at hname hargs
      refine ⟨name, args, hname, hargs, (initOp_iff (parseArgs_nodup hargs)).1 ?_⟩
      split at hi
      · rename_i op hop; exact ⟨op, hop⟩
      · contradiction

namespace C17ex
open Toy
example : ArgsOK (Toy.lib []) g!"max" [(g!"by", g!"@.n"), (g!"return", g!"@.s")] := (initOp_iff (by decide)).1 ⟨_, rfl⟩
example : ¬ ArgsOK (Toy.lib []) g!"max" [(g!"by", g!"@.n")] := fun h => by
  obtain ⟨op, h⟩ := (initOp_iff (by decide)).2 h
  exact absurd h (by simp [initOp, requiredArgs])
def op : P := o [(g!"type", s g!"split"), (g!"args", o [(g!"on", s g!",")])]
def q : P := o [(g!"type", s g!"string"), (g!"transform", o [(g!"t", o [(g!"from", a [o [(g!"jsonPath", s g!"$.x"), (g!"operations", a [op])]])])])]
example : OpOf g!"t" q op := ⟨_, _, _, _, rfl, rfl, List.mem_singleton.2 rfl, rfl, List.mem_singleton.2 rfl⟩
example : ∃ t s0, newTransformer (Toy.env []) ⟨some [(g!"a", q)], none⟩ g!"t" = .ok (t, s0) := ⟨_, _, rfl⟩
end C17ex

/-! ### C47 -/

namespace Spec
/-- The names in a list of types, other than `null`; entries that are not strings are skipped. -/
def nonNull (l : List P) : List Str := l.filterMap fun p => match p with
  | .sc (.str t) => if t = g!"null" then none else some t
  | _ => none

/-- What the type of an instance is: a name, or a list with at most one name other than `null`. -/
inductive HasType (data : P) : Str → Bool → Prop
  | name {t : Str} : data.key g!"type" = some (.sc (.str t)) → HasType data t false
  | list {l : List P} {t : Str} {nu : Bool} : data.key g!"type" = some (.arr l) → (nu = true ↔ P.sc (.str g!"null") ∈ l) →
      (nonNull l = [t] ∨ nonNull l = [] ∧ t = []) → HasType data t nu
end Spec

theorem typeFold_second : ∀ (l : List P) (t0 : Str) (nu : Bool), (l.foldl typeStep (t0, nu, true)).2.2 = true
  | [], _, _ => rfl
  | p :: l, t0, nu => by
    simp only [List.foldl_cons, typeStep]
    split
    · split
      · exact typeFold_second l _ _
      · exact typeFold_second l _ _
    · exact typeFold_second l _ _

theorem typeFold_single : ∀ (l : List P) (t0 : Str) (nu : Bool), t0 ≠ [] → (∀ t ∈ nonNull l, t ≠ []) →
    (nonNull l = [] → ∃ nu', l.foldl typeStep (t0, nu, false) = (t0, nu', false) ∧ (nu' = true ↔ nu = true ∨ P.sc (.str g!"null") ∈ l)) ∧
    (nonNull l ≠ [] → (l.foldl typeStep (t0, nu, false)).2.2 = true)
  | [], t0, nu, _, _ => ⟨fun _ => ⟨nu, rfl, by simp⟩, fun h => absurd rfl h⟩
  | p :: l, t0, nu, h0, hl => by
    have skip : nonNull (p :: l) = nonNull l → typeStep (t0, nu, false) p = (t0, nu, false) → p ≠ P.sc (.str g!"null") → _ := fun e1 e2 e3 => by
      have ih := typeFold_single l t0 nu h0 (by rw [← e1]; exact hl)
      refine (⟨?_, ?_⟩ : (nonNull (p :: l) = [] → ∃ nu', (p :: l).foldl typeStep (t0, nu, false) = (t0, nu', false) ∧
        (nu' = true ↔ nu = true ∨ P.sc (.str g!"null") ∈ p :: l)) ∧ (nonNull (p :: l) ≠ [] → ((p :: l).foldl typeStep (t0, nu, false)).2.2 = true))
      · intro h
        obtain ⟨nu', h1, h2⟩ := ih.1 (e1 ▸ h)
        refine ⟨nu', by rw [List.foldl_cons, e2, h1], ?_⟩
        rw [h2, List.mem_cons]
        simp [Ne.symm e3]
      · intro h
        rw [List.foldl_cons, e2]
        exact ih.2 (e1 ▸ h)
    match p with
    | .arr _ => exact skip rfl rfl (by simp)
    | .obj _ => exact skip rfl rfl (by simp)
    | .sc .nil => exact skip rfl rfl (by simp)
    | .sc (.bool _) => exact skip rfl rfl (by simp)
    | .sc (.int _) => exact skip rfl rfl (by simp)
    | .sc (.i64 _) => exact skip rfl rfl (by simp)
    | .sc (.f64 _) => exact skip rfl rfl (by simp)
    | .sc (.node _) => exact skip rfl rfl (by simp)
    | .sc (.nodes _) => exact skip rfl rfl (by simp)
    | .sc (.time _) => exact skip rfl rfl (by simp)
    | .sc (.str t) =>
      by_cases ht : t = g!"null"
      · have e1 : nonNull (.sc (.str t) :: l) = nonNull l := by simp [nonNull, ht]
        have ih := typeFold_single l t0 true h0 (by rw [← e1]; exact hl)
        have e2 : typeStep (t0, nu, false) (.sc (.str t)) = (t0, true, false) := by simp [typeStep, ht]
        rw [e1, List.foldl_cons, e2]
        refine ⟨fun h => ?_, ih.2⟩
        obtain ⟨nu', h1, h2⟩ := ih.1 h
        refine ⟨nu', h1, ?_⟩
        rw [h2]
        simp [ht]
      · have e1 : nonNull (.sc (.str t) :: l) = t :: nonNull l := by simp [nonNull, ht]
        refine ⟨fun h => by rw [e1] at h; simp at h, fun _ => ?_⟩
        rw [List.foldl_cons]
        have e2 : typeStep (t0, nu, false) (.sc (.str t)) = (t, nu, true) := by simp [typeStep, ht, h0]
        rw [e2]
        exact typeFold_second l _ _

theorem typeFold_zero : ∀ (l : List P) (nu : Bool), (∀ t ∈ nonNull l, t ≠ []) → ∀ t nu',
    l.foldl typeStep ([], nu, false) = (t, nu', false) ↔
      (nu' = true ↔ nu = true ∨ P.sc (.str g!"null") ∈ l) ∧ (nonNull l = [t] ∨ nonNull l = [] ∧ t = [])
  | [], nu, _, t, nu' => by
    simp only [List.foldl_nil, nonNull, List.filterMap_nil, List.not_mem_nil, or_false, Prod.mk.injEq, and_true, true_and]
    constructor
    · rintro ⟨rfl, rfl⟩; simp
    · rintro ⟨h1, h2⟩
      simp at h2
      exact ⟨h2.symm, by cases nu <;> cases nu' <;> simp_all⟩
  | p :: l, nu, hl, t, nu' => by
    have skip : nonNull (p :: l) = nonNull l → typeStep ([], nu, false) p = ([], nu, false) → p ≠ P.sc (.str g!"null") →
        ((p :: l).foldl typeStep ([], nu, false) = (t, nu', false) ↔
      (nu' = true ↔ nu = true ∨ P.sc (.str g!"null") ∈ p :: l) ∧ (nonNull (p :: l) = [t] ∨ nonNull (p :: l) = [] ∧ t = [])) := fun e1 e2 e3 => by
      rw [List.foldl_cons, e2, e1, typeFold_zero l nu (by rw [← e1]; exact hl) t nu', List.mem_cons]
      simp [Ne.symm e3]
    match p with
    | .arr _ => exact skip rfl rfl (by simp)
    | .obj _ => exact skip rfl rfl (by simp)
    | .sc .nil => exact skip rfl rfl (by simp)
    | .sc (.bool _) => exact skip rfl rfl (by simp)
    | .sc (.int _) => exact skip rfl rfl (by simp)
    | .sc (.i64 _) => exact skip rfl rfl (by simp)
    | .sc (.f64 _) => exact skip rfl rfl (by simp)
    | .sc (.node _) => exact skip rfl rfl (by simp)
    | .sc (.nodes _) => exact skip rfl rfl (by simp)
    | .sc (.time _) => exact skip rfl rfl (by simp)
    | .sc (.str ty) =>
      by_cases ht : ty = g!"null"
      · have e1 : nonNull (.sc (.str ty) :: l) = nonNull l := by simp [nonNull, ht]
        have e2 : typeStep ([], nu, false) (.sc (.str ty)) = ([], true, false) := by simp [typeStep, ht]
        rw [List.foldl_cons, e2, e1, typeFold_zero l true (by rw [← e1]; exact hl) t nu']
        simp [ht]
      · have e1 : nonNull (.sc (.str ty) :: l) = ty :: nonNull l := by simp [nonNull, ht]
        have e2 : typeStep ([], nu, false) (.sc (.str ty)) = (ty, nu, false) := by simp [typeStep, ht]
        have hne : ty ≠ [] := hl ty (by rw [e1]; simp)
        have ih := typeFold_single l ty nu hne (fun t h => hl t (by rw [e1]; simp [h]))
        rw [List.foldl_cons, e2, e1]
        have hm : P.sc (.str g!"null") ∈ (P.sc (.str ty) :: l) ↔ P.sc (.str g!"null") ∈ l := by simp [Ne.symm ht]
        rw [hm]
        by_cases hn : nonNull l = []
        · obtain ⟨nu2, h1, h2⟩ := ih.1 hn
          rw [h1, hn, ← h2]
          simp only [Prod.mk.injEq, and_true, List.cons.injEq, List.cons_ne_nil, false_and, or_false]
          constructor
          · rintro ⟨rfl, rfl⟩; simp
          · rintro ⟨h3, rfl⟩; exact ⟨rfl, by cases nu2 <;> cases nu' <;> simp_all⟩
        · have h1 := ih.2 hn
          constructor
          · intro h; rw [h] at h1; simp at h1
          · rintro ⟨_, h⟩; simp [hn] at h

/-- **C47**: `FieldType` succeeds exactly when the type is one name, or a list with at most one name besides `null`; it returns that name (none
if there is only `null`) and whether `null` is listed.  Names must not be empty (`C47_refuted`). -/
theorem C47_partial {data : P} (hne : ∀ l, data.key g!"type" = some (.arr l) → ∀ t ∈ nonNull l, t ≠ []) (t : Str) (nu : Bool) :
    fieldType data = .ok (t, nu) ↔ HasType data t nu := by
  unfold fieldType
  constructor
  · intro h
    split at h
    · rename_i t' hk
      simp only [Res.ok.injEq, Prod.mk.injEq] at h
      obtain ⟨rfl, rfl⟩ := h
      exact .name hk
    · rename_i l hk
      split at h
      · rename_i t' nu' he
        simp only [Res.ok.injEq, Prod.mk.injEq] at h
        obtain ⟨rfl, rfl⟩ := h
        obtain ⟨h1, h2⟩ := (typeFold_zero l false (hne l hk) _ _).1 he
        exact .list hk (by simpa using h1) h2
      · contradiction
    · contradiction
  · intro h
    cases h with
    | name hk => rw [hk]
    | @list l _ _ hk hn ht =>
      rw [hk]
      simp only
      rw [(typeFold_zero l false (hne l hk) t nu).2 ⟨by simpa using hn, ht⟩]

/-- `FieldType` never panics. -/
theorem C47_total (data : P) : fieldType data ≠ .panic := by
  unfold fieldType
  split
  · simp
  · split <;> simp
  · simp

example : HasType (Toy.o [(g!"type", Toy.a [Toy.s g!"null", Toy.s g!"string"])]) g!"string" true :=
  .list rfl (by simp [Toy.s]) (Or.inl rfl)

/-! ### C48 -/

theorem mapRes_congr {α β : Type} {f g : α → Res β} : ∀ {l : List α}, (∀ x ∈ l, f x = g x) → mapRes f l = mapRes g l
  | [], _ => rfl
  | x :: l, h => by
    simp only [mapRes]
    rw [h x (by simp), mapRes_congr fun y hy => h y (by simp [hy])]

theorem asList_depth {o : Option P} {l : List P} (h : asList o = .ok l) : ∀ x ∈ l, ∃ p, o = some p ∧ x.depth < p.depth := by
  intro x hx
  unfold asList at h
  split at h
  · simp at h; subst h; simp at hx
  · simp at h; subst h; simp at hx
  · rename_i l' ; simp at h; subst h
    refine ⟨_, rfl, ?_⟩
    have := depthList_mem hx
    simp only [P.depth]
    omega
  · contradiction

theorem Res.ok_bind {α β : Type} (a : α) (f : α → Res β) : (Res.ok a >>= f) = f a := rfl

theorem Res.bind_congr {α β : Type} {x : Res α} {f g : α → Res β} (h : ∀ a, x = .ok a → f a = g a) : (x >>= f) = (x >>= g) := by
  cases x with
  | ok a => exact h a rfl
  | err => rfl
  | panic => rfl

/-- Decoding does not depend on the fuel, if there is enough. -/
theorem decodeInst_fuel : ∀ (n m : Nat) (ap : Bool) (p : P), p.depth < n → p.depth < m → decodeInst n ap p = decodeInst m ap p
  | 0, _, _, _, h, _ => by omega
  | _ + 1, 0, _, _, _, h => by omega
  | n + 1, m + 1, ap, p, hn, hm => by
    have hsub : ∀ {p' : P}, asStruct p = .ok p' → ∀ {k : Str} {l : List P}, asList (p'.key k) = .ok l →
        mapRes (decodeInst n false) l = mapRes (decodeInst m false) l := by
      intro p' hp k l h
      refine mapRes_congr fun x hx => ?_
      obtain ⟨y, h1, h2⟩ := asList_depth h x hx
      rw [asStruct_key hp] at h1
      have := key_depth h1
      exact decodeInst_fuel n m false x (by omega) (by omega)
    simp only [decodeInst]
    refine Res.bind_congr fun p' hp => Res.bind_congr fun _ _ => Res.bind_congr fun j1 h1 => ?_
    rw [hsub hp h1]
    refine Res.bind_congr fun _ _ => Res.bind_congr fun j2 h2 => ?_
    rw [hsub hp h2]
    refine Res.bind_congr fun _ _ => Res.bind_congr fun _ _ => Res.bind_congr fun _ _ => Res.bind_congr fun _ _ => Res.bind_congr fun _ _ =>
      Res.bind_congr fun _ _ => Res.bind_congr fun j3 h3 => ?_
    rw [hsub hp h3]

theorem key_other {a b : List (Str × P)} {x y : P} {k k' : Str} (h : k ≠ k') :
    (P.obj (a ++ (k', x) :: b)).key k = (P.obj (a ++ (k', y) :: b)).key k := by
  simp only [P.key]
  induction a with
  | nil => simp [GMap.get, h]
  | cons c a ih =>
    obtain ⟨k1, v1⟩ := c
    simp only [List.cons_append, GMap.get]
    rw [ih]

theorem key_at {a b : List (Str × P)} {x : P} {k : Str} (h : k ∉ a.map Prod.fst) : (P.obj (a ++ (k, x) :: b)).key k = some x := by
  simp only [P.key]
  induction a with
  | nil => simp [GMap.get]
  | cons c a ih =>
    obtain ⟨k1, v1⟩ := c
    simp only [List.map_cons, List.mem_cons, not_or] at h
    simp only [List.cons_append, GMap.get]
    rw [if_neg h.1, ih h.2]

/-- **C48**: an instance whose type is the string `t` is read as the one whose type is the list `[t]`; all else in the instance is arbitrary. -/
theorem C48 (ap : Bool) {a b : List (Str × P)} {t : Str} (ha : g!"type" ∉ a.map Prod.fst) :
    decodeInstance ap (.obj (a ++ (g!"type", .sc (.str t)) :: b)) = decodeInstance ap (.obj (a ++ (g!"type", .arr [.sc (.str t)]) :: b)) := by
  unfold decodeInstance
  generalize hx : P.obj (a ++ (g!"type", .sc (.str t)) :: b) = x
  generalize hy : P.obj (a ++ (g!"type", .arr [.sc (.str t)]) :: b) = y
  rw [decodeInst_fuel (x.depth + 1) (x.depth + y.depth + 1) ap x (by omega) (by omega), decodeInst_fuel (y.depth + 1) (x.depth + y.depth + 1) ap y (by omega) (by omega)]
  have sx : asStruct x = .ok x := by rw [← hx]; rfl
  have sy : asStruct y = .ok y := by rw [← hy]; rfl
  have hk : ∀ k, k ≠ g!"type" → x.key k = y.key k := fun k h => by rw [← hx, ← hy]; exact key_other h
  have hxt : x.key g!"type" = some (.sc (.str t)) := by rw [← hx]; exact key_at ha
  have hyt : y.key g!"type" = some (.arr [.sc (.str t)]) := by rw [← hy]; exact key_at ha
  simp only [decodeInst]
  rw [sx, sy]
  simp only [Res.ok_bind, hk g!"additionalProperties" (by decide), hk g!"allOf" (by decide), hk g!"anyOf" (by decide), hk g!"description" (by decide),
    hk g!"embed" (by decide), hk g!"format" (by decide), hk g!"fromRef" (by decide), hk g!"graphql-arguments" (by decide), hk g!"oneOf" (by decide),
    hk g!"properties" (by decide), hk g!"$ref" (by decide), hk g!"required" (by decide), hk g!"$schema" (by decide), hk g!"target" (by decide),
    hk g!"definitions" (by decide), hk g!"items" (by decide), hxt, hyt, typeField]

example : decodeInstance false (Toy.o [(g!"format", Toy.s g!"date-time"), (g!"type", Toy.s g!"string")]) =
    decodeInstance false (Toy.o [(g!"format", Toy.s g!"date-time"), (g!"type", Toy.a [Toy.s g!"string"])]) :=
  C48 false (a := [(g!"format", Toy.s g!"date-time")]) (b := []) (by decide)

end JT
