import Verif.Props.C31
/- All positions of a schema as a list, to check conditions on concrete schemas by evaluation. -/
namespace JT.Spec

/-- The positions below an instance; the fuel bounds the depth. -/
def allAt (view : P → Option Node) : Nat → P → List (List Seg × P)
  | 0, _ => []
  | n + 1, raw => ([], raw) :: match view raw with
    | some (.object m) => m.flatMap fun kv => (allAt view n kv.2).map fun x => (.key kv.1 :: x.1, x.2)
    | some (.array q) => (allAt view n q).map fun x => (.star :: x.1, x.2)
    | _ => []

theorem mem_allAt {view : P → Option Node} (hsh : Shrinks view) {raw q : P} {l : List Seg} (h : At view raw l q) : ∀ n, raw.depth < n → (l, q) ∈ allAt view n raw := by
  induction h with
  | here => intro n hn; obtain ⟨n', rfl⟩ := Nat.exists_eq_succ_of_ne_zero (show n ≠ 0 by omega); simp [allAt]
  | @prop raw q r m k l h1 h2 _ ih =>
    intro n hn
    obtain ⟨n', rfl⟩ := Nat.exists_eq_succ_of_ne_zero (show n ≠ 0 by omega)
    have := hsh.1 raw m h1 (k, q) h2
    simp only [allAt, h1, List.mem_cons, List.mem_flatMap, List.mem_map]
    exact Or.inr ⟨(k, q), h2, (l, r), ih n' (by simp only at this; omega), rfl⟩
  | @item raw q r l h1 _ ih =>
    intro n hn
    obtain ⟨n', rfl⟩ := Nat.exists_eq_succ_of_ne_zero (show n ≠ 0 by omega)
    have := hsh.2 raw q h1
    simp only [allAt, h1, List.mem_cons, List.mem_map]
    exact Or.inr ⟨(l, r), ih n' (by omega), rfl⟩

/-- The positions of a schema. -/
def schemaPositions (view : P → Option Node) (sc : Schema) : List (List Seg × P) :=
  ((sc.properties.getD []).flatMap fun kv => (allAt view (kv.2.depth + 1) kv.2).map fun x => (.key kv.1 :: x.1, x.2)) ++
  match sc.items with
  | some q => (allAt view (q.depth + 1) q).map fun x => (.star :: x.1, x.2)
  | none => []

theorem mem_schemaPositions {view : P → Option Node} (hsh : Shrinks view) {sc : Schema} {q : P} {l : List Seg} (h : SchemaAt view sc l q) :
    (l, q) ∈ schemaPositions view sc := by
  unfold schemaPositions
  rw [List.mem_append]
  cases h with
  | @prop m q r k l h1 h2 h3 =>
    refine Or.inl ?_
    simp only [h1, Option.getD_some, List.mem_flatMap, List.mem_map]
    exact ⟨(k, q), h2, _, mem_allAt hsh h3 _ (by simp), rfl⟩
  | @item q r l h1 h2 =>
    refine Or.inr ?_
    simp only [h1, List.mem_map]
    exact ⟨_, mem_allAt hsh h2 _ (by omega), rfl⟩

/-- A check of all positions holds for each. -/
theorem check_positions {view : P → Option Node} (hsh : Shrinks view) {sc : Schema} {f : List Seg → P → Bool}
    (hc : ((schemaPositions view sc).all fun x => f x.1 x.2) = true) {q : P} {l : List Seg} (h : SchemaAt view sc l q) : f l q = true :=
  List.all_eq_true.1 hc _ (mem_schemaPositions hsh h)

end JT.Spec
