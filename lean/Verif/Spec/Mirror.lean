import Verif.Spec.Eval
import Verif.Spec.Schema
/- What it means for a transformer tree to mirror a schema document. -/
namespace JT.Spec

/-- The default value of a node is the one given in the schema (nil if there is none). -/
def DefaultIs (s : St) (d : V) (raw : P) : Prop := s.heap.toP d = some (canon ((raw.key g!"default").getD nilP))

/-- The node has the transform of the schema for the identifier, with `@` resolved. -/
def InstrsAre (lib : Lib) (ident : Str) (s : St) (tid : Option Nat) (path : Str) (kind : Kind) (raw : P) : Prop :=
  ∃ o, extractInstrs lib raw ident path kind = .ok o ∧
    match o, tid with
    | none, none => True
    | some tis, some i => s.instrs[i]? = some tis
    | _, _ => False

/-- A default that is an address. -/
def arrD : Option Addr → V
  | none => V.nil
  | some a => .arr a
def objD : Option Addr → V
  | none => V.nil
  | some a => .obj a

mutual
/-- The transformer `t` is the one for the instance `raw` of a schema at a path: same kind, path, default
and transform, one child for the items of an array, one child per property of an object. -/
def Mirrors (lib : Lib) (ident : Str) (s : St) : T → Str → P → Prop
  | .scalar p ty d tid, path, raw => p = path ∧
    (∃ ty0 nu, fieldType raw = .ok (ty0, nu) ∧ ty0 ≠ g!"array" ∧
      (ty0 = g!"object" → raw.key g!"properties" = some (.obj [])) ∧ scalarType raw ty0 = .ok ty) ∧
    DefaultIs s d raw ∧ InstrsAre lib ident s tid path .scalar raw
  | .array _ _ _ none, _, _ => False
  | .array p d tid (some c), path, raw => p = path ∧ (∃ nu, fieldType raw = .ok (g!"array", nu)) ∧
    DefaultIs s (arrD d) raw ∧ InstrsAre lib ident s tid path .array raw ∧
    ∃ items, raw.key g!"items" = some items ∧ Mirrors lib ident s c (path ++ g!"[*]") items
  | .object p d tid cs, path, raw => p = path ∧ (∃ nu, fieldType raw = .ok (g!"object", nu)) ∧
    DefaultIs s (objD d) raw ∧ InstrsAre lib ident s tid path .object raw ∧
    ∃ m, raw.key g!"properties" = some (.obj m) ∧ m ≠ [] ∧ GMap.Sorted cs ∧ (∀ k, (∃ q, (k, q) ∈ m) → ∃ t, (k, t) ∈ cs) ∧
      MirrorsKids lib ident s cs path m
/-- Each child mirrors the property of the same name. -/
def MirrorsKids (lib : Lib) (ident : Str) (s : St) : List (Str × T) → Str → List (Str × P) → Prop
  | [], _, _ => True
  | (k, t) :: r, path, m => (∃ q, (k, q) ∈ m ∧ Mirrors lib ident s t (path ++ '.' :: k) q) ∧
    MirrorsKids lib ident s r path m
end

/-- The root of a transformer mirrors a schema. -/
def MirrorsSchema (lib : Lib) (ident : Str) (s : St) (t : T) (sc : Schema) : Prop :=
  (∃ m cs, sc.properties = some m ∧ sc.items = none ∧ t = .object g!"$" none none cs ∧ GMap.Sorted cs ∧
    (∀ k, (∃ q, (k, q) ∈ m) → ∃ t, (k, t) ∈ cs) ∧ MirrorsKids lib ident s cs g!"$" m) ∨
  (∃ q c, sc.properties = none ∧ sc.items = some q ∧ t = .array g!"$" none none (some c) ∧
    Mirrors lib ident s c g!"$[*]" q)

/-- Property names that can be used in a dotted path. -/
def PlainName (k : Str) : Prop := k ≠ [] ∧ '.' ∉ k ∧ '[' ∉ k

/-- The properties of an instance have distinct plain names. -/
def PlainProps (q : P) : Prop := ∀ m, q.key g!"properties" = some (.obj m) →
  (m.map Prod.fst).Nodup ∧ ∀ kv ∈ m, PlainName kv.1

/-- All property names in the schema are plain and distinct within their object. -/
def PlainSchema (sc : Schema) : Prop :=
  (∀ m, sc.properties = some m → (m.map Prod.fst).Nodup ∧ ∀ kv ∈ m, PlainName kv.1) ∧
  ∀ q, SchemaInst sc q → PlainProps q

end JT.Spec
