import Verif.Model.Build
/- A concrete library for examples and counterexamples: a toy behaviour of the outside world. -/
namespace JT.Toy

/-- Input texts used in examples: the parser knows a fixed table. -/
def lib (docs : List (Str × P)) : Lib where
  jsonpath _ _ := none
  parseFloat _ := none
  formatFloat _ := []
  ofInt i := BitVec.ofInt 64 i
  toInt _ := 0
  parseTime _ _ := none
  formatTime _ _ := []
  now _ := ⟨0, 0, 0⟩
  reValid _ := true
  reReplace _ s _ := s
  sanitize s := s
  unescape s := s
  toLower s := s
  toUpper s := s
  title s := s
  xfind _ _ := some []
  innerText _ := []
  parseXML _ := none
  parseJSON s := GMap.get s docs
  marshal p := some (render p)
  validate _ := some true
where
  render : P → Str
    | .sc .nil => g!"null"
    | .sc (.bool b) => formatBool b
    | .sc (.int i) => itoa i
    | .sc (.i64 i) => itoa i
    | .sc (.f64 f) => itoaNat f.toNat
    | .sc (.str s) => '"' :: s ++ g!"\""
    | .sc _ => g!"?"
    | .arr l => g!"[" ++ renderList l ++ g!"]"
    | .obj m => g!"{" ++ renderFields m ++ g!"}"
  renderList : List P → Str
    | [] => []
    | [p] => render p
    | p :: ps => render p ++ g!"," ++ renderList ps
  renderFields : List (Str × P) → Str
    | [] => []
    | [(k, p)] => k ++ g!":" ++ render p
    | (k, p) :: ps => k ++ g!":" ++ render p ++ g!"," ++ renderFields ps

/-- Shorthands for documents. -/
abbrev s (x : Str) : P := .sc (.str x)
abbrev i (n : Int) : P := .sc (.int n)
abbrev o (l : List (Str × P)) : P := .obj l
abbrev a (l : List P) : P := .arr l

/-- A string instance with a transform reading from the given paths. -/
def strFrom (method : Str) (paths : List Str) : P :=
  o [(g!"type", s g!"string"), (g!"transform", o [(g!"t", o [(g!"method", s method),
    (g!"from", a (paths.map fun p => o [(g!"jsonPath", s p)]))])])]

def env (docs : List (Str × P)) (sched : Sched := Sched.id) : Env := ⟨lib docs, sched, .json⟩

end JT.Toy
