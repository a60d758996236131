import Verif.Model.Map
/- main.go:15-39: flags with `key=value` pairs. -/
namespace JT.Gen

/-- main.go:31-37: the loop over the pairs.  Also tells whether it ended without an error. -/
def setPairs : List Str → GMap Str → GMap Str × Bool
  | [], kv => (kv, true)
  | pair :: ps, kv => match splitN2 '=' pair with
    | [k, v] => setPairs ps (GMap.set k v kv)
    | _ => (kv, false)

/-- main.go:30-39 `mapFlags.Set`. -/
def flagSet (value : Str) (kv : GMap Str) : GMap Str × Bool := setPairs (splitC ',' value) kv

end JT.Gen
