import Verif.Model.Convert
import Verif.Model.Regex
/- transform/operations.go: the transform operations. -/
namespace JT

/-- An initialised transform operation with its arguments. -/
inductive Op where
  | duration
  | changeCase (upper : Bool)
  | valueExists
  | inverse
  | max (byPath retPath : Str)
  | replace (re new : Str)
  | split (on : Str)
  | timeParse (format layout : Str)
  | currentTime (format : Str)
  | toCamelCase (delimiter : Str)
  | removeHTML
  | convertToFloat64
  | convertToInt64
  | convertToBool
  deriving Repr, DecidableEq

/-- transform/operations.go:459-469 `requiredArgs`. -/
def requiredArgs (required : List Str) (args : GMap Str) : Bool :=
  decide (args.length = required.length) && required.all fun a => (GMap.get a args).isSome

/-- `args[k]` without comma-ok: the zero value if missing. -/
def argOf (args : GMap Str) (k : Str) : Str := (GMap.get k args).getD []

/-- transform/transform.go:62-101 and the `init` methods (transform/operations.go:25-28, 71-82, 104-106, 130-132, 149-155, 201-213,
232-239, 269-276, 296-302, 318-324, 350-352, 372-374, 394-396, 426-428): build an operation from its name and arguments; `none` is an error. -/
def initOp (lib : Lib) (name : Str) (args : GMap Str) : Option Op :=
  if name = g!"changeCase" then
    if requiredArgs [g!"to"] args then
      if argOf args g!"to" = g!"lower" then some (.changeCase false)
      else if argOf args g!"to" = g!"upper" then some (.changeCase true)
      else none
    else none
  else if name = g!"currentTime" then
    if requiredArgs [g!"format"] args then some (.currentTime (argOf args g!"format")) else none
  else if name = g!"duration" then some .duration
  else if name = g!"inverse" then some .inverse
  else if name = g!"max" then
    if requiredArgs [g!"by", g!"return"] args then some (.max (argOf args g!"by") (argOf args g!"return")) else none
  else if name = g!"replace" then
    if requiredArgs [g!"regex", g!"new"] args then
      if lib.reValid (argOf args g!"regex") then some (.replace (argOf args g!"regex") (argOf args g!"new")) else none
    else none
  else if name = g!"split" then
    if requiredArgs [g!"on"] args then some (.split (argOf args g!"on")) else none
  else if name = g!"timeParse" then
    if requiredArgs [g!"format", g!"layout"] args then
      some (.timeParse (argOf args g!"format") (argOf args g!"layout")) else none
  else if name = g!"toCamelCase" then
    if requiredArgs [g!"delimiter"] args then some (.toCamelCase (argOf args g!"delimiter")) else none
  else if name = g!"removeHTML" then some .removeHTML
  else if name = g!"convertToFloat64" then some .convertToFloat64
  else if name = g!"convertToInt64" then some .convertToInt64
  else if name = g!"convertToBool" then some .convertToBool
  else if name = g!"valueExists" then some .valueExists
  else none

/-- strconv.Atoi on a submatch, where an empty submatch counts as zero:
`x, err := Atoi(m); if err != nil && m != "" { return err }`. -/
def atoiOr0 (s : Str) : Res Int :=
  match atoi s with
  | some n => .ok n
  | none => if s = [] then .ok 0 else .err

/-- transform/operations.go:43-63: the string part of `duration.transform`. -/
def durationStr (s : Str) : Res Int :=
  match fullMatch durationRe s with
  | none => .err
  | some caps => do
    let hours ← atoiOr0 (capture caps 1)
    let minutes ← atoiOr0 (capture caps 2)
    let seconds ← atoiOr0 (capture caps 3)
    let minutes := wrap64 (minutes + wrap64 (60 * hours))
    let seconds := wrap64 (seconds + wrap64 (60 * minutes))
    return seconds

/-- transform/operations.go:30-64 `duration.transform`. -/
def durationOp {α : Type} (vw : View α) (raw : α) : Res (Out α) :=
  let sh := match vw.shape raw with
    | .arr [x] => vw.shape x
    | sh => sh
  match sh with
  | .sc .nil => .ok (.sc (.int 0))
  | .sc (.str s) => (durationStr s).map fun n => .sc (.int n)
  | _ => .err

/-- transform/operations.go:172-178: the number found at the `by` path, as a float. -/
def numberOf {α : Type} (lib : Lib) (vw : View α) : Out α → Option F64
  | .val a => match vw.shape a with
    | .sc (.f64 f) => some f
    | .sc (.int i) => some (lib.ofInt i)
    | _ => none
  | .sc (.f64 f) => some f
  | .sc (.int i) => some (lib.ofInt i)
  | _ => none

/-- transform/operations.go:167-184: the loop of `max.transform`; `i` is the index of the head of the list. -/
def maxLoop {α : Type} (lib : Lib) (vw : View α) (byArg : Str) : List α → Nat → F64 → Nat → Res Nat
  | [], _, _, largestIndex => .ok largestIndex
  | item :: rest, i, largest, largestIndex =>
    match jpGet lib vw byArg item with
    | none => .err
    | some byRaw => match numberOf lib vw byRaw with
      | none => .err
      | some by' =>
        if F64.gt by' largest then maxLoop lib vw byArg rest (i + 1) by' i
        else maxLoop lib vw byArg rest (i + 1) largest largestIndex

/-- transform/operations.go:157-192 `max.transform`. -/
def maxOp {α : Type} (lib : Lib) (vw : View α) (byPath retPath : Str) (raw : α) : Res (Out α) :=
  match vw.shape raw with
  | .arr items =>
    let byArg := replace1 byPath g!"@" g!"$"
    let retArg := replace1 retPath g!"@" g!"$"
    match maxLoop lib vw byArg items 0 F64.zero 0 with
    | .ok i => match items[i]? with
      | none => .panic     -- index out of range
      | some item => match jpGet lib vw retArg item with
        | none => .err
        | some o => .ok o
    | .err => .err
    | .panic => .panic
  | _ => .err

/-- unicode.IsSpace. -/
def isSpace (c : Char) : Bool :=
  let n := c.toNat
  decide (n = 32) || (decide (9 ≤ n) && decide (n ≤ 13)) || decide (n = 0x85) || decide (n = 0xA0)
    || decide (n = 0x1680) || (decide (0x2000 ≤ n) && decide (n ≤ 0x200a)) || decide (n = 0x2028)
    || decide (n = 0x2029) || decide (n = 0x202f) || decide (n = 0x205f) || decide (n = 0x3000)

/-- strings.TrimSpace. -/
def trimSpace (s : Str) : Str := ((s.dropWhile isSpace).reverse.dropWhile isSpace).reverse

/-- transform/operations.go:332-342: the string part of `toCamelCase.transform`. -/
def camelStr (lib : Lib) (delim s : Str) : Str :=
  match JT.split s delim with
  | [] => []
  | p :: ps => join [] (lib.toLower p :: ps.map lib.title)

/-- transform/operations.go:360-364: the string part of `removeHTML.transform`. -/
def stripHTML (lib : Lib) (s : Str) : Str :=
  lib.unescape (replaceAll (trimSpace (lib.sanitize s)) g!"  " g!" ")

/-- Application of a function to string values only; other values are an error. -/
def onStr {α : Type} (vw : View α) (raw : α) (f : Str → Res (Out α)) : Res (Out α) :=
  match vw.shape raw with
  | .sc (.str s) => f s
  | _ => .err

/-- The `transform` methods of transform/operations.go.  `now` is the clock reading. -/
def runOp {α : Type} (lib : Lib) (vw : View α) (now : GTime) (op : Op) (raw : α) : Res (Out α) :=
  match op with
  -- transform/operations.go:30-64
  | .duration => durationOp vw raw
  -- transform/operations.go:84-97
  | .changeCase upper => onStr vw raw fun s => .ok (.sc (.str (if upper then lib.toUpper s else lib.toLower s)))
  -- transform/operations.go:108-123
  | .valueExists => match vw.shape raw with
    | .sc (.str s) => .ok (.sc (.bool (decide (s ≠ []))))
    | .sc (.nodes l) => .ok (.sc (.bool (decide (l ≠ []))))
    | _ => .err
  -- transform/operations.go:134-140
  | .inverse => match vw.shape raw with
    | .sc (.bool b) => .ok (.sc (.bool !b))
    | _ => .err
  -- transform/operations.go:157-192
  | .max byPath retPath => maxOp lib vw byPath retPath raw
  -- transform/operations.go:215-225
  | .replace re new => onStr vw raw fun s => .ok (.sc (.str (lib.reReplace re s new)))
  -- transform/operations.go:241-262
  | .split on => onStr vw raw fun s => if s = [] then .ok (.strs []) else .ok (.strs (JT.split s on))
  -- transform/operations.go:278-288
  | .timeParse format layout => onStr vw raw fun s => match lib.parseTime format s with
    | none => .err
    | some t => .ok (.sc (.str (lib.formatTime layout t)))
  -- transform/operations.go:304-311
  | .currentTime format =>
    .ok (.sc (.str (lib.formatTime (if format = g!"RFC3339" then rfc3339 else format) now)))
  -- transform/operations.go:326-343
  | .toCamelCase delim => onStr vw raw fun s => .ok (.sc (.str (camelStr lib delim s)))
  -- transform/operations.go:354-365
  | .removeHTML => onStr vw raw fun s => .ok (.sc (.str (stripHTML lib s)))
  -- transform/operations.go:376-387
  | .convertToFloat64 => match vw.shape raw with
    | .sc (.str s) => match lib.parseFloat s with
      | some f => .ok (.sc (.f64 f))
      | none => .err
    | .sc (.int i) => .ok (.sc (.f64 (lib.ofInt i)))
    | .sc (.f64 f) => .ok (.sc (.f64 f))
    | _ => .err
  -- transform/operations.go:398-419
  | .convertToInt64 => match vw.shape raw with
    | .sc (.str s) => match atoi s with
      | some i => .ok (.sc (.i64 i))
      | none => .err
    | .sc (.f64 f) => .ok (.sc (.i64 (lib.toInt f)))
    | .sc (.int i) => .ok (.sc (.i64 i))
    | .sc (.i64 i) => .ok (.sc (.i64 i))
    | _ => .err
  -- transform/operations.go:430-455
  | .convertToBool => match vw.shape raw with
    | .sc (.bool b) => .ok (.sc (.bool b))
    | .sc (.str s) => match parseBool s with
      | some b => .ok (.sc (.bool b))
      | none => .err
    | .arr l => .ok (.sc (.bool (decide (l ≠ []))))
    | .sc (.f64 f) => .ok (.sc (.bool (F64.ne0 f)))
    | .sc (.int i) => .ok (.sc (.bool (decide (i ≠ 0))))
    | .sc (.i64 i) => .ok (.sc (.bool (decide (i ≠ 0))))
    | _ => .err

end JT
