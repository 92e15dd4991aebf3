import Verif.Model.Color
/-! Model of `parse_style_str` of `pdfme/utils.py`. -/
namespace Verif

/-- values of a style dict -/
inductive StyleVal
  | flag (b : Bool)
  | font (s : Str)
  | color (c : PDFColor Rat)
  | num (v : Rat)
  deriving DecidableEq

/-- a style dict (insertion ordered) -/
abbrev Style := List (Str × StyleVal)

/-- `style[k] = v` -/
def styleSet (k : Str) (v : StyleVal) : Style → Style
  | [] => [(k, v)]
  | (k', v') :: l => if k' = k then (k, v) :: l else (k', v') :: styleSet k v l

/-- the parameters of the parser: `float(s)` (`none` stands for `ValueError`; the special values
infinity and NaN are not modelled), and the font test of utils.py:200-206 (in `fonts.fonts` or in the
registered fonts). -/
structure StyleEnv where
  pf : Str → Option Rat
  fontOk : Str → Bool

/-- the boolean attributes -/
def isBoolAttr (a : Str) : Bool := a = c!"b" || a = c!"i" || a = c!"u"

/-- utils.py:175-184: an element without a colon -/
def styleFlag (raw : Str) (style : Style) : Except PyErr Style :=
  if raw = [] then .ok style
  else if isBoolAttr (strip raw) then .ok (styleSet (strip raw) (.flag true) style)
  else .error .valueError

/-- utils.py:199-241: the second chain of tests; note that `s` and `r` are compared without
stripping, that a colour error is not converted, and that the boolean attributes end in the last
`else`. -/
def styleParam (env : StyleEnv) (raw value : Str) (style : Style) : Except PyErr Style :=
  let attr := strip raw
  if attr = c!"f" then
    if env.fontOk value then .ok (styleSet c!"f" (.font value) style) else .error .valueError
  else if attr = c!"c" then
    match parseColor env.pf (.str value) with
    | .ok c => .ok (styleSet c!"c" (.color ⟨c, false⟩) style)
    | .error e => .error e
  else if attr = c!"bg" then
    match parseColor env.pf (.str value) with
    | .ok c => .ok (styleSet c!"bg" (.color ⟨c, false⟩) style)
    | .error e => .error e
  else if raw = c!"s" then
    match env.pf value with
    | some v => .ok (styleSet c!"s" (.num v) style)
    | none => .error .valueError
  else if raw = c!"r" then
    match env.pf value with
    | some v => .ok (styleSet c!"r" (.num v) style)
    | none => .error .valueError
  else .error .valueError

/-- utils.py:185-241: an element with one colon. The first test (`b`, `i`, `u`) sets the flag and then
falls into the second chain of tests because that one starts with `if`, not `elif`. -/
def styleAttr (env : StyleEnv) (raw rawValue : Str) (style : Style) : Except PyErr Style :=
  let attr := strip raw
  let value := strip rawValue
  if isBoolAttr attr then
    if value = c!"1" then styleParam env raw value (styleSet attr (.flag true) style)
    else if value = c!"0" then styleParam env raw value (styleSet attr (.flag false) style)
    else .error .valueError
  else styleParam env raw value style

/-- one element of the style string, utils.py:174-244 -/
def styleElem (env : StyleEnv) (s : Str) (style : Style) : Except PyErr Style :=
  match splitOn ':' s with
  | [a] => styleFlag a style
  | [a, b] => styleAttr env a b style
  | _ => .error .valueError

/-- the loop of `parse_style_str` -/
def styleLoop (env : StyleEnv) : List Str → Style → Except PyErr Style
  | [], style => .ok style
  | s :: l, style => match styleElem env s style with
    | .ok style' => styleLoop env l style'
    | .error e => .error e

/-- `parse_style_str`, utils.py:140-246. -/
def parseStyleStr (env : StyleEnv) (s : Str) : Except PyErr Style := styleLoop env (splitOn ';' s) []

end Verif
