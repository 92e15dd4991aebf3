import Verif.Py
/-! Model of `pdfme/color.py`. Colour components are rational numbers; `float(s)` of a string is a
parameter `pf` (`none` stands for `ValueError`; infinities and NaN are not modelled). -/
namespace Verif

/-- `colors`, color.py:4-153, components in thousandths. -/
def colorTable : List (Str × Nat × Nat × Nat) :=
  [
   (c!"aliceblue", 941, 973, 1000),
   (c!"antiquewhite", 980, 922, 844),
   (c!"aqua", 0, 1000, 1000),
   (c!"aquamarine", 500, 1000, 832),
   (c!"azure", 941, 1000, 1000),
   (c!"beige", 961, 961, 863),
   (c!"bisque", 1000, 895, 770),
   (c!"black", 0, 0, 0),
   (c!"blanchedalmond", 1000, 922, 805),
   (c!"blue", 0, 0, 1000),
   (c!"blueviolet", 543, 172, 887),
   (c!"brown", 648, 168, 168),
   (c!"burlywood", 871, 723, 531),
   (c!"cadetblue", 375, 621, 629),
   (c!"chartreuse", 500, 1000, 0),
   (c!"chocolate", 824, 414, 121),
   (c!"coral", 1000, 500, 316),
   (c!"cornflowerblue", 395, 586, 930),
   (c!"cornsilk", 1000, 973, 863),
   (c!"crimson", 863, 82, 238),
   (c!"cyan", 0, 1000, 1000),
   (c!"darkblue", 0, 0, 547),
   (c!"darkcyan", 0, 547, 547),
   (c!"darkgoldenrod", 723, 527, 47),
   (c!"darkgray", 664, 664, 664),
   (c!"darkgrey", 664, 664, 664),
   (c!"darkgreen", 0, 395, 0),
   (c!"darkkhaki", 742, 719, 422),
   (c!"darkmagenta", 547, 0, 547),
   (c!"darkolivegreen", 336, 422, 188),
   (c!"darkorange", 1000, 551, 0),
   (c!"darkorchid", 602, 199, 801),
   (c!"darkred", 547, 0, 0),
   (c!"darksalmon", 914, 590, 480),
   (c!"darkseagreen", 562, 738, 562),
   (c!"darkslateblue", 285, 242, 547),
   (c!"darkslategray", 188, 312, 312),
   (c!"darkslategrey", 188, 312, 312),
   (c!"darkturquoise", 0, 809, 820),
   (c!"darkviolet", 582, 0, 828),
   (c!"deeppink", 1000, 82, 578),
   (c!"deepskyblue", 0, 750, 1000),
   (c!"dimgray", 414, 414, 414),
   (c!"dimgrey", 414, 414, 414),
   (c!"dodgerblue", 121, 566, 1000),
   (c!"firebrick", 699, 137, 137),
   (c!"floralwhite", 1000, 980, 941),
   (c!"forestgreen", 137, 547, 137),
   (c!"fuchsia", 1000, 0, 1000),
   (c!"gainsboro", 863, 863, 863),
   (c!"ghostwhite", 973, 973, 1000),
   (c!"gold", 1000, 844, 0),
   (c!"goldenrod", 855, 648, 129),
   (c!"gray", 504, 504, 504),
   (c!"grey", 504, 504, 504),
   (c!"green", 0, 504, 0),
   (c!"greenyellow", 680, 1000, 188),
   (c!"honeydew", 941, 1000, 941),
   (c!"hotpink", 1000, 414, 707),
   (c!"indianred", 805, 363, 363),
   (c!"indigo", 297, 0, 512),
   (c!"ivory", 1000, 1000, 941),
   (c!"khaki", 941, 902, 551),
   (c!"lavender", 902, 902, 980),
   (c!"lavenderblush", 1000, 941, 961),
   (c!"lawngreen", 488, 988, 0),
   (c!"lemonchiffon", 1000, 980, 805),
   (c!"lightblue", 680, 848, 902),
   (c!"lightcoral", 941, 504, 504),
   (c!"lightcyan", 879, 1000, 1000),
   (c!"lightgoldenrodyellow", 980, 980, 824),
   (c!"lightgray", 828, 828, 828),
   (c!"lightgrey", 828, 828, 828),
   (c!"lightgreen", 566, 934, 566),
   (c!"lightpink", 1000, 715, 758),
   (c!"lightsalmon", 1000, 629, 480),
   (c!"lightseagreen", 129, 699, 668),
   (c!"lightskyblue", 531, 809, 980),
   (c!"lightslategray", 469, 535, 602),
   (c!"lightslategrey", 469, 535, 602),
   (c!"lightsteelblue", 691, 770, 871),
   (c!"lightyellow", 1000, 1000, 879),
   (c!"lime", 0, 1000, 0),
   (c!"limegreen", 199, 805, 199),
   (c!"linen", 980, 941, 902),
   (c!"magenta", 1000, 0, 1000),
   (c!"maroon", 504, 0, 0),
   (c!"mediumaquamarine", 402, 805, 668),
   (c!"mediumblue", 0, 0, 805),
   (c!"mediumorchid", 730, 336, 828),
   (c!"mediumpurple", 578, 441, 859),
   (c!"mediumseagreen", 238, 703, 445),
   (c!"mediumslateblue", 484, 410, 934),
   (c!"mediumspringgreen", 0, 980, 605),
   (c!"mediumturquoise", 285, 820, 801),
   (c!"mediumvioletred", 781, 86, 523),
   (c!"midnightblue", 102, 102, 441),
   (c!"mintcream", 961, 1000, 980),
   (c!"mistyrose", 1000, 895, 883),
   (c!"moccasin", 1000, 895, 711),
   (c!"navajowhite", 1000, 871, 680),
   (c!"navy", 0, 0, 504),
   (c!"oldlace", 992, 961, 902),
   (c!"olive", 504, 504, 0),
   (c!"olivedrab", 422, 559, 141),
   (c!"orange", 1000, 648, 0),
   (c!"orangered", 1000, 273, 0),
   (c!"orchid", 855, 441, 840),
   (c!"palegoldenrod", 934, 910, 668),
   (c!"palegreen", 598, 984, 598),
   (c!"paleturquoise", 688, 934, 934),
   (c!"palevioletred", 859, 441, 578),
   (c!"papayawhip", 1000, 938, 836),
   (c!"peachpuff", 1000, 855, 727),
   (c!"peru", 805, 523, 250),
   (c!"pink", 1000, 754, 797),
   (c!"plum", 867, 629, 867),
   (c!"powderblue", 691, 879, 902),
   (c!"purple", 504, 0, 504),
   (c!"rebeccapurple", 402, 203, 602),
   (c!"red", 1000, 0, 0),
   (c!"rosybrown", 738, 562, 562),
   (c!"royalblue", 258, 414, 883),
   (c!"saddlebrown", 547, 273, 78),
   (c!"salmon", 980, 504, 449),
   (c!"sandybrown", 957, 645, 379),
   (c!"seagreen", 184, 547, 344),
   (c!"seashell", 1000, 961, 934),
   (c!"sienna", 629, 324, 180),
   (c!"silver", 754, 754, 754),
   (c!"skyblue", 531, 809, 922),
   (c!"slateblue", 418, 355, 805),
   (c!"slategray", 441, 504, 566),
   (c!"slategrey", 441, 504, 566),
   (c!"snow", 1000, 980, 980),
   (c!"springgreen", 0, 1000, 500),
   (c!"steelblue", 277, 512, 707),
   (c!"tan", 824, 707, 551),
   (c!"teal", 0, 504, 504),
   (c!"thistle", 848, 750, 848),
   (c!"tomato", 1000, 391, 281),
   (c!"turquoise", 254, 879, 816),
   (c!"violet", 934, 512, 934),
   (c!"wheat", 961, 871, 703),
   (c!"white", 1000, 1000, 1000),
   (c!"whitesmoke", 961, 961, 961),
   (c!"yellow", 1000, 1000, 0),
   (c!"yellowgreen", 605, 805, 199)]

/-- one hexadecimal digit (ASCII; Python also accepts other Unicode decimal digits) -/
def hexDigit (c : Char) : Option Nat :=
  if '0' ≤ c ∧ c ≤ '9' then some (c.toNat - 48)
  else if 'A' ≤ c ∧ c ≤ 'F' then some (c.toNat - 55)
  else if 'a' ≤ c ∧ c ≤ 'f' then some (c.toNat - 87)
  else none

/-- digits with single underscores between them; `ok` tells that a digit (or the prefix) precedes -/
def hexGo (acc : Nat) (ok : Bool) : Str → Option Nat
  | [] => if ok then some acc else none
  | '_' :: cs => if ok then hexGo acc false cs else none
  | c :: cs => match hexDigit c with
    | some v => hexGo (16 * acc + v) true cs
    | none => none

/-- unsigned part of `int(s, 16)`: an optional `0x` prefix -/
def hexNat : Str → Option Nat
  | '0' :: 'x' :: r => if r = [] then none else hexGo 0 true r
  | '0' :: 'X' :: r => if r = [] then none else hexGo 0 true r
  | r => hexGo 0 false r

/-- `int(s, 16)`: surrounding blanks, a sign, a `0x` prefix and underscores are accepted. -/
def hexInt (s : Str) : Option Int :=
  match strip s with
  | '-' :: r => (hexNat r).map fun n => -(n : Int)
  | '+' :: r => (hexNat r).map fun n => (n : Int)
  | r => (hexNat r).map fun n => (n : Int)

/-- an element of a colour list -/
inductive ColorElem
  | num (n : Rat)
  | str (s : Str)
  | other

/-- what a caller may pass as a colour (color.py:155) -/
inductive ColorIn
  | none
  | num (n : Rat)
  | str (s : Str)
  | seq (l : List ColorElem)
  | other

/-- `float(c)` of a list element -/
def elemFloat (pf : Str → Option Rat) : ColorElem → Option Rat
  | .num n => some n
  | .str s => pf s
  | .other => none

/-- `[float(c) for c in color[:4]]`, any exception becomes a `TypeError`, color.py:265-268 -/
def elemFloats (pf : Str → Option Rat) : List ColorElem → Except PyErr (List Rat)
  | [] => .ok []
  | c :: l => match elemFloat pf c, elemFloats pf l with
    | none, _ => .error .typeError
    | some _, .error e => .error e
    | some v, .ok vs => .ok (v :: vs)

/-- the list part of `parse_color`, color.py:253-268; other lengths fall through and return `None` -/
def parseColorSeq (pf : Str → Option Rat) (l : List ColorElem) : Except PyErr (Option (List Rat)) :=
  match l with
  | [c] => match elemFloat pf c with
    | some v => .ok (some [v])
    | none => .error .typeError
  | [_, _, _] | [_, _, _, _] => match elemFloats pf l with
    | .ok vs => .ok (some vs)
    | .error e => .error e
  | _ => .ok none

/-- `color[i:j]` -/
def slice (s : Str) (i j : Nat) : Str := (s.take j).drop i

/-- one channel: `int(part, 16)/255`; a `ValueError` here is not caught -/
def channel (part : Str) : Except PyErr Rat :=
  match hexInt part with
  | some v => .ok (mkRat v 255)
  | none => .error .valueError

/-- the three channels, left to right -/
def channels (a b c : Str) : Except PyErr (Option (List Rat)) :=
  match channel a with
  | .error e => .error e
  | .ok x => match channel b with
    | .error e => .error e
    | .ok y => match channel c with
      | .error e => .error e
      | .ok z => .ok (some [x, y, z])

/-- the hexadecimal branch of `parse_color`, color.py:237-246 -/
def parseHexColor (s : Str) : Except PyErr (Option (List Rat)) :=
  if (hexInt (s.drop 1)).isNone then .error .typeError
  else if s.length = 4 ∨ s.length = 5 then
    channels (slice s 1 2 ++ slice s 1 2) (slice s 2 3 ++ slice s 2 3) (slice s 3 4 ++ slice s 3 4)
  else channels (slice s 1 3) (slice s 3 5) (slice s 5 7)

/-- `parse_color`, color.py:201-268. -/
def parseColor (pf : Str → Option Rat) : ColorIn → Except PyErr (Option (List Rat))
  | .none => .ok none
  | .num n => .ok (some [n])
  | .str s =>
    if s = [] then .ok none
    else match colorTable.find? (fun p => p.1 = s) with
      | some (_, r, g, b) => .ok (some [mkRat r 1000, mkRat g 1000, mkRat b 1000])
      | none =>
        if s.head? = some '#' ∧ (s.length = 4 ∨ s.length = 5 ∨ s.length = 7 ∨ s.length = 9) then
          parseHexColor s
        else parseColorSeq pf ((splitCommaSpace s).map .str)
  | .seq l => parseColorSeq pf l
  | .other => .error .typeError

/-- `PDFColor`, color.py:156-174: the components (any number type) and the stroke flag. -/
structure PDFColor (N : Type) where
  color : Option (List N)
  stroke : Bool
  deriving DecidableEq, Repr

/-- `PDFColor.__str__`, color.py:188-199; `fmt` is the text of a number rounded to three places. With a
number of components other than 1 or 3 it returns `None`, so `str()` raises `TypeError`. -/
def PDFColor.str {N} (fmt : N → Str) (c : PDFColor N) : Except PyErr Str :=
  match c.color with
  | none => .ok []
  | some [g] => .ok (fmt g ++ ' ' :: (if c.stroke then c!"G" else c!"g"))
  | some [r, g, b] =>
    .ok (fmt r ++ ' ' :: (fmt g ++ ' ' :: (fmt b ++ ' ' :: (if c.stroke then c!"RG" else c!"rg"))))
  | some _ => .error .typeError

end Verif
