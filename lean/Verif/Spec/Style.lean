import Verif.Spec.Slice
/-! Specification of style strings, from the documentation of `parse_style_str` and `PDFText`:
a semicolon-separated list of attributes. -/
namespace Verif.Spec

/-- an attribute as written. `pre`/`post` are blanks around the name, `val` is the text after the
colon. -/
inductive StyleItem
  | empty                                       -- nothing between two semicolons
  | flag (pre : Str) (key : Str) (post : Str)   -- `b`, `i`, `u`
  | bool (pre : Str) (key : Str) (post : Str) (val : Str) (v : Bool)  -- `b:1`, `u:0`
  | font (pre post val : Str)                   -- `f:Helvetica`
  | fg (pre post val : Str)                     -- `c:red`
  | bg (pre post val : Str)                     -- `bg:red`
  | size (val : Str)                            -- `s:10`
  | rise (val : Str)                            -- `r:0.5`

/-- the text of an attribute -/
def StyleItem.text : StyleItem → Str
  | .empty => []
  | .flag pre k post => pre ++ k ++ post
  | .bool pre k post val _ => joinWith ':' [pre ++ k ++ post, val]
  | .font pre post val => joinWith ':' [pre ++ c!"f" ++ post, val]
  | .fg pre post val => joinWith ':' [pre ++ c!"c" ++ post, val]
  | .bg pre post val => joinWith ':' [pre ++ c!"bg" ++ post, val]
  | .size val => joinWith ':' [c!"s", val]
  | .rise val => joinWith ':' [c!"r", val]

end Verif.Spec
