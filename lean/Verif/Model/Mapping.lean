import Verif.Model.StrOps
/-!
# Field names and JSON property names: strong_typing/mapping.py
-/
namespace Verif

/-- `keyword.kwlist` of CPython 3.11. -/
def pyKeywords : List Str :=
  [c!"False", c!"None", c!"True", c!"and", c!"as", c!"assert", c!"async",
   c!"await", c!"break", c!"class", c!"continue", c!"def", c!"del", c!"elif",
   c!"else", c!"except", c!"finally", c!"for", c!"from", c!"global", c!"if",
   c!"import", c!"in", c!"is", c!"lambda", c!"nonlocal", c!"not", c!"or",
   c!"pass", c!"raise", c!"return", c!"try", c!"while", c!"with", c!"yield"]

/-- `keyword.iskeyword`. -/
def isKeyword (s : Str) : Bool := s ∈ pyKeywords

/-- `python_field_to_json_property`, strong_typing/mapping.py:14-34.  `alias` is the name in the `Alias` annotation of the
type passed by the caller, if any (`get_annotation`, strong_typing/inspection.py:483-498). -/
def fieldToProperty (id : Str) (alias : Option Str) : Str :=
  match alias with
  | some a => a
  | none =>
    if endsWith ['_'] id then
      if isKeyword (dropEnd 1 id) then dropEnd 1 id else id
    else id

end Verif
