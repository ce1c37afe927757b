import Verif.Model.Base64
/-!
# Independent specification of Base64 (RFC 4648, section 4)

A text is a sequence of groups of four characters; only the last group may be padded.
-/
namespace Verif

/-- `B64 s b`: the text `s` denotes the bytes `b`.  In padded groups the unused low bits are ignored, as the decoder
of CPython does. -/
inductive B64 : Str → List Byte → Prop
  | nil : B64 [] []
  | full {c1 c2 c3 c4 : Char} {v1 v2 v3 v4 : Nat} {s : Str} {b : List Byte}
      (h1 : b64Val c1 = some v1) (h2 : b64Val c2 = some v2) (h3 : b64Val c3 = some v3) (h4 : b64Val c4 = some v4)
      (h : B64 s b) :
      B64 (c1 :: c2 :: c3 :: c4 :: s)
        (byte ((v1 * 64 ^ 3 + v2 * 64 ^ 2 + v3 * 64 + v4) / 256 ^ 2) ::
         byte ((v1 * 64 ^ 3 + v2 * 64 ^ 2 + v3 * 64 + v4) / 256) ::
         byte (v1 * 64 ^ 3 + v2 * 64 ^ 2 + v3 * 64 + v4) :: b)
  | pad1 {c1 c2 c3 : Char} {v1 v2 v3 : Nat}
      (h1 : b64Val c1 = some v1) (h2 : b64Val c2 = some v2) (h3 : b64Val c3 = some v3) :
      B64 [c1, c2, c3, '=']
        [byte ((v1 * 64 ^ 2 + v2 * 64 + v3) / 1024), byte ((v1 * 64 ^ 2 + v2 * 64 + v3) / 4)]
  | pad2 {c1 c2 : Char} {v1 v2 : Nat}
      (h1 : b64Val c1 = some v1) (h2 : b64Val c2 = some v2) :
      B64 [c1, c2, '=', '='] [byte ((v1 * 64 + v2) / 16)]

end Verif
