import Verif.Model.JsonText
/-!
# How a string is spelt in a JSON string literal
-/
namespace Verif

/-- `t` is a four-digit hexadecimal numeral of `n`; upper and lower case are both allowed. -/
def HexQuad (n : Nat) (t : Str) : Prop := t.length = 4 ∧ (∀ c ∈ t, isHex c = true) ∧ baseVal 16 t = n

/-- How a character can be spelt in a string literal (RFC 8259, section 7): as it is, by a short escape, by its code in four
hexadecimal digits, or, from U+10000 on, by the codes of its UTF-16 surrogate pair (RFC 2781, section 2.1). -/
inductive Spelt : Char → Str → Prop
  | plain {c} : c ≠ '"' → c ≠ '\\' → 32 ≤ c.toNat → Spelt c [c]
  | quote : Spelt '"' c!"\\\""
  | backslash : Spelt '\\' c!"\\\\"
  | slash : Spelt '/' c!"\\/"
  | backspace : Spelt (Char.ofNat 8) c!"\\b"
  | formFeed : Spelt (Char.ofNat 12) c!"\\f"
  | lineFeed : Spelt (Char.ofNat 10) c!"\\n"
  | return : Spelt (Char.ofNat 13) c!"\\r"
  | tab : Spelt (Char.ofNat 9) c!"\\t"
  | code {c h} : HexQuad c.toNat h → Spelt c (c!"\\u" ++ h)
  | pair {c h l} : 0x10000 ≤ c.toNat → HexQuad (0xd800 + (c.toNat - 0x10000) / 1024) h →
      HexQuad (0xdc00 + (c.toNat - 0x10000) % 1024) l → Spelt c (c!"\\u" ++ h ++ (c!"\\u" ++ l))

/-- Spelling of a string: character by character. -/
inductive Spelling : Str → Str → Prop
  | nil : Spelling [] []
  | cons {c s t u} : Spelt c t → Spelling s u → Spelling (c :: s) (t ++ u)

end Verif
