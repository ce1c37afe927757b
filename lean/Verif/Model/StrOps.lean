import Verif.Model.Basic
/-!
# Python string operations used by the standard library models
-/
namespace Verif

/-- `s.split(c)` for a single separator character. -/
def splitOn (c : Char) : Str → List Str
  | [] => [[]]
  | x :: r =>
    if x = c then [] :: splitOn c r
    else match splitOn c r with
      | [] => [[x]]
      | p :: ps => (x :: p) :: ps

/-- `c.join(parts)`. -/
def joinWith (c : Char) : List Str → Str
  | [] => []
  | [p] => p
  | p :: q :: ps => p ++ c :: joinWith c (q :: ps)

/-- Loop of `removeSub`; the counter is the number of characters still to skip. -/
def removeSubGo (pat : Str) : Nat → Str → Str
  | _, [] => []
  | k + 1, _ :: r => removeSubGo pat k r
  | 0, c :: r => if pat.isPrefixOf (c :: r) then removeSubGo pat (pat.length - 1) r else c :: removeSubGo pat 0 r

/-- `s.replace(pat, "")` for non-empty `pat`: non-overlapping occurrences, left to right. -/
def removeSub (pat : Str) (s : Str) : Str := removeSubGo pat 0 s

/-- `s.strip(chars)`. -/
def stripBy (p : Char → Bool) (s : Str) : Str := ((s.dropWhile p).reverse.dropWhile p).reverse

/-- `s.endswith(suf)`. -/
def endsWith (suf s : Str) : Bool := suf.isSuffixOf s

/-- `s[:-n]`. -/
def dropEnd (n : Nat) (s : Str) : Str := s.take (s.length - n)

end Verif
