import Verif.Model.Docstring
/-!
# What docstrings are expected to look like
-/
namespace Verif

/-- No white space at either end. -/
def Trimmed (s : Str) : Prop :=
  (∀ c, s.head? = some c → pySpace c = false) ∧ (∀ c, s.getLast? = some c → pySpace c = false)

/-- Words separated by single blanks. -/
structure OneLine (s : Str) : Prop where
  trimmed : Trimmed s
  blanks : ∀ c ∈ s, pySpace c = true → c = ' '
  single : ∀ a b, s ≠ a ++ ' ' :: ' ' :: b

/-- The name of a parameter or exception. -/
structure DocName (n : Str) : Prop where
  nonempty : n ≠ []
  chars : ∀ c ∈ n, pySpace c = false ∧ c ≠ ':'

/-- No line starts with a colon. -/
structure NoMetaLine (s : Str) : Prop where
  first : ∀ b, s ≠ ':' :: b
  later : ∀ a b, s ≠ a ++ '\n' :: ':' :: b

/-- A short description: one line of text. -/
structure ShortOk (s : Str) : Prop where
  nonempty : s ≠ []
  trimmed : Trimmed s
  oneLine : '\n' ∉ s
  noTab : '\t' ∉ s
  noMeta : NoMetaLine s

/-- A long description: any lines of text. -/
structure LongOk (s : Str) : Prop where
  nonempty : s ≠ []
  trimmed : Trimmed s
  noTab : '\t' ∉ s
  noMeta : NoMetaLine s

/-- The descriptions can be written: a long description comes with a short one. -/
structure Docstring.DescOk (d : Docstring) : Prop where
  short : ∀ s, d.short = some s → ShortOk s
  long : ∀ l, d.long = some l → d.short.isSome ∧ LongOk l

/-- The metadata can be written. -/
structure Docstring.MetaOk (d : Docstring) : Prop where
  params : ∀ p ∈ d.params, DocName p.1 ∧ OneLine p.2
  paramNames : (d.params.map (·.1)).Nodup
  returns : ∀ s, d.returns = some s → OneLine s
  raises : ∀ p ∈ d.raises, DocName p.1 ∧ OneLine p.2
  raisesNames : (d.raises.map (·.1)).Nodup
  seeAlso : ∀ s ∈ d.seeAlso, OneLine s

/-- Well-formed docstrings. -/
structure Docstring.WellFormed (d : Docstring) : Prop where
  texts : d.DescOk
  fields : d.MetaOk

/-- `e` is an entry of the metadata of `text`: it starts with a colon at the start of a line and extends to the end of the text
or to the next line that starts with a colon. -/
structure MetaEntry (text e : Str) : Prop where
  colon : ∃ e', e = ':' :: e'
  inner : ∀ a b, e ≠ a ++ '\n' :: ':' :: b
  place : ∃ a r, text = a ++ e ++ r ∧ (a = [] ∨ ∃ a', a = a' ++ ['\n']) ∧ (r = [] ∨ (∃ r', r = ':' :: r') ∧ ∃ e', e = e' ++ ['\n'])

/-- The entry has no colon after the leading colons. -/
def NoSecondColon (e : Str) : Prop := ∃ n r, e = List.replicate n ':' ++ r ∧ ':' ∉ r

end Verif
