import Verif.Model.Core
import Verif.Model.StrOps
/-!
# Docstrings

Parsing, formatting and checking of ReST-style documentation strings (strong_typing/docstring.py).

Simplified: the dictionaries `params` and `raises` map a name to its description, since `DocstringParam.name` and
`DocstringRaises.typename` repeat the key (strong_typing/docstring.py:289-297); the types that `parse_type` assigns are kept beside
the docstring; messages of exceptions are left out.
-/
namespace Verif

/-- White space for `str.strip`, `str.lstrip`, `str.split` and `\s`: `str.isspace`. -/
def pySpace (c : Char) : Bool :=
  (9 ≤ c.toNat && c.toNat ≤ 13) || (28 ≤ c.toNat && c.toNat ≤ 32) || c.toNat = 0x85 || c.toNat = 0xA0 || c.toNat = 0x1680 ||
    (0x2000 ≤ c.toNat && c.toNat ≤ 0x200A) || c.toNat = 0x2028 || c.toNat = 0x2029 || c.toNat = 0x202F || c.toNat = 0x205F ||
    c.toNat = 0x3000

/-- `Docstring` (strong_typing/docstring.py:101-129). -/
structure Docstring where
  short : Option Str := none
  long : Option Str := none
  params : List (Str × Str) := []
  returns : Option Str := none
  raises : List (Str × Str) := []
  seeAlso : List Str := []
  deriving DecidableEq

/-! ### `str(docstring)` -/

/-- `DocstringParam.__str__` (strong_typing/docstring.py:48-49). -/
def paramStr (p : Str × Str) : Str := c!":param " ++ p.1 ++ c!": " ++ p.2

/-- `DocstringReturns.__str__` (strong_typing/docstring.py:63-64). -/
def returnsStr (d : Str) : Str := c!":returns: " ++ d

/-- `DocstringRaises.__str__` (strong_typing/docstring.py:80-81). -/
def raisesStr (p : Str × Str) : Str := c!":raises " ++ p.1 ++ c!": " ++ p.2

/-- `DocstringSeeAlso.__str__` (strong_typing/docstring.py:97-98). -/
def seeStr (d : Str) : Str := c!":see: " ++ d

/-- Truth value of an optional string. -/
def optTrue : Option Str → Bool
  | none => false
  | some s => !s.isEmpty

/-- The description that is written (strong_typing/docstring.py:146-152). -/
def Docstring.descText (d : Docstring) : Str :=
  match d.short, d.long with
  | some s, some l => if s.isEmpty then [] else if l.isEmpty then s else s ++ c!"\n\n" ++ l
  | some s, none => s
  | none, _ => []

/-- The lines that are written for the blocks, in order (strong_typing/docstring.py:158-169). -/
def Docstring.fieldLines (d : Docstring) : List Str :=
  d.params.map paramStr ++ (d.returns.toList.map returnsStr) ++ d.raises.map raisesStr ++ d.seeAlso.map seeStr

/-- `Docstring.__str__` (strong_typing/docstring.py:140-173). -/
def Docstring.str (d : Docstring) : Str :=
  let hasDescription := optTrue d.short || optTrue d.long
  let hasBlocks := !d.params.isEmpty || d.returns.isSome || !d.raises.isEmpty || !d.seeAlso.isEmpty
  (if hasDescription then d.descText else []) ++
    if hasBlocks then (if hasDescription then c!"\n" else []) ++ d.fieldLines.flatMap (fun f => '\n' :: f) else []

/-! ### `inspect.cleandoc` -/

/-- `str.expandtabs()` with the column as parameter (CPython 3.11 `unicode_expandtabs`, tab size 8). -/
def expandTabs : Nat → Str → Str
  | _, [] => []
  | col, c :: r =>
    if c = '\t' then List.replicate (8 - col % 8) ' ' ++ expandTabs (col + (8 - col % 8)) r
    else c :: expandTabs (if c = '\n' || c = '\r' then 0 else col + 1) r

/-- Indentation of a line, if the line is not blank (inspect.py:876-879). -/
def lineIndent (l : Str) : Option Nat :=
  let content := (l.dropWhile pySpace).length
  if content = 0 then none else some (l.length - content)

/-- `margin` after the lines; `none` stands for `sys.maxsize` (inspect.py:874-879). -/
def marginOf : List Str → Option Nat
  | [] => none
  | l :: r => match lineIndent l, marginOf r with
    | none, m => m
    | some i, none => some i
    | some i, some m => some (min i m)

/-- The later lines without the margin (inspect.py:883-884). -/
def dedent (m : Option Nat) (ls : List Str) : List Str :=
  match m with
  | none => ls
  | some k => ls.map (List.drop k)

/-- `inspect.cleandoc` (inspect.py:863-890). -/
def cleandoc (doc : Str) : Str :=
  match splitOn '\n' (expandTabs 0 doc) with
  | [] => []
  | l :: ls =>
    let lines := l.dropWhile pySpace :: dedent (marginOf ls) ls
    let lines := (lines.reverse.dropWhile List.isEmpty).reverse
    joinWith '\n' (lines.dropWhile List.isEmpty)

/-! ### `parse_text` -/

/-- Splits a text at the first match of `^:`; the flag tells whether the text continues at the start of a line
(strong_typing/docstring.py:252-258). -/
def splitMeta : Bool → Str → Str × Str
  | _, [] => ([], [])
  | b, c :: r => if b && c = ':' then ([], c :: r) else
    let p := splitMeta (c = '\n') r
    (c :: p.1, p.2)

/-- `desc_chunk.split("\n\n", 1)` (strong_typing/docstring.py:261). -/
def splitPara : Str → Str × Option Str
  | [] => ([], none)
  | [c] => ([c], none)
  | c :: d :: r => if c = '\n' && d = '\n' then ([], some r) else
    let p := splitPara (d :: r)
    (c :: p.1, p.2)

/-- `s or None`. -/
def strOrNone (s : Str) : Option Str := if s.isEmpty then none else some s

/-- `str.strip()`. -/
def pyStrip (s : Str) : Str := stripBy pySpace s

/-- Matches of `(^:.*?)(?=^:|\Z)`, preceded by the text before the first match; the flag as in `splitMeta`
(strong_typing/docstring.py:276). -/
def splitChunks : Bool → Str → Str × List Str
  | _, [] => ([], [])
  | b, c :: r =>
    let p := splitChunks (c = '\n') r
    if b && c = ':' then ([], (c :: p.1) :: p.2) else (c :: p.1, p.2)

/-- `s.split(":", 1)`: the parts around the first colon, if there is one. -/
def splitColon : Str → Option (Str × Str)
  | [] => none
  | c :: r => if c = ':' then some ([], r) else (splitColon r).map (fun p => (c :: p.1, p.2))

/-- Parts between characters that satisfy `p`. -/
def splitBy (p : Char → Bool) : Str → List Str
  | [] => [[]]
  | c :: r => if p c then [] :: splitBy p r else match splitBy p r with
    | [] => [[c]]
    | w :: ws => (c :: w) :: ws

/-- `s.split()`: words between runs of white space. -/
def pyWords (s : Str) : List Str := (splitBy pySpace s).filter (fun w => !w.isEmpty)

/-- `re.sub(r"\s+", " ", s)`; the flag tells whether the previous character belongs to a run of white space. -/
def collapseSpace : Bool → Str → Str
  | _, [] => []
  | b, c :: r => if pySpace c then (if b then collapseSpace true r else ' ' :: collapseSpace true r) else c :: collapseSpace false r

/-- What one entry of the metadata block adds. -/
inductive DocField where
  | param (name desc : Str)
  | raises (name desc : Str)
  | returns (desc : Str)
  | see (desc : Str)
  | ignored
  deriving DecidableEq

/-- Classification of one entry by its words (strong_typing/docstring.py:285-303). -/
def fieldOf (args : List Str) (desc : Str) : DocField :=
  match args with
  | [] => .ignored
  | [kw] =>
    if kw = c!"return" || kw = c!"returns" then .returns desc
    else if kw = c!"see" || kw = c!"seealso" then .see desc
    else .ignored
  | [kw, name] =>
    if kw = c!"param" then .param name desc
    else if kw = c!"raise" || kw = c!"raises" then .raises name desc
    else .ignored
  | _ => .ignored

/-- One entry; unpacking raises `ValueError` when the entry has no second colon (strong_typing/docstring.py:281-303). -/
def parseDocField (chunk : Str) : Res DocField :=
  match splitColon (chunk.dropWhile (· = ':')) with
  | none => .error .valueError
  | some (argsChunk, descChunk) => .ok (fieldOf (pyWords argsChunk) (collapseSpace false (pyStrip descChunk)))

/-- The dictionaries and lists after one entry (strong_typing/docstring.py:289-303). -/
def addField (d : Docstring) : DocField → Docstring
  | .param n s => { d with params := upsert n s d.params }
  | .raises n s => { d with raises := upsert n s d.raises }
  | .returns s => { d with returns := some s }
  | .see s => { d with seeAlso := d.seeAlso ++ [s] }
  | .ignored => d

/-- The loop over the entries (strong_typing/docstring.py:276-303). -/
def parseDocFields : List Str → Docstring → Res Docstring
  | [], d => .ok d
  | c :: cs, d => (parseDocField c).bind (fun f => parseDocFields cs (addField d f))

/-- The long description (strong_typing/docstring.py:267-270). -/
def longOf : Option Str → Option Str
  | some l => strOrNone (pyStrip l)
  | none => none

/-- `parse_text` (strong_typing/docstring.py:239-312). -/
def parseText (text : Str) : Res Docstring :=
  if text.isEmpty then .ok {} else
  let dm := splitMeta true (cleandoc text)
  let parts := splitPara dm.1
  let short := strOrNone ((pyStrip parts.1).map (fun c => if c = '\n' then ' ' else c))
  parseDocFields (splitChunks true dm.2).2 { short := short, long := longOf parts.2 }

/-! ### Checks -/

/-- `inspect.Parameter.kind`. -/
inductive ParamKind where
  | positionalOnly | positionalOrKeyword | varPositional | keywordOnly | varKeyword
  deriving DecidableEq

/-- `inspect.Signature`: parameters in order and whether there is a return annotation. -/
structure DocSig where
  params : List (Str × ParamKind)
  hasReturn : Bool

/-- Property names of a data class, and of the other classes in its method resolution order. -/
structure DocClass where
  props : List Str
  bases : List (List Str)

/-- `properties` (strong_typing/docstring.py:373-383). -/
def DocClass.own (k : DocClass) : List Str := k.props.filter (fun n => !(k.bases.any (fun b => b.contains n)))

/-- `check_dataclass_docstring` (strong_typing/docstring.py:362-396). -/
def checkDataclassDoc (k : DocClass) (d : Docstring) (strict : Bool) : Res Unit :=
  if d.params.any (fun p => !k.own.contains p.1) then .error .typeError
  else if !strict then .ok ()
  else if k.own.any (fun n => !(d.params.map (·.1)).contains n) then .error .typeError
  else .ok ()

/-- `self` in a member function (strong_typing/docstring.py:421-425). -/
def isSelfParam (p : Str × ParamKind) : Bool := p.1 = c!"self" && (p.2 = .positionalOnly || p.2 = .positionalOrKeyword)

/-- `check_function_docstring` (strong_typing/docstring.py:399-431). -/
def checkFunctionDoc (g : DocSig) (d : Docstring) (strict : Bool) : Res Unit :=
  if d.params.any (fun p => !(g.params.map (·.1)).contains p.1) then .error .typeError
  else if d.returns.isSome && !g.hasReturn then .error .typeError
  else if !strict then .ok ()
  else if g.params.any (fun p => !isSelfParam p && !(d.params.map (·.1)).contains p.1) then .error .typeError
  else if g.hasReturn && d.returns.isNone then .error .typeError
  else .ok ()

/-! ### `parse_type` -/

/-- What a docstring is attached to; `τ` stands for types. -/
inductive DocTarget (τ : Type) where
  /-- A data class: its name, the annotated types of its properties, the property names of its base classes. -/
  | dataclass (name : Str) (props : List (Str × τ)) (bases : List (List Str))
  /-- A function: parameters with kind and annotation, return annotation. -/
  | function (params : List (Str × ParamKind × τ)) (ret : Option τ)
  /-- An enumeration type. -/
  | enum
  /-- Anything else. -/
  | other

/-- `has_default_docstring` (strong_typing/docstring.py:315-327); the pattern is the class name followed by a parenthesised text
without line breaks, and possibly one line break. -/
def hasDefaultDoc (t : DocTarget τ) (doc : Str) : Bool :=
  match t with
  | .dataclass name _ _ =>
    let body := if endsWith c!"\n" doc then dropEnd 1 doc else doc
    let tail := body.drop (name.length + 1)
    (name ++ ['(']).isPrefixOf body && endsWith c!")" tail && !tail.contains '\n'
  | .enum => doc = c!"An enumeration."
  | _ => false

/-- `get_docstring` (strong_typing/docstring.py:339-346). -/
def getDocstring (t : DocTarget τ) : Option Str → Option Str
  | none => none
  | some doc => if hasDefaultDoc t doc then none else some doc

/-- `check_docstring` (strong_typing/docstring.py:349-359). -/
def checkDoc (t : DocTarget τ) (d : Docstring) (strict : Bool) : Res Unit :=
  match t with
  | .dataclass _ props bases => checkDataclassDoc ⟨props.map (·.1), bases⟩ d strict
  | .function params ret => checkFunctionDoc ⟨params.map (fun p => (p.1, p.2.1)), ret.isSome⟩ d strict
  | _ => .ok ()

/-- Types of members and exceptions that `parse_type` assigns; an unassigned type is `none`. -/
structure TypedDoc (τ ε : Type) where
  doc : Docstring
  paramTypes : List (Str × Option τ) := []
  returnType : Option τ := none
  raiseTypes : List (Str × Option ε) := []

/-- Types of the documented parameters (strong_typing/docstring.py:206-215); a missing name is a `KeyError`. -/
def assignParams (types : List (Str × τ)) : List (Str × Str) → Res (List (Str × Option τ))
  | [] => .ok []
  | (n, _) :: r => match lookupKey n types with
    | none => .error .key
    | some t => (assignParams types r).map ((n, some t) :: ·)

/-- Types of the documented exceptions (strong_typing/docstring.py:225-234). -/
def assignRaises (context : List (Str × ε)) : List (Str × Str) → Res (List (Str × Option ε))
  | [] => .ok []
  | (n, _) :: r => match lookupKey n context with
    | none => .error .typeError
    | some t => (assignRaises context r).map ((n, some t) :: ·)

/-- Types of parameters and of the return value (strong_typing/docstring.py:205-217). -/
def assignTypes (t : DocTarget τ) (d : Docstring) : Res (List (Str × Option τ) × Option τ) :=
  match t with
  | .dataclass _ props _ => (assignParams props d.params).map (fun ps => (ps, none))
  | .function params ret =>
    (assignParams (params.map (fun p => (p.1, p.2.2))) d.params).map (fun ps => (ps, if d.returns.isSome then ret else none))
  | _ => .ok (d.params.map (fun p => (p.1, none)), none)

/-- `parse_type` (strong_typing/docstring.py:190-236).  `context` lists the exception classes of `builtins` and of the defining
module, as a dictionary; it is `none` when `inspect.getmodule` finds no module. -/
def parseType (t : DocTarget τ) (context : Option (List (Str × ε))) (doc : Option Str) : Res (TypedDoc τ ε) :=
  match getDocstring t doc with
  | none => .ok { doc := {} }
  | some text =>
    (parseText text).bind fun d =>
    (checkDoc t d false).bind fun _ =>
    (assignTypes t d).bind fun ty =>
    match context with
    | none => .ok { doc := d, paramTypes := ty.1, returnType := ty.2, raiseTypes := d.raises.map (fun p => (p.1, none)) }
    | some ctx => (assignRaises ctx d.raises).map
        (fun rs => { doc := d, paramTypes := ty.1, returnType := ty.2, raiseTypes := rs })

end Verif
