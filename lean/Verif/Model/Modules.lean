import Verif.Model.Docstring
import Verif.Model.Serializer
/-!
# Members of modules, and the presence of documentation

Functions of inspection.py that list the classes and functions of a module or make a new module, and functions of docstring.py
that look for exceptions and documentation.  Objects are known by a number each; a module is its name and its attributes, which
have different names.  Modules with a `__dir__` or `__getattr__` function are left out.
-/
namespace Verif

/-- An attribute of a module: a class with its `__module__`, and whether it derives from `BaseException`; a function written in
Python with its `__module__`; or any other object. -/
inductive ModObj where
  | cls (id : Nat) (module : Str) (exception : Bool)
  | func (id : Nat) (module : Str)
  | other (id : Nat)
  deriving DecidableEq

/-- A module: `__name__` and attributes. -/
structure PyModule where
  name : Str
  attrs : List (Str × ModObj)

/-- `inspect.getmembers` of a module (CPython, Lib/inspect.py:550-595): attributes that satisfy the predicate, by name. -/
def getMembers (p : ModObj → Bool) (m : PyModule) : List (Str × ModObj) := sortByName (m.attrs.filter fun a => p a.2)

/-- `get_module_classes`, inspection.py:536-542. -/
def getModuleClasses (m : PyModule) : List ModObj :=
  (getMembers (fun | .cls _ mod _ => mod = m.name | _ => false) m).map (·.2)

/-- `get_module_functions`, inspection.py:545-551. -/
def getModuleFunctions (m : PyModule) : List ModObj :=
  (getMembers (fun | .func _ mod => mod = m.name | _ => false) m).map (·.2)

/-- `is_exception`, docstring.py:176-177. -/
def isException : ModObj → Bool
  | .cls _ _ e => e
  | _ => false

/-- `get_exceptions`, docstring.py:180-183. -/
def getExceptions (m : PyModule) : List (Str × ModObj) := getMembers isException m

/-- The dictionary `context` of `parse_type`, docstring.py:222-224. -/
def excContext (builtins m : PyModule) : List (Str × ModObj) :=
  ((getExceptions builtins ++ getExceptions m).foldl (fun d a => upsert a.1 a.2 d) [])

/-- `create_module`, inspection.py:739-754, on `sys.modules`: a module without loader has special attributes only, none of
which is a class or a function. -/
def createModule (fresh : Nat) (name : Str) (modules : List (Str × PyModule)) : Res (List (Str × PyModule) × PyModule) :=
  if (lookupKey name modules).isSome then .error .key
  else
    let m : PyModule := ⟨name, [c!"__name__", c!"__doc__", c!"__package__", c!"__loader__", c!"__spec__"].map fun n => (n, .other fresh)⟩
    .ok (upsert name m modules, m)

/-- `has_docstring`, docstring.py:330-336. -/
def hasDocstring (t : DocTarget τ) (doc : Option Str) : Bool :=
  match doc with
  | none => false
  | some d => if hasDefaultDoc t d then false else !d.isEmpty

/-- `Docstring.full_description`, docstring.py:132-138. -/
def Docstring.full (d : Docstring) : Option Str :=
  if optTrue d.short && optTrue d.long then some (d.short.getD [] ++ c!"\n\n" ++ d.long.getD [])
  else if optTrue d.short then d.short
  else none

end Verif
