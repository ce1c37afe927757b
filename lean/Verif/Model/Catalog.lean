import Verif.Model.Core
/-!
# Catalog of types with a schema: strong_typing/schema.py

`κ` stands for the hashable type-like objects of Python, `σ` for schemas and `ε` for lists of examples.
-/
namespace Verif

/-- `TypeCatalogEntry`, schema.py:120-124. -/
structure CatEntry (σ ε : Type) where
  schema : Option σ
  identifier : Str
  examples : Option ε

/-- `TypeCatalog`, schema.py:127-135.  The dictionaries are association lists in insertion order. -/
structure Catalog (κ σ ε : Type) where
  byType : List (κ × CatEntry σ ε)
  byName : List (Str × CatEntry σ ε)

/-- A type or a forward reference to a type by name. -/
inductive TypeRef (κ : Type) where
  | ty (t : κ)
  | fwd (name : Str)

variable {κ σ ε : Type} [DecidableEq κ]

/-- `TypeCatalog.__init__`, schema.py:133-135. -/
def Catalog.empty : Catalog κ σ ε := ⟨[], []⟩

/-- `TypeCatalog.__contains__`, schema.py:137-143. -/
def Catalog.contains (cat : Catalog κ σ ε) : TypeRef κ → Bool
  | .fwd n => (lookupKey n cat.byName).isSome
  | .ty t => (lookupKey t cat.byType).isSome

/-- `TypeCatalog.add`, schema.py:145-160.  The result is the exception, if any, and the new state. -/
def Catalog.add (cat : Catalog κ σ ε) (t : TypeRef κ) (schema : Option σ) (identifier : Str) (examples : Option ε) :
    Res Unit × Catalog κ σ ε :=
  match t with
  | .fwd _ => (.error .typeError, cat)
  | .ty t =>
    if (lookupKey t cat.byType).isSome then (.error .valueError, cat)
    else
      let entry : CatEntry σ ε := ⟨schema, identifier, examples⟩
      (.ok (), ⟨upsert t entry cat.byType, upsert identifier entry cat.byName⟩)

/-- `TypeCatalog.get`, schema.py:162-168. -/
def Catalog.get (cat : Catalog κ σ ε) : TypeRef κ → Res (CatEntry σ ε)
  | .fwd n => match lookupKey n cat.byName with | some e => .ok e | none => .error .key
  | .ty t => match lookupKey t cat.byType with | some e => .ok e | none => .error .key

/-- `get_schema_identifier`, schema.py:614-618, on the given catalog. -/
def getSchemaIdentifier (cat : Catalog κ σ ε) (t : TypeRef κ) : Res (Option Str) :=
  if cat.contains t then
    (match cat.get t with
     | .ok e => .ok (some e.identifier)
     | .error e => .error e)
  else .ok none

/-- The arguments of a call of `register_schema`. -/
structure RegCall (κ σ ε : Type) where
  ty : TypeRef κ
  schema : Option σ := none
  name : Option Str := none
  examples : Option ε := none

/-- `register_schema`, schema.py:621-642.  `nameOf` is `python_type_to_name`. -/
def register (nameOf : TypeRef κ → Res Str) (c : RegCall κ σ ε) (cat : Catalog κ σ ε) : Res Unit × Catalog κ σ ε :=
  match c.name with
  | some n => cat.add c.ty c.schema n c.examples
  | none =>
    match nameOf c.ty with
    | .error e => (.error e, cat)
    | .ok n => cat.add c.ty c.schema n c.examples

/-- The catalog after a sequence of calls of `register_schema`; exceptions are caught by the caller. -/
def registerAll (nameOf : TypeRef κ → Res Str) : List (RegCall κ σ ε) → Catalog κ σ ε → Catalog κ σ ε
  | [], cat => cat
  | c :: cs, cat => registerAll nameOf cs (register nameOf c cat).2

end Verif
