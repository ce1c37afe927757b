import Verif.Spec.SchemaBuild
/-!
# References to definitions that come before

What a document needs so that the types made from it do not depend on what was in the module before.
-/
namespace Verif

/-- References in the schema are to the given names.  (A line feed may follow a name.) -/
def RefsTo (K : Str → Prop) (s : Json) : Prop :=
  ∀ kvs, (Json.obj kvs).Within s → ∀ n, lookupKey c!"$ref" kvs = some (.str (defRef n)) ∨
    lookupKey c!"$ref" kvs = some (.str (defRef (n ++ ['\n']))) → K n

/-- References in definitions are to definitions that come before, and all other references are to definitions. -/
structure RefsBack (schema : Json) : Prop where
  definitions : ∀ pre x post, schemaDefs schema = pre ++ x :: post → RefsTo (· ∈ pre.map (·.1)) x.2
  document : RefsTo (· ∈ (schemaDefs schema).map (·.1)) schema

/-- There is a reference to the name in the schema. -/
def RefersTo (s : Json) (n : Str) : Prop :=
  ∃ kvs, (Json.obj kvs).Within s ∧ (lookupKey c!"$ref" kvs = some (.str (defRef n)) ∨
    lookupKey c!"$ref" kvs = some (.str (defRef (n ++ ['\n']))))

/-- Names that the document leaves to the module: a definition refers to them and they are not names of definitions that come before,
or there is a reference to them somewhere, and they are not names of definitions at all. -/
def FreeName (schema : Json) (n : Str) : Prop :=
  (∃ pre x post, schemaDefs schema = pre ++ x :: post ∧ RefersTo x.2 n ∧ n ∉ pre.map (·.1)) ∨
    RefersTo schema n ∧ n ∉ (schemaDefs schema).map (·.1)

/-- A name in two modules: there is the same type in both, or in each of them nothing has changed. -/
def SameOrKept (A B A' B' : List (Str × Ty)) (n : Str) : Prop :=
  lookupKey n A' = lookupKey n B' ∨ (lookupKey n A' = lookupKey n A ∧ lookupKey n B' = lookupKey n B)

end Verif
