import Verif.Model.Flatten
/-!
# The properties that a flattened schema is expected to have

A path leads from an object node through nested object nodes to a property.
-/
namespace Verif

/-- The node is a `JsonSchemaObject`. -/
def SNode.IsObject : SNode → Prop
  | .leaf _ => False
  | .object .. => True

/-- `path` leads to the property with node `v`.  With recursion: through any number of nested objects to a node that is not an
object.  Without recursion: to a property that is not an object, or to a property of an object one level below. -/
inductive FlatEntry (o : FlatOpts) : SNode → List Str → SNode → Prop
  | here {l a r x n j} : (n, .leaf j) ∈ l → FlatEntry o (.object (some l) a r x) [n] (.leaf j)
  | nested {l a r x n c p v} : o.recursive = true → (n, c) ∈ l → FlatEntry o c p v →
      FlatEntry o (.object (some l) a r x) (n :: p) v
  | one {l a r x n l' a' r' x' m v} : o.recursive = false → (n, .object (some l') a' r' x') ∈ l → (m, v) ∈ l' →
      FlatEntry o (.object (some l) a r x) [n, m] v

/-- The innermost object on the path requires the property that the path leads to. -/
inductive FlatReq (o : FlatOpts) : SNode → List Str → Prop
  | here {l a rs x n j} : (n, .leaf j) ∈ l → n ∈ rs → FlatReq o (.object (some l) a (some rs) x) [n]
  | nested {l a r x n c p} : o.recursive = true → (n, c) ∈ l → FlatReq o c p → FlatReq o (.object (some l) a r x) (n :: p)
  | one {l a r x n p' a' rs x' m} : o.recursive = false → (n, .object p' a' (some rs) x') ∈ l → m ∈ rs →
      FlatReq o (.object (some l) a r x) [n, m]

/-- Every object on the path requires its part of the path: a document must have the property. -/
inductive PathReq : SNode → List Str → Prop
  | here {l a rs x n j} : (n, .leaf j) ∈ l → n ∈ rs → PathReq (.object (some l) a (some rs) x) [n]
  | nested {l a rs x n c p} : (n, c) ∈ l → n ∈ rs → PathReq c p → PathReq (.object (some l) a (some rs) x) (n :: p)

/-- The name of a property in the result: the path joined with dots, or its last component. -/
def pathName (o : FlatOpts) (p : List Str) : Str := if o.qualified then joinWith '.' p else p.getLastD []

/-- Property names are the keys of a `dict`, so they are distinct within an object. -/
inductive SNode.Wf : SNode → Prop
  | leaf {j} : SNode.Wf (.leaf j)
  | none {a r x} : SNode.Wf (.object none a r x)
  | some {l a r x} : (l.map (·.1)).Nodup → (∀ p ∈ l, SNode.Wf p.2) → SNode.Wf (.object (some l) a r x)

/-- No two properties of the result have the same name. -/
def NoCollision (o : FlatOpts) (s : SNode) : Prop :=
  ∀ p q v w, FlatEntry o s p v → FlatEntry o s q w → pathName o p = pathName o q → p = q

/-- No property name contains a dot. -/
inductive DotFree : SNode → Prop
  | leaf {j} : DotFree (.leaf j)
  | none {a r x} : DotFree (.object none a r x)
  | some {l a r x} : (∀ p ∈ l, '.' ∉ p.1) → (∀ p ∈ l, DotFree p.2) → DotFree (.object (some l) a r x)

/-- Nested objects require only properties that they have. -/
def NestedConsistent : SNode → Prop
  | .leaf _ => True
  | .object none _ _ _ => True
  | .object (some l) _ _ _ => ∀ n c, (n, c) ∈ l → ∀ m ∈ c.required.getD [], m ∈ (c.props.getD []).map (·.1)

end Verif
