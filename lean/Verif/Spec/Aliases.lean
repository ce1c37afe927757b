import Verif.Model.Aliases
import Verif.Spec.All2
/-!
# What a type with names in it stands for

The names are replaced by the types that they stand for.  If a name leads back to itself there is no end to this, so the replacement is
done to a depth: what is below is of no account for data that is not as deep.
-/
namespace Verif

/-- The type with arguments. -/
def AForm.type : AForm → List Ty → Option Ty
  | .list, [t] => some (.list t)
  | .set, [t] => some (.set t)
  | .dict k, [t] => some (.dict k t)
  | .tuple, ts => some (.tuple ts)
  | .union, ts => some (.union ts)
  | _, _ => none

/-- `t` is `o` with all names replaced, down to a depth of `n`; unions without tags do not count as depth.  Unions that have names in
them must not have tags. -/
inductive Unfolds (w : AliasWorld) : Nat → ATy → Ty → Prop
  | cut (o : ATy) (t : Ty) : Unfolds w 0 o t
  | plain (n : Nat) (t : Ty) : Unfolds w n (.ty t) t
  | node (n : Nat) (f : AForm) (os : List ATy) (ts : List Ty) (t : Ty) : f ≠ .union → os.length = ts.length →
      (∀ p ∈ os.zip ts, Unfolds w n p.1 p.2) → f.type ts = some t → Unfolds w (n + 1) (.node f os) t
  | union (n : Nat) (os : List ATy) (ts : List Ty) : os.length = ts.length → (∀ p ∈ os.zip ts, Unfolds w n p.1 p.2) →
      discProps w.env ts = [] → Unfolds w n (.node .union os) (.union ts)
  | annotated (n : Nat) (o : ATy) (t : Ty) : Unfolds w n o t → Unfolds w n (.annotated o) (.annotated t [])
  | text (n : Nat) (s : Str) (o : ATy) (t : Ty) : w.eval s = .ok o → Unfolds w n o t → Unfolds w n (.text s) t
  | ref (n : Nat) (s : Str) (o : ATy) (t : Ty) : w.eval s = .ok o → Unfolds w n o t → Unfolds w n (.ref s) t

/-- The object is a name for a type without names in it. -/
inductive Chain (w : AliasWorld) : ATy → Ty → Prop
  | plain (t : Ty) : Chain w (.ty t) t
  | text (s : Str) (o : ATy) (t : Ty) : w.eval s = .ok o → Chain w o t → Chain w (.text s) t
  | ref (s : Str) (o : ATy) (t : Ty) : w.eval s = .ok o → Chain w o t → Chain w (.ref s) t

/-- Number of arguments and types of keys are as they must be. -/
def AForm.Takes (env : Env) : AForm → Nat → Prop
  | .list, n | .set, n => n = 1
  | .dict k, n => n = 1 ∧ checkKeyTy env k = .ok ()
  | _, _ => True

/-- Types whose names are variables of the context: no expressions, no names directly within `Annotated`, no hidden tags. -/
inductive Proper (w : AliasWorld) : ATy → Prop
  | plain (t : Ty) (d : Deser) : compile w.env t = .ok d → Proper w (.ty t)
  | node (f : AForm) (os : List ATy) : f.Takes w.env os.length → (∀ o ∈ os, Proper w o) →
      (∀ ts, f = .union → All2 (Chain w) os ts → discProps w.env ts = []) → Proper w (.node f os)
  | annotated (o : ATy) : Proper w o → o.unwrap.name? = none → Proper w (.annotated o)
  | text (s : Str) (o : ATy) : s ≠ c!"typ" → s ≠ c!"module" → lookupKey s w.vars = some o → Proper w (.text s)
  | ref (s : Str) (o : ATy) : s ≠ c!"typ" → s ≠ c!"module" → lookupKey s w.vars = some o → Proper w (.ref s)

/-- The variables of the context are such types, and not names themselves. -/
def AliasWorld.Proper (w : AliasWorld) : Prop := ∀ s o, (s, o) ∈ w.vars → Verif.Proper w o ∧ o.unwrap.name? = none

mutual
/-- Nesting of lists and objects. -/
def Json.levels : Json → Nat
  | .arr xs => levelsL xs + 1
  | .obj kvs => levelsP kvs + 1
  | _ => 0
/-- The greatest among the items. -/
def levelsL : List Json → Nat
  | [] => 0
  | x :: xs => max x.levels (levelsL xs)
/-- The greatest among the properties. -/
def levelsP : List (Str × Json) → Nat
  | [] => 0
  | (_, x) :: r => max x.levels (levelsP r)
end

/-- The cache is as it is after calls that ended without an exception: all deserializers are complete. -/
def AHeap.Complete (H : AHeap) : Prop := ∀ s, H s ≠ some none

/-- Caches that calls without an exception leave behind, the first of them with the cache empty. -/
inductive AHeap.Used (w : AliasWorld) : AHeap → Prop
  | fresh : Used w .empty
  | call (context : Bool) (n : Nat) (o : ATy) (H : AHeap) (r : AReader) (H' : AHeap) : Used w H → w.get context n o H = (.ok r, H') →
      Used w H'

/-- The name is that of the object, or of a member of a union, of a member of a member, and so on. -/
inductive Tops : ATy → Str → Prop
  | text (s : Str) : Tops (.text s) s
  | ref (s : Str) : Tops (.ref s) s
  | union (os : List ATy) (o : ATy) (s : Str) : o ∈ os → Tops o s → Tops (.node .union os) s
  | annotated (o : ATy) (s : Str) : Tops o s → Tops (.annotated o) s

/-- No name leads back to itself by way of unions only. -/
def AliasWorld.Guarded (w : AliasWorld) : Prop :=
  ∃ rank : Str → Nat, ∀ s o s', lookupKey s w.vars = some o → Tops o s' → rank s' < rank s

/-- The outcome of the call, provided that it may be nested deep enough. -/
def AliasWorld.Outcome (w : AliasWorld) (H : AHeap) (r : AReader) (j : Json) (v : Res Val) : Prop :=
  ∃ N, ∀ n, N ≤ n → w.read H n r j = some v

end Verif
