import Verif.Model.Collector
/-!
# Which classes a type refers to
-/
namespace Verif

/-- A class occurs in a type expression, as the type itself or through generic arguments.  `None` is not counted, and
literals contain values rather than types. -/
inductive TypeMentions : Ty → Node → Prop
  | bool : TypeMentions .bool (.atom .bool)
  | int : TypeMentions .int (.atom .int)
  | float : TypeMentions .float (.atom .float)
  | str : TypeMentions .str (.atom .str)
  | bytes : TypeMentions .bytes (.atom .bytes)
  | datetime : TypeMentions .datetime (.atom .datetime)
  | date : TypeMentions .date (.atom .date)
  | time : TypeMentions .time (.atom .time)
  | timedelta : TypeMentions .timedelta (.atom .timedelta)
  | uuid : TypeMentions .uuid (.atom .uuid)
  | ipv4 : TypeMentions .ipv4 (.atom .ipv4)
  | ipv6 : TypeMentions .ipv6 (.atom .ipv6)
  | bareList : TypeMentions .bareList (.atom .list)
  | bareDict : TypeMentions .bareDict (.atom .dict)
  | bareSet : TypeMentions .bareSet (.atom .set)
  | bareTuple : TypeMentions .bareTuple (.atom .tuple)
  | enum {e} : TypeMentions (.enum e) (.enum e)
  | cls {c} : TypeMentions (.cls c) (.cls c)
  | list {t n} : TypeMentions t n → TypeMentions (.list t) n
  | set {t n} : TypeMentions t n → TypeMentions (.set t) n
  | dict {k t n} : TypeMentions t n → TypeMentions (.dict k t) n
  | strKey {t} : TypeMentions (.dict .str t) (.atom .str)
  | enumKey {e t} : TypeMentions (.dict (.enum e) t) (.enum e)
  | intKey {t} : TypeMentions (.dict .int t) (.atom .int)
  | otherKey {t} : TypeMentions (.dict .other t) (.atom .otherKey)
  | tuple {ts t n} : t ∈ ts → TypeMentions t n → TypeMentions (.tuple ts) n
  | union {ts t n} : t ∈ ts → TypeMentions t n → TypeMentions (.union ts) n
  | annotated {t ms n} : TypeMentions t n → TypeMentions (.annotated t ms) n

/-- A class has a member whose type mentions another class. -/
inductive Direct (env : Env) : Node → Node → Prop
  | field {c cd f n} : env.classes[c]? = some cd → f ∈ cd.hints → TypeMentions f.ty n → Direct env (.cls c) n

/-- Zero or more steps from class to class. -/
inductive Leads (env : Env) : Node → Node → Prop
  | refl {n} : Leads env n n
  | step {n m k} : Leads env n m → Direct env m k → Leads env n k

/-- A class is reachable from a type through generic arguments and class members. -/
def Reachable (env : Env) (t : Ty) (n : Node) : Prop := ∃ m, TypeMentions t m ∧ Leads env m n

/-- Classes that are mentioned exist. -/
def TyDefined (env : Env) (t : Ty) : Prop := ∀ c, TypeMentions t (.cls c) → c < env.classes.length

/-- All members refer to classes that exist. -/
def Env.Defined (env : Env) : Prop := ∀ cd ∈ env.classes, ∀ f ∈ cd.hints, TyDefined env f.ty

end Verif
