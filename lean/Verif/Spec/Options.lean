import Verif.Spec.Cache
/-!
# Reading with an option for each class
-/
namespace Verif

/-- The cache in which every class has its deserializer, made with the option given for this class. -/
def heapBy (env : Env) (opt : Nat → Bool) : Heap := fun k =>
  match firstIdx (fun e => e.key = k) 0 env.enums with
  | some (e, _) => some (.enum e)
  | Option.none =>
    match firstIdx (fun c => c.key = k) 0 env.classes with
    | some (c, cd) => some (classEntry env (opt c) c cd)
    | Option.none => Option.none

/-- Reading in which `opt c` says whether unknown properties of objects of class `c` are ignored. -/
def loadsBy (env : Env) (opt : Nat → Bool) (t : Ty) (j : Json) : Res Val :=
  match compile env t with
  | .error e => .error e
  | .ok d => parse env (heapBy env opt) j d

open Classical in
/-- The option of the first of the calls that leads to the class; the last argument if there is none. -/
noncomputable def inForce (env : Env) : List Call → Bool → Nat → Bool
  | [], skip, _ => skip
  | call :: calls, skip, c => if Reaches env call.ty c then call.skip else inForce env calls skip c

end Verif
