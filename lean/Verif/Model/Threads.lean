import Verif.Model.Cache
/-!
# Several threads that deserialize at the same time: strong_typing/deserializer.py

The operations on shared data are atomic (one byte code under the global interpreter lock each): `_CACHE.get(key)`
(deserializer.py:859), the creation of a deserializer object (deserializer.py:861), `_CACHE[key] = ...`
(deserializer.py:864), and the assignment of `property_parsers` and `property_fields` (deserializer.py:667-669, two
operations, taken as one).  Everything else is private to a thread.  `parse` is taken as one step; it only reads shared
data.

Several objects may be created for one class, so that objects have numbers of their own.  A number is written as a key
made of `*`, which allows to use `Deser.ref`, `Heap` and `parse` for objects, too.
-/
namespace Verif

/-- Name of object number `i`. -/
def objKey (i : Nat) : TKey := ([], List.replicate i '*')

/-- Shared data: the objects by name, their number, and `_CACHE`. -/
structure Shared where
  store : Heap
  next : Nat
  cache : TKey → Option TKey

/-- The rest of the run of `_get_deserializer`: next operation on shared data and how it goes on. -/
inductive Prog where
  /-- return or raise -/
  | ret (r : Res Deser)
  /-- `_CACHE.get(k)` -/
  | get (k : TKey) (cont : Option TKey → Prog)
  /-- a new object -/
  | new (e : Entry) (cont : TKey → Prog)
  /-- `_CACHE[k] = o` -/
  | put (k o : TKey) (cont : Prog)
  /-- `o.property_parsers = fds` -/
  | assign (o : TKey) (fds : List FieldD) (cont : Prog)

/-- How an object for a class that is not in the cache is made. -/
abbrev BuilderP := Nat → ClassDef → (TKey → Prog) → Prog

/-- `_get_deserializer` for a class, deserializer.py:855-871. -/
def getClsP (env : Env) (bld : BuilderP) (c : Nat) (cont : TKey → Prog) : Prog :=
  match env.classes[c]? with
  | Option.none => .ret (.error .outOfModel)
  | some cd => .get cd.key (fun r => match r with | some o => cont o | Option.none => bld c cd cont)

/-- `_get_deserializer` for an enumeration, deserializer.py:855-871. -/
def getEnumP (env : Env) (e : Nat) (cont : TKey → Prog) : Prog :=
  match env.enums[e]? with
  | Option.none => .ret (.error .outOfModel)
  | some ed => .get ed.key (fun r => match r with
      | some o => cont o
      | Option.none => .new (.enum e) (fun o => .put ed.key o (cont o)))

/-- `_get_deserializer` for a member of a tagged union. -/
def getMemberP (env : Env) (bld : BuilderP) (t : Ty) (cont : TKey → Prog) : Prog :=
  match t with
  | .cls c => getClsP env bld c cont
  | .enum e => getEnumP env e cont
  | _ => .ret (.error .outOfModel)

/-- `TaggedUnionDeserializer.build`, deserializer.py:462-478. -/
def buildTagsP (env : Env) (bld : BuilderP) : List (Str × Lit × TKey) → List (Str × Lit × Ty) →
    (List (Str × Lit × TKey) → Prog) → Prog
  | table, [], cont => cont table
  | table, (p, l, t) :: r, cont =>
    if table.any (fun e => e.1 = p && e.2.1.pyEq l) then .ret (.error .jsonType)
    else getMemberP env bld t (fun o => buildTagsP env bld (table ++ [(p, l, o)]) r cont)

/-- `LiteralDeserializer`, deserializer.py:515-529. -/
def getLitP (env : Env) (ls : List Lit) (cont : Deser → Prog) : Prog :=
  match ls with
  | [] => .ret (.error .typeError)
  | l :: r =>
    if r.all (fun m => l.sameTy m) then
      match l with
      | .enum e _ => getEnumP env e (fun o => cont (.literal (l :: r) (.ref o)))
      | _ => (match litDeser env l with
         | .ok d => cont (.literal (l :: r) d)
         | .error e => .ret (.error e))
    else .ret (.error .typeError)

mutual
/-- `_get_deserializer` and `_create_deserializer`, deserializer.py:835-974. -/
def getP (env : Env) (bld : BuilderP) : Ty → (Deser → Prog) → Prog
  | .none, cont => cont .none
  | .bool, cont => cont .bool
  | .int, cont => cont .int
  | .float, cont => cont .float
  | .str, cont => cont .str
  | .bytes, cont => cont .bytes
  | .datetime, cont => cont .datetime
  | .date, cont => cont .date
  | .time, cont => cont .time
  | .timedelta, cont => cont .timedelta
  | .uuid, cont => cont .uuid
  | .ipv4, cont => cont .ipv4
  | .ipv6, cont => cont .ipv6
  | .bareList, _ => .ret (.error .typeError)
  | .bareDict, _ => .ret (.error .typeError)
  | .bareSet, _ => .ret (.error .typeError)
  | .bareTuple, _ => .ret (.error .typeError)
  | .list t, cont => getP env bld t (fun d => cont (.list d))
  | .dict k t, cont =>
    (match checkKeyTy env k with
     | .error e => .ret (.error e)
     | .ok _ => getP env bld t (fun d => cont (.dict k d)))
  | .set t, cont => getP env bld t (fun d => cont (.set d))
  | .tuple ts, cont => getPL env bld ts (fun ds => cont (.tuple ds))
  | .union ts, cont =>
    if discProps env ts = [] then getPL env bld ts (fun ds => cont (.union ds))
    else buildTagsP env bld [] (tagTyItems env ts) (fun table => cont (.tagged (env.setOrder (discProps env ts)) table))
  | .literal ls, cont => getLitP env ls cont
  | .annotated t _, cont => getP env bld t cont
  | .enum e, cont => getEnumP env e (fun o => cont (.ref o))
  | .cls c, cont => getClsP env bld c (fun o => cont (.ref o))
/-- A sequence of types. -/
def getPL (env : Env) (bld : BuilderP) : List Ty → (List Deser → Prog) → Prog
  | [], cont => cont []
  | t :: ts, cont => getP env bld t (fun d => getPL env bld ts (fun ds => cont (d :: ds)))
end

/-- The field deserializers of a class: `build`, deserializer.py:700-709, 723-755, 775-796. -/
def getFieldsP (env : Env) (bld : BuilderP) (kind : ClassKind) : List FieldDef → (List FieldD → Prog) → Prog
  | [], cont => cont []
  | f :: r, cont =>
    getP env bld (fieldTy kind f) (fun d =>
      getFieldsP env bld kind r (fun fds => cont (⟨fieldProp kind f, f.name, d, fieldMode kind f⟩ :: fds)))

/-- A class that is not in the cache: the new object is stored before `build` is called, deserializer.py:860-871. -/
def buildClsP (env : Env) (skip : Bool) : Nat → BuilderP
  | n, c, cd, cont =>
    if cd.custom then .new (.custom c) (fun o => .put cd.key o (cont o))
    else
      .new (.cls c skip Option.none) (fun o => .put cd.key o
        (match n with
         | 0 => .ret (.error .recursion)
         | n + 1 => getFieldsP env (buildClsP env skip n) cd.kind cd.hints (fun fds => .assign o fds (cont o))))

/-- `create_deserializer(typ, options=...)`, deserializer.py:799-829. -/
def createP (env : Env) (skip : Bool) (t : Ty) : Prog := getP env (buildClsP env skip env.classes.length) t (fun d => .ret (.ok d))

/-- A thread that calls `json_to_object`: still creating the deserializer, or done. -/
inductive Thread where
  | running (p : Prog) (j : Json)
  | done (r : Res Val)

/-- A thread that is about to call `json_to_object(t, j, options=...)`, serialization.py:41-99. -/
def Thread.start (env : Env) (skip : Bool) (t : Ty) (j : Json) : Thread := .running (createP env skip t) j

/-- A new object, deserializer.py:861. -/
def Shared.new (s : Shared) (e : Entry) : Shared :=
  { s with store := s.store.put (objKey s.next) e, next := s.next + 1 }

/-- `_CACHE[k] = o`, deserializer.py:864. -/
def Shared.put (s : Shared) (k o : TKey) : Shared :=
  { s with cache := fun k' => if k' = k then some o else s.cache k' }

/-- `o.property_parsers = ...` and `o.property_fields = ...`, deserializer.py:667-669. -/
def Shared.assign (s : Shared) (o : TKey) (fds : List FieldD) : Shared :=
  match s.store o with
  | some (.cls c skip _) => { s with store := s.store.put o (.cls c skip (some fds)) }
  | _ => s

/-- The next operation of a thread. -/
def Thread.step (env : Env) (s : Shared) : Thread → Shared × Thread
  | .done r => (s, .done r)
  | .running (.ret (.error e)) _ => (s, .done (.error e))
  | .running (.ret (.ok d)) j => (s, .done (parse env s.store j d))
  | .running (.get k cont) j => (s, .running (cont (s.cache k)) j)
  | .running (.new e cont) j => (s.new e, .running (cont (objKey s.next)) j)
  | .running (.put k o cont) j => (s.put k o, .running cont j)
  | .running (.assign o fds cont) j => (s.assign o fds, .running cont j)

/-- One step of the system: thread number `i` does its next operation. -/
def sysStep (env : Env) (s : Shared × List Thread) (i : Nat) : Shared × List Thread :=
  match s.2[i]? with
  | Option.none => s
  | some th => ((th.step env s.1).1, s.2.set i (th.step env s.1).2)

/-- A schedule is a sequence of thread numbers. -/
def sysRun (env : Env) (s : Shared × List Thread) (sched : List Nat) : Shared × List Thread := sched.foldl (sysStep env) s

/-- Shared data of a fresh interpreter. -/
def Shared.empty : Shared := ⟨Heap.empty, 0, fun _ => Option.none⟩

end Verif
