import Verif.Model.Deserializer
/-!
# Creation of deserializers with the cache: strong_typing/deserializer.py

The state is the contents of `_CACHE` (deserializer.py:832) as far as classes and enumerations are concerned.  The other
types with an entry of their own (`int`, `datetime.date`, ...) have constant deserializers and are left out.  An entry is
never replaced or removed in a single-threaded program, so that a cache key identifies the deserializer object.  The state
survives exceptions: every function returns the new contents of the cache beside the result or the error.
-/
namespace Verif

/-- `_CACHE[k] = e`. -/
def Heap.put (H : Heap) (k : TKey) (e : Entry) : Heap := fun k' => if k' = k then some e else H k'

/-- `_CACHE` of a fresh interpreter. -/
def Heap.empty : Heap := fun _ => Option.none

/-- How an entry for a class that is not in the cache is created. -/
abbrev Builder := Nat → ClassDef → Heap → Res Unit × Heap

/-- `_get_deserializer` for a class, deserializer.py:855-871. -/
def getCls (env : Env) (bld : Builder) (c : Nat) (H : Heap) : Res TKey × Heap :=
  match env.classes[c]? with
  | Option.none => (.error .outOfModel, H)
  | some cd =>
    match H cd.key with
    | some _ => (.ok cd.key, H)
    | Option.none =>
      match bld c cd H with
      | (.ok _, H') => (.ok cd.key, H')
      | (.error e, H') => (.error e, H')

/-- `_get_deserializer` for an enumeration, deserializer.py:855-871; `build` does nothing, deserializer.py:58-63. -/
def getEnum (env : Env) (e : Nat) (H : Heap) : Res TKey × Heap :=
  match env.enums[e]? with
  | Option.none => (.error .outOfModel, H)
  | some ed =>
    match H ed.key with
    | some _ => (.ok ed.key, H)
    | Option.none => (.ok ed.key, H.put ed.key (.enum e))

/-- The triples (property, literal, member type) in the order of the loops of `TaggedUnionDeserializer.build`,
deserializer.py:464-470. -/
def tagTyItems (env : Env) (ts : List Ty) : List (Str × Lit × Ty) :=
  let props := env.setOrder (discProps env ts)
  ts.flatMap (fun t => props.flatMap (fun p => (memberLits env t p).map (fun l => (p, l, t))))

/-- `_get_deserializer` for a member of a tagged union; only classes have properties. -/
def getMember (env : Env) (bld : Builder) (t : Ty) (H : Heap) : Res TKey × Heap :=
  match t with
  | .cls c => getCls env bld c H
  | .enum e => getEnum env e H
  | _ => (.error .outOfModel, H)

/-- `TaggedUnionDeserializer.build`, deserializer.py:462-478. -/
def buildTagsC (env : Env) (bld : Builder) : List (Str × Lit × TKey) → List (Str × Lit × Ty) → Heap →
    Res (List (Str × Lit × TKey)) × Heap
  | table, [], H => (.ok table, H)
  | table, (p, l, t) :: r, H =>
    if table.any (fun e => e.1 = p && e.2.1.pyEq l) then (.error .jsonType, H)
    else match getMember env bld t H with
      | (.error e, H') => (.error e, H')
      | (.ok k, H') => buildTagsC env bld (table ++ [(p, l, k)]) r H'

/-- `LiteralDeserializer`, deserializer.py:515-529. -/
def getLit (env : Env) (ls : List Lit) (H : Heap) : Res Deser × Heap :=
  match ls with
  | [] => (.error .typeError, H)
  | l :: r =>
    if r.all (fun m => l.sameTy m) then
      match l with
      | .enum e _ =>
        (match getEnum env e H with
         | (.ok k, H') => (.ok (.literal (l :: r) (.ref k)), H')
         | (.error e, H') => (.error e, H'))
      | _ => (match litDeser env l with
         | .ok d => (.ok (.literal (l :: r) d), H)
         | .error e => (.error e, H))
    else (.error .typeError, H)

mutual
/-- `_get_deserializer` and `_create_deserializer`, deserializer.py:835-974, with `build` of the containers,
deserializer.py:278-279, 302-303, 356-357, 377-378, 411-412. -/
def getWith (env : Env) (bld : Builder) : Ty → Heap → Res Deser × Heap
  | .none, H => (.ok .none, H)
  | .bool, H => (.ok .bool, H)
  | .int, H => (.ok .int, H)
  | .float, H => (.ok .float, H)
  | .str, H => (.ok .str, H)
  | .bytes, H => (.ok .bytes, H)
  | .datetime, H => (.ok .datetime, H)
  | .date, H => (.ok .date, H)
  | .time, H => (.ok .time, H)
  | .timedelta, H => (.ok .timedelta, H)
  | .uuid, H => (.ok .uuid, H)
  | .ipv4, H => (.ok .ipv4, H)
  | .ipv6, H => (.ok .ipv6, H)
  | .bareList, H => (.error .typeError, H)
  | .bareDict, H => (.error .typeError, H)
  | .bareSet, H => (.error .typeError, H)
  | .bareTuple, H => (.error .typeError, H)
  | .list t, H => (match getWith env bld t H with | (.ok d, H') => (.ok (.list d), H') | (.error e, H') => (.error e, H'))
  | .dict k t, H =>
    (match checkKeyTy env k with
     | .error e => (.error e, H)
     | .ok _ => match getWith env bld t H with | (.ok d, H') => (.ok (.dict k d), H') | (.error e, H') => (.error e, H'))
  | .set t, H => (match getWith env bld t H with | (.ok d, H') => (.ok (.set d), H') | (.error e, H') => (.error e, H'))
  | .tuple ts, H =>
    (match getWithL env bld ts H with | (.ok ds, H') => (.ok (.tuple ds), H') | (.error e, H') => (.error e, H'))
  | .union ts, H =>
    if discProps env ts = [] then
      (match getWithL env bld ts H with | (.ok ds, H') => (.ok (.union ds), H') | (.error e, H') => (.error e, H'))
    else
      (match buildTagsC env bld [] (tagTyItems env ts) H with
       | (.ok table, H') => (.ok (.tagged (env.setOrder (discProps env ts)) table), H')
       | (.error e, H') => (.error e, H'))
  | .literal ls, H => getLit env ls H
  | .annotated t _, H => getWith env bld t H
  | .enum e, H => (match getEnum env e H with | (.ok k, H') => (.ok (.ref k), H') | (.error e, H') => (.error e, H'))
  | .cls c, H => (match getCls env bld c H with | (.ok k, H') => (.ok (.ref k), H') | (.error e, H') => (.error e, H'))
/-- A sequence of types; the first error ends it. -/
def getWithL (env : Env) (bld : Builder) : List Ty → Heap → Res (List Deser) × Heap
  | [], H => (.ok [], H)
  | t :: ts, H =>
    match getWith env bld t H with
    | (.error e, H') => (.error e, H')
    | (.ok d, H') =>
      match getWithL env bld ts H' with
      | (.ok ds, H'') => (.ok (d :: ds), H'')
      | (.error e, H'') => (.error e, H'')
end

/-- The field deserializers of a class: `build`, deserializer.py:700-709, 723-755, 775-796. -/
def getFields (env : Env) (bld : Builder) (kind : ClassKind) : List FieldDef → Heap → Res (List FieldD) × Heap
  | [], H => (.ok [], H)
  | f :: r, H =>
    match getWith env bld (fieldTy kind f) H with
    | (.error e, H') => (.error e, H')
    | (.ok d, H') =>
      match getFields env bld kind r H' with
      | (.ok fds, H'') => (.ok (⟨fieldProp kind f, f.name, d, fieldMode kind f⟩ :: fds), H'')
      | (.error e, H'') => (.error e, H'')

/-- A class that is not in the cache: the new deserializer is stored before `build` is called, deserializer.py:858-871.
`n` bounds the nesting of class definitions; every level adds an entry to the cache, so that the number of classes is
always enough (`getDeser_fuel`). -/
def buildCls (env : Env) (skip : Bool) : Nat → Builder
  | n, c, cd, H =>
    if cd.custom then (.ok (), H.put cd.key (.custom c))
    else
      match n with
      | 0 => (.error .recursion, H.put cd.key (.cls c skip Option.none))
      | n + 1 =>
        match getFields env (buildCls env skip n) cd.kind cd.hints (H.put cd.key (.cls c skip Option.none)) with
        | (.ok fds, H') => (.ok (), H'.put cd.key (.cls c skip (some fds)))
        | (.error e, H') => (.error e, H')

/-- `create_deserializer(typ, options=...)`, deserializer.py:799-829. -/
def getDeser (env : Env) (skip : Bool) (t : Ty) (H : Heap) : Res Deser × Heap :=
  getWith env (buildCls env skip env.classes.length) t H

/-- `json_to_object(typ, data, options=...)`, serialization.py:41-99, with the cache. -/
def jsonToObject (env : Env) (skip : Bool) (t : Ty) (j : Json) (H : Heap) : Res Val × Heap :=
  match getDeser env skip t H with
  | (.error e, H') => (.error e, H')
  | (.ok d, H') => (parse env H' j d, H')

/-- A call of `json_to_object`. -/
structure Call where
  skip : Bool
  ty : Ty
  data : Json

/-- The cache after a sequence of calls; errors are caught by the caller. -/
def history (env : Env) : List Call → Heap → Heap
  | [], H => H
  | c :: cs, H => history env cs (jsonToObject env c.skip c.ty c.data H).2

end Verif
