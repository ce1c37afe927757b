import Verif.Model.Deserializer
/-!
# Types with names in them, given to the reader

`json_to_generic(list["Node"], data, context=module)`: a type may be given by name, or have names in it (as texts, or as forward
references, which is what texts in `Union[…]`, `Optional[…]` and `List[…]` become).  The names are those of a module, the context.  A name
may stand for a class or for any other type, an alias, which may refer to itself: `Tree = Union[int, list["Tree"]]`.

Simplifications: there is one context; the annotations of fields are evaluated by other means (see Annotations), so that types without
names in them are as in Deserializer; names are not used as keys of dictionaries; unions are not flattened; the object `None` is not the
value of a name; no alias has the name and the module of a class that is not its value; of the cache there are the entries of aliases.
-/
namespace Verif

/-- Types with arguments: `list`, `set`, `dict` with a key type, `tuple`, `Union`. -/
inductive AForm where
  | list | set | dict (k : KeyTy) | tuple | union

/-- Types with names: `ty` is a type without names, `text` a text, `ref` a forward reference, `other` an object that is no type. -/
inductive ATy where
  | ty (t : Ty)
  | node (f : AForm) (args : List ATy)
  | annotated (t : ATy)
  | text (s : Str)
  | ref (s : Str)
  | other

/-- A program: classes and enumerations, the option of the reader, the variables of the context, and what `eval` makes of any other text
(an expression, a built-in name, or a text with an error in it). -/
structure AliasWorld where
  env : Env
  skip : Bool
  vars : List (Str × ATy)
  expr : Str → Res ATy

/-- Deserializers: for a type without names, for a type with arguments, and the one in the cache for a name. -/
inductive AReader where
  | leaf (t : Ty)
  | node (f : AForm) (rs : List AReader)
  | ref (s : Str)

/-- The entries of `_CACHE` (deserializer.py:832) for names: `some none` is a deserializer whose `build` has not ended. -/
abbrev AHeap := Str → Option (Option AReader)

/-- `_CACHE[s] = e`. -/
def AHeap.put (H : AHeap) (s : Str) (e : Option AReader) : AHeap := fun x => if x = s then some e else H x

/-- `_CACHE` without entries. -/
def AHeap.empty : AHeap := fun _ => Option.none

/-- A text becomes a forward reference (Lib/typing.py:168-198, 397-406). -/
def ATy.asRef : ATy → ATy
  | .text s => .ref s
  | o => o

/-- The name, if the object is one. -/
def ATy.name? : ATy → Option Str
  | .text s | .ref s => some s
  | _ => Option.none

/-- `isinstance(typ, type)`, deserializer.py:855. -/
def ATy.isClass : ATy → Bool
  | .ty t => t.isType
  | _ => false

/-- `unwrap_annotated_type`, inspection.py:501-509; Python has no `Annotated` directly within `Annotated`. -/
def ATy.unwrap : ATy → ATy
  | .annotated t => t.unwrap
  | t => t

/-- The members of a union if none has a name in it. -/
def plainL : List ATy → Option (List Ty)
  | [] => some []
  | .ty t :: os => (match plainL os with | some ts => some (t :: ts) | Option.none => Option.none)
  | _ :: _ => Option.none

/-- What `_create_deserializer` makes: a deserializer that is complete (its own parts have no names), or one whose parts are to be made
by `build`. -/
inductive APlan where
  | leaf (t : Ty)
  | node (f : AForm) (args : List ATy)

/-- `build` for one part after the other; an error ends it. -/
def getAll (get : ATy → AHeap → Res AReader × AHeap) : List ATy → AHeap → Res (List AReader) × AHeap
  | [], H => (.ok [], H)
  | o :: os, H =>
    match get o H with
    | (.error e, H') => (.error e, H')
    | (.ok r, H') =>
      match getAll get os H' with
      | (.error e, H'') => (.error e, H'')
      | (.ok rs, H'') => (.ok (r :: rs), H'')

/-- `build`, deserializer.py:278-279, 302-303, 356-357, 377-378, 411-412. -/
def APlan.build (get : ATy → AHeap → Res AReader × AHeap) : APlan → AHeap → Res AReader × AHeap
  | .leaf t, H => (.ok (.leaf t), H)
  | .node f os, H => match getAll get os H with | (.error e, H') => (.error e, H') | (.ok rs, H') => (.ok (.node f rs), H')

namespace AliasWorld

variable (w : AliasWorld)

/-- `eval` of a text, inspection.py:107-109: the variables `typ` and `module` of the function go before those of the context. -/
def eval (s : Str) : Res ATy :=
  if s = c!"typ" then .ok (.text s)
  else if s = c!"module" then .ok .other
  else match lookupKey s w.vars with | some o => .ok o | Option.none => w.expr s

/-- `_eval_type`, Lib/typing.py:387-418, and `ForwardRef._evaluate`, Lib/typing.py:890-914, for calls nested to a depth of at most `n`. -/
def resolve : Nat → List Str → ATy → Res ATy
  | 0, _, _ => .error .recursion
  | n + 1, guard, .ref s =>
    if guard.contains s then .ok (.ref s)
    else match w.eval s with
      | .error e => .error e
      | .ok .other => .error .typeError
      | .ok o => resolve n (s :: guard) o.asRef
  | n + 1, guard, .node f os =>
    (match mapRes (fun o => resolve n guard o.asRef) os with | .error e => .error e | .ok ts => .ok (.node f ts))
  | n + 1, guard, .annotated o => (match resolve n guard o with | .error e => .error e | .ok t => .ok (.annotated t))
  | _ + 1, _, o => .ok o

/-- `evaluate_type`, inspection.py:98-127. -/
def evaluate (n : Nat) : ATy → Res ATy
  | .text s => w.eval s
  | .ref s => w.resolve n [] (.ref s)
  | o => .ok o

/-- `_create_deserializer`, deserializer.py:880-974, with `get_discriminating_properties`, deserializer.py:437-447. -/
def create : ATy → Res APlan
  | .ty t => (match compile w.env t with | .error e => .error e | .ok _ => .ok (.leaf t))
  | .node .list os => if os.length = 1 then .ok (.node .list os) else .error .valueError
  | .node .set os => if os.length = 1 then .ok (.node .set os) else .error .valueError
  | .node (.dict k) os =>
    if os.length = 1 then (match checkKeyTy w.env k with | .error e => .error e | .ok _ => .ok (.node (.dict k) os)) else .error .valueError
  | .node .tuple os => .ok (.node .tuple os)
  | .node .union os =>
    (match plainL os with
     | Option.none => .ok (.node .union os)
     | some ts =>
       if discProps w.env ts = [] then .ok (.node .union os)
       else match compile w.env (.union ts) with | .error e => .error e | .ok _ => .ok (.leaf (.union ts)))
  | _ => .error .typeError

/-- The key in the cache, deserializer.py:844-856: the name, if the context has it, unless the type is a class. -/
def key (o t : ATy) : Option Str :=
  if t.isClass then Option.none
  else match o.name? with
    | some s => if (lookupKey s w.vars).isSome then some s else Option.none
    | Option.none => Option.none

/-- `_get_deserializer`, deserializer.py:835-877, for calls nested to a depth of at most `n`; `context` says whether there is one. -/
def get (context : Bool) : Nat → ATy → AHeap → Res AReader × AHeap
  | 0, _, H => (.error .recursion, H)
  | n + 1, o, H =>
    if o.name?.isSome && !context then (.error .typeError, H)
    else match w.evaluate n o with
      | .error e => (.error e, H)
      | .ok t =>
        match w.key o t.unwrap with
        | Option.none => (match w.create t.unwrap with | .error e => (.error e, H) | .ok p => p.build (get context n) H)
        | some s =>
          match H s with
          | some _ => (.ok (.ref s), H)
          | Option.none =>
            match w.create t.unwrap with
            | .error e => (.error e, H)
            | .ok p =>
              match p.build (get context n) (H.put s Option.none) with
              | (.error e, H') => (.error e, H')
              | (.ok r, H') => (.ok (.ref s), H'.put s (some r))

end AliasWorld

/-! ### Reading -/

/-- Results one after the other; the first error ends it.  (`none`: the reader has not come to an end at the depth given.) -/
def readAll : List (Option (Res Val)) → Option (Res (List Val))
  | [] => some (.ok [])
  | r :: rs =>
    match r with
    | Option.none => Option.none
    | some (.error e) => some (.error e)
    | some (.ok v) =>
      match readAll rs with
      | Option.none => Option.none
      | some (.error e) => some (.error e)
      | some (.ok vs) => some (.ok (v :: vs))

/-- `set(member_parser.parse(item) for item in data)`, deserializer.py:364. -/
def readSet (env : Env) : List Val → List (Option (Res Val)) → Option (Res (List Val))
  | acc, [] => some (.ok acc)
  | acc, r :: rs =>
    match r with
    | Option.none => Option.none
    | some (.error e) => some (.error e)
    | some (.ok v) => match setAdd env acc v with | .error e => some (.error e) | .ok acc => readSet env acc rs

/-- `dict((key, value) for …)`, deserializer.py:340-343. -/
def readDict (env : Env) (k : KeyTy) : List (Key × Val) → List (Str × Option (Res Val)) → Option (Res (List (Key × Val)))
  | acc, [] => some (.ok acc)
  | acc, (s, r) :: rs =>
    match parseKey env k s with
    | .error e => some (.error e)
    | .ok key =>
      match r with
      | Option.none => Option.none
      | some (.error e) => some (.error e)
      | some (.ok v) => readDict env k (upsert key v acc) rs

/-- The loop of `UnionDeserializer.parse`, deserializer.py:414-426. -/
def readFirst : List (Option (Res Val)) → Option (Res Val)
  | [] => some (.error .jsonKey)
  | r :: rs =>
    match r with
    | Option.none => Option.none
    | some (.ok v) => some (.ok v)
    | some (.error e) => if e = .jsonKey ∨ e = .jsonType then readFirst rs else some (.error e)

/-- The result with a constructor around it. -/
def wrapResult (c : α → Val) : Option (Res α) → Option (Res Val)
  | Option.none => Option.none
  | some (.error e) => some (.error e)
  | some (.ok a) => some (.ok (c a))

/-- `parse` of `ListDeserializer`, `SetDeserializer`, `DictDeserializer`, `TupleDeserializer` and `UnionDeserializer`, deserializer.py:281-286,
359-364, 334-343, 385-398, 414-426, where `fs` reads the parts. -/
def readNode (env : Env) (fs : List (Json → Option (Res Val))) (j : Json) : AForm → Option (Res Val)
  | .list =>
    (match fs, j with
     | [f], .arr xs => wrapResult .list (readAll (xs.map f))
     | [_], _ => some (.error .jsonType)
     | _, _ => some (.error .outOfModel))
  | .set =>
    (match fs, j with
     | [f], .arr xs => wrapResult .set (readSet env [] (xs.map f))
     | [_], _ => some (.error .jsonType)
     | _, _ => some (.error .outOfModel))
  | .dict k =>
    (match fs, j with
     | [f], .obj kvs => wrapResult .dict (readDict env k [] (kvs.map fun kv => (kv.1, f kv.2)))
     | [_], _ => some (.error .jsonType)
     | _, _ => some (.error .outOfModel))
  | .tuple =>
    (match j with
     | .arr xs => if xs.length ≠ fs.length then some (.error .jsonValue) else wrapResult .tuple (readAll ((fs.zip xs).map fun p => p.1 p.2))
     | _ => some (.error .jsonType))
  | .union => readFirst (fs.map fun f => f j)

/-- `parse(data)` for calls nested to a depth of at most `n` (`none` beyond): types without names as in Deserializer, a deserializer whose
`build` has not ended has no parts. -/
def AliasWorld.read (w : AliasWorld) (H : AHeap) : Nat → AReader → Json → Option (Res Val)
  | 0, _, _ => Option.none
  | _ + 1, .leaf t, j => some (loads w.env w.skip t j)
  | n + 1, .node f rs, j => readNode w.env (rs.map (read w H n)) j f
  | n + 1, .ref s, j =>
    match H s with
    | some (some r) => read w H n r j
    | some Option.none => some (.error .attribute)
    | Option.none => some (.error .outOfModel)

/-- `create_deserializer(typ, context).parse(data)`, deserializer.py:799-829: the outcome for calls nested to a depth of at most `n`, and the
cache. -/
def AliasWorld.load (w : AliasWorld) (context : Bool) (n : Nat) (o : ATy) (j : Json) (H : AHeap) : Option (Res Val) × AHeap :=
  match w.get context n o H with
  | (.error .recursion, H') => (Option.none, H')
  | (.error e, H') => (some (.error e), H')
  | (.ok r, H') => (w.read H' n r j, H')

/-- `json_to_generic(typ, data, context=given)`, serialization.py:71-99: without a context it is the module of the caller. -/
def AliasWorld.generic (caller : AliasWorld) (given : Option AliasWorld) (n : Nat) (o : ATy) (j : Json) (H : AHeap) : Option (Res Val) × AHeap :=
  (given.getD caller).load true n o j H

/-- `json_to_object(typ, data, context=given)`, serialization.py:41-68: for `json_to_generic` the caller is strong_typing.serialization,
here `library`. -/
def AliasWorld.object (library : AliasWorld) (given : Option AliasWorld) (n : Nat) (o : ATy) (j : Json) (H : AHeap) : Option (Res Val) × AHeap :=
  AliasWorld.generic library given n o j H

end Verif
