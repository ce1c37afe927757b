import Verif.Model.Annotations
/-!
# What annotations mean

An annotation that is a text, or has texts in it, means what it would mean without the quotes, in a given namespace.
-/
namespace Verif

/-- A list of results, if all are there. -/
def allMean (f : α → Option β) : List α → Option (List β)
  | [] => some []
  | x :: xs => match f x with
    | Option.none => Option.none
    | some y => (match allMean f xs with | Option.none => Option.none | some ys => some (y :: ys))

/-- Arguments of literals. -/
def AnnObj.isPlainArg : AnnObj → Bool
  | .none | .const _ | .text _ => true
  | _ => false

/-- The meaning of an argument: only `list` etc. may have texts as arguments. -/
def argMeaning (f : AnnForm) (m : AnnObj → Option AnnObj) (o : AnnObj) : Option AnnObj :=
  match f, o with
  | .builtin _, o => m o
  | _, .text _ => Option.none
  | _, o => m o

/-- The meaning of a form with arguments, if `m` is the meaning of the arguments. -/
def genMeaning (m : AnnObj → Option AnnObj) : AnnForm → List AnnObj → Option AnnObj
  | .literal, os => if os.all AnnObj.isPlainArg then some (.gen .literal os) else Option.none
  | .annotated, [] => Option.none
  | .annotated, o :: ms => (argMeaning .annotated m o).map fun t => .gen .annotated (t :: ms)
  | f, os => (allMean (argMeaning f m) os).map (.gen f)

/-- The type that an annotation means, with all texts replaced, where texts are nested to a depth of at most `n`; `d` are the names.  The
value `None` is a type if it is written as a text of its own. -/
def AnnWorld.meaning (w : AnnWorld) (d : Str → Option AnnObj) : Nat → AnnObj → Option AnnObj
  | 0, _ => Option.none
  | n + 1, o =>
    let ofText (s : Str) : Option AnnObj := match w.parse s with
      | Option.none => Option.none
      | some e => match annEval d w.inModule e with
        | .error _ => Option.none
        | .ok .none => some .noneType
        | .ok o => w.meaning d n o
    match o with
    | .noneType => some .noneType
    | .cls c => some (.cls c)
    | .form (.builtin c) => some (.form (.builtin c))
    | .form (.typing c) => some (.form (.typing c))
    | .text s => ofText s
    | .ref s => ofText s
    | .gen f os => genMeaning (w.meaning d n) f os
    | _ => Option.none

/-- Annotation `o` means type `t`. -/
def AnnWorld.Means (w : AnnWorld) (d : Str → Option AnnObj) (o t : AnnObj) : Prop := ∃ n, w.meaning d n o = some t

/-- The first of several namespaces that has a name. -/
def firstOf : List (Str → Option AnnObj) → Str → Option AnnObj
  | [], _ => Option.none
  | d :: ds, n => match d n with | some o => some o | Option.none => firstOf ds n

/-- Names on which reader and writer agree: in class `b`, where the annotation is written, they stand for the same as in module `m`, of
the class that is written; and they are not those of the variables of `evaluate_type`. -/
def AnnWorld.Shared (w : AnnWorld) (b : AnnClass) (m : Nat) (d : Str → Option AnnObj) : Prop :=
  ∀ n o, d n = some o → n ≠ c!"typ" ∧ n ≠ c!"module" ∧
    firstOf [w.inModule b.module, fun n => lookupKey n b.vars, fun n => lookupKey n w.builtins] n = some o ∧
    firstOf [w.inModule m, fun n => lookupKey n w.builtins] n = some o

/-- Forms of a collection. -/
def AnnForm.IsColl (f : AnnForm) (c : Coll) : Prop := f = .builtin c ∨ f = .typing c

/-- Annotations in which the writer finds all types: texts inside `Annotated` are not seen (`context` is false there), nor texts for the
keys of dictionaries, nor texts of texts, nor the text `None`.  The members of unions do not matter. -/
inductive AnnWorld.Seen (w : AnnWorld) (d : Str → Option AnnObj) : Bool → AnnObj → Prop
  | noneType : Seen w d x .noneType
  | cls : Seen w d x (.cls c)
  | untyped : Seen w d x (.form (.builtin c))
  | tupleForm : Seen w d x (.form (.typing .tuple))
  | pipe {os : List AnnObj} : Seen w d x (.gen .pipe os)
  | union {os : List AnnObj} : Seen w d x (.gen .union os)
  | literal {os : List AnnObj} : Seen w d x (.gen .literal os)
  | annotated {ms : List AnnObj} : Seen w d false o → Seen w d x (.gen .annotated (o :: ms))
  | list : f.IsColl .list → Seen w d x o → Seen w d x (.gen f [o])
  | set : f.IsColl .set → Seen w d x o → Seen w d x (.gen f [o])
  | dict : f.IsColl .dict → (k = w.strCls ∨ w.isEnum k = true) → Seen w d x o → Seen w d x (.gen f [.cls k, o])
  | tuple {os : List AnnObj} : f.IsColl .tuple → (∀ o ∈ os, Seen w d x o) → Seen w d x (.gen f os)
  | text : w.parse s = some e → annEval d w.inModule e = .ok o → (∀ s', o ≠ .text s' ∧ o ≠ .ref s') → Seen w d true o →
      Seen w d true (.text s)
  | ref : w.Means d (.ref s) t → Seen w d true t → Seen w d true (.ref s)

/-- Which writer is for which type. -/
inductive WriterFor : AnnObj → Writer → Prop
  | noneType : WriterFor .noneType .none
  | cls : WriterFor (.cls c) (.cls c)
  | untyped : WriterFor (.form (.builtin c)) (.untyped c)
  | tupleForm : WriterFor (.form (.typing .tuple)) (.items .tuple [])
  | pipe {ts : List AnnObj} : WriterFor (.gen .pipe ts) .dynamic
  | union {ts : List AnnObj} : WriterFor (.gen .union ts) .dynamic
  | literal {ts : List AnnObj} : WriterFor (.gen .literal ts) (.literal ts)
  | annotated {ms : List AnnObj} : WriterFor t x → WriterFor (.gen .annotated (t :: ms)) x
  | list : f.IsColl .list → WriterFor t x → WriterFor (.gen f [t]) (.items .list [x])
  | set : f.IsColl .set → WriterFor t x → WriterFor (.gen f [t]) (.items .set [x])
  | dict : f.IsColl .dict → WriterFor t x → WriterFor (.gen f [.cls k, t]) (.items .dict [.cls k, x])
  | tuple {ts : List AnnObj} {xs : List Writer} : f.IsColl .tuple → ts.length = xs.length → (∀ (i : Nat) t x, ts[i]? = some t → xs[i]? = some x → WriterFor t x) →
      WriterFor (.gen f ts) (.items .tuple xs)

end Verif
