import Verif.Model.Deserializer
import Verif.Lemmas.Core
/-!
# Equations for `parse`
-/
namespace Verif

variable (env : Env) (H : Heap)

theorem parseArr_eq (xs : List Json) : parseArr env H xs = xs.map (parse env H) := by
  induction xs with
  | nil => rfl
  | cons x xs ih => simp [parseArr, ih]

theorem parseObj_eq (kvs : List (Str × Json)) :
    parseObj env H kvs = kvs.map (fun p => (p.1, p.2, parse env H p.2)) := by
  induction kvs with
  | nil => rfl
  | cons p kvs ih => obtain ⟨k, x⟩ := p; simp [parseObj, ih]

/-- Children of a JSON value. -/
def kidsOf : Json → Kids
  | .arr xs => .arr (xs.map (parse env H))
  | .obj kvs => .obj (kvs.map (fun p => (p.1, p.2, parse env H p.2)))
  | _ => .none

theorem parse_eq (j : Json) (d : Deser) : parse env H j d = parseD env H j (kidsOf env H j) d := by
  cases j <;> simp [parse, kidsOf, parseArr_eq, parseObj_eq]

theorem lookup_kids (k : Str) (kvs : List (Str × Json)) :
    lookupKey k (kvs.map (fun p => (p.1, p.2, parse env H p.2))) =
      (lookupKey k kvs).map (fun j => (j, parse env H j)) := by
  exact lookupKey_map (fun j => (j, parse env H j)) k kvs

theorem parse_list_arr (xs : List Json) (d : Deser) :
    parse env H (.arr xs) (.list d) =
      match mapRes (fun x => parse env H x d) xs with | .ok vs => .ok (.list vs) | .error e => .error e := by
  rw [parse_eq]
  simp only [parseD, kidsOf, parseListK, mapRes_map]
  rfl

theorem parse_tuple_arr (xs : List Json) (ds : List Deser) :
    parse env H (.arr xs) (.tuple ds) =
      if xs.length ≠ ds.length then .error .jsonValue
      else match mapRes (fun p : Json × Deser => parse env H p.1 p.2) (xs.zip ds) with
        | .ok vs => .ok (.tuple vs)
        | .error e => .error e := by
  rw [parse_eq]
  simp only [parseD, kidsOf, parseTupleK, List.length_map]
  split
  · rfl
  · have : (xs.map (parse env H)).zip ds = (xs.zip ds).map (fun p => (parse env H p.1, p.2)) := by
      rw [List.zip_map_left]; rfl
    rw [this, mapRes_map]
    rfl

theorem parse_union (j : Json) (ds : List Deser) :
    parse env H j (.union ds) = parseU env H j (kidsOf env H j) ds := by
  rw [parse_eq]; rfl

theorem parseU_cons (j : Json) (d : Deser) (ds : List Deser) :
    parseU env H j (kidsOf env H j) (d :: ds) =
      match parse env H j d with
      | .ok v => .ok v
      | .error e => if e = .jsonKey ∨ e = .jsonType then parse env H j (.union ds) else .error e := by
  rw [parse_eq, parse_union]; rfl

theorem parse_union_nil (j : Json) : parse env H j (.union []) = .error .jsonKey := by
  rw [parse_union]; rfl

theorem parse_union_cons (j : Json) (d : Deser) (ds : List Deser) :
    parse env H j (.union (d :: ds)) =
      match parse env H j d with
      | .ok v => .ok v
      | .error e => if e = .jsonKey ∨ e = .jsonType then parse env H j (.union ds) else .error e := by
  rw [parse_union, parseU_cons]

theorem parse_literal (j : Json) (vals : List Lit) (d : Deser) :
    parse env H j (.literal vals d) =
      match parse env H j d with
      | .error e => .error e
      | .ok v => if litMem vals v then .ok v else .error .jsonType := by
  simp only [parse_eq, parseD]
  rfl

theorem parse_ref (j : Json) (k : TKey) : parse env H j (.ref k) = parseRef env H j (kidsOf env H j) k := by
  rw [parse_eq]; rfl

theorem parse_tagged (j : Json) (props : List Str) (table : List (Str × Lit × TKey)) :
    parse env H j (.tagged props table) =
      match j with
      | .obj kvs => taggedLoop (fun k => parse env H j (.ref k)) kvs table props
      | _ => .error .jsonType := by
  rw [parse_eq]
  cases j <;> simp only [parseD, parseTaggedK]
  congr 1
  funext k
  rw [parse_ref]

end Verif
