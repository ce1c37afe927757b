import Verif.Model.ClassBuild
/-!
# Model: data classes made from a list of fields

`create_data_type` of inspection.py.
-/
namespace Verif

/-- The class made by `create_data_type(class_name, fields)`, inspection.py:759-769 (the variant for Python 3.10 and later).
`dataclasses.make_dataclass` without `namespace` leaves `__module__` to `types.new_class`, so that it is `types`
(the metaclass is called in that module, Lib/types.py:67-75).  No field has a default.  Slots take the place of the dictionary of instances; nothing
in the modelled code looks at either. -/
def dataTypeOf (name : Str) (fields : List (Str × Ty)) : ClassDef :=
  { module := c!"types", name, kind := .dataclass false, fields := fields.map fun f => { name := f.1, ty := f.2 } }

/-- `create_data_type(class_name, fields)`, inspection.py:759-769: the new class is the last of the program.  Names are checked by
`make_dataclass` (Lib/dataclasses.py:1413-1435), and a class with a null character in its name cannot be made.  Names of fields that
start with two underscores are not modelled. -/
def createDataType (cfg : BuildCfg) (env : Env) (name : Str) (fields : List (Str × Ty)) : Res (Ty × Env) :=
  match checkFieldNames cfg [] (fields.map (·.1)) with
  | .error e => .error e
  | .ok _ =>
    if '\x00' ∈ name then .error .valueError
    else .ok (.cls env.classes.length, { env with classes := env.classes ++ [dataTypeOf name fields] })

/-- Calls of `create_data_type` one after the other, up to the first that fails. -/
def createDataTypes (cfg : BuildCfg) : Env → List (Str × List (Str × Ty)) → Res (List Ty × Env)
  | env, [] => .ok ([], env)
  | env, d :: ds =>
    match createDataType cfg env d.1 d.2 with
    | .error e => .error e
    | .ok (t, env1) =>
      match createDataTypes cfg env1 ds with
      | .error e => .error e
      | .ok (ts, env2) => .ok (t :: ts, env2)

end Verif
