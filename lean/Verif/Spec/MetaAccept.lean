import Verif.Model.Schema
import Verif.Spec.MetaSchema
/-!
# The check of schemas

`classdef_to_schema` checks what it has made against the meta-schema (schema.py:582-588).
-/
namespace Verif

/-- `check_schema` accepts all schemas that are valid for the meta-schema, where `fmt f s` tells if string `s` has format `f`. -/
def AcceptsValid (fmt : Str → Str → Bool) (cfg : SchemaCfg) : Prop := ∀ s, MetaValid fmt (.obj s) → cfg.metaOk s = true

end Verif
