import Verif.Lemmas.Digits
import Verif.Lemmas.Duration
import Verif.Props.C01_C02_Duration
import Verif.Props.C03_C04_Base64
import Verif.Props.C08_Uuid
import Verif.Props.C09_Ip
import Verif.Props.C05_C06_C07_DateTime
import Verif.Props.C30_C31_Topological
import Verif.Props.C28_C29_Cache
import Verif.Props.C49_Threads
import Verif.Props.C26_Names
import Verif.Props.C10_Scalars
import Verif.Model.Serializer
import Verif.Lemmas.Deser2
import Verif.Props.C11_RoundTrip
import Verif.Props.C11_Optional
import Verif.Props.C12_TypeSafety
import Verif.Props.C13_PlainJson
import Verif.Props.C14_StaticDynamic
import Verif.Spec.RoundTrip
import Verif.Props.C15_Containers
import Verif.Props.C16_C20_Classes
import Verif.Props.C17_C18_Unknown
import Verif.Props.C21_Union
import Verif.Props.C22_C23_Tagged
import Verif.Props.C24_C25_LiteralEnum
import Verif.Props.C48_Recursion
import Verif.Props.C36_Catalog
import Verif.Props.C38_Integers
import Verif.Props.C39_C45_Enums
import Verif.Props.C42_Generic
import Verif.Props.C43_Check
import Verif.Props.C44_Unwrap
import Verif.Props.C32_C33_Collector
import Verif.Props.C46_JsonText
import Verif.Props.C47_TypeName
import Verif.Props.C37_Flatten
import Verif.Props.C40_Docstring
import Verif.Props.C41_DocCheck
import Verif.Props.C51_ParseType
import Verif.Model.Schema
import Verif.Model.SchemaNode
import Verif.Model.ClassBuild
import Verif.Lemmas.SchemaNode
import Verif.Spec.JsonSchema
import Verif.Spec.Annotations
import Verif.Lemmas.JsonSchema
import Verif.Lemmas.SchemaMeta
import Verif.Lemmas.Schema
import Verif.Props.C50_Annotations
import Verif.Props.C27_SameName
import Verif.Spec.SchemaRefs
import Verif.Lemmas.SchemaRefs
import Verif.Lemmas.SchemaLoop
import Verif.Lemmas.SchemaDepth
import Verif.Props.C35_References
import Verif.Spec.SchemaValid
import Verif.Spec.SchemaRead
import Verif.Spec.Evolve
import Verif.Spec.Admits
import Verif.Spec.Widen
import Verif.Lemmas.SchemaDoc
import Verif.Lemmas.SchemaShapes
import Verif.Lemmas.SchemaTotal
import Verif.Lemmas.SchemaWf
import Verif.Lemmas.SchemaMeaning
import Verif.Lemmas.SchemaReject
import Verif.Lemmas.SchemaRead
import Verif.Lemmas.Evolve
import Verif.Lemmas.Admits
import Verif.Lemmas.Widen
import Verif.Lemmas.SchemaAccept
import Verif.Lemmas.SchemaMade
import Verif.Props.C34_Validate
import Verif.Spec.ClassBuild
import Verif.Lemmas.ClassBuildTy
import Verif.Lemmas.ClassBuildRead
import Verif.Lemmas.ClassBuildTr
import Verif.Lemmas.ClassBuildValid
import Verif.Lemmas.ClassBuildPlain
import Verif.Lemmas.ClassBuildNames
import Verif.Props.C53_SchemaTypes
import Verif.Props.C54_Regenerate
import Verif.Spec.SchemaBuild
import Verif.Spec.Rebuild
import Verif.Lemmas.NodeRead
import Verif.Lemmas.Mirror
import Verif.Lemmas.Rebuild
import Verif.Lemmas.RebuildNode
import Verif.Lemmas.RebuildDoc
import Verif.Lemmas.RebuildAll
import Verif.Lemmas.Twin
import Verif.Props.C54_Rebuild
import Verif.Spec.Hooks
import Verif.Lemmas.Hooks
import Verif.Props.C52_Hooks
import Verif.Spec.Buildable
import Verif.Spec.NoType
import Verif.Lemmas.Buildable
import Verif.Lemmas.NodeInv
import Verif.Lemmas.NoType
import Verif.Props.C55_Makes
import Verif.Spec.MetaSchema
import Verif.Spec.MetaAccept
import Verif.Lemmas.MetaCheck
import Verif.Spec.Expressible
import Verif.Lemmas.MetaValid
import Verif.Props.C56_MetaSchema
import Verif.Spec.StripText
import Verif.Model.SchemaText
import Verif.Spec.SchemaText
import Verif.Lemmas.StripText
import Verif.Lemmas.SchemaText
import Verif.Lemmas.StripValid
import Verif.Lemmas.TextInstances
import Verif.Props.C57_DescriptiveText
import Verif.Props.C58_AnnotatedName
import Verif.Props.C59_ShortName
import Verif.Spec.SameDoc
import Verif.Props.C60_WriteBack
import Verif.Model.FlattenDoc
import Verif.Model.TypeHelpers
import Verif.Spec.FlattenDoc
import Verif.Lemmas.NodeTypes
import Verif.Lemmas.FlattenDoc
import Verif.Props.C61_FlattenDoc
import Verif.Props.C62_ValidRead
import Verif.Props.C63_TypeHelpers
import Verif.Props.C64_Evolve
import Verif.Props.C65_Meaning
import Verif.Props.C66_SchemaEvolve
import Verif.Model.Modules
import Verif.Props.C67_Modules
import Verif.Spec.Spelling
import Verif.Lemmas.Spelling
import Verif.Spec.Names
import Verif.Lemmas.Names
import Verif.Spec.Raises
import Verif.Lemmas.LeafErrors
import Verif.Lemmas.ReadErrors
import Verif.Props.C68_Exceptions
import Verif.Lemmas.GenInv
import Verif.Spec.Stored
import Verif.Props.C69_Stored
import Verif.Spec.SchemaExists
import Verif.Lemmas.SchemaExists
import Verif.Lemmas.SchemaNeeds
import Verif.Props.C70_SchemaExists
import Verif.Spec.Writes
import Verif.Lemmas.Writes
import Verif.Props.C71_Writes
import Verif.Model.Inherit
import Verif.Spec.Inherit
import Verif.Lemmas.Inherit
import Verif.Props.C72_Inherit
import Verif.Model.JsonTypes
import Verif.Spec.JsonTypes
import Verif.Lemmas.JsonTypes
import Verif.Props.C73_JsonTypes
import Verif.Props.C74_Relax
import Verif.Props.C75_Seed
import Verif.Spec.Equal
import Verif.Lemmas.Equal
import Verif.Props.C76_Equal
import Verif.Spec.Reader
import Verif.Lemmas.Reader
import Verif.Props.C77_Reader
import Verif.Spec.Options
import Verif.Lemmas.Options
import Verif.Props.C78_Options
import Verif.Spec.Liberal
import Verif.Lemmas.Liberal
import Verif.Lemmas.LiberalUnion
import Verif.Props.C79_ReadValid
import Verif.Model.Annotations
import Verif.Spec.AnnMeaning
import Verif.Lemmas.AnnMeaning
import Verif.Lemmas.AnnExact
import Verif.Props.C80_Annotations
import Verif.Spec.Hashable
import Verif.Model.Duck
import Verif.Spec.Duck
import Verif.Lemmas.Duck
import Verif.Lemmas.DuckRefines
import Verif.Props.C81_Duck
import Verif.Model.Aliases
import Verif.Spec.Aliases
import Verif.Lemmas.Aliases
import Verif.Lemmas.AliasesEnd
import Verif.Props.C82_Aliases
import Verif.Model.ScopedName
import Verif.Spec.ScopedName
import Verif.Lemmas.ScopedName
import Verif.Props.C83_ScopedName
import Verif.Model.AnnCollect
import Verif.Spec.AnnCollect
import Verif.Lemmas.AnnCollect
import Verif.Props.C84_AnnCollect
import Verif.Model.AnnInstance
import Verif.Spec.AnnInstance
import Verif.Lemmas.AnnInstance
import Verif.Props.C85_AnnInstance
import Verif.Spec.ModuleTypes
import Verif.Lemmas.ModuleTypes
import Verif.Props.C86_ModuleTypes
import Verif.Spec.ModuleBefore
import Verif.Lemmas.ModuleBefore
import Verif.Props.C87_ModuleBefore
import Verif.Model.ClassBuildLeft
import Verif.Spec.ModuleLeft
import Verif.Lemmas.ModuleLeft
import Verif.Props.C88_ModuleLeft
import Verif.Model.DataType
import Verif.Spec.DataType
import Verif.Lemmas.CacheSame
import Verif.Lemmas.DataType
import Verif.Props.C89_DataType
