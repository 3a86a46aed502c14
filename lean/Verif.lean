import Verif.Props.Stylers
import Verif.Props.Registry
import Verif.Props.Merge
import Verif.Props.Fragments
import Verif.Props.Documents
import Verif.Props.Annotations
import Verif.Props.Config
import Verif.Props.Inputs
import Verif.Props.Objects
import Verif.Props.Pipeline
import Verif.Props.Files
import Verif.Props.Loading
import Verif.Props.Tools
import Verif.Props.Referencer
import Verif.Props.Enums
import Verif.Props.SkipUnreferenced
import Verif.Props.ResponsesLimits
import Verif.Props.Funcs
import Verif.Props.Strawberry
import Verif.Props.ResponseScope
import Verif.Props.StrawberryMarks
import Verif.Props.ClassNames
import Verif.Props.Shadow
import Verif.Spec.ForwardNames
import Verif.Lemmas.Quoted
import Verif.Lemmas.QuotedWalk
import Verif.Lemmas.QuotedTypes
import Verif.Props.ForwardNames
import Verif.Spec.Attributes
import Verif.Lemmas.Declared
import Verif.Props.Attributes
import Verif.Spec.Reproducible
import Verif.Props.Reproducible
import Verif.Spec.FunctionNames
import Verif.Props.FunctionNames
import Verif.Model.Validation
import Verif.Spec.Configured
import Verif.Props.Configured
import Verif.Spec.Kept
import Verif.Lemmas.Kept
import Verif.Lemmas.KeptWalk
import Verif.Lemmas.KeptSels
import Verif.Lemmas.KeptPlugins
import Verif.Lemmas.KeptCheck
import Verif.Lemmas.KeptFails
import Verif.Props.Kept
import Verif.Spec.Hierarchy
import Verif.Lemmas.Hierarchy
import Verif.Lemmas.HierarchyRun
import Verif.Lemmas.HierarchyWalk
import Verif.Lemmas.HierarchyPlugins
import Verif.Lemmas.HierarchyCheck
import Verif.Props.Hierarchy
import Verif.Lemmas.ScopeFuncs
import Verif.Spec.FuncScope
import Verif.Props.FuncScope
import Verif.Model.Templates
import Verif.Spec.Templates
import Verif.Props.Templates
import Verif.Spec.StrawberryScope
import Verif.Spec.Module
import Verif.Lemmas.StrawberryScope
import Verif.Lemmas.Module
import Verif.Props.StrawberryScope
import Verif.Props.Module
import Verif.Lemmas.Rebuild
import Verif.Lemmas.RebuildPlugins
import Verif.Lemmas.RebuildTypes
import Verif.Lemmas.RebuildFuncs
import Verif.Props.Rebuild
import Verif.Spec.Generable
import Verif.Lemmas.Generable
import Verif.Lemmas.GenerablePlugins
import Verif.Lemmas.GenerableOperations
import Verif.Lemmas.GenerableInputs
import Verif.Props.Generable
import Verif.Props.GenerableLimits
import Verif.Spec.GenerableFuncs
import Verif.Lemmas.GenerableFuncs
import Verif.Props.GenerableFuncs
import Verif.Lemmas.ModuleNames
import Verif.Props.ModuleNames
import Verif.Spec.FuncDocs
import Verif.Lemmas.FuncDocs
import Verif.Props.FuncDocs
import Verif.Spec.UnionSpread
import Verif.Spec.Delivers
import Verif.Lemmas.Delivers
import Verif.Lemmas.DeliversCheck
import Verif.Props.Delivers
import Verif.Lemmas.OnlyClasses
import Verif.Spec.Evolution
import Verif.Lemmas.Evolution
import Verif.Lemmas.EvolutionWalk
import Verif.Lemmas.EvolutionPlugins
import Verif.Lemmas.EvolutionFuncs
import Verif.Lemmas.EvolutionTypes
import Verif.Props.Evolution
import Verif.Spec.Compose
import Verif.Lemmas.Compose
import Verif.Props.Compose
import Verif.Lemmas.GenerableServer
import Verif.Lemmas.Helpers
import Verif.Spec.GenerableServer
import Verif.Props.GenerableServer
import Verif.Spec.Shape
import Verif.Lemmas.Twin
import Verif.Lemmas.TwinWalk
import Verif.Lemmas.TwinPlugins
import Verif.Lemmas.TwinTypes
import Verif.Lemmas.TwinFuncs
import Verif.Lemmas.TwinStrawberry
import Verif.Props.Shape
import Verif.Spec.InputValues
import Verif.Lemmas.InputValues
import Verif.Props.InputValues
import Verif.Spec.Skip
import Verif.Lemmas.Skip
import Verif.Lemmas.SkipLoop
import Verif.Props.Skip
import Verif.Spec.Twins
import Verif.Lemmas.Twins
import Verif.Props.Twins
import Verif.Spec.Regenerate
import Verif.Props.Regenerate
import Verif.Lemmas.QuotedFuncs
import Verif.Props.ForwardFuncs
import Verif.Spec.Variables
import Verif.Lemmas.Variables
import Verif.Props.Variables
import Verif.Spec.TypedCalls
import Verif.Lemmas.TypedCalls
import Verif.Lemmas.TypedComplete
import Verif.Props.TypedCalls
import Verif.Spec.RoundTrip
import Verif.Lemmas.RoundTrip
import Verif.Props.RoundTrip
import Verif.Spec.StrawberryDirectives
import Verif.Lemmas.StrawberryDirectives
import Verif.Props.StrawberryDirectives
import Verif.Spec.Syntax
import Verif.Model.Reparse
import Verif.Lemmas.SyntaxLex
import Verif.Lemmas.SyntaxPrint
import Verif.Lemmas.SyntaxParse
import Verif.Lemmas.SyntaxRead
import Verif.Spec.SentDocuments
import Verif.Lemmas.SentDocuments
import Verif.Props.SentDocuments
import Verif.Lemmas.StrawberryScalars
import Verif.Props.StrawberryScalars
import Verif.Props.SentModule
import Verif.Spec.Conditional
import Verif.Lemmas.Conditional
import Verif.Props.Conditional
import Verif.Spec.EnumDocs
import Verif.Spec.ClassDocs
import Verif.Lemmas.ClassDocs
import Verif.Props.ClassDocs
import Verif.Spec.ClassBases
import Verif.Props.ClassBases
import Verif.Props.MarkedSet
import Verif.Model.OperationDocs
import Verif.Spec.OperationDocs
import Verif.Props.OperationDocs
