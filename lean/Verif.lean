import Verif.Checks.Editor
import Verif.Checks.Readme
import Verif.Checks.Trees
import Verif.Checks.Yaml
import Verif.Lemmas.Abs
import Verif.Lemmas.AgreeingCalls
import Verif.Lemmas.Ast
import Verif.Lemmas.Bare
import Verif.Lemmas.BareBuild
import Verif.Lemmas.BareRender
import Verif.Lemmas.Build
import Verif.Lemmas.Camel
import Verif.Lemmas.Check
import Verif.Lemmas.ClassName
import Verif.Lemmas.Clean
import Verif.Lemmas.Clear
import Verif.Lemmas.ClearBuild
import Verif.Lemmas.ClearCheck
import Verif.Lemmas.ClearTree
import Verif.Lemmas.CoherentCheck
import Verif.Lemmas.Columns
import Verif.Lemmas.Crash
import Verif.Lemmas.Depth
import Verif.Lemmas.Dict
import Verif.Lemmas.Distinct
import Verif.Lemmas.Encoded
import Verif.Lemmas.Fits
import Verif.Lemmas.FitsBuild
import Verif.Lemmas.Flat
import Verif.Lemmas.Float
import Verif.Lemmas.Formed
import Verif.Lemmas.Fuel
import Verif.Lemmas.Grammar
import Verif.Lemmas.GrammarTree
import Verif.Lemmas.Growing
import Verif.Lemmas.HashEq
import Verif.Lemmas.HashOf
import Verif.Lemmas.Holds
import Verif.Lemmas.HoldsBuild
import Verif.Lemmas.Imports
import Verif.Lemmas.InnerDicts
import Verif.Lemmas.InnerRows
import Verif.Lemmas.InspectedPart
import Verif.Lemmas.Keyed
import Verif.Lemmas.Levels
import Verif.Lemmas.Lexemes
import Verif.Lemmas.LikeBuild
import Verif.Lemmas.Linked
import Verif.Lemmas.ListStr
import Verif.Lemmas.Live
import Verif.Lemmas.LiveSteps
import Verif.Lemmas.Matches
import Verif.Lemmas.MeansAdmits
import Verif.Lemmas.Merge
import Verif.Lemmas.MergeMixed
import Verif.Lemmas.MergeText
import Verif.Lemmas.Merged
import Verif.Lemmas.Names
import Verif.Lemmas.Order
import Verif.Lemmas.Outline
import Verif.Lemmas.Overload
import Verif.Lemmas.Pieces
import Verif.Lemmas.Prefixed
import Verif.Lemmas.Private
import Verif.Lemmas.Quoted
import Verif.Lemmas.Quotes
import Verif.Lemmas.Reader
import Verif.Lemmas.Reads
import Verif.Lemmas.Recursion
import Verif.Lemmas.Reload
import Verif.Lemmas.Render
import Verif.Lemmas.ResetSteps
import Verif.Lemmas.RowComments
import Verif.Lemmas.Rows
import Verif.Lemmas.Scope
import Verif.Lemmas.Settings
import Verif.Lemmas.Share
import Verif.Lemmas.SigWords
import Verif.Lemmas.Silent
import Verif.Lemmas.Sim
import Verif.Lemmas.SimBuild
import Verif.Lemmas.SimRender
import Verif.Lemmas.Snapshot
import Verif.Lemmas.Sound
import Verif.Lemmas.SoundHolds
import Verif.Lemmas.Split
import Verif.Lemmas.Stub
import Verif.Lemmas.Suffix
import Verif.Lemmas.Symbols
import Verif.Lemmas.Tables
import Verif.Lemmas.Total
import Verif.Lemmas.Types
import Verif.Lemmas.Unique
import Verif.Lemmas.Unmerged
import Verif.Lemmas.Unused
import Verif.Lemmas.ValueHash
import Verif.Lemmas.Via
import Verif.Lemmas.Words
import Verif.Lemmas.Yaml
import Verif.Lemmas.YamlDoc
import Verif.Lemmas.YamlInject
import Verif.Lemmas.YamlInner
import Verif.Lemmas.YamlLines
import Verif.Lemmas.YamlRows
import Verif.Lemmas.YamlShown
import Verif.Lemmas.YamlText
import Verif.Lemmas.YamlValue
import Verif.Model.Ast
import Verif.Model.Cache
import Verif.Model.CheckCode
import Verif.Model.Dispatch
import Verif.Model.Docstring
import Verif.Model.Encoded
import Verif.Model.Frames
import Verif.Model.Generator
import Verif.Model.HasReturn
import Verif.Model.Imports
import Verif.Model.Iter
import Verif.Model.Later
import Verif.Model.Live
import Verif.Model.LiveSteps
import Verif.Model.Loop
import Verif.Model.Mypy
import Verif.Model.Names
import Verif.Model.OrderedSet
import Verif.Model.Outline
import Verif.Model.Pieces
import Verif.Model.PushHook
import Verif.Model.PyFile
import Verif.Model.Reads
import Verif.Model.Recursion
import Verif.Model.Render
import Verif.Model.ResetSteps
import Verif.Model.Signature
import Verif.Model.Strategies
import Verif.Model.Tables
import Verif.Model.ToFile
import Verif.Model.Tree
import Verif.Model.TreeObject
import Verif.Model.Val
import Verif.Model.Yaml
import Verif.Model.YamlLoad
import Verif.Props.Ast
import Verif.Props.Bodies
import Verif.Props.ClassName
import Verif.Props.Classes
import Verif.Props.Coherent
import Verif.Props.Comments
import Verif.Props.DeclOrder
import Verif.Props.Decorators
import Verif.Props.Depth
import Verif.Props.Determinism
import Verif.Props.Dispatch
import Verif.Props.Distinct
import Verif.Props.DocLayout
import Verif.Props.Docstring
import Verif.Props.Editor
import Verif.Props.Encoded
import Verif.Props.EntryTypes
import Verif.Props.FrameNames
import Verif.Props.Frames
import Verif.Props.Functions
import Verif.Props.Grammar
import Verif.Props.Growing
import Verif.Props.Imports
import Verif.Props.Inherit
import Verif.Props.InnerComments
import Verif.Props.Inspected
import Verif.Props.Iter
import Verif.Props.Layout
import Verif.Props.Levels
import Verif.Props.Limits
import Verif.Props.Live
import Verif.Props.LiveCrash
import Verif.Props.LiveDocs
import Verif.Props.MapKeys
import Verif.Props.Merge
import Verif.Props.Mixed
import Verif.Props.Names
import Verif.Props.Order
import Verif.Props.Outline
import Verif.Props.Pieces
import Verif.Props.Precise
import Verif.Props.PushHook
import Verif.Props.PyFile
import Verif.Props.Reads
import Verif.Props.Records
import Verif.Props.Recursion
import Verif.Props.Referenced
import Verif.Props.Rename
import Verif.Props.ResetTogether
import Verif.Props.RowComments
import Verif.Props.Rows
import Verif.Props.Scalars
import Verif.Props.Settings
import Verif.Props.Signature
import Verif.Props.Snapshot
import Verif.Props.Sound
import Verif.Props.Symbols
import Verif.Props.Tables
import Verif.Props.ToFile
import Verif.Props.Together
import Verif.Props.Tools
import Verif.Props.TreeCalls
import Verif.Props.Unused
import Verif.Props.Utils
import Verif.Props.Yaml
import Verif.Props.YamlData
import Verif.Props.YamlInner
import Verif.Props.YamlLoad
import Verif.Props.YamlRows
import Verif.Py.Float
import Verif.Py.Str
import Verif.Py.Unicode
import Verif.Spec.Ast
import Verif.Spec.Basic
import Verif.Spec.Calls
import Verif.Spec.Clear
import Verif.Spec.Coherent
import Verif.Spec.Comments
import Verif.Spec.Depth
import Verif.Spec.Dispatch
import Verif.Spec.Distinct
import Verif.Spec.Docs
import Verif.Spec.Encoded
import Verif.Spec.Fill
import Verif.Spec.Frames
import Verif.Spec.Grammar
import Verif.Spec.Growing
import Verif.Spec.Imports
import Verif.Spec.InnerDicts
import Verif.Spec.InnerRows
import Verif.Spec.Inspected
import Verif.Spec.Levels
import Verif.Spec.Lexemes
import Verif.Spec.Live
import Verif.Spec.Matches
import Verif.Spec.Mixed
import Verif.Spec.Names
import Verif.Spec.Order
import Verif.Spec.Outline
import Verif.Spec.Pieces
import Verif.Spec.Prefixed
import Verif.Spec.PushHook
import Verif.Spec.PyFiles
import Verif.Spec.Quoted
import Verif.Spec.Reader
import Verif.Spec.Reads
import Verif.Spec.Recursion
import Verif.Spec.Refers
import Verif.Spec.ResetTogether
import Verif.Spec.Rows
import Verif.Spec.Settings
import Verif.Spec.Shape
import Verif.Spec.Signature
import Verif.Spec.Snapshot
import Verif.Spec.Steady
import Verif.Spec.Stub
import Verif.Spec.Symbols
import Verif.Spec.Tables
import Verif.Spec.Together
import Verif.Spec.Tools
import Verif.Spec.Tree
import Verif.Spec.TreeCalls
import Verif.Spec.Types
import Verif.Spec.Unmerged
import Verif.Spec.Values
import Verif.Spec.Written
import Verif.Spec.Yaml
import Verif.Spec.YamlData
import Verif.Spec.YamlInner
import Verif.Spec.YamlRows
