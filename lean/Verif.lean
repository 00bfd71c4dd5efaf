import Verif.Model.PyStr
import Verif.Model.Text
import Verif.Model.Html
import Verif.Model.Dom
import Verif.Spec.Html
import Verif.Spec.DomEvents
import Verif.Lemmas.PyStr
import Verif.Lemmas.Html
import Verif.Props.Markup
import Verif.Spec.Lines
import Verif.Lemmas.Lines
import Verif.Props.Indent
import Verif.Model.Preprocess
import Verif.Spec.Preprocess
import Verif.Lemmas.Preprocess
import Verif.Props.Preprocess
import Verif.Model.Builtins
import Verif.Model.Paths
import Verif.Model.Escapes
import Verif.Spec.Builtins
import Verif.Spec.Escapes
import Verif.Lemmas.Builtins
import Verif.Lemmas.Builtins2
import Verif.Lemmas.Escapes
import Verif.Props.Builtins
import Verif.Props.Escapes
import Verif.Model.Dict
import Verif.Model.MultiDict
import Verif.Model.Loader
import Verif.Spec.Table
import Verif.Lemmas.Dict
import Verif.Lemmas.Table
import Verif.Props.Table
import Verif.Props.Loader
import Verif.Model.DomTree
import Verif.Model.DomHeap
import Verif.Spec.DomTree
import Verif.Spec.DomHeap
import Verif.Lemmas.DomTree
import Verif.Lemmas.DomSelect
import Verif.Lemmas.DomHeap
import Verif.Lemmas.DomSkip
import Verif.Lemmas.DomAlter
import Verif.Props.Dom
import Verif.Model.Machine
import Verif.Model.NodeOps
import Verif.Model.Expr
import Verif.Model.Script
import Verif.Model.Translate
import Verif.Spec.Eval
import Verif.Spec.Toy
import Verif.Spec.Unpack
import Verif.Spec.Control
import Verif.Lemmas.Comp
import Verif.Lemmas.Eval
import Verif.Lemmas.Unpack
import Verif.Lemmas.Control
import Verif.Lemmas.Frame
import Verif.Lemmas.TransFrame
import Verif.Props.Expr
import Verif.Props.Control
import Verif.Spec.Blocks
import Verif.Model.Analyse
import Verif.Lemmas.Keeps
import Verif.Props.Blocks
import Verif.Spec.Scope
import Verif.Spec.Part
import Verif.Lemmas.Post
import Verif.Lemmas.Judge
import Verif.Lemmas.WritesMono
import Verif.Lemmas.Ctx
import Verif.Lemmas.AnalyseParts
import Verif.Lemmas.Analyse
import Verif.Lemmas.AnalyseNames
import Verif.Lemmas.Part
import Verif.Lemmas.Unanalysed
import Verif.Lemmas.Unresolved
import Verif.Props.Scope
import Verif.Spec.CallBinding
import Verif.Lemmas.CallBinding
import Verif.Props.Hypertag
import Verif.Spec.Context
import Verif.Lemmas.Context
import Verif.Props.Imports
import Verif.Props.ImportStatements
import Verif.Props.Text
import Verif.Model.Peg
import Verif.Model.Grammar
import Verif.Model.Parse
import Verif.Model.Rewrite
import Verif.Model.Setup
import Verif.Lemmas.Peg
import Verif.Lemmas.Parses
import Verif.Lemmas.Grammar
import Verif.Props.Parse
import Verif.Props.Special
import Verif.Props.TableUse
import Verif.Props.Operators
import Verif.Props.Layout
import Verif.Spec.Source
import Verif.Lemmas.Start
import Verif.Lemmas.Builds
import Verif.Lemmas.Source
import Verif.Spec.Written
import Verif.Lemmas.Lexical
import Verif.Lemmas.Opens
import Verif.Lemmas.After
import Verif.Lemmas.Atoms
import Verif.Lemmas.Brackets
import Verif.Lemmas.Trailers
import Verif.Lemmas.Levels
import Verif.Lemmas.Steps
import Verif.Lemmas.Reads
import Verif.Spec.Scripts
import Verif.Lemmas.Texts
import Verif.Lemmas.Remarks
import Verif.Lemmas.Assigns
import Verif.Lemmas.Attributes
import Verif.Lemmas.Bodies
import Verif.Lemmas.Clauses
import Verif.Lemmas.Definitions
import Verif.Lemmas.Documents
import Verif.Lemmas.Neat
import Verif.Props.Scripts
import Verif.Spec.Pages
import Verif.Spec.Unfold
import Verif.Lemmas.HeapTree
import Verif.Lemmas.DomText
import Verif.Lemmas.Makes
import Verif.Lemmas.Shows
import Verif.Lemmas.Pieces
import Verif.Lemmas.Elements
import Verif.Lemmas.Pages
import Verif.Lemmas.PageDocument
import Verif.Spec.PageEvents
import Verif.Lemmas.PageEvents
import Verif.Props.Pages
import Verif.Spec.Templates
import Verif.Spec.PyData
import Verif.Lemmas.Situations
import Verif.Lemmas.TemplateCtx
import Verif.Lemmas.Calls
import Verif.Lemmas.Templates
import Verif.Lemmas.TemplateDocument
import Verif.Spec.TemplateEvents
import Verif.Lemmas.TemplateEvents
import Verif.Props.Templates
import Verif.Spec.Policy
import Verif.Spec.Balanced
import Verif.Lemmas.Policy
import Verif.Lemmas.PolicyEval
import Verif.Lemmas.PolicyTransl
import Verif.Lemmas.Thins
import Verif.Lemmas.PolicyDoc
import Verif.Lemmas.PolicyAnalyse
import Verif.Props.Safety
import Verif.Spec.Made
import Verif.Lemmas.Kinds
import Verif.Lemmas.Derivations
import Verif.Lemmas.Fit
import Verif.Lemmas.FitSetup
import Verif.Lemmas.FitLoad
import Verif.Lemmas.Made
import Verif.Props.Made
import Verif.Spec.Components
import Verif.Lemmas.Parameters
import Verif.Lemmas.ComponentDefs
import Verif.Lemmas.Programs
import Verif.Lemmas.DefIds
import Verif.Props.Components
import Verif.Spec.Faults
import Verif.Lemmas.Faults
import Verif.Props.Faults
import Verif.Spec.Checks
import Verif.Lemmas.Checks
import Verif.Lemmas.ChecksMade
import Verif.Props.Checks
import Verif.Model.Errors
import Verif.Lemmas.Errors
import Verif.Props.Errors
import Verif.Model.PyModule
import Verif.Model.StdTags
import Verif.Lemmas.PyModule
import Verif.Props.PyModule
import Verif.Model.Project
import Verif.Spec.Project
import Verif.Lemmas.Project
import Verif.Props.Project
import Verif.Model.Render
import Verif.Props.Render
import Verif.Spec.Visible
import Verif.Lemmas.Visible
import Verif.Props.Visible
import Verif.Spec.Sheets
import Verif.Lemmas.Sheets
import Verif.Lemmas.SheetDocument
import Verif.Props.Sheets
import Verif.Spec.Packages
import Verif.Props.Packages
import Verif.Spec.Fresh
import Verif.Lemmas.ReadsMono
import Verif.Lemmas.Fresh
import Verif.Lemmas.Sure
import Verif.Lemmas.Tidy
import Verif.Props.Fresh
import Verif.Spec.Mentions
import Verif.Lemmas.Mentions
import Verif.Lemmas.Unslotted
import Verif.Props.Mentions
import Verif.Spec.Rename
import Verif.Lemmas.Rename
import Verif.Lemmas.RenameTransl
import Verif.Props.Rename
import Verif.Model.Nifty
import Verif.Spec.Nifty
import Verif.Props.Splitting
import Verif.Props.FileNames
import Verif.Props.Logger
import Verif.Spec.Joining
import Verif.Spec.Moved
import Verif.Lemmas.Joining
import Verif.Lemmas.JoiningRules
import Verif.Lemmas.JoiningRun
import Verif.Lemmas.JoiningText
import Verif.Lemmas.JoiningDocs
import Verif.Lemmas.JoiningLoad
import Verif.Props.Joining
import Verif.Props.BlankEnd
import Verif.Props.BlankStart
import Verif.Props.StdTags
import Verif.Spec.Embed
import Verif.Props.Embed
import Verif.Spec.Truth
import Verif.Props.Truth
import Verif.Spec.Reslot
import Verif.Lemmas.Reslot
import Verif.Lemmas.ReslotAnalyse
import Verif.Lemmas.ReslotCtx
import Verif.Lemmas.ReslotDoc
import Verif.Lemmas.ReslotMade
import Verif.Lemmas.ReslotStmt
import Verif.Lemmas.ReslotTransl
import Verif.Lemmas.Grows
import Verif.Lemmas.Independent
import Verif.Props.Independent
import Verif.Spec.Comments
import Verif.Lemmas.Comments
import Verif.Props.Comments
import Verif.Lemmas.ReslotComp
import Verif.Lemmas.Unused
import Verif.Props.Unused
import Verif.Lemmas.Lasts
import Verif.Props.Limits
import Verif.Props.Trailing
import Verif.Lemmas.Recode
import Verif.Lemmas.RecodeRules
import Verif.Lemmas.RecodeLoad
import Verif.Lemmas.RecodeClean
import Verif.Props.Choice
import Verif.Spec.Ending
import Verif.Lemmas.Ends
import Verif.Lemmas.EndsEval
import Verif.Lemmas.EndsTransl
import Verif.Lemmas.EndsExpand
import Verif.Lemmas.Orderly
import Verif.Lemmas.OrderlyAnalyse
import Verif.Props.Ending
import Verif.Spec.Commented
import Verif.Lemmas.Commented
import Verif.Props.Commented
import Verif.Model.TagCall
import Verif.Spec.TagCall
import Verif.Props.TagCall
import Verif.Model.Django
import Verif.Spec.Django
import Verif.Props.Django
import Verif.Spec.Constant
import Verif.Spec.Declaration
import Verif.Props.UnusedVar
import Verif.Props.UnusedImport
import Verif.Props.DeadCode
import Verif.Props.Swap
