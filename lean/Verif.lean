import Verif.Model.Protocol
import Verif.Model.Node
import Verif.Lemmas.HMap
import Verif.Lemmas.Point
import Verif.Lemmas.Rope
import Verif.Lemmas.Text
import Verif.Lemmas.Files
import Verif.Lemmas.Path
import Verif.Lemmas.Server
import Verif.Props.Fixtures
import Verif.Props.Text
import Verif.Props.Sync
import Verif.Props.Worker
import Verif.Spec.Template
import Verif.Lemmas.Template
import Verif.Lemmas.Items
import Verif.Lemmas.Open
import Verif.Props.Definitions
import Verif.Spec.Expr
import Verif.Lemmas.Expr
import Verif.Lemmas.Objects
import Verif.Lemmas.Cursor
import Verif.Lemmas.Completion
import Verif.Lemmas.Imports
import Verif.Lemmas.Snippets
import Verif.Props.Expressions
import Verif.Spec.Imports
import Verif.Lemmas.UnderCursor
import Verif.Props.Imports
import Verif.Spec.Paths
import Verif.Lemmas.PathItems
import Verif.Spec.Diagnostics
import Verif.Lemmas.Refs
import Verif.Lemmas.Diagnostics
import Verif.Props.Diagnostics
import Verif.Props.References
import Verif.Props.Publish
import Verif.Lemmas.Latest
import Verif.Props.Goto
import Verif.Lemmas.Vars
import Verif.Lemmas.At
import Verif.Props.Complete
import Verif.Lemmas.Split
import Verif.Props.TemplateItems
import Verif.Props.Hover
import Verif.Props.Actions
import Verif.Lemmas.Order
import Verif.Props.Order
import Verif.Model.Client
import Verif.Props.Startup
import Verif.Props.Deadlock
import Verif.Props.NodeHints
import Verif.Props.Python
import Verif.Props.NodeLinks
import Verif.Props.NodeOffsets
import Verif.Props.NodeComplete
import Verif.Props.Clone
import Verif.Props.Trace
import Verif.Props.Survival
import Verif.Props.InStep
import Verif.Props.Quiet
import Verif.Props.Recast
import Verif.Model.Queries
import Verif.Spec.Syntax
import Verif.Lemmas.Queries
import Verif.Lemmas.Visits
import Verif.Lemmas.BackendQueries
import Verif.Props.Syntax
import Verif.Props.BackendSyntax
import Verif.Model.Capabilities
import Verif.Props.Answers
import Verif.Props.Capabilities
import Verif.Props.Honest
import Verif.Props.Displayed
import Verif.Props.Lookup
import Verif.Lemmas.Layout
import Verif.Props.Named
import Verif.Props.Fixes
import Verif.Lemmas.Idle
import Verif.Props.Offered
import Verif.Props.Settle
import Verif.Props.Stale
import Verif.Props.History
import Verif.Props.PythonSyntax
import Verif.Props.NodeBasic
import Verif.Props.Snippet
import Verif.Props.NodeHover
import Verif.Props.NodeGoto
import Verif.Props.NodeDocs
import Verif.Props.Reading
import Verif.Props.Kinds
import Verif.Props.Handlers
import Verif.Props.Served
import Verif.Props.Attributes
import Verif.Props.OneFile
import Verif.Props.OfferedFiles
import Verif.Props.Documented
import Verif.Props.Addresses
import Verif.Props.Typing
import Verif.Props.Larger
import Verif.Props.Moved
import Verif.Props.Shifted
import Verif.Props.Before
import Verif.Props.Others
import Verif.Props.Agreement
import Verif.Props.Again
import Verif.Props.Offers
import Verif.Model.Config
import Verif.Props.Settings
import Verif.Checks.Upstream
import Verif.Spec.Places
import Verif.Lemmas.Places
import Verif.Props.Places
import Verif.Props.NodePlaces
import Verif.Props.Reopened
import Verif.Spec.Jinja
import Verif.Lemmas.Jinja
import Verif.Lemmas.Reading
import Verif.Props.Scoping
import Verif.Props.ScopedCompletion
import Verif.Props.ScopedRest
import Verif.Props.Passed
import Verif.Props.Words
import Verif.Props.PassedRest
import Verif.Props.NodeScoping
import Verif.Props.Outside
import Verif.Props.Bindless
import Verif.Props.Pieces
import Verif.Props.Growing
import Verif.Props.WrittenOn
import Verif.Props.NodePieces
import Verif.Props.NodeSurvival
import Verif.Props.Wrapping
import Verif.Props.Edits
import Verif.Props.NodeEdits
import Verif.Props.Settles
import Verif.Props.NodeSettles
import Verif.Props.AtHome
import Verif.Props.Listed
import Verif.Props.NodeListed
import Verif.Props.InOrder
import Verif.Props.Squiggles
import Verif.Props.Hidden
import Verif.Props.Sites
import Verif.Props.Reserved
import Verif.Props.NodeSites
import Verif.Props.Concern
import Verif.Props.NodeConcern
import Verif.Props.OfferedNames
