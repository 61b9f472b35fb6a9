import Verif.Base.BMap
import Verif.Check.Cases
import Verif.Check.Expected
import Verif.Check.Readme
import Verif.Check.Suite
import Verif.Check.Tokens
import Verif.Model.Ast
import Verif.Model.Attr
import Verif.Model.Bound
import Verif.Model.Case
import Verif.Model.Codegen
import Verif.Model.Custom
import Verif.Model.Doc
import Verif.Model.Dummy
import Verif.Model.Eval
import Verif.Model.Expr
import Verif.Model.Generic
import Verif.Model.Impls
import Verif.Model.Macros
import Verif.Model.Messages
import Verif.Model.Mixed
import Verif.Model.Schema
import Verif.Model.Ser
import Verif.Model.Syntax
import Verif.Model.Types
import Verif.Proof.Accepts
import Verif.Proof.Api
import Verif.Proof.ApiDoc
import Verif.Proof.ApiLocal
import Verif.Proof.ApiRun
import Verif.Proof.Arrange
import Verif.Proof.AttrTables
import Verif.Proof.Attrs
import Verif.Proof.Bound
import Verif.Proof.Case
import Verif.Proof.Chars
import Verif.Proof.Choice
import Verif.Proof.Compiles
import Verif.Proof.Composed
import Verif.Proof.Conform
import Verif.Proof.ConformVia
import Verif.Proof.Custom
import Verif.Proof.Deep
import Verif.Proof.Derive
import Verif.Proof.DerivePanic
import Verif.Proof.DeriveRel
import Verif.Proof.DocForall
import Verif.Proof.DocInj
import Verif.Proof.DocSer
import Verif.Proof.Errors
import Verif.Proof.Evolve
import Verif.Proof.EvolveMixed
import Verif.Proof.Exact
import Verif.Proof.Examples
import Verif.Proof.Generic
import Verif.Proof.Grow
import Verif.Proof.Json
import Verif.Proof.JsonInj
import Verif.Proof.Lawful
import Verif.Proof.LocalMixed
import Verif.Proof.Mixed
import Verif.Proof.MixedSame
import Verif.Proof.Narrow
import Verif.Proof.Needs
import Verif.Proof.Neutral
import Verif.Proof.OpenApi
import Verif.Proof.OpenApiApi
import Verif.Proof.OpenApiDoc
import Verif.Proof.OpenApiExact
import Verif.Proof.OpenApiGen
import Verif.Proof.OpenApiInv
import Verif.Proof.OpenApiMixed
import Verif.Proof.Order
import Verif.Proof.OrderExact
import Verif.Proof.Parsed
import Verif.Proof.Positional
import Verif.Proof.Precise
import Verif.Proof.Published
import Verif.Proof.Read
import Verif.Proof.Reads
import Verif.Proof.Recast
import Verif.Proof.Refactor
import Verif.Proof.Relink
import Verif.Proof.RelinkValid
import Verif.Proof.Requests
import Verif.Proof.Requires
import Verif.Proof.Returns
import Verif.Proof.Routes
import Verif.Proof.Runs
import Verif.Proof.Same
import Verif.Proof.Sections
import Verif.Proof.Shapes
import Verif.Proof.Shuffle
import Verif.Proof.ShuffleDoc
import Verif.Proof.ShuffleGen
import Verif.Proof.ShuffleSyn
import Verif.Proof.ShuffleValid
import Verif.Proof.Size
import Verif.Proof.SizeDoc
import Verif.Proof.Skip
import Verif.Proof.Sorts
import Verif.Proof.Spared
import Verif.Proof.Stripped
import Verif.Proof.Swap
import Verif.Proof.SwapMixed
import Verif.Proof.Syntax
import Verif.Proof.Texts
import Verif.Proof.TextsValid
import Verif.Proof.Together
import Verif.Proof.Trace
import Verif.Proof.Trim
import Verif.Proof.TypeDecl
import Verif.Proof.Used
import Verif.Proof.UsedDoc
import Verif.Proof.Validity
import Verif.Proof.Whole
import Verif.Proof.Written
import Verif.Props.Access
import Verif.Props.Answers
import Verif.Props.Api
import Verif.Props.ApiMore
import Verif.Props.Arrange
import Verif.Props.Attrs
import Verif.Props.AttrsMore
import Verif.Props.Bound
import Verif.Props.Case
import Verif.Props.CaseAny
import Verif.Props.Choice
import Verif.Props.Compiles
import Verif.Props.Conform
import Verif.Props.ConformFalse
import Verif.Props.ConformNeeds
import Verif.Props.Custom
import Verif.Props.Derive
import Verif.Props.DeriveMore
import Verif.Props.Docs
import Verif.Props.Dummy
import Verif.Props.Evolve
import Verif.Props.EvolveMixed
import Verif.Props.Exact
import Verif.Props.ExactMore
import Verif.Props.ExactRest
import Verif.Props.Exchange
import Verif.Props.Exclusive
import Verif.Props.Formats
import Verif.Props.Generation
import Verif.Props.Generic
import Verif.Props.Grow
import Verif.Props.HandPrecise
import Verif.Props.HandReads
import Verif.Props.HandValues
import Verif.Props.Handmade
import Verif.Props.Impls
import Verif.Props.Local
import Verif.Props.LocalMixed
import Verif.Props.Messages
import Verif.Props.Mixed
import Verif.Props.MixedMore
import Verif.Props.Narrow
import Verif.Props.Neutral
import Verif.Props.Object
import Verif.Props.OpenApi
import Verif.Props.OpenApiMixed
import Verif.Props.Order
import Verif.Props.OrderExact
import Verif.Props.Params
import Verif.Props.Places
import Verif.Props.Precise
import Verif.Props.PreciseNeeds
import Verif.Props.Published
import Verif.Props.PublishedReads
import Verif.Props.Read
import Verif.Props.Reads
import Verif.Props.ReadsNeeds
import Verif.Props.Recast
import Verif.Props.Refactor
import Verif.Props.RefactorMixed
import Verif.Props.Registry
import Verif.Props.Relink
import Verif.Props.Required
import Verif.Props.Requires
import Verif.Props.Routes
import Verif.Props.RoutesMixed
import Verif.Props.Samples
import Verif.Props.Shuffle
import Verif.Props.Size
import Verif.Props.SizeDoc
import Verif.Props.Skip
import Verif.Props.Spots
import Verif.Props.Structure
import Verif.Props.Swap
import Verif.Props.SwapMixed
import Verif.Props.Syntax
import Verif.Props.Texts
import Verif.Props.Trace
import Verif.Props.Used
import Verif.Props.Verifies
import Verif.Props.Versions
import Verif.Props.VersionsMore
import Verif.Props.Written
import Verif.Props.Zoo
import Verif.Spec.Access
import Verif.Spec.Answers
import Verif.Spec.Api
import Verif.Spec.Arrange
import Verif.Spec.Attrs
import Verif.Spec.Bound
import Verif.Spec.Choice
import Verif.Spec.Compiles
import Verif.Spec.Conform
import Verif.Spec.ConformBy
import Verif.Spec.ConformVia
import Verif.Spec.Custom
import Verif.Spec.Deps
import Verif.Spec.Docs
import Verif.Spec.Errors
import Verif.Spec.Evolve
import Verif.Spec.EvolveMixed
import Verif.Spec.Exchange
import Verif.Spec.Formats
import Verif.Spec.Generic
import Verif.Spec.Impls
import Verif.Spec.Json
import Verif.Spec.Lawful
import Verif.Spec.Links
import Verif.Spec.LocalMixed
import Verif.Spec.Mixed
import Verif.Spec.Narrow
import Verif.Spec.Neutral
import Verif.Spec.Objects
import Verif.Spec.OpenApi
import Verif.Spec.OpenApiApi
import Verif.Spec.Parsed
import Verif.Spec.Places
import Verif.Spec.Positional
import Verif.Spec.Precise
import Verif.Spec.Published
import Verif.Spec.Read
import Verif.Spec.Reads
import Verif.Spec.ReadsBy
import Verif.Spec.Recast
import Verif.Spec.Refactor
import Verif.Spec.Registry
import Verif.Spec.Relink
import Verif.Spec.Requires
import Verif.Spec.Routes
import Verif.Spec.Shapes
import Verif.Spec.Shuffle
import Verif.Spec.Size
import Verif.Spec.SizeDoc
import Verif.Spec.Skip
import Verif.Spec.Spared
import Verif.Spec.Spots
import Verif.Spec.Stripped
import Verif.Spec.Swap
import Verif.Spec.SwapMixed
import Verif.Spec.Syntax
import Verif.Spec.Texts
import Verif.Spec.Together
import Verif.Spec.Trace
import Verif.Spec.Used
import Verif.Spec.Versions
import Verif.Spec.Whole
import Verif.Spec.Words
