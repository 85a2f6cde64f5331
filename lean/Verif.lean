import Verif.Model.Basic
import Verif.Model.Core
import Verif.Model.Trie
import Verif.Model.Flat
import Verif.Model.Names
import Verif.Model.Rust
import Verif.Model.Gen
import Verif.Model.Nom
import Verif.Model.Parse
import Verif.Tests.Golden
import Verif.Proofs.Trie
import Verif.Spec.Config
import Verif.Proofs.Flat
import Verif.Proofs.Ast
import Verif.Spec.Router
import Verif.Proofs.GenTrie
import Verif.Proofs.Desc
import Verif.Proofs.Exec
import Verif.Proofs.RouterLemmas
import Verif.Proofs.Sim
import Verif.Proofs.Simulation
import Verif.Proofs.Refine
import Verif.Spec.Instance
import Verif.Proofs.Classify
import Verif.Spec.Shape
import Verif.Proofs.Shape
import Verif.Proofs.Code
import Verif.Proofs.Typing
import Verif.Proofs.Scoping
import Verif.Proofs.Naming
import Verif.Spec.Follow
import Verif.Proofs.Follow
import Verif.Tests.Demo
import Verif.Props.Routing
import Verif.Proofs.Total
import Verif.Proofs.Compose
import Verif.Proofs.Utf8
import Verif.Spec.Reach
import Verif.Proofs.Reach
import Verif.Props.Reach
import Verif.Props.Siblings
import Verif.Spec.Order
import Verif.Props.Order
import Verif.Spec.Mount
import Verif.Props.Mount
import Verif.Spec.Modules
import Verif.Proofs.Modules
import Verif.Props.Generation
import Verif.Spec.Trie
import Verif.Props.Trie
import Verif.Proofs.Ascii
import Verif.Props.Names
import Verif.Spec.Rename
import Verif.Proofs.Rename
import Verif.Props.Rename
import Verif.Props.Shadow
import Verif.Model.Path
import Verif.Spec.Path
import Verif.Props.Path
import Verif.Spec.Parse
import Verif.Spec.File
import Verif.Spec.Grammar
import Verif.Proofs.Parse
import Verif.Proofs.ParseFuel
import Verif.Proofs.Written
import Verif.Proofs.Print
import Verif.Proofs.Consume
import Verif.Props.File
import Verif.Spec.Lines
import Verif.Proofs.Lines
import Verif.Props.Lines
import Verif.Proofs.Grammar
import Verif.Props.Grammar
import Verif.Model.Errors
import Verif.Spec.Errors
import Verif.Proofs.Errors
import Verif.Props.Errors
import Verif.Model.Build
import Verif.Props.Build
import Verif.Spec.Lex
import Verif.Spec.Read
import Verif.Proofs.Lex
import Verif.Proofs.Tokens
import Verif.Proofs.Read
import Verif.Proofs.Decl
import Verif.Proofs.Named
import Verif.Spec.Elab
import Verif.Proofs.Emit
import Verif.Spec.Words
import Verif.Spec.Types
import Verif.Proofs.Text
import Verif.Proofs.Binds
import Verif.Proofs.Elab
import Verif.Proofs.Accept
import Verif.Proofs.Retype
import Verif.Proofs.Demand
import Verif.Proofs.Infer
import Verif.Proofs.Pipeline
import Verif.Proofs.Clear
import Verif.Spec.Exact
import Verif.Proofs.Exact
import Verif.Props.Exact
import Verif.Tests.Check
import Verif.Tests.Project
import Verif.Props.Text
import Verif.Props.Accept
import Verif.Props.RoundTrip
import Verif.Props.Pipeline
import Verif.Spec.Doc
import Verif.Props.Doc
import Verif.Model.Macros
import Verif.Props.Macros
import Verif.Spec.Open
import Verif.Props.Config
import Verif.Spec.Cost
import Verif.Proofs.Cost
import Verif.Props.Cost
import Verif.Model.Diff
import Verif.Spec.Diff
import Verif.Props.Diff
import Verif.Props.Renaming
import Verif.Model.Cli
import Verif.Spec.Cli
import Verif.Proofs.Cli
import Verif.Props.Cli
import Verif.Spec.Found
import Verif.Props.Found
import Verif.Model.Cases
import Verif.Spec.Cases
import Verif.Props.Cases
import Verif.Spec.Expected
import Verif.Proofs.Viable
import Verif.Props.Viable
import Verif.Spec.Edit
import Verif.Props.Edit
import Verif.Spec.Macros
import Verif.Props.Decide
import Verif.Spec.Guarded
import Verif.Props.Guarded
import Verif.Model.Shipped
import Verif.Props.Shipped
import Verif.Spec.Client
import Verif.Props.Client
import Verif.Spec.Size
import Verif.Proofs.Size
import Verif.Props.Size
import Verif.Spec.Format
import Verif.Proofs.Format
import Verif.Model.Goal
import Verif.Props.Goal
import Verif.Model.CaseFiles
import Verif.Props.Golden
import Verif.Spec.Table
import Verif.Props.Table
import Verif.Props.Manual
import Verif.Spec.Pieces
import Verif.Props.Pieces
import Verif.Spec.Layout
import Verif.Proofs.Layout
import Verif.Props.Layout
import Verif.Spec.ParseCost
import Verif.Proofs.ParseCost
import Verif.Proofs.ReadCost
import Verif.Proofs.ReadRoutes
import Verif.Proofs.ReadFile
import Verif.Props.ParseCost
import Verif.Props.Raw
import Verif.Model.Old
import Verif.Props.Old
import Verif.Props.Opaque
import Verif.Props.Verb
import Verif.Props.Same
import Verif.Spec.Alike
import Verif.Props.Alike
import Verif.Props.Sums
import Verif.Props.Asks
import Verif.Props.Relabel
import Verif.Props.Flow
import Verif.Props.Api
import Verif.Props.Insert
import Verif.Props.Site
import Verif.Props.Truncate
import Verif.Props.Links
import Verif.Props.Slashes
import Verif.Props.Mounting
import Verif.Props.MountFile
import Verif.Props.Scope
import Verif.Props.Split
import Verif.Props.Traits
import Verif.Spec.Indent
import Verif.Proofs.Indent
import Verif.Props.Indent
import Verif.Spec.Whole
import Verif.Props.Whole
import Verif.Spec.FileSize
import Verif.Proofs.FileSize
import Verif.Props.FileSize
import Verif.Model.Derive
import Verif.Spec.Same
import Verif.Proofs.Same
import Verif.Spec.Dead
import Verif.Props.Dead
import Verif.Spec.Nest
import Verif.Proofs.Nest
import Verif.Props.Nest
import Verif.Spec.Spell
import Verif.Proofs.Spell
import Verif.Proofs.Spelt
import Verif.Props.Spell
import Verif.Spec.Braces
import Verif.Proofs.Braces
import Verif.Props.Braces
import Verif.Props.Ascii
import Verif.Props.Length
import Verif.Spec.Sound
import Verif.Proofs.Sound
import Verif.Props.Sound
import Verif.Spec.Offset
import Verif.Proofs.Offset
import Verif.Props.Offset
import Verif.Props.Taken
import Verif.Props.Written
import Verif.Tests.Applied
