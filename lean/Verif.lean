import Verif.Bits.Props
import Verif.Ident.Props
import Verif.Expr.Model
import Verif.Expr.Semantics
import Verif.Expr.Fuel
import Verif.Expr.Sound2
import Verif.Expr.Props
import Verif.Expr.SubstProps
import Verif.Expr.VarsProps
import Verif.Checksum.Props
import Verif.Errors.Props
import Verif.Common.Props
import Verif.Types.Props
import Verif.Types.ConstraintProps
import Verif.PyRFLX.ScalarProps
import Verif.PyRFLX.EnumProps
import Verif.PyRFLX.ArrayProps
import Verif.PyRFLX.ChecksumFn
import Verif.PyRFLX.MessageProps
import Verif.PyRFLX.MessageParseExample
import Verif.Graph.Props
import Verif.Graph.Termination
import Verif.Graph.PathProps
import Verif.Session.Props
import Verif.Session.DeclExample
import Verif.ModelPkg.Props
import Verif.SpecParser.ImportProps
import Verif.Cache.Props
import Verif.Cache.Key
import Verif.Verify.Counterexamples
import Verif.Spark.RuntimeProps
import Verif.Spark.ScalarSeqProps
import Verif.Spark.MessageSeqProps
import Verif.Typing.Props
import Verif.SpecParser.StructureProps
import Verif.Generator.ScalarProps
import Verif.Merge.Example
import Verif.Gen.Example
import Verif.Ctx.Example
import Verif.Ctx.Rebuild
import Verif.Ctx.HistoryExample
import Verif.Typing.CheckProps
import Verif.Verify.ExprTypesExample
import Verif.Ada.Props
import Verif.Ada.FromExample
import Verif.SpecParser.TreeProps
import Verif.SpecParser.PackageProps
import Verif.SpecParser.PackageAccept
import Verif.Dot.Props
import Verif.PyRFLX.MessageChecksum
import Verif.PyRFLX.MessageChecksumLemmas
import Verif.PyRFLX.MessageChecksumProps
import Verif.PyRFLX.MessageChecksumExample
import Verif.PyRFLX.MessageChecksumSettable
import Verif.SpecParser.Sessions
import Verif.SpecParser.SessionsSpec
import Verif.SpecParser.SessionsLemmas
import Verif.SpecParser.SessionsProps
import Verif.SpecParser.SessionsExample
import Verif.Units.Model
import Verif.Units.Spec
import Verif.Units.Lemmas
import Verif.Units.Parameters
import Verif.Units.Props
import Verif.Units.Fit
import Verif.Units.Example
import Verif.Refine.Names
import Verif.Refine.Example
import Verif.PyRFLX.Nested
import Verif.PyRFLX.NestedLemmas
import Verif.PyRFLX.NestedSound
import Verif.PyRFLX.NestedRound
import Verif.PyRFLX.NestedChoice
import Verif.PyRFLX.NestedProps
import Verif.PyRFLX.NestedExample
import Verif.Agree.Props
import Verif.Agree.Example
import Verif.Export.Props
import Verif.Cli.Files
import Verif.Derived.Props
import Verif.Ada.StmtProps
import Verif.Ctx.SeqExample
import Verif.Ada.Decl
import Verif.Ada.DeclGrammar
import Verif.Ada.DeclParse
import Verif.Ada.DeclValue
import Verif.Ada.DeclText
import Verif.Ada.DeclMain
import Verif.Ada.DeclProps
import Verif.Ada.DeclExamples
import Verif.Ada.DeclEqual
import Verif.Ada.DeclUnit
import Verif.Post.Model
import Verif.Post.Read
import Verif.Post.Definite
import Verif.Post.Lemmas
import Verif.Post.Props
import Verif.Post.Meaning
import Verif.Post.Examples
import Verif.Access.Model
import Verif.Access.Spec
import Verif.Access.Lemmas
import Verif.Access.Props
import Verif.Access.Short
import Verif.Access.Examples
import Verif.PyRFLX.MsgArray
import Verif.PyRFLX.MsgArrayLemmas
import Verif.PyRFLX.MsgArrayProps
import Verif.PyRFLX.MsgArrayExample
import Verif.Bridge.Env
import Verif.Bridge.Assign
import Verif.Bridge.Layout
import Verif.Bridge.Props
import Verif.Bridge.Example
import Verif.Bridge.Counterexample
import Verif.Bridge.Kinds
import Verif.Bridge.WellFormed
import Verif.Bridge.WellFormedExample
import Verif.Verify.ScopeCounterexample
import Verif.Verify.InstanceProps
import Verif.Verify.DeadLink
import Verif.Expr.Stable
import Verif.Verify.ChecksumProps
import Verif.Verify.ChecksumExample
import Verif.Verify.OverlayProps
import Verif.Verify.AspectProps
import Verif.SpecParser.Checksums
import Verif.SpecParser.ChecksumsProps
import Verif.SpecParser.NamesProps
import Verif.PyRFLX.AccessProps
import Verif.Generator.DeclNamesProps
import Verif.Generator.FieldNamesProps
import Verif.Ident.TextProps
import Verif.PyRFLX.ScalarText
import Verif.Types.TextProps
import Verif.Session.NamesProps
import Verif.PyRFLX.ArrayBytes
import Verif.Typing.BytesProps
import Verif.Audit
