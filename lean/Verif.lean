import Verif.Spec
import Verif.Model.Alias
import Verif.Model.AliasTake
import Verif.Model.At
import Verif.Model.AxisSpec
import Verif.Model.Basic
import Verif.Model.Big
import Verif.Model.BigText
import Verif.Model.Catenate
import Verif.Model.Channel
import Verif.Model.Cmd
import Verif.Model.Commands
import Verif.Model.Complex
import Verif.Model.Csv
import Verif.Model.Decode
import Verif.Model.Depth
import Verif.Model.Dict
import Verif.Model.Domain
import Verif.Model.Domino
import Verif.Model.Dot
import Verif.Model.DurText
import Verif.Model.Effect
import Verif.Model.Exec
import Verif.Model.Format
import Verif.Model.FuncIndex
import Verif.Model.Grade
import Verif.Model.Image
import Verif.Model.Index
import Verif.Model.Int
import Verif.Model.Interp
import Verif.Model.IvCmd
import Verif.Model.Json
import Verif.Model.ListText
import Verif.Model.Lists
import Verif.Model.Match
import Verif.Model.Mount
import Verif.Model.NumText
import Verif.Model.Ops
import Verif.Model.Package
import Verif.Model.Parse
import Verif.Model.Rank
import Verif.Model.RavelAxis
import Verif.Model.Reader
import Verif.Model.Reduce
import Verif.Model.ReduceTack
import Verif.Model.Replicate
import Verif.Model.Reverse
import Verif.Model.Rpc
import Verif.Model.Scalar
import Verif.Model.Scan
import Verif.Model.Search
import Verif.Model.Select
import Verif.Model.Shape
import Verif.Model.Std
import Verif.Model.Stencil
import Verif.Model.Table
import Verif.Model.TableOps
import Verif.Model.Take
import Verif.Model.Time
import Verif.Model.TimeText
import Verif.Model.Tower
import Verif.Model.Transpose
import Verif.Model.Unify
import Verif.Model.Value
import Verif.Model.VarFs
import Verif.Model.Xgo
import Verif.Lemmas.Alias
import Verif.Lemmas.AliasOwn
import Verif.Lemmas.AllIdx
import Verif.Lemmas.CalcAct
import Verif.Lemmas.CalcEval
import Verif.Lemmas.CalcOps
import Verif.Lemmas.CalcParse
import Verif.Lemmas.CalcPrim
import Verif.Lemmas.CalcProgram
import Verif.Lemmas.CalcRun
import Verif.Lemmas.CalcScan
import Verif.Lemmas.CalcState
import Verif.Lemmas.Catenate
import Verif.Lemmas.Channel
import Verif.Lemmas.ChannelRead
import Verif.Lemmas.ChannelRun
import Verif.Lemmas.Decode
import Verif.Lemmas.Domino
import Verif.Lemmas.Dot
import Verif.Lemmas.Effect
import Verif.Lemmas.Expand
import Verif.Lemmas.FastNwise
import Verif.Lemmas.Format
import Verif.Lemmas.FormatScan
import Verif.Lemmas.FormatStream
import Verif.Lemmas.FormatText
import Verif.Lemmas.Fuel
import Verif.Lemmas.Gather
import Verif.Lemmas.Interp
import Verif.Lemmas.Lines
import Verif.Lemmas.Nwise
import Verif.Lemmas.Parse
import Verif.Lemmas.ParseAxis
import Verif.Lemmas.ParseFuel
import Verif.Lemmas.ParseLoop
import Verif.Lemmas.ParsePieces
import Verif.Lemmas.ParsePush
import Verif.Lemmas.ParseRun
import Verif.Lemmas.ParseTokens
import Verif.Lemmas.ParseTrain
import Verif.Lemmas.ParseWords
import Verif.Lemmas.Rank
import Verif.Lemmas.Reduce
import Verif.Lemmas.Replicate
import Verif.Lemmas.Reshape
import Verif.Lemmas.Rotate
import Verif.Lemmas.Scan
import Verif.Lemmas.Shape
import Verif.Lemmas.Take
import Verif.Lemmas.TakeDrop
import Verif.Lemmas.Transpose
import Verif.Props.Alias
import Verif.Props.AliasMod
import Verif.Props.AliasTake
import Verif.Props.Assign
import Verif.Props.At
import Verif.Props.AxisSpec
import Verif.Props.Big
import Verif.Props.BigText
import Verif.Props.Calc
import Verif.Props.Calls
import Verif.Props.Catenate
import Verif.Props.Channel
import Verif.Props.Cmd
import Verif.Props.Commands
import Verif.Props.Complex
import Verif.Props.Csv
import Verif.Props.Decode
import Verif.Props.Depth
import Verif.Props.Dict
import Verif.Props.Domain
import Verif.Props.Domino
import Verif.Props.DominoLsq
import Verif.Props.Dot
import Verif.Props.DurText
import Verif.Props.EvalOrder
import Verif.Props.Exec
import Verif.Props.Find
import Verif.Props.Format
import Verif.Props.FormatStream
import Verif.Props.FuncIndex
import Verif.Props.Grade
import Verif.Props.Image
import Verif.Props.Index
import Verif.Props.Int
import Verif.Props.Interp
import Verif.Props.InterpDemo
import Verif.Props.IvCmd
import Verif.Props.Json
import Verif.Props.Lambda
import Verif.Props.ListText
import Verif.Props.Lists
import Verif.Props.Match
import Verif.Props.Mount
import Verif.Props.NList
import Verif.Props.NumText
import Verif.Props.Nwise
import Verif.Props.Ops
import Verif.Props.Package
import Verif.Props.PackageFile
import Verif.Props.Parse
import Verif.Props.Program
import Verif.Props.Rank
import Verif.Props.RavelAxis
import Verif.Props.Reader
import Verif.Props.Reduce
import Verif.Props.ReduceTack
import Verif.Props.Replicate
import Verif.Props.Reshape
import Verif.Props.Reverse
import Verif.Props.Rotate
import Verif.Props.Rpc
import Verif.Props.Scalar
import Verif.Props.ScalarAxis
import Verif.Props.Scan
import Verif.Props.Search
import Verif.Props.SearchIndex
import Verif.Props.Select
import Verif.Props.Shape
import Verif.Props.Stencil
import Verif.Props.Table
import Verif.Props.TableAssign
import Verif.Props.TableOps
import Verif.Props.TableQuery
import Verif.Props.Take
import Verif.Props.Time
import Verif.Props.TimeRound
import Verif.Props.TimeText
import Verif.Props.Tower
import Verif.Props.Transpose
import Verif.Props.Unify
import Verif.Props.VarFs
import Verif.Props.Xgo
