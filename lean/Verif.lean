import Verif.Graph.Props
import Verif.Exec.Props
import Verif.Emit.Props
import Verif.Refs.Props
import Verif.AllGraph.Props
import Verif.Eval.Props
import Verif.NullCmp.Props
import Verif.CelCache.Props
import Verif.Timeout.Props
import Verif.Retry.Props
import Verif.ErrH.Props
import Verif.ErrH.Decl
import Verif.ErrH.DeclProps
import Verif.ErrVar.Props
import Verif.ErrVar.Details
import Verif.Cast.NumProps
import Verif.Cast.StructProps
import Verif.EnumMap.Props
import Verif.Field.Props
import Verif.Types.Props
import Verif.Types.FieldsProps
import Verif.Args.Props
import Verif.Names.Props
import Verif.SharedEnv.Props
import Verif.SvcVar.Props
import Verif.Sig.Props
import Verif.Complete.Props
import Verif.Plugin.CodecProps
import Verif.Plugin.InstanceProps
import Verif.ListLib.Props
import Verif.Log.Props
import Verif.Imports.Props
import Verif.TypeConv.Props
import Verif.GoNames.Props
import Verif.MsgArgs.Props
import Verif.Codegen.GraphProps
import Verif.Codegen.ExprProps
import Verif.Codegen.Rules
import Verif.Codegen.RulesProps
import Verif.Codegen.Tree
import Verif.Codegen.TreeProps
import Verif.Codegen.Ids
import Verif.Codegen.IdsProps
import Verif.GenRefs.Props
import Verif.Watch.Props
import Verif.GenPlugin.Props
import Verif.AutoName.Props
import Verif.MapSrc.Props
import Verif.MapSrc.Service
import Verif.OutPath.Props
import Verif.GenOpt.Props
import Verif.HasArg.Model
import Verif.HasArg.Props
import Verif.ImportGraph.Imports
import Verif.ImportGraph.Register
import Verif.FileEnums.Props
import Verif.Recover.Props
import Verif.FuncCall.Props
import Verif.FuncCall.DocProps
import Verif.CelTy.Props
import Verif.Descr.Props
import Verif.SrvTy.Props
import Verif.OneofSel.Props
import Verif.EnumSel.Props
import Verif.EnumSel.Casts
import Verif.SortKey.Model
import Verif.SortKey.Spec
import Verif.SortKey.Props
import Verif.LogVal.Model
import Verif.LogVal.Spec
import Verif.LogVal.Props
import Verif.Diag.Props
import Verif.ImportWarn.Props
import Verif.Compile.Props
import Verif.EdSync.Props
import Verif.Defn.Props
import Verif.Defn.Target
import Verif.Defn.TargetProps
import Verif.Defn.Link
import Verif.SrcLoc.Props2
import Verif.MsgGraph.Props
import Verif.CelTime.Props
import Verif.CelStr.Props
import Verif.CelUrl.Props
import Verif.CelRand.Props
import Verif.Tree.Props
import Verif.Method.Props
import Verif.PlugTy.Props
import Verif.Value.Props
import Verif.LogFn.Props
import Verif.SetArg.Props
import Verif.Whole.Props
import Verif.Embed.Props
import Verif.EnvTag.Props
import Verif.EnumAttr.Props
import Verif.Start.Props
import Verif.Locals.Props
import Verif.FindPos.Examples
import Verif.SemTok.Props
import Verif.MsgOnce.Props
import Verif.MsgOnce.Lazy
import Verif.LocBuild.Props
import Verif.Calls.Props
import Verif.Unfinished.Props
import Verif.Unfinished.Service
import Verif.ProtoNames.Props
import Verif.Offer.Props
import Verif.Given.Props
import Verif.CastOneof.Model
import Verif.CastOneof.Spec
import Verif.CastOneof.Props
import Verif.SetField.Model
import Verif.SetField.Spec
import Verif.SetField.Props
import Verif.Meta.Model
import Verif.Meta.Props
