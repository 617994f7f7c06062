import Verif.BV.Props
import Verif.Term.Props
import Verif.Conv.PropsDnf
import Verif.Conv.PropsReplace
import Verif.Conv.PropsCnf
import Verif.Conv.PropsWalk
import Verif.Num.PropsInt
import Verif.Kind.Props
import Verif.Sort.Props
import Verif.Store.PropsVar
import Verif.Store.Walk
import Verif.Api.Mdl
import Verif.Api.Check
import Verif.Api.Order
import Verif.Scope.Props
import Verif.Num.PropsMath
import Verif.Text.PropsStr
import Verif.Text.Tok
import Verif.Arr.Props
import Verif.Api.Rewrite
import Verif.Eval.Viol
import Verif.Eval.Fold
import Verif.Subst.Props
import Verif.Norm.Form
import Verif.Lex.Props
import Verif.Print.Props
import Verif.Parse.Viol
import Verif.Parse.Bound
import Verif.Parse.RoundViol
import Verif.Parse.RoundLet
import Verif.Parse.RoundLetEx
import Verif.Parse.Modes
import Verif.Parse.LeafProps
import Verif.Typing.Viol
import Verif.Parse.Fuel
import Verif.Script.Reject
import Verif.Script.Tables
import Verif.Num.FunEx
import Verif.Num.FunMore
import Verif.Walk.Exact
import Verif.Walk.Unit
import Verif.Conv.AtomMaps
import Verif.Conv.CnfList
import Verif.Value.Str
import Verif.LetExp.Props
import Verif.EvalDisp.Props
import Verif.Dump.Model
import Verif.Dump.Props
import Verif.Dump.Viol
import Verif.MdlText.Round
import Verif.Opts.Model
import Verif.Opts.Props
import Verif.Num.FunRecip
import Verif.Num.FunInv
import Verif.Num.FunRec2
import Verif.Num.FunRecEx
import Verif.Num.FunAtan2
import Verif.Num.FunAtan2Props
import Verif.Num.FunPowI
import Verif.Num.FunOp
import Verif.Num.IntClassProps
import Verif.RealText.Props
import Verif.RealText.FoldProps
import Verif.RealText.FoldEx
import Verif.Script.EndsProps
import Verif.Mean.Props
import Verif.Mean.Viol
import Verif.Mean.BvModel
import Verif.Mean.BvSpec
import Verif.Mean.BvProof
import Verif.Mean.BvLit
import Verif.Mean.BvCall
import Verif.Mean.BvEx
import Verif.Mean.ArSpec
import Verif.Mean.ArModel
import Verif.Mean.ArSort
import Verif.Mean.ArCall
import Verif.Mean.ArEx
import Verif.Mean.StrSpec
import Verif.Mean.StrModel
import Verif.Mean.StrCall
import Verif.Mean.StrEx
import Verif.Eval.Neat
import Verif.Eval.NeatCons
import Verif.Eval.NeatEval
import Verif.Mean.EvalSpec
import Verif.Mean.EvalProof
import Verif.Mean.EvalProps
import Verif.Mean.EvalEx
import Verif.Mean.DefModel
import Verif.Mean.DefSpec
import Verif.Mean.DefProof
import Verif.Mean.DefProps
import Verif.Mean.DefEx
