import Verif.Name.Model
import Verif.Name.Lemmas
import Verif.Packet
import Verif.Cs.Model
import Verif.Cs.Spec
import Verif.Cs.Lemmas
import Verif.Cs.PFifoLemmas
import Verif.Cs.Inv
import Verif.Cs.Range
import Verif.Cs.Step
import Verif.Cs.Hist
import Verif.Cs.Props
import Verif.Dnl.Model
import Verif.Dnl.Props
import Verif.Nt.Model
import Verif.Nt.Spec
import Verif.Nt.Ht
import Verif.Nt.Tree
import Verif.Nt.Find
import Verif.Nt.Props
import Verif.Tables.Model
import Verif.Tables.Lemmas
import Verif.Tables.Ops
import Verif.Tables.Spec
import Verif.Tables.Inv
import Verif.Tables.Lpm
import Verif.Tables.FibLemmas
import Verif.Tables.Example
import Verif.Tables.FibProps
import Verif.Tables.PitProps
import Verif.Tables.ScLemmas
import Verif.Tables.ScOk
import Verif.Tables.ScProps
import Verif.Tables.MeasProps
import Verif.Tables.NoUseless
import Verif.Tables.Cleanup
import Verif.Tables.CleanProps
import Verif.Fw.Model
import Verif.Fw.Lemmas
import Verif.Fw.Path
import Verif.Fw.Inv
import Verif.Fw.Flow
import Verif.Fw.Spec
import Verif.Fw.Cases
import Verif.Fw.Origin
import Verif.Fw.Example
import Verif.Fw.Props
import Verif.Fw.DataLemmas
import Verif.Fw.DataProps
import Verif.Fw.NoFault
import Verif.Face.Table
import Verif.Strat.Model
import Verif.Strat.Spec
import Verif.Strat.Lemmas
import Verif.Strat.Sends
import Verif.Strat.Props
import Verif.Strat.Names
import Verif.Strat.NamesProps
import Verif.Strat.ParamProps
import Verif.Strat.Asf
import Verif.Strat.AsfProps
import Verif.Strat.Supplied
import Verif.Strat.Lookup
import Verif.Lp.Tlv
import Verif.Lp.Model
import Verif.Lp.Sizes
import Verif.Lp.Frag
import Verif.Lp.Frame
import Verif.Lp.Reasm
import Verif.Lp.Spec
import Verif.Lp.Deliver
import Verif.Lp.Deliver2
import Verif.Lp.ReasmProps
import Verif.Lp.Octets
import Verif.Lp.Window
import Verif.Lp.Ops
import Verif.Lp.Acts
import Verif.Lp.WindowProps
import Verif.Lp.Book
import Verif.Lp.Book2
import Verif.Lp.RelProps
import Verif.Lp.Genuine
import Verif.Lp.Flow
import Verif.Lp.AckProps
import Verif.Lp.SizeProps
import Verif.Lp.MarkProps
import Verif.Lp.DupProps
import Verif.Lp.FieldProps
import Verif.Lp.LossProps
import Verif.Tp.Model
import Verif.Tp.Frame
import Verif.Tp.Inv
import Verif.Tp.Step
import Verif.Tp.Keeps
import Verif.Tp.Spec
import Verif.Tp.Trace
import Verif.Tp.Live
import Verif.Tp.Octets
import Verif.Tp.Term
import Verif.Tp.Props
import Verif.Dg.Props
import Verif.Rib.Model
import Verif.Rib.Table
import Verif.Rib.Spec
import Verif.Rib.Sys
import Verif.Rib.Tree
import Verif.Rib.Inv
import Verif.Rib.Emit
import Verif.Rib.Effect
import Verif.Rib.Step
import Verif.Rib.View
import Verif.Rib.Benign
import Verif.Rib.Eff
import Verif.Rib.Register
import Verif.Rib.Updated
import Verif.Rib.Erased
import Verif.Rib.Sync
import Verif.Rib.Check
import Verif.Rib.History
import Verif.Rib.Witness
import Verif.Rib.Props
import Verif.Rib.Async
import Verif.Rib.AsyncInv
import Verif.Rib.AsyncProps
import Verif.Mgmt.Net
import Verif.Mgmt.NetProps
import Verif.Mgmt.Priv
import Verif.Mgmt.PrivProps
import Verif.Mgmt.Auth
import Verif.Mgmt.AuthProps
import Verif.Mgmt.FaceCmd
import Verif.Mgmt.FaceCmdProps
import Verif.Mgmt.TblCmd
import Verif.Mgmt.TblCmdProps
import Verif.Rib.Readv
import Verif.Rib.ReadvSpec
import Verif.Rib.ReadvInv
import Verif.Rib.ReadvProps
import Verif.Mgmt.RibMgr
import Verif.Mgmt.RibMgrInv
import Verif.Mgmt.RibMgrEarly
import Verif.Mgmt.RibMgrAnn
import Verif.Mgmt.RibMgrOps
import Verif.Mgmt.RibMgrProps
import Verif.Ch.TcpProps
import Verif.Ch.UnixProps
import Verif.Cf.Props
import Verif.Mc.Model
import Verif.Mc.Spec
import Verif.Mc.Lemmas
import Verif.Mc.Props
import Verif.Fc.Model
import Verif.Fc.Spec
import Verif.Fc.Lemmas
import Verif.Fc.Run
import Verif.Fc.Props
import Verif.Nfdc.Args
import Verif.Nfdc.ArgsSpec
import Verif.Nfdc.ArgsLemmas
import Verif.Nfdc.ArgsProps
import Verif.Nfdc.Batch
import Verif.Nfdc.BatchSpec
import Verif.Nfdc.BatchLemmas
import Verif.Nfdc.BatchProps
import Verif.Nfdc.Ops
import Verif.Nfdc.OpsSpec
import Verif.Nfdc.OpsProps
import Verif.Nfdc.OpsCreate
import Verif.Eth.Model
import Verif.Eth.Spec
import Verif.Eth.Lemmas
import Verif.Eth.Props
import Verif.Fs.Model
import Verif.Fs.Spec
import Verif.Fs.Lemmas
import Verif.Fs.Read
import Verif.Fs.Check
import Verif.Fs.Chans
import Verif.Fs.Apply
import Verif.Fs.Process
import Verif.Fs.Inv
import Verif.Fs.Props
import Verif.Fs.File
import Verif.Nw.Model
import Verif.Nw.Spec
import Verif.Nw.Cs
import Verif.Nw.Node
import Verif.Nw.Pipes
import Verif.Nw.Supplied
import Verif.Nw.Lemmas
import Verif.Nw.Props
import Verif.Nw.TripSpec
import Verif.Nw.Trip
import Verif.Nw.TripProps
import Verif.Tool.Autoreg
import Verif.Tool.AutoregProps
import Verif.Tool.Autoconf
import Verif.Tool.AutoconfSpec
import Verif.Tool.AutoconfLemmas
import Verif.Tool.AutoconfStages
import Verif.Tool.AutoconfProps
import Verif.Ws.Model
import Verif.Ws.Spec
import Verif.Ws.Inv
import Verif.Ws.Props
import Verif.Re.Model
import Verif.Re.Props
import Verif.Nfdc.CsErase
import Verif.Nfdc.CsEraseProps
import Verif.Nfdc.Report
import Verif.Nfdc.ReportSpec
import Verif.Nfdc.ReportLemmas
import Verif.Nfdc.ReportDoc
import Verif.Nfdc.ReportProps
import Verif.Nfdc.Strategy
import Verif.Nfdc.StrategyProps
import Verif.Nfdc.CsConfig
import Verif.Nfdc.CsConfigProps
import Verif.Tables.Accessor
import Verif.Tables.AccessorSpec
import Verif.Tables.AccessorLemmas
import Verif.Tables.AccessorProps
import Verif.Tables.Timers
import Verif.Tables.TimersProps
import Verif.Et.Model
import Verif.Et.Spec
import Verif.Et.Lemmas
import Verif.Et.Trace
import Verif.Et.Idle
import Verif.Et.Props
import Verif.Et.Same
import Verif.Et.LifeProps
import Verif.Tables.PitTimers
import Verif.Tables.PitTimersProps
import Verif.Tool.Srv
import Verif.Tool.SrvSpec
import Verif.Tool.SrvProps
import Verif.Strat.Sl
import Verif.Strat.SlLemmas
import Verif.Strat.SlInv
import Verif.Strat.SlProps
import Verif.Run.Model
import Verif.Run.Spec
import Verif.Run.Lemmas
import Verif.Run.Props
import Verif.Rib.Svc
import Verif.Rib.SvcSpec
import Verif.Rib.SvcLemmas
import Verif.Rib.SvcProps
import Verif.Fe.Model
import Verif.Fe.Spec
import Verif.Fe.Lemmas
import Verif.Fe.Props
import Verif.Pr.Model
import Verif.Pr.Spec
import Verif.Pr.Props
import Verif.It.Model
import Verif.It.Spec
import Verif.It.Props
import Verif.Tool.Fch
import Verif.Tool.FchSpec
import Verif.Tool.FchProps
import Verif.Ap.Model
import Verif.Ap.Spec
import Verif.Ap.Lemmas
import Verif.Ap.Props
import Verif.Log.Model
import Verif.Log.Spec
import Verif.Log.Props
import Verif.Nfdc.TextList
import Verif.Nfdc.TextListSpec
import Verif.Nfdc.TextListLemmas
import Verif.Nfdc.TextListFace
import Verif.Nfdc.TextListProps
import Verif.Tables.Access
import Verif.Tables.AccessSpec
import Verif.Tables.AccessProps
import Verif.Tables.AccessLearn
import Verif.Tables.AccessLearnProps
import Verif.Strat.AccessChoiceSpec
import Verif.Strat.AccessChoiceProps
import Verif.Fw.CountSpec
import Verif.Fw.CountProps
import Verif.Lp.TraceSpec
import Verif.Lp.TraceProps
import Verif.Lp.SentSpec
import Verif.Lp.SentProps
import Verif.Lp.LinkSpec
import Verif.Lp.LinkProps
