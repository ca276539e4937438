import Verif.Ace.Chunks
import Verif.Ace.Core
import Verif.Ace.Findings
import Verif.Ace.Lemmas
import Verif.Ace.Model
import Verif.Ace.Progress
import Verif.Ace.Progress2
import Verif.Ace.Props
import Verif.Ace.Quiet
import Verif.Ace.Serve
import Verif.Ace.Served
import Verif.Ace.Sim
import Verif.Ace.Spec
import Verif.Ace.Steps
import Verif.Ace.Steps2
import Verif.Ace.Steps3
import Verif.Ace.View
import Verif.Ace.ViewMove
import Verif.Ace.ViewSnoop
import Verif.AceExcl.Lemmas
import Verif.AceExcl.Model
import Verif.AceExcl.Props
import Verif.AceExcl.Spec
import Verif.AceHw.Access
import Verif.AceHw.Burst
import Verif.AceHw.Faults
import Verif.AceHw.Lemmas
import Verif.AceHw.Model
import Verif.AceHw.Props
import Verif.AceHw.Spec
import Verif.AceHw.Through
import Verif.AceHwConc.Model
import Verif.AceHwConc.Props
import Verif.AceMstSnp.Faults
import Verif.AceMstSnp.Lemmas
import Verif.AceMstSnp.Model
import Verif.AceMstSnp.Props
import Verif.AceMstSnp.Spec
import Verif.AceSlvSnp.Faults
import Verif.AceSlvSnp.Lemmas
import Verif.AceSlvSnp.Model
import Verif.AceSlvSnp.Progress
import Verif.AceSlvSnp.Props
import Verif.AceSlvSnp.Spec
import Verif.AceSnoop.Lemmas
import Verif.AceSnoop.Model
import Verif.AceSnoop.Order
import Verif.AceSnoop.OrderProps
import Verif.AceSnoop.Props
import Verif.AceSnoop.Spec
import Verif.Aligner.Aligned
import Verif.Aligner.Lemmas
import Verif.Aligner.Model
import Verif.Aligner.Props
import Verif.Aligner.Sim
import Verif.Apb.Model
import Verif.Apb.Props
import Verif.Axi.Spec
import Verif.Axi2Tlm.Lemmas
import Verif.Axi2Tlm.Model
import Verif.Axi2Tlm.Props
import Verif.AxiLite.Ctl
import Verif.AxiLite.CtlProps
import Verif.AxiLite.Model
import Verif.AxiLite.Props
import Verif.AxiOrder.Inv
import Verif.AxiOrder.Lemmas
import Verif.AxiOrder.Model
import Verif.AxiOrder.Props
import Verif.AxiResp.Model
import Verif.AxiResp.Props
import Verif.Axis.Model
import Verif.Axis.Props
import Verif.Barrier.Lemmas
import Verif.Barrier.Model
import Verif.Barrier.Props
import Verif.Barrier.Spec
import Verif.Base.Bytes
import Verif.Base.Range
import Verif.Base.Tlm
import Verif.Bitops.Model
import Verif.Bitops.Props
import Verif.Ccix.Lemmas
import Verif.Ccix.Link
import Verif.Ccix.Model
import Verif.Ccix.Props
import Verif.Ccix.Resp
import Verif.Ccix.Spec
import Verif.CcixLink.Model
import Verif.CcixLink.Props
import Verif.CcixLink.Spec
import Verif.CcixSnoop.Model
import Verif.CcixSnoop.Props
import Verif.CcixSnoop.Spec
import Verif.Cdma.Model
import Verif.Cdma.Props
import Verif.ChiCoh.Cpu
import Verif.ChiCoh.Findings
import Verif.ChiCoh.Home
import Verif.ChiCoh.Inv
import Verif.ChiCoh.Local
import Verif.ChiCoh.Model
import Verif.ChiCoh.Msg
import Verif.ChiCoh.Pick
import Verif.ChiCoh.Props
import Verif.ChiCoh.Snoop
import Verif.ChiCoh.Spec
import Verif.ChiExcl.Lemmas
import Verif.ChiExcl.Model
import Verif.ChiExcl.Props
import Verif.ChiExcl.Spec
import Verif.ChiFlit.Lemmas
import Verif.ChiFlit.Model
import Verif.ChiFlit.Props
import Verif.ChiHw.Data
import Verif.ChiHw.Faults
import Verif.ChiHw.Lemmas
import Verif.ChiHw.Model
import Verif.ChiHw.Rx
import Verif.ChiHw.Tx
import Verif.ChiIds.Model
import Verif.ChiIds.Props
import Verif.ChiLink.Lemmas
import Verif.ChiLink.Live
import Verif.ChiLink.Model
import Verif.ChiLink.Props
import Verif.ChiLive.Finish
import Verif.ChiLive.Keep
import Verif.ChiLive.Props
import Verif.ChiLive.Serve
import Verif.ChiLive.Starve
import Verif.ChiLive.Step
import Verif.ChiRn.Lemmas
import Verif.ChiRn.Model
import Verif.ChiRn.Props
import Verif.ChiRn.Spec
import Verif.ChiSn.Lemmas
import Verif.ChiSn.Model
import Verif.ChiSn.One
import Verif.ChiSn.Order
import Verif.ChiSn.Props
import Verif.ChiSn.Spec
import Verif.ChiStore.Lemmas
import Verif.ChiStore.Model
import Verif.ChiStore.Props
import Verif.ChiStore.Spec
import Verif.Crc32.Lemmas
import Verif.Crc32.Model
import Verif.Crc32.Props
import Verif.Crc32.Spec
import Verif.Cxs.Findings
import Verif.Cxs.Flit
import Verif.Cxs.FlitLemmas
import Verif.Cxs.FlitSpec
import Verif.Cxs.Legal
import Verif.Cxs.Link
import Verif.Cxs.LinkLemmas
import Verif.Cxs.Msg
import Verif.Cxs.MsgLemmas
import Verif.Cxs.OtherLemmas
import Verif.Cxs.Props
import Verif.Cxs.ReqLemmas
import Verif.Cxs.Spec
import Verif.Cxs.TlpLemmas
import Verif.Cxs.Wire
import Verif.CxsHw.Faults
import Verif.CxsHw.Lemmas
import Verif.CxsHw.Model
import Verif.CxsHw.Progress
import Verif.CxsHw.Props
import Verif.CxsHw.Rx
import Verif.CxsHw.Tx
import Verif.DevAccess.Model
import Verif.DevAccess.Props
import Verif.Dvm.Lemmas
import Verif.Dvm.Model
import Verif.Dvm.Props
import Verif.Dvm.Spec
import Verif.Exmon.Model
import Verif.Exmon.Props
import Verif.Genattr.Model
import Verif.Genattr.Props
import Verif.Hsc.Gaps
import Verif.Hsc.Keys
import Verif.Hsc.Lemmas
import Verif.Hsc.Model
import Verif.Hsc.Props
import Verif.Hsc.Spec
import Verif.HwMaster.Core
import Verif.HwMaster.Lemmas
import Verif.HwMaster.Model
import Verif.HwMaster.Props
import Verif.HwMaster.Spec
import Verif.HwSlave.Core
import Verif.HwSlave.Geometry
import Verif.HwSlave.Lemmas
import Verif.HwSlave.Model
import Verif.HwSlave.Props
import Verif.HwSlave.Spec
import Verif.Iconnect.Model
import Verif.Iconnect.Props
import Verif.LinkPair.Lemmas
import Verif.LinkPair.Model
import Verif.LinkPair.Props
import Verif.LinkPair.Spec
import Verif.Mcdma.Example
import Verif.Mcdma.Lemmas
import Verif.Mcdma.Model
import Verif.Mcdma.Props
import Verif.Mcdma.PropsRx
import Verif.Mii.Model
import Verif.Mii.Props
import Verif.Mrmac.Lemmas
import Verif.Mrmac.Model
import Verif.Mrmac.Props
import Verif.Mrmac.Spec
import Verif.Native.Model
import Verif.Native.Props
import Verif.PcAce.Acks
import Verif.PcAce.Bars
import Verif.PcAce.CdData
import Verif.PcAce.Keyed
import Verif.PcAce.Model
import Verif.PcAce.RdFaults
import Verif.PcAce.RdSpec
import Verif.PcAce.Reads
import Verif.PcAce.Snoop
import Verif.PcAce.WrFaults
import Verif.PcAce.WrSpec
import Verif.PcAce.Writes
import Verif.PcAxi.Addr
import Verif.PcAxi.Channel
import Verif.PcAxi.Expect
import Verif.PcAxi.Model
import Verif.PcAxi.Reads
import Verif.PcAxi.Strobes
import Verif.PcAxi.Writes
import Verif.PcChi.Model
import Verif.PcChi.Req
import Verif.PcChi.RtFaults
import Verif.PcChi.RtProps
import Verif.PcChi.RtSpec
import Verif.PcChi.Spec
import Verif.PcChi.TxFaults
import Verif.PcChi.TxLemmas
import Verif.PcChi.TxProps
import Verif.PcChi.TxSnp
import Verif.PcChi.TxSpec
import Verif.PcChi.TxStep
import Verif.PcSnoop.Lemmas
import Verif.PcSnoop.Model
import Verif.PcSnoop.Props
import Verif.PcSnoop.Spec
import Verif.Qdma.Bell
import Verif.Qdma.Faults
import Verif.Qdma.Hist
import Verif.Qdma.HistRing
import Verif.Qdma.Layout
import Verif.Qdma.Lemmas
import Verif.Qdma.Model
import Verif.Qdma.Props
import Verif.Qdma.Regs
import Verif.Qdma.Run
import Verif.Qdma.Spec
import Verif.RP.CodecLemmas
import Verif.RP.Lemmas
import Verif.RP.Model
import Verif.RP.Props
import Verif.RPAts.Model
import Verif.RPAts.Props
import Verif.RPBounds.Model
import Verif.RPBounds.Props
import Verif.RPMem.Model
import Verif.RPMem.Props
import Verif.RPSlots.Lemmas
import Verif.RPSlots.Model
import Verif.RPSlots.Props
import Verif.RPSlots.Spec
import Verif.RPSock.Lemmas
import Verif.RPSock.Model
import Verif.RPSock.Props
import Verif.RPSock.Spec
import Verif.RPTime.Model
import Verif.RPTime.Props
import Verif.RPWires.Model
import Verif.RPWires.Props
import Verif.Regapi.Model
import Verif.Regapi.Props
import Verif.Regions.Lemmas
import Verif.Regions.Model
import Verif.Regions.Props
import Verif.Regions.Spec
import Verif.RtlAceRecv.Examples
import Verif.RtlAceRecv.Lemmas
import Verif.RtlAceRecv.Model
import Verif.RtlAceRecv.Props
import Verif.RtlAceRecv.Soon
import Verif.RtlAceRecv.Spec
import Verif.RtlAceRecv.Step
import Verif.RtlAceSend.Faults
import Verif.RtlAceSend.Lemmas
import Verif.RtlAceSend.Model
import Verif.RtlAceSend.Props
import Verif.RtlAceSend.Spec
import Verif.RtlAck.Examples
import Verif.RtlAck.Lemmas
import Verif.RtlAck.Model
import Verif.RtlAck.Props
import Verif.RtlAck.Spec
import Verif.RtlAxid.Faults
import Verif.RtlAxid.Fetch
import Verif.RtlAxid.FetchProps
import Verif.RtlAxid.FetchStep
import Verif.RtlAxid.Lemmas
import Verif.RtlAxid.Model
import Verif.RtlAxid.Props
import Verif.RtlAxid.Spec
import Verif.RtlAxid.Step
import Verif.RtlDesc.Faults
import Verif.RtlDesc.Model
import Verif.RtlDesc.Progress
import Verif.RtlDesc.Props
import Verif.RtlDesc.Spec
import Verif.RtlFifo.Model
import Verif.RtlFifo.Props
import Verif.RtlFifo.Spec
import Verif.RtlIrq.Faults
import Verif.RtlIrq.Lemmas
import Verif.RtlIrq.Model
import Verif.RtlIrq.Props
import Verif.RtlIrq.Spec
import Verif.RtlLink.Faults
import Verif.RtlLink.Lemmas
import Verif.RtlLink.Model
import Verif.RtlLink.Props
import Verif.RtlLink.Spec
import Verif.RtlOrder.Faults
import Verif.RtlOrder.Keep
import Verif.RtlOrder.Lemmas
import Verif.RtlOrder.Model
import Verif.RtlOrder.Props
import Verif.RtlOrder.Spec
import Verif.RtlOrder.Step
import Verif.RtlRam.Faults
import Verif.RtlRam.Fsm
import Verif.RtlRam.Insert
import Verif.RtlRam.Inv
import Verif.RtlRam.Model
import Verif.RtlRam.Order
import Verif.RtlRam.Props
import Verif.RtlRam.Serve
import Verif.RtlRam.Spec
import Verif.RtlRam.Step
import Verif.RtlRdata.Examples
import Verif.RtlRdata.Keep
import Verif.RtlRdata.Lemmas
import Verif.RtlRdata.Model
import Verif.RtlRdata.Props
import Verif.RtlRdata.Spec
import Verif.RtlRdata.Step
import Verif.RtlResp.Faults
import Verif.RtlResp.Keep
import Verif.RtlResp.Lemmas
import Verif.RtlResp.Model
import Verif.RtlResp.Props
import Verif.RtlResp.Spec
import Verif.RtlRx.Faults
import Verif.RtlRx.Lemmas
import Verif.RtlRx.Model
import Verif.RtlRx.Props
import Verif.RtlRx.Spec
import Verif.RtlRx.Step
import Verif.RtlTx.Faults
import Verif.RtlTx.Keep
import Verif.RtlTx.Lemmas
import Verif.RtlTx.Model
import Verif.RtlTx.Props
import Verif.RtlTx.Spec
import Verif.RtlTx.Step
import Verif.RtlTxn.Faults
import Verif.RtlTxn.Fields
import Verif.RtlTxn.Lemmas
import Verif.RtlTxn.Model
import Verif.RtlTxn.Props
import Verif.RtlTxn.Soon
import Verif.RtlTxn.Spec
import Verif.RtlTxn.Step
import Verif.RtlWdata.Faults
import Verif.RtlWdata.Lemmas
import Verif.RtlWdata.Model
import Verif.RtlWdata.Props
import Verif.RtlWdata.Run
import Verif.RtlWdata.Soon
import Verif.RtlWdata.Spec
import Verif.RtlWdata.Step
import Verif.SafeIO.Model
import Verif.SafeIO.Props
import Verif.Splitter.Model
import Verif.Splitter.Props
import Verif.TgConf.Errors
import Verif.TgConf.Faults
import Verif.TgConf.Model
import Verif.TgConf.Props
import Verif.TgConf.Spec
import Verif.TgConf.Text
import Verif.TgTlm.Model
import Verif.TgTlm.Props
import Verif.TgTlm.Threads
import Verif.Tlm2Axi.Lemmas
import Verif.Tlm2Axi.Model
import Verif.Tlm2Axi.Plans
import Verif.Tlm2Axi.Props
import Verif.Tlm2Axi.Spec
import Verif.Tlp.Conf
import Verif.Tlp.Dma
import Verif.Tlp.Faults
import Verif.Tlp.Lemmas
import Verif.Tlp.Model
import Verif.Tlp.Once
import Verif.Tlp.Props
import Verif.Tlp.Spec
import Verif.Tlp.Sys
import Verif.Traffic.Model
import Verif.Traffic.Props
import Verif.Umi.Model
import Verif.Umi.Props
import Verif.Vfio.Model
import Verif.Vfio.Props
import Verif.Wishbone.Model
import Verif.Wishbone.Props
import Verif.WrapExpander.Model
import Verif.WrapExpander.Props
import Verif.XdmaIrq.Lemmas
import Verif.XdmaIrq.Model
import Verif.XdmaIrq.Props
import Verif.XdmaIrq.Spec
import Verif.Xgmii.Lemmas
import Verif.Xgmii.Model
import Verif.Xgmii.Props
