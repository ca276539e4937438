import Verif.Cxs.Msg

/-! What it means for a CCIX message to arrive. Independent of the packet
format. -/
namespace Verif.Cxs.Spec
open Verif.Cxs

/-- Byte `i` of a message's data is enabled: always without an enable array,
otherwise by the array, repeated. -/
def enabled (be : List Bool) (i : Nat) : Bool :=
  if be = [] then true else be.getD (i % be.length) false

/-- The data arrived: same bytes, same bytes enabled. -/
structure SameData (m r : Msg) : Prop where
  carries : r.write = m.write
  data : m.write = true → r.data = m.data
  enables : m.write = true → ∀ i, i < m.data.length → enabled r.be i = enabled m.be i

/-- `r` is the request `m`. -/
structure SameReq (m r : Msg) : Prop where
  type : r.attr.msgType = m.attr.msgType
  txnID : r.attr.txnID = m.attr.txnID
  op : r.attr.reqOp = m.attr.reqOp
  attr : r.attr.reqAttr = m.attr.reqAttr
  nonSecure : r.attr.nonSecure = m.attr.nonSecure
  qos : r.attr.qos = m.attr.qos
  addr : r.addr = m.addr
  body : SameData m r

/-- `r` is the response `m`. -/
structure SameRsp (m r : Msg) : Prop where
  type : r.attr.msgType = m.attr.msgType
  txnID : r.attr.txnID = m.attr.txnID
  op : r.attr.respOp = m.attr.respOp
  attr : r.attr.respAttr = m.attr.respAttr
  body : SameData m r

/-- `r` is the snoop request `m`. -/
structure SameSnp (m r : Msg) : Prop where
  type : r.attr.msgType = m.attr.msgType
  txnID : r.attr.txnID = m.attr.txnID
  op : r.attr.snpOp = m.attr.snpOp
  cast : r.attr.snpCast = m.attr.snpCast
  dataRet : r.attr.dataRet = m.attr.dataRet
  nonSecure : r.attr.nonSecure = m.attr.nonSecure
  addr : r.addr = m.addr

/-- `r` is the credit exchange or no-operation `m`. -/
structure SameCrd (m r : Msg) : Prop where
  type : r.attr.msgType = m.attr.msgType
  op : r.attr.miscOp = m.attr.miscOp
  credits : m.attr.miscOp ≠ 0 →
    r.attr.dataCredit = m.attr.dataCredit ∧ r.attr.reqCredit = m.attr.reqCredit ∧
    r.attr.miscCredit = m.attr.miscCredit ∧ r.attr.snpCredit = m.attr.snpCredit

/-- `r` is the credited miscellaneous message `m`. -/
structure SameMisc (m r : Msg) : Prop where
  type : r.attr.msgType = m.attr.msgType
  op : r.attr.miscOp = m.attr.miscOp
  credit : r.attr.miscCredit = m.attr.miscCredit
  payload : r.attr.payload.take m.attr.payloadSz = m.attr.payload.take m.attr.payloadSz

/-- `r` is `m`. -/
def Same (m r : Msg) : Prop :=
  (m.attr.msgType = tReq → SameReq m r) ∧
  (m.attr.msgType = tSnpReq → SameSnp m r) ∧
  (m.attr.msgType = tResp ∨ m.attr.msgType = tSnpResp → SameRsp m r) ∧
  (m.attr.msgType = tMiscUnCredited → SameCrd m r) ∧
  (m.attr.msgType = tMiscCredited → SameMisc m r)

/-- Two lists of the same length related place by place. -/
inductive Each {α β : Type} (R : α → β → Prop) : List α → List β → Prop where
  | nil : Each R [] []
  | cons {a b as bs} : R a b → Each R as bs → Each R (a :: as) (b :: bs)

end Verif.Cxs.Spec
