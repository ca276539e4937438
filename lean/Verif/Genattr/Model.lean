/-!
# `genattr_extension`

Models `/repo/tlm-extensions/genattr.h`.  An extension object is a valuation of
its attributes; boolean attributes take the values 0 and 1.
-/

namespace Verif.Genattr

/-- Every attribute with a generated getter and setter (genattr.h 53-64, 113,
196-212). -/
inductive Name
  | snoop | domain | barrier | datatransfer | errorBit | shared | dirty | wasUnique | isReadTx
  | eop
  | secure | masterId | wrap | posted | burstWidth | transactionId | exclusive | locked | bufferable
  | modifiable | readAllocate | writeAllocate | qos | region | exclusiveHandled | ioAccess
  deriving DecidableEq, Repr

def Name.all : List Name :=
  [.snoop, .domain, .barrier, .datatransfer, .errorBit, .shared, .dirty, .wasUnique, .isReadTx, .eop,
   .secure, .masterId, .wrap, .posted, .burstWidth, .transactionId, .exclusive, .locked, .bufferable,
   .modifiable, .readAllocate, .writeAllocate, .qos, .region, .exclusiveHandled, .ioAccess]

abbrev Ext := Name → Nat

/-- Generated getter (34). -/
def get (e : Ext) (n : Name) : Nat := e n

/-- Generated setter with explicit argument (35). -/
def set (e : Ext) (n : Name) (v : Nat) : Ext := fun x => if x = n then v else e x

/-- The default argument of each setter, third macro argument (53-64, 113,
196-212). -/
def defaultArg : Name → Nat
  | .barrier | .datatransfer | .errorBit | .shared | .dirty | .wasUnique | .isReadTx | .eop | .secure => 1
  | _ => 0

/-- The setter called without argument. -/
def setDefault (e : Ext) (n : Name) : Ext := set e n (defaultArg n)

/-- The default constructor: `genattr_ace()` (42-51), `genattr_stream()`
(109-111) and `genattr_bus()` (214-231), the latter through argument-less
setters. -/
def ctor : Ext
  | .isReadTx => 1
  | .snoop | .domain | .barrier | .datatransfer | .errorBit | .shared | .dirty | .wasUnique | .eop => 0
  | n => defaultArg n

/-- The attributes `copy_from` (249-278) copies, in order. -/
def copied : List Name :=
  [.eop, .masterId, .secure, .wrap, .posted, .burstWidth, .transactionId, .exclusive, .locked, .bufferable,
   .modifiable, .readAllocate, .writeAllocate, .qos, .region, .exclusiveHandled, .snoop, .domain, .barrier,
   .datatransfer, .errorBit, .shared, .dirty, .wasUnique, .isReadTx]

/-- `copy_from`. -/
def copyFrom (dst src : Ext) : Ext := copied.foldl (fun e n => set e n (get src n)) dst

/-- `clone` (280-283): the implicit copy constructor. -/
def clone (src : Ext) : Ext := fun n => src n

/-- `tlm_generic_payload::deep_copy_from` on a payload without the extension
clones it; on a payload that already has one it calls `copy_from`. -/
def deepCopy (dst : Option Ext) (src : Ext) : Ext :=
  match dst with
  | none => clone src
  | some d => copyFrom d src

end Verif.Genattr
