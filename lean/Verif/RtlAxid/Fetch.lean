import Verif.RtlAxid.Spec

/-!
What feeds the store of IDs in the AXI master bridge: the machine which takes
the next descriptor and the registers which put its request on the bus.

`/repo/rtl-bridges/pcie-host/axi/rtl/common/descriptor_allocator_uc_master.v`
361-436 and `axi_master_control.v` 2463-2470, 2528-2593, 2802-2889, of which the
write and the read side are the same.

Simplifications: the ID register of a descriptor does not change while its
request is sent, so that a descriptor is taken together with its ID; the FIFO
the descriptors are taken from is an input (`Verif.RtlFifo` is about it).
-/

namespace Verif.RtlAxid

/-- What comes in: there is a descriptor and it may be sent; the one the FIFO
gives, with its ID; the other side takes a request (`awready`, `arready`); and
the FIFO of the store which is read. -/
structure FIn where
  more : Bool
  head : Nat × Nat
  ready : Bool
  pop : Option Nat

structure Fetch where
  /-- `fetch_wr_req_fifo_state` is `FETCH_WR_REQ_FIFO_READ` -/
  read : Bool
  /-- `desc_wr_req_read_en` and its three delays -/
  en : Bool
  en1 : Bool
  en2 : Bool
  en3 : Bool
  /-- `start_write_tx_ff`, `start_write_tx_ff2` -/
  tx1 : Bool
  tx2 : Bool
  /-- `awvalid` -/
  valid : Bool
  /-- `desc_allocation_in_progress` of the store -/
  busy : Bool
  /-- `desc_wr_req_id_out` and its two delays, descriptor and ID -/
  out : Nat × Nat
  out1 : Nat × Nat
  out2 : Nat × Nat
  /-- `axi_usr_reg_awid` -/
  id : Nat

def Fetch.reset : Fetch := ⟨false, false, false, false, false, false, false, false, false, (0, 0), (0, 0), (0, 0), 0⟩

/-- The wires to the store. -/
def Fetch.wires (f : Fetch) (i : FIn) : In := ⟨f.valid && i.ready, f.id, f.out2.1, i.pop⟩

/-- One cycle; `done` is whether the store writes a FIFO,
`axid_write_en_reg_combined`. -/
def Fetch.step (done : Bool) (f : Fetch) (i : FIn) : Fetch where
  read := if f.read then !(f.valid && i.ready) else i.more && !f.busy
  en := !f.read && i.more && !f.busy
  en1 := f.en
  en2 := f.en1
  en3 := f.en2
  tx1 := f.en3
  tx2 := f.tx1
  valid := if !f.valid && f.tx2 then true else if i.ready && f.valid then false else f.valid
  busy := if f.valid && i.ready then true else if done then false else f.busy
  out := if f.en then i.head else f.out
  out1 := if f.en1 then f.out else f.out1
  out2 := f.out1
  id := f.out2.2

/-- `axid_write_en_reg_combined`, `axid_store.v` 307-308. -/
def writes (n : Nat) (s : Regs) : Bool := (List.range n).any fun k => s.wen k || s.alloc k

/-- The machine with its store, and what is in flight. -/
structure Master where
  f : Fetch
  w : World

def Master.start : Master := ⟨Fetch.reset, World.start⟩

def Master.next (n : Nat) (m : Master) (i : FIn) : Master :=
  ⟨m.f.step (writes n m.w.s) i, m.w.next n (m.f.wires i)⟩

def Master.run (n : Nat) (m : Master) : List FIn → Master
  | [] => m
  | i :: t => (m.next n i).run n t

/-- How the master is used: a descriptor which is taken is one of the `n` and
not in flight, and a FIFO of the store is only read with something in it. -/
structure Kept (n : Nat) (m : Master) (i : FIn) : Prop where
  fresh : m.f.en = true → i.head.1 < n ∧ i.head.1 ∉ m.w.out.map (·.2)
  there : ∀ k, i.pop = some k → k < n ∧ m.w.s.q k ≠ []

def AllKept (n : Nat) (m : Master) : List FIn → Prop
  | [] => True
  | i :: t => Kept n m i ∧ AllKept n (m.next n i) t

end Verif.RtlAxid
