/-!
# The data RAM allocator of the RTL slave bridges: model

`/repo/rtl-bridges/pcie-host/axi/rtl/slave/addr_allocator.v` and
`/repo/rtl-bridges/pcie-host/ace/rtl/slave/ace_addr_allocator.v` (the same
text as `ace/rtl/common/ace_addr_allocator.v`).  The two differ in names and
in one constant, the size of the RAM as it is used for a gap which crosses
the end of the RAM; that constant is `Cfg.top`.

One `step` is one rising clock edge: every register gets its new value from
the values all the registers and inputs have before the edge, as the
non-blocking assignments of the code do.

Simplifications: `MAX_DESC` is 16, the value the bridges use; the reset is the
start state `reset` and does not come back; vectors are functions of which
indices 0 to 15 count; registers nothing reads (`addr_txn_valid_ff`,
`addr_freeup_valid_ff`, `addr_alc_failed`, `addr_dealc_valid`,
`pos_node_vld`, `new_node_vld`) are left out.
Line numbers are those of `addr_allocator.v`.
-/

namespace Verif.RtlRam

/-- The parameters: `w` is `RAM_OFFSET_WIDTH` (line 67) and `top` is what
`RAM_MAX_LOCATION` contributes on lines 600 and 602.
`RAM_MAX_LOCATION` is `(RAM_SIZE*8)/DATA_WIDTH` (line 68); the locations are
taken to be a power of two in number, so it is `2^w`. -/
structure Cfg where
  w : Nat
  top : Nat

/-- The ACE allocator uses `RAM_MAX_LOCATION` itself
(`ace_addr_allocator.v`, `diff_offset_curr_next_wrap`). -/
def aceCfg (w : Nat) : Cfg := { w, top := 2 ^ w }

/-- The AXI allocator uses the part-select
`RAM_MAX_LOCATION[RAM_OFFSET_WIDTH-1:0]` (lines 600, 602): the low `w` bits of
`2^w`. -/
def axiCfg (w : Nat) : Cfg := { w, top := 2 ^ w % 2 ^ w }

/-- The inputs of a cycle (lines 40-62): the request with the length of the
burst less one, the answer of the allocator above (which descriptor goes with
which node), and one completion line a descriptor. -/
structure In where
  txnValid : Bool
  size : Nat
  alcValid : Bool
  alcDesc : Nat
  alcNode : Nat
  cmpl : Nat → Bool

/-- `ser_state`, lines 71-74. -/
inductive Ser where
  | idle | alc | waitDealc | dealc
  deriving DecidableEq, Repr

/-- `alc_state`, lines 95-103. -/
inductive Alc where
  | idle | newLl | udLl | calDiff | calSpace | checkAvail | failed | calIdx | addNode
  deriving DecidableEq, Repr

/-- `dealc_state`, lines 106-111. -/
inductive Dealc where
  | idle | calSubVec | calSubcnt | calLlIdx | calNextVec | updateLl
  deriving DecidableEq, Repr

/-- The registers, lines 117-188, under shortened names. -/
structure Regs where
  /-- `ser_valid`, `ser_dealc_alc`, `ser_state` -/
  serValid : Bool
  serDealc : Bool
  ser : Ser
  /-- `txn_valid_ff`, `addr_txn_valid` -/
  txnFf : Bool
  txn : Bool
  /-- `alc_valid_ff` -/
  alcFf : Bool
  /-- `freeup_valid_ff`, `addr_freeup_desc_vec_save`, `addr_freeup_desc_vec` -/
  cmplFf : Nat → Bool
  save : Nat → Bool
  vec : Nat → Bool
  /-- `dealc_service_vld_ff` -/
  svcFf : Bool
  /-- `data_desc_idx`, `data_desc_idx_vld` -/
  descIdx : Nat → Nat
  descVld : Nat → Bool
  /-- `head_ptr`, `head_ptr_vld` -/
  head : Nat
  headVld : Bool
  /-- `node_vld`, `data_strt_offset`, `data_end_offset`, `data_ll_idx`,
  `next`, `next_vld` -/
  vld : Nat → Bool
  strt : Nat → Nat
  fin : Nat → Nat
  ll : Nat → Nat
  next : Nat → Nat
  nextVld : Nat → Bool
  /-- `alc_state`, `pre_addr_alc_valid`, `pre_addr_alc_failed` -/
  alc : Alc
  preAlc : Bool
  preFail : Bool
  /-- `is_wrap_around` and the five differences -/
  wrap : Nat → Bool
  nextNo : Nat → Nat
  nextWrap : Nat → Nat
  headNo : Nat → Nat
  headWrap : Nat → Nat
  diff : Nat → Nat
  /-- `space_avail`, `node_avail`, `pos_node_vec`, `new_node_vec`,
  `pos_node_idx`, `new_node_idx` -/
  space : Nat → Bool
  avail : Nat → Bool
  posVec : Nat → Bool
  newVec : Nat → Bool
  posIdx : Nat
  newIdx : Nat
  /-- `dealc_state`, `pre_addr_dealc_valid`, `addr_freeup_logical_vec`,
  `dealc_sub_vec`, `dealc_subcnt`, `dealc_head_vec`, `dealc_next_vec` -/
  dst : Dealc
  preDealc : Nat → Bool
  logical : Nat → Bool
  sub : Nat → Nat → Bool
  subcnt : Nat → Nat
  headVec : Nat → Bool
  nextVec : Nat → Nat → Bool
  /-- the outputs `addr_alc_valid`, `addr_alc_offset`, `addr_alc_node_idx` -/
  ansValid : Bool
  ansOffset : Nat
  ansNode : Nat

/-- The registers after the reset (lines 200-536).  The two output registers
which have no reset value (`addr_alc_offset`, `addr_alc_node_idx`) are 0
here; nothing reads them before `addr_alc_valid`. -/
def reset : Regs where
  serValid := false
  serDealc := false
  ser := .idle
  txnFf := false
  txn := false
  alcFf := false
  cmplFf := fun _ => false
  save := fun _ => false
  vec := fun _ => false
  svcFf := false
  descIdx := fun _ => 0
  descVld := fun _ => false
  head := 0
  headVld := false
  vld := fun _ => false
  strt := fun _ => 0
  fin := fun _ => 0
  ll := fun _ => 0
  next := fun _ => 0
  nextVld := fun _ => false
  alc := .idle
  preAlc := false
  preFail := false
  wrap := fun _ => false
  nextNo := fun _ => 0
  nextWrap := fun _ => 0
  headNo := fun _ => 0
  headWrap := fun _ => 0
  diff := fun _ => 0
  space := fun _ => false
  avail := fun _ => false
  posVec := fun _ => false
  newVec := fun _ => false
  posIdx := 0
  newIdx := 0
  dst := .idle
  preDealc := fun _ => false
  logical := fun _ => false
  sub := fun _ _ => false
  subcnt := fun _ => 0
  headVec := fun _ => false
  nextVec := fun _ _ => false
  ansValid := false
  ansOffset := 0
  ansNode := 0

/-- The reduction `|v` (lines 347, 430, 645). -/
def any (v : Nat → Bool) : Bool := (List.range 16).any v

/-- `v & (-v)`, lines 656-657: the lowest bit which is set. -/
def lowBit (v : Nat → Bool) : Nat → Bool :=
  fun i => v i && (List.range i).all (fun j => !v j)

/-- The `case` statements on `NODE_0` … `NODE_F` (lines 666-717, 721-772,
909-962, 967-1018): the index of the only bit which is set; `none` is the
default branch. -/
def decode (v : Nat → Bool) : Option Nat :=
  (List.range 16).find? (fun i => v i && (List.range 16).all (fun j => j == i || !v j))

/-- An array with one element replaced. -/
def put {α : Type} (f : Nat → α) (i : Nat) (x : α) : Nat → α :=
  fun j => if j = i then x else f j

/-- A difference held in a register of `w+1` bits (lines 142-146). -/
def trunc (c : Cfg) (x : Nat) : Nat := x % 2 ^ (c.w + 1)

/-- The gap when it does not cross the end of the RAM, lines 599 and 601:
`start - end - 1` in `w+1` bits. -/
def gapNo (c : Cfg) (e t : Nat) : Nat := trunc c (t + 2 ^ (c.w + 1) - e - 1)

/-- The gap when it does, lines 600 and 602: `top - 1 - end + start`,
calculated in 32 bits and cut to `w+1` bits. -/
def gapWrap (c : Cfg) (e t : Nat) : Nat := trunc c (c.top + 2 ^ (c.w + 1) + t - 1 - e)

/-- Lines 358-443: which of an allocation and a release is served. -/
def serNext (s : Regs) : Ser × Bool × Bool :=
  match s.ser with
  | .idle =>
      if s.txn then (.alc, true, false)
      else if any s.vec then (.dealc, true, true)
      else (.idle, false, false)
  | .alc =>
      if s.preAlc then
        if any s.vec then (.dealc, true, true) else (.idle, false, false)
      else if s.preFail then
        if any s.vec then (.dealc, true, true) else (.waitDealc, false, false)
      else (.alc, true, false)
  | .waitDealc =>
      if any s.vec then (.dealc, true, true) else (.waitDealc, false, false)
  | .dealc =>
      if any s.preDealc then
        if s.txn then (.alc, true, false) else (.idle, false, false)
      else (.dealc, true, true)

/-- The blocks which stand by themselves, lines 198-472: edge detection,
descriptor of a node, request and release registers, service and answer. -/
def front (s : Regs) (i : In) : Regs :=
  let svc := s.serValid && s.serDealc
  let r := serNext s
  { s with
    alcFf := i.alcValid
    descIdx := if i.alcValid && !s.alcFf then put s.descIdx i.alcNode i.alcDesc else s.descIdx
    svcFf := svc
    descVld := fun n =>
      if s.vec (s.descIdx n) && svc && !s.svcFf then false
      else if n == i.alcNode && i.alcValid && !s.alcFf then true
      else s.descVld n
    txnFf := i.txnValid
    txn := if s.preAlc then false else if i.txnValid && !s.txnFf then true else s.txn
    cmplFf := i.cmpl
    save := fun d =>
      if s.preDealc d then false else if i.cmpl d && !s.cmplFf d then true else s.save d
    vec := fun d => if s.preDealc d then false else if svc then s.vec d else s.save d
    ser := r.1
    serValid := r.2.1
    serDealc := r.2.2
    ansValid := s.preAlc }

/-- The start of the node after `n`, or of the first node if `n` is the last
one, lines 580-591. -/
def after (s : Regs) (n : Nat) : Nat := if s.nextVld n then s.strt (s.next n) else s.strt s.head

/-- Lines 540-812: one cycle of an allocation.  `s` are the registers before
the edge; the registers of the list and of the allocation are replaced in
`r`. -/
def alcStep (c : Cfg) (s : Regs) (i : In) (r : Regs) : Regs :=
  match s.alc with
  | .idle =>
      if s.headVld then { r with alc := .udLl, preAlc := false, preFail := false }
      else { r with alc := .newLl, preAlc := true, preFail := false }
  | .newLl =>
      { r with
        alc := .idle, preAlc := false, preFail := false
        ansOffset := 0, ansNode := 0
        headVld := true, head := 0
        vld := put s.vld 0 true
        strt := put s.strt 0 0
        fin := put s.fin 0 i.size
        ll := put s.ll 0 0
        next := put s.next 0 0
        nextVld := put s.nextVld 0 false }
  | .udLl =>
      { r with
        alc := .calDiff, preAlc := false, preFail := false
        wrap := fun n => s.vld n && !(decide (after s n > s.fin n))
        nextNo := fun n => gapNo c (s.fin n) (s.strt (s.next n))
        nextWrap := fun n => gapWrap c (s.fin n) (s.strt (s.next n))
        headNo := fun n => gapNo c (s.fin n) (s.strt s.head)
        headWrap := fun n => gapWrap c (s.fin n) (s.strt s.head) }
  | .calDiff =>
      { r with
        alc := .calSpace, preAlc := false, preFail := false
        diff := fun n =>
          if s.vld n then
            if s.nextVld n then (if s.wrap n then s.nextWrap n else s.nextNo n)
            else (if s.wrap n then s.headWrap n else s.headNo n)
          else 0 }
  | .calSpace =>
      { r with
        alc := .checkAvail, preAlc := false, preFail := false
        space := fun n => decide (s.diff n ≥ i.size + 1)
        avail := fun n => !s.vld n }
  | .checkAvail =>
      let ok := any s.avail && any s.space
      { r with
        alc := if ok then .calIdx else .failed, preAlc := false, preFail := !ok
        posVec := lowBit s.space, newVec := lowBit s.avail }
  | .failed => { r with alc := .idle, preAlc := false, preFail := false }
  | .calIdx =>
      { r with
        alc := .addNode, preAlc := true, preFail := false
        posIdx := (decode s.posVec).getD 0, newIdx := (decode s.newVec).getD 0 }
  | .addNode =>
      let p := s.posIdx
      let n := s.newIdx
      { r with
        alc := .idle, preAlc := false, preFail := false
        ansOffset := (s.fin p + 1) % 2 ^ c.w, ansNode := n
        next :=
          if s.nextVld p then put (put s.next n (s.next p)) p n else put (put s.next n 0) p n
        nextVld :=
          if s.nextVld p then put s.nextVld n true else put (put s.nextVld n false) p true
        ll := put (fun k => if s.ll k > s.ll p && s.vld k then (s.ll k + 1) % 16 else s.ll k)
          n ((s.ll p + 1) % 16)
        vld := put s.vld n true
        strt := put s.strt n ((s.fin p + 1) % 2 ^ c.w)
        fin := put s.fin n ((s.fin p + 1 + i.size) % 2 ^ c.w) }

/-- How many of the 16 bits are set (lines 866-869: a sum in 4 bits). -/
def count (v : Nat → Bool) : Nat := (List.range 16).countP v

/-- The node is to go, lines 823-824. -/
def goes (s : Regs) (n : Nat) : Bool := s.vld n && s.descVld n && s.vec (s.descIdx n)

/-- Lines 817-1034: one cycle of a release. -/
def dealcStep (s : Regs) (r : Regs) : Regs :=
  match s.dst with
  | .idle =>
      { r with
        dst := .calSubVec, preDealc := fun _ => false
        logical := fun n => goes s n
        vld := fun n => if goes s n then false else s.vld n }
  | .calSubVec =>
      { r with
        dst := .calSubcnt, preDealc := fun _ => false
        sub := fun n m => s.vld n && (s.logical m && decide (s.ll m < s.ll n)) }
  | .calSubcnt =>
      { r with
        dst := .calLlIdx, preDealc := fun _ => false
        subcnt := fun n => if s.vld n then count (s.sub n) % 16 else 0 }
  | .calLlIdx =>
      { r with
        dst := .calNextVec, preDealc := fun _ => false
        ll := fun n => if s.vld n then (s.ll n + 16 - s.subcnt n) % 16 else 0 }
  | .calNextVec =>
      { r with
        dst := .updateLl, preDealc := s.vec
        headVec := fun n => s.ll n == 0 && s.vld n
        nextVec := fun n m =>
          s.vld n && (decide (s.ll n ≤ 14) && (s.ll n + 1 == s.ll m) && s.vld m) }
  | .updateLl =>
      { r with
        dst := .idle, preDealc := fun _ => false
        head := (decode s.headVec).getD 0, headVld := (decode s.headVec).isSome
        next := fun n => if s.vld n then (decode (s.nextVec n)).getD 0 else 0
        nextVld := fun n => s.vld n && (decode (s.nextVec n)).isSome }

/-- Lines 497-1047: the list, the allocation and the release. -/
def step (c : Cfg) (s : Regs) (i : In) : Regs :=
  let r := front s i
  if s.serValid && !s.serDealc then alcStep c s i r
  else if s.serValid && s.serDealc then dealcStep s r
  else { r with alc := .idle, preAlc := false, preFail := false, dst := .idle, preDealc := fun _ => false }

end Verif.RtlRam
