import Verif.RPMem.Model
import Verif.RP.Props

/-! # C07: a remote memory access behaves like a local one -/

namespace Verif.RPMem
open Verif Verif.RP

/-! ## Specification -/

/-- Remote-port only distinguishes three response codes. -/
def collapse : Status → Status
  | .ok => .ok
  | .address => .address
  | _ => .generic

/-- The attributes that reach the remote target: end-of-packet, security,
posted and the low 16 bits of the master id. -/
def forwarded (a : Attrs) : Attrs :=
  { posted := a.posted, eop := a.eop, secure := a.secure, masterId := (a.masterId.truncate 16).zeroExtend 64 }

/-- A target that treats the data buffer as TLM-2.0 requires: a write does not
change it; what a read without byte enables returns does not depend on its
previous contents and keeps its length. -/
structure GoodTarget (T : Target) : Prop where
  write : ∀ a g m, g.cmd = .write → (T a g m).2.1 = g.data
  read : ∀ a g m d, g.cmd = .read → g.be = [] → d.length = g.data.length →
    T a { g with data := d } m = T a g m
  readLen : ∀ a g m, g.cmd = .read → g.be = [] → (T a g m).2.1.length = g.data.length

/-- The reference memory target. -/
def memTarget : Target := fun _ g m => ((g.run m).1, (g.run m).2, .ok)

theorem memTarget_good : GoodTarget memTarget := by
  constructor
  · intro a g m h; simp [memTarget, Gp.run, h]
  · intro a g m d h hbe hl
    have : ∀ (i : Nat) (d e : List Byte), d.length = e.length →
        readFrom m g.addr g.sw [] i d = readFrom m g.addr g.sw [] i e := by
      intro i d
      induction d generalizing i with
      | nil => intro e he; cases e with
        | nil => rfl
        | cons => simp at he
      | cons x xs ih =>
        intro e he
        cases e with
        | nil => simp at he
        | cons y ys =>
          simp only [readFrom, beEnabled]
          rw [ih (i + 1) ys (by simpa using he)]
          simp
    simp [memTarget, Gp.run, h, hbe, this 0 d g.data hl]
  · intro a g m h _; simp [memTarget, Gp.run, h]

/-! ## Helper facts -/

theorem copyIn_nil (i : Nat) (d r : List Byte) (h : r.length = d.length) : copyIn [] i d r = r := by
  induction d generalizing i r with
  | nil => cases r with
    | nil => rfl
    | cons => simp at h
  | cons x xs ih =>
    cases r with
    | nil => simp at h
    | cons y ys =>
      simp only [copyIn, beEnabled]
      rw [ih (i + 1) ys (by simpa using h)]
      simp

theorem rpAttr_facts (a : Attrs) :
    hasExtBase (rpAttr a) = false ∧ (rpAttr a &&& 1 != 0) = a.eop ∧ (rpAttr a &&& 2 != 0) = a.secure ∧
    (rpAttr a &&& 16 != 0) = false ∧ ((rpAttr a ||| attrExtBase) &&& 1 != 0) = a.eop ∧
    ((rpAttr a ||| attrExtBase) &&& 2 != 0) = a.secure ∧ ((rpAttr a ||| attrExtBase) &&& 16 != 0) = false := by
  unfold rpAttr
  cases a.eop <;> cases a.secure <;> cases a.physAddr <;> decide

theorem respCode_facts (s : Status) :
    hasExtBase (respCode s <<< 8) = false ∧ slaveStatus (respCode s <<< 8) = collapse s ∧
    slaveStatus (respCode s <<< 8 ||| attrExtBase) = collapse s := by
  cases s <;> decide

/-- What C01 says about a bus access without byte enables, for both layouts at
once. -/
theorem bus_any_layout (c : Caps) (i : BusIn) (data : List Byte)
    (hcmd : i.cmd = cmdRead ∨ i.cmd = cmdWrite)
    (hmid : i.masterId.toNat < 2 ^ 16) (hmid2 : c.extBase = true ∨ i.masterId.toNat ≠ 0xffff)
    (hbe : i.beLen = 0)
    (hdata : data.length = if carriesData i then i.size.toNat else 0)
    (hfit : 80 + data.length < 2 ^ 32) :
    ∃ b n p attr ext, encBus c i = some (b, n) ∧ IsPacket (b ++ data) p ∧
      p.hdr.cmd = i.cmd ∧ p.hdr.id = i.id ∧ p.hdr.flags = i.flags ∧ p.hdr.dev = i.dev ∧
      p.body = .bus i.clk attr i.addr i.size i.width i.streamWidth (i.masterId.truncate 16) ext ∧
      (attr = i.attr ∨ attr = i.attr ||| attrExtBase) ∧
      p.raw.drop (20 + p.used) = data ∧ rxData p data.length = some data := by
  by_cases hext : usesExt c i = true
  · obtain ⟨w, p, hw, hp, h1, h2, -, -, h3, -, h4, -⟩ := bus_roundtrip_ext_partial c i data [] hcmd hext hdata
      (by rw [hbe]; rfl) (by simpa using hfit)
    cases he : encBus c i with
    | none => simp [busWire, he] at hw
    | some bn =>
      obtain ⟨b, n⟩ := bn
      simp [busWire, he] at hw
      subst hw
      refine ⟨b, n, p, _, _, rfl, hp, by rw [h1], by rw [h1], by rw [h1], by rw [h1], h2, Or.inr rfl,
        by simpa using h3, h4⟩
  · have hold : usesExt c i = false := by simpa using hext
    have hm : i.masterId.toNat < 0xffff := by
      rcases hmid2 with e | e
      · simp [usesExt, e] at hold
      · omega
    obtain ⟨w, p, hw, hp, h1, ⟨mm, h2, hmm⟩, -, -, h3, -, h4, -⟩ := bus_roundtrip_old c i data hcmd hold hm hdata
      (by omega)
    cases he : encBus c i with
    | none => simp [busWire, he] at hw
    | some bn =>
      obtain ⟨b, n⟩ := bn
      simp [busWire, he] at hw
      subst hw
      refine ⟨b, n, p, i.attr, none, rfl, hp, by rw [h1], by rw [h1], by rw [h1], by rw [h1], ?_, Or.inl rfl, h3, h4⟩
      rw [h2, ← hmm]
      congr 1
      simp

theorem packet_self {w : List Byte} {p : Pkt} (h : IsPacket w p) : recv w = some (p, []) := by
  simpa using h []

theorem trunc16_facts (x : U64) :
    ((x.truncate 16).zeroExtend 64 : U64).toNat < 2 ^ 16 ∧
    ((x.truncate 16).zeroExtend 64 : U64).truncate 16 = x.truncate 16 := by
  constructor
  · simp; omega
  · simp

/-! ## Theorems -/

/-- **C07 (no byte enables).** For every read or write without byte enables,
every target that treats data buffers as TLM-2.0 requires, every memory and
every initial buffer, and whatever layouts the two peers negotiated, the remote
access terminates and leaves target memory and initiator buffer exactly as the
direct access (with the forwarded attributes) would, with the response status
up to the three codes remote-port can transport. -/
theorem remote_access_is_local (cs cm : Caps) (T : Target) (hT : GoodTarget T) (id dev : U32) (clk clk' : U64)
    (g : Gp) (a : Attrs) (m : Mem)
    (hcmd : g.cmd = .read ∨ g.cmd = .write) (hbe : g.be = []) (hposted : a.posted = false)
    (haddr : g.addr < 2 ^ 64) (hlen : 80 + g.data.length < 2 ^ 32) (hsw : g.sw < 2 ^ 32)
    (hmidS : cs.extBase = true ∨ a.masterId.toNat % 2 ^ 16 ≠ 0xffff)
    (hmidM : cm.extBase = true ∨ a.masterId.toNat % 2 ^ 16 ≠ 0xffff) :
    remoteAccess cs cm T id dev clk clk' g a m =
      some ((T (forwarded a) g m).1, (T (forwarded a) g m).2.1, collapse (T (forwarded a) g m).2.2) := by
  have hta : (BitVec.ofNat 64 g.addr).toNat = g.addr := by simp; omega
  have htl : (BitVec.ofNat 32 g.data.length).toNat = g.data.length := by simp; omega
  have hts : (BitVec.ofNat 32 g.sw).toNat = g.sw := by simp; omega
  have hrp := rpAttr_facts a
  have ht := trunc16_facts a.masterId
  have hm16 : ((a.masterId.truncate 16).zeroExtend 64 : U64).toNat = a.masterId.toNat % 2 ^ 16 := by
    simp; omega
  have hmS : cs.extBase = true ∨ (slaveIn id dev clk g a).masterId.toNat ≠ 0xffff := by
    simp only [slaveIn]; rw [hm16]; exact hmidS
  have hbeLen : (slaveIn id dev clk g a).beLen = 0 := by simp [slaveIn, hbe]
  have hflag : (slaveIn id dev clk g a).flags = 0 := by simp [slaveIn, hposted]
  have hma : ∀ attr, (attr = rpAttr a ∨ attr = rpAttr a ||| attrExtBase) → ∀ h : Hdr, h.flags = 0 →
      masterAttrs h attr (a.masterId.truncate 16) = forwarded a := by
    intro attr hattr h hf
    have hp : isPosted 0 = false := by decide
    rcases hattr with e | e <;> subst e <;>
      simp only [masterAttrs, forwarded, hf, hp, hposted, hrp.2.1, hrp.2.2.1, hrp.2.2.2.1, hrp.2.2.2.2.1,
        hrp.2.2.2.2.2.1, hrp.2.2.2.2.2.2]
  have hr2 : isResponse (0 ||| flagResponse) = true := by decide
  have hp2 : isPosted (0 ||| flagResponse) = false := by decide
  rcases hcmd with hc | hc
  · -- read
    have hcarr : carriesData (slaveIn id dev clk g a) = false := by
      have : isResponse 0 = false := by decide
      simp only [carriesData, hflag, this]
      simp [slaveIn, hc, cmdRead, cmdWrite]
    obtain ⟨b, n, p, attr, ext, he, hp, h1, h2, h3, h4, h5, h6, h7, h8⟩ :=
      bus_any_layout cs (slaveIn id dev clk g a) [] (by simp [slaveIn, hc]) ht.1 hmS hbeLen
        (by simp [hcarr]) (by simp)
    have htx : slaveTx cs (slaveIn id dev clk g a) g = some b := by
      simp [slaveTx, he, hc, hbe, beBytes]
    have hrecv : recv b = some (p, []) := by simpa using packet_self hp
    rw [hflag] at h3
    simp only [slaveIn, hc, if_true, ht.2, rpAttr] at h1 h2 h4 h5 h6
    -- the target call
    let gz : Gp := { cmd := .read, addr := g.addr, data := List.replicate g.data.length 0, sw := g.sw }
    have hgz : T (forwarded a) gz m = T (forwarded a) g m := by
      have := hT.read (forwarded a) g m (List.replicate g.data.length 0) hc hbe (by simp)
      rw [← this]
      congr 1
      simp only [gz]
      rw [← hc, ← hbe]
    -- the response
    let ri : BusIn := { rspInit p.hdr (BitVec.ofNat 32 g.data.length) 0 (BitVec.ofNat 32 g.sw)
        (BitVec.ofNat 64 g.addr) (a.masterId.truncate 16) with
        clk := clk' + clk, attr := respCode (T (forwarded a) g m).2.2 <<< 8 }
    have hrl := hT.readLen (forwarded a) g m hc hbe
    have hrcarr : carriesData ri = true := by
      simp only [carriesData, ri, rspInit, h1, h3, hr2]; decide
    obtain ⟨rb, rn, rp, rattr, rext, rhe, rhp, r1, r2, r3, r4, r5, r6, r7, r8⟩ :=
      bus_any_layout cm ri (T (forwarded a) g m).2.1 (by simp [ri, rspInit, h1]) ht.1
        (by simp only [ri, rspInit]; rw [hm16]; exact hmidM) rfl
        (by rw [hrcarr, hrl, ← htl]; rfl)
        (by rw [hrl]; exact hlen)
    have hmh : masterHandle cm T clk' m p =
        some ((T (forwarded a) g m).1, some (rb ++ (T (forwarded a) g m).2.1)) := by
      simp only [masterHandle, h5, h1, ne_eq, not_true_eq_false, if_false, if_true, hta, htl, hts]
      rw [hma attr (by simpa only [rpAttr] using h6) p.hdr h3]
      change (match encBus cm { rspInit p.hdr (BitVec.ofNat 32 g.data.length) 0 (BitVec.ofNat 32 g.sw)
        (BitVec.ofNat 64 g.addr) (a.masterId.truncate 16) with
        clk := clk' + clk, attr := respCode (T (forwarded a) gz m).2.2 <<< 8 } with
        | none => none
        | some b => some ((T (forwarded a) gz m).1, some (b.1 ++ (T (forwarded a) gz m).2.1))) = _
      rw [hgz]
      change (match encBus cm ri with
        | none => none
        | some b => some ((T (forwarded a) g m).1, some (b.1 ++ (T (forwarded a) g m).2.1))) = _
      rw [rhe]
    have hsr : slaveRx id g rp = some ((T (forwarded a) g m).2.1, collapse (T (forwarded a) g m).2.2) := by
      have hid : rp.hdr.id = id := by rw [r2]; simp only [ri, rspInit]; exact h2
      simp only [slaveRx, hid, ne_eq, not_true_eq_false, if_false, r5, hc, if_true]
      rw [← hrl, r8]
      simp only [hbe, copyIn_nil 0 g.data _ hrl]
      rcases r6 with e | e <;> rw [e]
      · simp only [ri, (respCode_facts _).2.1]
      · simp only [ri, (respCode_facts _).2.2]
    have hrf : rp.hdr.flags = 0 ||| flagResponse := by rw [r3]; simp only [ri, rspInit, h3]
    unfold remoteAccess
    simp only [hbe, ne_eq, not_true_eq_false, false_and, if_false, htx, hrecv, hmh, hposted, packet_self rhp, hrf, hr2,
      hp2, hsr]
    simp
  · -- write
    have hcarr : carriesData (slaveIn id dev clk g a) = true := by
      have : isResponse 0 = false := by decide
      simp only [carriesData, hflag, this]
      simp [slaveIn, hc]
    obtain ⟨b, n, p, attr, ext, he, hp, h1, h2, h3, h4, h5, h6, h7, h8⟩ :=
      bus_any_layout cs (slaveIn id dev clk g a) g.data (by simp [slaveIn, hc]) ht.1 hmS hbeLen
        (by rw [hcarr, if_pos rfl]; exact htl.symm) hlen
    have htx : slaveTx cs (slaveIn id dev clk g a) g = some (b ++ g.data) := by
      simp [slaveTx, he, hc, hbe, beBytes]
    rw [hflag] at h3
    have hnr : ¬ (Cmd.write = Cmd.read) := by decide
    simp only [slaveIn, hc, hnr, if_false, ht.2, rpAttr] at h1 h2 h4 h5 h6
    let ri : BusIn := { rspInit p.hdr (BitVec.ofNat 32 g.data.length) 0 (BitVec.ofNat 32 g.sw)
        (BitVec.ofNat 64 g.addr) (a.masterId.truncate 16) with
        clk := clk' + clk, attr := respCode (T (forwarded a) g m).2.2 <<< 8 }
    have hrcarr : carriesData ri = false := by
      simp only [carriesData, ri, rspInit, h1, h3, hr2]; decide
    obtain ⟨rb, rn, rp, rattr, rext, rhe, rhp, r1, r2, r3, r4, r5, r6, r7, r8⟩ :=
      bus_any_layout cm ri [] (by simp [ri, rspInit, h1]) ht.1
        (by simp only [ri, rspInit]; rw [hm16]; exact hmidM) rfl
        (by simp [hrcarr]) (by simp)
    have hcw : ¬ (cmdWrite = cmdRead) := by decide
    have hgz : ({ cmd := .write, addr := g.addr, data := g.data, sw := g.sw } : Gp) = g := by
      rw [← hc]
      have : g = { g with be := [] } := by rw [← hbe]
      exact this.symm
    have hp0 : isPosted 0 = false := by decide
    have hmh : masterHandle cm T clk' m p = some ((T (forwarded a) g m).1, some rb) := by
      simp only [masterHandle, h5, h1, ne_eq, not_true_eq_false, if_false, if_true, hta, hts, hcw, h7, hgz]
      rw [hma attr (by simpa only [rpAttr] using h6) p.hdr h3]
      rw [h3, hp0]
      change (match encBus cm ri with
        | none => none
        | some b => some ((T (forwarded a) g m).1, some b.1)) = _
      rw [rhe]
    have hsr : slaveRx id g rp = some ((T (forwarded a) g m).2.1, collapse (T (forwarded a) g m).2.2) := by
      have hid : rp.hdr.id = id := by rw [r2]; simp only [ri, rspInit]; exact h2
      simp only [slaveRx, hid, ne_eq, not_true_eq_false, if_false, r5, hc, hnr]
      rw [hT.write _ _ _ hc]
      rcases r6 with e | e <;> rw [e]
      · simp only [ri, (respCode_facts _).2.1]
      · simp only [ri, (respCode_facts _).2.2]
    have hrf : rp.hdr.flags = 0 ||| flagResponse := by rw [r3]; simp only [ri, rspInit, h3]
    have hrself : recv rb = some (rp, []) := by simpa using packet_self rhp
    unfold remoteAccess
    simp only [hbe, ne_eq, not_true_eq_false, false_and, if_false, htx, packet_self hp, hmh, hposted, hrself, hrf, hr2,
      hp2, hsr]
    simp

/-- The reference memory behind remote-port: same memory, same buffer, OK. -/
theorem remote_memory_is_local (cs cm : Caps) (id dev : U32) (clk clk' : U64) (g : Gp) (m : Mem)
    (hcmd : g.cmd = .read ∨ g.cmd = .write) (hbe : g.be = [])
    (haddr : g.addr < 2 ^ 64) (hlen : 80 + g.data.length < 2 ^ 32) (hsw : g.sw < 2 ^ 32) :
    remoteAccess cs cm memTarget id dev clk clk' g {} m = some ((g.run m).1, (g.run m).2, .ok) := by
  have := remote_access_is_local cs cm memTarget memTarget_good id dev clk clk' g {} m hcmd hbe rfl haddr hlen hsw
    (Or.inr (by decide)) (Or.inr (by decide))
  simpa [memTarget, collapse] using this

example : ∃ g : Gp, (g.cmd = .read ∨ g.cmd = .write) ∧ g.be = [] ∧ g.addr < 2 ^ 64 ∧
    80 + g.data.length < 2 ^ 32 ∧ g.sw < 2 ^ 32 ∧ g.data ≠ [] :=
  ⟨{ cmd := .read, addr := 0x1000, data := [0, 0, 0, 0], sw := 4 }, by decide⟩

/-- **C07 (byte enables, peer without the capability).** The access is refused
with a byte-enable error and has no effect.  (`rp_say_hello` never announces
the capability, so this is what happens between two instances of this library.) -/
theorem byte_enables_refused (cs cm : Caps) (T : Target) (id dev : U32) (clk clk' : U64) (g : Gp) (a : Attrs)
    (m : Mem) (hbe : g.be ≠ []) (hc : cs.extByteEn = false) :
    remoteAccess cs cm T id dev clk clk' g a m = some (m, g.data, .byteEnable) := by
  simp [remoteAccess, hbe, hc]

example : [true, false] ≠ [] ∧ ({ extBase := true, wirePosted := true, ats := true } : Caps).extByteEn = false := by
  decide

/-- **C07 is violated by byte enables if a peer does announce the capability**:
this library's memory master ignores the byte-enable array and takes its bytes
as further write data, so the byte behind the written range is overwritten. -/
theorem byte_enables_written_as_data :
    ∃ (cs : Caps) (g : Gp) (m m' : Mem) (d : List Byte) (st : Status),
      remoteAccess cs cs memTarget 0 0 0 0 g {} m = some (m', d, st) ∧ (g.run m).1 5 = 0 ∧ m' 5 = 0xff := by
  refine ⟨{ extBase := true, extByteEn := true }, { cmd := .write, addr := 4, data := [1], be := [true], sw := 8 },
    fun _ => 0, _, _, _, rfl, ?_, ?_⟩ <;> decide +kernel

/-- **C07 is violated by posted reads**: the call returns at once with the
buffer untouched and the status still "incomplete". -/
theorem posted_read_gets_nothing :
    ∃ (g : Gp) (m m' : Mem), g.cmd = .read ∧
      remoteAccess {} {} memTarget 0 0 0 0 g { posted := true } m = some (m', [0], .incomplete) ∧
      (g.run m).2 = [7] := by
  refine ⟨{ cmd := .read, addr := 4, data := [0], sw := 1 }, fun _ => 7, fun _ => 7, rfl, rfl, by decide⟩

/-- **C07 is violated by TLM_IGNORE_COMMAND**: it is sent as a write whose header
announces data bytes that are never sent, so the peer cannot even read the
packet (it consumes the beginning of the next one instead). -/
theorem ignore_command_breaks_stream :
    ∃ (g : Gp) (w : List Byte), g.cmd = .ignore ∧ slaveTx {} (slaveIn 0 0 0 g {}) g = some w ∧ recv w = none := by
  refine ⟨{ cmd := .ignore, addr := 0, data := [0, 0, 0, 0], sw := 4 }, _, rfl, rfl, by decide +kernel⟩

end Verif.RPMem
