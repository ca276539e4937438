import Verif.RPAts.Model
import Verif.RP.Props
import Verif.RPMem.Props

/-! # C67: translations and invalidations come through unchanged -/

namespace Verif.RPAts
open Verif Verif.RP

/-- A translator: attributes, address and length to the same and a result. -/
abbrev Translator := U64 → U64 → U64 → U64 × U64 × U64 × U32

/-- A peer that answers each translation request it understands with the translator's
answer, under the request's identifier and device. -/
def Answers (t : Translator) (peer : List Byte → List Byte) : Prop :=
  ∀ w p ts attr addr len r, IsPacket w p → p.hdr.cmd = cmdAtsReq → isResponse p.hdr.flags = false → p.body = .ats ts attr addr len r →
    ∃ clk rsv, rsv.length = 32 ∧
      peer w = encAts cmdAtsReq p.hdr.id p.hdr.dev clk (t attr addr len).1 (t attr addr len).2.1 (t attr addr len).2.2.1
        ((t attr addr len).2.2.2.zeroExtend 64) flagResponse rsv

theorem trunc_ext (x : U32) : (x.zeroExtend 64 : U64).truncate 32 = x := by
  simp [BitVec.setWidth_setWidth]

theorem packet_recv {w : List Byte} {p : Pkt} (h : IsPacket w p) : recv w = some (p, []) := by
  have := h []
  rwa [List.append_nil] at this

/-- **C67, translations.** The caller gets exactly the translation of the attributes,
address and length it asked for, with status OK. -/
theorem translation_exact (c : Caps) (hc : c.ats = true) (t : Translator) (peer : List Byte → List Byte) (hp : Answers t peer) (id dev : U32)
    (clk addr : U64) (e : Ext) (rsv : List Byte) (hr : rsv.length = 32) :
    translate c peer id dev clk addr (some e) rsv =
      some ⟨(t e.attributes addr e.length).2.1,
        some ⟨(t e.attributes addr e.length).1, (t e.attributes addr e.length).2.2.1, (t e.attributes addr e.length).2.2.2⟩, .ok⟩ := by
  obtain ⟨p, ts, h1, h2, h3, -⟩ := ats_roundtrip_partial cmdAtsReq id dev clk e.attributes addr e.length 0 0 rsv (Or.inl rfl) hr
  obtain ⟨clk', rsv', h4, h5⟩ := hp _ p ts e.attributes addr e.length _ h1 (by rw [h2]) (by rw [h2]; show isResponse 0 = false; decide) h3
  obtain ⟨q, ts', h6, h7, h8, -⟩ := ats_roundtrip_partial cmdAtsReq p.hdr.id p.hdr.dev clk' (t e.attributes addr e.length).1
    (t e.attributes addr e.length).2.1 (t e.attributes addr e.length).2.2.1 ((t e.attributes addr e.length).2.2.2.zeroExtend 64) flagResponse rsv'
    (Or.inl rfl) h4
  unfold translate request
  simp only [hc, if_true]
  rw [h5, packet_recv h6]
  unfold finish
  rw [trunc_ext] at h8
  have hid : q.hdr.id = id := by rw [h7]; show p.hdr.id = id; rw [h2]
  simp only [hid, if_true, h8]

/-- … and the peer is asked exactly that: one packet, no result yet. -/
theorem request_exact (c : Caps) (hc : c.ats = true) (id dev : U32) (clk addr : U64) (e : Ext) (rsv : List Byte) (hr : rsv.length = 32) :
    ∃ w p ts, request c id dev clk addr (some e) rsv = some w ∧ IsPacket w p ∧ p.hdr = { cmd := cmdAtsReq, len := 68, id, flags := 0, dev } ∧
      p.body = .ats ts e.attributes addr e.length 0 := by
  obtain ⟨p, ts, h1, h2, h3, -⟩ := ats_roundtrip_partial cmdAtsReq id dev clk e.attributes addr e.length 0 0 rsv (Or.inl rfl) hr
  exact ⟨_, p, ts, by simp only [request, hc, if_true], h1, h2, h3⟩

/-- Without the peer's capability or the extension: an error, the payload untouched,
nothing sent. -/
theorem translation_refused (c : Caps) (peer : List Byte → List Byte) (id dev : U32) (clk addr : U64) (ext : Option Ext) (rsv : List Byte)
    (h : c.ats = false ∨ ext = none) :
    request c id dev clk addr ext rsv = none ∧ translate c peer id dev clk addr ext rsv = some ⟨addr, ext, .generic⟩ := by
  have : request c id dev clk addr ext rsv = none := by
    unfold request
    rcases h with h | h
    · cases ext <;> simp [h]
    · rw [h]
  exact ⟨this, by unfold translate; rw [this]⟩

/-- A peer as in the theorem: pages move up by `0x80000000`, all permissions. -/
def shift : Translator := fun _ addr _ => (7, addr + 0x80000000, 0x1000, 0)

def shiftPeer (w : List Byte) : List Byte :=
  match recv w with
  | some (p, _) =>
    match p.body with
    | .ats _ attr addr len _ =>
      encAts cmdAtsReq p.hdr.id p.hdr.dev 5 (shift attr addr len).1 (shift attr addr len).2.1 (shift attr addr len).2.2.1
        ((shift attr addr len).2.2.2.zeroExtend 64) flagResponse (List.replicate 32 0)
    | _ => []
  | none => []

theorem shiftPeer_answers : Answers shift shiftPeer := by
  intro w p ts attr addr len r h _ _ hb
  refine ⟨5, List.replicate 32 0, by simp, ?_⟩
  unfold shiftPeer
  rw [packet_recv h]
  simp only [hb]

example : translate { ats := true } shiftPeer 9 3 0 0x1234 (some ⟨2, 64, 0⟩) (List.replicate 32 0) =
    some ⟨0x80001234, some ⟨7, 0x1000, 0⟩, .ok⟩ :=
  translation_exact _ rfl _ _ shiftPeer_answers _ _ _ _ _ _ (by simp)

/-- **C67, invalidations.** An invalidation reaches the device model as sent, and the
answer the peer gets names the same identifier, device, range and result. -/
theorem invalidation_exact (f : Inv → Status) (id dev : U32) (clk clk' attr addr len result : U64) (flags : U32) (rsv : List Byte)
    (hr : rsv.length = 32) (hok : ∀ i, f i = .ok) :
    ∃ p w q ts, IsPacket (encAts cmdAtsInv id dev clk attr addr len result flags rsv) p ∧
      invalidate (some f) clk' p = some ([⟨.ignore, addr, ⟨attr, len, 0⟩⟩], w) ∧ IsPacket w q ∧
      q.hdr = { cmd := cmdAtsInv, len := 68, id, flags := flags ||| flagResponse, dev } ∧
      q.body = .ats ts attr addr len (result.truncate 32) := by
  let h : Hdr := { cmd := cmdAtsInv, len := 68, id, flags, dev }
  let payload := w64 clk ++ (w64 attr ++ (w64 addr ++ (w64 len ++ (w32 (result.truncate 32) ++ rsv))))
  have hw : encAts cmdAtsInv id dev clk attr addr len result flags rsv = encHdr h ++ payload := by
    simp only [encAts, payload, h, List.append_assoc]
  have hpl : payload.length = h.len.toNat := by simp [payload, h, hr]
  have hd : decPayload (encHdr h ++ payload) h =
      some (.ats (BitVec.ofNat 64 (leDec (w64 clk))) attr addr len (result.truncate 32), 0) := by
    have c1 : ¬ (h.cmd = cmdHello) := (by decide : ¬ (cmdAtsInv = cmdHello))
    have c2 : ¬ (h.cmd = cmdWrite ∨ h.cmd = cmdRead) := (by decide : ¬ (cmdAtsInv = cmdWrite ∨ cmdAtsInv = cmdRead))
    have c3 : ¬ (h.cmd = cmdInterrupt) := (by decide : ¬ (cmdAtsInv = cmdInterrupt))
    have c4 : ¬ (h.cmd = cmdSync) := (by decide : ¬ (cmdAtsInv = cmdSync))
    rw [decPayload, if_neg c1, if_neg c2, if_neg c3, if_neg c4, if_pos (Or.inr rfl)]
    simp [payload, encHdr, rd64, rd32, rd64raw, sl_w32, sl_w64, hd_w64, hd_w32, dec_w64, dec_w32]
  have hraw : ((encHdr h ++ payload).drop 56).length = 32 := by
    rw [List.length_drop, List.length_append, hpl]
    simp [encHdr, h]
  obtain ⟨q, ts, h1, h2, h3, -⟩ := ats_roundtrip_partial cmdAtsInv id dev clk' attr addr len ((result.truncate 32 : U32).zeroExtend 64)
    (flags ||| flagResponse) ((encHdr h ++ payload).drop 56) (Or.inr rfl) hraw
  rw [trunc_ext] at h3
  refine ⟨_, _, q, ts, fun rest => by rw [hw]; exact recv_append hpl hd, ?_, h1, h2, h3⟩
  unfold invalidate
  simp only [hok, if_true]
  rfl

/-- Without a device of that number the answer is the same. -/
theorem invalidation_without_device (f : Inv → Status) (hok : ∀ i, f i = .ok) (clk : U64) (p : Pkt) :
    (invalidate none clk p).map (·.2) = (invalidate (some f) clk p).map (·.2) := by
  unfold invalidate
  cases p.body with
  | ats a b c d e => simp [hok]
  | _ => rfl

/-- A device model that does not answer OK ends the simulation. -/
theorem invalidation_refused_aborts (f : Inv → Status) (clk : U64) (p : Pkt) (h : ∀ i, f i ≠ .ok) : invalidate (some f) clk p = none := by
  unfold invalidate
  cases p.body with
  | ats a b c d e => simp [h]
  | _ => rfl

/-- Which packets do what: responses and invalidations are handled; a translation
request of the peer's fails an assertion, although the capability is announced to the
peer (remote-port-tlm.cc 460-466). -/
theorem dispatch_spec (p : Pkt) (h : p.hdr.cmd = cmdAtsReq ∨ p.hdr.cmd = cmdAtsInv) :
    (dispatch p = .abort ↔ p.hdr.cmd = cmdAtsReq ∧ isResponse p.hdr.flags = false) ∧
    (dispatch p = .invalidation ↔ p.hdr.cmd = cmdAtsInv ∧ isResponse p.hdr.flags = false) ∧
    (dispatch p = .response ↔ isResponse p.hdr.flags = true ∧ isPosted p.hdr.flags = false) := by
  unfold dispatch
  have hne : ¬ (cmdAtsReq = cmdAtsInv) := by decide
  have hne' : ¬ (cmdAtsInv = cmdAtsReq) := by decide
  cases hr : isResponse p.hdr.flags <;> cases hp : isPosted p.hdr.flags <;> rcases h with e | e <;> simp [e, hne, hne']

/-- Two ports of this library: the request of one ends the simulation at the other. -/
theorem request_to_itself_aborts (c : Caps) (hc : c.ats = true) (id dev : U32) (clk addr : U64) (e : Ext) (rsv : List Byte) (hr : rsv.length = 32) :
    ∃ w p, request c id dev clk addr (some e) rsv = some w ∧ IsPacket w p ∧ dispatch p = .abort := by
  obtain ⟨w, p, ts, h1, h2, h3, -⟩ := request_exact c hc id dev clk addr e rsv hr
  refine ⟨w, p, h1, h2, ?_⟩
  exact ((dispatch_spec p (Or.inl (by rw [h3]))).1).mpr ⟨by rw [h3], by rw [h3]; show isResponse 0 = false; decide⟩

/-- **C67, translated accesses.** A memory access that carries the extension is marked
as using a physical address on the wire exactly when the extension says so, and marks
nothing else. -/
theorem physical_marked (e : Ext) (a : RPMem.Attrs) :
    (RPMem.rpAttr { a with physAddr := e.isPhys } &&& 8 != 0) = e.isPhys ∧
    RPMem.rpAttr { a with physAddr := e.isPhys } &&& ~~~ 8 = RPMem.rpAttr { a with physAddr := false } := by
  have key : ∀ x y z : Bool, (((if x then (1 : U64) else 0) ||| (if y then 2 else 0) ||| (if z then 8 else 0)) &&& 8 != 0) = z ∧
      ((if x then (1 : U64) else 0) ||| (if y then 2 else 0) ||| (if z then 8 else 0)) &&& ~~~ 8 =
        ((if x then (1 : U64) else 0) ||| (if y then 2 else 0) ||| (if false then 8 else 0)) := by decide
  exact key a.eop a.secure e.isPhys

/-- At a receiver from this library the mark is lost. -/
theorem physical_not_passed_on (h : Hdr) (attr : U64) (mid : U16) : (RPMem.masterAttrs h attr mid).physAddr = false := rfl

example : (Ext.mk 0x107 0 0).isPhys = true ∧ (Ext.mk 7 0 0).isPhys = false := by decide

end Verif.RPAts
