import Verif.Mii.Model
import Verif.Crc32.Props

/-! # C20: MII transmit then receive -/

namespace Verif.Mii
open Verif

theorem rx_append (r : Rx) (a b : List Sample) : rx r (a ++ b) = (rx r a).bind (rx · b) := by
  unfold rx; rw [List.foldlM_append]; rfl

theorem rejoin (b : Byte) : (b.setWidth 4).setWidth 8 ||| (((b >>> 4).setWidth 4).setWidth 8 <<< 4) = b := by
  revert b; decide +kernel

theorem idle_disabled : ∀ s ∈ pushBuf false idleSeq, s.en = false := by decide

theorem pushBuf_append (e : Bool) (a b : List Byte) : pushBuf e (a ++ b) = pushBuf e a ++ pushBuf e b := by
  unfold pushBuf; rw [List.flatMap_append]

def ready (out : List (List Byte)) : Rx := { buf := [], d8 := 0, cnt := 0, st := .idle, out := out }
def inData (buf : List Byte) (out : List (List Byte)) : Rx := { buf := buf, d8 := 0, cnt := 0, st := .data, out := out }

theorem rx_idle (out : List (List Byte)) (l : List Sample) (h : ∀ s ∈ l, s.en = false) : rx (ready out) l = some (ready out) := by
  induction l with
  | nil => rfl
  | cons s l ih =>
    have hs := h s (by simp)
    unfold rx at ih ⊢
    rw [List.foldlM_cons]
    have e : clock (ready out) s = some (ready out) := by
      unfold clock; simp [hs, ready, Rx.reset]
    rw [e]
    exact ih (fun s hs => h s (by simp [hs]))

theorem rx_preamble (out : List (List Byte)) : rx (ready out) (pushBuf true preambleSeq) = some (inData [] out) := rfl

theorem rx_data (out : List (List Byte)) (d buf : List Byte) (h : buf.length + d.length ≤ bufSize) :
    rx (inData buf out) (pushBuf true d) = some (inData (buf ++ d) out) := by
  induction d generalizing buf with
  | nil => simp [pushBuf, rx]
  | cons b bs ih =>
    simp only [List.length_cons] at h
    have e : rx (inData buf out) (pushBuf true [b]) = some (inData (buf ++ [b]) out) := by
      simp only [pushBuf, List.flatMap_cons, List.flatMap_nil, List.append_nil, rx, List.foldlM_cons, List.foldlM_nil]
      simp only [clock, if_true, nibble, inData]
      simp only [show (1 : Nat) ≠ 0 by decide, if_false, show buf.length < bufSize by omega, if_true, Option.bind_eq_bind, Option.bind_some, rejoin]
      rfl
    have e2 : pushBuf true (b :: bs) = pushBuf true [b] ++ pushBuf true bs := by simp [pushBuf]
    rw [e2, rx_append, e, Option.bind_some, ih _ (by simp; omega)]
    simp

theorem rx_end (out : List (List Byte)) (buf : List Byte) (h : buf ≠ []) (x : BitVec 4) :
    rx (inData buf out) [⟨false, x⟩] = some (ready (out ++ [buf])) := by
  simp [rx, clock, inData, h, Rx.reset, ready]

/-- What arrives for a packet: the packet and, if the transmitter appends one,
its checksum. -/
def delivered (csum : Bool) (d : List Byte) : List Byte := if csum then d ++ csumBytes d else d

theorem rx_packet (csum : Bool) (out : List (List Byte)) (d : List Byte) (y : BitVec 4)
    (hne : delivered csum d ≠ []) (hlen : (delivered csum d).length ≤ bufSize) :
    rx (ready out) (txPacket csum d y) = some (ready (out ++ [delivered csum d])) := by
  unfold txPacket
  rw [rx_append, rx_append, rx_append, rx_append, rx_idle out _ idle_disabled, Option.bind_some, rx_preamble, Option.bind_some]
  unfold delivered at hne hlen ⊢
  cases csum
  · simp only [Bool.false_eq_true, if_false] at hne hlen ⊢
    rw [rx_data _ _ _ (by simpa using hlen)]
    simp only [Option.bind_some, List.nil_append]
    exact rx_end out d hne y
  · simp only [if_true] at hne hlen ⊢
    rw [List.length_append] at hlen
    rw [rx_data _ _ _ (by simp; omega)]
    simp only [Option.bind_some, List.nil_append]
    rw [rx_data _ _ _ hlen, Option.bind_some]
    exact rx_end out _ hne y

/-- **C20.** For every sequence of non-empty packets that fit the receiver's
buffer, and every spacing between them: with checksum generation off, exactly
those packets arrive, in order. -/
theorem mii_roundtrip_partial (l : List Item) (hl : ∀ i ∈ l, i.data ≠ [] ∧ i.data.length ≤ 8192) :
    (rx Rx.init (tx false l)).map (·.out) = some (l.map (·.data)) := by
  have key : ∀ (l : List Item) (out : List (List Byte)), (∀ i ∈ l, i.data ≠ [] ∧ i.data.length ≤ 8192) →
      rx (ready out) (tx false l) = some (ready (out ++ l.map (·.data))) := by
    intro l
    induction l with
    | nil => intro out _; simp [tx, rx]
    | cons i is ih =>
      intro out h
      have hi := h i (by simp)
      have e : tx false (i :: is) = List.replicate i.gap ⟨false, i.x⟩ ++ (txPacket false i.data i.y ++ tx false is) := by
        simp [tx]
      rw [e, rx_append, rx_idle out _ (by intro s hs; rw [List.eq_of_mem_replicate hs]), Option.bind_some, rx_append,
        rx_packet false out i.data i.y (by simpa [delivered] using hi.1) (by simpa [delivered, bufSize] using hi.2), Option.bind_some,
        ih _ (fun j hj => h j (by simp [hj]))]
      simp [delivered]
  have := key l [] hl
  rw [show Rx.init = ready [] from rfl, this]
  rfl

/-- **C20.** With checksum generation on (the default): every packet (also an
empty one) of up to 8188 bytes arrives followed by four checksum bytes, which
together have the fixed CRC residue.  The receiver does not remove them. -/
theorem mii_roundtrip_checksum (l : List Item) (hl : ∀ i ∈ l, i.data.length + 4 ≤ 8192) :
    (rx Rx.init (tx true l)).map (·.out) = some (l.map fun i => i.data ++ csumBytes i.data) := by
  have key : ∀ (l : List Item) (out : List (List Byte)), (∀ i ∈ l, i.data.length + 4 ≤ 8192) →
      rx (ready out) (tx true l) = some (ready (out ++ l.map fun i => i.data ++ csumBytes i.data)) := by
    intro l
    induction l with
    | nil => intro out _; simp [tx, rx]
    | cons i is ih =>
      intro out h
      have hi := h i (by simp)
      have e : tx true (i :: is) = List.replicate i.gap ⟨false, i.x⟩ ++ (txPacket true i.data i.y ++ tx true is) := by
        simp [tx]
      rw [e, rx_append, rx_idle out _ (by intro s hs; rw [List.eq_of_mem_replicate hs]), Option.bind_some, rx_append,
        rx_packet true out i.data i.y (by simp [delivered, csumBytes]) (by simp [delivered, bufSize, csumBytes]; omega), Option.bind_some,
        ih _ (fun j hj => h j (by simp [hj]))]
      simp [delivered]
  have := key l [] hl
  rw [show Rx.init = ready [] from rfl, this]
  rfl

theorem csumBytes_eq (d : List Byte) : csumBytes d = Crc32.crcBytes (Crc32.crc32 0 d) := by
  unfold csumBytes Crc32.crcBytes
  generalize Crc32.crc32 0 d = c
  rw [show List.range 4 = [0, 1, 2, 3] from rfl]
  simp only [List.map_cons, List.map_nil]
  congr 1

/-- Every frame that arrives in checksum mode passes the standard residue check. -/
theorem delivered_residue (d : List Byte) : Crc32.crc32 0 (d ++ csumBytes d) = 0x2144DF1C := by
  rw [csumBytes_eq]; exact Crc32.crc32_residue d

/-- **C20 (violation).** With the bridges' default settings no packet arrives as
it was sent: four bytes have been added. -/
theorem default_not_identity (d : List Byte) (h : d.length + 4 ≤ 8192) :
    (rx Rx.init (tx true [⟨0, d, 0, 0⟩])).map (·.out) ≠ some [d] := by
  rw [mii_roundtrip_checksum _ (by simpa using h)]
  simp [csumBytes]

/-- **C20 (violation).** A packet larger than the receiver's 8 KiB buffer is
written past its end. -/
theorem overrun (d : List Byte) (h : 8192 < d.length) (i : Item) (hi : i.data = d) :
    rx Rx.init (tx false [i]) = none := by
  obtain ⟨gap, data, x, y⟩ := i
  simp only at hi; subst hi
  have e : tx false [⟨gap, data, x, y⟩] = List.replicate gap ⟨false, x⟩ ++ (pushBuf false idleSeq ++ (pushBuf true preambleSeq ++ (pushBuf true data ++ [⟨false, y⟩]))) := by
    simp [tx, txPacket]
  rw [e, show Rx.init = ready [] from rfl, rx_append, rx_idle [] _ (by intro s hs; rw [List.eq_of_mem_replicate hs]), Option.bind_some,
    rx_append, rx_idle [] _ idle_disabled, Option.bind_some, rx_append, rx_preamble, Option.bind_some, rx_append]
  have hsplit : data = data.take 8192 ++ (data[8192] :: data.drop 8193) := by
    rw [List.getElem_cons_drop, List.take_append_drop]
  have e2 : pushBuf true data = pushBuf true (data.take 8192) ++ (pushBuf true [data[8192]] ++ pushBuf true (data.drop 8193)) := by
    conv => lhs; rw [hsplit]
    rw [← pushBuf_append, ← pushBuf_append]
    rfl
  have hl : (data.take 8192).length = 8192 := by simp; omega
  rw [e2, rx_append, rx_data _ _ _ (by rw [hl]; decide), Option.bind_some, rx_append]
  have e3 : rx (inData ([] ++ data.take 8192) []) (pushBuf true [data[8192]]) = none := by
    simp only [pushBuf, List.flatMap_cons, List.flatMap_nil, List.append_nil, rx, List.foldlM_cons, List.foldlM_nil]
    simp only [clock, if_true, nibble, inData, List.nil_append, Option.bind_eq_bind, Option.bind_some,
      show (1 : Nat) ≠ 0 by decide, if_false, show ¬ (data.take 8192).length < bufSize by rw [hl]; decide]
    rfl
  rw [e3]; rfl

example : (rx Rx.init (tx false [⟨3, [0xd5, 0x55, 0x07], 5, 1⟩, ⟨0, [9], 0, 2⟩])).map (·.out) = some [[0xd5, 0x55, 0x07], [9]] := by
  decide +kernel

/-! ## Arbitrary received signals -/

/-- The nibbles of a burst contain a start-of-frame delimiter. -/
def HasSfd (l : List (BitVec 4)) : Prop := ∃ a b, l = a ++ 5 :: 0xd :: b

/-- Bytes from nibbles, low nibble first; an odd last nibble is dropped. -/
def join : List (BitVec 4) → List Byte
  | lo :: hi :: r => (hi ++ lo) :: join r
  | _ => []

theorem rx_no_sfd (out : List (List Byte)) (n : Nat) : ∀ l : List (BitVec 4), l.length = n → ¬ HasSfd l →
    rx (ready out) (l.map (⟨true, ·⟩)) =
      some { ready out with st := if l.getLast? = some 5 then .preamble else .idle } := by
  induction n with
  | zero => intro l hl _; rw [List.length_eq_zero_iff.mp hl]; rfl
  | succ n ih =>
    intro l hl h
    have hne : l ≠ [] := by intro e; simp [e] at hl
    have hd := List.dropLast_append_getLast hne
    generalize hl' : l.dropLast = l' at hd
    generalize l.getLast hne = x at hd
    have hlen : l'.length = n := by rw [← hl', List.length_dropLast]; omega
    subst hd
    have hno : ¬ HasSfd l' := by
      rintro ⟨a, b, e⟩
      exact h ⟨a, b ++ [x], by rw [e]; simp⟩
    rw [List.map_append, rx_append, ih l' hlen hno, Option.bind_some]
    simp only [List.map_cons, List.map_nil, rx, List.foldlM_cons, List.foldlM_nil, clock, if_true, nibble,
      List.getLast?_concat, Option.some.injEq]
    by_cases h5 : l'.getLast? = some 5
    · rw [if_pos h5]
      by_cases hx : x = 5
      · simp [hx]
      · have hxd : x ≠ 0xd := by
          intro hxd
          obtain ⟨a, ha⟩ := List.getLast?_eq_some_iff.mp h5
          exact h ⟨a, [], by rw [ha, hxd]; simp⟩
        simp only [if_neg hx, if_neg hxd]; rfl
    · rw [if_neg h5]
      by_cases hx : x = 5
      · simp [hx, ready]
      · simp only [ready, if_neg hx]; rfl

/-- **C20 (no start delimiter).** A burst of any length and content in which the
start-of-frame delimiter never appears delivers nothing and leaves the receiver
ready. -/
theorem no_delimiter_no_packet (out : List (List Byte)) (l : List (BitVec 4)) (h : ¬ HasSfd l) (x : BitVec 4) :
    rx (ready out) (l.map (⟨true, ·⟩) ++ [⟨false, x⟩]) = some (ready out) := by
  rw [rx_append, rx_no_sfd out _ l rfl h, Option.bind_some]
  simp [rx, clock, ready, Rx.reset]

theorem rx_payload (out : List (List Byte)) (n : Nat) : ∀ (l : List (BitVec 4)) (buf : List Byte), l.length ≤ n →
    buf.length + l.length / 2 ≤ bufSize → ∀ x,
    rx (inData buf out) (l.map (⟨true, ·⟩) ++ [⟨false, x⟩]) =
      some (ready (if buf ++ join l = [] then out else out ++ [buf ++ join l])) := by
  induction n with
  | zero =>
    intro l buf hl hb x
    rw [List.length_eq_zero_iff.mp (Nat.le_zero.mp hl)]
    by_cases h : buf = [] <;> simp [rx, clock, inData, h, Rx.reset, ready, join]
  | succ n ih =>
    intro l buf hl hb x
    match l, hl, hb with
    | [], _, _ => by_cases h : buf = [] <;> simp [rx, clock, inData, h, Rx.reset, ready, join]
    | [a], _, _ => by_cases h : buf = [] <;> simp [rx, clock, nibble, inData, h, Rx.reset, ready, join]
    | lo :: hi :: r, hl, hb =>
      simp only [List.length_cons] at hl hb
      have e : rx (inData buf out) [⟨true, lo⟩, ⟨true, hi⟩] = some (inData (buf ++ [hi ++ lo]) out) := by
        have hj : ∀ lo hi : BitVec 4, lo.setWidth 8 ||| (hi.setWidth 8 <<< 4) = hi ++ lo := by decide +kernel
        simp only [rx, List.foldlM_cons, List.foldlM_nil, clock, if_true, nibble, inData]
        simp only [show (1 : Nat) ≠ 0 by decide, if_false, show buf.length < bufSize by omega, if_true,
          Option.bind_eq_bind, Option.bind_some, hj]
        rfl
      have e2 : (lo :: hi :: r).map (Sample.mk true) ++ [⟨false, x⟩] =
          [⟨true, lo⟩, ⟨true, hi⟩] ++ (r.map (Sample.mk true) ++ [⟨false, x⟩]) := by simp
      rw [e2, rx_append, e, Option.bind_some, ih r _ (by omega) (by simp; omega)]
      simp [join]

/-- **C20 (any burst).** What the receiver delivers for a burst is what follows
its first start-of-frame delimiter, two nibbles to a byte. -/
theorem delivers_after_first_delimiter (out : List (List Byte)) (a b : List (BitVec 4)) (ha : ¬ HasSfd (a ++ [5]))
    (hb : b.length / 2 ≤ 8192) (x : BitVec 4) :
    rx (ready out) ((a ++ 5 :: 0xd :: b).map (⟨true, ·⟩) ++ [⟨false, x⟩]) =
      some (ready (if join b = [] then out else out ++ [join b])) := by
  have e : (a ++ 5 :: 0xd :: b).map (Sample.mk true) ++ [⟨false, x⟩] =
      (a ++ [5]).map (Sample.mk true) ++ ([⟨true, 0xd⟩] ++ (b.map (Sample.mk true) ++ [⟨false, x⟩])) := by simp
  rw [e, rx_append, rx_no_sfd out _ _ rfl ha, Option.bind_some, rx_append]
  have e2 : rx { ready out with st := if (a ++ [5]).getLast? = some (5 : BitVec 4) then .preamble else .idle }
      [⟨true, 0xd⟩] = some (inData [] out) := by
    simp [rx, clock, nibble, ready, inData]
  rw [e2, Option.bind_some, rx_payload out _ b [] (Nat.le_refl _) (by simpa [bufSize] using hb)]
  rfl

example : rx (ready []) (([1, 0xd, 5, 5, 5, 0xd, 2, 1] : List (BitVec 4)).map (⟨true, ·⟩) ++ [⟨false, 0⟩]) =
    some (ready [[0x12]]) := by decide +kernel

end Verif.Mii
