import Verif.ChiCoh.Spec

/-!
# Runs in which the users do not see one memory
-/

namespace Verif.ChiCoh

/-- A store of byte 0 of a line. -/
def st0 (t : Nat) (v : Byte) : Chunk :=
  { wr := true, tag := t, whole := false, allBe := false, be := fun o => o = 0, data := fun _ => v }
/-- A store of a whole line. -/
def stAll (t : Nat) (v : Byte) : Chunk :=
  { wr := true, tag := t, whole := true, allBe := true, be := allBytes, data := fun _ => v }
/-- A line-sized store with only byte 0 enabled. -/
def stSparse (t : Nat) (v : Byte) : Chunk :=
  { wr := true, tag := t, whole := true, allBe := false, be := fun o => o = 0, data := fun _ => v }
/-- A load of a whole line. -/
def ldAll (t : Nat) : Chunk :=
  { wr := false, tag := t, whole := true, allBe := true, be := allBytes, data := fun _ => 0 }

def zero : Nat → Data := fun _ _ => 0

/-- No random choices. -/
def r0 : Rnd := {}

/-- A miss served from memory. -/
def miss (i : Nat) : List Label := [.pick i, .memRead, .rxDat, .resume i r0, .ack]
/-- A miss served by a snoop of one other cache. -/
def missFrom (i j : Nat) : List Label :=
  [.pick i, .snoop j, .resp j allBytes, .rxDat, .resume i r0, .ack]
/-- Give up a clean line, then a miss. -/
def evictMiss (i : Nat) : List Label :=
  [.pick i, .rxEvict i, .resume i r0] ++ miss i

/-- The schedule runs to its end and the users do not see one memory. -/
def breaks (cfg : Cfg) (ls : List Label) : Bool :=
  match run cfg (init zero) ls with
  | some (_, es) => !decide (Coherent zero es)
  | none => false

/-- The schedule runs to its end and the users see one memory. -/
def fine (cfg : Cfg) (ls : List Label) : Bool :=
  match run cfg (init zero) ls with
  | some (_, es) => decide (Coherent zero es)
  | none => false

/-- The schedule's last step fails an assertion. -/
def aborts (cfg : Cfg) : St → List Label → Bool
  | _, [] => false
  | s, l :: ls =>
    match step cfg s l with
    | .next s' _ => aborts cfg s' ls
    | .abort => ls.isEmpty
    | .blocked => false

/-- Two caches of four lines, as delivered: direct cache transfer on, pin-level links. -/
def cfgD : Cfg := { n := 2, num := 4, dct := true, link := true }
/-- The same without direct cache transfer. -/
def cfgN : Cfg := { cfgD with dct := false }

def dctLoss : List Label :=
  [.start 0 (st0 1 7) r0] ++ miss 0 ++
  [.start 1 (ldAll 1) r0] ++ missFrom 1 0 ++
  [.start 0 (ldAll 5) r0] ++ evictMiss 0 ++
  [.start 1 (ldAll 5) r0] ++ [.pick 1, .rxEvict 1, .resume 1 r0] ++ missFrom 1 0 ++
  [.start 1 (ldAll 1) r0] ++ evictMiss 1

/-- A store of byte 1 of a line. -/
def st1 (t : Nat) (v : Byte) : Chunk :=
  { wr := true, tag := t, whole := false, allBe := false, be := fun o => o = 1, data := fun _ => v }

/-- Both caches hold the line shared, both store to it. -/
def upgradeRace : List Label :=
  [.start 0 (ldAll 1) r0] ++ miss 0 ++ [.start 1 (ldAll 1) r0] ++ missFrom 1 0 ++
  [.start 0 (st0 1 7) r0, .start 1 (st1 1 9) r0,
   .pick 0, .snoop 1, .resp 1 allBytes, .rxComp, .resume 0 r0, .ack,
   .pick 1, .snoop 0, .resp 0 allBytes, .snAck, .rxComp, .resume 1 r0, .ack,
   .start 1 (ldAll 1) r0]

/-- A line-sized store with one byte enabled. -/
def sparseLoss : List Label :=
  [.start 0 (stAll 1 7) r0, .pick 0, .rxComp, .resume 0 r0, .ack,
   .start 1 (stSparse 1 9) r0, .pick 1, .snoop 0, .resp 0 allBytes, .rxComp, .resume 1 r0, .ack,
   .start 1 (ldAll 1) r0, .pick 1, .rxDbid, .wrDat, .snWr, .memWrite, .resume 1 r0] ++ miss 1

/-- A load of cache 0 between the grant and the store of cache 1's MakeUnique. -/
def grantRace : List Label :=
  [.start 0 (stAll 1 7) r0, .pick 0, .rxComp, .resume 0 r0, .ack,
   .start 1 (stAll 1 9) r0, .pick 1, .snoop 0, .resp 0 allBytes, .rxComp, .ack,
   .start 0 (ldAll 1) r0, .pick 0, .snoop 1, .resp 1 allBytes, .memRead, .rxDat, .resume 0 r0]

/-- A ReadOnceMakeInvalid between the grant and the store of a CleanUnique by the dirty owner. -/
def cleanUniqueRace : List Label :=
  [.start 0 (st0 1 7) r0] ++ miss 0 ++
  [.start 1 (ldAll 1) r0] ++ missFrom 1 0 ++
  [.start 2 (ldAll 1) r0, .pick 2, .snoop 0, .resp 0 allBytes, .snoop 1, .resp 1 allBytes, .rxDat,
   .resume 2 r0, .ack,
   .start 2 (st1 1 9) r0, .pick 2, .snoop 0, .resp 0 allBytes, .snoop 1, .resp 1 allBytes, .rxComp, .ack,
   .start 0 (ldAll 1) { load := 4 }, .pick 0, .snoop 2, .resp 2 allBytes, .rxDat, .resume 0 r0, .ack,
   .start 0 (ldAll 1) r0] ++ miss 0

/-- A read of memory before the written-back data has arrived there. -/
def memRace : List Label :=
  [.start 0 (st0 1 7) r0] ++ miss 0 ++
  [.start 0 (ldAll 5) r0, .pick 0, .rxDbid, .wrDat, .snWr, .start 1 (ldAll 1) r0] ++ miss 1

/-- Direct cache transfer over directly connected sockets, with an enable array that happens to be zero. -/
def junkLoss : List Label :=
  [.start 0 (st0 1 7) r0] ++ miss 0 ++
  [.start 1 (st1 1 9) r0, .pick 1, .snoop 0, .resp 0 noBytes, .rxDat, .resume 1 r0, .ack,
   .start 1 (ldAll 1) r0]

/-! Each of these is a complete run of the code as modelled. -/

/-- Direct cache transfer: dirty data that comes back with `SnpRespData_SC_PD_Fwded_SC` is not written to
memory and both copies become clean, so the store is lost when they are given up
(/repo/tlm-modules/iconnect-chi.h:3068-3083). -/
theorem dct_loses_store : breaks cfgD dctLoss = true := by decide +kernel

/-- The same accesses without direct cache transfer: the store survives. -/
theorem without_dct_kept : fine cfgN
    ([.start 0 (st0 1 7) r0] ++ miss 0 ++ [.start 1 (ldAll 1) r0] ++ missFrom 1 0 ++
     [.start 0 (ldAll 5) r0, .pick 0, .rxDbid, .wrDat, .snWr, .memWrite, .resume 0 r0] ++ miss 0 ++
     [.start 1 (ldAll 1) r0]) = true := by decide +kernel

/-- Two upgrades of one shared line: the second CleanUnique completes by declaring the invalidated copy
valid (/repo/tlm-modules/private/chi/txns-rn.h:748-756) and the first store is lost. -/
theorem upgrade_race : breaks cfgD upgradeRace = true ∧ breaks cfgN upgradeRace = true := by decide +kernel

/-- A line-sized store with some bytes disabled asks for the line without data
(/repo/tlm-modules/cache-chi.h:341-355): the disabled bytes are lost. -/
theorem sparse_store_loses : breaks cfgD sparseLoss = true ∧ breaks cfgN sparseLoss = true := by decide +kernel

/-- Between the grant of a MakeUnique and the store, other caches are told that there is no data and read
old memory. -/
theorem grant_race : breaks cfgD grantRace = true ∧ breaks cfgN grantRace = true := by decide +kernel

/-- Between the grant of a CleanUnique, which makes the line clean, and the store, dirty data taken over by
the grant is dropped. -/
theorem clean_unique_race : breaks { cfgN with n := 3 } cleanUniqueRace = true := by decide +kernel

/-- The slave node answers a write before memory has it, and a read overtakes it
(/repo/tlm-modules/sn-chi.h). -/
theorem memory_race : breaks cfgD memRace = true ∧ breaks cfgN memRace = true := by decide +kernel

/-- Caches connected socket to socket: forwarded data comes with an uninitialised byte-enable array; when
that happens to be zero the requester keeps its old bytes. -/
theorem junk_enables_lose : breaks { cfgD with link := false } junkLoss = true := by decide +kernel

/-- Caches connected socket to socket: a ReadOnce answered from memory fails an assertion
(/repo/tlm-modules/private/chi/txns-rn.h:508-520). -/
theorem read_once_asserts : aborts { cfgN with link := false } (init zero)
    [.start 0 (ldAll 1) { load := 2 }, .pick 0, .memRead, .rxDat] = true := by decide +kernel

/-- Line `t` is dirty in both caches. -/
def bothDirty (cfg : Cfg) (t : Nat) (ls : List Label) : Bool :=
  match run cfg (init zero) ls with
  | some (s, _) => (List.range 2).all fun i =>
      let l := (s.cache i).slot (t % cfg.num)
      l.valid && l.tag == t && l.dirty
  | none => false

/-- A line that is shared after having been dirty is dirty in both caches: `HandleSnpClean` hands the dirty
data on and stays dirty itself (/repo/tlm-modules/cache-chi.h:895-905). Harmless here, but not allowed by
the protocol. -/
theorem two_dirty_owners : bothDirty cfgN 1
    ([.start 0 (st0 1 7) r0] ++ miss 0 ++ [.start 1 (ldAll 1) r0] ++ missFrom 1 0) = true := by decide +kernel

end Verif.ChiCoh
