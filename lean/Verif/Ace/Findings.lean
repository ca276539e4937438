import Verif.Ace.Props

/-!
# Where coherence is lost (C33)

Concrete schedules of requests outside `OpOk` after which a load returns something else than the
last value stored.  Two caches of two 4-byte lines (ports 0, 1), ACE-Lite masters (ports 2, 3).
-/

namespace Verif.Ace
namespace Bad

def cfg : Cfg := { lineSz := 4, slots := 2, masters := 2, wt := fun _ => false, split := false }
def cfgWt : Cfg := { cfg with wt := fun p => p == 1 }
def cfgSplit : Cfg := { cfg with split := true }
def mem0 : LineId → Mem := fun k o => BitVec.ofNat 8 (16 * k.1 + o)
def junk : Nat → Nat → Mem := fun _ _ _ => 0xEE

def fin (p : Nat) : List Action :=
  let once : List Action := [.snoop p 0, .snoop p 1, .final p, .ds, .final p, .ds, .resume p]
  once ++ once ++ once ++ once

/-- Whether all loads of a schedule saw the last store. -/
abbrev Fine (c : Cfg) (as : List Action) : Prop :=
  Consistent (fun k => mem0 (c.phys k)) (run c (init mem0 junk) as).log

end Bad

open Bad

/-- A line-sized store with some bytes disabled is done by MakeUnique, which fetches nothing
(cache-ace.h 1404-1408, 836-856): the disabled bytes become whatever was in the line buffer. -/
theorem sparse_store_corrupts :
    let as := [.start 0 (.store 0 [1, 2, 3, 4] [true, false, true, true] false)] ++ fin 0 ++
      [.start 1 (.load 0 4 [] false)] ++ fin 1
    ¬ Fine cfg as ∧ (run cfg (init mem0 junk) as).log.getLast? = some (.rd 1 (0, false) 3 4) ∧
    Ev.rd 1 (0, false) 1 0xEE ∈ (run cfg (init mem0 junk) as).log := by decide +kernel

/-- CleanInvalid of a line the cache itself holds dirty drops the line by Evict without writing it
out (cache-ace.h 859-904): the store is lost. -/
theorem clean_invalid_loses_store :
    let as := [.start 0 (.store 1 [0xA1] [] false)] ++ fin 0 ++
      [.start 0 (.maint .cleanInvalid 0 false)] ++ fin 0 ++ [.start 1 (.load 1 1 [] false)] ++ fin 1
    ¬ Fine cfg as ∧ Ev.wr 0 (0, false) 1 0xA1 ∈ (run cfg (init mem0 junk) as).log ∧
    Ev.rd 1 (0, false) 1 1 ∈ (run cfg (init mem0 junk) as).log := by decide +kernel

/-- A write-through cache does not update its own copy of the second line of a store that needs
WriteUnique there (cache-ace.h 511-546, `while (pos < len)`): it goes on reading the old value. -/
theorem write_through_stale_copy :
    let as := [.start 1 (.load 4 1 [] false)] ++ fin 1 ++
      [.start 1 (.store 0 [1, 2, 3, 4, 5, 6, 7, 8] [true, true, true, true, true, false, true, true] false)] ++
      fin 1 ++ [.start 1 (.load 4 1 [] false)] ++ fin 1
    ¬ Fine cfgWt as ∧ Ev.wr 1 (1, false) 0 5 ∈ (run cfgWt (init mem0 junk) as).log ∧
    (run cfgWt (init mem0 junk) as).log.getLast? = some (.rd 1 (1, false) 0 16) := by decide +kernel

/-- The interconnect orders transactions by byte range, but cleans by line: of two WriteUniques to
different bytes of a line that a cache holds dirty, the second clean (queued earlier, executed later)
overwrites the first update (iconnect-ace.h 846-862, 1539-1637). -/
theorem disjoint_write_uniques_race :
    let as := [.start 0 (.store 0 [1, 2] [] false)] ++ fin 0 ++
      [.start 2 (.store 2 [7] [] false), .start 3 (.store 3 [8] [] false), .snoop 2 0, .snoop 2 1, .snoop 3 0,
        .snoop 3 1, .final 3, .final 2, .ds, .ds, .final 2, .ds, .resume 2, .resume 3,
        .start 1 (.load 0 4 [] false)] ++ fin 1
    ¬ Fine cfg as ∧ Ev.wr 3 (0, false) 3 8 ∈ (run cfg (init mem0 junk) as).log ∧
    (run cfg (init mem0 junk) as).log.getLast? = some (.rd 1 (0, false) 3 3) := by decide +kernel

/-- A ReadOnce of a line can overtake the clean of the line by a WriteUnique to other bytes of it: it
finds the line neither in a cache nor up to date in memory. -/
theorem read_once_overtakes_clean :
    let as := [.start 0 (.store 0 [0xA0, 0xA1] [] false)] ++ fin 0 ++
      [.start 2 (.store 3 [7] [] false), .snoop 2 0, .snoop 2 1,
        .start 3 (.load 0 1 [] false), .snoop 3 0, .snoop 3 1, .final 3, .ds, .final 3, .resume 3]
    ¬ Fine cfg as ∧ Ev.wr 0 (0, false) 0 0xA0 ∈ (run cfg (init mem0 junk) as).log ∧
    (run cfg (init mem0 junk) as).log.getLast? = some (.rd 3 (0, false) 0 0) := by decide +kernel

/-- The write of dirty data by the interconnect carries default attributes, which say secure
(iconnect-ace.h 673-697, genattr.h 197): where memory keeps both worlds apart, a non-secure store goes
to the secure location. -/
theorem nonsecure_clean_goes_to_secure_memory :
    let as := [.start 0 (.store 0 [0xA0] [] false)] ++ fin 0 ++
      [.start 2 (.store 0 [1, 2, 3, 4] [false, true, true, true] false)] ++ fin 2 ++
      [.start 1 (.load 0 1 [] false)] ++ fin 1
    ¬ Fine cfgSplit as ∧ (run cfgSplit (init mem0 junk) as).mem (0, true) 0 = 0xA0 ∧
    (run cfgSplit (init mem0 junk) as).log.getLast? = some (.rd 1 (0, false) 0 0) := by decide +kernel

/-- The same requests within `OpOk` are fine: the secure world of the split memory. -/
example :
    Fine cfgSplit ([.start 0 (.store 0 [0xA0] [] true)] ++ fin 0 ++
      [.start 2 (.store 0 [1, 2, 3, 4] [false, true, true, true] true)] ++ fin 2 ++
      [.start 1 (.load 0 1 [] true)] ++ fin 1) := by decide +kernel

end Verif.Ace
