# Formal model of libsystemctlm-soc in Lean 4

## 1. What this is

`/verif/lean` is a Lake project holding an executable Lean 4 model of parts of
`/repo` (Xilinx/libsystemctlm-soc), together with theorems about that model.
The properties are listed in `properties.jsonl`; `MANIFEST.json` maps each one
to theorem names and says whether it is proved, partly proved, or violated by
the code (in which case a concrete witness is proved and the part that does
hold is proved as a `_partial` theorem).

Layout (one directory per modelled component):

| directory | models | property theorems |
|---|---|---|
| `Verif/Base` | bytes, TLM generic payload, reference memory target | - |
| `Verif/<Comp>/Model.lean` | the C++ code, function by function | - |
| `Verif/<Comp>/Spec.lean` | a small independent specification, where one is needed | - |
| `Verif/<Comp>/Lemmas.lean` | helper lemmas | - |
| `Verif/<Comp>/Props.lean` | - | the property theorems and their non-vacuity examples |

## 2. Trusted base

* Lean 4.33.0's kernel.
* Axioms: at most `propext`, `Classical.choice`, `Quot.sound` (checked with
  `#print axioms`); no axiom of our own, no `sorry`, no `native_decide`, no
  `bv_decide`, no compiler-trusting attribute.
* The transcription of C++ into Lean definitions, which is by hand. Every
  definition cites the file and lines it transcribes and says what it leaves
  out. Nothing in `/repo` was built or run.
* SystemC semantics that a model relies on: `sc_signal` writes become visible
  in the next delta cycle, `b_transport` is a blocking call, `sc_bv` is
  zero-initialised and truncates on assignment. Process order within one delta
  is *not* assumed: where it matters it is a parameter of the step function.

## 3. Conventions

* Bytes are `BitVec 8`. Machine integers are `BitVec n` when wrap-around or bit
  patterns matter, and `Nat` with explicit `% 2^n` or an explicit range
  hypothesis otherwise.
* A failed `assert`, `abort`, `SC_REPORT_FATAL`, out-of-bounds access or other
  undefined behaviour is a distinct outcome of the model function (usually
  `none` / `Except.error`), never silently totalised.
* Simulation time, `wait()` on clocks and `printf` are dropped except where the
  property is about them.
* A property that the code violates is recorded in section 5 with the witness
  theorem.

## 4. Plan per property

| id | model | proof |
|---|---|---|
| C01 | byte-level encoders and `rp_decode_hdr`/`rp_decode_payload` over byte lists | round trip by list-append lemmas for big-endian integers, both layouts |
| C02 | same, hello/interrupt/sync/ATS | round trip; induction on the capability list |
| C03 | `rp_process` packet reader as a stream parser | induction over the packet list |
| C04 | loop over an oracle list of kernel results | induction over the oracle |
| C05 | `rp_process_caps` fold, `rp_encode_busaccess` layout choice | induction over the capability list |
| C06 | slot table as a state machine (issue / response / done) | invariant by induction over operations |
| C07 | memory slave and master `b_transport`/`cmd_*` composed through the codec of C01 | equality with the reference TLM target semantics |
| C08 | `wire_update` packet list, `interrupt_action` fold | induction over histories |
| C09 | `account_time` on naturals | arithmetic |
| C10 | aligner loop producing sub-accesses | induction on remaining length; equality with the reference TLM target |
| C11 | same | invariant over the chunk list |
| C12 | expander's two accesses | equality with a pointwise wrapping specification |
| C13 | monitor state machine | invariant over histories; the "overlap from below" case is expected to fail |
| C14 | `memmap`/`map_address`/`b_transport` | case analysis; the inclusive upper bound is expected to fail |
| C15 | `unmap_offset`, DMI translation | arithmetic on 64-bit words |
| C16 | attribute record and `copy_from` | record equality; one attribute is expected to fail |
| C17 | `reg_access`, `reg_reset_all` | bitwise extensionality |
| C18 | table, `crc32` loop | table = bit-serial by kernel evaluation of the whole 256-entry table; induction over messages; linearity and LFSR injectivity for bursts |
| C19 | mask/field helpers, buffer/bit-vector conversions | bitwise extensionality |
| C20 | transmit nibble stream, receive state machine | induction over packets |
| C21 | transmit column stream, receive state machine | induction over packets |
| C22 | beat generator and collector | induction over bytes and packets |
| C23 | `prepare_wbeat` loop | induction over beats, lane arithmetic |
| C24 | `read_resp_phase` unpacking | induction over beats, lane arithmetic |
| C25 | `Transaction` constructor and `FillData` | induction over beats; narrow bursts are expected to fail |
| C26 | `GetData` | same |
| C27 | translation tables | exhaustive case analysis over the enumerations |
| C28 | pending-transaction lists | refinement to per-id queues |
| C29 | two-endpoint clocked system with both process orders | invariant by induction over cycles |
| C30 | field packing at a running bit position | bit-vector round trip, parametric widths |
| C31 | free list | invariant over histories |
| C32 | TLP packing into flits and the assembler | induction over flits |
| C33 | caches, interconnect and ACE-Lite ports at the granularity of process segments between waits (`Ace/Model`) | invariant of one line (`Ace/View*`) preserved by every segment (`Ace/Steps*`), requests as in `Ace/Spec` |
| C34 | engine loop over memory | induction on length |
| C35 | descriptor loop | induction on the chain |
| C36 | statistics counters, FCS | arithmetic, CRC results of C18 |
| C37 | fold over ports | induction |
| C38 | cycle-level state machine | induction over wait states |
| C39 | bus cycle generator | induction; unaligned and non-multiple lengths are expected to fail |
| C40 | byte loop | equality with the reference TLM target |
| C41 | message generator, responder | induction; command-word bit fields |
| C42 | generator functions over an arbitrary random stream | arithmetic |
| C43 | copy helpers | case analysis |
| C44 | receive buffer with leftovers, bounds of every access | case analysis on the decoder, independence of the buffer's old contents |
| C45 | the model of C33 | wait-for invariant (`Ace/Core`, `Ace/Serve`) and a decreasing measure (`Ace/Progress*`) over every schedule (`Ace/Served`) |
| C46 | byte lanes of both AXI4-Lite bridges; their threads as transition systems with queues | composition with C10 for the data; invariants over every schedule for order, counts and reset |
| C47 | monitors of one channel, handshake counters, read and write transaction lists, address and strobe checks of the AXI checker | equivalence with small protocol rules by induction over traces; arithmetic for lanes and pages |
| C48 | packets built and parsed by the TLP bridge, completions, DMA, and the bridge as a transition system of calls, packets and steps | comparison with packet fields read from the link bytes; invariant relating state and log over every schedule |
| C49 | the QDMA device: registers, contexts, descriptor loop, status, interrupt rings, strobes; both generations | comparison with a ring walk and descriptor semantics of their own; induction over histories of register accesses, memory changes and resets |
| C50 | n CHI caches, the interconnect's home node with snoop filters and request orderer, the slave node; one step per process segment or message | an invariant over all interleavings (equal copies, exclusive writers, filters cover holders, current data is somewhere), simulated by a flat memory with start, effect and end of each access |
| C51 | the system of C50 | an invariant of all reachable states (which transaction waits for what in which phase), a measure of what is left that some step of the home node, a cache or the slave node always lowers, and from it a schedule to the end of each access |
| C52 | `sn-chi.h`: request classification, retry, the response phase, data assembly, reads, writes, the four kinds of atomic with their operations and endianness | runs as sequences of events; each request against a specification over `BitVec`; refinement of the run to a sequential service; counting for exactly once; a measure for progress |
| C53 | `cache-chi.h` dispatch, non-shareable regions and atomics, the RN transactions' buffers, the home node's copy, the slave node of C52 | the composed functions computed in closed form and compared with the reference memory access and a `BitVec` specification of atomics |
| C54 | `axi2tlm-hw-bridge.h` `process_desc_free`: buffer rearrangement, payload, wrap expander (C12), bounce buffer, response register; the hardware's side as a contract read from the RTL | a beat-by-beat layout (`Geo`) shown for each burst type, an invariant of the in-place moves, and refinement to the AXI byte-lane specification of `Axi/Spec` |
| C55 | `tlm2axi-hw-bridge.h` `b_transport`, `desc_access`, `desc_setup_wstrb`, `compute_attr`, `configure_aligner`; `dev_copy_from`; the aligner (C10, C11); the hardware's side as a contract read from the RTL | strobe words bit by bit (C19); descriptor shapes of naturally aligned accesses; refinement to the AXI specification of `Axi/Spec` for one access, and a simulation through the aligner for all |
| C56 | `hsc.cc` `plain_input_stream_b_transport`, `encrypted_input_stream_b_transport`, `reset_thread`; buffers with uninitialised bytes, copies that may leave them | exact output of both streams for any whole frame (fill lemmas for copy and masking loop), then round trips; invariant over histories for the byte counters |
| C57 | `hsc.cc` `user_if_b_transport`, `reg_indirect_access`, the flat key arrays; CRC-32 of C18 | refinement of access sequences to a register file with a key table; non-interference of the keys with every answer |
| C58 | `tlm2vfio-bridge.h` `b_transport`, `get_direct_mem_ptr`, `tlm_mm_vfio`, `irq_ack`/`irq_poll`/`irq_proxy` as steps of an interleaving machine with the kernel's INTx mask and event descriptor (assumed from the VFIO interface; reads of the descriptor succeed; the unlocked read of `irq_val` is taken as atomic) | accesses against the byte-memory reference using C43; inductive invariants ("a masked interrupt is on its way or shown"), a decreasing measure for settling |
| C59 | `snoop-channels.h` `ACESnoopChannels_S` connected to `ACESnoopChannels_M`: queues between the threads, atomic handshakes, any interleaving, ghost history | inductive invariant pairing the i-th snoop sent with the i-th answer; permutation for "each once"; measure for termination |
| C60 | the overlap list and the locks with the response phases of `axi2tlm-bridge.h`; counts of the master side under reset; DVM counter | inductive invariants over an interleaving machine; witnesses and closure arguments for the failures |
| C61 | `ccixport.h` `CCIXReq`: opcode tables, attributes, `CopyData`/`GenerateData`, both directions; composed with `Verif.Cxs` | case tables over all opcodes by kernel evaluation, placement lemmas for all addresses and lengths, composition with C32 |
| C62 | `ccixport.h` `CCIXResp`, `CCIXSnpReq`, `CCIXSnpResp`: data placement and state tables | as C61; demand table written independently from the CHI specification |
| C63 | `iconnect-chi.h` snooping and snoop filter with CCIX ports, `ccixport.h` snoop handling on the answering chip | interleaving machine, inductive invariant and measure; witness runs |
| C64 | `ccixport.h` `CCIXLink` credits (32-bit counters) and write entries | balance invariants over an interleaving machine; witness runs |
| C65 | `tlm2ace-hw-bridge.h` burst setup, descriptors, `push_wdata_wstrb`, responses; `ace2tlm-hw-bridge.h` `Transaction`, `pop_*`, read replies, responses; attribute fields of `ace/tlm` register headers; the hardware from its RTL (`ace_mst_inf.v`, `ace_slv_inf.v`, `ace_ctrl_valid.v`) | bit-level lemmas for the registers; byte placement against the burst equations of `Verif.Axi` for all sizes; witnesses for the rest |
| C66 | `tlm2ace-hw-bridge.h` `address_phase`, `LookupAxID`, response phases; `ace2tlm-hw-bridge.h` `read_data_phase`, `RunTLMTransaction`, acknowledgement events; `ace-slv-snp-chnls.h` `push_on_ac_ch`, `ACELock` | interleaving machines with the hardware; invariants, a measure for progress, witness runs for the failures |
| C67 | `remote-port-tlm-ats.cc`, ATS packets of `remote-port-proto.c`, dispatch in `remote-port-tlm.cc`, `atsattr.h` | composition of the packet round trip (C02) with an arbitrary translating peer; which call a response goes to is C06 |
| C68 | `chi2tlm-hwb-rnf.h`, `tlm2chi-hwb-rnf.h`, `chi-regs.h`; registers and descriptor memories after `chi_register_interface.v`, `chi_txflit_mgmt.v` | words and bytes of a flit as digits; address decoder over its finite table; interleaving machines for sending and receiving with invariants over a ring of 15 ownership bits, and measures for progress |
| C69 | `tg-tlm.h`, `traffic-desc.h`, `data-transfer.h` | induction over the list of transfers, for any target; a memory as target refines to a replay of the script; threads as an interleaving machine with invariants |
| C70 | `config-parser/parser.cc`, `deserializer.cc` between documents and transfers; the JSON text (rapidjson) and the list of random parameters are not modelled, regular expressions are by hand | positional notation as an inductive relation; texts of arrays by induction over tokens; completeness as a table of members; finite tables by the kernel |
| C71 | `tlm2cxs-hw-bridge.h` as processes interleaving at register accesses, with the descriptor memories, ownership registers and flags of `cxs_register_interface.v`, `cxs_txflit_mgmt.v`; link activation, credits and clock cycles are not modelled | one invariant for each direction (ring of descriptors as in C68, how the news of a sent packet travels); progress by explicit moves; C32's pieces say what the flits mean |
| C72 | `checkers/checker-ace.h`: read, write, snoop, barrier, acknowledge and snoop-data checks as functions of the handshakes of each cycle; the AXI lanes of C47; messages, the handshake check (see C101) and reset of the write and snoop parts are not modelled | each check is refined to a specification over events: reads by projecting on identifiers, writes by one queue of open writes, snoops by counting, barriers by position in the two channels, acknowledgements by counting, snoop data by the lines the completed transactions leave in the cache |
| C73 | `checkers/checker-chi.h`, `checkers/flits-chi.h`: the checks of request fields, opcodes, link credits, transaction structure and retried requests as functions of the flits of each cycle; messages and reset are not modelled | request fields against a table with one row for each opcode; credits by counting; transactions refined to a specification in which each request and snoop carries the set of answers it may still get; retried requests by a relation with credits granted and requests waiting, and by an invariant over the history |
| C74 | `rtl-bridges/pcie-host/axi/rtl/slave/addr_allocator.v`, `ace/rtl/slave/ace_addr_allocator.v`: all registers and the three state machines (serve, allocate, release), one step for each clock edge, for any address width; parameters of the two copies as a configuration | a ledger of the pieces handed out is kept beside the hardware; an invariant ties the linked list of nodes to the ledger in address order in every state of the three machines, and is preserved by every cycle |
| C75 | `rtl-bridges/pcie-host/axi/rtl/common/sync_fifo.v`: all registers, one step for each clock edge, memory with unknown contents, for any depth and element type | an invariant ties pointers, counter, flags and memory to a list; every cycle preserves it |
| C76 | `rtl-bridges/pcie-host/axi/rtl/common/descriptor_allocator_uc_master.v`: all registers, one step for each clock edge; its FIFOs are the queues of C75 | books count how often each descriptor is given and handed out; an invariant equates the difference with its places in pending bits and FIFOs; a measure shows that waiting ends within 32 cycles |
| C77 | the transmit side of a channel of the CHI and CXS RTL bridges: `chi_txflit_mgmt.v`, both credit managers, the flit RAM, the ownership flip registers and the wire registers of `chi_channel_if.v` and `cxs_channel_if.v`, one step for each clock edge; the state of the link is an input | an invariant ties owned places, flip bits and the state machine to the flits given and sent; a measure bounds the time to send; the credit books are a second invariant, under any link state |
| C78 | the receive side of a channel of the CHI and CXS RTL bridges: the wire registers, the write address and RAM, the ownership and flip registers, the give-back counter, low power and both credit managers with refill, one step for each clock edge; the state of the link is an input | an invariant ties the owned places and fresh flip bits to parts of the ring, and credits, give-back counter and credits given back to the flits sent and taken; a measure bounds the time to grant |
| C79 | the link state machines of `chi_channel_if.v` and `cxs_channel_if.v` with the registers of their wires, one step for each clock edge; the credits are inputs | invariants over histories of any length; a step keeps them for each of the finitely many states and inputs, which the kernel goes through as a whole |
| C80 | the store of AXI IDs `axid_store.v` with its grant controller, the machine of `descriptor_allocator_uc_master.v` which takes the next descriptor and the registers of `axi_master_control.v` which put it on the bus, one step for each clock edge | an invariant ties each FIFO to the requests in flight of its ID, with the last request in one of four phases and the pipeline of valid flags dated by the cycles since; a second invariant of the machine before it gives the spacing |
| C81 | the interrupt handlers of the CHI and CXS RTL bridges and the status and clear registers behind them, one step for each clock edge | an invariant over histories: a clear bit is set only in the cycle after its write and then with its status; inductions over histories for the line and the edges |
| C82 | how the AXI RTL slave bridge takes a request: `txn_allocator.v` but for the address allocators, the grant controller, the channel state machines and the descriptor fields of `slave_inf.v`, one step for each clock edge | an invariant counts every descriptor given over the stages where it can be, and another ties fields to requests; a measure bounds the time to acceptance |
| C83 | the write data path of the AXI RTL slave bridge: the two FIFOs, `wready`, the state machine, the write port of the RAM, the announcement and the error status, one step for each clock edge | an invariant ties each state of the machine to a split of the beats into bursts paired with the requests in order; a measure bounds the time until all is written |
| C84 | the FIFOs of descriptors by ID of the AXI RTL slave bridge, with their memories, and the search for the descriptor answered, one step for each clock edge | an invariant ties the FIFOs to the histories of requests and responses of each ID; a measure bounds the time of the search |
| C85 | the FIFO of the order with its memory, the FIFOs of indices and of responses, the state machine of the B channel, one step for each clock edge | an invariant says that order entries not yet responded for are, in order, what the stages hold; a measure bounds the time to the channel |
| C86 | the FIFO of indices, the state machine which reads the RAM, the registers of the RAM and of the synchronizers, the FIFO of beats, the state machine of the R channel, one step for each clock edge | an invariant says that the words not yet taken are, in order, what the stages hold, and that the FIFO has a place for each word on the way; a measure bounds the time to the channel |
| C87 | the FIFO of pushes with its memory, its registers, and from the second FIFO on the circuit of C86 with the other threshold, one step for each clock edge | the part behind the first FIFO sees a history for which C86 holds, with the invariant of C86 proved for both thresholds; an invariant says that the bursts not yet there are, in order, what the first FIFO holds |
| C88 | the FIFO of finished responses, the counter of acknowledges, the pulses and the status register on top of the channel of C87, one step for each clock edge | invariant: the responses finished are those completed, the one just read, those in the FIFO and the one being written, in this order; acknowledges = completions + those on the way + the counter; the indices in use are distinct, so that neither the FIFO nor the counter runs over |
| C89 | the receiving channels without data of `ace_ctrl_ready.v` with the descriptor allocator and the grant controller, one step for each clock edge | invariant: accepted = seen + written and not seen + in work + in the FIFO + being pushed, in this order; every descriptor given and not seen is in exactly one place; progress by a rank over both paths |
| C90 | the two threads of `ACESnoopChannels_M` with their list, FIFO and rings of descriptors, in events of one register access, and the hardware which sends | invariant: the answers are those sent, those in the ring and the one in work, in order, for responses and lines apart; the descriptor being written is not in the ring; a rank for progress, and completeness when nothing more can happen |
| C91 | `pop_cr`, `pop_cd_descriptor`, `pop_cd`, `handle_cd`, `reset` of `ACESnoopChannels_S` as the thread of the bridge calls them, with callers and hardware interleaved | invariant: the snoops are, in order, those ended and those in each queue, and the lines likewise over the descriptors in use; a rank for progress, completeness when the thread has nothing to do; a closed set of states for the deadlock |
| C92 | the whole of `bp-ace.h`: callers, the thread of the first barrier and its event, with answers from downstream in any order | invariant over histories: what returned is what the answers and pairs say; a closed set of states in which no barrier returns |
| C93 | both interrupt threads of the XDMA, the vector, the signals, the acknowledge | invariant over histories: the acknowledges are the changes of the signals; a closed set of states for what is lost |
| C94 | both directions of a CXS link with their credits: the port state machines at both ends, and the threads which send, grant and return credits (the port state machine of CHI has the same text) | invariant for the credits, ranks which fall at each edge for going down and coming up; a closed orbit for the link which never comes up |
| C95 | the trackers of DVM Syncs, the list of them, and the threads which send the answers | refinement: the list is the Syncs still to be completed by a matching defined on the history of Syncs and Completes alone |
| C96 | exclusive loads and stores in the write-back ACE cache with its monitor, and the monitor of the interconnect | invariants over histories: copies are fresh, a set monitor has a copy nobody else wrote; counterexamples |
| C97 | exclusive loads and stores in the CHI cache with its monitor, and the exclusive monitor and routing of the CHI interconnect | invariants over histories; the interconnect's list is refined to a rule on the history of requests; counterexamples |
| C98 | how the descriptor of a remote-port connection is taken apart, and the loop over the addresses of a name | induction over the strings and the list of addresses; counterexamples for all strings of a kind |
| C99 | the CHI interconnect's address map, and the non-shareable regions of the ACE cache with the lines it holds | induction over the list of regions; invariant over all sequences of accesses (no line held meets a region); counterexamples for all regions of a kind |
| C100 | how the CHI cache cuts loads and stores into lines, which bytes each step copies and by how much it goes on | induction over the steps for all addresses, lengths, byte enables and choices of way; counterexamples for all stores of a kind |
| C101 | the checker's monitors of AC, CR and CD and its two 32-bit counts of what is owed | counts proved equal modulo 2^32 to what the signals show, over all histories; reports then characterised exactly; counterexamples for all limits |

## 5. Findings: properties the code violates

Each line is proved by the theorem named; what does hold is proved by the other
theorems of the property (see `MANIFEST.json`).

| id | what goes wrong | theorem |
|---|---|---|
| C01 | a master id above 16 bits is truncated by the decoder | `RP.bus_master_id_lost` |
| C01 | the old layout asserts on master id 0xffff | `RP.bus_old_rejects_master_ffff` |
| C02 | the ATS timestamp is not converted to network order | `RP.ats_timestamp_swapped` |
| C03 | byte enables behind an old-layout packet break framing | `RP.old_layout_byte_enables_break_framing` |
| C05 | a second hello is an assertion failure | `RP.second_hello_asserts` |
| C07 | byte enables are refused by one side and written as data by the other | `RPMem.byte_enables_refused`, `RPMem.byte_enables_written_as_data` |
| C07 | a posted read returns nothing; `TLM_IGNORE_COMMAND` breaks framing | `RPMem.posted_read_gets_nothing`, `RPMem.ignore_command_breaks_stream` |
| C08 | acknowledged mode loses updates; the initial value is never sent | `RPWires.acknowledged_mode_loses_updates`, `RPWires.initial_value_not_sent` |
| C09 | untimed synchronisation can run backwards, the loosely timed one can stall | `RPTime.untimed_runs_backwards`, `RPTime.loose_no_progress` |
| C11 | zero length and too narrow buses | `Aligner.zero_length_incomplete`, `Aligner.narrow_bus_asserts` |
| C12 | the one-access case does not rotate the data | `WrapExpander.one_access_not_rotated` |
| C13 | a store overlapping from below does not clear the reservation; success is not reported | `Exmon.overlap_from_below_missed`, `Exmon.initiator_cannot_tell` |
| C14 | inclusive upper bound, top region, unmapped addresses, uninitialised entries, changed address, debug result | `Iconnect.adjacent_region_misrouted`, `Iconnect.top_region_unreachable`, `Iconnect.unmapped_reaches_target_zero`, `Iconnect.miss_reads_uninitialised`, `Iconnect.address_not_restored`, `Iconnect.debug_reports_nothing` |
| C15 | DMI refusal is fatal, initiator offset ignored, wrong region, wrong offset on invalidation | `Iconnect.refused_dmi_is_fatal`, `Iconnect.dmi_ignores_initiator_offset`, `Iconnect.dmi_wrong_region`, `Iconnect.invalidate_wrong_offset` |
| C16 | `copy_from` drops IO access; setters without argument clear | `Genattr.copy_loses_io_access`, `Genattr.argless_setter_clears` |
| C17 | any write clears all write-one-to-clear bits; clear-on-read bits are never seen; deposits spill | `Regapi.any_write_clears`, `Regapi.write_zero_clears`, `Regapi.clear_on_read_never_seen`, `Regapi.deposit_spills` |
| C20 | the default frame check sequence is not removed; frames over 8 KiB overrun | `Mii.default_not_identity`, `Mii.overrun` |
| C21 | fast path overrun; length of a runt frame wraps | `Xgmii.fast_path_overrun`, `Xgmii.runt_wraps` |
| C22 | a packet ending inside a beat corrupts the next; an empty end is lost; a blocking target loses beats | `Axis.mid_beat_flush_corrupts`, `Axis.empty_end_lost`, `Axis.blocking_target_loses_beats` |
| C23 | burst wider than the bus; fixed bursts; odd widths; 32-bit overflow of the beat count | `Tlm2Axi.wide_burst_protocol_error`, `Tlm2Axi.fixed_enables_ignored`, `Tlm2Axi.fixed_unaligned_misplaced`, `Tlm2Axi.fixed_wide_beats_mismatch`, `Tlm2Axi.fixed_narrow_misplaced`, `Tlm2Axi.odd_width_misplaced`, `Tlm2Axi.huge_length_accepted` |
| C24 | errors of earlier beats are ignored; narrow wrapping reads | `Tlm2Axi.earlier_errors_ignored`, `Tlm2Axi.narrow_wrap_misplaced` |
| C25 | narrow write beats are lost | `Axi2Tlm.narrow_beats_lost` |
| C26 | narrow wrapping reads use the wrong lanes | `Axi2Tlm.narrow_wrap_lanes` |
| C27 | most error responses become OKAY; exclusive success is lost | `AxiResp.axi2tlm_hides_errors`, `AxiResp.exokay_lost`, `AxiResp.exokay_forwarded_as_okay` |
| C28 | interleaved read beats are given to the wrong transaction; barriers make a transaction run twice | `AxiOrder.Master.interleaved_beats_misattributed`, `AxiOrder.Slave.barriers_break_exactly_once` |
| C29 | a reset loses credits; fifteen stop the link | `ChiLink.reset_loses_credit`, `ChiLink.resets_deadlock_link` |
| C30 | undefined shifts for real address widths, lengths, buffers and flits overrun, second flit asserts, enables misplaced, RSVDC truncated | `ChiFlit.req_wide_address_undefined`, `ChiFlit.req_address_truncated_modulo32`, `ChiFlit.req_odd_length_becomes_one`, `ChiFlit.dat_reads_past_buffer`, `ChiFlit.dat_writes_past_flit`, `ChiFlit.dat_second_flit_asserts`, `ChiFlit.dat_multi_flit_fails`, `ChiFlit.dat_enables_behind_data`, `ChiFlit.dat_rsvdc_truncated` |
| C31 | two waiters or a barging getter take from an empty list; double return | `ChiIds.two_waiters_one_id`, `ChiIds.barging_getter`, `ChiIds.double_return_duplicates` |
| C32 | addresses with bits 32-39 or 52-63 assert; 8-byte partial writes; odd and long data; snoop cast; overlapping fields; payload size; chained requests; message length 0; many packets per flit; reset | theorems of `Verif/Cxs/Findings.lean` |
| C33 | line-sized store with disabled bytes leaves garbage in them; CleanInvalid of an own dirty line loses the store; write-through copy of a second line goes stale; WriteUniques to different bytes of a dirty line race; ReadOnce overtakes a clean; non-secure dirty data is cleaned to the secure world | `Ace.sparse_store_corrupts`, `Ace.clean_invalid_loses_store`, `Ace.write_through_stale_copy`, `Ace.disjoint_write_uniques_race`, `Ace.read_once_overtakes_clean`, `Ace.nonsecure_clean_goes_to_secure_memory` |
| C34 | overlap, rewriting the length in flight, uninitialised start, ignored read errors, register overrun, ignored control bits | `Cdma.overlap_above_corrupts`, `Cdma.rewrite_underflows`, `Cdma.uninitialised_start`, `Cdma.read_error_ignored`, `Cdma.register_overrun`, `Cdma.control_ignored` |
| C35 | descriptors over 128 KiB, stale status, channel 16, lost wake-up, dropped packet overwrites, long packet | `Mcdma.long_descriptor_overruns`, `Mcdma.stale_status_bits`, `Mcdma.channel16_never_starts`, `Mcdma.lost_wakeup`, `Mcdma.dropped_packet_overwrites`, `Mcdma.long_packet_asserts` |
| C36 | byte counters, short frames, buffer overflow by the FCS, FCS deletion, short received frames, third frame, tick register, wide accesses | `Mrmac.byte_counters_do_not_saturate`, `Mrmac.short_frame_prefixes_next`, `Mrmac.fcs_overflows_buffer`, `Mrmac.delete_fcs_has_no_effect`, `Mrmac.short_received_frame_outside`, `Mrmac.third_frame_lost`, `Mrmac.any_access_ticks`, `Mrmac.wide_register_access_overruns` |
| C37 | a target that leaves the status unset shows its predecessor's | `Splitter.unset_status_hidden` |
| C38 | setup phase lengthened by the delay; ignore command reads; narrow bus | `Apb.long_setup`, `Apb.ignore_reads`, `Apb.narrow_bus_drops_bytes` |
| C39 | buffer overrun, unaligned and crossing accesses, ignored attributes, partial selects, big-endian selects | `Wishbone.overrun_iff`, `Wishbone.unaligned_write_wrong`, `Wishbone.unaligned_read_wrong`, `Wishbone.crossing_read_wrong`, `Wishbone.attributes_ignored`, `Wishbone.partial_select_writes_all`, `Wishbone.big_endian_select_mismatch` |
| C40 | wrapping range check; ignore command writes; size 0 | `Native.wrapping_access_unchecked`, `Native.ignore_writes`, `Native.unsized_unchecked` |
| C41 | empty access, requests lost while the target is busy, wide writes, master id | `Umi.empty_access_asks_for_bytes`, `Umi.request_lost_while_target_busy`, `Umi.wide_write_faults`, `Umi.master_id_shifts` |
| C42 | the mask leaves the window, divisions by zero, empty initialisation, last write not read back | `Traffic.mask_leaves_window`, `Traffic.zero_length_divides_by_zero`, `Traffic.max_length_divides_by_zero`, `Traffic.init_4g_empty`, `Traffic.last_write_not_read` |
| C43 | odd and misaligned accesses use `memcpy`; big-endian hosts read zeros | `DevAccess.odd_lengths_bulk`, `DevAccess.big_endian_reads_zero` |
| C44 | unchecked capability offset, device number, read-response offsets, wrapping enables, leftovers of earlier packets | `RPBounds.hello_capabilities_outside`, `RPBounds.unknown_device_outside`, `RPBounds.short_read_response_outside`, `RPBounds.byte_enables_wrap`, `RPBounds.short_packet_uses_leftovers` |
| C46 | word-crossing accesses without the aligner, short or zero streaming width; reset while write data is on the bus | `AxiLite.crossing_write_truncated`, `AxiLite.crossing_read_hangs`, `AxiLite.streaming_write_truncated`, `AxiLite.zero_streaming_width_asserts`, `AxiLite.Ctl.data_reset_hangs` |
| C47 | stability and release of back-to-back transfers, bursts that are too long, fixed bursts over 16 beats and reserved burst types, error responses to writes in the default configuration, AXI3 data order and AXI3 missing responses go unreported; legal strobes of narrow wrapping and unaligned fixed bursts and more reads than the depth are reported wrongly | `PcAxi.back_to_back_unchecked`, `PcAxi.release_unchecked`, `PcAxi.long_burst_unreported`, `PcAxi.fixed_length_unchecked`, `PcAxi.default_ignores_write_errors`, `PcAxi.axi3_order_unchecked`, `PcAxi.axi3_response_not_expected`, `PcAxi.same_cycle_answer_accepted`, `PcAxi.narrow_wrap_strobes_wrong`, `PcAxi.unaligned_fixed_strobes_wrong`, `PcAxi.too_many_reads_false_alarm` |
| C48 | writes of 1 to 3 bytes overwrite their word, in the wrong place when unaligned; longer writes that are not whole words read past the buffer; byte enables on several words, wide identifiers and more than 4096 bytes fail assertions; reads of more than one word abort on a full completion and are zero-filled on a split one; unaligned reads lose bytes; refused configuration writes are reported OK; the kept header stays byte-reversed; device writes ignore byte enables, 10-bit tags and the lower address are lost | `Tlp.short_write_clobbers`, `Tlp.long_write_overreads`, `Tlp.enabled_write_asserts`, `Tlp.wide_ids_assert`, `Tlp.huge_asserts`, `Tlp.long_read_aborts`, `Tlp.split_completion_zero_fills`, `Tlp.unaligned_read_short`, `Tlp.refused_conf_write_ok`, `Tlp.unrestored_completion`, `Tlp.dma_write_ignores_enables`, `Tlp.long_tag_lost`, `Tlp.lower_address_zero`, `Tlp.short_completion_overreads`, `Tlp.prefix_null_write` |
| C49 | byte counts that are not multiples of four copy up to three bytes too many; interrupt entries hold only 12 bits of the producer index; the doorbell of the non-existent queue 2, interrupt-context commands for rings above 1, vectors above 7 and accesses behind the last register go outside arrays; 8- and 16-byte descriptors use an unread destination; a consumer index outside the ring is walked from; the enable bit is ignored; byte accesses always use byte 0 and clear the rest; CPM4 entries carry stack contents; requests during a strobe are lost | `Qdma.one_byte_writes_four`, `Qdma.entry_pidx_truncated`, `Qdma.queue2_oob`, `Qdma.irq_command_oob`, `Qdma.bad_vector_oob`, `Qdma.register_oob`, `Qdma.user_oob`, `Qdma.short_descriptor_uninit`, `Qdma.stale_cidx_leaves_ring`, `Qdma.disabled_queue_runs`, `Qdma.byte_read_low`, `Qdma.byte_write_clears`, `Qdma.cpm4_entry_junk`, `Qdma.strobe_merged` |
| C50 | with direct cache transfer (on by default) dirty data forwarded as SC_PD is never written to memory and stores are lost; a CleanUnique that was invalidated while outstanding completes on stale data; between a MakeUnique or CleanUnique grant and its store the line's data is nowhere; a slave-node read overtakes an acknowledged write; a line-sized store with disabled bytes drops them; socket-to-socket connections forward uninitialised byte enables and fail an assertion on ReadOnce; two caches can own a line dirty | `ChiCoh.dct_loses_store`, `ChiCoh.upgrade_race`, `ChiCoh.grant_race`, `ChiCoh.clean_unique_race`, `ChiCoh.memory_race`, `ChiCoh.sparse_store_loses`, `ChiCoh.junk_enables_lose`, `ChiCoh.read_once_asserts`, `ChiCoh.two_dirty_owners` |
| C51 | two caches that store to one line can each be granted the line and lose it to the other before their CPU side runs, for ever (needs the waking of the CPU process to be slower than the other cache's whole request); a ReadOnce served from memory fails an assertion when nodes are connected without links | `ChiLive.stores_can_starve`, `ChiLive.no_link_fails` |
| C52 | AtomicStore and AtomicLoad with EOR, SET, SMAX, SMIN, UMAX or UMIN do nothing: the enumerators are written `010` … `111` and mean octal 8, 9 and decimal 100 to 111, while the code switches on the three opcode bits (and UMIN would call UMAX) | `ChiSn.eor_lost`, `ChiSn.other_ops_do_nothing` |
| C52 | a read of less than a line either copies past the request's buffer or returns uninitialised bytes marked valid | `ChiSn.narrow_read_undefined`, `ChiSn.narrow_read_leaks` |
| C52 | a write is acknowledged with CompDBIDResp before its data is there, and later reads are not held back: they return the old data | `ChiSn.comp_write_overtaken` |
| C53 | a write to a non-shareable region, or a store issued as WriteUnique, that crosses a line from an unaligned address loses the bytes beyond the line: the loop moves on by up to 64 bytes although only `64 - offset` were sent | `ChiRn.write_tail_lost`, `ChiRn.write_exact` |
| C53 | the endianness attribute of an atomic is dropped by the cache and the home node: big-endian adds are done little endian | `ChiRn.endian_ignored`, `ChiRn.big_endian_add_wrong` |
| C53 | an atomic to a non-shareable region is done as a plain access or not at all; the home node snoops only for sub-opcode 0 of atomic stores and loads; a direct connection fails an assertion on reads | `ChiRn.region_atomic_lost`, `ChiRn.atomics_not_snooped`, `ChiRn.direct_read_asserts` |
| C54 | a wrapping burst shorter than the data bus is taken from, and returned on, the wrong lanes: the next lane is computed by running on instead of wrapping | `HwSlave.short_wrap_write_wrong`, `HwSlave.short_wrap_read_wrong` |
| C54 | single-beat reads, and unaligned fixed bursts, read more bytes from the target than the burst asks for | `HwSlave.narrow_read_overreads`, `HwSlave.fixed_read_overreads` |
| C54 | the exclusive-handled flag stays set in a descriptor's recycled payload, so later ordinary accesses answer EXOKAY | `HwSlave.stale_exokay` |
| C55 | the security attribute is sent inverted: secure accesses go out with `AxPROT[1]` (non-secure) set and non-secure ones without | `HwMaster.security_inverted`, `HwMaster.security_wrong` |
| C55 | exclusive accesses go out as normal ones | `HwMaster.exclusive_dropped` |
| C55 | an access with the command IGNORE is carried out as a write | `HwMaster.ignore_writes` |
| C55 | with a `base_offset` that is not well aligned the split of the aligner (which sees the address without it) no longer fits: bytes are lost or strobes fall outside the addresses, and the access is answered OK | `HwMaster.offset_loses_bytes`, `HwMaster.offset_breaks_protocol` |
| C55 | an access made before the bridge is probed is split with the constructor's limits and can exceed 256 beats; the length register then wraps | `HwMaster.early_access_short` |
| C55 | `aligner_enable = false` dereferences a null pointer in the reset thread | `HwMaster.no_aligner_crash` |
| C56 | the byte counter of a packet is never advanced: every transaction of a packet gets a SecTAG of its own (and the decoder drops 28 bytes and an ICV from each) | `Hsc.counts_stay_zero`, `Hsc.continuation_retagged` |
| C56 | encoder and decoder start the key 16 bytes apart: with 32-byte keys frames do not survive the round trip | `Hsc.roundtrip_wide_iff`, `Hsc.wide_key_breaks` |
| C56 | narrow inputs are signed: suite 2 is taken as a 256-bit one, confidentiality offset 50 is ignored, association numbers 2 and 3 set all TCI bits, key indexes from 2^19 up index before the key store | `Hsc.xpn128_wide`, `Hsc.conf50_ignored`, `Hsc.an_spoils_tci`, `Hsc.high_index_ub` |
| C56 | confidentiality offset 30 leaves 42 bytes in clear, and copies beyond frames shorter than 54 bytes | `Hsc.conf30_leaks`, `Hsc.conf30_short_overruns` |
| C56 | with bypass or authenticate-only the decoder hands out the ICV with the frame | `Hsc.bypass_keeps_icv` |
| C56 | packet number and SCI of the SecTAG are in host byte order; the SL field is 0 or 1; the SCI is present whatever the SC bit says | `Hsc.tag_not_standard`, `Hsc.sci_always_present` |
| C56 | a packet without attribute extension dereferences a null pointer | `Hsc.no_attributes_ub` |
| C57 | keys overlap: storing key n changes keys n-7 … n+7 | `Hsc.neighbour_keys_overlap` |
| C57 | the access at 0x7D00 passes the range check and reaches past the register array, where the encoder keys are | `Hsc.past_the_map_ub` |
| C57 | sub-word accesses ignore the byte offset, and writes clear the rest of the register | `Hsc.subword_wrong` |
| C57 | the words of the last stored key stay readable in the write window, also after a reset | `Hsc.window_survives_reset` |
| C58 | the range check of the VFIO bridge only sets a status that is overwritten: accesses past the region are carried out outside the mapping | `Vfio.out_of_range_never_refused` |
| C58 | DMI ignores the offset of the bridge | `Vfio.dmi_right_iff` |
| C58 | accesses of eight bytes or more never acknowledge the interrupt: the output stays active after the device is quieted | `Vfio.wide_access_no_ack` |
| C58 | an interrupt before the polling thread's first unmask can show twice | `Vfio.startup_spurious` |
| C58 | the DMA pool is mapped twice as large as it is unmapped, and its size is computed in 32 bits | `Vfio.unmap_leaves_half`, `Vfio.large_pool_overruns` |
| C58 | an IGNORE command is carried out as a write | `Vfio.ignore_writes` |
| C59 | a snoop answer with error and data leaves its beats on CD: the next snoop gets the failed one's line | `AceSnoop.error_data_misdelivered` |
| C59 | a snoop buffer that is not `CACHELINE_SZ` long shifts the data of later snoops | `AceSnoop.short_buffer_misdelivered` |
| C59 | response attributes are only ever set: a reused extension keeps old ones | `AceSnoop.attributes_stick` |
| C60 | the snoop lock holds one range: a second snoop on another line unprotects the first one's line | `AceSnoop.Order.two_snoops_unlock` |
| C60 | `lock_bresp` is never taken: write responses are sent during snoops of their line | `AceSnoop.Order.write_response_during_snoop` |
| C60 | a snoop waiting at a reset stays in the overlap list (a pointer to a returned call): its line can never be snooped again | `AceSnoop.Order.reset_blocks_line` |
| C60 | snoops dropped by a reset are not counted off: after 16 the master never accepts a snoop again | `AceSnoop.Master.resets_exhaust` |
| C60 | DVM Sync responses are never counted (the snoop's command is READ, the test wants IGNORE) while every read counts down, so DVMComplete does not wait | `AceSnoop.Dvm.sync_never_counted`, `AceSnoop.Dvm.complete_does_not_wait` |
| C61 | bytes that a partial write (< 64 bytes) leaves out are overwritten at the home: byte enables are not sent | `Ccix.sparse_enables_overwrite` |
| C61 | for a partial write of a whole line the byte enables sent are computed from the data (bytes equal to 0xFF) | `Ccix.partial_line_wrong` |
| C61 | reads arrive with length 64 whatever their size | `Ccix.read_length_lost` |
| C61 | `WriteCleanFull` of a unique dirty line arrives as of a shared dirty one | `Ccix.clean_write_changes_state` |
| C62 | answers to unaligned requests to normal memory land elsewhere in the line or beyond the buffer | `Ccix.unaligned_answer_lost` |
| C62 | `SnpResp_SD` is not translated (assertion) | `Ccix.shared_dirty_refused` |
| C63 | the home sends one snoop per CCIX port and takes the first answer: with two caches behind a port a copy survives an exclusive request, a late answer aborts, copies are forgotten, the requester is snooped | `CcixSnoop.second_copy_survives`, `second_answer_aborts`, `copy_forgotten`, `requester_snooped` |
| C63 | a chip with two request nodes asserts on the second node's answer to a snoop; dirty data in it is lost | `CcixSnoop.two_nodes_abort`, `dirty_data_lost` |
| C64 | each atomic that finishes makes one data credit | `CcixLink.data_credits` |
| C64 | a snoop waiting for credits is let go by credits of any class: the counter wraps | `CcixLink.snoop_credit_wraps` |
| C64 | snoop credits carried by other messages are read from the data field | `CcixLink.carried_snoops_wrong` |
| C64 | `NCBWrDataCompAck`: the acknowledgement in it is not seen, the write's identifier is never returned | `CcixLink.combined_ack_lost` |
| C65 | a length that is not whole bus words loses its tail, with OK status | `AceHw.tail_dropped` |
| C65 | data starts on lane 0 whatever the address: unaligned accesses break the protocol or return the wrong bytes | `AceHw.unaligned_write_illegal`, `unaligned_read_wrong` |
| C65 | a read of less than a bus word is a burst of 256 beats; so is a write barrier | `AceHw.short_reads_overrun`, `short_read_overruns` |
| C65 | narrow beats: lengths counted in bus words, all strobes set | `AceHw.narrow_illegal` |
| C65 | byte enables of reads are ignored | `AceHw.read_enables_ignored` |
| C65 | wrapping writes become FIXED bursts in both directions (one-bit mask) | `AceHw.wrap_write_fixed`, `wrap_write_sent_fixed`, `wrap_write_lost` |
| C65 | without the aligner (on by default) there is no 4 KB or 16-beat check | `AceHw.illegal_bursts` |
| C65 | the slave takes the size code for the number of bytes: byte bursts fail an assertion; narrow and unaligned bursts land elsewhere | `AceHw.byte_burst_asserts`, `narrow_write_spread`, `unaligned_write_shifted` |
| C65 | wrapping reads not from their boundary read behind it; single-beat answers read 16 bytes from a smaller buffer | `AceHw.wrap_read_wrong`, `single_beat_overrun` |
| C65 | a streaming width of 0 is refused, also through the aligner, which hands it on | `AceHw.aligner_does_not_help` |
| C66 | all write data starts at offset 0 of one memory: the next write's data replaces data the hardware has not sent yet (same for read data to ACE-Lite and AXI masters) | `AceHwConc.Out.data_overwritten`, `Ram.lite_data_overwritten` |
| C66 | a response handled before the pushing thread has recorded its access is "unexpected", and a null pointer is used | `AceHwConc.Out.early_answer_fails` |
| C66 | a reset neither aborts nor forgets pending accesses: they hang, or take the response of a later access | `AceHwConc.Out.reset_hangs`, `reset_shifts_answers` |
| C66 | an acknowledgement polled while the response is still being pushed is forgotten: no further responses | `AceHwConc.Rack.ack_lost` |
| C66 | two snoops of different lines at the same time share a descriptor; the lock holds only one range, and none that ends at the top of the address space | `AceHwConc.Snoop.snoops_collide`, `second_lock_forgets_first`, `top_range_unlocked` |
| C66 | no limit on outstanding requests: a full response queue makes a request run twice | `AceHwConc.request_run_twice` |
| C67 | the ATS capability is announced to the peer, but a translation request from the peer fails an assertion | `RPAts.request_to_itself_aborts` |
| C67 | the physical-address mark is dropped by the receiving memory master; an invalidation the device model refuses ends the simulation | `RPAts.physical_not_passed_on`, `invalidation_refused_aborts` |
| C68 | received data flits are read with `addr \| (i << 2)` although descriptors are 0x60 bytes apart: three of four descriptors give wrong flits | `ChiHw.data_read_wrong`, `second_data_flit_wrong` |
| C68 | with the default packet parameters a request flit has more bits than the descriptor: the array is read past its end, and sending spills into the next descriptor | `ChiHw.defaults_do_not_fit`, `wide_request_undefined`, `wide_request_spills` |
| C68 | the descriptor index is a function `static` and there is no lock: concurrent calls, a second bridge, or a second reset lose flits or send old ones | `ChiHw.concurrent_calls_lose_a_flit`, `second_bridge_sends_garbage`, `reset_repeats_old_flit` |
| C69 | `setExtensions` sets the region from the quality of service: a programmed region is lost | `TgTlm.region_is_qos`, `region_lost` |
| C69 | `expect` is compared with bytes that were not enabled, which the buffer leaves as allocated | `TgTlm.disabled_byte_reported` |
| C69 | a set added before the previous one was taken replaces it without notice; one added while another runs takes over its callback, which is then called twice | `TgTlm.overwritten_set_lost`, `callback_taken_over` |
| C70 | elements of byte arrays given as numbers are printed in hexadecimal and read as decimal: right below ten only | `TgConf.array_number_wrong`, `array_number_examples` |
| C70 | writing a transfer that has no data or no expectation dereferences null; `snoop`, `domain`, `barrier`, `is_read` are not written | `TgConf.plain_transfer_undefined`, `snoop_lost` |
| C70 | malformed numbers count as zero or as their beginning without an error; an unknown command is a read; every object is accepted; a bad entry of a vector is masked by a later good one | `TgConf.malformed_number_accepted`, `unknown_command_reads`, `empty_object_accepted`, `bad_entry_masked` |
| C70 | `streaming_width` as a text is read only if `byte_enable_length` is a text; lengths without their arrays fail an assertion | `TgConf.width_text_ignored`, `lengths_undefined` |
| C70 | random values are drawn modulo the upper bound and then raised by the lower; zero divides by zero; random booleans are false; random data stays unwritten without a size | `TgConf.above_upper_bound`, `upper_bound_never`, `random_zero_bound`, `random_bool_false`, `random_data` |
| C70 | the table of descriptions lacks an entry and a comma: descriptions are wrong from code 21 on, and past the end for 62 and 63 | `TgConf.descriptions` |
| C71 | control words of more than 32 bits (512 bits with four packets, 1024 bits with three or four) are put together by a 32-bit shift of 32: undefined, no flit is ever received | `CxsHw.wide_control_never_received`, `wide_control_undefined` |
| C71 | a handler of a received message that sends one never returns: it runs in the thread that would wake it | `CxsHw.send_from_handler_hangs` |
| C71 | a reset while a call waits leaves it, and every later call, waiting for ever | `CxsHw.reset_leaves_call_waiting` |
| C71 | half a packet received before a reset is kept and makes the first packet after it fail | `CxsHw.half_packet_survives_reset` |
| C71 | a chained request in a later flit than the request it continues fails: that request has been handed over | `CxsHw.chained_request_in_next_flit_fails` |
| C72 | identifiers are kept in 8 bits: with wider ones legal reads and writes are reported, and barriers with different identifiers pass for a pair | `PcAce.wide_id_false_alarm`, `wide_id_write_false_alarm`, `wide_barriers_missed` |
| C72 | `ReadOnce` has the code of `ReadNoSnoop` and is judged as that: `IsShared` is reported, an exclusive one passes | `PcAce.readOnce_shared_false_alarm`, `readOnce_exclusive_missed` |
| C72 | cache maintenance in the non-shareable domain is expected to be answered by a line of data | `PcAce.maintenance_false_alarm` |
| C72 | the reserved burst passes for a whole line, at any address | `PcAce.reserved_burst_missed`, `reserved_burst_write_missed` |
| C72 | accesses that ignore barriers (`AxBAR` 2) are taken for barriers | `PcAce.ignore_barriers_false_alarm`, `ignore_barriers_write_false_alarm`, `ignore_barriers_pair_false_alarm` |
| C72 | an answer in the cycle of its own address passes; the limit of 256 barriers is never reported; a transaction beyond the depth is reported twice | `PcAce.same_cycle_answer_accepted`, `barrier_limit_never_reported`, `depth_overflow_reported_twice`, `resp_overflow_reported_twice` |
| C72 | the search for a `WriteUnique` under way finds `WriteBack` and `WriteClean`: the forbidden overlap passes, two `WriteClean`s are reported | `PcAce.back_during_unique_missed`, `back_after_clean_false_alarm` |
| C72 | the number of beats of a wrapping `WriteBack` is compared with `AWLEN`, one less: 2 and 4 beats are reported, 3 pass; more than 16 beats pass | `PcAce.wrap_length_false_alarm`, `wrap_length_missed`, `long_back_missed` |
| C72 | the last beat of a `WriteLineUnique` may lack strobes | `PcAce.line_unique_strobes_missed` |
| C72 | the answer to an `Evict` is reported if it does not wait for the data of an earlier write with another identifier; write data ahead of their address are always reported | `PcAce.evict_answer_false_alarm`, `data_first_reported` |
| C72 | `CDLAST` before the last beat passes; with a data bus wider than a line the beat counter wraps and no line is ever complete | `PcAce.early_cdlast_missed`, `wide_snoop_bus` |
| C72 | DVM messages on the snoop channel are judged as addresses: unaligned ones are reported, and their answers make the checker forget a line | `PcAce.dvm_message_false_alarm`, `dvm_forgets_line` |
| C72 | the lines held are kept by the low 32 bits of the first address: lines 4 GiB apart and lines read by a wrapping burst lead to false reports | `PcAce.far_line_false_alarm`, `wrapped_line_false_alarm` |
| C73 | the sub-opcodes of `AtomicStore` and `AtomicLoad` are not all recognised: with `ExpCompAck` they pass, ordered ones are reported; `AtomicCompare` is aligned to `1 << size/2` and its 16 and 32 byte forms are reported; a `DVMOp` of less than 8 bytes passes; ordered `WriteNoSnp` is reported | `PcChi.requests_faults` |
| C73 | data and acknowledgements sent before, or without, the response that asks for them, and a second time, pass; so do a late `RetryAck`, a second `ReadReceipt` and a `SnpDVMOp` without its second half | `PcChi.early_data_missed`, `second_data_missed`, `early_ack_missed`, `unasked_ack_missed`, `late_retry_missed`, `two_receipts_missed`, `dvm_half_missed` |
| C73 | legal histories are reported: `DataSepResp` sent straight from a memory node (its source is compared instead of `HomeNID`), forwarded data ahead of the snoop response, two homes that use the same snoop `TxnID`, identifiers kept from an earlier answer; narrow writes and cancelled writes | `PcChi.direct_data_false_alarm`, `forward_first_false_alarm`, `two_homes_false_alarm`, `stale_ids_false_alarm`, `narrow_and_cancel_reported` |
| C73 | a `PrefetchTgt`, which is never told to retry, is always reported as a request sent with a credit it does not have | `PcChi.prefetch_false_alarm` |
| C73 | when the last credit of a type is used the checker forgets all requests told to retry with it: with two of them the second credit and request are reported | `PcChi.two_retries_false_alarm` |
| C73 | a request sent again before its credit is granted makes the count wrap to 2^32 - 1: missed, or reported as a surplus; a request may be sent again twice | `PcChi.early_resend_missed`, `early_resend_counts`, `second_resend_missed` |
| C73 | after a `RetryAck` that answers no request, the next request with a credit follows a null pointer | `PcChi.stray_retry_crashes` |
| C73 | a link credit returned on the response or data channel is taken for the answer to request 0; like requests told to retry by two completers are mixed up | `PcChi.link_return_false_alarm`, `like_requests_false_alarm` |
| C74 | the AXI allocator computes the free space behind the last piece with a RAM size cut to as many bits as an address, that is 0: the gap before wrapping is always too large by the size of the RAM, and of five bursts of 256 in 1024 locations the fifth is put over the first; the ACE copy has the wider constant | `RtlRam.axi_overlap`, `axi_gap_wrong`, `ace_five` |
| C74 | a descriptor attached to a piece in the first cycle of the release of the same node's previous descriptor is forgotten, and the node and its RAM are never free again (both allocators); one cycle later it is kept | `RtlRam.attach_lost`, `lost_for_ever`, `attach_kept` |
| C75 | the early output of the FIFO is said to be valid but is stale in the cycle after the only element was read and another written: it is an element read long before | `RtlFifo.early_stale`, `early_old_element` |
| C75 | the early output indexes the memory with `rd_ptr+1`, which by the rules of the language is not cut to the width of the pointer: after a read of the last location it is unknown in simulation | `RtlFifo.early_leaves_memory` |
| C75 | with a depth that is not a power of two the FIFO takes more elements than it has locations and loses them (no instance with such a depth is in the repository unless `MAX_DESC` is one) | `RtlFifo.odd_depth_loses` |
| C76 | a descriptor whose ownership is given again while other descriptors still wait for a place in the FIFO is lost, if the state machine is in its write cycle: `desc_fifo_write_done` is cleared only when nothing is pending; one cycle earlier it is kept | `RtlDesc.given_again_lost`, `given_again_kept` |
| C77 | a flit given in a place whose last flit still waits for the link is lost: the ownership of the place is cleared before its flit is out, and `update_own_reg` then clears the new ownership too | `RtlTx.given_again_lost` |
| C77 | the bridge sends its places in turn whichever ownership is given: giving another place first sends what the first place happens to hold | `RtlTx.wrong_place_sent` |
| C77 | a flit on its way when the link goes down is lost; CXS loses its credit as well | `RtlTx.lost_in_flight` |
| C77 | a flit which waits for the link while the credits are given back goes out without a credit when the link is up again | `RtlTx.sent_without_credit` |
| C77 | a credit granted to CHI after it gave back its last is neither held nor given back, so that the other side waits for it for ever | `RtlTx.late_credit_lost` |
| C77 | CXS gives back a credit in every cycle of the deactivation hint, however few it holds, and drops its credits when the link goes down after the hint | `RtlTx.hint_returns_more`, `hint_drops` |
| C78 | giving back a place out of turn, or one not owned, grants a credit all the same, and the next flits are written over flits not taken | `RtlRx.free_out_of_order_overwrites`, `free_not_owned_overwrites` |
| C78 | writing the refill register again grants every credit again while flits are not taken | `RtlRx.refill_again_overwrites` |
| C78 | CXS: when low power ends every credit counted is granted, also those of flits software did not take, whose places are written over; a credit granted in that very cycle counts twice | `RtlRx.low_power_overwrites`, `low_power_twice` |
| C78 | CXS: when low power ends in the cycle in which a place given back is counted, the credits given back never go out again | `RtlRx.low_power_lost` |
| C78 | CXS: a flit which comes while the link is not in RUN is lost with its credit; a credit given back in the cycle after a flit is not counted | `RtlRx.flit_lost`, `credit_lost` |
| C78 | CHI: a credit given back by the other side is stored as a flit and owned by software as any other | `RtlRx.chi_return_found` |
| C79 | CHI withdraws the acknowledgement of a receive link while credits are still out; if they never come back it stays half down and answers no new request | `RtlLink.chi_ends_with_credits_out`, `chi_does_not_wait`, `chi_stuck` |
| C79 | when the other side takes its link down and software does not ask for low power, the link stays half down for ever | `RtlLink.remote_down_waits` |
| C79 | the transmit link stops with credits still held when the receive link is being taken down too | `RtlLink.stops_with_credits` |
| C79 | CXS requests its transmit link again in low power, the cycle after it stopped | `RtlLink.cxs_up_in_low_power` |
| C80 | two new IDs five cycles apart get the same FIFO, though the comment in the code asks for only two cycles; the AXI master keeps them nine apart, which is enough | `RtlAxid.close_requests_mixed`, `back_to_back_twice` |
| C80 | a new ID less than four cycles after a FIFO became empty, with all others in use, is given the FIFO of another ID; the AXI master does not do this | `RtlAxid.late_room_mixed` |
| C81 | a clear written for a flit status which is not set stays in effect for ever: that channel never interrupts again | `RtlIrq.stuck_for_ever`, `early_clear_sticks` |
| C81 | CHI: the status bits of TXREQ and TXDAT are cleared by each other's clear bit: clearing one takes the other away for a cycle, in which the interrupt line may go down, and a clear of one which stays behind silences the other | `RtlIrq.chi_other_drops`, `chi_other_stuck`, `chi_line_falls` |
| C81 | a flit received, or an edge of a line, in the one cycle in which a clear is in effect is not told | `RtlIrq.flit_not_told`, `edge_not_told` |
| C82 | the allocator trusts the ownership register: a descriptor which software takes back and gives again before a request came is in the FIFO twice, and two requests are accepted under it, or is given twice and counted once | `RtlTxn.given_twice_shared`, `given_twice_merged` |
| C82 | reads come first: while a read asks for a descriptor none goes to a write, so with one descriptor in use at a time a write may wait for ever | `RtlTxn.reads_first` |
| C83 | a burst longer than its request is written to its end, over the data of another request which is announced and in use | `RtlWdata.long_burst_overwrites` |
| C83 | an error of length which comes with the last beat, said to last one cycle, lasts until the next burst begins; until then no other error reaches the status, even after software has cleared it | `RtlWdata.other_error_lost` |
| C84 | a response goes out before that of an older request of its ID, and the newest request of another ID never gets one: the early output of a FIFO is used without the signal which says that it is valid | `RtlOrder.stale_head_breaks_order` |
| C85 | if software answers a descriptor before it puts it in the order (the driver here does not), a response can go out in the place of another, which never gets one: the early output of the FIFO is said to be valid when it is stale | `RtlResp.early_answer_breaks_order` |
| C87 | the FIFO of beats reports to be almost full at 28 of 32, where the same circuit of the AXI bridge does at 27; five words are on their way then, and one of a burst of six or more words is lost when the other side waits at the right time: a read or write burst, or a cache line of 64 bytes on a bus of 64 bits | `RtlAceSend.long_burst_loses_a_word`, `line_loses_a_word` |
| C87 | when a push comes in the cycle in which the only index leaves the first FIFO (three cycles after the push before it) the early output is stale and another descriptor is sent in place of the one pushed | `RtlAceSend.race_sends_another` |
| C87 | the free level which software can read counts only the first FIFO, which empties itself into a second one without looking whether there is room: indices are lost although the level says there are places | `RtlAceSend.free_level_lies` |
| C90 | the count of DVM Sync responses is lowered for every read, not only for DVM Completes, and passes below zero: after one ordinary read a DVM Complete no longer waits for the DVM Sync | `AceMstSnp.dvm_before_sync` |
| C90 | nothing bounds the responses which the hardware still holds: the answer to a seventeenth snoop replaces that to the first in its registers | `AceMstSnp.overwritten` |
| C90 | the thread which writes the data is not stopped by a reset: its line is sent afterwards, as the data of the first snoop after the reset | `AceMstSnp.stale_line` |
| C90 | the thread woken for a snoop takes the first element of the list without looking, and a reset may have emptied it | `AceMstSnp.empty_list` |
| C91 | a snoop response with both an error and data ends its snoop, and leaves its line in the queue: every later snoop with data gets the line of the one before | `AceSlvSnp.late_by_one` |
| C91 | the thread puts snoops which wait for data in a FIFO of 16 which it alone empties: with a seventeenth response with data before the first line it waits for ever | `AceSlvSnp.stuck` |
| C91 | callers wait for a place in the FIFO of snoops after they pushed them, in no order: with 18 snoops at once two can get each other's response | `AceSlvSnp.swapped` |
| C91 | a reset leaves the descriptors of lines which were popped: the first snoop with data after it gets a line from before it | `AceSlvSnp.stale_line` |
| C92 | the second barrier waits for the event of the first even when it has passed: if the first is answered earlier, its caller hangs for ever | `Barrier.second_hangs`, `no_more` |
| C92 | the mark that a barrier is under way is never taken back: from the second pair on no barrier returns | `Barrier.second_pair_hangs`, `no_more` |
| C93 | the thread does not see changes while it acknowledges: an interrupt of a second line at this time is not forwarded and not acknowledged until the vector changes again | `XdmaIrq.second_line_lost`, `stays_lost` |
| C93 | an interrupt withdrawn as soon as its acknowledge is high stays high for the PCI device | `XdmaIrq.withdrawal_lost` |
| C94 | each end takes its direction down while it sees the other go down, also when this is the answer to its own doing: after a short stop at a time when few credits were granted the two directions take each other down in turn for ever | `LinkPair.never_up_again`, `never_up_wanted` |
| C95 | a Sync which is done stays in the list until its snoop returns: a Complete of another Sync in the meantime sends the same master a second answer, and the other master none | `Dvm.answered_twice` |
| C95 | a master which sends its next Sync before it has responded to the answer of the last: both are taken from the list, and the next Complete fails an assertion | `Dvm.resync_asserts` |
| C95 | answers are sent only when a Complete comes: a Sync of the only master taking part in DVM is never answered | `Dvm.alone_unanswered` |
| C96 | an exclusive CleanUnique which the interconnect refuses is answered OK without EXOKAY and without snooping; the cache makes the line unique all the same, and from then on writes it while other caches keep their old copies | `AceExcl.refused_unique`, `stale_after_refusal` |
| C96 | an exclusive load while the interconnect's monitor is locked reports EXOKAY but is not recorded: the exclusive store after it is refused although nobody wrote | `AceExcl.locked_refused` |
| C96 | the master's monitor holds the address of the access, but snoops reset it at the address of the line: an exclusive store which is not at the start of a line succeeds although another master wrote in between | `AceExcl.offset_lost_update` |
| C96 | a line which is evicted leaves the master's monitor set, and snoops of lines which are not in the cache do not reset it: the exclusive store succeeds although another master wrote in between | `AceExcl.evicted_lost_update` |
| C96 | an exclusive load which hits in the cache sets no monitor, although it reports EXOKAY: the exclusive store after it fails, for ever | `AceExcl.hit_never_succeeds` |
| C97 | the CHI interconnect treats every exclusive read as an exclusive store that failed: it does not snoop, and reads memory although another cache may have the line dirty | `ChiExcl.exclusive_read_unsnooped` |
| C97 | an exclusive CleanUnique that fails is answered Comp_UC without a snoop: the node has the line unique while others keep their copies | `ChiExcl.refused_unsnooped` |
| C97 | the interconnect's exclusive monitor holds LPIDs without the node: two nodes with the same LPID pass on each other's exclusive reads | `ChiExcl.same_lpid_passes` |
| C97 | the CHI cache never sets Excl on the wire and never sees ExclusiveOkay: an exclusive store to a line another cache has too fails, and after that for ever | `ChiExcl.contended_never_succeeds`, `hit_never_succeeds` |
| C97 | a CHI exclusive load reports ExclusiveOkay exactly when it has not been recorded | `ChiExcl.okay_inverted` |
| C97 | as in the ACE cache, a CHI exclusive store not at the start of a line, or after an eviction, succeeds although another node wrote in between | `ChiExcl.offset_lost_update`, `evicted_lost_update` |
| C98 | of `tcpd:` four characters are compared and five skipped: any character may stand for the colon | `RPSock.tcpd_any_char` |
| C98 | a host with colons (an IPv6 address) is cut at its first colon, and the rest taken as the port | `RPSock.colon_host_cut` |
| C98 | a socket path of more than 107 characters is cut without a message: different paths open the same socket | `RPSock.long_paths_collide` |
| C98 | a descriptor of less than four characters, and `tcpd`, are read beyond their end | `RPSock.short_overread` |
| C98 | a daemon whose first address cannot be bound exits, though another could be | `RPSock.daemon_exits` |
| C99 | the length of a region is taken as 32 bits: one of 4 GiB holds nothing, a longer one is cut | `Regions.four_gib_lost`, `long_region_cut` |
| C99 | a region reaching to the last address holds nothing: its end wraps to 0 | `Regions.top_region_lost` |
| C99 | an access from a non-shareable region to beyond its end goes past the cache as a whole, even if the cache holds the other bytes | `Regions.straddle_bypasses` |
| C99 | bytes of a non-shareable region get cached by an access running into it, or by one before it if the region starts within a line; the next access to the region fails an assertion | `Regions.run_in_aborts`, `unaligned_aborts` |
| C100 | a store across the end of a line, sent past the cache, loses the bytes from there to its byte 64, and is answered OK; to a non-shareable region always | `ChiStore.straddle_lost`, `private_straddle_lost` |
| C100 | stores to a non-shareable region are sent as WriteUnique, which snoops the other caches | `ChiStore.private_store_snoops` |
| C100 | with 64 or more byte enables, all set, a part of a line is sent as a full-line write | `ChiStore.full_write_of_part` |
| C101 | an answer nobody asked for is not reported, and hides for ever that a later snoop gets none | `PcSnoop.spurious_answer_masks` |
| C101 | a data beat before its answer is counted as a debt of 2^32 - 1 beats, and a hang is reported with nothing owed | `PcSnoop.early_data_false_hang` |

Observed while reading, not stated as theorems: `rp_pkt_main` continues on
`EINTR` with its mutex locked; `tlm2axis` leaves `tvalid` and `tlast` asserted
after a reset; `axi2tlm` takes the protection bits of writes from `arprot`; CHI
`ClearList` deletes stack objects and credit-return flits are forwarded as
packets; the splitter leaks its reference copy on a mismatch; the APB bridge has
no mutex; MCDMA status bits `IDLE` and `BD_SHORTFALL` share a position; MRMAC
leaks a payload when its queue is full and frees arrays with `delete`; UMI
reports target errors as success.

## 6. Not modelled

* ACE (C33, C45): exclusive accesses (but see C96), barriers, DVM messages (C95),
  non-shareable domains (C99), error responses, delays; an ACE-Lite access spanning lines is one access per
  line; addresses are unbounded naturals.
* Memory management (leaks, double deletion) except where a theorem says so,
  trace output, `printf`, command line and configuration parsing.
* Real time: `wait(delay)` and clock periods, except in C09 and where a number of
  clock edges matters.
* Sockets, threads and signals of the host below the remote-port byte stream,
  other than short reads and writes (C04).
* SystemC's scheduler beyond what section 2 says.
* CHI caches and interconnect (C50): exclusive (but see C97), stash, atomic, DVM and
  maintenance requests, CCIX ports, the NonSecure attribute, retries other than
  as a delay, and the order of the flits of one data message.
* `rtl-bridges`, `soc/pci` other than the QDMA, `tlm2vfio`, `soc/crypto`, the ACE
  and CHI bridges other than link, flits and identifiers, and the traffic
  configuration parser, until a property names them.
