{"id": "C01", "title": "Remote-port bus access packets survive encode/decode", "statement": "A bus-access (read, write, read-response, write-response) that one endpoint encodes for the wire decodes at the peer to the same command, flags, id, device, timestamp, attributes, address, length, width and stream width; with the extended layout also the byte-enable length/offset and the master id; the payload length the decoder consumes is exactly what the encoder produced, and the data bytes start where the decoder looks for them.", "quantifier": "all field values (u16/u32/u64), all payloads, both wire layouts (peer with and without the extended-base capability)", "why_tests_cant": "2^400 field combinations; tests fix a handful of packets and never pin every field and both layouts", "anchors": ["libremote-port/remote-port-proto.c:rp_encode_busaccess", "libremote-port/remote-port-proto.c:rp_decode_payload", "libremote-port/remote-port-proto.c:rp_decode_hdr", "libremote-port/remote-port-proto.h:struct rp_pkt_busaccess_ext_base"]}
{"id": "C02", "title": "Remote-port control packets survive encode/decode", "statement": "hello (version plus capability list), interrupt, sync, ATS request and ATS invalidate packets decode to the field values that were encoded.", "quantifier": "all field values, all capability lists", "why_tests_cant": "unbounded capability lists and full integer domains", "anchors": ["libremote-port/remote-port-proto.c:rp_encode_hello_caps", "libremote-port/remote-port-proto.c:rp_encode_interrupt_f", "libremote-port/remote-port-proto.c:rp_encode_sync", "libremote-port/remote-port-proto.c:rp_encode_ats_common", "libremote-port/remote-port-proto.c:rp_decode_payload"]}
{"id": "C03", "title": "Remote-port stream framing", "statement": "The receiver of a byte stream produced by concatenating encoded packets recovers exactly that sequence of packets, in order, for any number of packets; no packet boundary drifts.", "quantifier": "all finite sequences of well-formed packets", "why_tests_cant": "unbounded sequences; one off-by-one in any length field corrupts every later packet", "anchors": ["libremote-port/remote-port-tlm.cc:rp_process", "libremote-port/remote-port-proto.c:rp_decode_hdr"]}
{"id": "C04", "title": "Blocking I/O helpers transfer everything exactly once", "statement": "rp_safe_read/rp_safe_write transfer exactly the requested bytes, in order and without duplication, whatever short counts and EINTR interruptions the kernel returns, and report a short count only at end-of-file, on a hard error or (writes) on EAGAIN.", "quantifier": "all kernel schedules of partial transfers, interruptions, EOF and errors; all buffer sizes", "why_tests_cant": "the set of kernel schedules is infinite and cannot be driven from a unit test", "anchors": ["libremote-port/safeio.c:rp_safe_read", "libremote-port/safeio.c:rp_safe_write"]}
{"id": "C05", "title": "Capability negotiation selects a layout the peer understands", "statement": "After a hello exchange the recorded peer capabilities are exactly those the peer listed, and an extended-layout bus access is sent only to a peer that listed the extended-base capability.", "quantifier": "all capability lists and all later bus accesses", "why_tests_cant": "capability lists are unbounded and interact with every later packet", "anchors": ["libremote-port/remote-port-proto.c:rp_process_caps", "libremote-port/remote-port-proto.c:rp_encode_busaccess"]}
{"id": "C06", "title": "Remote-port responses reach the request that is waiting for them", "statement": "With any number (up to the table size) of outstanding requests and any arrival order of responses, each waiter is completed by, and only by, the response carrying its own id, receives that response's contents, and its slot becomes reusable afterwards; no slot leaks.", "quantifier": "all interleavings of issue, response arrival and completion", "why_tests_cant": "interleavings of up to 256 outstanding transactions", "anchors": ["libremote-port/remote-port-tlm.cc:response_wait", "libremote-port/remote-port-tlm.cc:response_lookup", "libremote-port/remote-port-tlm.cc:response_done", "libremote-port/remote-port-tlm.cc:rp_process"]}
{"id": "C07", "title": "A remote memory access behaves like a local one", "statement": "A TLM access forwarded through a remote-port memory slave, the wire, and a remote-port memory master leaves the target memory, the initiator's data buffer and the response status as if the initiator had accessed the target directly.", "quantifier": "all addresses, lengths, data, byte-enable patterns, memories and initial buffers; peers with and without the byte-enable capability", "why_tests_cant": "product of address, length, byte-enable pattern and memory contents", "anchors": ["libremote-port/remote-port-tlm-memory-slave.cc:b_transport", "libremote-port/remote-port-tlm-memory-master.cc:cmd_read_null", "libremote-port/remote-port-tlm-memory-master.cc:cmd_write_null"]}
{"id": "C08", "title": "Remote wires converge to the local wire state", "statement": "After any sequence of local wire updates, applying the emitted interrupt packets in order leaves the peer's wires equal to the local wires, and each packet reports a wire that really changed.", "quantifier": "all wire counts, all update histories", "why_tests_cant": "history property over unbounded sequences", "anchors": ["libremote-port/remote-port-tlm-wires.cc:wire_update", "libremote-port/remote-port-tlm-wires.cc:interrupt_action"]}
{"id": "C09", "title": "Time accounting never runs backwards and never exceeds the quantum", "statement": "Accounting a remote timestamp advances local time by at least the minimum step, never backwards, and never by more than the global quantum; the local offset after the step stays within the quantum.", "quantifier": "all remote timestamps, all local times and quanta", "why_tests_cant": "full 64-bit time domain with boundary interactions", "anchors": ["libremote-port/remote-port-tlm.cc:account_time", "libremote-port/remote-port-tlm.h:map_time"]}
{"id": "C10", "title": "The aligner's split is invisible to the target memory", "statement": "Running all the sub-accesses the alignment proxy produces has the same effect on memory, on the initiator's read buffer and on untouched bytes as running the original access, including streaming width and byte-enable repetition.", "quantifier": "all addresses, lengths, streaming widths, byte-enable patterns, alignment configurations and memories", "why_tests_cant": "unbounded lengths and configurations; byte-enable window wrap-around depends on lengths", "anchors": ["tlm-modules/tlm-aligner.h:b_transport"]}
{"id": "C11", "title": "The aligner's sub-accesses respect the configured limits", "statement": "Every sub-access lies within the original access, is at most the maximum length, never crosses the configured address boundary, is naturally aligned when that is requested; together they cover the access exactly once in order, and processing always terminates and stops at the first error.", "quantifier": "all addresses, lengths and configurations", "why_tests_cant": "unbounded", "anchors": ["tlm-modules/tlm-aligner.h:compute_max_addr_range", "tlm-modules/tlm-aligner.h:compute_natural_alignment", "tlm-modules/tlm-aligner.h:b_transport"]}
{"id": "C12", "title": "The wrap expander is equivalent to a wrapping access", "statement": "Expanding a wrapping burst into one or two incrementing accesses moves byte i of the buffer to/from the address wrap_base + ((addr - wrap_base + i) mod len), with the byte enable of byte i.", "quantifier": "all addresses, lengths, data, byte-enable patterns", "why_tests_cant": "unbounded lengths and patterns", "anchors": ["tlm-modules/tlm-wrap-expander.h:b_transport"]}
{"id": "C13", "title": "Exclusive monitor: a store-exclusive succeeds only if the location is untouched", "statement": "An exclusive store is forwarded to memory only if the same master did an exclusive load of exactly that location and no store overlapping it has been performed since; otherwise memory is unchanged and the initiator can tell that it failed.", "quantifier": "all histories of loads, stores, exclusive loads and exclusive stores from all masters", "why_tests_cant": "unbounded histories", "anchors": ["tlm-modules/tlm-exmon.h"]}
{"id": "C14", "title": "The interconnect routes each access to the mapped region", "statement": "An access to an address inside a mapped region reaches that region's target at the right relative or absolute address; an address outside every region reaches no target; the initiator sees its address unchanged afterwards; the first matching mapping wins.", "quantifier": "all memory maps, addresses and offsets", "why_tests_cant": "full 64-bit address space and all maps", "anchors": ["soc/interconnect/iconnect.h:memmap", "soc/interconnect/iconnect.h:map_address", "soc/interconnect/iconnect.h:b_transport"]}
{"id": "C15", "title": "Interconnect DMI ranges translate back to the initiator's view", "statement": "A direct-memory range or invalidation reported by a target is translated to the address range through which the initiator reaches exactly those bytes.", "quantifier": "all maps, offsets and ranges", "why_tests_cant": "address arithmetic over the full 64-bit space", "anchors": ["soc/interconnect/iconnect.h:unmap_offset", "soc/interconnect/iconnect.h:get_direct_mem_ptr", "soc/interconnect/iconnect.h:invalidate_direct_mem_ptr"]}
{"id": "C16", "title": "Copying generic attributes preserves all of them", "statement": "Cloning or copying the generic attribute extension yields an extension whose every getter returns the same value.", "quantifier": "all attribute values", "why_tests_cant": "tests pick one attribute set; a forgotten field goes unnoticed", "anchors": ["tlm-extensions/genattr.h:copy_from", "tlm-extensions/genattr.h:clone"]}
{"id": "C17", "title": "Register-block access semantics", "statement": "A register write changes only writable bits of the addressed register (read-only bits keep their value, write-one-to-clear bits are cleared exactly where a one is written); a read returns the register value before any clear-on-read; reset restores every reset value; an undefined address is answered with an address error and changes nothing.", "quantifier": "all register descriptions, register values, write values and access histories", "why_tests_cant": "all 2^32 masks and values for every register description", "anchors": ["utils/regapi.h"]}
{"id": "C18", "title": "The CRC-32 routine computes the IEEE 802.3 CRC", "statement": "The table-driven CRC equals bit-serial division by the reflected IEEE polynomial for every message, can be computed incrementally over any split, and detects every error burst of up to 32 bits.", "quantifier": "all messages, all splits, all bursts", "why_tests_cant": "all byte strings", "anchors": ["utils/crc32.h"]}
{"id": "C19", "title": "Bit-field helpers", "statement": "Mask and field helpers select exactly the requested bits; buffer-to-bit-vector conversion and back is the identity.", "quantifier": "all shifts, widths and values", "why_tests_cant": "all 64-bit values", "anchors": ["utils/bitops.h"]}
{"id": "C20", "title": "MII transmit followed by MII receive is the identity on packets", "statement": "Any sequence of non-empty packets sent through the TLM-to-MII bridge and received by the MII-to-TLM bridge arrives as the same sequence of packets.", "quantifier": "all sequences of packets within the receiver's buffer size", "why_tests_cant": "all byte strings and sequences", "anchors": ["tlm-bridges/tlm2mii-bridge.h", "tlm-bridges/mii2tlm-bridge.h"]}
{"id": "C21", "title": "XGMII transmit followed by XGMII receive is the identity on packets", "statement": "Any packet sent through the TLM-to-XGMII bridge and received by the XGMII-to-TLM bridge arrives unchanged, whatever its length modulo the lane count.", "quantifier": "all packets within the receiver's buffer size, all sequences", "why_tests_cant": "all byte strings and all alignments of the end-of-frame", "anchors": ["tlm-bridges/tlm2xgmii-bridge.h", "tlm-bridges/xgmii2tlm-bridge.h"]}
{"id": "C22", "title": "AXI-Stream bridges preserve bytes and packet boundaries", "statement": "A sequence of stream writes (data, end-of-packet flag) sent through the TLM-to-AXIS bridge and collected by the AXIS-to-TLM bridge yields the same bytes in the same order with end-of-packet exactly where it was, split only at the collector's buffer size.", "quantifier": "all sequences of writes, all lengths, all bus widths", "why_tests_cant": "unbounded streams and interaction between buffer size and packet end", "anchors": ["tlm-bridges/tlm2axis-bridge.h:b_transport", "tlm-bridges/axis2tlm-bridge.h:axis_thread"]}
{"id": "C23", "title": "AXI write beats carry the right bytes on the right lanes", "statement": "For every accepted write, the sequence of write-data beats the TLM-to-AXI bridge emits puts byte i of the buffer on the lane of its address with its strobe set exactly when that byte is enabled; the last flag is on the last beat only; the number of beats equals the announced burst length.", "quantifier": "all addresses, lengths, burst widths, streaming widths, byte-enable patterns, bus widths", "why_tests_cant": "unbounded lengths times alignments", "anchors": ["tlm-bridges/tlm2axi-bridge.h:prepare_wbeat", "tlm-bridges/tlm2axi-bridge.h:SetupNumBeats", "tlm-bridges/tlm2axi-bridge.h:write_data_phase"]}
{"id": "C24", "title": "AXI read beats are unpacked into the right buffer bytes", "statement": "For every accepted read, byte i of the initiator's buffer ends up holding the byte that the slave drove on the lane of its address, disabled bytes are left untouched and the response status reflects the worst beat response.", "quantifier": "all addresses, lengths, burst widths, byte-enable patterns and beat data", "why_tests_cant": "unbounded lengths times alignments", "anchors": ["tlm-bridges/tlm2axi-bridge.h:read_resp_phase"]}
{"id": "C25", "title": "AXI-to-TLM write assembly", "statement": "The TLM write produced from an AXI write burst writes exactly the strobed bytes to exactly the addresses AXI assigns to them, for all burst types, sizes and lengths.", "quantifier": "all burst types, sizes, lengths, addresses, strobes and data", "why_tests_cant": "unbounded combinations", "anchors": ["tlm-bridges/axi2tlm-bridge.h:Transaction", "tlm-bridges/axi2tlm-bridge.h:FillData"]}
{"id": "C26", "title": "AXI-to-TLM read disassembly", "statement": "Every beat returned for an AXI read burst carries on the lanes of the beat's addresses the bytes that the TLM target returned for those addresses.", "quantifier": "all burst types, sizes, lengths, addresses and data", "why_tests_cant": "unbounded combinations", "anchors": ["tlm-bridges/axi2tlm-bridge.h:GetData"]}
{"id": "C27", "title": "AXI/TLM response status translation", "statement": "Every failing TLM status is reported as an AXI error response and every AXI error response as a failing TLM status; success maps to success; exclusive-okay is reported exactly for exclusive accesses that succeeded.", "quantifier": "all statuses and responses", "why_tests_cant": "finite but spread over several independent translation tables that tests do not cross-check", "anchors": ["tlm-bridges/amba.h:tlm_gp_set_axi_resp", "tlm-bridges/amba.h:tlm_gp_get_axi_resp", "tlm-bridges/axi2tlm-bridge.h:read_data_phase", "tlm-bridges/axi2tlm-bridge.h:write_resp_phase"]}
{"id": "C28", "title": "AXI same-id ordering", "statement": "Responses with the same id are delivered in the order of their addresses being issued, each issued transaction is completed exactly once, and a response is never attributed to a transaction with another id, whatever the slave's interleaving.", "quantifier": "all interleavings of issues and responses", "why_tests_cant": "unbounded interleavings", "anchors": ["tlm-bridges/tlm2axi-bridge.h:LookupAxID", "tlm-bridges/axi2tlm-bridge.h:GetFirstWithID", "tlm-bridges/axi2tlm-bridge.h:RunTLMTransaction"]}
{"id": "C29", "title": "CHI link-layer credits are conserved", "statement": "A flit is transmitted only with a credit, at most the maximum number of credits is ever outstanding, credits are neither created nor lost on a link that activates, runs and deactivates, and the receiver gets exactly the transmitted flits in order.", "quantifier": "all schedules of the two endpoints, all link-state sequences, all traffic", "why_tests_cant": "unbounded schedules", "anchors": ["tlm-bridges/private/chi/common.h:TxChannel", "tlm-bridges/private/chi/common.h:RxChannel", "tlm-bridges/private/chi/common.h:PortState"]}
{"id": "C30", "title": "CHI flits survive packing and unpacking", "statement": "Request, response, snoop and data flits unpack to the attribute and payload values from which they were packed.", "quantifier": "all field values and node-id/address/data widths", "why_tests_cant": "hundreds of bits per flit, all widths", "anchors": ["tlm-bridges/private/chi/pkts.h"]}
{"id": "C31", "title": "CHI transaction ids are unique while in use", "statement": "An id obtained from the id pool is not handed out again until it has been returned; no more than the pool size are in use.", "quantifier": "all histories of obtaining and returning ids, including blocked waiters", "why_tests_cant": "unbounded histories and schedules", "anchors": ["tlm-modules/private/chi/txnids.h"]}
{"id": "C32", "title": "CXS/CCIX packets survive transport over flits", "statement": "A sequence of TLPs sent over the CXS transmit link and received by the CXS receive link is delivered as the same sequence of CCIX messages, with credits conserved.", "quantifier": "all TLP sequences, lengths and schedules", "why_tests_cant": "unbounded sequences; packing across flits", "anchors": ["tlm-bridges/private/ccix/pkts.h", "tlm-bridges/private/ccix/txlink.h", "tlm-bridges/private/ccix/rxlink.h"]}
{"id": "C33", "title": "ACE cache coherence", "statement": "In a system of ACE caches and the ACE interconnect at most one cache holds a line uniquely, at most one holds it dirty, all valid copies of a line hold the same bytes, and a load returns the last value stored to that location.", "quantifier": "all histories of loads, stores, evictions and snoops from all masters", "why_tests_cant": "unbounded histories and interleavings", "anchors": ["tlm-modules/cache-ace.h", "tlm-modules/iconnect-ace.h"]}
{"id": "C34", "title": "CDMA copies exactly the programmed range", "statement": "Programming source, destination and length and letting the engine run copies exactly that many bytes from source to destination (as a forward copy in 64-byte blocks), touches nothing else, ends idle with the interrupt bit set, and always terminates.", "quantifier": "all addresses, lengths and memories", "why_tests_cant": "unbounded lengths, overlapping ranges", "anchors": ["soc/dma/xilinx-cdma.h:do_dma_copy", "soc/dma/xilinx-cdma.h:b_transport"]}
{"id": "C35", "title": "MCDMA transmits every descriptor once, in order", "statement": "For every enabled channel the engine streams the buffers of the descriptor chain from current to tail exactly once, in order, with the end-of-frame flag of the descriptor, marks them complete and goes idle at the tail.", "quantifier": "all descriptor chains and channel configurations", "why_tests_cant": "unbounded chains", "anchors": ["soc/dma/xilinx/mcdma/mcdma.cc:dma_thread"]}
{"id": "C36", "title": "Ethernet MAC statistics and FCS", "statement": "Each transmitted/received frame is counted in exactly one size bucket, total/good counters saturate instead of wrapping when extension is off, frames the MAC itself completed with an FCS pass the receiver's FCS check, and a frame corrupted by a burst of at most 32 bits is dropped and counted as bad.", "quantifier": "all frames, histories and counter values", "why_tests_cant": "all byte strings and unbounded histories", "anchors": ["soc/net/ethernet/xilinx/mrmac/mrmac.cc", "soc/net/ethernet/xilinx/mrmac/mrmac.h:stats_add", "utils/crc32.h"]}
{"id": "C37", "title": "Splitter replicates to every port and reports failure", "statement": "A splitter access is performed on every attached target in order with the same payload and the reported status is a failure if any target failed.", "quantifier": "all numbers of targets and outcomes", "why_tests_cant": "unbounded fan-out", "anchors": ["tlm-modules/tlm-splitter.h"]}
{"id": "C38", "title": "APB bridge protocol and data", "statement": "Each accepted access performs exactly one APB transfer (setup phase before access phase, signals stable until ready) with the right address and data, for any number of wait states; unsupported accesses are rejected without bus activity.", "quantifier": "all accesses and all wait-state schedules", "why_tests_cant": "unbounded wait states", "anchors": ["tlm-bridges/tlm2apb-bridge.h:b_transport"]}
{"id": "C39", "title": "Wishbone bridge transfers every byte to its address", "statement": "The bus cycles issued for an access cover each byte of the access exactly once, at its address and lane with its select bit, and never touch bytes outside the buffer.", "quantifier": "all addresses, lengths and data", "why_tests_cant": "unbounded lengths and alignments", "anchors": ["tlm-bridges/tlm2wishbone-bridge.h:b_transport", "tlm-bridges/wishbone2tlm-bridge.h"]}
{"id": "C40", "title": "Native memory bridge", "statement": "An access through the native-memory bridge reads/writes exactly the enabled bytes at their (streaming) addresses and is rejected if it does not fit in the mapped size; a read returns the last value written to each byte.", "quantifier": "all accesses, histories and memories", "why_tests_cant": "unbounded histories", "anchors": ["tlm-bridges/tlm2native-bridge.h:b_transport"]}
{"id": "C41", "title": "UMI bridges", "statement": "The UMI messages issued for an access cover it exactly once in order, a UMI target bridge recovers the same byte count, address and data, responses cover the requested bytes exactly and mark only the last one as end-of-message; command words survive packing.", "quantifier": "all accesses and command fields", "why_tests_cant": "unbounded lengths", "anchors": ["tlm-bridges/tlm2umi-bridge.h", "tlm-bridges/umi2tlm-bridge.h"]}
{"id": "C42", "title": "Random traffic stays inside its window", "statement": "Every access generated by the random traffic generator lies inside the configured address window, has a length within limits, a legal non-zero streaming width, and every generated write is followed by a read of the same range.", "quantifier": "all random sequences and configurations", "why_tests_cant": "all seeds", "anchors": ["traffic-generators/random-traffic.h:genAddrLen", "traffic-generators/random-traffic.h:getCmd"]}
{"id": "C43", "title": "I/O memory copy helpers", "statement": "Copying to/from I/O space transfers exactly the requested bytes using only naturally aligned accesses.", "quantifier": "all addresses, lengths and data", "why_tests_cant": "all alignments and lengths", "anchors": ["utils/dev-access.h"]}
{"id": "C44", "title": "Received packets are processed inside the receive buffer", "statement": "Whatever bytes the peer sends, a received packet is either processed using only bytes of that packet and entries of the device table that exist, or refused; in particular its meaning does not depend on earlier packets and nothing outside the receive buffer is read or written.", "quantifier": "all packet contents (including malformed ones) and all histories of earlier packets", "why_tests_cant": "adversarial packet contents", "anchors": ["libremote-port/remote-port-tlm.cc:rp_process", "libremote-port/remote-port-proto.c:rp_decode_payload", "libremote-port/remote-port-proto.h:rp_busaccess_byte_en_ptr", "libremote-port/remote-port-proto.h:rp_busaccess_rx_dataptr", "libremote-port/remote-port-tlm-memory-slave.cc:b_transport"]}
{"id": "C45", "title": "Every request to the coherent ACE system completes, exactly and in order", "statement": "Whatever loads, stores and cache maintenance operations the masters issue and however the simulator interleaves them, the system never deadlocks or livelocks: as long as a request is unfinished some process can run, and without new requests it comes to rest with all requests finished. The bytes a master has read and written are at any time a prefix of what its requests asked for, each byte once, in order, and all of them when it is idle.", "quantifier": "all cache configurations, request sequences of all masters and all interleavings", "why_tests_cant": "deadlocks show up in rare interleavings of snoops, write-outs and overlapping transactions", "anchors": ["tlm-modules/cache-ace.h:handle_load", "tlm-modules/cache-ace.h:handle_store", "tlm-modules/iconnect-ace.h:OverlappingTxOrderer", "tlm-modules/iconnect-ace.h:process_snoop", "tlm-modules/iconnect-ace.h:restart_overlapping"]}
{"id": "C46", "title": "AXI4-Lite bridges move every byte to its address and answer each request once, in order", "statement": "A TLM access of any address, length, byte enables and streaming width sent through the AXI4-Lite bridge (with its alignment front end) has the effect of the same access on the memory behind the bus; a bus master's access through the opposite bridge writes exactly the strobed lanes and reads the addressed word. Each call is one transfer per channel; accepted bus requests are answered once each, in order, with the target's answer, the n-th write data going with the n-th address; a reset ends the calls under way.", "quantifier": "all transactions, memories, bus widths 2^k, and all interleavings of both sides' handshakes and resets", "why_tests_cant": "byte-lane corner cases and handshake interleavings cannot be enumerated", "anchors": ["tlm-bridges/tlm2axilite-bridge.h:b_transport", "tlm-bridges/tlm2axilite-bridge.h:write_data_phase", "tlm-bridges/tlm2axilite-bridge.h:reset", "tlm-bridges/axilite2tlm-bridge.h:write_data_phase", "tlm-bridges/axilite2tlm-bridge.h:b_transport_thread"]}
{"id": "C47", "title": "The AXI protocol checker reports violations, and only violations", "statement": "For any traffic on an AXI port the protocol checker reports a master or slave that changes or withdraws an offered transfer, read beats and responses that do not belong to an outstanding transaction, bursts of the wrong length, strobes outside the addressed lanes, bursts that cross a 4 KiB page and malformed wrapping bursts, and it reports a missing handshake after the configured number of cycles while something is due; traffic that follows the protocol is never reported.", "quantifier": "all traces of all five channels, all transactions, identifiers, strobes, bus widths and configurations", "why_tests_cant": "a checker's misses and false alarms appear only on particular interleavings and corner-case bursts", "anchors": ["checkers/checker-utils.h:monitor_xchannel_stable", "checkers/checker-axi.h:check_rd_tx", "checkers/checker-axi.h:check_wr_tx", "checkers/checker-axi.h:check_address_alignment", "checkers/checker-axi.h:check_burst_length", "checkers/checker-utils.h:axi_handshakes_checker"]}
{"id": "C48", "title": "Accesses through the PCIe bridge reach the device, and the device's accesses reach memory, unchanged", "statement": "A TLM access to configuration or memory space through the TLM-to-TLP bridge becomes a well-formed PCIe request packet with the caller's identifiers that has the effect of the access on the device: writes change exactly the enabled bytes, reads return the device's bytes, failures are reported. Requests are sent one at a time, each call returns once and only because of a completion with its own identifiers. Memory requests of the device are carried out in order of arrival and its reads are answered once each with the memory's contents.", "quantifier": "all accesses, packets, memories and all interleavings of calls, received packets and internal processes", "why_tests_cant": "lengths, alignments, byte enables and packet orders cannot be enumerated", "anchors": ["tlm-bridges/tlm2tlp-bridge.h:TLP_Mem", "tlm-bridges/tlm2tlp-bridge.h:TLP_Conf", "tlm-bridges/tlm2tlp-bridge.h:TLP_Cpl", "tlm-bridges/tlm2tlp-bridge.h:transmitTLP", "tlm-bridges/tlm2tlp-bridge.h:b_transport", "tlm-bridges/tlm2tlp-bridge.h:dma_thread"]}
{"id": "C49", "title": "Each doorbell makes the QDMA execute exactly the posted descriptors, report them, and interrupt once", "statement": "Writing a producer index to a queue's doorbell makes the device execute the descriptors between the consumer and the producer index, in ring order, each once and each with exactly the effect it describes; then it updates the status descriptor (if enabled) and only then raises one interrupt, directly or through an interrupt-ring entry that names the queue, direction, indices and the ring's colour. Over any history no descriptor is skipped or repeated and ring entries go to consecutive slots with the colour flipping at each wrap. Queue contexts and registers keep what is written to them and queues do not disturb each other.", "quantifier": "all ring and descriptor sizes, indices, memories, contexts, interrupt configurations and histories of register accesses, memory changes and resets, both generations of the device", "why_tests_cant": "index wrap-arounds, colours and interleavings of queues depend on the whole history", "anchors": ["soc/pci/xilinx/qdma.h:run_mm_dma", "soc/pci/xilinx/qdma.h:do_mm_dma", "soc/pci/xilinx/qdma.h:write_irq_ring_entry", "soc/pci/xilinx/qdma.h:handle_ctxt_cmd", "soc/pci/xilinx/qdma.h:handle_irq_ctxt_cmd", "soc/pci/xilinx/qdma.h:config_bar_b_transport", "soc/pci/xilinx/qdma.h:msix_strobe", "soc/pci/xilinx/qdma-ctx.inc:sw_ctx_cpm5"]}
{"id": "C50", "title": "The caches of a CHI system show their users one memory", "statement": "Loads and stores through any number of coherent CHI caches connected to one interconnect and one slave node behave like accesses to a single memory: a store takes effect once, at one moment between its start and its end; a load returns bytes its line had at one moment between its start and its end. A line a cache may write is in no other cache, all copies are equal, no store is lost when lines are given up, and no assertion fails.", "quantifier": "all numbers of caches and lines, initial memories, sequences of loads and stores with any byte enables, random protocol choices, and interleavings of processes, messages and memory accesses", "why_tests_cant": "a violation needs a particular interleaving of two or three requests, snoops and memory accesses; the interleavings cannot be enumerated", "anchors": ["tlm-modules/cache-chi.h:HandleLoad", "tlm-modules/cache-chi.h:HandleStore", "tlm-modules/cache-chi.h:HandleSnp", "tlm-modules/iconnect-chi.h:ProcessReq", "tlm-modules/iconnect-chi.h:ProcessSnpdReq", "tlm-modules/iconnect-chi.h:CheckSnpDone", "tlm-modules/sn-chi.h", "tlm-modules/private/chi/txns-rn.h", "tlm-modules/private/chi/cacheline.h"]}
{"id": "C51", "title": "Accesses to the caches of a CHI system end", "statement": "Every load and store started at a cache of a coherent CHI system ends. At no time is the system stuck: while an access, a request, a snoop or a memory write is under way some step can happen, everything under way can be finished without starting anything new, and no assertion fails on the way.", "quantifier": "all numbers of caches and lines, initial memories, histories of loads and stores, random protocol choices, with and without direct cache transfer, and interleavings of processes and messages, including those in which data races happen", "why_tests_cant": "a dead end or an endless exchange shows only under a particular interleaving, and no finite run shows that an access never ends", "anchors": ["tlm-modules/cache-chi.h:HandleLoad", "tlm-modules/cache-chi.h:HandleStore", "tlm-modules/iconnect-chi.h:ProcessReq", "tlm-modules/iconnect-chi.h:ProcessSnpdReq", "tlm-modules/iconnect-chi.h:CheckSnpDone", "tlm-modules/private/chi/txns-rn.h"]}
{"id": "C52", "title": "A CHI slave node carries out each request once, on memory", "statement": "Each read, write, atomic and maintenance request a CHI slave node accepts is carried out and answered exactly once. Memory and the data sent back are those of carrying the requests out one after the other as the CHI specification describes them, whatever the order in which requests and data messages come; reads keep their order, a requester is sent away at most once in a row, and nothing accepted can get stuck.", "quantifier": "all memory contents, request sequences, operands and byte enables, widths and orders of data messages, retries and interleavings of the node's processes", "why_tests_cant": "the effect depends on the order in which data messages of different requests arrive, on every operand value and on what is left in buffers by earlier requests", "anchors": ["tlm-modules/sn-chi.h:SlaveNode_SN", "tlm-modules/sn-chi.h:ReqTxn", "tlm-modules/sn-chi.h:Process", "tlm-modules/sn-chi.h:HandleAtomic", "tlm-modules/sn-chi.h:CopyData", "tlm-bridges/amba-chi.h:Req"]}
{"id": "C53", "title": "Accesses a CHI cache passes on touch just the addressed bytes", "statement": "A read or write to a non-shareable region issued at a CHI cache, and an atomic issued there, has on memory just the effect it asks for: reads return memory, writes change the enabled bytes, atomics apply their operation to the addressed bytes and return what was there before.", "quantifier": "all addresses, lengths, byte enables, data, operands, memory contents and leftovers in the buffers on the way", "why_tests_cant": "the path runs through four copies with different offsets and lengths; which bytes survive depends on alignment, length, enables and buffer leftovers together", "anchors": ["tlm-modules/cache-chi.h:b_transport", "tlm-modules/cache-chi.h:WriteNoSnp", "tlm-modules/cache-chi.h:ReadNoSnp", "tlm-modules/cache-chi.h:AtomicNonStore", "tlm-modules/private/chi/txns-rn.h:AtomicTxn", "tlm-modules/private/chi/txns-rn.h:WriteTxn", "tlm-modules/iconnect-chi.h:CopyData", "tlm-modules/iconnect-chi.h:IsSnoopingReq"]}
{"id": "C54", "title": "The hardware bridge's AXI bursts reach TLM memory byte for byte", "statement": "An AXI burst received by the PCIe host bridge's AXI slave has on the TLM memory behind it the effect AXI gives it: each strobed lane of each beat is written to its address, in order, and each lane a read asks for gets the byte at its address; the bridge stays inside its buffers, and every descriptor gets its own response.", "quantifier": "all bus widths, burst types, beat sizes, alignments, lengths up to the protocol's limits, strobes, data, memory contents and leftovers in the buffers", "why_tests_cant": "bytes are moved in place inside one buffer while later beats still lie in it; whether a move destroys bytes not yet moved, or a wrapped beat is looked for on the wrong lane, depends on address, beat size, bus width and burst type together", "anchors": ["rtl-bridges/pcie-host/axi/tlm/axi2tlm-hw-bridge.h:process_desc_free", "rtl-bridges/pcie-host/axi/tlm/axi2tlm-hw-bridge.h:process_be", "tlm-modules/tlm-wrap-expander.h:b_transport", "tlm-bridges/amba.h:tlm_gp_get_axi_resp"]}
{"id": "C55", "title": "TLM accesses through the hardware bridge reach the AXI bus byte for byte", "statement": "A TLM read or write sent to the PCIe host bridge's AXI master is carried out on the AXI bus as legal bursts whose combined effect on the memory there, and on the caller's buffer, is exactly the access (length, alignment, streaming width, byte enables, address offset); the status is that of the first burst that fails, after which nothing more is issued.", "quantifier": "all bus widths of the hardware, AXI3, AXI4 and AXI-Lite, addresses, lengths, streaming widths, byte enables, data, response codes, leftovers in the hardware's buffers and junk on unused lanes", "why_tests_cant": "strobes are in part generated by the hardware from address and size and in part written by the bridge; whether the two agree depends on alignment, size, bus width and byte enables, and on how the splitter in front cut the access", "anchors": ["rtl-bridges/pcie-host/axi/tlm/tlm2axi-hw-bridge.h:b_transport", "rtl-bridges/pcie-host/axi/tlm/tlm2axi-hw-bridge.h:desc_access", "rtl-bridges/pcie-host/axi/tlm/tlm2axi-hw-bridge.h:desc_setup_wstrb", "rtl-bridges/pcie-host/axi/tlm/tlm-hw-bridge-base.h:dev_copy_from", "tlm-modules/tlm-aligner.h:b_transport"]}
{"id": "C56", "title": "MACsec frames survive encryption and decryption in the crypto block", "statement": "A frame sent into the crypto block's encryption port leaves as its addresses, an IEEE 802.1AE SecTAG carrying the configured fields, the payload with everything beyond the confidentiality offset masked by the selected key, and an ICV; fed into a decryption port with the same key and settings it comes back unchanged. A packet may be handed over in several transactions; streams never disturb keys, registers or other ports.", "quantifier": "all frames and lengths, keys, key selections, cipher suites, confidentiality offsets, SecTAG inputs, ports, histories of transactions and uninitialised memory contents", "why_tests_cant": "the result depends on the phase of the repeating key on the two sides, on signed narrow inputs and on buffer arithmetic over the frame length; tests send a few fixed frames with one suite", "anchors": ["soc/crypto/xilinx/hsc/hsc.cc:plain_input_stream_b_transport", "soc/crypto/xilinx/hsc/hsc.cc:encrypted_input_stream_b_transport", "soc/crypto/xilinx/hsc/hsc.cc:reset_thread", "soc/crypto/xilinx/hsc/hsc.h:fixed_common"]}
{"id": "C57", "title": "The crypto block's key store holds 1024 separate, unreadable keys", "statement": "Through the register interface software can store each of the 1024 keys per direction and read back only a CRC-32 digest of it: storing a key changes no other key, registers keep what is written, read-only registers cannot be changed, accesses outside the map are refused, keys never show in any register, and a reset clears them.", "quantifier": "all sequences of register accesses of any length, addresses, widths and data, both directions, all key numbers and key contents", "why_tests_cant": "tests store keys 0 and 1023 only; interference between neighbours and leaks through other addresses appear only over all pairs of key numbers and all addresses", "anchors": ["soc/crypto/xilinx/hsc/hsc.cc:user_if_b_transport", "soc/crypto/xilinx/hsc/hsc.cc:reg_indirect_access", "soc/crypto/xilinx/hsc/hsc.h:encoder_keys", "utils/crc32.h:crc32"]}
{"id": "C58", "title": "Accesses and interrupts of a VFIO device come through unchanged", "statement": "Through the VFIO bridge a simulated bus master sees the mapped device region at the bridge's offset: accesses in the region move exactly the addressed bytes, by transport and by DMI alike, and accesses outside it are refused. An active interrupt line of the device always shows at the bridge's output, whatever the interleaving of device, kernel, polling thread, bus accesses and simulator; the output drops once the interrupt is acknowledged with the line low; no interrupt is made up; the bridge settles in a bounded number of steps. DMA buffers are separate and inside their mapping.", "quantifier": "all regions, offsets, commands, addresses, lengths and data; all interleavings of the five parties without bound; all pool sizes", "why_tests_cant": "the threads interleave freely with the simulation kernel, and a lost interrupt needs a particular order of mask, read, acknowledge and notify steps", "anchors": ["tlm-bridges/tlm2vfio-bridge.h:b_transport", "tlm-bridges/tlm2vfio-bridge.h:irq_ack", "tlm-bridges/tlm2vfio-bridge.h:irq_poll", "tlm-bridges/tlm2vfio-bridge.h:irq_proxy", "tlm-bridges/tlm2vfio-bridge.h:get_direct_mem_ptr", "tlm-bridges/tlm2vfio-bridge.h:tlm_mm_vfio", "utils/vfio/vfio-ll.h:unmask_irq", "utils/async_event.h:async_event"]}
{"id": "C59", "title": "A snoop over the ACE snoop channels is answered by the snooped cache's own answer", "statement": "A TLM snoop submitted at the slave-side ACE bridge reaches the snooped master's cache with its address, type and security, in submission order; its caller gets that very snoop's answer: status, response attributes and cache line. No snoop is lost, answered twice or mixed with another, at most 16 are outstanding at the master, and the channels always make progress and finish.", "quantifier": "all sequences of snoops and answers, with and without data, all bus and line widths, all interleavings of the AC, CR and CD threads on both sides", "why_tests_cant": "responses and data travel on two channels that overtake each other; a mix-up needs a particular interleaving of dataless and data-bearing answers", "anchors": ["tlm-bridges/private/ace/snoop-channels.h:ACESnoopChannels_S", "tlm-bridges/private/ace/snoop-channels.h:ACESnoopChannels_M", "tlm-bridges/ace2tlm-bridge.h:b_transport_snoop", "tlm-bridges/tlm2ace-bridge.h:b_transport_snoop"]}
{"id": "C60", "title": "Snoops and responses to the same cache line never cross at the ACE bridges", "statement": "While a snoop is outstanding towards a master, no response to that master's own transaction on the same bytes is in progress, and a snoop is sent only after earlier responses and snoops on its line are complete; a DVMComplete is sent only after the response to the DVM Sync it completes; and this keeps working after resets.", "quantifier": "all address ranges, all numbers of concurrent snoops and responses, all interleavings, resets at any moment", "why_tests_cant": "the protection is spread over a list, three locks and counters used by five threads; violations need two concurrent snoops or a reset at the wrong moment", "anchors": ["tlm-bridges/private/ace/snoop-channels.h:ACELock", "tlm-bridges/private/ace/snoop-channels.h:wait_for_overlapping_tx", "tlm-bridges/private/ace/snoop-channels.h:wait_for_response_channels", "tlm-bridges/axi2tlm-bridge.h:read_resp_phase", "tlm-bridges/axi2tlm-bridge.h:write_resp_phase", "tlm-bridges/tlm2axi-bridge.h:read_address_phase", "tlm-bridges/amba-ace.h:IsDVMSync"]}
{"id": "C61", "title": "A CHI request sent to another chip over CCIX arrives as the same request with the same data", "statement": "A request a CHI node makes of a home on the other chip reaches that home with its opcode, address, identifiers, security, quality of service and kind of memory; the data of a write or atomic arrives with the same bytes enabled and the same values, whether a part of a line or a whole line, and so also after packing into CXS packets.", "quantifier": "all requests of every opcode, every address, length, memory kind and data, with any packet header", "why_tests_cant": "the translation goes through three encodings (CHI, CCIX, TLP bytes), with the placement of the data depending on opcode, memory kind, address and size together", "anchors": ["tlm-modules/private/ccix/ccixport.h:CCIXReq", "tlm-modules/private/ccix/ccixport.h:CopyData", "tlm-modules/private/ccix/ccixport.h:GenerateData", "tlm-bridges/tlm2cxs-bridge.h", "tlm-bridges/cxs2tlm-bridge.h"]}
{"id": "C62", "title": "Answers and snoops between two chips mean the same on both", "statement": "The bytes a request over CCIX asked for come back in their places in the requester's line; the state an answer gives is the state the requester gets; a snoop makes on the other chip's caches the demand the home made; and a cache's answer to a snoop arrives with its state and its responsibility for dirty data.", "quantifier": "all requests, answers, snoops and snoop answers", "why_tests_cant": "the tables are opcode by attribute; a wrong or missing entry shows only for that pair", "anchors": ["tlm-modules/private/ccix/ccixport.h:CCIXResp", "tlm-modules/private/ccix/ccixport.h:CCIXSnpReq", "tlm-modules/private/ccix/ccixport.h:CCIXSnpResp"]}
{"id": "C63", "title": "A home that snoops its own and another chip's caches collects every answer, and then knows all copies", "statement": "For a request the home snoops every cache that may hold the line, on its own ports and behind its CCIX ports; when it answers, all snoops have been answered; afterwards a line given exclusively has no other copy, and the home knows every chip that holds a copy; snooping never blocks or aborts.", "quantifier": "all arrangements of caches on ports, all requests, all orders of answers, silent evictions at any moment", "why_tests_cant": "the home counts answers per port, the ports broadcast per chip; two caches behind one port and the order of their answers decide", "anchors": ["tlm-modules/iconnect-chi.h:SnoopFilter", "tlm-modules/iconnect-chi.h:TransmitSnoop", "tlm-modules/private/ccix/ccixport.h:Receive_CCIXSnpReq", "tlm-modules/private/ccix/ccixport.h:ProcessResp"]}
{"id": "C64", "title": "A request that one chip sends another finds room there, and all credits and identifiers come back", "statement": "A CCIX port never sends a request, write or snoop without a credit of its kind; a message that arrives always finds a free identifier; credits are neither made nor lost, so that sending resumes whenever the other side has finished; and a write from a request node is sent on once and its identifier is free again when its data and acknowledgement have come, in whatever order.", "quantifier": "all interleavings of sending, receiving, finishing and granting, of requests with and without data, atomics and snoops", "why_tests_cant": "256 messages must be outstanding before a mistake shows", "anchors": ["tlm-modules/private/ccix/ccixport.h:CCIXLink", "tlm-modules/private/ccix/ccixport.h:LinkCredits", "tlm-modules/private/ccix/ccixport.h:UpdateRxCredits", "tlm-modules/private/ccix/ccixport.h:ProcessDat"]}
{"id": "C65", "title": "An access through the ACE hardware bridges does what it means on the bus behind them, and a burst they receive does what it means in the TLM model", "statement": "A TLM access through the bridge to the ACE master hardware reads or writes the bytes it names and no others, as one burst the protocol allows, and returns the burst's response as its status; a burst that the ACE slave hardware receives reads or writes in the TLM target the bytes the protocol says; and the attribute lines (burst type, lock, cache, protection, quality of service, region, barrier, domain, snoop) survive the register between driver and hardware.", "quantifier": "all addresses, lengths, streaming widths, byte enables, bus widths, burst types and attributes, whatever the memories of the hardware held before", "why_tests_cant": "the data goes through row-addressed memories and a length register counted in bus words: alignment, width and size decide together which bytes are moved", "anchors": ["rtl-bridges/pcie-host/ace/tlm/tlm2ace-hw-bridge.h:b_transport", "rtl-bridges/pcie-host/ace/tlm/tlm2ace-hw-bridge.h:push_wdata_wstrb", "rtl-bridges/pcie-host/ace/tlm/ace2tlm-hw-bridge.h:pop_aw_ch_fifo", "rtl-bridges/pcie-host/ace/tlm/ace2tlm-hw-bridge.h:pop_wdata_wstrb"]}
{"id": "C66", "title": "Several accesses at once through the ACE hardware bridges each get their own data and their own answer, exactly once", "statement": "When several TLM accesses are in flight through the bridge to the ACE master hardware, each write carries its own data, and each call returns exactly once, with the response to its own access; every call returns even if a reset comes. In the other direction every read response to the ACE master carries the data of its request, every request reaches the TLM model once, responses go on after each acknowledgement, and every snoop asks for its own address.", "quantifier": "all sets of accesses and identifiers, all orders in which the bus answers different identifiers, and all interleavings of the processes with the hardware", "why_tests_cant": "the processes share one data memory, one descriptor index and events that are not remembered; only a particular order of register accesses and bus activity mixes them up", "anchors": ["rtl-bridges/pcie-host/ace/tlm/tlm2ace-hw-bridge.h:address_phase", "rtl-bridges/pcie-host/ace/tlm/tlm2ace-hw-bridge.h:LookupAxID", "rtl-bridges/pcie-host/ace/tlm/ace2tlm-hw-bridge.h:read_data_phase", "rtl-bridges/pcie-host/ace/tlm/ace2tlm-hw-bridge.h:RunTLMTransaction", "rtl-bridges/pcie-host/ace/tlm/private/ace-slv-snp-chnls.h:push_on_ac_ch"]}
{"id": "C67", "title": "Address translations and invalidations over a remote port come through unchanged", "statement": "A translation request of a device model reaches the peer with its attributes, address and length; the caller gets exactly the peer's answer (address, attributes, length, result). An invalidation of the peer reaches the device model with its range and attributes and is answered under its own identifier. Accesses made with a translated address are marked as such, and only those.", "quantifier": "all requests, all peers (any translation function), all invalidations, attributes, lengths and results", "why_tests_cant": "the fields travel through packed big-endian structures and share a protocol with other packets; a test covers a few translations only", "anchors": ["libremote-port/remote-port-tlm-ats.cc:b_transport", "libremote-port/remote-port-tlm-ats.cc:cmd_ats_inv_null", "libremote-port/remote-port-proto.c:rp_encode_ats_common", "libremote-port/remote-port-tlm.cc:rp_process", "tlm-extensions/atsattr.h"]}
{"id": "C68", "title": "The CHI hardware bridge moves flits between the link and TLM without loss, in order", "statement": "Every CHI flit handed to the bridge is put on the link by the hardware, unchanged, once and in the order handed over; every flit that arrives from the link is passed on to TLM, unchanged, once and in order of arrival, and none is left waiting without an interrupt. This holds however hardware and software interleave.", "quantifier": "all flits and flit widths that fit the hardware, all channels, all interleavings of register accesses, arrivals and sends, histories of any length", "why_tests_cant": "descriptors wrap around after 15, words and bytes are cut and put together again for every width, and interrupt and ownership registers race with the hardware; a test sees one timing and one width", "anchors": ["rtl-bridges/pcie-host/chi/tlm/chi2tlm-hwb-rnf.h:work_thread", "rtl-bridges/pcie-host/chi/tlm/chi2tlm-hwb-rnf.h:transmitRspPkt", "rtl-bridges/pcie-host/chi/tlm/chi2tlm-hwb-rnf.h:get_rxdat", "rtl-bridges/pcie-host/chi/tlm/tlm2chi-hwb-rnf.h", "rtl-bridges/pcie-host/chi/tlm/private/chi-regs.h"]}
{"id": "C69", "title": "The traffic generator performs every programmed transfer once, in order, and reports exactly the failures", "statement": "Given a list of programmed transfers, the generator issues each once, in order, with the address, command, data, byte enables, streaming width and attributes programmed; it reports an error exactly for the transfers answered with an error and those whose data is not what was expected. Several sets may be given to one thread: each is run, in the order given, and the end of each is announced to its own callback.", "quantifier": "all lists of transfers, all targets and their states, all interleavings of adding sets with the running threads", "why_tests_cant": "each transfer's outcome depends on everything before it, and sets are added by other processes at any moment; a script tests one list against one target with one timing", "anchors": ["traffic-generators/tg-tlm.h:generate", "traffic-generators/tg-tlm.h:process", "traffic-generators/tg-tlm.h:addTransfers", "traffic-generators/traffic-desc.h:setExtensions", "traffic-generators/data-transfer.h"]}
{"id": "C70", "title": "Transfers in a configuration file are read exactly, survive being written and read back, and incomplete ones are reported", "statement": "Numbers written in decimal or hexadecimal, as texts or as numbers, are read as what they stand for. Transfers written to a file and read back are the same. An entry in which a member is missing or of the wrong kind is reported; one without an error is complete.", "quantifier": "all documents, all texts, all transfers and vectors of transfers of any length", "why_tests_cant": "texts and documents are unbounded and most malformed ones are never tried; a test reads a few good files", "anchors": ["traffic-generators/config-parser/parser.cc:Deserialize", "traffic-generators/config-parser/parser.cc:Serialize", "traffic-generators/config-parser/parser.cc:deserializeSingleObject", "traffic-generators/config-parser/parser.cc:serializeSingleObject", "traffic-generators/config-parser/deserializer.cc:StringInflator", "traffic-generators/config-parser/deserializer.cc:RandomInflator"]}
{"id": "C71", "title": "Messages sent through the CXS hardware bridge arrive once, in order and unchanged, and no call or message is left behind", "statement": "Whatever calls, interrupts, descriptor hand-overs and arriving flits interleave, the flits the hardware puts on the link carry the messages in the order in which the calls were served, each once; a call returns only after its flits left the descriptors; no descriptor is written while the hardware owns any; everything that arrives is handed over in order, and every call can complete. Two bridges joined by an order-keeping link hand over exactly what was sent.", "quantifier": "all flit widths and packet counts of the bridge, all messages, any number of calls from any number of processes, all interleavings of register accesses, worker, hardware and arriving flits", "why_tests_cant": "the outcome depends on where in the register accesses the hardware and other processes run; a test drives a few schedules on a simulator", "anchors": ["rtl-bridges/pcie-host/cxs/tlm/tlm2cxs-hw-bridge.h:transmitTLP", "rtl-bridges/pcie-host/cxs/tlm/tlm2cxs-hw-bridge.h:SetupFlit", "rtl-bridges/pcie-host/cxs/tlm/tlm2cxs-hw-bridge.h:receive_flit", "rtl-bridges/pcie-host/cxs/tlm/tlm2cxs-hw-bridge.h:work_thread", "rtl-bridges/pcie-host/cxs/rtl/common/cxs_register_interface.v", "rtl-bridges/pcie-host/cxs/rtl/common/cxs_txflit_mgmt.v"]}
{"id": "C72", "title": "The ACE protocol checker reports a trace exactly if it breaks a rule of the checks it has", "statement": "For every trace of the signals: the read, write, snoop, barrier, acknowledge and snoop-data checks report nothing exactly if the addresses, attributes, data, strobes and answers are those ACE allows for the transactions in flight - answers and data in order, with the right number of beats, a last beat where it belongs and a response the transaction permits - barriers come in matching pairs, acknowledgements follow the answers in time, and data are given for snoops of lines held and for no others.", "quantifier": "all traces of any length of the handshakes of an ACE port, all interleavings of channels and identifiers, all line and bus sizes", "why_tests_cant": "the checker is itself the test oracle: that it accepts every legal history and rejects every illegal one concerns all histories, not the ones a test happens to produce", "anchors": ["checkers/checker-ace.h:rd_check", "checkers/checker-ace.h:wr_check", "checkers/checker-ace.h:ace_snoop_ch_check", "checkers/checker-ace.h:ace_barrier_check", "checkers/checker-ace.h:rack_wack_check", "checkers/checker-ace.h:ace_cd_data_check", "checkers/pc-ace.h:ACEProtocolChecker"]}
{"id": "C73", "title": "The CHI protocol checker reports a history of flits exactly if it breaks a rule of the checks it has", "statement": "For every history of flits at a CHI requester: requests are reported exactly if a field has a value the opcode does not allow, link credits exactly if a flit is sent without one or more than fifteen are given, and transactions exactly if a response, data or acknowledgement comes that no request or snoop in flight expects; when requests are told to retry, credits granted, used and returned as the specification says nothing is reported, and a request sent with a credit it was not told to use is.", "quantifier": "all histories of request, response, data and snoop flits in both directions, of any length and with any number of transactions in flight", "why_tests_cant": "the checker is the test oracle: that it accepts every legal history and rejects every illegal one concerns all histories, not those a test happens to produce", "anchors": ["checkers/checker-chi.h:check_requests", "checkers/checker-chi.h:check_ch_lcredits", "checkers/checker-chi.h:check_txn_flows", "checkers/checker-chi.h:check_request_retry", "checkers/flits-chi.h:FlitsCHI", "checkers/pc-chi.h:CHIProtocolChecker"]}
{"id": "C74", "title": "The data RAM allocator of the RTL slave bridges never hands out a piece of RAM that is in use", "statement": "For every history of requests, descriptor attachments, releases and interruptions that keeps to the port protocol, the pieces of data RAM the allocator has handed out and not yet taken back lie inside the RAM and do not overlap, an answer never names a node that is still in use, and a request is refused only if no gap between the pieces in use is large enough or no node is free; a piece that is released can be handed out again.", "quantifier": "all RAM sizes and all clock cycle histories at the allocator's ports, of any length, that keep to the protocol", "why_tests_cant": "an overlap needs a particular interleaving of bursts of particular lengths with releases, and the allocator takes several cycles over each; only an invariant over all cycles settles it", "anchors": ["rtl-bridges/pcie-host/axi/rtl/slave/addr_allocator.v:addr_allocator", "rtl-bridges/pcie-host/ace/rtl/slave/ace_addr_allocator.v:ace_addr_allocator"]}
{"id": "C75", "title": "The FIFO of the RTL bridges is a bounded queue, and its early output is the next element", "statement": "For every depth that is a power of two and every history of writes and reads, simultaneous ones included, the element count, the empty, full and threshold outputs and the data output of the FIFO are those of a bounded queue in which a write to a full queue and a read of an empty one do nothing; whenever the early output is said to be valid it is the element the next read gives.", "quantifier": "all element types, all power-of-two depths and all histories of write and read requests of any length", "why_tests_cant": "full, empty and the pointers are separate registers updated by different rules; they agree only by an invariant over every history, and the early output is read in the cycle in which the memory changes", "anchors": ["rtl-bridges/pcie-host/axi/rtl/common/sync_fifo.v:sync_fifo", "rtl-bridges/pcie-host/ace/rtl/common/sync_fifo.v:sync_fifo", "rtl-bridges/pcie-host/axi/rtl/common/defines_common.vh:CLOG2"]}
{"id": "C76", "title": "The RTL master bridge hands out every descriptor once for each time its ownership is given", "statement": "For every history of ownership writes, each time software gives the ownership of a descriptor to the hardware the descriptor is handed out exactly once, for a write or a read as its type says; a descriptor never waits for ever for its place, and the next write is handed out only after the address handshake of the last.", "quantifier": "all histories, of any length, of ownership register values, descriptor types, handshakes and hold-offs, any number of descriptors given at once", "why_tests_cant": "whether a pending bit is lost or a descriptor queued twice depends on the cycle in which ownership is given relative to the state machine; there are unboundedly many interleavings of sixteen descriptors", "anchors": ["rtl-bridges/pcie-host/axi/rtl/common/descriptor_allocator_uc_master.v:descriptor_allocator_uc_master", "rtl-bridges/pcie-host/ace/rtl/common/descriptor_allocator_uc_master.v:descriptor_allocator_uc_master"]}
{"id": "C77", "title": "The CHI and CXS RTL bridges send every flit once, in order and with a credit", "statement": "For every history in which software gives flits in the order of the ring and the link stays up, every flit given goes over the wires once, in that order and unchanged, within seven cycles of there being a flit and a credit, and only with a credit; when the link is taken down and brought up again every credit granted is held, was used by a flit or is given back.", "quantifier": "all flit types and contents, all RAM contents at reset, all histories of any length of register writes, flits, credit grants and link states", "why_tests_cant": "sending, clearing of ownership and the credit counter are pipelined over several cycles against software and the other side acting in any cycle; whether a flit or credit is lost depends on unboundedly many interleavings", "anchors": ["rtl-bridges/pcie-host/chi/rtl/common/chi_txflit_mgmt.v:chi_txflit_mgmt", "rtl-bridges/pcie-host/cxs/rtl/common/cxs_txflit_mgmt.v:cxs_txflit_mgmt", "rtl-bridges/pcie-host/chi/rtl/common/chi_link_credit_manager.v:chi_link_credit_manager", "rtl-bridges/pcie-host/cxs/rtl/common/cxs_link_credit_manager.v:cxs_link_credit_manager", "rtl-bridges/pcie-host/chi/rtl/common/chi_channel_if.v:chi_channel_if", "rtl-bridges/pcie-host/cxs/rtl/common/cxs_channel_if.v:cxs_channel_if", "rtl-bridges/pcie-host/chi/rtl/common/chi_txflit_ram.v:chi_txflit_ram"]}
{"id": "C78", "title": "The CHI and CXS RTL bridges hand software every flit received once and in order, and grant credits for free places only", "statement": "For every history in which the other side sends only with credits and software gives places back in the order of the ring, software finds every flit sent, once, in order and unchanged, three cycles after it was sent; the other side never holds more credits than there are free places, so no flit is overwritten; within seventeen cycles every place given back is granted again, and after low power so is every credit given back.", "quantifier": "all flit types and contents, all RAM contents at reset, all histories of any length of register writes, flits, credit returns, link states and low power requests", "why_tests_cant": "receive registers, ownership, the give-back counter and the credit counter lag each other by up to four cycles while software and the other side act in any cycle; whether credits and places stay matched depends on unboundedly many interleavings", "anchors": ["rtl-bridges/pcie-host/chi/rtl/common/chi_channel_if.v:chi_channel_if", "rtl-bridges/pcie-host/cxs/rtl/common/cxs_channel_if.v:cxs_channel_if", "rtl-bridges/pcie-host/chi/rtl/common/chi_register_interface.v:chi_register_interface", "rtl-bridges/pcie-host/cxs/rtl/common/cxs_register_interface.v:cxs_register_interface", "rtl-bridges/pcie-host/chi/rtl/common/chi_link_credit_manager.v:chi_link_credit_manager", "rtl-bridges/pcie-host/cxs/rtl/common/cxs_link_credit_manager.v:cxs_link_credit_manager"]}
{"id": "C79", "title": "The link state machines of the CHI and CXS RTL bridges keep to the activation handshake and never get lost", "statement": "For every history of the wires, of software and of the credits, the pair of link states is never one without an exit, and the request and acknowledgement driven tell the state; with an other side which keeps to the four-phase handshake so does the bridge; the transmit link runs only while it is acknowledged; a configured link comes up within five cycles of a willing other side and goes down within four; an acknowledgement is withdrawn only when every credit came back.", "quantifier": "all histories of any length of the configuration and low power bits, the other side's request, acknowledgement and hint, and the states of the credits", "why_tests_cant": "the two directions interlock in sixteen pairs of states with inputs sampled a cycle late; a wrong or missing transition shows only for particular orders of local and remote events", "anchors": ["rtl-bridges/pcie-host/chi/rtl/common/chi_channel_if.v:chi_channel_if", "rtl-bridges/pcie-host/cxs/rtl/common/cxs_channel_if.v:cxs_channel_if"]}
{"id": "C80", "title": "Every response to the AXI RTL master is matched with the oldest request of its ID", "statement": "For every history in which software gives descriptors which are not in flight, each AXI ID in flight has exactly one FIFO, in which the descriptors of its requests are in the order they were accepted; a response finds that FIFO and no other, and what is read from it is the oldest request in flight of that ID; no descriptor is there twice.", "quantifier": "all numbers of descriptors, all IDs, all histories of any length of descriptors, of the other side accepting requests and of responses in any order", "why_tests_cant": "the FIFO is found and given out over six cycles while other requests and responses come and go; a mix-up of two IDs needs a particular spacing of requests and of the FIFO which becomes empty", "anchors": ["rtl-bridges/pcie-host/axi/rtl/common/axid_store.v:axid_store", "rtl-bridges/pcie-host/ace/rtl/master/ace_axid_store.v:ace_axid_store", "rtl-bridges/pcie-host/axi/rtl/common/grant_controller_master.v:grant_controller_master", "rtl-bridges/pcie-host/axi/rtl/common/descriptor_allocator_uc_master.v:descriptor_allocator_uc_master", "rtl-bridges/pcie-host/axi/rtl/common/axi_master_control.v:axi_master_control"]}
{"id": "C81", "title": "The interrupts of the CHI and CXS RTL bridges lose nothing software has not yet been told", "statement": "For software which clears only what it read as set, every flit received or sent after a clear took effect has its status set within two cycles, and it stays set until cleared; a clear is in effect for one cycle only and clears what it names. The interrupt line rises within two cycles of something enabled being pending, stays up while it is, and changes again only after the host acknowledged. Every edge of a line of the other side after a clear is told, and software which clears and then reads the line misses no change.", "quantifier": "all histories of any length of flits, edges, register writes and acknowledgements", "why_tests_cant": "setting, clearing and the clearing of the clear run in different always-blocks which meet in the same cycle only for particular timings of software against the bus", "anchors": ["rtl-bridges/pcie-host/cxs/rtl/common/cxs_intr_handler.v:cxs_intr_handler", "rtl-bridges/pcie-host/chi/rtl/common/chi_intr_handler.v:chi_intr_handler", "rtl-bridges/pcie-host/cxs/rtl/common/cxs_register_interface.v:intr_flit_txn_clear_reg", "rtl-bridges/pcie-host/chi/rtl/common/chi_register_interface.v:intr_flit_txn_clear_reg"]}
{"id": "C82", "title": "The AXI RTL slave bridge takes every request under one descriptor, which then tells that request", "statement": "For every history in which software gives a descriptor again only after a request was accepted under it, the requests accepted under a descriptor are as many as the times software gave it, or one less while it waits for one; a request is accepted only under a descriptor which was given and waits; from the cycle of acceptance on, and until the descriptor is given again, its fields are those of the last request accepted under it, with its channel and its place in the data RAM, also when a read and a write are accepted in the same cycle; and a request on a channel which is alone is accepted within twelve cycles of there being a descriptor, or two after it has a place in the data RAM.", "quantifier": "all contents of requests, all histories of any length of ownership changes, requests on both channels and answers of the address allocators", "why_tests_cant": "descriptors pass through five pipeline stages shared by the two channels, while either channel may be at any stage of its own; whether one is lost or given twice, or fields of one request are written over by another, depends on which stages meet in a cycle", "anchors": ["rtl-bridges/pcie-host/axi/rtl/slave/txn_allocator.v:txn_allocator", "rtl-bridges/pcie-host/axi/rtl/slave/grant_controller.v:grant_controller", "rtl-bridges/pcie-host/axi/rtl/slave/slave_inf.v:int_desc_n_data_offset_addr", "rtl-bridges/pcie-host/axi/rtl/slave/slave_inf.v:wr_inf_state", "rtl-bridges/pcie-host/axi/rtl/slave/slave_inf.v:rd_inf_state"]}
{"id": "C83", "title": "The AXI RTL slave bridge puts every burst of write data where its request says", "statement": "For every history of write requests and beats, in any order of the two and at any speed, in which a descriptor is given again only after it was announced: no beat accepted is lost or doubled; the bursts go to the requests in order, each beat after beat from the place its request was given in the data RAM; a descriptor is announced once, after those before it, when its whole burst is in the RAM; it says that strobes are missing if and only if a beat of the burst lacks one; an error comes up for a burst if and only if its length is not that of the request, and only then the error status is set; and when nothing comes in any more, within 46 cycles all beats which have a request are written and the bridge takes beats again.", "quantifier": "AXI4, AXI3 and AXI4-Lite, all sizes of the RAM, all data, lengths and places, all histories of any length", "why_tests_cant": "two FIFOs and a pipeline of three stages run at their own speed; whether a beat meets the address of another, or the FIFO runs over while the ready signal is on its way, depends on gaps in both channels and on how full the FIFOs are", "anchors": ["rtl-bridges/pcie-host/axi/rtl/slave/slave_inf.v:wr_state", "rtl-bridges/pcie-host/axi/rtl/slave/slave_inf.v:s_axi_usr_wready", "rtl-bridges/pcie-host/axi/rtl/slave/slave_inf.v:wr_req_avail", "rtl-bridges/pcie-host/axi/rtl/slave/slave_inf.v:error_wr_wlast", "rtl-bridges/pcie-host/axi/rtl/common/sync_fifo.v:sync_fifo"]}
{"id": "C84", "title": "The AXI RTL slave bridge sends the responses of one ID in the order of its requests", "statement": "With the order of responses left to the bridge (and in the mode of immediate write responses), for every history of requests, given descriptors of the 16 which are not in use, and of answers by software in any order, one for each request: for each ID the responses which have gone out are those of the oldest requests accepted with that ID, in that order; each goes out after software has answered it, and once; and when nothing comes for 1700 cycles, the oldest request of each ID without a response is one software has not answered.", "quantifier": "writes and reads, all IDs, all histories of requests and answers of any length and timing", "why_tests_cant": "sixteen FIFOs are given to IDs and taken back as they run empty, and are searched through their early outputs; an order is wrong only if an answer, a request with another ID and a value left over in a memory from sixteen requests ago meet in one cycle", "anchors": ["rtl-bridges/pcie-host/axi/rtl/slave/slave_inf.v:AW_fifo", "rtl-bridges/pcie-host/axi/rtl/slave/slave_inf.v:AR_fifo", "rtl-bridges/pcie-host/axi/rtl/slave/slave_inf.v:bresp_init_ser", "rtl-bridges/pcie-host/axi/rtl/slave/slave_inf.v:awid_matched", "rtl-bridges/pcie-host/axi/rtl/common/sync_fifo.v:sync_fifo"]}
{"id": "C85", "title": "The AXI RTL slave bridge sends write responses in the order software says", "statement": "With the order of responses given by software, for every history in which software, as the driver in this repository does, writes a descriptor to the order register when there is a free place, once for each request, answers it afterwards and leaves its fields alone until the response is taken: the responses taken by the master are the first descriptors of the order, in that order; each is the answer software gave, taken after it was given, and no answer is used twice; a response once shown stays as it is until it is taken; a descriptor is reported done in the cycle after its response was taken, and in no other; and when software is quiet and the master takes responses for 500 cycles, the next descriptor of the order is one which is not answered.", "quantifier": "all payloads, all histories of order entries, answers and ready signals of any length and timing", "why_tests_cant": "a response goes through three FIFOs and four state machines, and the first FIFO is read through an early output which is stale in some cycles; whether this does harm depends on what the memory held sixteen responses ago", "anchors": ["rtl-bridges/pcie-host/axi/rtl/slave/slave_inf.v:WR_RESP_ORDER_fifo", "rtl-bridges/pcie-host/axi/rtl/slave/slave_inf.v:BIDX_fifo", "rtl-bridges/pcie-host/axi/rtl/slave/slave_inf.v:B_fifo", "rtl-bridges/pcie-host/axi/rtl/slave/slave_inf.v:wr_resp_state", "rtl-bridges/pcie-host/axi/rtl/slave/slave_inf.v:bresp_done", "rtl-bridges/pcie-host/axi/tlm/axi2tlm-hw-bridge.h:RESP_ORDER_REG_ADDR_SLAVE"]}
{"id": "C86", "title": "The AXI RTL slave bridge gives the data of every read, whole and in order", "statement": "For every history in which a descriptor is answered only when it has no open burst, and its fields and the words of its burst in the RAM stay as they are until its last beat is taken: the beats which the master takes are the first of those of the answered bursts, one burst after the other; a burst has one beat more than the length of its request, each with the word at its place of the RAM and with the response of its descriptor, the last and no other marked as last; a beat once shown stays as it is until it is taken; a descriptor is reported done in the cycle after the last beat of its burst is taken, and in no other; and when nothing new is answered and the master takes beats, all is taken after a time which is bounded by the number of beats still to come.", "quantifier": "all data, bus widths, RAM sizes and bursts of up to 256 beats, all histories of answers and of the ready signal, of any length", "why_tests_cant": "four beats can be between the RAM and the FIFO when the FIFO reports to be almost full, so that whether one is lost depends on the stall of the master, cycle by cycle; the FIFO gets full to its very last place", "anchors": ["rtl-bridges/pcie-host/axi/rtl/slave/slave_inf.v:RIDX_fifo", "rtl-bridges/pcie-host/axi/rtl/slave/slave_inf.v:rd_data_state", "rtl-bridges/pcie-host/axi/rtl/slave/slave_inf.v:R_fifo", "rtl-bridges/pcie-host/axi/rtl/slave/slave_inf.v:rd_resp_state", "rtl-bridges/pcie-host/axi/rtl/slave/slave_inf.v:rresp_done", "rtl-bridges/pcie-host/axi/rtl/common/data_ram.v:data_ram", "rtl-bridges/pcie-host/axi/rtl/common/synchronizer.v:synchronizer"]}
{"id": "C87", "title": "The ACE RTL bridges send what software pushes, whole and in order", "statement": "For the channels on which the ACE bridges send (read data, write responses and snoop requests of the slave bridge; write requests, write data, snoop responses and snoop data of the master bridge) and for every history in which software pushes a descriptor only when it has no open burst, and changes nothing of it until its last beat is taken: the beats taken by the other side are the first of those of the pushed bursts, one burst after the other, each with the word at its place of the RAM and the fields of its descriptor, the last and no other marked as last; a beat once shown stays as it is until it is taken; a descriptor is reported done in the cycle after the last beat of its burst is taken, and in no other; and when nothing is pushed and the beats are taken, all is taken after a bounded time.", "quantifier": "all data, RAM sizes, histories of pushes and of the ready signal, of any length; bursts of up to 256 words", "why_tests_cant": "whether a word is lost depends on the cycle in which the other side begins to wait, and whether another descriptor is sent on the distance of two pushes, cycle by cycle", "anchors": ["rtl-bridges/pcie-host/ace/rtl/common/ace_ctrl_valid.v:ace_ctrl_valid", "rtl-bridges/pcie-host/ace/rtl/common/ace_ctrl_valid.v:ORDER_fifo", "rtl-bridges/pcie-host/ace/rtl/common/ace_ctrl_valid.v:USR_fifo", "rtl-bridges/pcie-host/ace/rtl/common/ace_ctrl_valid.v:data_state", "rtl-bridges/pcie-host/ace/rtl/slave/ace_slv_inf.v:r_ace_ctrl_valid", "rtl-bridges/pcie-host/ace/rtl/master/ace_mst_inf.v:w_ace_ctrl_valid", "rtl-bridges/pcie-host/ace/rtl/master/ace_mst_inf.v:cd_ace_ctrl_valid"]}
{"id": "C88", "title": "The ACE RTL bridge reports each response completed once, in order, after its acknowledge", "statement": "For the read and write response channels of the ACE slave bridge and every history in which software pushes a descriptor only when it is not in use and the master gives no more acknowledges than there are responses: the descriptors reported as completed are the first of those pushed, in the order of the pushes; each is reported only after the last beat of its response was taken; there are never more completions than acknowledges; every completion sets the bit of its descriptor in the status register, which stays set until software raises the bit of the clear register; and when all responses are taken and acknowledged, all are reported after at most 56 cycles.", "quantifier": "all data, histories of pushes, of the ready signal, of acknowledges and of writes to the clear register, of any length", "why_tests_cant": "acknowledges carry no index and may come in any cycle, in bunches and before the bridge has stored the index of the response they are for; the order of the cycles is chosen by the other side", "anchors": ["rtl-bridges/pcie-host/ace/rtl/common/ace_ctrl_valid.v:XACK_fifo", "rtl-bridges/pcie-host/ace/rtl/common/ace_ctrl_valid.v:xack_cntr", "rtl-bridges/pcie-host/ace/rtl/common/ace_ctrl_valid.v:xack_done", "rtl-bridges/pcie-host/ace/rtl/common/ace_ctrl_valid.v:intr_comp_status_comp"]}
{"id": "C89", "title": "The ACE RTL bridge gives software each request and response once, in order, in a descriptor software gave", "statement": "For the receiving channels without data of the ACE bridges (read requests and snoop responses of the slave, write responses and snoop requests of the master) and every history in which software gives a descriptor again only after it got its index: what software reads in the descriptors, index by index as it takes them, is what was accepted on the channel, in that order, with nothing lost and nothing twice; a descriptor is used once for each time it was given; what software saw stays there until it gives the descriptor again; at most 25 transfers are under way, so that no FIFO runs over; each write response is acknowledged once, after it was accepted and before software sees it; and when enough descriptors were given and software takes the indices, it sees everything within 801 cycles.", "quantifier": "all contents of transfers, histories of requests, of ownership of the descriptors and of reads of the index FIFO, of any length", "why_tests_cant": "transfers wait in one FIFO for descriptors which come through another in the order of an arbiter, and indices wait in a third; whether all stay in step depends on the cycle in which each event falls", "anchors": ["rtl-bridges/pcie-host/ace/rtl/common/ace_ctrl_ready.v:usr_state", "rtl-bridges/pcie-host/ace/rtl/common/ace_ctrl_ready.v:ORDER_fifo", "rtl-bridges/pcie-host/ace/rtl/common/ace_ctrl_ready.v:xack_done", "rtl-bridges/pcie-host/ace/rtl/common/ace_desc_allocator.v:desc_txn_valid"]}
{"id": "C90", "title": "A snoop through the TLM to ACE hardware bridge gets its own response and its own cache line", "statement": "For every interleaving of the threads of the bridge with the hardware and with the TLM side: the TLM side is asked for the snoops in the order in which the hardware delivers them, each once; the snoop responses sent carry the attributes of its answers, in this order; the cache lines sent are the bytes of those answers which have data, in this order; everything which was asked is answered and sent in the end; no DVM Complete is sent before the DVM Sync it completes was answered; and after a reset nothing from before it is sent.", "quantifier": "all answers and data, sizes of the cache line, and histories of snoops, of progress of each thread, of what the hardware sends, of reads and of resets, of any length", "why_tests_cant": "responses and data go through two threads and a ring of sixteen descriptors each, which the hardware empties when the interconnect lets it; what is overwritten depends on the interleaving", "anchors": ["rtl-bridges/pcie-host/ace/tlm/private/ace-mst-snp-chnls.h:ACESnoopChannels_M", "rtl-bridges/pcie-host/ace/tlm/private/ace-mst-snp-chnls.h:cr_thread", "rtl-bridges/pcie-host/ace/tlm/private/ace-mst-snp-chnls.h:cd_thread", "rtl-bridges/pcie-host/ace/tlm/private/ace-mst-snp-chnls.h:push_on_cr_ch", "rtl-bridges/pcie-host/ace/tlm/tlm2ace-hw-bridge.h:read_address_phase"]}
{"id": "C91", "title": "A TLM snoop through the ACE to TLM hardware bridge ends with its own response and its own cache line", "statement": "For every interleaving of the calling threads, of the thread of the bridge and of what the hardware receives: the first snoop response belongs to the first snoop and the first cache line to the first response with data, and each call ends accordingly, once: with the attributes of its response, with an error status when the response has an error, and otherwise, when it has data, with the first bytes of its line; whether lines come before or after their responses; every call ends whose response and line have come; and after a reset no call gets anything from before it.", "quantifier": "all responses, lines and lengths, numbers of words in a line, and histories of calls, responses, lines, resets and progress of the threads, of any length", "why_tests_cant": "responses and lines come without order between them and go through three queues; which line a call gets depends on everything before it", "anchors": ["rtl-bridges/pcie-host/ace/tlm/private/ace-slv-snp-chnls.h:pop_cr", "rtl-bridges/pcie-host/ace/tlm/private/ace-slv-snp-chnls.h:pop_cd", "rtl-bridges/pcie-host/ace/tlm/private/ace-slv-snp-chnls.h:pop_cd_descriptor", "rtl-bridges/pcie-host/ace/tlm/private/ace-slv-snp-chnls.h:handle_cd", "rtl-bridges/pcie-host/ace/tlm/private/ace-slv-snp-chnls.h:SetCrResp", "rtl-bridges/pcie-host/ace/tlm/ace2tlm-hw-bridge.h:work_thread"]}
{"id": "C92", "title": "A pair of ACE barriers returns when both are done, and nothing else is held up", "statement": "For every history of calls and of answers from downstream: a transaction which is no barrier is sent on once, in order, and returns when it is answered, with this answer; of each pair of barriers the first returns at once and is sent once with its own attributes, and the second returns, once, when both have been answered, with its own error or else the status of the first; so every pair comes to its end, in whichever order its answers come, and so does the next pair.", "quantifier": "all statuses and attributes and all interleavings of callers, of the thread which sends the first barrier, and of answers, of any length", "why_tests_cant": "whether a caller hangs depends on the order of two answers and on all pairs before", "anchors": ["tlm-modules/bp-ace.h:BarrierProcesser", "tlm-modules/bp-ace.h:b_transport", "tlm-modules/bp-ace.h:exec_tlm_gp", "tlm-modules/bp-ace.h:Done"]}
{"id": "C93", "title": "User interrupts of the XDMA reach the PCI device and are acknowledged", "statement": "For every history of the interrupt vector of the user logic and of the clock: the TLM model sees values which the vector had, in their order; every change it sees is acknowledged once, by a pulse from one clock edge to the next, on exactly the lines which changed; the lines of the PCI device follow; no error is reported; and every change of the vector is seen, so that at rest the lines of the PCI device are those of the user logic.", "quantifier": "all numbers of lines and all interleavings of writes to the vector, of clock edges and of the two threads, of any length", "why_tests_cant": "whether an interrupt is lost depends on when it comes, to the clock", "anchors": ["soc/pci/xilinx/xdma-rtl.h:handle_rtl_irq", "soc/pci/xilinx/xdma.h:handle_irqv", "utils/bitops.h:map_sc_bv2v"]}
{"id": "C94", "title": "A CXS link comes up in both directions, goes down when asked, and comes up again", "statement": "For every history of requests to stop and to run at both ends, of traffic and of the order of threads: each direction goes through stop, activate, run, deactivate and back in this order; it keeps its fifteen credits, and the receiver has them all when it is stopped; after the start both directions are in run from the second clock edge on; a side which asks for stop gets its direction down and it stays down; and when both sides want to run, the link comes up again in both directions and stays up.", "quantifier": "all histories of requests at both ends, of traffic in both directions and of thread orders, of any length", "why_tests_cant": "whether a link comes up again depends on how many credits were granted and on how long it was stopped", "anchors": ["tlm-bridges/private/ccix/portstate.h:PortState", "tlm-bridges/private/ccix/txlink.h:tx_thread", "tlm-bridges/private/ccix/rxlink.h:rx_thread", "tlm-bridges/private/ccix/rxlink.h:Deactivated", "tlm-bridges/private/chi/common.h:PortState"]}
{"id": "C95", "title": "A DVM Sync is answered when every other master has completed it, once, and not before", "statement": "For every history of DVM Syncs and Completes of masters which keep to the protocol, through the ACE interconnect: at each time each master has been sent exactly as many Completes as it has Syncs which all other masters taking part in DVM have completed, where a master completes the Syncs of the others in the order they came; so no Complete is early, missing or sent twice; when every master has completed all Syncs of the others, all are answered; and no assertion fails.", "quantifier": "all numbers of masters, all choices of those which take part, and all interleavings of Syncs, Completes and of the snoops which carry the answers, of any length", "why_tests_cant": "which Complete belongs to which Sync depends on the whole history of all masters, and on snoops still on their way", "anchors": ["tlm-modules/iconnect-ace.h:DVMCompleteHandler", "tlm-modules/iconnect-ace.h:PortDVMCompleteTracker", "tlm-modules/iconnect-ace.h:handle_dvm_complete", "tlm-modules/iconnect-ace.h:exec_dvm_complete"]}
{"id": "C96", "title": "An exclusive store succeeds only if nobody wrote in between, and caches stay coherent", "statement": "For every history of loads, stores, exclusive loads and exclusive stores of masters with write-back ACE caches behind the ACE interconnect: an exclusive store which reports success was preceded by an exclusive load of the same address by the same master, and no other master has written the cache line since; a load served from a master's own cache sees every write of the other masters, whatever exclusive stores failed before; and a master which repeats exclusive load and store of an address, undisturbed, succeeds.", "quantifier": "all numbers of masters and of lines, all addresses in a line, all histories of accesses, evictions and releases of the interconnect's lock", "why_tests_cant": "whether a store may succeed depends on what all masters have done since the load, and on what their caches and two kinds of monitor have kept of it", "anchors": ["tlm-modules/cache-ace.h:ACECacheWriteBack", "tlm-modules/cache-ace.h:MasterExclusiveMonitor", "tlm-modules/cache-ace.h:clean_unique", "tlm-modules/iconnect-ace.h:PosMonitor", "tlm-modules/iconnect-ace.h:handle_exclusive"]}
{"id": "C97", "title": "CHI exclusive accesses: atomic, coherent, and they get there", "statement": "For every history of loads, stores, exclusive loads and exclusive stores of nodes with write-back CHI caches: an exclusive store which reports success uses up an exclusive load of the same address by the same node, and no other node has written the cache line since; a load served from a node's own cache sees every write of the others; an exclusive load which reports success is one whose exclusive store can succeed; and a node which repeats exclusive load and store, undisturbed, succeeds. For every history of exclusive requests at the CHI interconnect, from any kind of node: an exclusive store passes exactly if its logical processor has made an exclusive request since the last exclusive store that passed, and every coherent request is snooped before it is answered as one that was.", "quantifier": "all numbers of nodes and of lines, all addresses in a line, all histories of accesses and evictions; all sequences of requests, sources and logical processor numbers at the interconnect", "why_tests_cant": "whether a store may succeed depends on what all nodes have done since the load; the interconnect's answer depends on the whole history of exclusive requests", "anchors": ["tlm-modules/cache-chi.h:HandleLoad", "tlm-modules/cache-chi.h:HandleStore", "tlm-modules/cache-chi.h:LPExclusiveMonitor", "tlm-modules/private/chi/txns-rn.h:CopyCHIAttr", "tlm-modules/iconnect-chi.h:ExclusiveMonitor", "tlm-modules/iconnect-chi.h:RouteInternal"]}
{"id": "C98", "title": "A connection descriptor opens what it says, and nothing else", "statement": "For every path, host and port: opening a remote-port connection by a descriptor built from them opens exactly that path, or connects to (or, for a daemon, listens on) exactly that host and port; two different descriptors never open the same thing by mistake; a string which is no descriptor is refused, without reading beyond its end; and when a name stands for several addresses the first that works is used, and the attempt fails only if none works.", "quantifier": "all strings; all lists of addresses with any outcome for each", "why_tests_cant": "tests open a few descriptors; a misread prefix, a long path or an address with colons is one string among all", "anchors": ["libremote-port/remote-port-sk.c:sk_open", "libremote-port/remote-port-sk.c:sk_tcp_client", "libremote-port/remote-port-sk.c:sk_unix_client"]}
{"id": "C99", "title": "An address region is the bytes asked for", "statement": "For every set of regions: a CHI request goes to the node of the region added last among those holding its address, and keeps its target if none does, prefetches and DVM operations having their own rule; and an ACE cache never caches a byte of a region declared non-shareable: every access to such bytes goes to memory, every access to other bytes through the cache, and no sequence of accesses stops the simulation.", "quantifier": "all lists of regions with any start and length, all addresses, all sequences of accesses and evictions", "why_tests_cant": "tests use one small aligned region; the end of the address space, lengths over 32 bits and accesses across a border are particular inputs", "anchors": ["tlm-modules/iconnect-chi.h:SystemAddressMap", "tlm-modules/cache-ace.h:NonShareableRegion", "tlm-modules/cache-ace.h:in_nonshareable_region", "tlm-modules/cache-ace.h:read_no_snoop"]}
{"id": "C100", "title": "A load or store through the CHI cache covers every byte asked for", "statement": "For every address, length and pattern of byte enables, and whichever way each line of the access goes: a load through the CHI cache fills every enabled byte of its buffer with the byte at its address and no other; a store writes every enabled byte and no other; a store to a non-shareable region disturbs no other cache; and a full-line write is sent only for a full line.", "quantifier": "all addresses, lengths, byte enables; all choices of the cache for each line", "why_tests_cant": "the way taken is random and depends on what the cache holds; only accesses across a line lose bytes, and only on some ways", "anchors": ["tlm-modules/cache-chi.h:HandleStore", "tlm-modules/cache-chi.h:HandleLoad", "tlm-modules/cache-chi.h:WriteUniquePtl", "tlm-modules/cache-chi.h:WriteNoSnp", "tlm-modules/private/chi/txns-rn.h:CopyDataNonCached"]}
{"id": "C101", "title": "The ACE checker reports a missing snoop answer or missing snoop data, exactly when it is due", "statement": "For every sequence of clock cycles and resets: the checker of the ACE snoop channels reports a hang of the answer or of the data exactly in the cycle in which something owed has been waited for the configured number of cycles; it reports an answer withdrawn, and one not accepted for so many cycles; it reports nothing else, and a reset makes it forget.", "quantifier": "all sequences of valid, ready, response and reset over any number of cycles, all limits and line lengths", "why_tests_cant": "a hang needs a long wait after a particular history; the counters misjudge only histories out of the usual order", "anchors": ["checkers/checker-ace.h:ace_handshakes_check", "checkers/checker-utils.h:HandshakeMonitor"]}
