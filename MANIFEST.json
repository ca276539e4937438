{
 "claims": [
  {
   "property": "C01",
   "status": "partial",
   "theorems": [
    "Verif.RP.bus_roundtrip_ext_partial",
    "Verif.RP.bus_roundtrip_old",
    "Verif.RP.bus_encoded_size",
    "Verif.RP.bus_master_id_lost",
    "Verif.RP.bus_old_rejects_master_ffff"
   ],
   "note": "Both layouts, every field; violated by the code only for master ids above 16 bits (witness bus_master_id_lost)."
  },
  {
   "property": "C02",
   "status": "partial",
   "theorems": [
    "Verif.RP.hello_roundtrip",
    "Verif.RP.interrupt_roundtrip",
    "Verif.RP.sync_roundtrip",
    "Verif.RP.ats_roundtrip_partial",
    "Verif.RP.ats_timestamp_swapped"
   ],
   "note": "All kinds and fields except the ATS timestamp, which the decoder leaves byte-swapped (witness proved)."
  },
  {
   "property": "C03",
   "status": "proved",
   "theorems": [
    "Verif.RP.message_stream",
    "Verif.RP.stream_framing",
    "Verif.RP.old_layout_byte_enables_break_framing"
   ],
   "note": "Well-formed messages; the extra theorem shows the one way the memory slave can emit an ill-formed one."
  },
  {
   "property": "C04",
   "status": "proved",
   "theorems": [
    "Verif.SafeIO.safe_read_exact",
    "Verif.SafeIO.safe_write_exact",
    "Verif.SafeIO.safe_read_progress"
   ],
   "note": ""
  },
  {
   "property": "C05",
   "status": "proved",
   "theorems": [
    "Verif.RP.caps_recorded",
    "Verif.RP.layout_matches_caps",
    "Verif.RP.second_hello_asserts"
   ],
   "note": ""
  },
  {
   "property": "C06",
   "status": "proved",
   "theorems": [
    "Verif.RPSlots.slots_refine_map",
    "Verif.RPSlots.got_only_own_response"
   ],
   "note": "Histories of up to 2^32 operations, the range in which 32-bit ids are unique."
  },
  {
   "property": "C07",
   "status": "partial",
   "theorems": [
    "Verif.RPMem.remote_access_is_local",
    "Verif.RPMem.remote_memory_is_local",
    "Verif.RPMem.byte_enables_refused",
    "Verif.RPMem.byte_enables_written_as_data",
    "Verif.RPMem.posted_read_gets_nothing",
    "Verif.RPMem.ignore_command_breaks_stream"
   ],
   "note": "Proved for all non-posted reads and writes without byte enables against any well-behaved target; the other cases are violated by the code (witnesses proved)."
  },
  {
   "property": "C08",
   "status": "partial",
   "theorems": [
    "Verif.RPWires.wires_converge_partial",
    "Verif.RPWires.wires_converge_default",
    "Verif.RPWires.acknowledged_mode_loses_updates",
    "Verif.RPWires.initial_value_not_sent",
    "Verif.RPWires.ack_sent_iff",
    "Verif.RPWires.blocked_until_acknowledged",
    "Verif.RPWires.waits_for_last_packet"
   ],
   "note": "Unconditional for posted updates (the default); acknowledged mode loses updates (witness)."
  },
  {
   "property": "C09",
   "status": "partial",
   "theorems": [
    "Verif.RPTime.account_within_quantum",
    "Verif.RPTime.account_minimum_step",
    "Verif.RPTime.account_exact",
    "Verif.RPTime.deltaNs_fits",
    "Verif.RPTime.loose_monotone",
    "Verif.RPTime.untimed_progress_partial",
    "Verif.RPTime.untimed_history_progress_partial",
    "Verif.RPTime.untimed_runs_backwards",
    "Verif.RPTime.loose_no_progress"
   ],
   "note": "Holds whenever the offset is within the quantum; untimed mode without synchronisation leaves it and then runs backwards (witness)."
  },
  {
   "property": "C10",
   "status": "proved",
   "theorems": [
    "Verif.Aligner.aligner_transparent"
   ],
   "note": ""
  },
  {
   "property": "C100",
   "status": "partial",
   "theorems": [
    "Verif.ChiStore.load_whole",
    "Verif.ChiStore.store_no_other",
    "Verif.ChiStore.store_old_or_new",
    "Verif.ChiStore.store_whole_partial",
    "Verif.ChiStore.private_whole_partial",
    "Verif.ChiStore.straddle_lost",
    "Verif.ChiStore.private_straddle_lost",
    "Verif.ChiStore.requests_past_only",
    "Verif.ChiStore.private_store_snoops",
    "Verif.ChiStore.full_write_of_part"
   ],
   "note": "Holds for all loads, for stores through the cache, and for stores past it that start at a line or lie within one; false for the rest, as shown."
  },
  {
   "property": "C101",
   "status": "partial",
   "theorems": [
    "Verif.PcSnoop.cr_hang_exact_partial",
    "Verif.PcSnoop.cd_hang_exact_partial",
    "Verif.PcSnoop.cr_dropped_exact_partial",
    "Verif.PcSnoop.ac_dropped_exact_partial",
    "Verif.PcSnoop.cd_dropped_exact_partial",
    "Verif.PcSnoop.ac_never_missing",
    "Verif.PcSnoop.reset_forgets",
    "Verif.PcSnoop.spurious_answer_masks",
    "Verif.PcSnoop.early_data_false_hang"
   ],
   "note": "Exact in all histories of less than 2^32 cycles (and beats) in which answers follow snoops and data follows answers; false for the rest, as shown."
  },
  {
   "property": "C11",
   "status": "proved",
   "theorems": [
    "Verif.Aligner.aligner_limits",
    "Verif.Aligner.zero_length_incomplete",
    "Verif.Aligner.narrow_bus_asserts"
   ],
   "note": "Usable configurations (non-zero limits, bus of at least a byte)."
  },
  {
   "property": "C12",
   "status": "partial",
   "theorems": [
    "Verif.WrapExpander.wrap_equivalent",
    "Verif.WrapExpander.wrap_first_error",
    "Verif.WrapExpander.no_wrap_forwarded",
    "Verif.WrapExpander.one_access_not_rotated"
   ],
   "note": "Full for the two-access configuration; the one-access configuration does not rotate (witness)."
  },
  {
   "property": "C13",
   "status": "partial",
   "theorems": [
    "Verif.Exmon.store_exclusive_iff_partial",
    "Verif.Exmon.store_exclusive_sound_partial",
    "Verif.Exmon.store_exclusive_sound_aligned",
    "Verif.Exmon.refused_store_no_effect",
    "Verif.Exmon.others_forwarded",
    "Verif.Exmon.overlap_from_below_missed",
    "Verif.Exmon.initiator_cannot_tell"
   ],
   "note": "Exact characterisation; the code misses stores reaching in from below and never sets the handled flag (witnesses)."
  },
  {
   "property": "C14",
   "status": "partial",
   "theorems": [
    "Verif.Iconnect.mapAll_init",
    "Verif.Iconnect.routed_to_region_partial",
    "Verif.Iconnect.first_match_wins",
    "Verif.Iconnect.adjacent_region_misrouted",
    "Verif.Iconnect.top_region_unreachable",
    "Verif.Iconnect.unmapped_reaches_target_zero",
    "Verif.Iconnect.miss_reads_uninitialised",
    "Verif.Iconnect.address_not_restored",
    "Verif.Iconnect.debug_reports_nothing"
   ],
   "note": ""
  },
  {
   "property": "C15",
   "status": "partial",
   "theorems": [
    "Verif.Iconnect.dmi_range_partial",
    "Verif.Iconnect.invalidate_range_partial",
    "Verif.Iconnect.refused_dmi_is_fatal",
    "Verif.Iconnect.dmi_ignores_initiator_offset",
    "Verif.Iconnect.dmi_wrong_region",
    "Verif.Iconnect.invalidate_wrong_offset"
   ],
   "note": ""
  },
  {
   "property": "C16",
   "status": "partial",
   "theorems": [
    "Verif.Genattr.clone_preserves",
    "Verif.Genattr.copy_preserves_partial",
    "Verif.Genattr.copy_loses_io_access",
    "Verif.Genattr.copy_depends",
    "Verif.Genattr.set_get",
    "Verif.Genattr.ctor_values",
    "Verif.Genattr.argless_setter_clears",
    "Verif.Genattr.argless_setter_sets",
    "Verif.Genattr.deep_copy_partial"
   ],
   "note": "copy_from misses IO_access (witness)."
  },
  {
   "property": "C17",
   "status": "partial",
   "theorems": [
    "Verif.Regapi.write_semantics_partial",
    "Verif.Regapi.any_write_clears",
    "Verif.Regapi.write_zero_clears",
    "Verif.Regapi.read_semantics_partial",
    "Verif.Regapi.clear_on_read_never_seen",
    "Verif.Regapi.undefined_address",
    "Verif.Regapi.wrong_size",
    "Verif.Regapi.access_safe",
    "Verif.Regapi.reset_restores",
    "Verif.Regapi.read_only_bits_constant",
    "Verif.Regapi.deposit_field_partial",
    "Verif.Regapi.deposit_spills"
   ],
   "note": "Write-one-to-clear bits are cleared by any write and clear-on-read bits are never visible (witnesses); the rest holds."
  },
  {
   "property": "C18",
   "status": "proved",
   "theorems": [
    "Verif.Crc32.crc32_bit_serial",
    "Verif.Crc32.crc32_append",
    "Verif.Crc32.burst_detected",
    "Verif.Crc32.crc32_residue",
    "Verif.Crc32.crc32_is_remainder"
   ],
   "note": ""
  },
  {
   "property": "C19",
   "status": "proved",
   "theorems": [
    "Verif.Bitops.mask32_bits",
    "Verif.Bitops.field32_bits",
    "Verif.Bitops.mask64_bits",
    "Verif.Bitops.buf_bv_roundtrip",
    "Verif.Bitops.buf2bv_placement"
   ],
   "note": ""
  },
  {
   "property": "C20",
   "status": "partial",
   "theorems": [
    "Verif.Mii.mii_roundtrip_partial",
    "Verif.Mii.mii_roundtrip_checksum",
    "Verif.Mii.csumBytes_eq",
    "Verif.Mii.delivered_residue",
    "Verif.Mii.default_not_identity",
    "Verif.Mii.overrun",
    "Verif.Mii.no_delimiter_no_packet",
    "Verif.Mii.delivers_after_first_delimiter"
   ],
   "note": "Identity holds with the checksum off; by default the receiver delivers the four frame-check bytes too (witness)."
  },
  {
   "property": "C21",
   "status": "proved",
   "theorems": [
    "Verif.Xgmii.xgmii_roundtrip",
    "Verif.Xgmii.fast_path_overrun",
    "Verif.Xgmii.runt_wraps",
    "Verif.Xgmii.error_drops_frame",
    "Verif.Xgmii.end_character",
    "Verif.Xgmii.outside_frame_ignored",
    "Verif.Xgmii.start_restarts"
   ],
   "note": "Within the receiver's buffer size, as the property says; beyond it the fast path overruns (witness)."
  },
  {
   "property": "C22",
   "status": "partial",
   "theorems": [
    "Verif.Axis.axis_stream_partial",
    "Verif.Axis.mid_beat_flush_corrupts",
    "Verif.Axis.mid_beat_state",
    "Verif.Axis.empty_end_lost",
    "Verif.Axis.handshake_exact",
    "Verif.Axis.blocking_target_loses_beats"
   ],
   "note": "Holds when each write that does not end a packet fills whole beats; otherwise the collector corrupts data when its buffer fills mid-beat (witness)."
  },
  {
   "property": "C23",
   "status": "partial",
   "theorems": [
    "Verif.Tlm2Axi.write_incr",
    "Verif.Tlm2Axi.write_wrap_partial",
    "Verif.Tlm2Axi.write_fixed_partial",
    "Verif.Tlm2Axi.accepted_announcement",
    "Verif.Tlm2Axi.wide_burst_protocol_error",
    "Verif.Tlm2Axi.fixed_enables_ignored",
    "Verif.Tlm2Axi.fixed_unaligned_misplaced",
    "Verif.Tlm2Axi.fixed_wide_beats_mismatch",
    "Verif.Tlm2Axi.fixed_narrow_misplaced",
    "Verif.Tlm2Axi.odd_width_misplaced",
    "Verif.Tlm2Axi.huge_length_accepted"
   ],
   "note": "INCR bursts are covered in full; wrapping bursts when full width and fixed bursts when aligned without enables; the other cases are violated by the code (witnesses)."
  },
  {
   "property": "C24",
   "status": "partial",
   "theorems": [
    "Verif.Tlm2Axi.read_incr",
    "Verif.Tlm2Axi.read_wrap_partial",
    "Verif.Tlm2Axi.read_fixed_partial",
    "Verif.Tlm2Axi.earlier_errors_ignored",
    "Verif.Tlm2Axi.narrow_wrap_misplaced",
    "Verif.Tlm2Axi.read_completes_unless_early_last"
   ],
   "note": "Data placement as for C23; only the last beat's response reaches the status (witness)."
  },
  {
   "property": "C25",
   "status": "partial",
   "theorems": [
    "Verif.Axi2Tlm.write_fixed",
    "Verif.Axi2Tlm.write_incr_partial",
    "Verif.Axi2Tlm.write_wrap_partial",
    "Verif.Axi2Tlm.write_roundtrip",
    "Verif.Axi2Tlm.narrow_beats_lost"
   ],
   "note": "Holds for full-width beats; narrow write beats are lost (witness)."
  },
  {
   "property": "C26",
   "status": "partial",
   "theorems": [
    "Verif.Axi2Tlm.read_in_bounds",
    "Verif.Axi2Tlm.read_fixed",
    "Verif.Axi2Tlm.read_incr",
    "Verif.Axi2Tlm.read_wrap_partial",
    "Verif.Axi2Tlm.read_roundtrip",
    "Verif.Axi2Tlm.narrow_wrap_lanes"
   ],
   "note": "Narrow wrapping bursts return bytes on the wrong lanes (witness)."
  },
  {
   "property": "C27",
   "status": "partial",
   "theorems": [
    "Verif.AxiResp.set_error_iff",
    "Verif.AxiResp.get_error_iff",
    "Verif.AxiResp.get_set",
    "Verif.AxiResp.axi2tlm_partial",
    "Verif.AxiResp.axilite2tlm_partial",
    "Verif.AxiResp.axi2tlm_hides_errors",
    "Verif.AxiResp.exokay_lost",
    "Verif.AxiResp.exokay_forwarded_as_okay"
   ],
   "note": "The helper tables translate errors faithfully; axi2tlm hides four failing statuses and exclusive-okay is lost (witnesses)."
  },
  {
   "property": "C28",
   "status": "partial",
   "theorems": [
    "Verif.AxiOrder.Master.read_same_id_order",
    "Verif.AxiOrder.Master.read_exactly_once",
    "Verif.AxiOrder.Master.write_same_id_order",
    "Verif.AxiOrder.Master.write_exactly_once",
    "Verif.AxiOrder.Master.write_attribution",
    "Verif.AxiOrder.Master.read_attribution_partial",
    "Verif.AxiOrder.Master.interleaved_beats_misattributed",
    "Verif.AxiOrder.Slave.same_id_order",
    "Verif.AxiOrder.Slave.exactly_once",
    "Verif.AxiOrder.Slave.called_once",
    "Verif.AxiOrder.Slave.issue_order",
    "Verif.AxiOrder.Slave.progress",
    "Verif.AxiOrder.Slave.barriers_break_exactly_once",
    "Verif.AxiOrder.Slave.barrier_holds_back",
    "Verif.AxiOrder.Slave.barrier_waits"
   ],
   "note": "Order and exactly-once hold in full for plain AXI; interleaved read beats are attributed to the wrong transaction and ACE barriers can cause a double access (witnesses)."
  },
  {
   "property": "C29",
   "status": "proved",
   "theorems": [
    "Verif.ChiLink.credits_conserved",
    "Verif.ChiLink.flits_need_credits",
    "Verif.ChiLink.flits_in_order",
    "Verif.ChiLink.stopped_is_clean",
    "Verif.ChiLink.deactivation_terminates",
    "Verif.ChiLink.activation",
    "Verif.ChiLink.flits_progress",
    "Verif.ChiLink.reset_loses_credit",
    "Verif.ChiLink.resets_deadlock_link",
    "Verif.ChiLink.not_requested_unless_wanted",
    "Verif.ChiLink.unwanted_link_deactivates",
    "Verif.ChiLink.everything_arrives"
   ],
   "note": "Proved for every history without reset, as the property says; a reset loses credits in flight (witnesses)."
  },
  {
   "property": "C30",
   "status": "partial",
   "theorems": [
    "Verif.ChiFlit.req_roundtrip_partial",
    "Verif.ChiFlit.req_roundtrip_if_masks_full",
    "Verif.ChiFlit.rsp_roundtrip",
    "Verif.ChiFlit.snp_roundtrip",
    "Verif.ChiFlit.dat_roundtrip_partial",
    "Verif.ChiFlit.req_wide_address_undefined",
    "Verif.ChiFlit.req_address_truncated_modulo32",
    "Verif.ChiFlit.req_odd_length_becomes_one",
    "Verif.ChiFlit.dat_reads_past_buffer",
    "Verif.ChiFlit.dat_writes_past_flit",
    "Verif.ChiFlit.dat_second_flit_asserts",
    "Verif.ChiFlit.dat_multi_flit_fails",
    "Verif.ChiFlit.dat_enables_behind_data",
    "Verif.ChiFlit.dat_rsvdc_truncated"
   ],
   "note": "Responses and snoops round-trip for all widths. Requests only for addresses of at most 30 bits (the parser's int mask is undefined beyond); data packets only within DatOk, the excluded cases are shown to fail."
  },
  {
   "property": "C31",
   "status": "partial",
   "theorems": [
    "Verif.ChiIds.ids_unique_partial",
    "Verif.ChiIds.fresh_id",
    "Verif.ChiIds.single_getter_safe",
    "Verif.ChiIds.waiter_served",
    "Verif.ChiIds.two_waiters_one_id",
    "Verif.ChiIds.barging_getter",
    "Verif.ChiIds.double_return_duplicates"
   ],
   "note": "Uniqueness holds in every history without undefined behaviour; two waiters, or a newcomer between return and wake-up, take from an empty list (witnesses)."
  },
  {
   "property": "C32",
   "status": "partial",
   "theorems": [
    "Verif.Cxs.message_round_trip_partial",
    "Verif.Cxs.packed_messages_partial",
    "Verif.Cxs.flits_reassemble",
    "Verif.Cxs.flits_deliver_messages",
    "Verif.Cxs.messages_in_order_partial",
    "Verif.Cxs.credits_conserved_partial",
    "Verif.Cxs.idle_link_has_delivered_partial",
    "Verif.Cxs.everything_arrives_partial",
    "Verif.Cxs.high_address_fails",
    "Verif.Cxs.partial_write8_corrupted",
    "Verif.Cxs.odd_length_fails",
    "Verif.Cxs.long_data_overruns",
    "Verif.Cxs.long_response_misread",
    "Verif.Cxs.snoop_cast_lost",
    "Verif.Cxs.misc_credit_changes_op",
    "Verif.Cxs.payload_size_lost",
    "Verif.Cxs.full_payload_overruns",
    "Verif.Cxs.poison_duplicated",
    "Verif.Cxs.zero_length_message_loops",
    "Verif.Cxs.chained_request_needs_waiting_predecessor",
    "Verif.Cxs.chained_request_loses_txnID",
    "Verif.Cxs.fourth_end_pointer_fails",
    "Verif.Cxs.reset_loses_credit",
    "Verif.Cxs.request_on_the_wire",
    "Verif.Cxs.size_codes"
   ],
   "note": "Clocked model of both link ends, message encoding and decoding, packing and reassembly. Proved for every history without reset of messages satisfying MsgOk/IdsOk; for others the property is false in the code (witness theorems)."
  },
  {
   "property": "C33",
   "status": "partial",
   "theorems": [
    "Verif.Ace.one_copy_per_cache_partial",
    "Verif.Ace.single_writer_partial",
    "Verif.Ace.loads_see_last_store_partial",
    "Verif.Ace.copies_up_to_date_partial",
    "Verif.Ace.copies_agree_partial",
    "Verif.Ace.nothing_lost_partial",
    "Verif.Ace.memory_current_partial",
    "Verif.Ace.sparse_store_corrupts",
    "Verif.Ace.clean_invalid_loses_store",
    "Verif.Ace.write_through_stale_copy",
    "Verif.Ace.disjoint_write_uniques_race",
    "Verif.Ace.read_once_overtakes_clean",
    "Verif.Ace.nonsecure_clean_goes_to_secure_memory"
   ],
   "note": "All interleavings of any number of ACE write-back/write-through caches and ACE-Lite masters with the interconnect, for the requests of OpOk; for the requests left out the property is false in the code (witness theorems)."
  },
  {
   "property": "C34",
   "status": "partial",
   "theorems": [
    "Verif.Cdma.cdma_exact_partial",
    "Verif.Cdma.copies",
    "Verif.Cdma.blockCopy_eq",
    "Verif.Cdma.irq_clear",
    "Verif.Cdma.zero_length",
    "Verif.Cdma.overlap_above_corrupts",
    "Verif.Cdma.rewrite_underflows",
    "Verif.Cdma.uninitialised_start",
    "Verif.Cdma.read_error_ignored",
    "Verif.Cdma.register_overrun",
    "Verif.Cdma.control_ignored",
    "Verif.Cdma.reset_bit_self_clears"
   ],
   "note": "Exact and terminating for ranges that do not wrap the address space; the result is a forward block copy, equal to the intended copy unless the ranges overlap with the destination above (witness)."
  },
  {
   "property": "C35",
   "status": "partial",
   "theorems": [
    "Verif.Mcdma.mm2s_exact",
    "Verif.Mcdma.s2mm_exact",
    "Verif.Mcdma.s2mm_dropped",
    "Verif.Mcdma.intr_exact",
    "Verif.Mcdma.tail_starts",
    "Verif.Mcdma.long_descriptor_overruns",
    "Verif.Mcdma.stale_status_bits",
    "Verif.Mcdma.channel16_never_starts",
    "Verif.Mcdma.lost_wakeup",
    "Verif.Mcdma.dropped_packet_overwrites",
    "Verif.Mcdma.long_packet_asserts",
    "Verif.Mcdma.received_status"
   ],
   "note": "Every chain of descriptors of at most 128 KiB is streamed once, in order, on every channel; longer descriptors overrun a stack buffer, a wake-up can be lost while another channel loads and channel 16 never starts (witnesses)."
  },
  {
   "property": "C36",
   "status": "partial",
   "theorems": [
    "Verif.Mrmac.one_size_class",
    "Verif.Mrmac.rx_counts",
    "Verif.Mrmac.rx_handled",
    "Verif.Mrmac.corrupted_frame_dropped",
    "Verif.Mrmac.valid_frame_delivered",
    "Verif.Mrmac.rx_order",
    "Verif.Mrmac.packet_counters_saturate",
    "Verif.Mrmac.byte_counters_partial",
    "Verif.Mrmac.byte_counters_do_not_saturate",
    "Verif.Mrmac.extended_counters_wrap",
    "Verif.Mrmac.tx_inserts_valid_fcs",
    "Verif.Mrmac.tx_counts",
    "Verif.Mrmac.tx_pieces",
    "Verif.Mrmac.tick_exact",
    "Verif.Mrmac.any_access_ticks",
    "Verif.Mrmac.wide_register_access_overruns",
    "Verif.Mrmac.short_frame_prefixes_next",
    "Verif.Mrmac.fcs_overflows_buffer",
    "Verif.Mrmac.delete_fcs_has_no_effect",
    "Verif.Mrmac.short_received_frame_outside",
    "Verif.Mrmac.third_frame_lost",
    "Verif.Mrmac.received_frame_fcs"
   ],
   "note": "Counters, check sequences, assembly, receive order and register ticks are exact for every history; byte counters do not stop at a maximum, short frames stay in the transmit buffer, frames of 65533 bytes or more overflow it, FCS deletion has no effect and frames without a full header are read past their end (witnesses)."
  },
  {
   "property": "C37",
   "status": "proved",
   "theorems": [
    "Verif.Splitter.replicated",
    "Verif.Splitter.status_reported",
    "Verif.Splitter.mismatch_iff",
    "Verif.Splitter.unset_status_hidden"
   ],
   "note": "Every target sees the access as given, the result of the first is returned and a mismatch is detected; a target that leaves the status untouched is hidden by the previous one (witness)."
  },
  {
   "property": "C38",
   "status": "partial",
   "theorems": [
    "Verif.Apb.one_transfer",
    "Verif.Apb.waits_for_ready",
    "Verif.Apb.rejected",
    "Verif.Apb.write_data",
    "Verif.Apb.long_setup",
    "Verif.Apb.ignore_reads",
    "Verif.Apb.narrow_bus_drops_bytes"
   ],
   "note": "One transfer per accepted access, held until ready; a delay annotation lengthens the setup phase, ignore commands read, buses below 32 bits drop bytes (witnesses)."
  },
  {
   "property": "C39",
   "status": "partial",
   "theorems": [
    "Verif.Wishbone.write_exact_partial",
    "Verif.Wishbone.read_exact_partial",
    "Verif.Wishbone.handshake_exact",
    "Verif.Wishbone.link_exact",
    "Verif.Wishbone.link_idle",
    "Verif.Wishbone.serve_full",
    "Verif.Wishbone.overrun_iff",
    "Verif.Wishbone.unaligned_write_wrong",
    "Verif.Wishbone.unaligned_read_wrong",
    "Verif.Wishbone.crossing_read_wrong",
    "Verif.Wishbone.attributes_ignored",
    "Verif.Wishbone.partial_select_writes_all",
    "Verif.Wishbone.big_endian_select_mismatch"
   ],
   "note": "Exact for aligned accesses of at most one word or of whole words; unaligned accesses, partial last words, byte enables and partial selects fail (witnesses)."
  },
  {
   "property": "C40",
   "status": "partial",
   "theorems": [
    "Verif.Native.native_exact",
    "Verif.Native.last_write_wins",
    "Verif.Native.read_back",
    "Verif.Native.dmi_range",
    "Verif.Native.wrapping_access_unchecked",
    "Verif.Native.ignore_writes",
    "Verif.Native.unsized_unchecked"
   ],
   "note": "Exact for reads and writes of a sized memory that do not wrap the address space; wrapping accesses, ignore commands and unsized memories are unchecked (witnesses)."
  },
  {
   "property": "C41",
   "status": "partial",
   "theorems": [
    "Verif.Umi.count_roundtrip",
    "Verif.Umi.requests_cover",
    "Verif.Umi.read_data",
    "Verif.Umi.responses_cover",
    "Verif.Umi.responses_exact",
    "Verif.Umi.access_exact",
    "Verif.Umi.empty_access_asks_for_bytes",
    "Verif.Umi.request_lost_while_target_busy",
    "Verif.Umi.wide_write_faults",
    "Verif.Umi.master_id_shifts"
   ],
   "note": "Covers, byte counts, data, end-of-message flags and the round trip through both bridges are exact for every length and target latency; the packing of command words is in tlm-bridges/umi.h, which the repository does not contain. Empty accesses ask for a full-length message and requests pipelined while the target is busy are lost (witnesses)."
  },
  {
   "property": "C42",
   "status": "partial",
   "theorems": [
    "Verif.Traffic.random_legal",
    "Verif.Traffic.random_init",
    "Verif.Traffic.mask_ok",
    "Verif.Traffic.mask_leaves_window",
    "Verif.Traffic.zero_length_divides_by_zero",
    "Verif.Traffic.max_length_divides_by_zero",
    "Verif.Traffic.init_4g_empty",
    "Verif.Traffic.last_write_not_read"
   ],
   "note": "For every random sequence and every good configuration; a mask below the window, a minimum length of 0 and a maximum length of 2^32-1 fail, and a last write is not read back (witnesses)."
  },
  {
   "property": "C43",
   "status": "partial",
   "theorems": [
    "Verif.DevAccess.from_io_exact",
    "Verif.DevAccess.to_io_exact",
    "Verif.DevAccess.aligned_access_partial",
    "Verif.DevAccess.odd_lengths_bulk",
    "Verif.DevAccess.big_endian_reads_zero"
   ],
   "note": "Bytes are exact in every case; single aligned device accesses only for natural sizes and alignment; odd lengths use memcpy and big-endian hosts read zeros (witnesses)."
  },
  {
   "property": "C44",
   "status": "partial",
   "theorems": [
    "Verif.RPBounds.decode_outside_iff",
    "Verif.RPBounds.process_in_bounds_partial",
    "Verif.RPBounds.bufAfter_ge",
    "Verif.RPBounds.write_data_in_packet",
    "Verif.RPBounds.decode_independent",
    "Verif.RPBounds.byte_enables_in_packet_partial",
    "Verif.RPBounds.hello_capabilities_outside",
    "Verif.RPBounds.unknown_device_outside",
    "Verif.RPBounds.short_read_response_outside",
    "Verif.RPBounds.read_response_in_bounds_partial",
    "Verif.RPBounds.byte_enables_wrap",
    "Verif.RPBounds.short_packet_uses_leftovers",
    "Verif.RP.byte_enables_checked"
   ],
   "note": "Decoding leaves the buffer exactly for hello packets whose capability list does; write data and complete packets are handled exactly; capability offsets, device numbers, read-response data offsets and wrapping byte-enable ends are not checked (proved).  Capability words overlapping the hello structure are a separate outcome, not modelled further."
  },
  {
   "property": "C45",
   "status": "proved",
   "theorems": [
    "Verif.Ace.served_in_order",
    "Verif.Ace.served_completely",
    "Verif.Ace.no_deadlock",
    "Verif.Ace.no_livelock",
    "Verif.Ace.requests_complete"
   ],
   "note": "For every schedule of the model of C33 with any loads, stores and CleanShared/CleanInvalid/MakeInvalid operations; barriers, DVM and exclusive accesses are not modelled and fifos never fill."
  },
  {
   "property": "C46",
   "status": "partial",
   "theorems": [
    "Verif.AxiLite.access_exact",
    "Verif.AxiLite.write_exact",
    "Verif.AxiLite.read_exact",
    "Verif.AxiLite.slave_write_exact",
    "Verif.AxiLite.slave_read_exact",
    "Verif.AxiLite.status_roundtrip",
    "Verif.AxiLite.crossing_write_truncated",
    "Verif.AxiLite.crossing_read_hangs",
    "Verif.AxiLite.streaming_write_truncated",
    "Verif.AxiLite.zero_streaming_width_asserts",
    "Verif.AxiLite.Ctl.reads_in_order",
    "Verif.AxiLite.Ctl.reads_drain",
    "Verif.AxiLite.Ctl.writes_in_order",
    "Verif.AxiLite.Ctl.write_transfers_partial",
    "Verif.AxiLite.Ctl.reset_ends_write_partial",
    "Verif.AxiLite.Ctl.data_reset_hangs",
    "Verif.AxiLite.Ctl.read_transfers",
    "Verif.AxiLite.bad_length_refused",
    "Verif.AxiLite.Ctl.write_ends_partial",
    "Verif.AxiLite.Ctl.read_ends"
   ],
   "note": "Data exactness holds through the aligner for every access; without the aligner a word-crossing write is truncated, a word-crossing read hangs and a write with a short streaming width is truncated (proved by witnesses). Order and once-only hold for every schedule. The reset part fails: a reset while write data is on the bus hangs the bridge for every continuation (data_reset_hangs); in all other states a reset ends the call."
  },
  {
   "property": "C47",
   "status": "partial",
   "theorems": [
    "Verif.PcAxi.channel_checked_partial",
    "Verif.PcAxi.no_false_alarm",
    "Verif.PcAxi.hangs_exact",
    "Verif.PcAxi.back_to_back_unchecked",
    "Verif.PcAxi.release_unchecked",
    "Verif.PcAxi.reads_checked",
    "Verif.PcAxi.reads_reset",
    "Verif.PcAxi.too_many_reads_false_alarm",
    "Verif.PcAxi.same_cycle_answer_accepted",
    "Verif.PcAxi.strobes_checked_partial",
    "Verif.PcAxi.narrow_wrap_strobes_wrong",
    "Verif.PcAxi.unaligned_fixed_strobes_wrong",
    "Verif.PcAxi.bursts_checked_partial",
    "Verif.PcAxi.every_beat_checked",
    "Verif.PcAxi.responses_checked",
    "Verif.PcAxi.long_burst_unreported",
    "Verif.PcAxi.default_ignores_write_errors",
    "Verif.PcAxi.axi3_order_unchecked",
    "Verif.PcAxi.data_expected",
    "Verif.PcAxi.Exp.doW_nonempty",
    "Verif.PcAxi.responses_expected",
    "Verif.PcAxi.axi3_response_not_expected",
    "Verif.PcAxi.page_checked",
    "Verif.PcAxi.wrap_alignment_checked",
    "Verif.PcAxi.read_truncation_harmless",
    "Verif.PcAxi.wrap_length_checked",
    "Verif.PcAxi.fixed_length_unchecked"
   ],
   "note": "Exact for reads, responses, page and wrap rules, expectations and time-outs over every trace; stability is exact for spaced transfers, strobes for incrementing, full-width wrapping and aligned fixed bursts, burst lengths for bursts that end early. The property fails for the cases of the witness theorems. The reset checker and AXI3 write matching are only covered by witnesses."
  },
  {
   "property": "C48",
   "status": "partial",
   "theorems": [
    "Verif.Tlp.mem_write_exact_partial",
    "Verif.Tlp.mem_read_request",
    "Verif.Tlp.mem_read_exact_partial",
    "Verif.Tlp.conf_write_exact_partial",
    "Verif.Tlp.conf_read_exact_partial",
    "Verif.Tlp.refused_read_reported",
    "Verif.Tlp.mem_expects",
    "Verif.Tlp.dma_write_exact_partial",
    "Verif.Tlp.dma_read_exact_partial",
    "Verif.Tlp.calls_serial",
    "Verif.Tlp.device_accesses_in_order_partial",
    "Verif.Tlp.reads_return_partial",
    "Verif.Tlp.long_read_aborts",
    "Verif.Tlp.long_write_overreads",
    "Verif.Tlp.enabled_write_asserts",
    "Verif.Tlp.wide_ids_assert",
    "Verif.Tlp.huge_asserts",
    "Verif.Tlp.conf_crossing_asserts",
    "Verif.Tlp.short_write_clobbers",
    "Verif.Tlp.empty_read_asks_4096",
    "Verif.Tlp.unaligned_read_short",
    "Verif.Tlp.split_completion_zero_fills",
    "Verif.Tlp.long_conf_truncated",
    "Verif.Tlp.refused_conf_write_ok",
    "Verif.Tlp.short_completion_overreads",
    "Verif.Tlp.unrestored_completion",
    "Verif.Tlp.dma_write_ignores_enables",
    "Verif.Tlp.long_tag_lost",
    "Verif.Tlp.lower_address_zero",
    "Verif.Tlp.prefix_null_write",
    "Verif.Tlp.each_call_sent_once"
   ],
   "note": "Exact for word-aligned writes of whole words (or one word with byte enables), reads within a word, configuration accesses within a word, device writes with all byte enables and device reads with 8-bit tags; serialisation and order hold for every schedule. The code fails the property outside these cases (witness and negative theorems). Reads need the other side to restore the byte order of the header, which the bridge reverses in place; that side is not in the repository."
  },
  {
   "property": "C49",
   "status": "partial",
   "theorems": [
    "Verif.Qdma.doorbell_nothing",
    "Verif.Qdma.doorbell_polled",
    "Verif.Qdma.doorbell_direct",
    "Verif.Qdma.doorbell_ring_partial",
    "Verif.Qdma.doorbell_succeeds",
    "Verif.Qdma.doorbell_meets",
    "Verif.Qdma.ring_history",
    "Verif.Qdma.irq_ring_history",
    "Verif.Qdma.register_roundtrip",
    "Verif.Qdma.ident_constant",
    "Verif.Qdma.context_command",
    "Verif.Qdma.context_roundtrip",
    "Verif.Qdma.irq_context_starts",
    "Verif.Qdma.strobe_covers_partial",
    "Verif.Qdma.entry_pidx_truncated",
    "Verif.Qdma.copy_rounds_up",
    "Verif.Qdma.one_byte_writes_four",
    "Verif.Qdma.queue2_oob",
    "Verif.Qdma.irq_command_oob",
    "Verif.Qdma.queue_command_asserts",
    "Verif.Qdma.bad_vector_oob",
    "Verif.Qdma.register_oob",
    "Verif.Qdma.user_oob",
    "Verif.Qdma.short_descriptor_uninit",
    "Verif.Qdma.stale_cidx_leaves_ring",
    "Verif.Qdma.disabled_queue_runs",
    "Verif.Qdma.byte_read_low",
    "Verif.Qdma.byte_write_clears",
    "Verif.Qdma.cpm4_entry_junk",
    "Verif.Qdma.strobe_merged",
    "Verif.Qdma.queue_as_programmed",
    "Verif.Qdma.vector_as_programmed",
    "Verif.Qdma.interrupt_ring_as_programmed",
    "Verif.Qdma.odd_access_refused",
    "Verif.Qdma.user_roundtrip"
   ],
   "note": "Proved for whole-word copies, 32- and 64-byte descriptors and existing queues and vectors; the index in interrupt entries only below 4096, and requests within 10 ns of a strobe share it. The code fails the property outside these cases (witness and negative theorems)."
  },
  {
   "property": "C50",
   "status": "partial",
   "theorems": [
    "Verif.ChiCoh.coherent_partial",
    "Verif.ChiCoh.unique_exclusive_partial",
    "Verif.ChiCoh.copies_current_partial",
    "Verif.ChiCoh.memory_current_partial",
    "Verif.ChiCoh.no_abort_partial",
    "Verif.ChiCoh.dct_loses_store",
    "Verif.ChiCoh.without_dct_kept",
    "Verif.ChiCoh.upgrade_race",
    "Verif.ChiCoh.sparse_store_loses",
    "Verif.ChiCoh.grant_race",
    "Verif.ChiCoh.clean_unique_race",
    "Verif.ChiCoh.memory_race",
    "Verif.ChiCoh.junk_enables_lose",
    "Verif.ChiCoh.read_once_asserts",
    "Verif.ChiCoh.two_dirty_owners"
   ],
   "note": "Proved for every run without direct cache transfer, over pin-level links, that keeps clear of four named races (Calm). In each of the excluded cases the code violates the property (witness runs)."
  },
  {
   "property": "C51",
   "status": "partial",
   "theorems": [
    "Verif.ChiLive.access_can_finish",
    "Verif.ChiLive.can_come_to_rest",
    "Verif.ChiLive.never_stuck",
    "Verif.ChiLive.no_assertion_fails",
    "Verif.ChiLive.no_link_fails",
    "Verif.ChiLive.stores_can_starve"
   ],
   "note": "Proved over pin-level links for every reachable state: no dead end, no failing assertion, and a schedule that ends everything. That every access ends under every order of steps is false: two stores to one line can take it from each other forever (stores_can_starve); without links an assertion fails (no_link_fails)."
  },
  {
   "property": "C52",
   "status": "partial",
   "theorems": [
    "Verif.ChiSn.memory_is_history_partial",
    "Verif.ChiSn.exactly_once",
    "Verif.ChiSn.reads_in_order",
    "Verif.ChiSn.answered_in_order",
    "Verif.ChiSn.retry_bounded",
    "Verif.ChiSn.data_assembled",
    "Verif.ChiSn.never_undefined",
    "Verif.ChiSn.can_finish",
    "Verif.ChiSn.other_ops_do_nothing",
    "Verif.ChiSn.eor_lost",
    "Verif.ChiSn.narrow_read_undefined",
    "Verif.ChiSn.narrow_read_leaks",
    "Verif.ChiSn.comp_write_overtaken"
   ],
   "note": "Proved for all runs with add and clear as the operations of atomic loads and stores (and swap, compare, reads of whole lines, writes). False of the code for the other six operations, which leave memory unchanged (other_ops_do_nothing), and for narrow reads. Order is that of carrying out: a write acknowledged before its data can be overtaken by a read (comp_write_overtaken)."
  },
  {
   "property": "C53",
   "status": "partial",
   "theorems": [
    "Verif.ChiRn.region_read",
    "Verif.ChiRn.region_write_partial",
    "Verif.ChiRn.cpu_atomic_partial",
    "Verif.ChiRn.cpu_cached",
    "Verif.ChiRn.read_right",
    "Verif.ChiRn.write_exact",
    "Verif.ChiRn.write_right_partial",
    "Verif.ChiRn.write_tail_lost",
    "Verif.ChiRn.direct_read_asserts",
    "Verif.ChiRn.atomic_right_partial",
    "Verif.ChiRn.atomic_store_right_partial",
    "Verif.ChiRn.endian_ignored",
    "Verif.ChiRn.big_endian_add_wrong",
    "Verif.ChiRn.region_atomic_lost",
    "Verif.ChiRn.atomics_not_snooped"
   ],
   "note": "One access at a time, end to end through cache, home and slave node. Reads: all. Writes: exact effect for all; right when they start on a line or stay in one, and false otherwise (write_tail_lost). Atomics: little-endian add, clear, swap and compare; false for big-endian ones and the other operations."
  },
  {
   "property": "C54",
   "status": "partial",
   "theorems": [
    "Verif.HwSlave.write_right_partial",
    "Verif.HwSlave.read_right_partial",
    "Verif.HwSlave.narrow_read_exact",
    "Verif.HwSlave.resp_fields",
    "Verif.HwSlave.short_wrap_write_wrong",
    "Verif.HwSlave.short_wrap_read_wrong",
    "Verif.HwSlave.narrow_read_overreads",
    "Verif.HwSlave.fixed_read_overreads",
    "Verif.HwSlave.stale_exokay"
   ],
   "note": "All bursts the protocol allows except wrapping bursts shorter than the bus, for which the claim is false. The descriptor and buffer contents the hardware provides are taken from the RTL as the contract."
  },
  {
   "property": "C55",
   "status": "partial",
   "theorems": [
    "Verif.HwMaster.access_right",
    "Verif.HwMaster.status_right",
    "Verif.HwMaster.security_inverted",
    "Verif.HwMaster.security_wrong",
    "Verif.HwMaster.exclusive_dropped",
    "Verif.HwMaster.ignore_writes",
    "Verif.HwMaster.offset_loses_bytes",
    "Verif.HwMaster.offset_breaks_protocol",
    "Verif.HwMaster.early_access_short",
    "Verif.HwMaster.no_aligner_crash"
   ],
   "note": "Proved for reads and writes through a probed bridge whose offset is a multiple of 4 KB; the claim is false for the IGNORE command, for other offsets, for accesses made before the probe, and for the security and exclusive attributes. What the hardware makes of a descriptor is taken from the RTL as the contract; interrupts and ownership polling are not modelled."
  },
  {
   "property": "C56",
   "status": "partial",
   "theorems": [
    "Verif.Hsc.encrypt_right_partial",
    "Verif.Hsc.roundtrip_128",
    "Verif.Hsc.roundtrip_wide_iff",
    "Verif.Hsc.bypass_keeps_icv",
    "Verif.Hsc.counts_stay_zero",
    "Verif.Hsc.streams_keep_keys",
    "Verif.Hsc.continuation_retagged",
    "Verif.Hsc.wide_key_breaks",
    "Verif.Hsc.xpn128_wide",
    "Verif.Hsc.conf50_ignored",
    "Verif.Hsc.conf30_leaks",
    "Verif.Hsc.conf30_short_overruns",
    "Verif.Hsc.an_spoils_tci",
    "Verif.Hsc.tag_not_standard",
    "Verif.Hsc.tag_fields_partial",
    "Verif.Hsc.sci_always_present",
    "Verif.Hsc.high_index_ub",
    "Verif.Hsc.no_attributes_ub",
    "Verif.Hsc.other_modes_refused",
    "Verif.Hsc.runt_frame_reported"
   ],
   "note": "The round trip is proved for the 128-bit suite and all whole frames; it is false for the other suites (exact condition proved), for bypass (ICV kept), for packets in several transactions and for short frames with confidentiality offset 30. The tag departs from 802.1AE in byte order, SL, SC and high association numbers. The ICV is not computed by the code."
  },
  {
   "property": "C57",
   "status": "partial",
   "theorems": [
    "Verif.Hsc.interface_right_partial",
    "Verif.Hsc.keys_held_partial",
    "Verif.Hsc.neighbour_keys_overlap",
    "Verif.Hsc.past_the_map_ub",
    "Verif.Hsc.refused",
    "Verif.Hsc.subword_wrong",
    "Verif.Hsc.keys_not_readable",
    "Verif.Hsc.reset_clears",
    "Verif.Hsc.window_survives_reset"
   ],
   "note": "Word accesses proved against the documented interface for key numbers at least eight apart; false for closer ones, since keys are laid out one word apart. The array is taken as flat memory; the access one past the register array is undefined behaviour."
  },
  {
   "property": "C58",
   "status": "partial",
   "theorems": [
    "Verif.Vfio.access_right_partial",
    "Verif.Vfio.unsupported_refused",
    "Verif.Vfio.out_of_range_never_refused",
    "Verif.Vfio.ignore_writes",
    "Verif.Vfio.dmi_right_iff",
    "Verif.Vfio.dmi_inside",
    "Verif.Vfio.buffers_apart",
    "Verif.Vfio.unmap_leaves_half",
    "Verif.Vfio.large_pool_overruns",
    "Verif.Vfio.no_interrupt_lost",
    "Verif.Vfio.no_interrupt_invented_partial",
    "Verif.Vfio.low_after_ack_partial",
    "Verif.Vfio.ack_rearms",
    "Verif.Vfio.settles",
    "Verif.Vfio.never_stuck",
    "Verif.Vfio.wide_access_no_ack",
    "Verif.Vfio.startup_spurious"
   ],
   "note": "Accesses inside the region proved exact; accesses outside it are not refused (proved). DMI agrees with transport exactly when the offset is zero. No interrupt is lost, for every interleaving; spurious ones are excluded once the polling thread has started before the first interrupt, with a witness otherwise; accesses of eight bytes or more never acknowledge."
  },
  {
   "property": "C59",
   "status": "proved",
   "theorems": [
    "Verif.AceSnoop.snoop_answered",
    "Verif.AceSnoop.snoops_in_order",
    "Verif.AceSnoop.all_answered",
    "Verif.AceSnoop.at_most_16",
    "Verif.AceSnoop.never_stuck",
    "Verif.AceSnoop.settles",
    "Verif.AceSnoop.error_data_misdelivered",
    "Verif.AceSnoop.short_buffer_misdelivered",
    "Verif.AceSnoop.attributes_stick"
   ],
   "note": "For snoops of one cache line with fresh attributes, and answers without data in error responses; each of these conditions is shown necessary by a counterexample (findings). Handshakes are atomic steps; reset is in C60."
  },
  {
   "property": "C60",
   "status": "partial",
   "theorems": [
    "Verif.AceSnoop.Order.overlap_right",
    "Verif.AceSnoop.Order.snoop_waits",
    "Verif.AceSnoop.Order.snoops_apart",
    "Verif.AceSnoop.Order.read_response_apart_partial",
    "Verif.AceSnoop.Order.two_snoops_unlock",
    "Verif.AceSnoop.Order.write_response_during_snoop",
    "Verif.AceSnoop.Order.gone_stays",
    "Verif.AceSnoop.Order.reset_blocks_line",
    "Verif.AceSnoop.Master.held_le",
    "Verif.AceSnoop.Master.exact_without_reset",
    "Verif.AceSnoop.Master.resets_exhaust",
    "Verif.AceSnoop.Dvm.sync_never_counted",
    "Verif.AceSnoop.Dvm.complete_does_not_wait"
   ],
   "note": "Snoops wait for earlier responses and snoops: proved. Responses waiting for snoops: proved for read responses with one snoop in flight, false with two and for write responses. DVM ordering and recovery from resets are false (proved)."
  },
  {
   "property": "C61",
   "status": "partial",
   "theorems": [
    "Verif.Ccix.request_crosses",
    "Verif.Ccix.part_crosses",
    "Verif.Ccix.part_data_iff",
    "Verif.Ccix.sparse_enables_overwrite",
    "Verif.Ccix.line_crosses",
    "Verif.Ccix.partial_line_enables",
    "Verif.Ccix.partial_line_wrong",
    "Verif.Ccix.read_length_lost",
    "Verif.Ccix.clean_write_changes_state",
    "Verif.Ccix.refused_iff",
    "Verif.Ccix.request_over_link",
    "Verif.Ccix.part_over_link_partial",
    "Verif.Ccix.line_over_link"
   ],
   "note": "Reads, requests without data, atomics, whole lines and parts of lines whose data enables all its bytes: proved, also over CXS packets (part lines of 16 or 32 bytes, and atomics). False (proved) for sparse byte enables, partial writes of a whole line, lengths of reads, and the state of WriteCleanFull."
  },
  {
   "property": "C62",
   "status": "partial",
   "theorems": [
    "Verif.Ccix.answer_data_partial",
    "Verif.Ccix.unaligned_answer_lost",
    "Verif.Ccix.answer_state",
    "Verif.Ccix.atomic_state",
    "Verif.Ccix.answer_refused",
    "Verif.Ccix.snoop_demand",
    "Verif.Ccix.clean_forbids_dirty",
    "Verif.Ccix.snoop_answers_partial",
    "Verif.Ccix.shared_dirty_refused",
    "Verif.Ccix.snoop_answer_sound"
   ],
   "note": "Aligned answers and device memory, states, snoops and snoop answers: proved. False (proved) for unaligned normal memory, answers that give no copy, and SnpResp_SD."
  },
  {
   "property": "C63",
   "status": "partial",
   "theorems": [
    "Verif.CcixSnoop.copies_known_partial",
    "Verif.CcixSnoop.exclusive_done_partial",
    "Verif.CcixSnoop.snoops_progress_partial",
    "Verif.CcixSnoop.second_copy_survives",
    "Verif.CcixSnoop.second_answer_aborts",
    "Verif.CcixSnoop.copy_forgotten",
    "Verif.CcixSnoop.requester_snooped",
    "Verif.CcixSnoop.one_node_answers_partial",
    "Verif.CcixSnoop.two_nodes_abort",
    "Verif.CcixSnoop.dirty_data_lost",
    "Verif.CcixSnoop.grant_known"
   ],
   "note": "One cache behind each CCIX port, one request node on each answering chip: proved for all interleavings. With two the property is false (proved)."
  },
  {
   "property": "C64",
   "status": "partial",
   "theorems": [
    "Verif.CcixLink.requests_find_room",
    "Verif.CcixLink.credits_come_back",
    "Verif.CcixLink.data_credits",
    "Verif.CcixLink.snoops_find_room_partial",
    "Verif.CcixLink.snoop_credit_wraps",
    "Verif.CcixLink.carried_snoops_wrong",
    "Verif.CcixLink.write_finishes_partial",
    "Verif.CcixLink.combined_ack_lost"
   ],
   "note": "Requests and data credits: exact balance for all interleavings. Snoops: as long as a waiting snoop is woken by a snoop credit; otherwise false (proved). Write identifiers: for separate data and acknowledgement; lost when combined (proved)."
  },
  {
   "property": "C65",
   "status": "partial",
   "theorems": [
    "Verif.AceHw.read_attributes",
    "Verif.AceHw.write_attributes_partial",
    "Verif.AceHw.wrap_write_fixed",
    "Verif.AceHw.address_round_trip",
    "Verif.AceHw.access_right_partial",
    "Verif.AceHw.burst_legal_partial",
    "Verif.AceHw.refused",
    "Verif.AceHw.write_delivered_partial",
    "Verif.AceHw.read_served_partial",
    "Verif.AceHw.response_right",
    "Verif.AceHw.tail_dropped",
    "Verif.AceHw.unaligned_write_illegal",
    "Verif.AceHw.unaligned_read_wrong",
    "Verif.AceHw.short_read_overruns",
    "Verif.AceHw.short_reads_overrun",
    "Verif.AceHw.narrow_illegal",
    "Verif.AceHw.read_enables_ignored",
    "Verif.AceHw.wrap_write_sent_fixed",
    "Verif.AceHw.illegal_bursts",
    "Verif.AceHw.byte_burst_asserts",
    "Verif.AceHw.unaligned_write_shifted",
    "Verif.AceHw.narrow_write_spread",
    "Verif.AceHw.wrap_write_lost",
    "Verif.AceHw.wrap_read_wrong",
    "Verif.AceHw.single_beat_overrun",
    "Verif.AceHw.access_through_aligner_partial",
    "Verif.AceHw.aligner_does_not_help",
    "Verif.AceHw.accepted_exact"
   ],
   "note": "Proved for whole bus words from an aligned address and for writes of less than one (master), and for full-width FIXED and aligned INCR bursts and WRAP reads from their boundary (slave). All other shapes: false, with witnesses. One access at a time; sharing of the data memories between accesses is C66."
  },
  {
   "property": "C66",
   "status": "partial",
   "theorems": [
    "Verif.AceHwConc.Out.answers_match_partial",
    "Verif.AceHwConc.Out.exactly_once_partial",
    "Verif.AceHwConc.Out.unexpected_iff",
    "Verif.AceHwConc.Out.own_data_partial",
    "Verif.AceHwConc.Out.progress_partial",
    "Verif.AceHwConc.Out.data_overwritten",
    "Verif.AceHwConc.Out.early_answer_fails",
    "Verif.AceHwConc.Out.reset_shifts_answers",
    "Verif.AceHwConc.Out.reset_hangs",
    "Verif.AceHwConc.Ram.full_own_data",
    "Verif.AceHwConc.Ram.lite_data_overwritten",
    "Verif.AceHwConc.Rack.ack_lost",
    "Verif.AceHwConc.Rack.ack_seen_partial",
    "Verif.AceHwConc.Snoop.own_snoop_partial",
    "Verif.AceHwConc.Snoop.snoops_collide",
    "Verif.AceHwConc.Snoop.lock_decides",
    "Verif.AceHwConc.Snoop.top_range_unlocked",
    "Verif.AceHwConc.Snoop.second_lock_forgets_first",
    "Verif.AceHwConc.request_run_twice"
   ],
   "note": "Answers match and come once as long as no reset comes and no response is handled before its access is recorded; data is right as long as no write is prepared before the previous one is on the bus (read responses to a full ACE master: always). Outside of that: false, with witnesses."
  },
  {
   "property": "C67",
   "status": "partial",
   "theorems": [
    "Verif.RPAts.translation_exact",
    "Verif.RPAts.request_exact",
    "Verif.RPAts.translation_refused",
    "Verif.RPAts.invalidation_exact",
    "Verif.RPAts.invalidation_without_device",
    "Verif.RPAts.invalidation_refused_aborts",
    "Verif.RPAts.dispatch_spec",
    "Verif.RPAts.request_to_itself_aborts",
    "Verif.RPAts.physical_marked",
    "Verif.RPAts.physical_not_passed_on"
   ],
   "note": "Translations, invalidations and the physical-address mark of the sender: proved for every peer and value. False: a peer from this library aborts on requests although it announces the capability, and drops the mark."
  },
  {
   "property": "C68",
   "status": "partial",
   "theorems": [
    "Verif.ChiHw.flit_sent_partial",
    "Verif.ChiHw.flit_received_partial",
    "Verif.ChiHw.request_fits",
    "Verif.ChiHw.defaults_do_not_fit",
    "Verif.ChiHw.wide_request_undefined",
    "Verif.ChiHw.wide_request_spills",
    "Verif.ChiHw.data_words",
    "Verif.ChiHw.data_words_right",
    "Verif.ChiHw.data_read_wrong",
    "Verif.ChiHw.sent_in_order_partial",
    "Verif.ChiHw.sent_all_partial",
    "Verif.ChiHw.received_in_order_partial",
    "Verif.ChiHw.received_prefix",
    "Verif.ChiHw.no_wakeup_lost",
    "Verif.ChiHw.received_all",
    "Verif.ChiHw.one_turn_per_bit",
    "Verif.ChiHw.concurrent_calls_lose_a_flit",
    "Verif.ChiHw.second_bridge_sends_garbage",
    "Verif.ChiHw.reset_repeats_old_flit",
    "Verif.ChiHw.second_data_flit_wrong"
   ],
   "note": "Order, completeness and contents for one bridge without a second reset and one caller at a time, all widths that fit. False: data flits from three of four descriptors are read wrongly, requests of the default widths do not fit, and concurrent callers, a second bridge or a second reset send garbage."
  },
  {
   "property": "C69",
   "status": "partial",
   "theorems": [
    "Verif.TgTlm.every_transfer_once",
    "Verif.TgTlm.clean_iff",
    "Verif.TgTlm.stops_at_first_failure",
    "Verif.TgTlm.script_on_memory",
    "Verif.TgTlm.disabled_byte_reported",
    "Verif.TgTlm.attributes_partial",
    "Verif.TgTlm.region_is_qos",
    "Verif.TgTlm.region_lost",
    "Verif.TgTlm.run_in_order",
    "Verif.TgTlm.last_set_runs",
    "Verif.TgTlm.polite_complete_partial",
    "Verif.TgTlm.overwritten_set_lost",
    "Verif.TgTlm.callback_taken_over"
   ],
   "note": "Transfers, order and reports for every list and target. False: the region attribute carries the quality of service, a byte that is not enabled is compared all the same, a set added before the previous one was taken replaces it, and one added while another runs takes over its callback; for sets added to a free thread all are run and announced."
  },
  {
   "property": "C70",
   "status": "partial",
   "theorems": [
    "Verif.TgConf.text_exact",
    "Verif.TgConf.bool_text",
    "Verif.TgConf.text_exact_fits",
    "Verif.TgConf.array_exact",
    "Verif.TgConf.written_read_back_partial",
    "Verif.TgConf.vector_read_back_partial",
    "Verif.TgConf.snoop_lost",
    "Verif.TgConf.plain_transfer_undefined",
    "Verif.TgConf.complete_iff_no_error",
    "Verif.TgConf.vector_partial",
    "Verif.TgConf.array_number_wrong",
    "Verif.TgConf.array_number_examples",
    "Verif.TgConf.malformed_number_accepted",
    "Verif.TgConf.unknown_command_reads",
    "Verif.TgConf.empty_object_accepted",
    "Verif.TgConf.width_text_ignored",
    "Verif.TgConf.lengths_undefined",
    "Verif.TgConf.bad_entry_masked",
    "Verif.TgConf.qos_cut",
    "Verif.TgConf.draw_range",
    "Verif.TgConf.above_upper_bound",
    "Verif.TgConf.upper_bound_never",
    "Verif.TgConf.random_bool_false",
    "Verif.TgConf.random_data",
    "Verif.TgConf.random_blank_fails",
    "Verif.TgConf.random_zero_bound",
    "Verif.TgConf.descriptions"
   ],
   "note": "Between documents and transfers (JSON text trusted): texts of numbers are exact, writing and reading back is the identity but for four attributes, and the last error is none exactly for complete entries. False: numbers in byte arrays of ten and more, malformed texts, commands, random bounds and error descriptions."
  },
  {
   "property": "C71",
   "status": "partial",
   "theorems": [
    "Verif.CxsHw.messages_sent_in_order_partial",
    "Verif.CxsHw.returned_call_was_sent_partial",
    "Verif.CxsHw.no_write_while_owned_partial",
    "Verif.CxsHw.messages_received_in_order_partial",
    "Verif.CxsHw.nothing_left_behind_partial",
    "Verif.CxsHw.every_call_completes_partial",
    "Verif.CxsHw.every_message_delivered_partial",
    "Verif.CxsHw.bridge_to_bridge_partial",
    "Verif.CxsHw.bridge_to_bridge_all_partial",
    "Verif.CxsHw.any_layout_partial",
    "Verif.CxsHw.wide_control_never_received",
    "Verif.CxsHw.wide_control_undefined",
    "Verif.CxsHw.send_from_handler_hangs",
    "Verif.CxsHw.reset_leaves_call_waiting",
    "Verif.CxsHw.half_packet_survives_reset",
    "Verif.CxsHw.chained_request_in_next_flit_fails"
   ],
   "note": "For control words of at most 32 bits, handlers that do not send, and no reset: order, exactness, ownership, delivery, completion and end to end over all interleavings. False: wider control words (undefined shift, nothing is ever received), sending from a handler, reset while a call waits or half a packet was received, chained requests in a later flit."
  },
  {
   "property": "C72",
   "status": "partial",
   "theorems": [
    "Verif.PcAce.ace_reads_exact_partial",
    "Verif.PcAce.ace_writes_exact_partial",
    "Verif.PcAce.ace_snoops_exact_partial",
    "Verif.PcAce.barrier_pairs_exact_partial",
    "Verif.PcAce.unexpected_ack_exact",
    "Verif.PcAce.late_ack_exact",
    "Verif.PcAce.snoop_data_exact_partial",
    "Verif.PcAce.wide_id_false_alarm",
    "Verif.PcAce.readOnce_shared_false_alarm",
    "Verif.PcAce.readOnce_exclusive_missed",
    "Verif.PcAce.maintenance_false_alarm",
    "Verif.PcAce.reserved_burst_missed",
    "Verif.PcAce.ignore_barriers_false_alarm",
    "Verif.PcAce.same_cycle_answer_accepted",
    "Verif.PcAce.depth_overflow_reported_twice",
    "Verif.PcAce.barrier_limit_never_reported",
    "Verif.PcAce.back_during_unique_missed",
    "Verif.PcAce.back_after_clean_false_alarm",
    "Verif.PcAce.wrap_length_false_alarm",
    "Verif.PcAce.wrap_length_missed",
    "Verif.PcAce.long_back_missed",
    "Verif.PcAce.line_unique_strobes_missed",
    "Verif.PcAce.evict_answer_false_alarm",
    "Verif.PcAce.wide_id_write_false_alarm",
    "Verif.PcAce.ignore_barriers_write_false_alarm",
    "Verif.PcAce.reserved_burst_write_missed",
    "Verif.PcAce.data_first_reported",
    "Verif.PcAce.resp_overflow_reported_twice",
    "Verif.PcAce.early_cdlast_missed",
    "Verif.PcAce.wide_snoop_bus",
    "Verif.PcAce.dvm_message_false_alarm",
    "Verif.PcAce.wide_barriers_missed",
    "Verif.PcAce.ignore_barriers_pair_false_alarm",
    "Verif.PcAce.far_line_false_alarm",
    "Verif.PcAce.wrapped_line_false_alarm",
    "Verif.PcAce.dvm_forgets_line",
    "Verif.PcAce.done_assertion_holds"
   ],
   "note": "Exact in both directions for the read, write, snoop, barrier, acknowledge and snoop-data checks, over all traces without reset and within the queue depth, outside the listed cases in which the checker is wrong; each of those is proved with a trace. Handshake stability and the relation between snoop hazards are not modelled."
  },
  {
   "property": "C73",
   "status": "partial",
   "theorems": [
    "Verif.PcChi.requests_exact_partial",
    "Verif.PcChi.transactions_exact_partial",
    "Verif.PcChi.retry_silent_partial",
    "Verif.PcChi.retry_heard_partial",
    "Verif.PcChi.opcodes_exact",
    "Verif.PcChi.snoop_dvm_exact",
    "Verif.PcChi.credits_exact",
    "Verif.PcChi.requests_faults",
    "Verif.PcChi.early_data_missed",
    "Verif.PcChi.second_data_missed",
    "Verif.PcChi.early_ack_missed",
    "Verif.PcChi.unasked_ack_missed",
    "Verif.PcChi.late_retry_missed",
    "Verif.PcChi.two_receipts_missed",
    "Verif.PcChi.dvm_half_missed",
    "Verif.PcChi.direct_data_false_alarm",
    "Verif.PcChi.forward_first_false_alarm",
    "Verif.PcChi.two_homes_false_alarm",
    "Verif.PcChi.stale_ids_false_alarm",
    "Verif.PcChi.narrow_and_cancel_reported",
    "Verif.PcChi.prefetch_false_alarm",
    "Verif.PcChi.two_retries_false_alarm",
    "Verif.PcChi.early_resend_missed",
    "Verif.PcChi.early_resend_counts",
    "Verif.PcChi.second_resend_missed",
    "Verif.PcChi.stray_retry_crashes",
    "Verif.PcChi.link_return_false_alarm",
    "Verif.PcChi.like_requests_false_alarm"
   ],
   "note": "Exact in both directions for requests, opcodes, link credits and transactions, outside the listed cases in which the checker is wrong (each proved with a history); for retried requests no false report under stated conditions, and the kinds of report that are never missed. Reset, messages and the cutting of flits into fields are not modelled here (see C30 for flits)."
  },
  {
   "property": "C74",
   "status": "partial",
   "theorems": [
    "Verif.RtlRam.ace_pieces_apart",
    "Verif.RtlRam.axi_pieces_apart_partial",
    "Verif.RtlRam.ace_refused_only_when_full",
    "Verif.RtlRam.axi_overlap",
    "Verif.RtlRam.axi_gap_wrong",
    "Verif.RtlRam.ace_five",
    "Verif.RtlRam.attach_lost",
    "Verif.RtlRam.lost_for_ever",
    "Verif.RtlRam.attach_kept"
   ],
   "note": "For the ACE allocator no overlap, fresh answers and refusal only when full hold in every polite history for every RAM of at least 256 locations; the AXI copy only while every wrap-around gap is large enough (the fifth burst overlaps otherwise, proved). That every released piece returns is false: a descriptor attached in a particular cycle is lost for ever."
  },
  {
   "property": "C75",
   "status": "partial",
   "theorems": [
    "Verif.RtlFifo.fifo_is_queue",
    "Verif.RtlFifo.early_valid",
    "Verif.RtlFifo.early_output",
    "Verif.RtlFifo.early_stale",
    "Verif.RtlFifo.early_old_element",
    "Verif.RtlFifo.early_leaves_memory",
    "Verif.RtlFifo.odd_depth_loses"
   ],
   "note": "The queue is proved for all power-of-two depths; the early output is the next element except in the cycle after the only element was replaced, where it is proved stale, and, by the rules of the language, after the last location was read."
  },
  {
   "property": "C76",
   "status": "partial",
   "theorems": [
    "Verif.RtlDesc.handed_out_once_partial",
    "Verif.RtlDesc.handed_out_right",
    "Verif.RtlDesc.nobody_waits",
    "Verif.RtlDesc.one_at_a_time",
    "Verif.RtlDesc.given_again_lost",
    "Verif.RtlDesc.given_again_kept"
   ],
   "note": "Proved for every history in which software keeps to the rules and gives the ownership of a descriptor again only after a moment at which no descriptor waited; without that a descriptor can be lost, proved with a history."
  },
  {
   "property": "C77",
   "status": "partial",
   "theorems": [
    "Verif.RtlTx.sent_in_order_partial",
    "Verif.RtlTx.sent_with_credit_partial",
    "Verif.RtlTx.sends_soon_partial",
    "Verif.RtlTx.credits_kept_partial",
    "Verif.RtlTx.all_given_back_partial",
    "Verif.RtlTx.given_again_lost",
    "Verif.RtlTx.wrong_place_sent",
    "Verif.RtlTx.lost_in_flight",
    "Verif.RtlTx.sent_without_credit",
    "Verif.RtlTx.late_credit_lost",
    "Verif.RtlTx.hint_returns_more",
    "Verif.RtlTx.hint_drops"
   ],
   "note": "Proved for all histories in which software keeps to the ring and the link is up while a flit is on its way, and, for the credits, for all histories in which the other side grants none once the last is given back; every condition is shown to be needed by a history."
  },
  {
   "property": "C78",
   "status": "partial",
   "theorems": [
    "Verif.RtlRx.found_in_order_partial",
    "Verif.RtlRx.owned_holds_flit_partial",
    "Verif.RtlRx.credits_fit_partial",
    "Verif.RtlRx.seen_soon_partial",
    "Verif.RtlRx.granted_soon_partial",
    "Verif.RtlRx.granted_again_partial",
    "Verif.RtlRx.flip_clears",
    "Verif.RtlRx.free_out_of_order_overwrites",
    "Verif.RtlRx.free_not_owned_overwrites",
    "Verif.RtlRx.refill_again_overwrites",
    "Verif.RtlRx.low_power_overwrites",
    "Verif.RtlRx.low_power_lost",
    "Verif.RtlRx.low_power_twice",
    "Verif.RtlRx.flit_lost",
    "Verif.RtlRx.credit_lost",
    "Verif.RtlRx.chi_return_found",
    "Verif.RtlRx.grants_in_run",
    "Verif.RtlRx.flip_clears_unowned"
   ],
   "note": "Proved for all histories in which software gives back the places it owns in turn and refills once, the other side keeps to its credits, and, for CXS, the link is RUN while a flit comes in and low power ends with every flit taken; every condition is shown to be needed by a history."
  },
  {
   "property": "C79",
   "status": "partial",
   "theorems": [
    "Verif.RtlLink.never_lost",
    "Verif.RtlLink.wires_tell_state",
    "Verif.RtlLink.handshake_kept",
    "Verif.RtlLink.runs_when_acknowledged",
    "Verif.RtlLink.cxs_waits_for_credits_partial",
    "Verif.RtlLink.comes_up",
    "Verif.RtlLink.goes_down",
    "Verif.RtlLink.chi_ends_with_credits_out",
    "Verif.RtlLink.chi_does_not_wait",
    "Verif.RtlLink.chi_stuck",
    "Verif.RtlLink.remote_down_waits",
    "Verif.RtlLink.stops_with_credits",
    "Verif.RtlLink.cxs_up_in_low_power",
    "Verif.RtlLink.not_configured_stays",
    "Verif.RtlLink.last_stop_waits_partial"
   ],
   "note": "Proved for all histories but for the last part, which CXS keeps and CHI does not."
  },
  {
   "property": "C80",
   "status": "partial",
   "theorems": [
    "Verif.RtlAxid.each_id_has_fifo_partial",
    "Verif.RtlAxid.fifo_holds_partial",
    "Verif.RtlAxid.oldest_read_partial",
    "Verif.RtlAxid.one_fifo_per_id_partial",
    "Verif.RtlAxid.response_finds_partial",
    "Verif.RtlAxid.requests_apart",
    "Verif.RtlAxid.master_response_finds",
    "Verif.RtlAxid.master_oldest_read",
    "Verif.RtlAxid.master_descriptors_once",
    "Verif.RtlAxid.close_requests_mixed",
    "Verif.RtlAxid.late_room_mixed",
    "Verif.RtlAxid.back_to_back_twice"
   ],
   "note": "The theorems master_* are about the AXI master as a whole, for all histories; missing there is only a response to the ID asked for last in the first four cycles, before which its descriptor may not be in the FIFO. The others are about the store alone, for requests six cycles apart and a descriptor spare for four; both numbers are shown to be needed. The ACE master is covered by the latter only."
  },
  {
   "property": "C81",
   "status": "partial",
   "theorems": [
    "Verif.RtlIrq.clear_is_brief_partial",
    "Verif.RtlIrq.told_partial",
    "Verif.RtlIrq.sent_told_partial",
    "Verif.RtlIrq.status_stays_partial",
    "Verif.RtlIrq.clear_clears_partial",
    "Verif.RtlIrq.line_rises",
    "Verif.RtlIrq.line_stays",
    "Verif.RtlIrq.change_acknowledged",
    "Verif.RtlIrq.line_falls",
    "Verif.RtlIrq.line_clear_over",
    "Verif.RtlIrq.line_clears",
    "Verif.RtlIrq.edge_told",
    "Verif.RtlIrq.level_seen",
    "Verif.RtlIrq.stuck_for_ever",
    "Verif.RtlIrq.early_clear_sticks",
    "Verif.RtlIrq.flit_not_told",
    "Verif.RtlIrq.chi_other_drops",
    "Verif.RtlIrq.chi_other_stuck",
    "Verif.RtlIrq.chi_line_falls",
    "Verif.RtlIrq.edge_not_told",
    "Verif.RtlIrq.clear_leaves_others_partial"
   ],
   "note": "The flit status is proved for software which clears only what is set and writes at least three cycles apart, and fails otherwise (stuck_for_ever); the line to the host and the lines of the other side are proved for all histories."
  },
  {
   "property": "C82",
   "status": "partial",
   "theorems": [
    "Verif.RtlTxn.one_each_partial",
    "Verif.RtlTxn.accepted_under_given_partial",
    "Verif.RtlTxn.descriptor_tells_partial",
    "Verif.RtlTxn.descriptor_tells_at_once_partial",
    "Verif.RtlTxn.accepted_soon_partial",
    "Verif.RtlTxn.given_twice_shared",
    "Verif.RtlTxn.given_twice_merged",
    "Verif.RtlTxn.reads_first"
   ],
   "note": "Proved for all histories in which software gives a descriptor only once until it is used, the masters keep to AXI and each address allocator answers once for a request (which is the subject of C74); progress only for a channel which is alone, since reads come first."
  },
  {
   "property": "C83",
   "status": "partial",
   "theorems": [
    "Verif.RtlWdata.in_order_partial",
    "Verif.RtlWdata.all_stored_partial",
    "Verif.RtlWdata.data_there_partial",
    "Verif.RtlWdata.error_only_if_wrong",
    "Verif.RtlWdata.error_reaches_status_partial",
    "Verif.RtlWdata.long_burst_overwrites",
    "Verif.RtlWdata.other_error_lost"
   ],
   "note": "Proved for all histories in which a descriptor is given again only after it was announced (which C82 and the ownership register see to). That the data stays in the RAM afterwards holds only while no other burst is longer than its request, and the error status is right only without errors of another kind; both are shown to fail otherwise."
  },
  {
   "property": "C84",
   "status": "partial",
   "theorems": [
    "Verif.RtlOrder.in_order_partial",
    "Verif.RtlOrder.answered_once_partial",
    "Verif.RtlOrder.handed_on_partial",
    "Verif.RtlOrder.answered_leave_partial",
    "Verif.RtlOrder.in_order_one_id",
    "Verif.RtlOrder.answered_leave_one_id",
    "Verif.RtlOrder.stale_head_breaks_order"
   ],
   "note": "Proved in full when all requests have one ID, as on AXI4-Lite. With more IDs it is proved for all histories in which no FIFO, in the cycle after a write, shows early the descriptor being looked for without holding it; without this it is shown to fail. Memory never written counts as no descriptor; if it came up as zero, descriptor 0 could be hit from the start."
  },
  {
   "property": "C85",
   "status": "proved",
   "theorems": [
    "Verif.RtlResp.in_order",
    "Verif.RtlResp.own_answer",
    "Verif.RtlResp.held_until_taken",
    "Verif.RtlResp.done_when_taken",
    "Verif.RtlResp.answered_leave",
    "Verif.RtlResp.early_answer_breaks_order",
    "Verif.RtlResp.free_when_few"
   ],
   "note": "Proved in full for software which keeps to the order of register writes of the driver. That it fails when an answer comes before the order entry is shown by an example."
  },
  {
   "property": "C86",
   "status": "proved",
   "theorems": [
    "Verif.RtlRdata.in_order",
    "Verif.RtlRdata.held_until_taken",
    "Verif.RtlRdata.done_when_last",
    "Verif.RtlRdata.all_given",
    "Verif.RtlRdata.none_open"
   ],
   "note": "Proved in full for AXI4 and AXI3. That the fields and words of an open burst stay is the duty of software and of the allocation of descriptors (C82)."
  },
  {
   "property": "C87",
   "status": "partial",
   "theorems": [
    "Verif.RtlAceSend.in_order_partial",
    "Verif.RtlAceSend.held_until_taken_partial",
    "Verif.RtlAceSend.done_when_last",
    "Verif.RtlAceSend.all_given_partial",
    "Verif.RtlAceSend.spaced_no_race",
    "Verif.RtlAceSend.spaced_in_order_partial",
    "Verif.RtlAceSend.long_burst_loses_a_word",
    "Verif.RtlAceSend.line_loses_a_word",
    "Verif.RtlAceSend.race_sends_another",
    "Verif.RtlAceSend.free_level_lies"
   ],
   "note": "Proved for bursts of up to five words and pushes which do not race, as those with three cycles between them do not. For longer bursts and for races it is false, as shown by examples. Mode 1 and the read requests of the master bridge are not modelled."
  },
  {
   "property": "C88",
   "status": "partial",
   "theorems": [
    "Verif.RtlAck.completed_in_order_partial",
    "Verif.RtlAck.completed_after_ack_partial",
    "Verif.RtlAck.status_partial",
    "Verif.RtlAck.all_completed_partial",
    "Verif.RtlAck.acks_wrap",
    "Verif.RtlAck.no_pop_with_ack"
   ],
   "note": "Proved for bursts of up to five words and pushes which do not race, the limits of the channel below it (C87); of the acknowledges themselves nothing is missing. With acknowledges to which there is no response the counter wraps at 32, as shown."
  },
  {
   "property": "C89",
   "status": "proved",
   "theorems": [
    "Verif.RtlAceRecv.recv_in_order",
    "Verif.RtlAceRecv.recv_given_once",
    "Verif.RtlAceRecv.recv_index",
    "Verif.RtlAceRecv.recv_stays",
    "Verif.RtlAceRecv.recv_room",
    "Verif.RtlAceRecv.recv_acks",
    "Verif.RtlAceRecv.recv_all_seen",
    "Verif.RtlAceRecv.given_twice"
   ],
   "note": "All channels the statement names. given_twice shows what the rule about giving descriptors is for."
  },
  {
   "property": "C90",
   "status": "partial",
   "theorems": [
    "Verif.AceMstSnp.snoops_in_order_partial",
    "Verif.AceMstSnp.list_not_empty_partial",
    "Verif.AceMstSnp.snoops_progress_partial",
    "Verif.AceMstSnp.snoops_complete_partial",
    "Verif.AceMstSnp.dvm_after_sync_partial",
    "Verif.AceMstSnp.dvm_before_sync",
    "Verif.AceMstSnp.overwritten",
    "Verif.AceMstSnp.stale_line",
    "Verif.AceMstSnp.empty_list"
   ],
   "note": "Proved for histories without a reset in which the hardware never holds more than sixteen responses or lines; the clause on DVM Completes while the master sends no other read. Without these it is false, as shown by examples."
  },
  {
   "property": "C91",
   "status": "partial",
   "theorems": [
    "Verif.AceSlvSnp.snoops_end_partial",
    "Verif.AceSlvSnp.no_assertion_partial",
    "Verif.AceSlvSnp.snoops_progress_partial",
    "Verif.AceSlvSnp.snoops_complete_partial",
    "Verif.AceSlvSnp.late_by_one",
    "Verif.AceSlvSnp.stuck",
    "Verif.AceSlvSnp.swapped",
    "Verif.AceSlvSnp.stale_line"
   ],
   "note": "Proved for histories without a reset in which no response has both an error and data and callers go on in the order of their pushes; progress while no more than sixteen snoops wait. Without these it is false, as shown by examples."
  },
  {
   "property": "C92",
   "status": "partial",
   "theorems": [
    "Verif.Barrier.others_pass",
    "Verif.Barrier.first_barrier_partial",
    "Verif.Barrier.second_barrier_partial",
    "Verif.Barrier.pair_ends_partial",
    "Verif.Barrier.no_more",
    "Verif.Barrier.second_hangs",
    "Verif.Barrier.second_pair_hangs"
   ],
   "note": "Other transactions in full. Of barriers: what returns is right in every history, and the first pair returns when its second barrier is answered before its first is done; otherwise it is false, as shown: no barrier returns any more, in any continuation."
  },
  {
   "property": "C93",
   "status": "partial",
   "theorems": [
    "Verif.XdmaIrq.forwarded_and_acked",
    "Verif.XdmaIrq.pulse_is_one_clock",
    "Verif.XdmaIrq.all_forwarded_partial",
    "Verif.XdmaIrq.comes_to_rest",
    "Verif.XdmaIrq.stays_lost",
    "Verif.XdmaIrq.second_line_lost",
    "Verif.XdmaIrq.withdrawal_lost"
   ],
   "note": "All in full but that every change is seen: this holds when the vector rests while the wrapper acknowledges, and otherwise is false, as shown."
  },
  {
   "property": "C94",
   "status": "partial",
   "theorems": [
    "Verif.LinkPair.handshake_order",
    "Verif.LinkPair.credits_kept",
    "Verif.LinkPair.comes_up",
    "Verif.LinkPair.stop_takes_down",
    "Verif.LinkPair.long_stop_restarts_partial",
    "Verif.LinkPair.long_stop_restarts_b_partial",
    "Verif.LinkPair.never_up_again",
    "Verif.LinkPair.never_up_wanted"
   ],
   "note": "All in full but the coming up again: it holds after a stop of 83 clocks in every history, and after a short one it is false, as shown."
  },
  {
   "property": "C95",
   "status": "partial",
   "theorems": [
    "Verif.Dvm.syncs_answered_partial",
    "Verif.Dvm.all_answered_partial",
    "Verif.Dvm.never_more",
    "Verif.Dvm.answered_twice",
    "Verif.Dvm.resync_asserts",
    "Verif.Dvm.alone_unanswered"
   ],
   "note": "Holds for any number of masters when another one takes part and each answer has been responded to before the next Complete or Sync of that master; otherwise it is false, as shown."
  },
  {
   "property": "C96",
   "status": "partial",
   "theorems": [
    "Verif.AceExcl.loads_fresh_partial",
    "Verif.AceExcl.exclusive_atomic_partial",
    "Verif.AceExcl.one_store_per_load",
    "Verif.AceExcl.one_line_never_refused",
    "Verif.AceExcl.refused_unique",
    "Verif.AceExcl.stale_after_refusal",
    "Verif.AceExcl.locked_refused",
    "Verif.AceExcl.offset_lost_update",
    "Verif.AceExcl.evicted_lost_update",
    "Verif.AceExcl.hit_never_succeeds"
   ],
   "note": "Atomicity holds for any number of masters when exclusive loads are at the start of a line which stays in the cache and no exclusive store was refused, coherence when none was refused, and none is refused when one line is used for exclusive accesses; otherwise all three parts are false, as shown. Accesses run one after the other in the model."
  },
  {
   "property": "C97",
   "status": "partial",
   "theorems": [
    "Verif.ChiExcl.loads_fresh",
    "Verif.ChiExcl.exclusive_atomic_partial",
    "Verif.ChiExcl.one_store_per_load",
    "Verif.ChiExcl.exokay_iff",
    "Verif.ChiExcl.snooped_partial",
    "Verif.ChiExcl.contended_never_succeeds",
    "Verif.ChiExcl.hit_never_succeeds",
    "Verif.ChiExcl.okay_inverted",
    "Verif.ChiExcl.offset_lost_update",
    "Verif.ChiExcl.evicted_lost_update",
    "Verif.ChiExcl.exclusive_read_unsnooped",
    "Verif.ChiExcl.refused_unsnooped",
    "Verif.ChiExcl.same_lpid_passes"
   ],
   "note": "Coherence of these caches and the rule by which the interconnect passes exclusive stores hold without condition, atomicity when exclusive loads are at the start of a line which stays in the cache; the rest is false, as shown. Accesses run one after the other in the model."
  },
  {
   "property": "C98",
   "status": "partial",
   "theorems": [
    "Verif.RPSock.opened_as_written_partial",
    "Verif.RPSock.others_fail",
    "Verif.RPSock.client_first_taken",
    "Verif.RPSock.client_fails_iff",
    "Verif.RPSock.tcpd_any_char",
    "Verif.RPSock.colon_host_cut",
    "Verif.RPSock.long_paths_collide",
    "Verif.RPSock.short_overread",
    "Verif.RPSock.daemon_exits"
   ],
   "note": "Holds for paths of at most 107 characters, hosts without colons and clients with several addresses; false for the rest, as shown."
  },
  {
   "property": "C99",
   "status": "partial",
   "theorems": [
    "Verif.Regions.last_region_wins_partial",
    "Verif.Regions.no_region_keeps_partial",
    "Verif.Regions.dvm_keeps",
    "Verif.Regions.private_never_cached_partial",
    "Verif.Regions.left_not_held",
    "Verif.Regions.four_gib_lost",
    "Verif.Regions.long_region_cut",
    "Verif.Regions.top_region_lost",
    "Verif.Regions.straddle_bypasses",
    "Verif.Regions.unaligned_aborts",
    "Verif.Regions.run_in_aborts"
   ],
   "note": "Holds for regions of less than 4 GiB ending below the last address and, for the cache, made of whole lines with no access running into them; false for the rest, as shown."
  }
 ]
}