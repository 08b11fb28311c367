{
 "claims": [
  {
   "property": "C01",
   "status": "proved",
   "theorems": [
    "Lambdalib.C01_pipevalid_lossless",
    "Lambdalib.C01_pipevalid_stable",
    "Lambdalib.C01_pipevalid_ready"
   ],
   "note": ""
  },
  {
   "property": "C02",
   "status": "proved",
   "theorems": [
    "Lambdalib.C02_pipeready_lossless",
    "Lambdalib.C02_pipeready_stable",
    "Lambdalib.C02_pipeready_ready_registered",
    "Lambdalib.C02_pipeready_valid"
   ],
   "note": ""
  },
  {
   "property": "C03",
   "status": "proved",
   "theorems": [
    "Lambdalib.C03_upconverter_packs",
    "Lambdalib.C03_groups_meaning",
    "Lambdalib.C03_upconverter_stable",
    "Lambdalib.C03_upconverter_ready"
   ],
   "note": ""
  },
  {
   "property": "C04",
   "status": "proved",
   "theorems": [
    "Lambdalib.C04_downconverter_serialises",
    "Lambdalib.C04_downconverter_stable",
    "Lambdalib.C04_downconverter_valid"
   ],
   "note": ""
  },
  {
   "property": "C05",
   "status": "proved",
   "theorems": [
    "Lambdalib.C05_down_up_roundtrip",
    "Lambdalib.C05_up_down_roundtrip"
   ],
   "note": ""
  },
  {
   "property": "C06",
   "status": "proved",
   "theorems": [
    "Lambdalib.C06_ratio_ok_iff",
    "Lambdalib.C06_ratio_error_iff",
    "Lambdalib.C06_identity"
   ],
   "note": ""
  },
  {
   "property": "C07",
   "status": "proved",
   "theorems": [
    "Lambdalib.C07_layout_accepts",
    "Lambdalib.C07_layout_signals",
    "Lambdalib.C07_layout_ready_only"
   ],
   "note": ""
  },
  {
   "property": "C08",
   "status": "proved",
   "theorems": [
    "Lambdalib.C08_fifo_pack_unpack",
    "Lambdalib.C08_fifo_lossless",
    "Lambdalib.C08_fifo_stable",
    "Lambdalib.C08_fifo_contract_inhabited",
    "Lambdalib.C08_fifo_depth"
   ],
   "note": ""
  },
  {
   "property": "C09",
   "status": "proved",
   "theorems": [
    "Lambdalib.C09_stitcher_marks",
    "Lambdalib.C09_stitcher_packets",
    "Lambdalib.C09_stitcher_handshake"
   ],
   "note": ""
  },
  {
   "property": "C10",
   "status": "proved",
   "theorems": [
    "Lambdalib.C10_splitter_exactly_once",
    "Lambdalib.C10_splitter_ack",
    "Lambdalib.C10_splitter_source_stable",
    "Lambdalib.C10_splitter_ctor"
   ],
   "note": ""
  },
  {
   "property": "C11",
   "status": "proved",
   "theorems": [
    "Lambdalib.C11_merger_lockstep",
    "Lambdalib.C11_merger_all_valid",
    "Lambdalib.C11_merger_combines",
    "Lambdalib.C11_merger_stable",
    "Lambdalib.C11_merger_progress",
    "Lambdalib.C11_merger_ctor"
   ],
   "note": ""
  },
  {
   "property": "C12",
   "status": "proved",
   "theorems": [
    "Lambdalib.C12_lastinserter_marks",
    "Lambdalib.C12_lastinserter_preserves",
    "Lambdalib.C12_lastinserter_bounded",
    "Lambdalib.C12_lastinserter_only_when_full",
    "Lambdalib.C12_lastinserter_handshake"
   ],
   "note": ""
  },
  {
   "property": "C13",
   "status": "proved",
   "theorems": [
    "Lambdalib.C13_lastontimeout_behaviour",
    "Lambdalib.C13_lastontimeout_ready",
    "Lambdalib.C13_lastontimeout_data_stable"
   ],
   "note": ""
  },
  {
   "property": "C14",
   "status": "proved",
   "theorems": [
    "Lambdalib.C14_roundrobin_legal",
    "Lambdalib.C14_roundrobin_next",
    "Lambdalib.C14_roundrobin_fair"
   ],
   "note": ""
  },
  {
   "property": "C15",
   "status": "proved",
   "theorems": [
    "Lambdalib.C15_arbiter_routes",
    "Lambdalib.C15_arbiter_one_sink",
    "Lambdalib.C15_arbiter_atomic"
   ],
   "note": ""
  },
  {
   "property": "C16",
   "status": "proved",
   "theorems": [
    "Lambdalib.C16_arbiter_fair",
    "Lambdalib.C16_arbiter_stall"
   ],
   "note": ""
  },
  {
   "property": "C17",
   "status": "proved",
   "theorems": [
    "Lambdalib.C17_memstream_replay",
    "Lambdalib.C17_memstream_available",
    "Lambdalib.C17_memstream_accepts",
    "Lambdalib.C17_memstream_quiet",
    "Lambdalib.C17_memstream_buffered_replay",
    "Lambdalib.C17_memstream_buffered_available"
   ],
   "note": ""
  },
  {
   "property": "C18",
   "status": "proved",
   "theorems": [
    "Lambdalib.C18_reader_plays",
    "Lambdalib.C18_reader_complete",
    "Lambdalib.C18_reader_quiet",
    "Lambdalib.C18_reader_buffered_plays",
    "Lambdalib.C18_reader_buffered_available"
   ],
   "note": ""
  },
  {
   "property": "C19",
   "status": "proved",
   "theorems": [
    "Lambdalib.C19_waittimer_exact"
   ],
   "note": ""
  },
  {
   "property": "C20",
   "status": "proved",
   "theorems": [
    "Lambdalib.C20_waitntimer_exact"
   ],
   "note": ""
  },
  {
   "property": "C21",
   "status": "proved",
   "theorems": [
    "Lambdalib.C21_pulseclock_rate",
    "Lambdalib.C21_pulseclock_rate_after_rst",
    "Lambdalib.C21_pulseclock_rst_quiet",
    "Lambdalib.C21_tuningword_error"
   ],
   "note": ""
  },
  {
   "property": "C22",
   "status": "proved",
   "theorems": [
    "Lambdalib.C22_tuningclock_edges",
    "Lambdalib.C22_tuningclock_frequency",
    "Lambdalib.C22_tuningclock_parity"
   ],
   "note": ""
  },
  {
   "property": "C23",
   "status": "proved",
   "theorems": [
    "Lambdalib.C23_regs_never_stall",
    "Lambdalib.C23_regs_latest",
    "Lambdalib.C23_regs_untouched",
    "Lambdalib.C23_regs_we",
    "Lambdalib.C23_litex_regs_latest",
    "Lambdalib.C23_litex_regs_trigger"
   ],
   "note": ""
  },
  {
   "property": "C24",
   "status": "proved",
   "theorems": [
    "Lambdalib.C24_product_exact",
    "Lambdalib.C24_multiplier_stream",
    "Lambdalib.C24_multiplier_stable"
   ],
   "note": ""
  },
  {
   "property": "C25",
   "status": "proved",
   "theorems": [
    "Lambdalib.C25_clz",
    "Lambdalib.C25_clz_zero"
   ],
   "note": ""
  },
  {
   "property": "C26",
   "status": "partial",
   "theorems": [
    "Lambdalib.C26_int2float_rounds_partial",
    "Lambdalib.C26_int2float_rounds_refuted"
   ],
   "note": "Full claim refuted for the single input -2^31, which converts to -0.0. Partial: holds for all other 2^32-1 inputs."
  },
  {
   "property": "C27",
   "status": "proved",
   "theorems": [
    "Lambdalib.C27_int2float_order",
    "Lambdalib.C27_int2float_stable",
    "Lambdalib.C27_int2float_latency"
   ],
   "note": ""
  },
  {
   "property": "C28",
   "status": "proved",
   "theorems": [
    "Lambdalib.C28_regstream_bytes",
    "Lambdalib.C28_regstream_stable"
   ],
   "note": ""
  },
  {
   "property": "C29",
   "status": "proved",
   "theorems": [
    "Lambdalib.C29_tca_selections",
    "Lambdalib.C29_tca_stable",
    "Lambdalib.C29_tca_progress"
   ],
   "note": ""
  },
  {
   "property": "C30",
   "status": "proved",
   "theorems": [
    "Lambdalib.C30_i2c_sda_changes",
    "Lambdalib.C30_i2c_one_line"
   ],
   "note": ""
  },
  {
   "property": "C31",
   "status": "proved",
   "theorems": [
    "Lambdalib.C31_i2c_write"
   ],
   "note": ""
  },
  {
   "property": "C32",
   "status": "proved",
   "theorems": [
    "Lambdalib.C32_i2c_read"
   ],
   "note": ""
  },
  {
   "property": "C33",
   "status": "partial",
   "theorems": [
    "Lambdalib.C33_i2c_ignores_partial",
    "Lambdalib.C33_i2c_busy_low_partial",
    "Lambdalib.C33_i2c_busy_strobe_taken"
   ],
   "note": "Full claim refuted: in the first waiting cycle after reset or after a command busy is still high and a strobe is executed (C33_i2c_busy_strobe_taken). Partial: strobes have no effect while a command is being executed; a strobe with busy low is executed."
  },
  {
   "property": "C34",
   "status": "proved",
   "theorems": [
    "Lambdalib.C34_stream_commands",
    "Lambdalib.C34_stream_write_outcome",
    "Lambdalib.C34_stream_read_data",
    "Lambdalib.C34_stream_read_count",
    "Lambdalib.C34_stream_source_stable",
    "Lambdalib.C34_stream_progress"
   ],
   "note": ""
  },
  {
   "property": "C35",
   "status": "partial",
   "theorems": [
    "Lambdalib.C35_writer_commands_partial",
    "Lambdalib.C35_writer_progress_partial",
    "Lambdalib.C35_writer_retry_refuted"
   ],
   "note": "Full claim refuted: when the last byte sent (in particular the third of a group) is not acknowledged and no further byte is offered, the group is never sent again (C35_writer_retry_refuted). Partial: command sequence and consumption for every acknowledge pattern; progress as long as the sink offers a byte."
  },
  {
   "property": "C36",
   "status": "partial",
   "theorems": [
    "Lambdalib.C36_proto_partial",
    "Lambdalib.C36_proto_core_stable_partial",
    "Lambdalib.C36_proto_bus_partial",
    "Lambdalib.C36_proto_pause_refuted",
    "Lambdalib.C36_proto_read_zero_refuted",
    "Lambdalib.C36_proto_read_nak_refuted"
   ],
   "note": "Full claim refuted by three witnesses: a host that pauses inside a write has bytes written that it never sent, a host that sends on before the status of a refused read loses the header of the next command, an acknowledged read of zero bytes reads and returns bytes. Partial: for all other executions the bytes, transactions and replies are those of well-formed commands, in step at every cycle, and C34 applies to the bus."
  },
  {
   "property": "C37",
   "status": "partial",
   "theorems": [
    "Lambdalib.C37_write_block",
    "Lambdalib.C37_write_rejected",
    "Lambdalib.C37_read_block",
    "Lambdalib.C37_read_rejected_partial",
    "Lambdalib.C37_read_length_refuted",
    "Lambdalib.C37_write_any_device",
    "Lambdalib.C37_read_any_device",
    "Lambdalib.C37_write_byte",
    "Lambdalib.C37_read_byte",
    "Lambdalib.C37_discover",
    "Lambdalib.C37_discover_queue",
    "Lambdalib.C37_bridge_protocol",
    "Lambdalib.C37_discover_any_device"
   ],
   "note": "Full claim refuted: a block read with a length above 255 raises only after the register address was written (C37_read_length_refuted). Everything else is proved against a specification of the bridge whose commands are those of C36; the single-byte write does not report a missing acknowledge, the single-byte read turns it into TypeError."
  },
  {
   "property": "C38",
   "status": "proved",
   "theorems": [
    "Lambdalib.C38_clk_wave",
    "Lambdalib.C38_clk_disabled",
    "Lambdalib.C38_strobes",
    "Lambdalib.C38_registered"
   ],
   "note": ""
  },
  {
   "property": "C39",
   "status": "proved",
   "theorems": [
    "Lambdalib.C39_transfer",
    "Lambdalib.C39_no_overflow",
    "Lambdalib.C39_selected",
    "Lambdalib.C39_timing",
    "Lambdalib.C39_accept"
   ],
   "note": "For words the pads can carry (SpiWordOk: width 1, 2, 4 or 8 dividing the length, length at most the data width). C39_transfer: exact pulses, bits and results at every moment; C39_no_overflow: a FIFO of depth 8 never refuses a result; C39_timing: exact clock waveform; C39_accept: the next word follows without a gap; C39_selected: only while selected."
  },
  {
   "property": "C40",
   "status": "proved",
   "theorems": [
    "Lambdalib.C40_forward_out",
    "Lambdalib.C40_forward_in",
    "Lambdalib.C40_no_overlap",
    "Lambdalib.C40_cs",
    "Lambdalib.C40_transfers_selected",
    "Lambdalib.C40_connected"
   ],
   "note": ""
  },
  {
   "property": "C41",
   "status": "partial",
   "theorems": [
    "Lambdalib.C41_words_partial",
    "Lambdalib.C41_words_single",
    "Lambdalib.C41_words_mode",
    "Lambdalib.C41_restart_refuted"
   ],
   "note": "Full claim refuted for several stages: deselecting exactly at a word boundary does not return to the first stage, so the next transfer is cut wrongly (C41_restart_refuted). Partial: the delivered words are exactly those of the groups sampled, for every pad waveform; C41_words_single is the full claim for a single stage. Bits of `data` above `len` are stale."
  },
  {
   "property": "C42",
   "status": "proved",
   "theorems": [
    "Lambdalib.C42_commands",
    "Lambdalib.C42_no_stall",
    "Lambdalib.C42_bus_held",
    "Lambdalib.C42_reply_len"
   ],
   "note": "For a data width of at least 8 and words below 2^width. C42_commands: at every moment the words, bus cycles and replies are those of complete commands and a prefix of one; C42_no_stall, C42_bus_held, C42_reply_len: handshake rules. A word shorter than the data width ends a write."
  },
  {
   "property": "C43",
   "status": "proved",
   "theorems": [
    "Lambdalib.C43_pixel",
    "Lambdalib.C43_next",
    "Lambdalib.C43_reset",
    "Lambdalib.C43_idle",
    "Lambdalib.C43_timing"
   ],
   "note": "For every pixel width and timings T0H, T1H <= T <= TRST, which hold for every clock frequency (C43_timing, exact rationals instead of floats). A bit lasts T+1 cycles, the reset gap TRST+1."
  },
  {
   "property": "C44",
   "status": "proved",
   "theorems": [
    "Lambdalib.C44_led",
    "Lambdalib.C44_duty"
   ],
   "note": ""
  },
  {
   "property": "C45",
   "status": "proved",
   "theorems": [
    "Lambdalib.C45_filter_any_multiplier",
    "Lambdalib.C45_stable",
    "Lambdalib.C45_filter",
    "Lambdalib.C45_latency",
    "Lambdalib.C45_coefficients_fit"
   ],
   "note": "Coefficients constant during the run. C45_filter: with the internal multiplier; C45_filter_any_multiplier and C45_stable: with any external multiplier delivering the products in order; C45_latency: exact latency; C45_coefficients_fit: quantised coefficients fit. The scipy filter design is not modelled. Accumulator and outputs wrap as specified by `twos`."
  },
  {
   "property": "C46",
   "status": "proved",
   "theorems": [
    "Lambdalib.C46_receive",
    "Lambdalib.C46_stable",
    "Lambdalib.C46_ack",
    "Lambdalib.C46_latency",
    "Lambdalib.C46_transmit",
    "Lambdalib.C46_tx",
    "Lambdalib.C46_drive",
    "Lambdalib.C46_levels"
   ],
   "note": "The UART (amaranth_stdio, outside the repository) is an arbitrary environment. C46_drive gives the exact cycles in which the half-duplex line is driven."
  },
  {
   "property": "C47",
   "status": "proved",
   "theorems": [
    "Lambdalib.C47_packets",
    "Lambdalib.C47_bytes",
    "Lambdalib.C47_packet"
   ],
   "note": ""
  },
  {
   "property": "C48",
   "status": "proved",
   "theorems": [
    "Lambdalib.C48_tagged",
    "Lambdalib.C48_no_delay",
    "Lambdalib.C48_stable"
   ],
   "note": ""
  },
  {
   "property": "C49",
   "status": "proved",
   "theorems": [
    "Lambdalib.C49_drive",
    "Lambdalib.C49_consume",
    "Lambdalib.C49_idle",
    "Lambdalib.C49_stp",
    "Lambdalib.C49_stp_pulse",
    "Lambdalib.C49_receive"
   ],
   "note": ""
  },
  {
   "property": "C50",
   "status": "proved",
   "theorems": [
    "Lambdalib.C50_ecp5"
   ],
   "note": "Frequencies are exact rationals instead of floats. Holds after any sequence of calls on the object."
  },
  {
   "property": "C51",
   "status": "partial",
   "theorems": [
    "Lambdalib.C51_xilinx_partial",
    "Lambdalib.C51_secondary_refuted"
   ],
   "note": "Full claim refuted: secondary dividers are fractions and can exceed 128 (C51_secondary_refuted). Partial: everything about the primary output, for every call sequence; divider times frequency is the VCO frequency. Exact rationals instead of floats."
  },
  {
   "property": "C52",
   "status": "proved",
   "theorems": [
    "Lambdalib.C52_idempotent",
    "Lambdalib.C52_frozen",
    "Lambdalib.C52_add",
    "Lambdalib.C52_slots_ecp5",
    "Lambdalib.C52_slots_xilinx"
   ],
   "note": "For both PLLs; C52_idempotent and C52_frozen hold for every object, whatever its history. Distinctness is among secondary domains: the code does not compare with the primary domain."
  },
  {
   "property": "C53",
   "status": "partial",
   "theorems": [
    "Lambdalib.C53_lock_partial",
    "Lambdalib.C53_locks",
    "Lambdalib.C53_lock_refuted"
   ],
   "note": "Full claim refuted: lowering the request in the middle of a move pulse leaves locked high for ever one tap off (C53_lock_refuted). Partial: holds if the request is lowered only while locked or to more taps than the line has moved; it may be raised at any time. Lock within 256 cycles is proved in full (C53_locks)."
  },
  {
   "property": "C54",
   "status": "proved",
   "theorems": [
    "Lambdalib.C54_bytes",
    "Lambdalib.C54_handshake"
   ],
   "note": "Under the condition that d_cn does not change while a beat is offered (implied by a stable sender). C54_handshake: stable offers and no dead cycles."
  },
  {
   "property": "C55",
   "status": "proved",
   "theorems": [
    "Lambdalib.C55_sessions",
    "Lambdalib.C55_ready",
    "Lambdalib.C55_taken",
    "Lambdalib.C55_source_stable"
   ],
   "note": "Every supported screen; sessions cut by reset included; liveness in C55_ready and C55_taken, which ask only that an offered beat is taken at some time; C55_source_stable. Errors on the address byte drop whole packets as in C54."
  },
  {
   "property": "C56",
   "status": "partial",
   "theorems": [
    "Lambdalib.C56_endpoints",
    "Lambdalib.C56_descriptors_partial",
    "Lambdalib.C56_distinct_partial",
    "Lambdalib.C56_descriptors_refuted",
    "Lambdalib.C56_default_sizes"
   ],
   "note": "Full claim refuted: with 16 pairs or more the addresses are not legal, with 129 pairs not distinct, and nothing checks (C56_descriptors_refuted). Partial: up to 15 pairs; C56_endpoints and C56_default_sizes hold for every list."
  },
  {
   "property": "C57",
   "status": "proved",
   "theorems": [
    "Lambdalib.C57_sequence",
    "Lambdalib.C57_time",
    "Lambdalib.C57_utmi"
   ],
   "note": "Reset lasts c2+1 cycles and done follows c4+1 cycles later, counts as integers below 2^30 (any clock up to 200 GHz, C57_time, exact rationals instead of floats). C57_utmi: the UTMI translator's reset lasts cycles-1 cycles."
  },
  {
   "property": "C58",
   "status": "proved",
   "theorems": [
    "Lambdalib.C58_verify"
   ],
   "note": "Assertions enabled (python without -O)."
  },
  {
   "property": "C59",
   "status": "proved",
   "theorems": [
    "Lambdalib.C59_init_bytes",
    "Lambdalib.C59_init_unexposed",
    "Lambdalib.C59_init_offers",
    "Lambdalib.C59_init_completes"
   ],
   "note": ""
  },
  {
   "property": "C60",
   "status": "proved",
   "theorems": [
    "Lambdalib.C60_dump",
    "Lambdalib.C60_stops",
    "Lambdalib.C60_stable",
    "Lambdalib.C60_completes",
    "Lambdalib.C60_wide_address_refuted",
    "Lambdalib.C60_sync_adapter",
    "Lambdalib.C60_async_out_adapter",
    "Lambdalib.C60_async_in_adapter",
    "Lambdalib.C60_async_out_first"
   ],
   "note": "C60_dump/stops/stable/completes: register dump with the transceiver for every PHY waveform; a last address above 63 goes round for ever (C60_wide_address_refuted), an RX CMD before the register value is taken for it (example). Adapters: luna endpoint abstract, FIFO by contract."
  },
  {
   "property": "C61",
   "status": "partial",
   "theorems": [
    "Lambdalib.C61_lastontimeout_last_refuted",
    "Lambdalib.C61_lastontimeout_last_partial"
   ],
   "note": "Full claim refuted: an inserted last can be withdrawn under back-pressure when new data arrives (C61_lastontimeout_last_refuted). Partial: validity and payload are stable, and the mark is withdrawn exactly in that case."
  },
  {
   "property": "C62",
   "status": "partial",
   "theorems": [
    "Lambdalib.C62_memstream_stops_refuted",
    "Lambdalib.C62_memstream_stops_partial",
    "Lambdalib.C62_memstream_buffered_stops_partial",
    "Lambdalib.C62_memstream_wraps_partial"
   ],
   "note": "Full claim refuted: a completely filled memory whose depth is a power of two is delivered again and again because the address counter wraps before it reaches the level. Partial: holds in all other cases; in the failing case the contents repeat cyclically."
  },
  {
   "property": "C63",
   "status": "partial",
   "theorems": [
    "Lambdalib.C63_converter_domains_refuted",
    "Lambdalib.C63_converter_domains_partial",
    "Lambdalib.C63_converter_domains_exact_partial"
   ],
   "note": "Full claim refuted for put_width_converter_first=False with a width change and two domains: the width converter is clocked by cd_from behind the FIFO. The exact partial theorem shows this is the only failing case."
  },
  {
   "property": "C64",
   "status": "partial",
   "theorems": [
    "Lambdalib.C64_pulseclock_onecycle_refuted",
    "Lambdalib.C64_pulseclock_onecycle_partial"
   ],
   "note": "Full claim refuted: a rst arriving during a pulse stretches it to two cycles (C64_pulseclock_onecycle_refuted); the partial theorem covers executions where rst is not asserted during a pulse."
  },
  {
   "property": "C65",
   "status": "partial",
   "theorems": [
    "Lambdalib.C65_arbiter_resume_refuted",
    "Lambdalib.C65_arbiter_resume_partial"
   ],
   "note": "Full claim refuted: if the sender resumes in the very cycle the stall timer expires, one beat is delivered and the grant still moves. Partial: holds unless the sender was silent for timeout cycles just before the beat inside an open packet."
  },
  {
   "property": "C66",
   "status": "partial",
   "theorems": [
    "Lambdalib.C66_arbiter_stable_refuted",
    "Lambdalib.C66_arbiter_stable_partial"
   ],
   "note": "Full claim refuted: same stall corner replaces an offered beat. Partial: holds unless the selected sink was silent for timeout cycles just before with a packet open."
  },
  {
   "property": "C67",
   "status": "partial",
   "theorems": [
    "Lambdalib.C67_payload_reachable_refuted",
    "Lambdalib.C67_hidden",
    "Lambdalib.C67_payload_reachable_partial"
   ],
   "note": "Full claim refuted: a field called description, bfm_send or bfm_read is accepted but hidden by the Python attribute (C67_hidden). Partial: holds for all other names (attributes inherited from Record not modelled)."
  },
  {
   "property": "C68",
   "status": "partial",
   "theorems": [
    "Lambdalib.C68_i2c_terminates_partial",
    "Lambdalib.C68_i2c_bound_partial",
    "Lambdalib.C68_i2c_short_period_hangs"
   ],
   "note": "Full claim refuted for period_cyc < 4: the timer never becomes non-zero and the wait for SCL high never ends (C68_i2c_short_period_hangs). Partial: holds for every period >= 4."
  },
  {
   "property": "C69",
   "status": "proved",
   "theorems": [
    "Lambdalib.C69_i2c_conditions"
   ],
   "note": ""
  },
  {
   "property": "C70",
   "status": "partial",
   "theorems": [
    "Lambdalib.C70_divisor_partial",
    "Lambdalib.C70_divisor_refuted",
    "Lambdalib.C70_cs_delay"
   ],
   "note": "Full claim refuted: the divider has eight bits and larger divisors are truncated silently (C70_divisor_refuted: 100 kHz from 100 MHz gives 205 kHz). Partial: holds whenever the divisor is at most 255; the chip select part is proved in full (C70_cs_delay). Frequencies are exact rationals instead of floats."
  },
  {
   "property": "C71",
   "status": "partial",
   "theorems": [
    "Lambdalib.C71_transmit_partial",
    "Lambdalib.C71_first_bit_refuted",
    "Lambdalib.C71_power_on_refuted"
   ],
   "note": "Full claim refuted: in the modes sampling at the first edge the first bit is driven one edge late (C71_first_bit_refuted) and the power-on deselection is seen as a transfer end, which drops the first word (C71_power_on_refuted). Partial: the driven groups are exactly those of the accepted words, in step with the update edges."
  },
  {
   "property": "C72",
   "status": "proved",
   "theorems": [
    "Lambdalib.C72_heartbeat"
   ],
   "note": ""
  },
  {
   "property": "C73",
   "status": "proved",
   "theorems": [
    "Lambdalib.C73_link",
    "Lambdalib.C73_reset_gap",
    "Lambdalib.C73_comes_up"
   ],
   "note": "ULPI clock domain of DirectULPI; the FIFOs and the power-on reset in the other domain are environment."
  },
  {
   "property": "C74",
   "status": "partial",
   "theorems": [
    "Lambdalib.C74_receive_refuted",
    "Lambdalib.C74_receive_partial"
   ],
   "note": "Full claim refuted: the splitter ignores the FIFO's ready, with a slow reader bytes and end marks are lost and packets merge (C74_receive_refuted). Partial: holds whenever the FIFO has room at each arriving byte, e.g. for an always-ready reader."
  },
  {
   "property": "C75",
   "status": "partial",
   "theorems": [
    "Lambdalib.C75_frequency_partial",
    "Lambdalib.C75_frequency_refuted"
   ],
   "note": "Full claim refuted: the divider is rounded down (C75_frequency_refuted: 350 MHz reported, 600 MHz produced). Partial: divider between 1 and 80, produced frequency at least the reported one, relative excess below 1/divider, exact when it divides."
  },
  {
   "property": "C76",
   "status": "partial",
   "theorems": [
    "Lambdalib.C76_phase_partial",
    "Lambdalib.C76_integer_refuted"
   ],
   "note": "Full claim refuted: half of an odd divider (C76_integer_refuted). Partial: exact value of the parameters; the phase difference is as requested."
  },
  {
   "property": "C77",
   "status": "partial",
   "theorems": [
    "Lambdalib.C77_transactions_partial",
    "Lambdalib.C77_transactions_refuted"
   ],
   "note": "Full claim refuted: errors are looked at only for the address byte (C77_transactions_refuted). Partial: holds when errors come only with bytes that start or end a transaction."
  },
  {
   "property": "C78",
   "status": "proved",
   "theorems": [
    "Lambdalib.C78_sender"
   ],
   "note": "Simulator semantics: a sync process reads the values before the clock edge, its assignments take effect after it. All lists of the data have the same length."
  },
  {
   "property": "C79",
   "status": "proved",
   "theorems": [
    "Lambdalib.C79_receiver",
    "Lambdalib.C79_live"
   ],
   "note": "Same simulator semantics as C78."
  },
  {
   "property": "C80",
   "status": "partial",
   "theorems": [
    "Lambdalib.C80_takes_only_length_partial",
    "Lambdalib.C80_takes_only_length_refuted"
   ],
   "note": "Full claim refuted: ready stays high when the length is reached, later beats are taken and dropped (C80_takes_only_length_refuted). Partial: as long as no more beats are taken than asked for."
  },
  {
   "property": "C81",
   "status": "proved",
   "theorems": [
    "Lambdalib.C81_connect",
    "Lambdalib.C81_live",
    "Lambdalib.C81_fields"
   ],
   "note": "Stable sender. C81_fields is for distinct new names; first and last are always copied."
  },
  {
   "property": "C82",
   "status": "proved",
   "theorems": [
    "Lambdalib.C82_open"
   ],
   "note": "The device list is as returned by libusb."
  },
  {
   "property": "C83",
   "status": "proved",
   "theorems": [
    "Lambdalib.C83_rows",
    "Lambdalib.C83_heading",
    "Lambdalib.C83_lossless"
   ],
   "note": "Text as a list of characters."
  },
  {
   "property": "C84",
   "status": "proved",
   "theorems": [
    "Lambdalib.C84_status",
    "Lambdalib.C84_bytes",
    "Lambdalib.C84_within_packet"
   ],
   "note": "The reset input stays low after power-on."
  },
  {
   "property": "C85",
   "status": "proved",
   "theorems": [
    "Lambdalib.C85_bytes"
   ],
   "note": "The transceiver is modelled after the ULPI specification; it keeps nxt low in the cycle it gives the bus back and does not take the bus within a transmission."
  },
  {
   "property": "C86",
   "status": "partial",
   "theorems": [
    "Lambdalib.C86_values",
    "Lambdalib.C86_latest_partial",
    "Lambdalib.C86_refuted"
   ],
   "note": "Full claim refuted: a change of the settings while a write is under way is lost for ever (C86_refuted). Partial: C86_values in full; the last write holds the settings if each change comes after the transceiver has taken the one before."
  },
  {
   "property": "C87",
   "status": "partial",
   "theorems": [
    "Lambdalib.C87_packets_partial",
    "Lambdalib.C87_refuted"
   ],
   "note": "Full claim refuted: two packets with a gap of one cycle are sent as one (C87_refuted). Partial: a packet is begun only when the transceiver has sent all before, and nothing is received within a packet."
  },
  {
   "property": "C88",
   "status": "proved",
   "theorems": [
    "Lambdalib.C88_rest",
    "Lambdalib.C88_settings",
    "Lambdalib.C88_packets"
   ],
   "note": "C88_settings and C88_packets combine it with the partial results of C86 and C87."
  },
  {
   "property": "C89",
   "status": "partial",
   "theorems": [
    "Lambdalib.C89_open_drain",
    "Lambdalib.C89_levels",
    "Lambdalib.C89_conditions_partial",
    "Lambdalib.C89_true_starts_partial",
    "Lambdalib.C89_output_only_false"
   ],
   "note": "Full claim refuted for output-only SCL: SCL is not delayed but SDA is, so data are flagged as start conditions (C89_output_only_false). Partial: conditions for readable SCL pads; levels and open drain in full."
  },
  {
   "property": "C90",
   "status": "proved",
   "theorems": [
    "Lambdalib.C90_wire_commands",
    "Lambdalib.C90_wire_result",
    "Lambdalib.C90_wire_finishes",
    "Lambdalib.C90_wires_exist"
   ],
   "note": "Targets release SDA at power on and after start and stop, and change SDA only after SCL falls. Allowed commands: a start or stop only when the target lets SDA go high, no start directly after a start."
  },
  {
   "property": "C91",
   "status": "proved",
   "theorems": [
    "Lambdalib.C91_device_history",
    "Lambdalib.C91_device_answers"
   ],
   "note": "Sensible commands: no start or stop while the device sends, no start directly after a start, no stop directly after an acknowledged read."
  },
  {
   "property": "C92",
   "status": "proved",
   "theorems": [
    "Lambdalib.C92_errors",
    "Lambdalib.C92_reads",
    "Lambdalib.C92_system_exists",
    "Lambdalib.C92_system"
   ],
   "note": "Period of at least four cycles. Lists of beats where no `last` beat leaves the device sending."
  },
  {
   "property": "C93",
   "status": "partial",
   "theorems": [
    "Lambdalib.C93_replies_partial",
    "Lambdalib.C93_bridge_completes_partial",
    "Lambdalib.C93_host_exists",
    "Lambdalib.C93_system_partial"
   ],
   "note": "Reads that the device refuses are covered for hosts that wait for the status. Missing: hosts that send on before the status of a refused read, reads of zero bytes that the device accepts (I2CProto is wrong there, see C36), hosts that pause inside a write (C36), devices that send without having been addressed for a read. The replies are those of the machine of C37, so the host library results carry over."
  },
  {
   "property": "C94",
   "status": "partial",
   "theorems": [
    "Lambdalib.C94_words_partial",
    "Lambdalib.C94_words_spaced",
    "Lambdalib.C94_room_inhabited",
    "Lambdalib.C94_written_refuted"
   ],
   "note": "Full claim refuted: a word written while the FIFO is full is lost (C94_written_refuted). Partial: every word is delivered if the FIFO has room whenever one is written."
  },
  {
   "property": "C95",
   "status": "proved",
   "theorems": [
    "Lambdalib.C95_send_order",
    "Lambdalib.C95_send_timeout",
    "Lambdalib.C95_send_all"
   ],
   "note": "The timeout is one cycle shorter than the parameter says, since the counter starts at one."
  },
  {
   "property": "C96",
   "status": "proved",
   "theorems": [
    "Lambdalib.C96_read_order",
    "Lambdalib.C96_read_timeout",
    "Lambdalib.C96_read_takes"
   ],
   "note": "Calls without pause between them."
  },
  {
   "property": "C97",
   "status": "proved",
   "theorems": [
    "Lambdalib.C97_received",
    "Lambdalib.C97_all_received",
    "Lambdalib.C97_accepted"
   ],
   "note": "Both sides in one clock domain, slave with one stage of the word width and in a mode sampling at the rising edge. For every clock divisor. The other direction fails, see C71."
  },
  {
   "property": "C98",
   "status": "partial",
   "theorems": [
    "Lambdalib.C98_recv_partial",
    "Lambdalib.C98_recv_default",
    "Lambdalib.C98_messages_partial",
    "Lambdalib.C98_exchange_partial",
    "Lambdalib.C98_exchange_unread",
    "Lambdalib.C98_empty_packet_refuted",
    "Lambdalib.C98_longer_refuted",
    "Lambdalib.C98_shorter_refuted",
    "Lambdalib.C98_recv_iff",
    "Lambdalib.C98_exchange_packets_refuted",
    "Lambdalib.C98_exchange_packets_partial"
   ],
   "note": "Full claim refuted: a buffer of exactly the message length leaves an empty packet (C98_empty_packet_refuted), a longer buffer waits for more after a message of full packets without an empty packet, and in synchronous mode the message is then lost (C98_longer_refuted); exchange of several packets with a device that answers each one and sends empty packets returns the first answer only (C98_exchange_packets_refuted). Partial: C98_recv_iff says exactly which buffers work, for every message, packet size and both modes."
  },
  {
   "property": "C99",
   "status": "partial",
   "theorems": [
    "Lambdalib.C99_write_block",
    "Lambdalib.C99_write_byte",
    "Lambdalib.C99_read_block_partial",
    "Lambdalib.C99_read_block_large",
    "Lambdalib.C99_read_byte",
    "Lambdalib.C99_discover",
    "Lambdalib.C99_discover_queue_refuted",
    "Lambdalib.C99_read_block_refuted"
   ],
   "note": "Proved for writes, byte functions, discover, and reads with high-speed packets. Refuted for discover_queue (C99_discover_queue_refuted, for all devices) and for reads of a multiple of the packet size with empty packets (C99_read_block_refuted). Reads of zero bytes excluded (C36)."
  },
  {
   "property": "C100",
   "status": "partial",
   "theorems": [
    "Lambdalib.C100_ecp5_partial",
    "Lambdalib.C100_domain_refuted",
    "Lambdalib.C100_xilinx_partial",
    "Lambdalib.C100_ecp5_notes",
    "Lambdalib.C100_xilinx_period"
   ],
   "note": "Full claim refuted: the domain of the primary output is accepted for a secondary one (C100_domain_refuted), then two outputs drive one domain. Partial: everything else, with the frequencies and the period noted on the instance; domains are distinct exactly if that is avoided. Xilinx secondary outputs run at exactly the requested frequency if the divider is an integer up to 128, otherwise the setting is illegal (C51)."
  },
  {
   "property": "C101",
   "status": "partial",
   "theorems": [
    "Lambdalib.C101_bus_partial",
    "Lambdalib.C101_all_taken",
    "Lambdalib.C101_writes_partial",
    "Lambdalib.C101_live_inhabited",
    "Lambdalib.C101_overflow_refuted",
    "Lambdalib.C101_read_refuted"
   ],
   "note": "Proved for a master that never has more than 8 words sent and not yet taken by the bridge: words, bus cycles and replies given to the slave agree (C101_bus_partial), writes are exact and complete (C101_writes_partial, C101_all_taken). Refuted without that: the slave drops words when its FIFO of 8 is full (C101_overflow_refuted). Refuted for reads: the reply reaches the master shifted, and the words sent to clock it out are executed as commands (C101_read_refuted)."
  },
  {
   "property": "C102",
   "status": "proved",
   "theorems": [
    "Lambdalib.C102_program_partial",
    "Lambdalib.C102_host_exists",
    "Lambdalib.C102_system_partial",
    "Lambdalib.C102_program_of_calls",
    "Lambdalib.C102_calls_partial",
    "Lambdalib.C102_calls_system_partial",
    "Lambdalib.C102_calls",
    "Lambdalib.C102_calls_system"
   ],
   "note": "C102_calls for every host that does not pause inside a write, C102_calls_system for the host that offers what it has, which C102_host_exists constructs. No condition on the answers of the device. The _partial theorems cover any program of reads and writes and block reads of zero bytes that the device refuses."
  },
  {
   "property": "C103",
   "status": "partial",
   "theorems": [
    "Lambdalib.C103_init_partial",
    "Lambdalib.C103_registers_partial",
    "Lambdalib.C103_acked_partial",
    "Lambdalib.C103_last_value_refuted"
   ],
   "note": "Full claim refuted by a device that refuses the last value of the table once: it is not sent again although done rises (C103_last_value_refuted, the bug of C35). Partial: for every other device the history is the table with repeats (C103_init_partial, C103_registers_partial), exactly the table if nothing is refused (C103_acked_partial). A table without entries is excluded (the depth of its memory is zero)."
  },
  {
   "property": "C104",
   "status": "proved",
   "theorems": [
    "Lambdalib.C104_ready",
    "Lambdalib.C104_taken",
    "Lambdalib.C104_shows",
    "Lambdalib.C104_system_exists",
    "Lambdalib.C104_system"
   ],
   "note": "With initialisation at power on and the reset input low. The display is a model after its data sheet (Spec/Ssd1306Chip.lean) that acknowledges its bytes. C104_system_exists constructs the closed system with user, wires and device."
  },
  {
   "property": "C105",
   "status": "proved",
   "theorems": [
    "Lambdalib.C105_taken_from",
    "Lambdalib.C105_source_stable",
    "Lambdalib.C105_served",
    "Lambdalib.C105_packets",
    "Lambdalib.C105_history",
    "Lambdalib.C105_bus_served",
    "Lambdalib.C105_mux",
    "Lambdalib.C105_mux_wires",
    "Lambdalib.C105_mux_settles",
    "Lambdalib.C105_system_exists",
    "Lambdalib.C105_system",
    "Lambdalib.C105_pause_refuted",
    "Lambdalib.C105_restart_refuted"
   ],
   "note": "C105_system_exists constructs the closed system of users, multiplexer driver, wires and device. The two conditions are needed: C105_pause_refuted shows beats of two users in one transaction after a pause, C105_restart_refuted the rest of a packet whose address was refused setting the multiplexer. `done` rises when the control byte is taken, before the stop condition on the wires; the multiplexer connects at the stop, so C105_mux_wires speaks of starts and bytes that begin later."
  },
  {
   "property": "C106",
   "status": "proved",
   "theorems": [
    "Lambdalib.C106_quarter",
    "Lambdalib.C106_clock_period",
    "Lambdalib.C106_frequency",
    "Lambdalib.C106_clock_high",
    "Lambdalib.C106_clock_low",
    "Lambdalib.C106_byte_time"
   ],
   "note": "For the levels driven by the initiator. A device that stretches the clock makes the times longer only. At 100 MHz and 400 kHz the low time is 1.26 us, less than the 1.3 us that the I2C specification asks for in fast mode; the claim is about the frequency asked for, not about that specification."
  },
  {
   "property": "C107",
   "status": "partial",
   "theorems": [
    "Lambdalib.C107_uart_program_partial",
    "Lambdalib.C107_calls_partial",
    "Lambdalib.C107_pads",
    "Lambdalib.C107_host_exists",
    "Lambdalib.C107_calls_system_partial",
    "Lambdalib.C107_refused_writes_refuted",
    "Lambdalib.C107_long_writes_refuted",
    "Lambdalib.C107_fifo_overflows"
   ],
   "note": "Full claim refuted twice. A write to an absent device whose data bytes have not all arrived when the address is refused: the rest is taken as commands, another device is written to and the next call gets a wrong result (C107_refused_writes_refuted). A buffer longer than the FIFO: bytes are lost, zeros are written instead and success is reported (C107_long_writes_refuted, C107_fifo_overflows). Partial: buffers up to the FIFO depth, refused writes whose bytes arrive within the time of one byte on the bus, whatever the device answers and however it stretches the clock; closed system in C107_host_exists. With the numbers of the example (100 MHz, 3 Mbaud, 400 kHz, FIFO of 32) this means buffers of at most 32 bytes and, to devices that may refuse, at most 6 bytes of register and data."
  },
  {
   "property": "C108",
   "status": "partial",
   "theorems": [
    "Lambdalib.C108_crg_reset",
    "Lambdalib.C108_crg_ecp5_partial",
    "Lambdalib.C108_crg_xilinx_partial",
    "Lambdalib.C108_usb_io_refuted",
    "Lambdalib.C108_xilinx_usb_refuted"
   ],
   "note": "Full claim refuted: usb_io is the sync clock and so at 100 MHz with the frequencies of the examples (C108_usb_io_refuted); on Xilinx the usb divider can be illegal even with sync at 48 MHz (C108_xilinx_usb_refuted). Partial: all drivers, the sync frequency and the resets are as claimed for every setting; usb is at exactly 12 MHz on ECP5 if sync is at 48 MHz, else less than one divider step above; on Xilinx exactly if the quotient is an integer up to 128."
  },
  {
   "property": "C109",
   "status": "partial",
   "theorems": [
    "Lambdalib.C109_exchange",
    "Lambdalib.C109_clock",
    "Lambdalib.C109_device",
    "Lambdalib.C109_answered",
    "Lambdalib.C109_accepted",
    "Lambdalib.C109_progress",
    "Lambdalib.C109_device_exists",
    "Lambdalib.C109_release_partial",
    "Lambdalib.C109_release_refuted"
   ],
   "note": "Proved in full except the release: with system clocks of more than about six times the SPI clock (divisor above 3) the chip is deselected while the last clock pulse is still high (C109_release_refuted, 2.5 MHz SPI at 100 MHz); C109_release_partial: with smaller divisors the clock is low whenever the chip is deselected."
  },
  {
   "property": "C110",
   "status": "partial",
   "theorems": [
    "Lambdalib.C110_exchange_partial",
    "Lambdalib.C110_one_selection_partial",
    "Lambdalib.C110_empty_packets_refuted",
    "Lambdalib.C110_exists",
    "Lambdalib.C110_one_selection_refuted"
   ],
   "note": "Refuted for buffers longer than a packet: if the USB device marks the end of every packet, the chip is deselected between packets (C110_one_selection_refuted; the example program sends three packets in one call), and if full packets are followed by empty ones the call returns the first packet of the answer only (C110_empty_packets_refuted). Partial: everything else for all buffers when no empty packets are sent, or for buffers shorter than a packet. Assumed: the IN endpoint takes answers again and again (the host reads while it sends, as in asynchronous mode)."
  },
  {
   "property": "C111",
   "status": "partial",
   "theorems": [
    "Lambdalib.C111_low_bits",
    "Lambdalib.C111_transmit",
    "Lambdalib.C111_bytes_partial",
    "Lambdalib.C111_delivered",
    "Lambdalib.C111_room",
    "Lambdalib.C111_last",
    "Lambdalib.C111_recv_partial",
    "Lambdalib.C111_short_refuted",
    "Lambdalib.C111_partial_byte_refuted",
    "Lambdalib.C111_overflow_refuted"
   ],
   "note": "Proved for masters that send whole bytes: order, content, delivery, and no loss if the USB device takes a word in the time of eight bits (C111_bytes_partial, C111_delivered, C111_room). Refuted: bytes cut short contain stale bits (C111_partial_byte_refuted), a ninth byte is lost while the USB device takes none (C111_overflow_refuted), and since last is never set, bytes that do not fill a USB packet do not reach recv (C111_short_refuted; C111_recv_partial for those that do)."
  },
  {
   "property": "C112",
   "status": "partial",
   "theorems": [
    "Lambdalib.C112_calls_partial",
    "Lambdalib.C112_pads",
    "Lambdalib.C112_host_exists",
    "Lambdalib.C112_calls_system_partial",
    "Lambdalib.C112_refused_writes_refuted",
    "Lambdalib.C112_discover_queue_refuted",
    "Lambdalib.C112_full_packets_refuted",
    "Lambdalib.C112_usb_program_partial"
   ],
   "note": "Full claim refuted three times. A write to a device that refuses it, with data that arrives more slowly than one byte per cycle: the bridge drops the data faster than it comes and takes the rest as commands (C112_refused_writes_refuted: 65 bytes, one every second cycle). discover_queue: each of the 128 answers is a packet of its own and recv returns the first (C112_discover_queue_refuted). An endpoint that ends full packets with an empty one: after a block read that fills its packets the next call gets the empty packet (C112_full_packets_refuted). Partial: everything else, whatever the device answers and however it stretches the clock; accepted writes of any length; refused writes of any length if a byte is offered in every cycle (g = 1), else up to the FIFO depth and what arrives in the time of one byte on the bus. Closed system in C112_host_exists. The IN endpoint is assumed to cut the stream into packets as specified in Spec/I2cFrames.lean."
  },
  {
   "property": "C113",
   "status": "proved",
   "theorems": [
    "Lambdalib.C113_adapters",
    "Lambdalib.C113_out",
    "Lambdalib.C113_in",
    "Lambdalib.C113_activity",
    "Lambdalib.C113_unused",
    "Lambdalib.C113_attributes",
    "Lambdalib.C113_handlers"
   ],
   "note": ""
  },
  {
   "property": "C114",
   "status": "partial",
   "theorems": [
    "Lambdalib.C114_sent_partial",
    "Lambdalib.C114_bytes_partial",
    "Lambdalib.C114_delivered_partial",
    "Lambdalib.C114_room_partial",
    "Lambdalib.C114_arrives_partial",
    "Lambdalib.C114_slow_slave_refuted"
   ],
   "note": "Proved for every slave that samples the pins at least once in 4 cycles of the master and once in each half period of the SPI clock (C114_bytes_partial, C114_delivered_partial, C114_arrives_partial; no loss in the FIFO from C114_room_partial). Refuted for slower slaves, however slow the SPI clock: the master deselects the chip 4 cycles after the last rising edge, so the slave can miss the last bit (C114_slow_slave_refuted: 100 MHz and 16 MHz boards, 5 MHz SPI clock). Synchronisers are ideal (no metastability)."
  },
  {
   "property": "C115",
   "status": "proved",
   "theorems": [
    "Lambdalib.C115_pipeline_lossless",
    "Lambdalib.C115_pipeline_stable",
    "Lambdalib.C115_pipeline_accepts",
    "Lambdalib.C115_pipeline_delivers",
    "Lambdalib.C115_pipeline_streaming",
    "Lambdalib.C115_flows_inhabited"
   ],
   "note": "FIFOs are assumed to keep order and their offer (FifoContract), to offer a stored word at some time, and to have room again and again if they are read again and again (FifoFlows; met by any FIFO that has room whenever it is not full, fifoFlows_of_room)."
  },
  {
   "property": "C116",
   "status": "partial",
   "theorems": [
    "Lambdalib.C116_same_partial",
    "Lambdalib.C116_up_partial",
    "Lambdalib.C116_down_partial",
    "Lambdalib.C116_up_arrives_partial",
    "Lambdalib.C116_down_arrives_partial",
    "Lambdalib.C116_up_accepts_partial",
    "Lambdalib.C116_down_accepts_partial",
    "Lambdalib.C116_behind_refuted",
    "Lambdalib.C116_crosses_inhabited"
   ],
   "note": "Refuted for put_width_converter_first=False with different widths: the width converter behind the crossing has the sender's clock, so with an edge of the sender at every 2nd and of the receiver at every 3rd instant the bytes 0,1,2,3 give the words 0x0100, 0x0201 (C116_behind_refuted). Partial: conversion in front of the crossing, and crossing without conversion. The FIFO is assumed to keep order and its offer, to have w_rdy independent of its inputs, and for progress to offer what it holds and to have room again and again (FifoCrosses, met by the reference FIFO)."
  },
  {
   "property": "C117",
   "status": "partial",
   "theorems": [
    "Lambdalib.C117_reset",
    "Lambdalib.C117_transmit",
    "Lambdalib.C117_comes_up",
    "Lambdalib.C117_arrives",
    "Lambdalib.C117_accepts",
    "Lambdalib.C117_phy_partial",
    "Lambdalib.C117_fed",
    "Lambdalib.C117_phy_fast",
    "Lambdalib.C117_receive_order",
    "Lambdalib.C117_receive_partial",
    "Lambdalib.C117_receive_arrives_partial",
    "Lambdalib.C117_phy_refuted"
   ],
   "note": "Transmission to the PHY is refuted without the condition that the transmit FIFO does not run empty inside a packet: the transceiver does not wait for a whole packet, so with a user clock slower than 60 MHz the PHY transmits bytes that the user never sent, although the user offers a byte in every cycle (C117_phy_refuted); C117_phy_partial: for every run in which the PHY finds a byte each time it asks for one inside a packet and does not take the bus there. That it finds one follows if the user hands over at least one byte between any two edges of the PHY's clock while a packet is open and the FIFO shows what was written up to a monotone delay (C117_fed, C117_phy_fast; lagFifo_shows is such a FIFO). Reception without the condition that the FIFO does not overflow is refuted by C74_receive_refuted; C117_receive_order holds without it. The signals of the power-on reset are taken into the PHY's domain as they are, as in the code; metastability is not modelled."
  },
  {
   "property": "C118",
   "status": "proved",
   "theorems": [
    "Lambdalib.C118_values",
    "Lambdalib.C118_reset",
    "Lambdalib.C118_completes",
    "Lambdalib.C118_all"
   ],
   "note": "The PHY (RegPhySt in Spec/UlpiDumpDirect.lean) does not interrupt a register read that it has acknowledged; for a PHY that sends a status byte between the command and the value the dump delivers the status byte (note to C60). Last addresses of 64 and more: C60_wide_address_refuted. The signals of the power-on reset are taken into the PHY's domain as they are; metastability is not modelled."
  },
  {
   "property": "C119",
   "status": "proved",
   "theorems": [
    "Lambdalib.C119_out",
    "Lambdalib.C119_in",
    "Lambdalib.C119_out_arrives",
    "Lambdalib.C119_in_arrives",
    "Lambdalib.C119_room",
    "Lambdalib.C119_activity",
    "Lambdalib.C119_stable"
   ],
   "note": "The FIFO between the clocks is assumed to keep order and its offer, to show registers only (FifoRegistered) and for progress to offer what it holds and to have room again and again (FifoCrosses); the reference FIFO meets all of it. luna's endpoint cores are inputs."
  },
  {
   "property": "C120",
   "status": "proved",
   "theorems": [
    "Lambdalib.C120_any_multiplier",
    "Lambdalib.C120_follows",
    "Lambdalib.C120_gain",
    "Lambdalib.C120_ideal_exists_unique",
    "Lambdalib.C120_wraps_without_headroom"
   ],
   "note": "The coefficients of the ideal filter are the exact rationals given to int(v * 2**shift_c), with a[0] = 1 as scipy returns them; the design in scipy is not modelled. The headroom is a hypothesis of the claim; C120_wraps_without_headroom shows a filter of unity gain that delivers -106 where the ideal one has 150."
  },
  {
   "property": "C121",
   "status": "proved",
   "theorems": [
    "Lambdalib.C121_any_multiplier",
    "Lambdalib.C121_dynamic",
    "Lambdalib.C121_mixed"
   ],
   "note": "With any multiplier the registers need to be constant only while operands are given to it (C121_any_multiplier); with the internal one the condition is stated by sink.ready (C121_dynamic). The condition is needed: C121_mixed. Nothing in the repository writes the registers; their contents are an input."
  },
  {
   "property": "C122",
   "status": "proved",
   "theorems": [
    "Lambdalib.C122_up_full_speed",
    "Lambdalib.C122_up_latency",
    "Lambdalib.C122_up_delivers",
    "Lambdalib.C122_down_accepts",
    "Lambdalib.C122_down_full_speed",
    "Lambdalib.C122_splitter_accepts",
    "Lambdalib.C122_merger_accepts",
    "Lambdalib.C122_merger_delivers",
    "Lambdalib.C122_timeout_full_speed",
    "Lambdalib.C122_timeout_delivers",
    "Lambdalib.C122_arbiter_serves",
    "Lambdalib.C122_arbiter_zero_timeout"
   ],
   "note": "Senders keep their beats until they are taken (except for the up-converter, which does not need it). C122_arbiter_zero_timeout shows that the condition on the timeout is needed."
  },
  {
   "property": "C123",
   "status": "proved",
   "theorems": [
    "Lambdalib.C123_order",
    "Lambdalib.C123_arrives",
    "Lambdalib.C123_accepts",
    "Lambdalib.C123_stable",
    "Lambdalib.C123_there_and_back",
    "Lambdalib.C123_fifo_serves"
   ],
   "note": "The receiver need only take what is offered, not be ready again and again. FIFOs are any that meet FifoServes (order, stability, progress, outputs from registers), which C123_fifo_serves shows for a bounded queue. Filters are those with constant coefficients and their own multiplier. The float conversion of the most negative integer is the wrong one of C26; the statement says so."
  },
  {
   "property": "C124",
   "status": "proved",
   "theorems": [
    "Lambdalib.C124_order",
    "Lambdalib.C124_accepts",
    "Lambdalib.C124_arrives",
    "Lambdalib.C124_stable",
    "Lambdalib.C124_slices"
   ],
   "note": "What is assumed of a branch is Branch: order, stable offers, progress, no path from an offer to ready nor from ready to the offer in one cycle. C124_slices shows it for lines of PipeValid, PipeReady and wires; FIFOs are not instantiated, since they are modelled on words and branches on records of fields. Fields in none of the lists are dropped by the Splitter and nothing is said about them."
  }
 ]
}