{
 "claims": [
  {
   "property": "C01",
   "status": "proved",
   "theorems": [
    "Thz.C01_header_round_trip"
   ],
   "note": "All five types, every payload, either host byte order; fields not carried keep the receiver object's old value."
  },
  {
   "property": "C02",
   "status": "proved",
   "theorems": [
    "Thz.C02_header_size",
    "Thz.C02_unknown_type_violated",
    "Thz.C02_sizes"
   ],
   "note": "Five types proved. C02_unknown_type_violated: for any other type byte (never created by the MACs) the announced size is 0 but one byte is written."
  },
  {
   "property": "C03",
   "status": "partial",
   "theorems": [
    "Thz.C03_duration_exact_iff",
    "Thz.C03_duration_violated",
    "Thz.C03_duration_partial"
   ],
   "note": "Exact iff: whole ns in 0..65535. Violated outside (65536 ns reads as 0, fractions of a ns are cut); C03_duration_partial covers the range below 65536 ns up to 1 ns."
  },
  {
   "property": "C04",
   "status": "proved",
   "theorems": [
    "Thz.C04_bytes_determine_frame",
    "Thz.C04_rts_drops_duration"
   ],
   "note": "Both directions, plus: an RTS loses its duration."
  },
  {
   "property": "C05",
   "status": "proved",
   "theorems": [
    "Thz.C05_passed_up_increasing",
    "Thz.C05_passed_up_nodup"
   ],
   "note": "Over all histories."
  },
  {
   "property": "C06",
   "status": "partial",
   "theorems": [
    "Thz.C06_fresh_iff",
    "Thz.C06_increasing_all_passed",
    "Thz.C06_wrap_violated"
   ],
   "note": "Exact characterisation proved; increasing arrivals are all passed up. Violated after wrap: once 65535 was received nothing more is accepted from that source."
  },
  {
   "property": "C07",
   "status": "proved",
   "theorems": [
    "Thz.C07_energy_nonneg"
   ],
   "note": ""
  },
  {
   "property": "C08",
   "status": "proved",
   "theorems": [
    "Thz.C08_book_all_or_nothing"
   ],
   "note": ""
  },
  {
   "property": "C09",
   "status": "proved",
   "theorems": [
    "Thz.C09_ledger"
   ],
   "note": "For harvests, bookings and refunds. That initialising the model a second time resets the store is C112."
  },
  {
   "property": "C10",
   "status": "partial",
   "theorems": [
    "Thz.C10_threshold_violated",
    "Thz.C10_threshold_partial"
   ],
   "note": "Violated: the callback runs only on exact equality; with default parameters one 100 byte booking silences it forever. Partial: holds if all amounts are multiples of the harvest amount."
  },
  {
   "property": "C11",
   "status": "proved",
   "theorems": [
    "Thz.Nano.C11_queue_bounded"
   ],
   "note": ""
  },
  {
   "property": "C12",
   "status": "partial",
   "theorems": [
    "Thz.Nano.C12_enqueue_truthful_partial",
    "Thz.Nano.C12_size64_violated"
   ],
   "note": "Violated: a 64-byte packet is answered true and dropped, in every state. Proved for all other sizes."
  },
  {
   "property": "C13",
   "status": "proved",
   "theorems": [
    "Thz.Nano.C13_one_outcome"
   ],
   "note": ""
  },
  {
   "property": "C14",
   "status": "partial",
   "theorems": [
    "Thz.Nano.C14_transmissions_exceed_limit_violated",
    "Thz.Nano.C14_backoffs_bounded_partial"
   ],
   "note": "Violated for every limit: each packet for a new destination retransmits the queue head without a timeout. Partial: back-offs per packet are below the limit and equal its timeouts."
  },
  {
   "property": "C15",
   "status": "proved",
   "theorems": [
    "Thz.Nano.C15_success_only_on_ack"
   ],
   "note": ""
  },
  {
   "property": "C16",
   "status": "proved",
   "theorems": [
    "Thz.Nano.C16_discard_after_limit"
   ],
   "note": "Exactly max(limit,1) timeouts."
  },
  {
   "property": "C17",
   "status": "proved",
   "theorems": [
    "Thz.Nano.C17_per_destination_order_network",
    "Thz.Nano.C17_per_destination_order"
   ],
   "note": ""
  },
  {
   "property": "C18",
   "status": "proved",
   "theorems": [
    "Thz.Nano.C18_up_only_from_intact_data"
   ],
   "note": ""
  },
  {
   "property": "C19",
   "status": "proved",
   "theorems": [
    "Thz.Nano.C19_unicast_up_acknowledged"
   ],
   "note": ""
  },
  {
   "property": "C20",
   "status": "proved",
   "theorems": [
    "Thz.Nano.C20_cts_only_on_rts"
   ],
   "note": ""
  },
  {
   "property": "C21",
   "status": "partial",
   "theorems": [
    "Thz.Nano.C21_broadcast_never_completes_violated",
    "Thz.Nano.C21_broadcast_blocks_violated",
    "Thz.Nano.C21_broadcast_sent_partial"
   ],
   "note": "Violated: no broadcast ever completes, it stays queued, fills the queue and blocks later first packets to other destinations, in every continuation. Partial: a broadcast entering an empty queue with energy is sent at once."
  },
  {
   "property": "C22",
   "status": "partial",
   "theorems": [
    "Thz.Nano.C22_stall_violated",
    "Thz.Nano.C22_no_stall_partial"
   ],
   "note": "Violated: a run with default parameters ends with a queued packet, no pending event and ample energy. Partial: holds for packets already on the air and for a single unicast destination, unless an attempt lacked energy."
  },
  {
   "property": "C23",
   "status": "proved",
   "theorems": [
    "Thz.Nano.C23_success_means_delivered_once",
    "Thz.NStack.C23_complete_devices"
   ],
   "note": "Also for complete devices in time (C23_complete_devices)."
  },
  {
   "property": "C24",
   "status": "proved",
   "theorems": [
    "Thz.Nano.C24_deliveries_in_order",
    "Thz.NStack.C24_complete_devices"
   ],
   "note": "Also for complete devices in time (C24_complete_devices)."
  },
  {
   "property": "C25",
   "status": "partial",
   "theorems": [
    "Thz.Nano.C25_refund_exceeds_booking_violated",
    "Thz.Nano.C25_refunds_bounded_partial"
   ],
   "note": "Violated with RTS and a large FrameLength: a CTS timeout creates energy. Partial: without RTS/CTS refunds are covered by bookings for reasonable pulse energies (as long as the energy model is not initialised again, C112)."
  },
  {
   "property": "C26",
   "status": "partial",
   "theorems": [
    "Thz.Macro.C26_round_partial",
    "Thz.Macro.C26_half_slot_violated",
    "Thz.Macro.C26_one_ns_violated",
    "Thz.Macro.C26_division_by_zero_violated"
   ],
   "note": "Violated: default 5 ns slot rounds 2 ns to 5 ns; a 1 ns slot moves every multiple; below 1 ns the code divides by zero. Partial: slots of at least 2 ns, nonnegative times."
  },
  {
   "property": "C27",
   "status": "proved",
   "theorems": [
    "Thz.Macro.C27_never_shorter",
    "Thz.Macro.C27_covers"
   ],
   "note": "For the duration the received header reports; that RTS and DATA do not announce the right one is C72."
  },
  {
   "property": "C28",
   "status": "partial",
   "theorems": [
    "Thz.Macro.C28_backoff_partial",
    "Thz.Macro.C28_grows_violated"
   ],
   "note": "Violated for a 20 ns slot (810 ns grows to 820 ns). Partial: slots of at least 2 ns dividing 810 ns, which includes the default."
  },
  {
   "property": "C29",
   "status": "partial",
   "theorems": [
    "Thz.Macro.C29_limits_ignored_violated",
    "Thz.Macro.C29_limit_one_violated",
    "Thz.Macro.C29_five_partial"
   ],
   "note": "Violated: the limits are never read, the code uses the literal 5. Partial: five timeouts exactly."
  },
  {
   "property": "C30",
   "status": "partial",
   "theorems": [
    "Thz.Macro.C30_answer_violated",
    "Thz.Macro.C30_limit_violated",
    "Thz.Macro.C30_size_wraps_violated",
    "Thz.Macro.C30_enqueue_partial"
   ],
   "note": "Violated: answers false for accepted packets, ignores the limit, compares the size modulo 65536. Partial: what is accepted and what is dropped."
  },
  {
   "property": "C31",
   "status": "partial",
   "theorems": [
    "Thz.Macro.C31_completion_partial",
    "Thz.Macro.C31_iterator_violated",
    "Thz.Macro.C31_empty_queue_violated"
   ],
   "note": "Violated: completing the last record increments end(); success with an empty queue removes nothing and writes a nonexistent row. Partial: all other cases, for up to 65536 packets."
  },
  {
   "property": "C32",
   "status": "partial",
   "theorems": [
    "Thz.Macro.C32_second_grant_violated",
    "Thz.Macro.C32_no_overlap_partial"
   ],
   "note": "Violated: two grants lead to a call of the PHY during a transmission. Partial: the PHY refuses it, so transmissions never overlap."
  },
  {
   "property": "C33",
   "status": "partial",
   "theorems": [
    "Thz.Macro.C33_cts_partial",
    "Thz.Macro.C33_wrong_packet_violated"
   ],
   "note": "Violated: a CTS arriving after its packet was discarded releases another packet's DATA frame. Partial: packets without outcome."
  },
  {
   "property": "C34",
   "status": "partial",
   "theorems": [
    "Thz.Ap.C34_sent_partial",
    "Thz.Ap.C34_blocked_violated",
    "Thz.Ap.C34_resolution_violated",
    "Thz.Ap.C34_scheduled_partial",
    "Thz.Ap.C34_collected"
   ],
   "note": "Violated: a reception in progress when the window closes suppresses CTSs; with ns-3's default 1 ns resolution the second CTS is lost. Partial: one CTS per RTS is scheduled in order in every case, and without receptions each is sent at exactly its time, in order, and no other CTS until the data window ends. C34_collected: the RTSs answered are those received intact since the last window closed."
  },
  {
   "property": "C35",
   "status": "partial",
   "theorems": [
    "Thz.Ap.C35_disjoint_partial",
    "Thz.Ap.C35_wrap_violated",
    "Thz.Ap.C35_distance_violated"
   ],
   "note": "Violated: the 16-bit wait wraps for eight clients; clients at different distances overlap. Partial: disjoint for waits below 65536 ns and clients at equal distance."
  },
  {
   "property": "C36",
   "status": "partial",
   "theorems": [
    "Thz.Ap.C36_covers_partial",
    "Thz.Ap.C36_window_violated"
   ],
   "note": "Violated with the default attributes for a BPSK client: the window is too short. Partial: covered if the granted rate is at least the one used for the window."
  },
  {
   "property": "C37",
   "status": "proved",
   "theorems": [
    "Thz.Ap.C37_choice",
    "Thz.Ap.C37_best",
    "Thz.Ap.C37_monotone"
   ],
   "note": "Also without the assumption that the thresholds increase."
  },
  {
   "property": "C38",
   "status": "partial",
   "theorems": [
    "Thz.Ap.C38_assigned_partial",
    "Thz.Ap.C38_static_partial",
    "Thz.Ap.C38_later_violated",
    "Thz.Ap.C38_weak_violated"
   ],
   "note": "Violated: only the first reception in a sector counts; nodes heard below -200 dBm only are entered in sector 0. Partial: every node heard is entered exactly once, nobody else, in the sector of the strongest first reception; the full property if powers per sector do not change."
  },
  {
   "property": "C39",
   "status": "partial",
   "theorems": [
    "Thz.Ap.C39_range",
    "Thz.Ap.C39_advance",
    "Thz.Ap.C39_cycles",
    "Thz.Ap.C39_cover",
    "Thz.Ap.C39_revisit",
    "Thz.Ap.C39_revisit_violated"
   ],
   "note": "Range, advance, counting of full turns and coverage of every direction are proved for every beam width; revisiting the same sector angles is proved for beam widths 360/n and violated for 100 degrees."
  },
  {
   "property": "C40",
   "status": "partial",
   "theorems": [
    "Thz.Ap.C40_order_partial",
    "Thz.Ap.C40_lost_violated",
    "Thz.Ap.C40_empty_violated",
    "Thz.Ap.C40_drain_partial",
    "Thz.Ap.C40_complete_partial"
   ],
   "note": "Violated: a reception that disturbs the ACK loses it and stops the access point; an ACK event on an empty list is undefined behaviour. Partial: order and uniqueness for all histories; without receptions during the drain all ACKs are sent in order and then it turns."
  },
  {
   "property": "C41",
   "status": "proved",
   "theorems": [
    "Thz.Client.C41_only_when_granted",
    "Thz.Client.C41_own_sector",
    "Thz.Client.C41_rts_per_cta",
    "Thz.Client.C41_data_per_grant"
   ],
   "note": "Every frame on the air is traced to the CTA or CTS that granted it, with its time; RTSs only in the sector last assigned; never more RTSs than CTAs or DATA frames than grants."
  },
  {
   "property": "C42",
   "status": "partial",
   "theorems": [
    "Thz.Client.C42_record_partial",
    "Thz.Client.C42_first_partial",
    "Thz.Client.C42_first_queued_violated"
   ],
   "note": "Violated: after a discard the first record belongs to a packet no longer queued. Partial: with at most 65536 packets every queued packet has a record, and a record without queued packet is one given up whose settlement is due within 1 ps."
  },
  {
   "property": "C43",
   "status": "partial",
   "theorems": [
    "Thz.Client.C43_discarded_requested_violated",
    "Thz.Client.C43_requests_end_partial"
   ],
   "note": "Violated: the CTA that discards a packet also schedules an RTS for it, sent after the packet was settled. Partial: no frame for it later than 1 ps plus the longest grant-to-air delay after the discard."
  },
  {
   "property": "C44",
   "status": "partial",
   "theorems": [
    "Thz.Client.C44_backoff_ends_partial",
    "Thz.Client.C44_contends",
    "Thz.Client.C44_stuck_violated"
   ],
   "note": "Violated: when the packet backed off for is acknowledged, the back-off never ends, whatever number of CTAs follows. Partial: while its record exists the back-off ends after exactly n CTAs, 1 <= n <= 2^retry, and then the client contends."
  },
  {
   "property": "C45",
   "status": "partial",
   "theorems": [
    "Thz.PhyMacro.C45_one_transmission_at_a_time",
    "Thz.PhyMacro.C45_success_partial",
    "Thz.PhyMacro.C45_half_duplex_violated"
   ],
   "note": "Transmissions: proved. Receptions: violated, a frame during which the node transmitted is reported as received if another audible signal arrives after the transmission. Partial: success needs an audible frame that began while not transmitting, and each own transmission during it masked by a later arrival."
  },
  {
   "property": "C46",
   "status": "partial",
   "theorems": [
    "Thz.PhyMacro.C46_results_partial",
    "Thz.PhyMacro.C46_success_announced",
    "Thz.PhyMacro.C46_twice_violated"
   ],
   "note": "Violated: a frame that fails the SINR test at the end of the busy period is reported as failed twice. Partial: the results of a frame are none, one, or two failures; a success belongs to a frame announced when it began."
  },
  {
   "property": "C47",
   "status": "proved",
   "theorems": [
    "Thz.PhyMacro.C47_released"
   ],
   "note": ""
  },
  {
   "property": "C48",
   "status": "partial",
   "theorems": [
    "Thz.PhyMacro.C48_sinr_watts",
    "Thz.PhyMacro.C48_outcome_partial",
    "Thz.PhyMacro.C48_success_sinr",
    "Thz.PhyMacro.C48_overlap_violated",
    "Thz.PhyMacro.C48_records_kept_violated"
   ],
   "note": "Violated: an interferer that ends before the frame does not count; no record is ever discarded. Partial: with no own transmission and no other end in the last nanosecond, success exactly if the SINR against the signals still on the air at the end passes; the decibel comparison is shown equivalent to the ratio in watts."
  },
  {
   "property": "C49",
   "status": "proved",
   "theorems": [
    "Thz.PhyNano.C49_sorted"
   ],
   "note": ""
  },
  {
   "property": "C50",
   "status": "partial",
   "theorems": [
    "Thz.PhyNano.C50_start",
    "Thz.PhyNano.C50_overlap_partial",
    "Thz.PhyNano.C50_disjoint_partial",
    "Thz.PhyNano.C50_collision_violated"
   ],
   "note": "Violated: with a pulse on the air at acceptance the new train can run into that train's next pulse. Partial: the start lies within one symbol; trains apart in the current symbol stay apart in every later one; an overlap arises only that way."
  },
  {
   "property": "C51",
   "status": "proved",
   "theorems": [
    "Thz.PhyNano.C51_refusal"
   ],
   "note": ""
  },
  {
   "property": "C52",
   "status": "partial",
   "theorems": [
    "Thz.PhyNano.C52_ignored_iff_partial",
    "Thz.PhyNano.C52_received_clear",
    "Thz.PhyNano.C52_future_violated",
    "Thz.PhyNano.C52_touch_violated"
   ],
   "note": "Violated: own trains that are scheduled but have not started drop arrivals, and pulses that only touch count. Partial: the exact criterion; a frame that is received overlaps no own pulse."
  },
  {
   "property": "C53",
   "status": "partial",
   "theorems": [
    "Thz.PhyNano.C53_once",
    "Thz.PhyNano.C53_outcome_partial",
    "Thz.PhyNano.C53_junk_violated",
    "Thz.PhyNano.C53_bridge_violated"
   ],
   "note": "Violated: uninitialised interference memory decides the outcome, and signals that do not overlap the frame are counted. Partial: every frame is reported exactly once, with the exact criterion."
  },
  {
   "property": "C54",
   "status": "partial",
   "theorems": [
    "Thz.Channel.C54_atMostOnce",
    "Thz.Channel.C54_delivered",
    "Thz.Channel.C54_arrival",
    "Thz.Channel.C54_finish",
    "Thz.Channel.C54_finished",
    "Thz.Channel.C54_sender",
    "Thz.Channel.C54_phy_partial",
    "Thz.Channel.C54_noCrash",
    "Thz.Channel.C54_progress",
    "Thz.Channel.C54_double_violated"
   ],
   "note": "Violated: a PHY attached twice (SetChannel called twice) is told of every transmission twice. Partial: if no PHY is attached twice, exactly once at every other attached PHY; per position of the device list, and for the ends and the sender, without that assumption."
  },
  {
   "property": "C55",
   "status": "proved",
   "theorems": [
    "Thz.Channel.C55_noise",
    "Thz.Channel.C55_instant"
   ],
   "note": "The entry of a reception that ends is erased by an event at the same time; the theorem about instants says so."
  },
  {
   "property": "C56",
   "status": "proved",
   "theorems": [
    "Thz.Antenna.C56_rxGain",
    "Thz.Antenna.C56_totalGain"
   ],
   "note": "Over the reals. Assumes SetBeamwidth was called (the BeamWidth attribute alone leaves the exponent of the pattern uninitialised)."
  },
  {
   "property": "C57",
   "status": "partial",
   "theorems": [
    "Thz.Antenna.C57_tuned",
    "Thz.Antenna.C57_turning",
    "Thz.Antenna.C57_ends",
    "Thz.Antenna.C57_double_violated",
    "Thz.Antenna.C57_double_partial"
   ],
   "note": "Proved over the reals. Violated with doubles: tuning to 1e20 degrees loops for ever. Partial for doubles: integer angles below 2^53."
  },
  {
   "property": "C58",
   "status": "partial",
   "theorems": [
    "Thz.Antenna.C58_omni_violated",
    "Thz.Antenna.C58_isotropic_partial"
   ],
   "note": "Violated: the modes are passed as bool, so two omnidirectional transceivers get gain 0 instead of the configured gain. Partial: the gain is the same in every direction."
  },
  {
   "property": "C59",
   "status": "partial",
   "theorems": [
    "Thz.Spectrum.C59_macro_violated",
    "Thz.Spectrum.C59_macro_partial",
    "Thz.Spectrum.C59_nano_violated",
    "Thz.Spectrum.C59_samples_violated",
    "Thz.Spectrum.C59_nano_partial"
   ],
   "note": "Violated: m_numsb / m_numsample is a division of ints. With default attributes the macro spectrum has sub-bands of width 0 (integral 0) and a receiver sees less than 0.99 of the power (97 of 98 sub-bands); the nano spectrum carries 5111/5100 of the power; with more samples than sub-bands its constant is a division by zero. Partial: bounds, and exact if the number of samples divides the number of sub-bands and these fill the bandwidth. Over the reals."
  },
  {
   "property": "C60",
   "status": "proved",
   "theorems": [
    "Thz.Spectrum.C60_value",
    "Thz.Spectrum.C60_decreasing"
   ],
   "note": "Over the reals, positive distances, a table without negative coefficients (the shipped one has none) and a finite gain; after every history of calls."
  },
  {
   "property": "C61",
   "status": "partial",
   "theorems": [
    "Thz.Spectrum.C61_zero_violated",
    "Thz.Spectrum.C61_transparent_partial",
    "Thz.Spectrum.C61_power"
   ],
   "note": "Violated at distance 0: the absorption loss is 0 or 1 depending on earlier calls. Partial: transparent for every other distance; the received spectrum and power are transparent at every distance."
  },
  {
   "property": "C62",
   "status": "partial",
   "theorems": [
    "Thz.NetDev.C62_answer_violated",
    "Thz.NetDev.C62_packet_violated",
    "Thz.NetDev.C62_packet_partial"
   ],
   "note": "Violated: Send answers true whatever the MAC answers (every packet below 14992 bytes is dropped by the macro MAC and reported as sent), and a 59996-byte packet is replaced by 65000 zero bytes. Partial: every other packet reaches the MAC unchanged behind its link header."
  },
  {
   "property": "C63",
   "status": "proved",
   "theorems": [
    "Thz.NetDev.C63_dispatch",
    "Thz.NetDev.C63_short"
   ],
   "note": "For packets with an 8-byte LLC/SNAP header; C63_short: a shorter packet aborts the program."
  },
  {
   "property": "C64",
   "status": "partial",
   "theorems": [
    "Thz.Apps.C64_seq_violated",
    "Thz.Apps.C64_size_partial"
   ],
   "note": "Violated: the counter is never incremented, every packet carries 0. Partial: every packet has the configured size."
  },
  {
   "property": "C65",
   "status": "partial",
   "theorems": [
    "Thz.Apps.C65_order_partial",
    "Thz.Apps.C65_bytes_partial",
    "Thz.Apps.C65_bytes_violated"
   ],
   "note": "Violated: a frame whose size is a multiple of the maximum is followed by a 12-byte packet, a rest below 12 bytes is padded to 12, and a maximum below 12 is exceeded. Partial: order, times and sizes of all packets; sizes add up exactly iff the rest is at least 12 bytes, and never by more than 12 bytes too many."
  },
  {
   "property": "C66",
   "status": "partial",
   "theorems": [
    "Thz.Apps.C66_ends_partial",
    "Thz.Apps.C66_hang_violated",
    "Thz.Apps.C66_outside_violated"
   ],
   "note": "Violated: a trace without waiting times (one frame at time 0) loops for ever; SetRemote empties the trace, so that Send reads outside it; MaxPacketSize 65536 is stored as 0 and divided by. Partial: every Send ends within one round of the trace if some frame has a waiting time and the maximum is not 0."
  },
  {
   "property": "C67",
   "status": "partial",
   "theorems": [
    "Thz.Apps.C67_self_violated",
    "Thz.Apps.C67_self_partial"
   ],
   "note": "Violated: the index in the container is compared with the id of the node; with a container of just node 0 the search never ends. Partial: right if every node's id is its index in the container."
  },
  {
   "property": "C68",
   "status": "partial",
   "theorems": [
    "Thz.NetDev.C68_linked_partial",
    "Thz.NetDev.C68_attached_partial",
    "Thz.NetDev.C68_order_violated",
    "Thz.NetDev.C68_install"
   ],
   "note": "Violated: a channel set before the PHY is never attached, one set twice is attached twice. Partial: MAC and PHY are linked in every order; the channel has the device once for every call of SetChannel after SetPhy; THzHelper::Install is right."
  },
  {
   "property": "C69",
   "status": "proved",
   "theorems": [
    "Thz.Macro.C69_one_outcome"
   ],
   "note": ""
  },
  {
   "property": "C70",
   "status": "proved",
   "theorems": [
    "Thz.Macro.C70_success_acknowledged"
   ],
   "note": "For at most 65536 accepted packets, as stated."
  },
  {
   "property": "C71",
   "status": "partial",
   "theorems": [
    "Thz.Macro.C71_progress_partial",
    "Thz.Macro.C71_stall_violated"
   ],
   "note": "Violated: after a discard nothing is pending although a packet is queued. Partial: until the first outcome, with unicast packets only, something that leads on is always pending."
  },
  {
   "property": "C72",
   "status": "partial",
   "theorems": [
    "Thz.Macro.C72_overheard_partial",
    "Thz.Macro.C72_announcement_violated",
    "Thz.Macro.C72_not_silenced_violated"
   ],
   "note": "Violated: the RTS carries no duration and the DATA header is serialised before the duration is set. Partial: a node overhearing a DATA frame honours whatever value it carries."
  },
  {
   "property": "C73",
   "status": "partial",
   "theorems": [
    "Thz.Ap.C73_rate_violated",
    "Thz.Ap.C73_rate_partial"
   ],
   "note": "Violated: below the BPSK threshold the highest rate is granted. Partial: above it the rate is monotone."
  },
  {
   "property": "C74",
   "status": "partial",
   "theorems": [
    "Thz.Ap.C74_sweep_partial",
    "Thz.Ap.C74_dead_violated",
    "Thz.Ap.C74_twin_violated"
   ],
   "note": "Violated both ways: the sweep dies, and two sweeps run at once. Partial: three-way runs whose receptions do not disturb a CTA or an ACK."
  },
  {
   "property": "C75",
   "status": "proved",
   "theorems": [
    "Thz.Client.C75_one_outcome"
   ],
   "note": ""
  },
  {
   "property": "C76",
   "status": "proved",
   "theorems": [
    "Thz.Client.C76_success_backed"
   ],
   "note": "Including that the DATA frame on the air carried the packet's destination and body while sequence numbers are unique."
  },
  {
   "property": "C77",
   "status": "proved",
   "theorems": [
    "Thz.Client.C77_ack_timeout_pending"
   ],
   "note": ""
  },
  {
   "property": "C78",
   "status": "partial",
   "theorems": [
    "Thz.Client.C78_charged_partial",
    "Thz.Client.C78_unsent_charged_violated"
   ],
   "note": "Violated: a scheduled RTS suppressed by the MAC state is charged as an unanswered one. Partial: a charge is preceded by DATA on the air for the packet, or by a CTA to contend on."
  },
  {
   "property": "C79",
   "status": "partial",
   "theorems": [
    "Thz.Client.C79_taken_partial",
    "Thz.Client.C79_answer_violated"
   ],
   "note": "Violated: the answer is always false. Partial: what Enqueue does to the queue depends on the size only."
  },
  {
   "property": "C80",
   "status": "partial",
   "theorems": [
    "Thz.CNet.C80_earlier_packets_first_partial",
    "Thz.Client.C80_broadcast_blocks_violated"
   ],
   "note": "Violated, for every later history: a one-way client whose first packet is a broadcast never transmits nor settles anything. Partial: packets accepted before the broadcast are not held up by it."
  },
  {
   "property": "C81",
   "status": "proved",
   "theorems": [
    "Thz.Client.C81_discard_after_limit"
   ],
   "note": ""
  },
  {
   "property": "C82",
   "status": "partial",
   "theorems": [
    "Thz.Client.C82_timers_ahead_partial",
    "Thz.Client.C82_ack_timer_past_violated"
   ],
   "note": "Violated: in the three-way protocol CTAs between the CTS and the DATA make the ACK timeout due in the past. Partial: every other event, and in the one-way protocol every event, lies ahead."
  },
  {
   "property": "C83",
   "status": "partial",
   "theorems": [
    "Thz.PhyMacro.C83_sensed_partial",
    "Thz.PhyMacro.C83_unsensed_violated"
   ],
   "note": "Violated: a signal that begins during an own transmission is never sensed. Partial: with more than 1 ns of it left and not transmitting at its beginning, carrier sense is busy and the PHY says it is not idle."
  },
  {
   "property": "C84",
   "status": "partial",
   "theorems": [
    "Thz.PhyMacro.C84_concluded_partial",
    "Thz.PhyMacro.C84_unconcluded_violated"
   ],
   "note": "Violated: an own transmission, or any signal ending within the last nanosecond, leaves the announced frame without result. Partial: otherwise the result comes at its end."
  },
  {
   "property": "C85",
   "status": "partial",
   "theorems": [
    "Thz.Sinr.C85_macro",
    "Thz.Sinr.C85_macro_interference",
    "Thz.Sinr.C85_nano_violated",
    "Thz.Sinr.C85_negative_violated",
    "Thz.Sinr.C85_nano_partial",
    "Thz.Sinr.C85_default_partial"
   ],
   "note": "Violated at the nano PHY: the threshold documented in dB is compared with the plain ratio. Proved for the macro PHY. Partial for the nano PHY: the threshold is a ratio; the two agree at the default 10."
  },
  {
   "property": "C86",
   "status": "partial",
   "theorems": [
    "Thz.Antenna.C86_turned_violated",
    "Thz.Antenna.C86_gain_violated",
    "Thz.Antenna.C86_kept_partial"
   ],
   "note": "Violated: the channel passes the orientation of the sender's antenna to the antenna of the other device, which stores it. Partial: antennas in receive mode keep their orientation if the sender is in transmit mode, or is the only node in receive mode."
  },
  {
   "property": "C87",
   "status": "partial",
   "theorems": [
    "Thz.Antenna.C87_gain_violated",
    "Thz.Antenna.C87_case_violated",
    "Thz.Antenna.C87_gain_partial"
   ],
   "note": "Violated: the antenna at the far end of the link is used for both ends. Partial: right if both antennas are configured alike."
  },
  {
   "property": "C88",
   "status": "partial",
   "theorems": [
    "Thz.Spectrum.C88_nearest_violated",
    "Thz.Spectrum.C88_close_partial",
    "Thz.Spectrum.C88_sparse_partial"
   ],
   "note": "Violated: the first tabulated frequency within 0.9894 GHz is taken, which for the shipped table (steps of 0.763 GHz) is the one below. Partial: the coefficient is that of a tabulated frequency within 0.9894 GHz, or 0; the nearest one if the table is sparser than the window."
  },
  {
   "property": "C89",
   "status": "partial",
   "theorems": [
    "Thz.Spectrum.C89_default_violated",
    "Thz.Spectrum.C89_tiles_partial"
   ],
   "note": "Violated: integer division; with default attributes all sub-bands are empty and at the same frequency. Partial: right if the number of samples divides the number of sub-bands and these fill the bandwidth."
  },
  {
   "property": "C90",
   "status": "partial",
   "theorems": [
    "Thz.NetDev.C90_dispose_violated",
    "Thz.NetDev.C90_dispose_partial"
   ],
   "note": "Violated: Clear empties the device list of the shared channel. Partial: devices on other channels, and the MAC/PHY wiring of other devices, are kept."
  },
  {
   "property": "C91",
   "status": "partial",
   "theorems": [
    "Thz.NetDev.C91_linkup_violated",
    "Thz.NetDev.C91_linkup_partial"
   ],
   "note": "Violated: m_linkup is never initialised, the answer is whatever the memory held. Partial: without a PHY the link is down."
  },
  {
   "property": "C92",
   "status": "partial",
   "theorems": [
    "Thz.Apps.C92_failure_violated",
    "Thz.Apps.C92_sends_partial"
   ],
   "note": "Violated: after one refusal of the socket the client never sends again. Partial: as long as the socket takes the packets, every packet is sent at its time."
  },
  {
   "property": "C93",
   "status": "partial",
   "theorems": [
    "Thz.Apps.C93_delay_violated",
    "Thz.Apps.C93_delay_partial"
   ],
   "note": "Violated: draws are taken as microseconds, rounded down to whole ones (a draw below 1 gives delay 0). Partial: the delay is the draw in microseconds, less than 1 us too short."
  },
  {
   "property": "C94",
   "status": "partial",
   "theorems": [
    "Thz.Apps.C94_count_violated",
    "Thz.Apps.C94_count_partial"
   ],
   "note": "Violated: a non-empty datagram shorter than 12 bytes ends the program, and a stopped server still counts IPv6 datagrams. Partial: right (modulo 2^32) for IPv4 datagrams that are empty or carry the header."
  },
  {
   "property": "C95",
   "status": "partial",
   "theorems": [
    "Thz.Apps.C95_lost_violated",
    "Thz.Apps.C95_received_partial"
   ],
   "note": "Violated for every conceivable loss counter: all packets of the client carry the number 0. Partial: the number of received packets is right."
  },
  {
   "property": "C96",
   "status": "partial",
   "theorems": [
    "Thz.Apps.C96_load_violated",
    "Thz.Apps.C96_load_partial"
   ],
   "note": "Violated: the last line is loaded twice if the file ends with a newline, an empty file gives an uninitialised frame, and the default trace is appended to the loaded one. Partial: exact contents for every file; waiting times add up if the times do not decrease."
  },
  {
   "property": "C97",
   "status": "proved",
   "theorems": [
    "Thz.Apps.C97_seq"
   ],
   "note": ""
  },
  {
   "property": "C98",
   "status": "partial",
   "theorems": [
    "Thz.Macro.C98_wrap_violated",
    "Thz.Macro.C98_late_cts_violated",
    "Thz.Macro.C98_success_means_delivered_once_partial",
    "Thz.Macro.C98_without_rts_partial",
    "Thz.Stack.C98_complete_devices_partial"
   ],
   "note": "Violated: the counter is uninitialised and may wrap after one packet, then the receiver rejects but acknowledges; a CTS for a packet already given up releases the newest packet's DATA, older packets are then rejected but acknowledged. Partial: right for packets timed out less than five times if no counter wraps and no CTS arrives for a packet already reported; without RTS the latter holds in every history."
  },
  {
   "property": "C99",
   "status": "proved",
   "theorems": [
    "Thz.Macro.C99_deliveries_in_order",
    "Thz.Stack.C99_complete_devices"
   ],
   "note": "In every history, as long as no sequence counter wraps (quantifier)."
  },
  {
   "property": "C100",
   "status": "proved",
   "theorems": [
    "Thz.CNet.C100_oldest_first"
   ],
   "note": ""
  },
  {
   "property": "C101",
   "status": "partial",
   "theorems": [
    "Thz.CStack.C101_complete_devices_partial",
    "Thz.CStack.C101_complete_one_ap_partial",
    "Thz.CStack.C101_complete_other_ap_violated",
    "Thz.CStack.C101_complete_wrap_violated",
    "Thz.CStack.C101_complete_overtake_violated",
    "Thz.CNet.C101_other_ap_violated",
    "Thz.CNet.C101_wrap_violated",
    "Thz.CNet.C101_overtake_violated",
    "Thz.CNet.C101_success_means_delivered_once_partial",
    "Thz.CNet.C101_one_ap_partial"
   ],
   "note": "Violated: an access point passes up and acknowledges packets for another one; the counter is uninitialised and may wrap after one packet; a dummy RTS (sounding) has an uninitialised number, which may be that of a later packet; granted by a second access point it releases that packet, the older one is then rejected but acknowledged. Partial: if no counter wraps and every CTS received was asked for with an ordinary RTS, some access point passed the packet up exactly once; without sounding the latter holds in every history, and with a single access point it is that one. Violations and partial theorem also for complete devices (C101_complete_...)."
  },
  {
   "property": "C102",
   "status": "proved",
   "theorems": [
    "Thz.CStack.C102_complete_devices",
    "Thz.CNet.C102_deliveries_in_order"
   ],
   "note": "In every history, as long as no sequence counter wraps (quantifier)."
  },
  {
   "property": "C103",
   "status": "partial",
   "theorems": [
    "Thz.CStack.C103_complete_devices_partial",
    "Thz.CStack.C103_complete_stranger_violated",
    "Thz.CNet.C103_stranger_violated",
    "Thz.CNet.C103_stranger_rts_violated",
    "Thz.CNet.C103_only_intact_partial"
   ],
   "note": "Violated: the destination address of DATA and RTS frames is never looked at. Partial: everything else: what is passed up or answered is an intact frame of the right type, unaltered, answered to its source with its number. Violation and partial theorem also for complete devices (C103_complete_...)."
  },
  {
   "property": "C104",
   "status": "proved",
   "theorems": [
    "Thz.Stack.C104_received_was_sent",
    "Thz.Stack.C104_received_once",
    "Thz.Stack.C104_one_transmission",
    "Thz.Stack.C104_layers_agree",
    "Thz.Stack.C104_one_at_a_time"
   ],
   "note": ""
  },
  {
   "property": "C105",
   "status": "proved",
   "theorems": [
    "Thz.Stack.C105_undisturbed_is_received"
   ],
   "note": "For frames of positive duration."
  },
  {
   "property": "C106",
   "status": "partial",
   "theorems": [
    "Thz.Stack.C106_clean_exchange_partial",
    "Thz.Stack.C106_clean_exchange_delivered_partial",
    "Thz.Stack.C106_clean_rts_partial",
    "Thz.Stack.C106_clean_handshake_partial",
    "Thz.Stack.C106_twelve_metres_violated",
    "Thz.Stack.C106_twelve_metres_rts_violated"
   ],
   "note": "Violated: the CTS and ACK timeouts allow for a propagation delay of 33.356 ns (10 m) whatever the distance; over 12 m every packet is reported as failed, without RTS after it was delivered five times over. Partial (C106_clean_exchange_partial, C106_clean_exchange_delivered_partial): whenever the sum of the two propagation delays is below twice the hard-coded delay and a slot, an undisturbed exchange succeeds: of DATA and ACK without RTS, and of RTS, CTS, DATA and ACK (C106_clean_rts_partial, C106_clean_handshake_partial) if the receiver holds no reservation when the RTS arrives. That the first frame is sent at all (back-off) is not part of it."
  },
  {
   "property": "C107",
   "status": "proved",
   "theorems": [
    "Thz.Macro.C107_data_is_answered"
   ],
   "note": "'Starts no other' is read as: nothing but an ACK at that very moment, and no DATA frame of another packet received at the same moment. Time does not pass beyond a pending event (onTimeRun)."
  },
  {
   "property": "C108",
   "status": "proved",
   "theorems": [
    "Thz.Macro.C108_acknowledged_in_time"
   ],
   "note": "Conditions as stated in the property; time does not pass beyond a pending event (onTimeRun)."
  },
  {
   "property": "C109",
   "status": "proved",
   "theorems": [
    "Thz.Macro.Rts.C109_rts_is_answered"
   ],
   "note": "'Starts no other' is read as: nothing but a CTS at that very moment, and no other RTS received at the same moment. Time does not pass beyond a pending event (onTimeRun)."
  },
  {
   "property": "C110",
   "status": "proved",
   "theorems": [
    "Thz.Macro.Rts.C110_cts_leads_to_data"
   ],
   "note": "Conditions as stated in the property; 'starts no other' is read as: nothing but a unicast DATA frame at that very moment, and no CTS with another number received at the same moment; time does not pass beyond a pending event (onTimeRun)."
  },
  {
   "property": "C111",
   "status": "partial",
   "theorems": [
    "Thz.EnergyTime.C111_gains_follow_starts",
    "Thz.EnergyTime.C111_rate",
    "Thz.EnergyTime.C111_rate_partial",
    "Thz.EnergyTime.C111_double_violated"
   ],
   "note": "Violated for every energy model aggregated to a node, as the helper does: DoInitialize overrides the virtual function ns-3 calls at time 0, and the constructor schedules another call, so two series of harvests run and the rate is doubled. Exact times and rate for any number of starts proved; partial: right if harvesting was started once. Trusted: ns-3 calls DoInitialize of aggregated objects once."
  },
  {
   "property": "C112",
   "status": "partial",
   "theorems": [
    "Thz.EnergyTime.C112_ledger_partial",
    "Thz.EnergyTime.C112_reset_violated"
   ],
   "note": "Violated: the second DoInitialize sets the store back to its initial content (61 units are lost after 480 us with default attributes and a draw of 60). Partial: the ledger balances since the last start."
  },
  {
   "property": "C113",
   "status": "partial",
   "theorems": [
    "Thz.Spectrum.C113_power",
    "Thz.Spectrum.C113_power_partial",
    "Thz.Spectrum.C113_power_violated",
    "Thz.Spectrum.C113_outside_violated"
   ],
   "note": "Exact value proved: power times (number of sub-bands / 24) / 4. Violated unless the window has 96 to 119 sub-bands (default: 97), and by an exception if the pulse spectrum was initialised in between. Partial: 96 to 119 sub-bands."
  },
  {
   "property": "C114",
   "status": "partial",
   "theorems": [
    "Thz.Spectrum.C114_symmetric_partial",
    "Thz.Spectrum.C114_centre_violated"
   ],
   "note": "Violated for the default window: groups 8 to 19 of 24 are used instead of 7 to 18. Partial: symmetric about its own middle, and centred if the window has 26 bands per group band."
  },
  {
   "property": "C115",
   "status": "partial",
   "theorems": [
    "Thz.Spectrum.C115_rows_partial",
    "Thz.Spectrum.C115_last_violated",
    "Thz.Spectrum.C115_above_violated"
   ],
   "note": "Violated if the table ends with the last band (the last row returned is one too low) and for a window above the table. Partial: sorted table with one row more than needed."
  },
  {
   "property": "C116",
   "status": "partial",
   "theorems": [
    "Thz.Spectrum.C116_rows_partial",
    "Thz.Spectrum.C116_centres_partial",
    "Thz.Spectrum.C116_first_violated"
   ],
   "note": "Violated for tables beginning with 0 as the one shipped: the bands begin at 89.9378 GHz. Partial: each band has the density of its row; right (but for one extra band) if the rows are the centres."
  },
  {
   "property": "C117",
   "status": "proved",
   "theorems": [
    "Thz.NStack.C117_received_was_sent",
    "Thz.NStack.C117_received_once",
    "Thz.NStack.C117_one_transmission",
    "Thz.NStack.C117_transmitted_was_handed"
   ],
   "note": "For all histories of complete nano devices (MAC, energy store, PHY, channel, one clock)."
  },
  {
   "property": "C118",
   "status": "partial",
   "theorems": [
    "Thz.NStack.C118_undisturbed_received_partial",
    "Thz.NStack.C118_undisturbed_received_violated"
   ],
   "note": "Violated: the interference field of a new reception is read before it is written; if it happens to hold a large value a strong frame alone on the air is not received. Partial: that field holds zero and no pulse train the receiver has booked starts later than one pulse after the arrival begins (that a later one matters is C52_future_violated)."
  },
  {
   "property": "C119",
   "status": "partial",
   "theorems": [
    "Thz.NStack.C119_clean_exchange_partial",
    "Thz.NStack.C119_clean_exchange_delivered_partial",
    "Thz.NStack.C119_clean_exchange_violated"
   ],
   "note": "Violated over 15 cm: the acknowledgement timeout allows 676 ps for both propagation delays together, so every frame is received, B passes the packet up, and A reports failure. Partial: no RTS; the delays and the waiting for a pulse slot at both ends are below 676 ps; the interference field holds zero; at most 65535 packets."
  },
  {
   "property": "C120",
   "status": "partial",
   "theorems": [
    "Thz.NStack.C120_returned_without_data_partial",
    "Thz.NStack.C120_returned_at_timeout_partial",
    "Thz.NStack.C120_data_comes_later",
    "Thz.NStack.C120_reserved_energy_violated"
   ],
   "note": "Violated in every exchange (C120_data_comes_later): the timeout is the duration of a CTS and 676 ps and leaves no time for DATA, so the energy is returned before DATA comes and nothing is booked for it. Partial: it is returned if DATA does not come within that time, and only at that time."
  },
  {
   "property": "C121",
   "status": "partial",
   "theorems": [
    "Thz.Seed.C121_reproducible_partial",
    "Thz.Seed.C121_clock_violated",
    "Thz.Seed.C121_memory_violated"
   ],
   "note": "Violated by nano back-offs, which seed the generator with the time of day, and by energy models, which draw from a range given by a member not yet initialised. Partial: simulations without them."
  },
  {
   "property": "C122",
   "status": "partial",
   "theorems": [
    "Thz.Seed.C122_seed_partial",
    "Thz.Seed.C122_seed_violated"
   ],
   "note": "Violated: giving a nano device its address overwrites the global seed, so for every simulation that begins with installing one the seed has no effect. Partial: no nano device is given an address or backs off."
  },
  {
   "property": "C123",
   "status": "proved",
   "theorems": [
    "Thz.Seed.C123_streams_distinct"
   ],
   "note": "Every random number is the first of a new random variable. Trusted: ns-3 gives each the next free stream."
  },
  {
   "property": "C124",
   "status": "proved",
   "theorems": [
    "Thz.CStack.C124_received_was_sent",
    "Thz.CStack.C124_received_once",
    "Thz.CStack.C124_one_transmission",
    "Thz.CStack.C124_layers_agree",
    "Thz.CStack.C124_one_at_a_time"
   ],
   "note": ""
  },
  {
   "property": "C125",
   "status": "proved",
   "theorems": [
    "Thz.CStack.C125_undisturbed_is_received"
   ],
   "note": "For frames of positive duration."
  },
  {
   "property": "C126",
   "status": "partial",
   "theorems": [
    "Thz.Macro.C126_lines_are_true_partial",
    "Thz.Macro.C126_counters",
    "Thz.Macro.C126_line_written_partial",
    "Thz.Macro.C126_size_violated"
   ],
   "note": "Violated: sizes are kept in 16 bits; a packet of 80536 bytes is reported as 14964 bytes of data. Partial: lines are true, the size for packets below 65519 bytes; every report gets its line if at most 65536 packets were accepted and the work on no other packet ends in the same instant; the counters are right modulo 65536. The delay is in ticks, the file rounds it down to nanoseconds."
  },
  {
   "property": "C127",
   "status": "partial",
   "theorems": [
    "Thz.Client.C127_lines_are_true_partial",
    "Thz.Client.C127_counters",
    "Thz.Client.C127_line_written_partial",
    "Thz.Client.C127_size_violated"
   ],
   "note": "Violated and partial as C126, for clients."
  },
  {
   "property": "C128",
   "status": "partial",
   "theorems": [
    "Thz.Client.C128_client_partial",
    "Thz.Client.C128_client_violated",
    "Thz.Macro.C128_throughput_partial",
    "Thz.Macro.C128_throughput_violated"
   ],
   "note": "Violated: sizes are kept in 16 bits. Partial: packets below 65519 bytes, none reported in the instant of its acceptance (division by zero). Rates are rational numbers (no rounding)."
  }
 ]
}