{"id": "C01", "title": "MAC header round trip", "statement": "Adding a MAC header of type CTA, RTS, CTS, ACK or DATA to a packet and removing it again yields the same type, source, destination and exactly the fields that the type carries (CTA: sector, flags; RTS: flags, retry, sequence; CTS: flags, duration, sequence; ACK and DATA: duration, sequence), consumes exactly the bytes that were added, and leaves every following payload byte untouched.", "quantifier": "every header value of the five types, every payload", "why_tests_cant": "The field space is 2^140 or more values and the law has to hold for every one together with every payload that follows it.", "anchors": ["model/thz-mac-header.cc: THzMacHeader::Serialize", "model/thz-mac-header.cc: THzMacHeader::Deserialize"]}
{"id": "C02", "title": "Announced header size equals bytes written", "statement": "For every frame type the MACs create, the size announced for the header (the number of bytes that a packet reserves) is exactly the number of bytes written by serialisation and the number reported by deserialisation, so no header write leaves its reserved area.", "quantifier": "every header value, and every type byte 0..255 for the question where agreement stops", "why_tests_cant": "A single mismatch overruns the packet buffer; the agreement has to hold for every type byte and field value.", "anchors": ["model/thz-mac-header.cc: THzMacHeader::GetSize", "model/thz-mac-header.cc: THzMacHeader::Serialize", "model/thz-mac-header.cc: THzMacHeader::Deserialize"]}
{"id": "C03", "title": "Duration announced in a header is the duration the peer reads", "statement": "If a sender sets a duration d on a header, any receiver reads back d.", "quantifier": "every duration representable by the simulator", "why_tests_cant": "The field is 16 bits of nanoseconds: correctness depends on the range of all computed waits, not on the sample durations a test would use.", "anchors": ["model/thz-mac-header.cc: THzMacHeader::SetDuration", "model/thz-mac-header.cc: THzMacHeader::GetDuration", "model/thz-mac-macro-ap.cc: THzMacMacroAp::WaitTimeExpired"]}
{"id": "C04", "title": "Header bytes determine the frame", "statement": "Two headers produce the same bytes if and only if they have the same type, addresses and the same values of the fields carried by that type; fields outside that set (for example a duration set on an RTS) never influence the bytes and are lost.", "quantifier": "every pair of headers of the five types", "why_tests_cant": "Injectivity is a statement about all pairs of inputs.", "anchors": ["model/thz-mac-header.cc: THzMacHeader::Serialize"]}
{"id": "C05", "title": "No duplicate delivery by the sequence filter", "statement": "For every history of data frames reaching a MAC, from each source the sequence numbers that are passed up are strictly increasing; in particular the same (source, sequence) is passed up at most once, whatever retransmissions, duplicates or interleavings with other sources occur.", "quantifier": "every finite history of received (source, sequence) pairs", "why_tests_cant": "The filter is stateful; duplicates may come arbitrarily later and be interleaved with any number of sources.", "anchors": ["model/thz-mac-nano.cc: THzMacNano::IsNewSequence", "model/thz-mac-macro.cc: THzMacMacro::IsNewSequence", "model/thz-mac-macro-ap.cc: THzMacMacroAp::IsNewSequence"]}
{"id": "C06", "title": "The sequence filter never rejects fresh data", "statement": "A data frame whose sequence number is larger than every sequence number previously received from that source is passed up; a source whose 16-bit counter wraps can still be heard.", "quantifier": "every finite history of received (source, sequence) pairs", "why_tests_cant": "Wrap-around needs 65536 frames from one source, and the claim concerns all histories.", "anchors": ["model/thz-mac-nano.cc: THzMacNano::IsNewSequence", "model/thz-mac-nano.cc: THzMacNano::Enqueue"]}
{"id": "C07", "title": "Stored energy never becomes negative", "statement": "Starting from a non-negative initial energy with non-negative parameters, no sequence of harvest, book and return operations makes the remaining energy negative.", "quantifier": "every parameter setting and every finite sequence of energy operations", "why_tests_cant": "The claim is an invariant over unbounded interleavings of three operations with real arguments.", "anchors": ["model/thz-energy-model.cc: THzEnergyModel::HarvestEnergy", "model/thz-energy-model.cc: THzEnergyModel::BookEnergy", "model/thz-energy-model.cc: THzEnergyModel::ReturnEnergy"]}
{"id": "C08", "title": "Booking energy is all-or-nothing", "statement": "A booking either answers true, in which case exactly the cost of the requested transmitted and received bytes is subtracted, or answers false, in which case the stored energy is unchanged and was smaller than that cost; the answer is true exactly when the cost is covered.", "quantifier": "every stored energy, parameter setting and pair of byte counts", "why_tests_cant": "Quantifies over all real-valued states and arguments including exact boundary equality.", "anchors": ["model/thz-energy-model.cc: THzEnergyModel::BookEnergy"]}
{"id": "C09", "title": "Energy ledger balances", "statement": "After any sequence of operations the remaining energy equals initial energy plus all harvested energy minus all granted bookings plus all refunds.", "quantifier": "every finite sequence of energy operations", "why_tests_cant": "Conservation over all histories.", "anchors": ["model/thz-energy-model.cc: THzEnergyModel::HarvestEnergy", "model/thz-energy-model.cc: THzEnergyModel::BookEnergy", "model/thz-energy-model.cc: THzEnergyModel::ReturnEnergy"]}
{"id": "C10", "title": "Reaching the energy threshold wakes the MAC", "statement": "Whenever harvesting raises the stored energy from below the data threshold to at or above it, the MAC is told (the energy callback runs).", "quantifier": "every harvest amount, threshold and history of bookings and refunds", "why_tests_cant": "Whether the threshold is hit exactly depends on the whole history of fractional bookings.", "anchors": ["model/thz-energy-model.cc: THzEnergyModel::HarvestEnergy", "model/thz-mac-nano.cc: THzMacNano::InitEnergyCallback"]}
{"id": "C11", "title": "Nano MAC queue is bounded", "statement": "The nano MAC never holds more than QueueLimit packets.", "quantifier": "every history of enqueues, frame receptions, timer expiries and energy callbacks, every parameter setting", "why_tests_cant": "Invariant of an open reactive system over unbounded histories.", "anchors": ["model/thz-mac-nano.cc: THzMacNano::Enqueue", "model/thz-mac-nano.cc: THzMacNano::SendDataDone"]}
{"id": "C12", "title": "Enqueue's answer is truthful", "statement": "Enqueue answers true exactly when the packet was accepted for transmission (it is queued, numbered and will be reported as success or discard or is still pending) and false exactly when it was rejected because the queue is full, in which case nothing changed.", "quantifier": "every reachable state, packet size and destination", "why_tests_cant": "Depends on every reachable queue state and every packet size; one magic size behaves differently.", "anchors": ["model/thz-mac-nano.cc: THzMacNano::Enqueue"]}
{"id": "C13", "title": "Every accepted packet has one outcome", "statement": "In the nano MAC every accepted packet is at any time either still queued or has been reported exactly once, as success or as discard, and the numbers of accepted, successful, discarded and queued packets always balance.", "quantifier": "every history with at most 65535 accepted packets, every schedule of timers and frames", "why_tests_cant": "Stale timers, duplicate acknowledgements and resends can interleave in unboundedly many ways.", "anchors": ["model/thz-mac-nano.cc: THzMacNano::Enqueue", "model/thz-mac-nano.cc: THzMacNano::SendDataDone", "model/thz-mac-nano.cc: THzMacNano::AckTimeout", "model/thz-mac-nano.cc: THzMacNano::CtsTimeout", "model/thz-mac-nano.cc: THzMacNano::ReceiveAck"]}
{"id": "C14", "title": "Retry limit bounds the transmissions of a packet", "statement": "A unicast data packet is put on the air by the nano MAC at most DataRetryLimit times.", "quantifier": "every history and parameter setting", "why_tests_cant": "Every event that can trigger a resend, in any order, has to be considered.", "anchors": ["model/thz-mac-nano.cc: THzMacNano::TxFirstPacket", "model/thz-mac-nano.cc: THzMacNano::AckTimeout", "model/thz-mac-nano.cc: THzMacNano::Backoff", "model/thz-mac-nano.cc: THzMacNano::SendDataDone"]}
{"id": "C15", "title": "Success is reported only on acknowledgement", "statement": "The nano MAC reports a packet as successfully sent only while processing an intact ACK frame addressed to this node with the packet's sequence number, and only after the packet's DATA frame was handed to the PHY.", "quantifier": "every history; the link to the packet's own DATA frame up to 65535 accepted packets (then the 16-bit numbers repeat)", "why_tests_cant": "Safety over all histories with adversarial frame arrivals.", "anchors": ["model/thz-mac-nano.cc: THzMacNano::ReceiveAck", "model/thz-mac-nano.cc: THzMacNano::SendDataDone"]}
{"id": "C16", "title": "Discard is reported only after the retry limit", "statement": "The nano MAC reports a packet as discarded only after at least DataRetryLimit CTS/ACK timeouts expired for that very packet (at least one if the limit is zero).", "quantifier": "every parameter setting and every history with at most 65535 accepted packets (then the 16-bit numbers repeat)", "why_tests_cant": "Counting argument over all interleavings of timers of several packets.", "anchors": ["model/thz-mac-nano.cc: THzMacNano::AckTimeout", "model/thz-mac-nano.cc: THzMacNano::CtsTimeout"]}
{"id": "C17", "title": "Per-destination order of transmission", "statement": "The nano MAC does not put a unicast packet on the air (as RTS or DATA) while an earlier accepted packet for the same destination has no outcome yet.", "quantifier": "every history with at most 65535 accepted packets in which no CTS arrives that answers no RTS", "why_tests_cant": "Order has to survive every interleaving of retries, stale timers, stale back-offs and completions.", "anchors": ["model/thz-mac-nano.cc: THzMacNano::Enqueue", "model/thz-mac-nano.cc: THzMacNano::SendDataDone", "model/thz-mac-nano.cc: THzMacNano::Backoff", "model/thz-mac-nano.cc: THzMacNano::ReceiveCts"]}
{"id": "C18", "title": "Only intact frames for this node (or broadcast) reach the upper layer", "statement": "A packet is passed up by the nano MAC only when a DATA frame was received without error, addressed to this node or to broadcast, and what is passed up is that frame's payload with its source and destination.", "quantifier": "every reachable state and received frame", "why_tests_cant": "Quantifies over all states and all frames including corrupted and foreign ones.", "anchors": ["model/thz-mac-nano.cc: THzMacNano::ReceivePacketDone", "model/thz-mac-nano.cc: THzMacNano::ReceiveData"]}
{"id": "C19", "title": "Every unicast data frame that is passed up is acknowledged, duplicates too", "statement": "When the nano MAC passes up a unicast data frame, it has sent an ACK to its source with its sequence number in the same step; a retransmitted copy is acknowledged again (if energy allows) although it is not passed up again.", "quantifier": "every reachable state and received frame", "why_tests_cant": "Holds for every state of the filter, timers and energy store.", "anchors": ["model/thz-mac-nano.cc: THzMacNano::ReceiveData", "model/thz-mac-nano.cc: THzMacNano::SendAck"]}
{"id": "C20", "title": "A CTS is sent only as an answer to an RTS, with energy booked", "statement": "The nano MAC sends a CTS only when it processes an intact RTS addressed to it and the energy for it could be booked; the CTS carries the RTS's sequence number back to its source.", "quantifier": "every reachable state and received frame", "why_tests_cant": "Quantifies over all states, energies and frames.", "anchors": ["model/thz-mac-nano.cc: THzMacNano::ReceiveRts", "model/thz-mac-nano.cc: THzMacNano::SendCts"]}
{"id": "C21", "title": "Broadcast packets leave the queue once sent", "statement": "After a broadcast packet has been put on the air by the nano MAC it is completed and does not block later packets.", "quantifier": "every history", "why_tests_cant": "Claims something about all continuations of a run.", "anchors": ["model/thz-mac-nano.cc: THzMacNano::SendData", "model/thz-mac-nano.cc: THzMacNano::TxFirstPacket", "model/thz-mac-nano.cc: THzMacNano::SendPacketDone"]}
{"id": "C22", "title": "The nano MAC does not stall", "statement": "When the nano MAC has a queued packet and enough energy, something is pending that will eventually transmit or complete it; a quiescent node (no pending timers) with ample energy has an empty queue.", "quantifier": "every history, every reachable quiescent state", "why_tests_cant": "Progress claims quantify over all reachable states.", "anchors": ["model/thz-mac-nano.cc: THzMacNano::Enqueue", "model/thz-mac-nano.cc: THzMacNano::TxFirstPacket", "model/thz-mac-nano.cc: THzMacNano::SendDataDone"]}
{"id": "C23", "title": "End-to-end: reported success means delivered exactly once", "statement": "In a network of nano nodes whose medium may lose, delay, duplicate and reorder frames but not forge them, if node A reports success for a unicast packet to B then B has passed that packet up exactly once.", "quantifier": "every number of nodes, every schedule and every loss/duplication/reordering pattern, up to 65535 packets accepted per node", "why_tests_cant": "Involves the product of all node states and all in-flight frames.", "anchors": ["model/thz-mac-nano.cc: THzMacNano::ReceiveData", "model/thz-mac-nano.cc: THzMacNano::ReceiveAck", "model/thz-mac-nano.cc: THzMacNano::IsNewSequence", "model/thz-mac-nano.cc: THzMacNano::Enqueue"]}
{"id": "C24", "title": "End-to-end: deliveries are an in-order duplicate-free subsequence of what was accepted", "statement": "In the same network, the packets B passes up from A are, in order, a subsequence of the packets A accepted for B (or for broadcast), without duplicates and without invented packets.", "quantifier": "every number of nodes, schedule and loss/duplication/reordering pattern, up to 65535 packets accepted per node", "why_tests_cant": "Same as above.", "anchors": ["model/thz-mac-nano.cc: THzMacNano::ReceiveData", "model/thz-mac-nano.cc: THzMacNano::IsNewSequence", "model/thz-mac-nano.cc: THzMacNano::Enqueue"]}
{"id": "C25", "title": "Refunds never exceed bookings in the nano MAC", "statement": "The energy a nano node gets back for frames that were not used is never more than the energy it booked for them, so timeouts cannot create energy.", "quantifier": "every history and parameter setting", "why_tests_cant": "Pairs every refund with a booking along arbitrary histories.", "anchors": ["model/thz-mac-nano.cc: THzMacNano::CheckResources", "model/thz-mac-nano.cc: THzMacNano::CtsTimeout", "model/thz-mac-nano.cc: THzMacNano::AckTimeout", "model/thz-mac-nano.cc: THzMacNano::DataTimeout"]}
{"id": "C26", "title": "Rounding of times to slots", "statement": "Rounding a time to the slot grid gives a multiple of the slot, never further than half a slot away (rounding half up), leaves multiples unchanged and preserves order; the operation never divides by zero.", "quantifier": "every time and every slot duration", "why_tests_cant": "Quantifies over all times and slot attribute values.", "anchors": ["model/thz-mac-macro.cc: THzMacMacro::RoundOffTime"]}
{"id": "C27", "title": "Network allocation vector never moves backwards", "statement": "Overhearing a frame never shortens the time until which the macro MAC considers the medium reserved, and after overhearing a reservation of d the medium is considered reserved until at least now + d minus half a slot.", "quantifier": "every history of overheard reservations", "why_tests_cant": "Monotonicity along all histories.", "anchors": ["model/thz-mac-macro.cc: THzMacMacro::UpdateNav", "model/thz-mac-macro.cc: THzMacMacro::CcaForDifs"]}
{"id": "C28", "title": "Residual back-off shrinks and is bounded", "statement": "Each time the medium becomes busy during a back-off the remaining back-off does not grow, and a fresh back-off is between one and 2^retry slots.", "quantifier": "every history of busy interruptions and every random draw", "why_tests_cant": "Histories of arbitrary length and all random draws.", "anchors": ["model/thz-mac-macro.cc: THzMacMacro::BackoffStart", "model/thz-mac-macro.cc: THzMacMacro::ChannelBecomesBusy", "model/thz-mac-macro.cc: THzMacMacro::Backoff"]}
{"id": "C29", "title": "The macro MAC honours the configured retry limit", "statement": "A packet is discarded by the macro MAC after exactly DataRetryLimit (RtsRetryLimit for RTS) failed attempts, whatever value the user configures.", "quantifier": "every configured limit and every history of timeouts", "why_tests_cant": "All configurations and histories.", "anchors": ["model/thz-mac-macro.cc: THzMacMacro::CtsTimeout", "model/thz-mac-macro.cc: THzMacMacro::AckTimeout"]}
{"id": "C30", "title": "Macro Enqueue's answer and the queue limit", "statement": "The macro MAC's Enqueue answers true exactly when the packet was accepted and never holds more than QueueLimit packets.", "quantifier": "every reachable state and packet size", "why_tests_cant": "All states and sizes.", "anchors": ["model/thz-mac-macro.cc: THzMacMacro::Enqueue", "model/thz-mac-macro-client.cc: THzMacMacroClient::Enqueue"]}
{"id": "C31", "title": "Completion bookkeeping of the macro MAC is well defined", "statement": "Reporting the outcome of a packet removes that packet's record and no other, touches no invalid iterator, and writes exactly one result row per packet.", "quantifier": "every list of records and every completed sequence number", "why_tests_cant": "Iterator validity depends on the position of the record in a list of arbitrary length.", "anchors": ["model/thz-mac-macro.cc: THzMacMacro::SendDataDone", "model/thz-mac-macro.cc: THzMacMacro::ResultsRecord", "model/thz-mac-macro-client.cc: THzMacMacroClient::SendDataDone"]}
{"id": "C32", "title": "A macro MAC never starts a transmission while transmitting", "statement": "Between handing a frame to the PHY and the end of that transmission the macro MAC hands no other frame to the PHY.", "quantifier": "every history of receptions, timers and transmissions", "why_tests_cant": "All interleavings of reception completions with an ongoing transmission.", "anchors": ["model/thz-mac-macro.cc: THzMacMacro::SendPacket", "model/thz-mac-macro.cc: THzMacMacro::SendPacketDone", "model/thz-mac-macro.cc: THzMacMacro::ReceivePacketDone"]}
{"id": "C33", "title": "A macro CTS releases the packet it was requested for", "statement": "When a CTS for a sequence number arrives at the macro MAC, the DATA frame that is scheduled carries exactly that sequence number; no DATA frame is scheduled for a CTS that was not awaited.", "quantifier": "every list of pending records and every CTS", "why_tests_cant": "The record list is of arbitrary length and content.", "anchors": ["model/thz-mac-macro.cc: THzMacMacro::ReceiveCts"]}
{"id": "C34", "title": "Every RTS gets one CTS at its own time", "statement": "When the access point closes an RTS collection window, each collected RTS is answered by exactly one CTS, carrying the RTS's source and sequence number, the CTSs are sent in arrival order at distinct times that leave room for the previous CTS.", "quantifier": "every list of collected RTSs", "why_tests_cant": "Lists of arbitrary length, arbitrary duplicates.", "anchors": ["model/thz-mac-macro-ap.cc: THzMacMacroAp::WaitTimeExpired", "model/thz-mac-macro-ap.cc: THzMacMacroAp::SendCts"]}
{"id": "C35", "title": "Granted data slots do not overlap", "statement": "The data slots that the access point announces in the CTSs of one window are pairwise disjoint as seen by the clients: a client that starts its data in its slot finishes it before the next client's slot starts.", "quantifier": "every list of collected RTSs, every packet size, rate and MCS choice", "why_tests_cant": "Depends on accumulated durations over arbitrary lists and on the 16-bit field that carries them.", "anchors": ["model/thz-mac-macro-ap.cc: THzMacMacroAp::WaitTimeExpired", "model/thz-mac-header.cc: THzMacHeader::SetDuration", "model/thz-mac-macro-client.cc: THzMacMacroClient::ReceiveCts"]}
{"id": "C36", "title": "The data window covers all granted slots", "statement": "The access point keeps listening until after the end of the last granted slot before it turns to the next sector.", "quantifier": "every list of collected RTSs, packet size, rate and MCS choice", "why_tests_cant": "Arithmetic over arbitrary list lengths and parameter values.", "anchors": ["model/thz-mac-macro-ap.cc: THzMacMacroAp::WaitTimeExpired", "model/thz-mac-macro-ap.cc: THzMacMacroAp::SectorTimeout"]}
{"id": "C37", "title": "MCS selection is monotone in power", "statement": "The modulation chosen for a stronger signal is never lower than for a weaker one, the choice is always one of the five modulations or none, and each modulation is chosen only above its threshold, for every ordering of thresholds the user may configure as increasing.", "quantifier": "every pair of received powers and every increasing threshold vector", "why_tests_cant": "Real-valued powers and thresholds.", "anchors": ["model/thz-mac-macro-ap.cc: THzMacMacroAp::SelectMCS"]}
{"id": "C38", "title": "Every sounded node is assigned its strongest sector, once", "statement": "After the beam-sounding phase every node heard in some sector is white-listed in exactly one sector, namely the one in which it was received strongest, and no node that was not heard is white-listed.", "quantifier": "every sounding record (any number of sectors, nodes and powers)", "why_tests_cant": "Arbitrary maps with ties and arbitrary powers.", "anchors": ["model/thz-mac-macro-ap.cc: THzMacMacroAp::InitNodeMap", "model/thz-mac-macro-ap.cc: THzMacMacroAp::WaitTimeExpired"]}
{"id": "C39", "title": "The access point sweeps every sector in every turn", "statement": "The sector angle always stays in the range (-360, 360], advances by one beam width per turn modulo 360, and every sector direction is visited again within one sweep; sounding cycles are counted once per full turn.", "quantifier": "every beam width and any number of turns", "why_tests_cant": "Unbounded iteration over real angles.", "anchors": ["model/thz-mac-macro-ap.cc: THzMacMacroAp::TurnRxAntenna", "model/thz-mac-macro.cc: THzMacMacro::SetRxAntennaParameters"]}
{"id": "C40", "title": "One ACK per received data frame, then the access point moves on", "statement": "After the data window the access point sends exactly one ACK for each data frame received in it, in arrival order, never reads an empty ACK list, and turns to the next sector after the last one.", "quantifier": "every sequence of data frames and transmission completions", "why_tests_cant": "The drain loop runs over event callbacks with arbitrary PHY answers.", "anchors": ["model/thz-mac-macro-ap.cc: THzMacMacroAp::ReceiveData", "model/thz-mac-macro-ap.cc: THzMacMacroAp::SendAck", "model/thz-mac-macro-ap.cc: THzMacMacroAp::SendPacketDone", "model/thz-mac-macro-ap.cc: THzMacMacroAp::SectorTimeout"]}
{"id": "C41", "title": "The client only transmits when granted and never for a stranger's grant", "statement": "A macro client schedules an RTS only on a CTA and a DATA frame only on a CTS addressed to itself for a packet it still holds (or on a CTA in the one-way protocol), and in the sector it was assigned.", "quantifier": "every reachable state and received frame", "why_tests_cant": "All states and frames.", "anchors": ["model/thz-mac-macro-client.cc: THzMacMacroClient::ReceiveCta3", "model/thz-mac-macro-client.cc: THzMacMacroClient::ReceiveCts", "model/thz-mac-macro-client.cc: THzMacMacroClient::ReceiveCta1"]}
{"id": "C42", "title": "A client with queued data always has a record to serve", "statement": "Whenever a macro client has packets queued, the record list it dereferences when a CTA arrives is non-empty and its first record belongs to a packet that is still queued.", "quantifier": "every history of enqueues, CTAs, CTSs, ACKs and timers", "why_tests_cant": "Invariant over unbounded histories; failure is an invalid memory access.", "anchors": ["model/thz-mac-macro-client.cc: THzMacMacroClient::ReceiveCta3", "model/thz-mac-macro-client.cc: THzMacMacroClient::SendDataDone", "model/thz-mac-macro-client.cc: THzMacMacroClient::CtsTimeout"]}
{"id": "C43", "title": "A discarded packet is never requested again", "statement": "After the client decided to discard a packet it sends no further RTS or DATA for it.", "quantifier": "every history", "why_tests_cant": "Depends on the order of effects inside one event and on later events.", "anchors": ["model/thz-mac-macro-client.cc: THzMacMacroClient::ReceiveCta3", "model/thz-mac-macro-client.cc: THzMacMacroClient::CtsTimeout"]}
{"id": "C44", "title": "Client back-off always ends", "statement": "When a client is in back-off, each CTA brings it closer to its end, so that after at most 2^retry CTAs it contends again.", "quantifier": "every history", "why_tests_cant": "Progress over all histories.", "anchors": ["model/thz-mac-macro-client.cc: THzMacMacroClient::DecreaseBackoff", "model/thz-mac-macro-client.cc: THzMacMacroClient::CtsTimeout", "model/thz-mac-macro-client.cc: THzMacMacroClient::AckTimeout"]}
{"id": "C45", "title": "Half duplex at the macro PHY", "statement": "The macro PHY never reports a frame as successfully received if the node transmitted during its reception, and never starts a second transmission while one is ongoing.", "quantifier": "every history of transmissions and arrivals", "why_tests_cant": "All timings of arrivals against transmissions.", "anchors": ["model/thz-phy-macro.cc: THzPhyMacro::SendPacket", "model/thz-phy-macro.cc: THzPhyMacro::ReceivePacket", "model/thz-phy-macro.cc: THzPhyMacro::ReceivePacketDone"]}
{"id": "C46", "title": "At most one reception result per arriving frame at the macro PHY", "statement": "For every frame that arrives at the macro PHY the MAC receives at most one completion notice, and a success notice only for the frame the PHY locked on to and announced to the MAC.", "quantifier": "every history", "why_tests_cant": "All overlaps of arrivals.", "anchors": ["model/thz-phy-macro.cc: THzPhyMacro::ReceivePacket", "model/thz-phy-macro.cc: THzPhyMacro::ReceivePacketDone"]}
{"id": "C47", "title": "Carrier sense is released", "statement": "Whenever the macro PHY regards the medium as busy, some arriving frame is still on the air whose end will release it; after the last frame ends the medium is idle again.", "quantifier": "every history in which each arrival is followed by its end", "why_tests_cant": "All overlap patterns of arbitrarily many frames.", "anchors": ["model/thz-phy-macro.cc: THzPhyMacro::ReceivePacket", "model/thz-phy-macro.cc: THzPhyMacro::ReceivePacketDone"]}
{"id": "C48", "title": "Interference bookkeeping at the macro PHY", "statement": "A frame is reported as successfully received exactly when its power over the noise floor plus the power of all other frames that overlap it in time exceeds the SINR threshold; frames that ended before it started do not count and their records are discarded.", "quantifier": "every history of arrivals with arbitrary powers and durations", "why_tests_cant": "All overlap patterns.", "anchors": ["model/thz-phy-macro.cc: THzPhyMacro::ReceivePacketDone", "model/thz-channel.cc: THzChannel::GetNoiseW"]}
{"id": "C49", "title": "Sorting of pulse times", "statement": "The pulse-time array is sorted into non-decreasing order and is a permutation of its input.", "quantifier": "every array of every length", "why_tests_cant": "All arrays.", "anchors": ["model/thz-phy-nano.cc: THzPhyNano::SortArray"]}
{"id": "C50", "title": "Pulse interleaving never collides with ongoing pulse trains", "statement": "When the nano PHY accepts a packet for transmission, the pulse train it starts does not overlap, now or in any later symbol, with any pulse train that is currently being transmitted or received; it starts within one symbol.", "quantifier": "every set of ongoing transmissions and receptions, every current time", "why_tests_cant": "Every set of phases of arbitrarily many trains and every symbol of the infinite trains.", "anchors": ["model/thz-phy-nano.cc: THzPhyNano::SendPacket"]}
{"id": "C51", "title": "Pulse interleaving finds a gap or refuses, reading only initialised slots", "statement": "If the nano PHY refuses to transmit then no gap of two pulse widths exists in the current symbol; the search never reads outside its array.", "quantifier": "every set of ongoing transmissions and receptions", "why_tests_cant": "Array bounds for every size.", "anchors": ["model/thz-phy-nano.cc: THzPhyNano::SendPacket"]}
{"id": "C52", "title": "Nano reception is dropped exactly when it meets an own pulse", "statement": "An arriving frame is ignored because of half duplex exactly when its pulses overlap pulses of an own transmission.", "quantifier": "every current time and set of own transmissions, including ones that are scheduled but have not started", "why_tests_cant": "All phases.", "anchors": ["model/thz-phy-nano.cc: THzPhyNano::ReceivePacket"]}
{"id": "C53", "title": "Nano reception outcome", "statement": "Every frame that the nano PHY starts to receive is reported to the MAC exactly once, as collided if at any moment its signal to noise-plus-interference ratio fell below the threshold; the outcome depends only on the signals on the air.", "quantifier": "every history of arrivals and ends", "why_tests_cant": "All overlap patterns; depends on memory that must be initialised.", "anchors": ["model/thz-phy-nano.cc: THzPhyNano::ReceivePacket", "model/thz-phy-nano.cc: THzPhyNano::ReceivePacketDone"]}
{"id": "C54", "title": "The channel delivers to every other device exactly once", "statement": "Each transmission is delivered exactly once to the PHY of every other attached device, never to the sender's own, after the propagation delay for their distance, and its end is signalled exactly the transmission duration later, in that order.", "quantifier": "every number of devices and every history of transmissions", "why_tests_cant": "All device sets and interleavings of many transmissions.", "anchors": ["model/thz-channel.cc: THzChannel::SendPacket", "model/thz-channel.cc: THzChannel::ReceivePacket", "model/thz-channel.cc: THzChannel::ReceivePacketDone"]}
{"id": "C55", "title": "Noise entries are removed when the frame ends", "statement": "At every time the channel's list of active signals contains exactly the receptions that have begun and not ended.", "quantifier": "every history", "why_tests_cant": "Invariant over histories.", "anchors": ["model/thz-channel.cc: THzChannel::ReceivePacket", "model/thz-channel.cc: THzChannel::ReceivePacketDone", "model/thz-channel.cc: THzChannel::DeleteNoiseEntry"]}
{"id": "C56", "title": "Receive gain peaks at boresight and loses 3 dB at half the beam width", "statement": "The receive gain is maximal (the configured maximum gain) in the pointing direction, decreases as the angle from it grows, and is exactly 3 dB lower at half the beam width on either side.", "quantifier": "every beam width in (0,180] degrees, every angle and every maximum gain", "why_tests_cant": "Real-valued functions.", "anchors": ["model/thz-dir-antenna.cc: THzDirectionalAntenna::SetBeamwidth", "model/thz-dir-antenna.cc: THzDirectionalAntenna::GetRxGainDb", "model/thz-dir-antenna.cc: THzDirectionalAntenna::GetAntennaGain"]}
{"id": "C57", "title": "Orientation normalisation keeps the direction", "statement": "Tuning the antenna to any angle leaves it pointing in the same direction (same angle modulo a full turn) with a stored angle in (-360, 360], and the normalisation loop ends.", "quantifier": "every real angle", "why_tests_cant": "Termination and congruence for all reals.", "anchors": ["model/thz-dir-antenna.cc: THzDirectionalAntenna::TuneRxOrientation", "model/thz-dir-antenna.cc: THzDirectionalAntenna::GetRxOrientation"]}
{"id": "C58", "title": "An omnidirectional pair has the configured omnidirectional gain", "statement": "For two omnidirectional transceivers (mode 2) the total gain is the sum of the configured gains in every direction.", "quantifier": "every pair of modes, positions and gains", "why_tests_cant": "All modes and positions.", "anchors": ["model/thz-dir-antenna.cc: THzDirectionalAntenna::GetAntennaGain", "model/thz-channel.cc: THzChannel::SendPacket"]}
{"id": "C59", "title": "The transmit spectrum carries exactly the transmit power", "statement": "Integrating the power spectral density the module creates over its sub-bands gives back the requested transmit power, for both the flat and the pulse-shaped spectrum.", "quantifier": "every transmit power, bandwidth, number of samples and pulse order", "why_tests_cant": "Real-valued parameters.", "anchors": ["model/thz-spectrum-waveform.cc: THzSpectrumValueFactory::CreateTxPowerSpectralDensity", "model/thz-spectrum-waveform.cc: THzSpectrumValueFactory::CreatePulsePowerSpectralDensity", "model/thz-spectrum-propagation-loss.cc: THzSpectrumPropagationLoss::CalcRxPowerDA"]}
{"id": "C60", "title": "Received power falls with distance", "statement": "For fixed transmitter, spectrum and gain the received power strictly decreases with distance.", "quantifier": "every pair of positive distances and every spectrum", "why_tests_cant": "Real-valued.", "anchors": ["model/thz-spectrum-propagation-loss.cc: THzSpectrumPropagationLoss::CalcRxPowerDA", "model/thz-spectrum-propagation-loss.cc: THzSpectrumPropagationLoss::CalculateSpreadLoss", "model/thz-spectrum-propagation-loss.cc: THzSpectrumPropagationLoss::CalculateAbsLoss"]}
{"id": "C61", "title": "The absorption cache is transparent", "statement": "The absorption loss returned for a frequency and distance does not depend on which frequencies and distances were asked before.", "quantifier": "every history of queries and every table", "why_tests_cant": "All histories of a memoised function.", "anchors": ["model/thz-spectrum-propagation-loss.cc: THzSpectrumPropagationLoss::CalculateAbsLoss"]}
{"id": "C62", "title": "Send reports whether the device accepted the packet, unchanged", "statement": "Send on the net device answers true exactly when the MAC accepted the packet, and the packet handed to the MAC is the one that was given (with its link header).", "quantifier": "every packet and MAC state", "why_tests_cant": "All sizes and MAC states.", "anchors": ["model/thz-net-device.cc: THzNetDevice::Send", "model/thz-net-device.cc: THzNetDevice::SendFrom"]}
{"id": "C63", "title": "Receive dispatch of the net device", "statement": "A packet handed up by the MAC is delivered to the node exactly once if its destination is broadcast, group or this device and never otherwise, with the link header removed and the protocol number that the sender gave.", "quantifier": "every packet, source, destination and protocol number", "why_tests_cant": "All inputs.", "anchors": ["model/thz-net-device.cc: THzNetDevice::ForwardUp", "model/thz-net-device.cc: THzNetDevice::Send"]}
{"id": "C64", "title": "UDP client numbers its packets consecutively", "statement": "The packets of the UDP client carry sequence numbers 0, 1, 2, ... and have the configured size.", "quantifier": "every number of packets and every outcome of the socket", "why_tests_cant": "All histories.", "anchors": ["model/thz-udp-client.cc: THzUdpClient::Send"]}
{"id": "C65", "title": "Trace client sends every byte of the trace", "statement": "For every trace entry the trace client sends packets whose sizes add up to the entry's size and none larger than the maximum size; it then waits for the entry's time.", "quantifier": "every trace and maximum packet size", "why_tests_cant": "All traces and sizes.", "anchors": ["model/thz-udp-trace-client.cc: THzUdpTraceClient::Send", "model/thz-udp-trace-client.cc: THzUdpTraceClient::SendPacket"]}
{"id": "C66", "title": "Trace client never hangs or reads outside the trace", "statement": "Sending a trace neither loops without advancing time nor indexes outside the trace, for every trace the user may load (including after setting the remote address).", "quantifier": "every trace", "why_tests_cant": "Termination for all traces.", "anchors": ["model/thz-udp-trace-client.cc: THzUdpTraceClient::Send", "model/thz-udp-trace-client.cc: THzUdpTraceClient::SetRemote", "model/thz-udp-trace-client.cc: THzUdpTraceClient::LoadTrace"]}
{"id": "C67", "title": "Traffic generator never sends to its own node", "statement": "The traffic generator always picks a destination other than the node it is installed on, among the configured nodes.", "quantifier": "every sequence of random draws and node set", "why_tests_cant": "All random draws.", "anchors": ["model/traffic-generator.cc: TrafficGenerator::Generate"]}
{"id": "C68", "title": "Device wiring is independent of the setup order", "statement": "However the MAC, PHY and channel are attached to a net device, in the end the MAC knows its PHY and device, the PHY knows its MAC, device and channel, and the channel has the device attached exactly once.", "quantifier": "every order of the three setup calls", "why_tests_cant": "All orders and repetitions of the setter calls.", "anchors": ["model/thz-net-device.cc: THzNetDevice::SetMac", "model/thz-net-device.cc: THzNetDevice::SetPhy", "model/thz-net-device.cc: THzNetDevice::SetChannel", "helper/thz-helper.cc: THzHelper::Install"]}
{"id": "C69", "title": "One outcome per packet in the macro MAC", "statement": "Every packet the macro MAC accepts gets at most one outcome (delivered or discarded), outcomes are reported for accepted packets only, and an accepted packet without outcome is still held by the MAC, queued for transmission unless its retries are exhausted.", "quantifier": "every history of packets, receptions, timers and time", "why_tests_cant": "Tests see single histories; a duplicate or lost outcome depends on interleavings of timeouts, acknowledgements and new packets.", "anchors": ["model/thz-mac-macro.cc:451-489", "model/thz-mac-macro.cc:842-920", "model/thz-mac-macro.cc:980-1074"]}
{"id": "C70", "title": "Macro success is backed by an acknowledgement", "statement": "A packet reported as delivered by the macro MAC was either a broadcast that was transmitted, or an acknowledgement with its sequence number, addressed to this node, was received after its DATA frame had been transmitted.", "quantifier": "every history with at most 65536 accepted packets", "why_tests_cant": "Requires that no interleaving of stale acknowledgements and timeouts leads to a false success.", "anchors": ["model/thz-mac-macro.cc:758-784", "model/thz-mac-macro.cc:807-840", "model/thz-mac-macro.cc:842-920"]}
{"id": "C71", "title": "The macro MAC does not stall with packets queued", "statement": "Whenever the macro MAC holds a queued packet, some simulator event is pending that will lead to a transmission attempt or an outcome.", "quantifier": "every history", "why_tests_cant": "A stall shows only in particular interleavings of arrivals and outcomes.", "anchors": ["model/thz-mac-macro.cc:312-362", "model/thz-mac-macro.cc:842-920"]}
{"id": "C72", "title": "Reservations are announced on the air", "statement": "An RTS or unicast DATA frame sent by the macro MAC announces the remaining duration of the exchange, so that a node overhearing it considers the medium reserved until the acknowledgement.", "quantifier": "every exchange and every overhearing node", "why_tests_cant": "The announced value comes from a header field whose content is not determined by the program; a test sees one value.", "anchors": ["model/thz-mac-macro.cc:462-466", "model/thz-mac-macro.cc:526-534", "model/thz-mac-macro.cc:652-675", "model/thz-mac-header.cc:211-250"]}
{"id": "C73", "title": "A stronger client gets at least the data rate of a weaker one", "statement": "With adaptive modulation the data duration that the access point reserves for a client is not longer than that of a client whose RTS was received with less power.", "quantifier": "every pair of received powers and every threshold vector", "why_tests_cant": "Real-valued powers; the exception lies below the lowest threshold, which sample values rarely meet.", "anchors": ["model/thz-mac-macro-ap.cc:418-441", "model/thz-mac-macro-ap.cc:479-503", "model/thz-phy-macro.cc:205-222"]}
{"id": "C74", "title": "The access point keeps sweeping, one sector at a time", "statement": "After the start exactly one pending simulator event drives the sweep, so that the access point always turns on to a next sector and never serves two sectors at once.", "quantifier": "every history of receptions and timers", "why_tests_cant": "The sweep is carried by chains of events through windows, CTSs, data and ACKs; a lost or doubled chain shows only in particular interleavings.", "anchors": ["model/thz-mac-macro-ap.cc:256-282", "model/thz-mac-macro-ap.cc:349-477", "model/thz-mac-macro-ap.cc:511-643"]}
{"id": "C75", "title": "The client settles every packet at most once", "statement": "Each packet a macro client accepted is reported at most once as delivered or discarded, and only packets it accepted are reported.", "quantifier": "every history of a client that accepted at most 65536 packets", "why_tests_cant": "Uniqueness over unbounded histories with interleaved timers.", "anchors": ["model/thz-mac-macro-client.cc: THzMacMacroClient::SendDataDone", "model/thz-mac-macro-client.cc: THzMacMacroClient::ReceiveAck"]}
{"id": "C76", "title": "The client reports success only after an ACK", "statement": "A macro client reports a packet as delivered only if it transmitted a DATA frame with its sequence number and then received an ACK addressed to itself with that number.", "quantifier": "every history", "why_tests_cant": "Quantifies over all interleavings of ACKs, timers and retransmissions.", "anchors": ["model/thz-mac-macro-client.cc: THzMacMacroClient::ReceiveAck", "model/thz-mac-macro-client.cc: THzMacMacroClient::SendDataDone"]}
{"id": "C77", "title": "The client does not wait for an ACK for ever", "statement": "Whenever a macro client is waiting for an ACK, an ACK timeout is pending, and when it runs the client is idle again.", "quantifier": "every history", "why_tests_cant": "Invariant over unbounded histories.", "anchors": ["model/thz-mac-macro-client.cc: THzMacMacroClient::SendData", "model/thz-mac-macro-client.cc: THzMacMacroClient::SendPacketDone", "model/thz-mac-macro-client.cc: THzMacMacroClient::AckTimeout"]}
{"id": "C78", "title": "Retries are charged only for frames on the air", "statement": "A macro client charges a retry to a packet only after a frame for this packet was actually transmitted since its previous charge.", "quantifier": "every history", "why_tests_cant": "Depends on which of several internal checks suppresses a scheduled frame.", "anchors": ["model/thz-mac-macro-client.cc: THzMacMacroClient::SendPacket", "model/thz-mac-macro-client.cc: THzMacMacroClient::CtsTimeout"]}
{"id": "C79", "title": "Enqueue says whether the client took the packet", "statement": "The client's Enqueue answers true exactly if it accepted the packet for transmission.", "quantifier": "every packet and state", "why_tests_cant": "For all packets and states.", "anchors": ["model/thz-mac-macro-client.cc: THzMacMacroClient::Enqueue"]}
{"id": "C80", "title": "A broadcast packet does not block the client", "statement": "A packet addressed to the broadcast address does not keep the client from sending the packets behind it.", "quantifier": "every history", "why_tests_cant": "Liveness: no finite test shows that nothing is ever sent again.", "anchors": ["model/thz-mac-macro-client.cc: THzMacMacroClient::SendData", "model/thz-mac-macro-client.cc: THzMacMacroClient::ReceiveCta1"]}
{"id": "C81", "title": "The client discards only after the retry limit", "statement": "A macro client discards a packet only after as many charged timeouts for it as the smaller configured retry limit requires.", "quantifier": "every history", "why_tests_cant": "Counting over unbounded histories.", "anchors": ["model/thz-mac-macro-client.cc: THzMacMacroClient::CtsTimeout", "model/thz-mac-macro-client.cc: THzMacMacroClient::AckTimeout"]}
{"id": "C82", "title": "No timer of the client is set in the past", "statement": "Every event a macro client schedules lies at or after the current time.", "quantifier": "every history in time order, nonnegative configured times", "why_tests_cant": "Depends on the interleaving of CTAs, CTSs and the granted transmission.", "anchors": ["model/thz-mac-macro-client.cc: THzMacMacroClient::SendData", "model/thz-mac-macro-client.cc: THzMacMacroClient::ReceiveCta3"]}
{"id": "C83", "title": "The macro PHY senses every audible signal", "statement": "While a signal above the carrier sense threshold is on the air at a macro PHY, the PHY reports the medium as not idle.", "quantifier": "every history of transmissions and arrivals", "why_tests_cant": "Depends on how arrivals interleave with own transmissions and with the ends of other signals.", "anchors": ["model/thz-phy-macro.cc: THzPhyMacro::ReceivePacket", "model/thz-phy-macro.cc: THzPhyMacro::ReceivePacketDone", "model/thz-phy-macro.cc: THzPhyMacro::IsIdle"]}
{"id": "C84", "title": "A frame announced to the MAC is concluded", "statement": "Every frame whose reception the macro PHY announces to the MAC gets a completion notice when it ends.", "quantifier": "every history in which each arrival is followed by its end", "why_tests_cant": "Universally quantified over interleavings of arrivals, ends and own transmissions, including ends at nanosecond distance.", "anchors": ["model/thz-phy-macro.cc: THzPhyMacro::ReceivePacket", "model/thz-phy-macro.cc: THzPhyMacro::ReceivePacketDone"]}
{"id": "C85", "title": "The SINR threshold is in dB", "statement": "A frame that arrives alone is decoded exactly if its power exceeds the noise floor by the configured SINR threshold, taken in dB as documented, at the nano PHY and at the macro PHY.", "quantifier": "every received power, noise floor and threshold", "why_tests_cant": "Real-valued parameters; the two PHYs agree at the default threshold, so a test with default values cannot tell dB from a ratio.", "anchors": ["model/thz-phy-nano.cc: THzPhyNano::ReceivePacket", "model/thz-phy-macro.cc: THzPhyMacro::ReceivePacketDone", "model/thz-channel.cc: THzChannel::GetNoiseW"]}
{"id": "C86", "title": "A transmission does not turn other nodes' antennas", "statement": "When a node transmits, the receive antennas of all other nodes keep their orientation.", "quantifier": "every set of devices, antenna modes and positions", "why_tests_cant": "Depends on the modes and the order of all devices attached to the channel.", "anchors": ["model/thz-channel.cc: THzChannel::SendPacket", "model/thz-dir-antenna.cc: THzDirectionalAntenna::GetAntennaGain"]}
{"id": "C87", "title": "Each end of a link contributes its own antenna gain", "statement": "The gain of a link is the maximum gain of the transmitting antenna plus the gain of the receiving antenna in the direction of the transmitter, each with its own configured maximum gain and beam width.", "quantifier": "every pair of antennas and positions", "why_tests_cant": "Real-valued; with equal antennas at both ends, as in all examples, a wrong choice shows nothing.", "anchors": ["model/thz-dir-antenna.cc: THzDirectionalAntenna::GetAntennaGain", "model/thz-channel.cc: THzChannel::SendPacket"]}
{"id": "C88", "title": "Absorption is that of the nearest tabulated frequency", "statement": "The molecular absorption applied to a sub-band is computed with the coefficient of the tabulated frequency nearest to the sub-band's centre.", "quantifier": "every table, frequency, distance and history of calls", "why_tests_cant": "Real-valued; an off-by-one line in a table with 65537 entries changes results by little.", "anchors": ["model/thz-spectrum-propagation-loss.cc: THzSpectrumPropagationLoss::CalculateAbsLoss"]}
{"id": "C89", "title": "The transmit spectrum covers the configured band", "statement": "The sub-bands of the macro PHY's transmit spectrum adjoin each other and together span the configured total bandwidth.", "quantifier": "every bandwidth, sub-band width and number of samples", "why_tests_cant": "Depends on divisibility of real-valued parameters through integer divisions.", "anchors": ["model/thz-spectrum-waveform.cc: THzSpectrumValueFactory::CreateTxPowerSpectralDensity", "model/thz-phy-macro.cc: THzPhyMacro::CalTxPsd"]}
{"id": "C90", "title": "Disposing of one device leaves the other devices attached", "statement": "After one net device has been disposed of, every other device that was attached to the same channel is still attached to it.", "quantifier": "every number of devices and every device that is disposed of", "why_tests_cant": "Needs every set of devices sharing a channel and every order of disposal.", "anchors": ["model/thz-net-device.cc: THzNetDevice::Clear", "model/thz-channel.cc: THzChannel::Clear"]}
{"id": "C91", "title": "An installed device reports its link as up", "statement": "A device that has a MAC, a PHY and a channel reports that its link is up.", "quantifier": "every content of the memory in which the device is constructed", "why_tests_cant": "The answer depends on an uninitialised member, so a test sees whatever the allocator left.", "anchors": ["model/thz-net-device.cc: THzNetDevice::IsLinkUp", "model/thz-net-device.cc: THzNetDevice::THzNetDevice"]}
{"id": "C92", "title": "The UDP client keeps sending until it is stopped", "statement": "From its start to its stop the UDP client sends packet after packet, each one the drawn delay after the one before, whatever the socket answers.", "quantifier": "every sequence of draws and of answers of the socket", "why_tests_cant": "All histories, including refusals of the socket.", "anchors": ["model/thz-udp-client.cc: THzUdpClient::Send", "model/thz-udp-client.cc: THzUdpClient::StartApplication"]}
{"id": "C93", "title": "The delay between packets has the documented unit", "statement": "The delay between two packets is the value drawn from the exponential distribution with the configured mean, in the documented unit (seconds).", "quantifier": "every draw", "why_tests_cant": "Random real-valued delays; a test sees a few of them.", "anchors": ["model/thz-udp-client.cc: THzUdpClient::Send", "model/thz-udp-client.cc: THzUdpClient::StartApplication", "model/traffic-generator.cc: TrafficGenerator::DoGenerate"]}
{"id": "C94", "title": "The UDP server counts every datagram once while it runs", "statement": "The number of packets that the UDP server reports is the number of non-empty datagrams that arrived between its start and its stop, and each of them is passed to the loss counter once.", "quantifier": "every sequence of starts, stops and datagrams of any size over IPv4 and IPv6", "why_tests_cant": "All histories.", "anchors": ["model/thz-udp-server.cc: THzUdpServer::HandleRead", "model/thz-udp-server.cc: THzUdpServer::StopApplication"]}
{"id": "C95", "title": "The UDP server can report the packets that were lost", "statement": "From the sequence numbers that it received the UDP server can tell how many packets of a UDP client were lost.", "quantifier": "every run of the client and every set of lost packets", "why_tests_cant": "Quantifies over every way of counting losses.", "anchors": ["model/thz-udp-client.cc: THzUdpClient::Send", "model/thz-udp-server.cc: THzUdpServer::HandleRead", "model/thz-udp-server.cc: THzUdpServer::GetLost"]}
{"id": "C96", "title": "Loading a trace gives one frame for every line", "statement": "After a trace file has been set the trace consists of one frame for every line of the file, with its size, and of nothing else; the waiting times add up to the time of the last frame.", "quantifier": "every trace file", "why_tests_cant": "All files, including empty ones and ones with or without a final newline.", "anchors": ["model/thz-udp-trace-client.cc: THzUdpTraceClient::LoadTrace", "model/thz-udp-trace-client.cc: THzUdpTraceClient::LoadDefaultTrace", "model/thz-udp-trace-client.cc: THzUdpTraceClient::SetTraceFile"]}
{"id": "C97", "title": "The trace client numbers its packets", "statement": "Every packet of the trace client carries the number of packets that the socket has taken before it.", "quantifier": "every trace, maximum packet size and sequence of answers of the socket", "why_tests_cant": "All histories.", "anchors": ["model/thz-udp-trace-client.cc: THzUdpTraceClient::SendPacket", "model/thz-udp-trace-client.cc: THzUdpTraceClient::Send"]}
{"id": "C98", "title": "End-to-end, macro MAC: reported success means delivered exactly once", "statement": "In a network of macro MACs whose medium may lose, delay, duplicate and reorder frames but not forge them, if node A reports success for a unicast packet to B then B has passed that packet up exactly once and unaltered.", "quantifier": "every number of nodes, parameter set, initial value of the sequence counters, schedule and loss/duplication/reordering pattern", "why_tests_cant": "Involves the product of all node states, all timers and all in-flight frames.", "anchors": ["model/thz-mac-macro.cc: THzMacMacro::ReceiveData", "model/thz-mac-macro.cc: THzMacMacro::ReceiveAck", "model/thz-mac-macro.cc: THzMacMacro::ReceiveCts", "model/thz-mac-macro.cc: THzMacMacro::IsNewSequence", "model/thz-mac-macro.cc: THzMacMacro::Enqueue"]}
{"id": "C99", "title": "End-to-end, macro MAC: deliveries are an in-order duplicate-free subsequence of what was accepted", "statement": "In the same network, the packets B passes up from A are, in order, a subsequence of the packets A accepted for B or for broadcast, without duplicates and without invented packets.", "quantifier": "every number of nodes, parameter set, schedule and loss/duplication/reordering pattern, as long as no 16-bit sequence counter wraps", "why_tests_cant": "Involves the product of all node states, all timers and all in-flight frames.", "anchors": ["model/thz-mac-macro.cc: THzMacMacro::ReceiveData", "model/thz-mac-macro.cc: THzMacMacro::IsNewSequence", "model/thz-mac-macro.cc: THzMacMacro::Enqueue"]}
{"id": "C100", "title": "Client: packets are served in the order in which they were accepted", "statement": "Whenever a client contends for the medium, with an RTS of its own accord or with DATA in the one-way protocol, it is for a packet that was accepted and not settled when the CTA it answers arrived, and every packet accepted before that one had been settled by then.", "quantifier": "every parameter set, traffic pattern and sequence of received frames", "why_tests_cant": "Depends on the whole history of accepted, settled, discarded and retried packets.", "anchors": ["model/thz-mac-macro-client.cc: THzMacMacroClient::Enqueue", "model/thz-mac-macro-client.cc: THzMacMacroClient::ReceiveCta3", "model/thz-mac-macro-client.cc: THzMacMacroClient::ReceiveCta1", "model/thz-mac-macro-client.cc: THzMacMacroClient::SendRts", "model/thz-mac-macro-client.cc: THzMacMacroClient::SendData", "model/thz-mac-macro-client.cc: THzMacMacroClient::Dequeue"]}
{"id": "C101", "title": "End-to-end, centralised: reported success means delivered exactly once", "statement": "In a network of clients and access points whose medium may lose, delay, duplicate and reorder frames but not forge them, if a client reports success for a packet then the access point it was for has passed that packet up exactly once and unaltered.", "quantifier": "every number of clients and access points, parameter set, initial value of the sequence counters, schedule and loss/duplication/reordering pattern", "why_tests_cant": "Involves the product of all node states, all timers and all in-flight frames.", "anchors": ["model/thz-mac-macro-ap.cc: THzMacMacroAp::ReceiveData", "model/thz-mac-macro-ap.cc: THzMacMacroAp::IsNewSequence", "model/thz-mac-macro-ap.cc: THzMacMacroAp::ReceiveRts", "model/thz-mac-macro-client.cc: THzMacMacroClient::ReceiveAck", "model/thz-mac-macro-client.cc: THzMacMacroClient::ReceiveCts", "model/thz-mac-macro-client.cc: THzMacMacroClient::SendData", "model/thz-mac-macro-client.cc: THzMacMacroClient::Enqueue"]}
{"id": "C102", "title": "End-to-end, centralised: deliveries are an in-order duplicate-free subsequence of what was accepted", "statement": "In the same network, the packets an access point passes up from a client are, in order, a subsequence of the packets the client accepted, without duplicates and without invented packets.", "quantifier": "every number of clients and access points, parameter set, schedule and loss/duplication/reordering pattern, as long as no 16-bit sequence counter wraps", "why_tests_cant": "Involves the product of all node states, all timers and all in-flight frames.", "anchors": ["model/thz-mac-macro-ap.cc: THzMacMacroAp::ReceiveData", "model/thz-mac-macro-ap.cc: THzMacMacroAp::IsNewSequence", "model/thz-mac-macro-client.cc: THzMacMacroClient::Enqueue"]}
{"id": "C103", "title": "Access point: passes up and answers only what was addressed to it", "statement": "An access point passes up only intact DATA frames addressed to it, unaltered, sends a CTS only in answer to an intact RTS addressed to it, and an ACK only in answer to an intact DATA frame addressed to it.", "quantifier": "every parameter set and every sequence of received frames", "why_tests_cant": "All sequences of frames, timers and collisions.", "anchors": ["model/thz-mac-macro-ap.cc: THzMacMacroAp::ReceivePacketDone", "model/thz-mac-macro-ap.cc: THzMacMacroAp::ReceiveRts", "model/thz-mac-macro-ap.cc: THzMacMacroAp::ReceiveData", "model/thz-mac-macro-ap.cc: THzMacMacroAp::SendAck", "model/thz-mac-macro-ap.cc: THzMacMacroAp::SendCts"]}
{"id": "C104", "title": "Complete macro devices: what is received was sent", "statement": "With complete macro devices (MAC, PHY, one shared channel), every frame a device receives without error is, unaltered, one that another device transmitted; the device is given it exactly the propagation delay plus the frame's duration after the start of that transmission, and at most once per transmission. A device transmits exactly the frames its MAC hands over, one at a time, in that order; the MAC is given exactly the frames received without error, and its idea of whether the PHY is idle is right at all times.", "quantifier": "every number of devices, parameter set, propagation delays and powers (varying in time), traffic and schedule", "why_tests_cant": "Involves the product of all MAC, PHY and channel states and all in-flight signals; agreement of the layers at all times.", "anchors": ["model/thz-mac-macro.cc: THzMacMacro::SendPacket", "model/thz-phy-macro.cc: THzPhyMacro::SendPacket", "model/thz-phy-macro.cc: THzPhyMacro::ReceivePacket", "model/thz-phy-macro.cc: THzPhyMacro::ReceivePacketDone", "model/thz-phy-macro.cc: THzPhyMacro::IsIdle", "model/thz-channel.cc: THzChannel::SendPacket", "model/thz-channel.cc: THzChannel::ReceivePacket", "model/thz-channel.cc: THzChannel::ReceivePacketDone"]}
{"id": "C105", "title": "Complete macro devices: an undisturbed frame is received", "statement": "If a frame arrives at a device with a power above the carrier-sense threshold and a signal-to-noise ratio above the SINR threshold, the device does not transmit meanwhile and no other frame arrives meanwhile, then the device receives it without error, whatever happened before.", "quantifier": "every number of devices, parameter set, propagation delays and powers, traffic and schedule", "why_tests_cant": "Depends on the whole history of the PHY (records of receptions, lock, carrier-sense end, collisions before).", "anchors": ["model/thz-phy-macro.cc: THzPhyMacro::ReceivePacket", "model/thz-phy-macro.cc: THzPhyMacro::ReceivePacketDone", "model/thz-phy-macro.cc: THzPhyMacro::SendPacket", "model/thz-channel.cc: THzChannel::SendPacket", "model/thz-channel.cc: THzChannel::ReceivePacket"]}
{"id": "C106", "title": "Complete macro devices: over a good link a packet is delivered and its success reported", "statement": "If two devices can receive each other's frames and nothing disturbs the exchange, an accepted unicast packet is delivered and reported as successful, whatever the distance between them.", "quantifier": "every distance at which frames are received without error, every parameter set", "why_tests_cant": "All distances and parameters; depends on timers of one device racing with frames of the other.", "anchors": ["model/thz-mac-macro.cc: THzMacMacro::SendRts", "model/thz-mac-macro.cc: THzMacMacro::SendData", "model/thz-mac-macro.cc: THzMacMacro::CtsTimeout", "model/thz-mac-macro.cc: THzMacMacro::AckTimeout", "model/thz-mac-macro.cc: THzMacMacro::ReceiveAck", "model/thz-mac-macro.cc: THzMacMacro::SendAck"]}
{"id": "C107", "title": "Macro MAC: DATA for me is acknowledged in time", "statement": "When a node receives an intact DATA frame addressed to it, it starts to transmit an ACK with the same sequence number to the sender exactly one short interframe space later, provided that until then no other arrival begins, its own earlier transmissions have ended and it starts no other; whatever its queue, its own timers and its back-off are doing.", "quantifier": "every history of the node, configuration, frame and interleaving with the node's own timers", "why_tests_cant": "Depends on the product of all pending events and MAC states at the time of the reception.", "anchors": ["model/thz-mac-macro.cc: THzMacMacro::ReceiveData", "model/thz-mac-macro.cc: THzMacMacro::SendAck", "model/thz-mac-macro.cc: THzMacMacro::SendPacket", "model/thz-mac-macro.cc: THzMacMacro::CcaForDifs", "model/thz-mac-macro.cc: THzMacMacro::BackoffStart", "model/thz-mac-macro.cc: THzMacMacro::ChannelAccessGranted", "model/thz-mac-macro.cc: THzMacMacro::AckTimeout", "model/thz-mac-macro.cc: THzMacMacro::CtsTimeout"]}
{"id": "C108", "title": "Macro MAC: an ACK that comes in time counts", "statement": "When a node has transmitted the DATA frame of a unicast packet and receives an intact ACK with its sequence number before the acknowledgement timeout is over, the packet is reported as delivered within a picosecond, unless its fifth timeout had been charged already; whatever else the node does meanwhile. (Up to 65536 packets, and if no other DATA frame with that number was sent within one timeout before.)", "quantifier": "every history of the node, configuration, traffic and interleaving", "why_tests_cant": "The waiting list, the pending timeouts and the records are shared by all packets; all interleavings of other packets' events.", "anchors": ["model/thz-mac-macro.cc: THzMacMacro::SendData", "model/thz-mac-macro.cc: THzMacMacro::ReceiveAck", "model/thz-mac-macro.cc: THzMacMacro::SendDataDone", "model/thz-mac-macro.cc: THzMacMacro::AckTimeout", "model/thz-mac-macro.cc: THzMacMacro::Enqueue"]}
{"id": "C109", "title": "Macro MAC: an RTS for me is answered in time", "statement": "When a node receives an intact RTS addressed to it while neither a reservation announced by others nor one of its own is running, it starts to transmit a CTS with the same sequence number to the sender exactly one picosecond later, provided that until then no other arrival begins, its own earlier transmissions have ended and it starts no other; whatever its queue, its own timers and its back-off are doing.", "quantifier": "every history of the node, configuration, frame, value of the uninitialised duration and interleaving with the node's own timers", "why_tests_cant": "Depends on the product of all pending events and MAC states at the time of the reception.", "anchors": ["model/thz-mac-macro.cc: THzMacMacro::ReceiveRts", "model/thz-mac-macro.cc: THzMacMacro::SendCts", "model/thz-mac-macro.cc: THzMacMacro::SendPacket", "model/thz-mac-macro.cc: THzMacMacro::CcaForDifs", "model/thz-mac-macro.cc: THzMacMacro::BackoffStart", "model/thz-mac-macro.cc: THzMacMacro::ChannelAccessGranted", "model/thz-mac-macro.cc: THzMacMacro::AckTimeout", "model/thz-mac-macro.cc: THzMacMacro::CtsTimeout"]}
{"id": "C110", "title": "Macro MAC: a CTS that comes in time leads to the DATA frame", "statement": "When a node has transmitted the RTS of a packet and receives an intact CTS with its sequence number before the CTS timeout is over (the first such CTS since), it starts to transmit the DATA frame of exactly that packet one picosecond later, unless the packet was reported as delivered or its fifth timeout charged already, provided that until then no other arrival begins, its own earlier transmissions have ended and it starts no other; whatever other packets it holds. (Up to 65536 packets, and if no other RTS with that number was sent within one timeout before.)", "quantifier": "every history of the node, configuration, traffic and interleaving", "why_tests_cant": "The waiting list, the pending timeouts, the queue and the records are shared by all packets; all interleavings of other packets' events.", "anchors": ["model/thz-mac-macro.cc: THzMacMacro::SendRts", "model/thz-mac-macro.cc: THzMacMacro::ReceiveCts", "model/thz-mac-macro.cc: THzMacMacro::SendData", "model/thz-mac-macro.cc: THzMacMacro::CtsTimeout", "model/thz-mac-macro.cc: THzMacMacro::Enqueue"]}
{"id": "C111", "title": "Energy is harvested at the configured rate", "statement": "From the moment a node starts to harvest, its energy store gains the configured amount exactly once in every period of one update interval.", "quantifier": "every attribute setting, start-up delay and history of bookings and refunds", "why_tests_cant": "Depends on the interplay of the constructor, the initialisation of the node by the simulator and the periodic event over an unbounded run.", "anchors": ["model/thz-energy-model.cc: THzEnergyModel::THzEnergyModel", "model/thz-energy-model.cc: THzEnergyModel::DoInitialize", "model/thz-energy-model.cc: THzEnergyModel::HarvestEnergy", "helper/thz-energy-model-helper.cc: THzEnergyModelHelper::Install"]}
{"id": "C112", "title": "Stored energy is kept until it is booked", "statement": "At any time of a simulation the stored energy is the initial energy plus everything harvested and returned minus everything booked since harvesting first started; nothing else removes energy from the store.", "quantifier": "every attribute setting, start-up delay and history of bookings and refunds", "why_tests_cant": "Conservation over all histories including the start-up of the node.", "anchors": ["model/thz-energy-model.cc: THzEnergyModel::THzEnergyModel", "model/thz-energy-model.cc: THzEnergyModel::DoInitialize", "model/thz-energy-model.cc: THzEnergyModel::HarvestEnergy", "model/thz-energy-model.cc: THzEnergyModel::BookEnergy", "model/thz-energy-model.cc: THzEnergyModel::ReturnEnergy"]}
{"id": "C113", "title": "The masked transmit spectrum carries the transmit power", "statement": "Integrating the masked power spectral density over the bands of the window gives back the requested power, and creating it touches only bands of the window.", "quantifier": "every power, bandwidth, sub-band width and order of initialisation", "why_tests_cant": "Real-valued parameters; the constant in the code fits only some widths.", "anchors": ["model/thz-spectrum-waveform.cc: THzSpectrumValueFactory::CreateTxPowerSpectralDensityMask", "model/thz-spectrum-waveform.cc: THzSpectrumValueFactory::THzSpectrumWaveformInitializer", "model/thz-spectrum-waveform.cc: THzSpectrumValueFactory::THzPulseSpectrumWaveformInitializer"]}
{"id": "C114", "title": "The transmit mask is centred in its window", "statement": "The masked power spectral density is symmetric about the middle of the window: mirrored bands have the same density.", "quantifier": "every power, bandwidth and sub-band width", "why_tests_cant": "All band counts.", "anchors": ["model/thz-spectrum-waveform.cc: THzSpectrumValueFactory::CreateTxPowerSpectralDensityMask"]}
{"id": "C115", "title": "The positions in the frequency table agree with each other", "statement": "The number of the first row, its frequency, the list of band frequencies, the number of the last row and the absorption coefficients loaded between the two numbers all refer to the same rows of the table: those from the first frequency not below the start of the window on, one per sub-band.", "quantifier": "every sorted table, window and sub-band width", "why_tests_cant": "Four independent loops over a table of any length.", "anchors": ["model/thz-spectrum-waveform.cc: THzSpectrumValueFactory::FreqSeqStart", "model/thz-spectrum-waveform.cc: THzSpectrumValueFactory::FreqSeqEnd", "model/thz-spectrum-waveform.cc: THzSpectrumValueFactory::FreqStartValue", "model/thz-spectrum-waveform.cc: THzSpectrumValueFactory::FreqBands", "model/thz-spectrum-propagation-loss.cc: THzSpectrumPropagationLoss::LoadedAbsCoe"]}
{"id": "C116", "title": "The density over the whole spectrum is that of each band", "statement": "The spectrum over the whole table has in every band the density of the pulse at the centre of that band.", "quantifier": "every table, pulse order and amplitude", "why_tests_cant": "Tables of any length, real-valued parameters.", "anchors": ["model/thz-spectrum-waveform.cc: THzSpectrumValueFactory::AllTHzSpectrumWaveformInitializer", "model/thz-spectrum-waveform.cc: THzSpectrumValueFactory::CreateAllPowerSpectralDensity"]}
{"id": "C117", "title": "Complete nano devices: what is received was sent", "statement": "Every frame a nano device receives without error is, unaltered, one that another device started to transmit exactly the propagation delay and the duration of the frame earlier; no transmission is received twice by a device; what a device transmits is a frame its MAC handed over less than one symbol earlier.", "quantifier": "every number of devices, topology, set of attributes, order of events, energy level and interference", "why_tests_cant": "All interleavings of MAC, PHY, channel and energy events of any number of devices.", "anchors": ["model/thz-phy-nano.cc: THzPhyNano::SendPacket", "model/thz-phy-nano.cc: THzPhyNano::ReceivePacketDone", "model/thz-channel.cc: THzChannel::SendPacket", "model/thz-mac-nano.cc: THzMacNano::SendPacket"]}
{"id": "C118", "title": "Complete nano devices: a frame whose pulses meet no others is received", "statement": "A frame that arrives at a nano device with a power that suffices, and whose pulses meet neither pulses of other frames arriving there nor pulses the device sends itself, is received without error, exactly the propagation delay and its duration after its start.", "quantifier": "every number of devices, topology, set of attributes, order of events and interleaving of pulse trains", "why_tests_cant": "Needs every arrangement of pulse trains, and memory whose content is not defined.", "anchors": ["model/thz-phy-nano.cc: THzPhyNano::ReceivePacket", "model/thz-phy-nano.cc: THzPhyNano::ReceivePacketDone", "model/thz-phy-nano.cc: THzPhyNano::SendPacket", "model/thz-channel.cc: THzChannel::SendPacket"]}
{"id": "C119", "title": "Complete nano devices: an undisturbed exchange succeeds", "statement": "If a nano device sends a DATA frame to another one whose link is strong enough in both directions, and neither that frame nor its acknowledgement meets other pulses, and the receiver has the energy to answer, then the sender reports the packet as sent, and the receiver has passed it up exactly once.", "quantifier": "every number of devices, topology, set of attributes, order of events, energy level and interleaving of pulse trains", "why_tests_cant": "Needs every timing of two devices amid the traffic of others; the outcome depends on propagation delays against a fixed allowance.", "anchors": ["model/thz-mac-nano.cc: THzMacNano::SendData", "model/thz-mac-nano.cc: THzMacNano::ReceiveData", "model/thz-mac-nano.cc: THzMacNano::ReceiveAck", "model/thz-mac-nano.cc: THzMacNano::AckTimeout", "model/thz-phy-nano.cc: THzPhyNano::ReceivePacketDone"]}
{"id": "C120", "title": "Complete nano devices: reserved energy is returned exactly if DATA does not come", "statement": "The energy a nano device reserves when it answers an RTS - for receiving the DATA frame and for acknowledging it - is returned if that DATA frame does not come, and only then: who receives DATA and acknowledges it has paid for both.", "quantifier": "every number of devices, topology, set of attributes, order of events and energy level", "why_tests_cant": "A timer races with a frame; every timing of the exchange matters.", "anchors": ["model/thz-mac-nano.cc: THzMacNano::ReceiveRts", "model/thz-mac-nano.cc: THzMacNano::ReceiveData", "model/thz-mac-nano.cc: THzMacNano::DataTimeout"]}
{"id": "C121", "title": "A simulation is reproducible", "statement": "Two runs of the same simulation with the same seed and run number draw the same random numbers, whenever and on whatever computer they are run.", "quantifier": "every simulation (what it does next may depend on all numbers drawn before), seed, run number and random generator", "why_tests_cant": "A test compares a few runs, usually within the same second on the same machine.", "anchors": ["model/thz-mac-nano.cc: THzMacNano::Backoff", "model/thz-energy-model.cc: THzEnergyModel::THzEnergyModel", "model/thz-mac-macro.cc: THzMacMacro::Backoff"]}
{"id": "C122", "title": "The seed the user sets governs the simulation", "statement": "Once the user has set seed and run number, all random numbers derive from them, whatever devices are installed afterwards.", "quantifier": "every simulation, seed, run number and random generator", "why_tests_cant": "That a seed has no effect shows only in a comparison of all seeds.", "anchors": ["model/thz-mac-nano.cc: THzMacNano::SetAddress", "model/thz-mac-nano.cc: THzMacNano::Backoff", "helper/thz-helper.cc: THzHelper::Install"]}
{"id": "C123", "title": "No two random numbers share a stream", "statement": "No two random numbers drawn by devices, energy models and applications in a simulation come from the same stream of the generator.", "quantifier": "every simulation, seed, run number and random generator", "why_tests_cant": "Correlated random numbers can only be suspected statistically.", "anchors": ["model/thz-mac-nano.cc: THzMacNano::Backoff", "model/thz-mac-macro.cc: THzMacMacro::Backoff", "model/thz-mac-macro-client.cc: THzMacMacroClient::ReceiveCta3", "model/traffic-generator.cc: TrafficGenerator::Generate"]}
{"id": "C124", "title": "Centralised scenario, complete devices: nothing is received that was not sent", "statement": "In a simulation of complete clients and access points (MAC, PHY, channel), every frame that a device receives without error is, unaltered, one that another device transmitted, received exactly the propagation delay and the duration of the frame later and at most once; each layer passes on exactly what it is given; and no device ever transmits two frames at a time.", "quantifier": "every number of clients and access points, configuration, placement, antenna movement, received powers and history of the simulation", "why_tests_cant": "Depends on the interplay of the event queues of all layers and devices.", "anchors": ["model/thz-mac-macro-ap.cc: THzMacMacroAp::SendPacket", "model/thz-mac-macro-client.cc: THzMacMacroClient::SendPacket", "model/thz-phy-macro.cc: THzPhyMacro::SendPacket", "model/thz-phy-macro.cc: THzPhyMacro::ReceivePacketDone", "model/thz-channel.cc: THzChannel::SendPacket"]}
{"id": "C125", "title": "Centralised scenario, complete devices: an undisturbed frame is received", "statement": "In a simulation of complete clients and access points, a frame that arrives at a device with sufficient power and signal-to-noise ratio, while neither that device transmits nor any other frame arrives there, is received without error at the moment it has completely arrived.", "quantifier": "every number of clients and access points, configuration, placement, antenna movement and history of the simulation", "why_tests_cant": "A test covers single constellations of frames; the claim is about all of them.", "anchors": ["model/thz-phy-macro.cc: THzPhyMacro::ReceivePacket", "model/thz-phy-macro.cc: THzPhyMacro::ReceivePacketDone", "model/thz-channel.cc: THzChannel::SendPacket"]}
{"id": "C126", "title": "Result file of the ad hoc macro MAC", "statement": "Every line written to the result file is about a packet that was accepted and whose outcome was reported: exactly one of the marks \"sent\" and \"discarded\" is set, as reported; the delay is the time from acceptance to report for a packet sent and zero for one discarded; the size is that of the data handed over by the application, that is the packet without the 36 bytes added by UDP, IP and LLC. Conversely every report is followed by such a line in the same instant, and the counters of sent and discarded packets are the numbers of reports.", "quantifier": "every configuration and history of the device, packets of every size", "why_tests_cant": "The numbers are derived from bookkeeping that interleaves with all other activity of the device.", "anchors": ["model/thz-mac-macro.cc: THzMacMacro::SendDataDone", "model/thz-mac-macro.cc: THzMacMacro::ResultsRecord", "model/thz-mac-macro.cc: THzMacMacro::Enqueue"]}
{"id": "C127", "title": "Result file of a client", "statement": "Every line written to the result file by a client of the centralised scenario is about a packet that was accepted and whose outcome was reported, with the right mark, the right delay and the size of the data handed over by the application; every report is followed by such a line in the same instant, and the counters of sent and discarded packets are the numbers of reports.", "quantifier": "every configuration and history of the client, packets of every size", "why_tests_cant": "The numbers are derived from bookkeeping that interleaves with all other activity of the client.", "anchors": ["model/thz-mac-macro-client.cc: THzMacMacroClient::SendDataDone", "model/thz-mac-macro-client.cc: THzMacMacroClient::ResultsRecord", "model/thz-mac-macro-client.cc: THzMacMacroClient::Enqueue"]}
{"id": "C128", "title": "Throughput of macro devices", "statement": "The trace source Throughput of an ad hoc device or client fires once for each packet reported as sent, with the average over all packets sent so far of the data rate of a packet: the bits of data handed over by the application divided by the time from acceptance to report.", "quantifier": "every configuration and history of the device, packets of every size", "why_tests_cant": "The value depends on the whole history of the device.", "anchors": ["model/thz-mac-macro.cc: THzMacMacro::SendDataDone", "model/thz-mac-macro-client.cc: THzMacMacroClient::SendDataDone"]}
