# Design: formal model of UN-Lab/thz in Lean 4

What is modelled, how each property of `properties.jsonl` is stated and proved, what was found, and what has to be trusted. A
first version was written before the proofs; this one is kept up to date with them.

Contents: 1 layout, 2 conventions, 3 what is and is not modelled, 4 how the proofs go, 5 status of every property, 6 findings,
7 tests with wrong programs, 8 trusted base and axioms.

## 1. Layout

`lean/` is a Lake project; `lean/Verif.lean` imports every module. Files named `...Props` (and `ApRts`, `ApCts`, `ApRec`, `ApLive`,
`ApRun`, `ApAck`, `MacroLive`, `NanoUp`, `Sinr` and similar) hold property theorems, named `Cnn_...` after the property, with small
specifications and an `example` of a concrete case that meets the hypotheses. The other files hold the model and lemmas.

| Lean modules | C++ source |
|---|---|
| `Header`, `HeaderProps` | `model/thz-mac-header.{h,cc}` |
| `Seq`, `SeqProps` | `IsNewSequence` (the same text in the four MACs) |
| `Energy`, `EnergyProps`, `EnergyTime` | `model/thz-energy-model.{h,cc}` |
| `Nano`, `NanoLog`, `NanoInv`, `NanoOrd`, `NanoRetry`, `NanoLive`, `NanoUp`, `NanoCredit`, `NanoAck`, `NanoDataTimer`, `NanoProps`, `NanoProps2` | `model/thz-mac-nano.{h,cc}` |
| `NanoNet`, `NanoNetProps` | several nano MACs over a medium that may lose, delay, repeat frames |
| `Macro`, `MacroTime`, `MacroMicro`, `MacroInv`, `MacroProps`, `MacroLive` | `model/thz-mac-macro.{h,cc}` |
| `MacroOrd`, `MacroNet`, `MacroNetProps` | several macro MACs over a medium that may lose, delay, repeat frames |
| `MacroKeep`, `MacroTimed` | the macro MAC in time: answers to DATA, acknowledgements in time |
| `MacroRtsKeep`, `MacroRtsTimed` | the same for RTS and CTS |
| `Thr`, `MacroStats`, `ClientStats` | result files, counters and throughput of ad hoc devices and clients |
| `MacroAnswers` | where the answers come from: every ACK, CTS and unicast DATA after a CTS goes back to a reception a fixed time before; C107, C109, C110 |
| `MacroTx`, `Stack`, `StackNode`, `StackInv`, `StackRx`, `StackProps`, `StackRuns`, `StackTrace`, `StackLive`, `StackRts` | complete macro devices: MAC, PHY and one shared channel, in time |
| `NanoStack`, `NanoStackInv`, `NanoStackRx`, `NanoStackRuns`, `NanoStackProps`, `NanoStackEff`, `NanoStackLive`, `NanoStackLiveProps`, `NanoStackDat` | complete nano devices: MAC with energy store, PHY and one shared channel, in time |
| `Central` | frames and rates that access point and client share (`CalTxDuration` of the macro PHY) |
| `Ap`, `ApSweep`, `ApProps`, `ApAck`, `ApRun`, `ApLive`, `ApRec`, `ApCts`, `ApRts` | `model/thz-mac-macro-ap.{h,cc}` |
| `Client`, `ClientMicro`, `ClientStep`, `ClientInv`, `ClientGrace`, `ClientProps`, `ClientProps2` to `4` | `model/thz-mac-macro-client.{h,cc}` |
| `ApAir`, `ClientAir`, `CentralNet`, `CentralNetProps` | several clients and access points over a medium that may lose, delay, repeat frames |
| `Air`, `AirInv`, `AirRx`, `TxView`, `ClientTx`, `ApTx`, `ClientRxT`, `CStack`, `CStackInv`, `CStackGot`, `CStackProps`, `CStackRuns` | complete clients and access points: MAC, PHY and one shared channel, in time |
| `PhyMacro`, `PhyMacroInv`, `PhyMacroProps` | `model/thz-phy-macro.{h,cc}` |
| `PhyNano`, `PhyNanoGap`, `PhyNanoInv`, `PhyNanoProps` | `model/thz-phy-nano.{h,cc}` |
| `Sinr` | the SINR tests of the two PHYs, `GetNoiseW`, `DbmToW` |
| `Channel`, `ChannelProps` | `model/thz-channel.{h,cc}` |
| `Antenna`, `AntennaProps` | `model/thz-dir-antenna.{h,cc}`, the antenna part of `THzChannel::SendPacket` |
| `Spectrum`, `SpectrumProps`, `SpectrumMask` | `model/thz-spectrum-waveform.cc`, `model/thz-spectrum-propagation-loss.cc`, `CalTxPsd` of the PHYs |
| `NetDev`, `NetDevProps` | `model/thz-net-device.cc`, `helper/thz-helper.cc` |
| `Apps`, `AppsProps` | `model/thz-udp-client.cc`, `thz-udp-server.cc`, `thz-udp-trace-client.cc`, `traffic-generator.cc` |
| `Seed` | every use of ns-3's random numbers: `THzMacNano::SetAddress`, `Backoff`, the constructor of the energy model, the other draws |
| `Trace` | lemmas about logs |

## 2. Conventions

* **State machines.** A stateful class is a structure plus one total function per member function. A run is a list of operations
  (API calls, arrivals, simulator events) from the constructor's state; theorems quantify over all such lists. What an outsider
  can see is appended to a log in the state, and the properties speak about the log.
* **Simulator events.** Scheduled events are pending in the state. The operation `fire` runs *any* pending event, not only the one due
  first (except in the channel, where time order is built in). This over-approximates ns-3, so safety theorems carry over;
  `timely` singles out the runs in time order where a theorem needs it. Ties are left open. Every run that witnesses a violation
  is in time order.
* **Packets.** `std::list::remove (packet)` compares pointers, so a packet has a unique id. Contents are abstract.
* **Numbers.** `uint8_t`, `uint16_t`, `uint32_t` are `UInt8`, `UInt16`, `UInt32`, with wrap-around. `double` is a rational or real
  number: rounding is not modelled, except in C57, whose loop does not end with doubles. `ns3::Time` is an integer number of ticks.
* **Undefined behaviour** (end iterators, reads outside an array, division by zero, uninitialised members) is a distinct outcome
  (`ub`, `crash`, `wild`, `none`) or an arbitrary value passed in (`junk`).
* **Random draws** are inputs: any value in the range asked for.
* **Violated properties.** If the code does not satisfy a property, its negation is proved on a concrete reachable run or for a whole
  class of runs (`Cnn_..._violated`), and the part that does hold is proved with suffix `_partial`. The full statement stays in
  `properties.jsonl`; what is missing is in the table of section 5.

## 3. What is modelled and what is not

| Source | Modelled | Not modelled |
|---|---|---|
| `thz-mac-header` | `Serialize`, `Deserialize`, `GetSerializedSize`, all setters and getters | `Print` |
| `thz-energy-model` | constructor, `DoInitialize` (called by ns-3 and by the constructor's event), the time of the harvest events, `BookEnergy`, `ReturnEnergy`, `HarvestEnergy`, `SetEnergyCallback`, `GetRemainingEnergy` | `Simulator::IsFinished`; energy models of several nodes together |
| `thz-mac-nano` | `Enqueue`, `Dequeue`, `CheckResources`, `TxFirstPacket`, `Backoff`, `SendRts/Cts/Data/Ack/Packet`, `SendPacketDone`, `SendDataDone`, `Receive*`, `*Timeout`, `IsNewSequence`, `InitEnergyCallback` | the throughput statistics; `Clear` (`SetAddress` is in `Seed`) |
| `thz-mac-macro` | as above, and `CcaForDifs`, `Backoff*`, `ChannelAccessGranted`, `ChannelBecomesBusy`, `GetCw`, `DoubleCw`, `RoundOffTime`, `UpdateNav`, `UpdateLocalNav`, `StartOver`, `ResultsRecord` | `SetRxAntennaParameters`; the text of the result file; `Clear` |
| `thz-mac-macro-ap` | `Init`, `SendCta1/3`, `SendFeedbackCTA`, `SendCts`, `SendAck`, `Receive*`, `WaitTimeExpired`, `SectorTimeout`, `DataTimeout`, `TurnRxAntenna`, `SelectMCS`, `InitNodeMap`, `IsNewSequence`, `SendPacket*` | the statistics of `CycleRecord`; `Clear` |
| `thz-mac-macro-client` | `Enqueue`, `Receive*`, `Send*`, `*Timeout`, `DecreaseBackoff`, `ChannelBecomesBusy`, `ResultsRecord`, `InitVariables` | `IsNewSequence` (never called), `PositionsRecord`, `StateRecord`, `CollisionsRecord` (bodies commented out); `Clear` |
| `thz-phy-macro` | `SendPacket`, `SendPacketDone`, `ReceivePacket`, `ReceivePacketDone`, `IsIdle`, `CalTxDuration`, `CalTxPsd`, the SINR test | `Clear`, setters |
| `thz-phy-nano` | `SendPacket`, `SortArray`, `ScheduleSendPacket`, `DeleteOngoingTx`, `SendPacketDone`, `ReceivePacket`, `ReceivePacketDone`, `CalTxPsd`, the SINR test | `Clear`, setters; a log statement that dereferences an end iterator |
| `thz-channel` | `AddDevice`, `SendPacket`, `SendPacketDone`, `ReceivePacket`, `ReceivePacketDone`, `DeleteNoiseEntry`, `GetNoiseW`, `Clear` (in `NetDev`) | mobility and delay model (inputs) |
| `thz-dir-antenna` | `SetMaxGain`, `SetBeamwidth`, `TuneRxOrientation`, `GetRxOrientation`, `GetRxGainDb`, `GetTxGainDb`, `GetAntennaGain` | `Clear`, getters |
| `thz-spectrum-waveform` | `THzSpectrumWaveformInitializer`, `THzPulseSpectrumWaveformInitializer`, `CreateTxPowerSpectralDensity`, `CalculateEnergyConstant`, `CreatePulsePowerSpectralDensity`, `AllTHzSpectrumWaveformInitializer`, `FreqSeqStart/End`, `FreqStartValue`, `FreqBands`, `CreateConstant`, `CreateTxPowerSpectralDensityMask`, `CreateAllPowerSpectralDensity` | a missing data file; the result file `PSD-MASK.txt` |
| `thz-spectrum-propagation-loss` | `CalcRxPowerSpectralDensity`, `CalcRxPowerDA`, `CalculateSpreadLoss`, `CalculateAbsLoss`, `LoadedAbsCoe` | a missing data file |
| `thz-net-device` | `Send`, `SendFrom`, `ForwardUp`, `SetMac`, `SetPhy`, `SetChannel`, `Clear`, `IsLinkUp` | trace sources, `SetMtu`, `SetNode`, promiscuous callback |
| applications | all four, except addresses, ports and log output | `PacketLossCounter` (part of ns-3; C95 is about any counter) |
| `helper/` | `THzHelper::Install` | the other helpers (they set attributes) |
| `examples/` | nothing; their parameters are used in witnesses | |

Simplifications inside a definition are stated in the comment above it, with file and lines of the code it stands for.

## 4. How the proofs go

* Header: byte lists; round trip by computation on symbolic bytes.
* Sequence filter, energy, applications: induction over histories.
* Nano MAC: an invariant (`NanoInv`: the queue is the list of unresolved accepted packets in order, every pending event refers to an
  accepted packet, ...) by induction over operations; further invariants for order, retries, liveness, energy credit. Network: ghost
  history of frames sent; invariant relating ACKs on the air to deliveries.
* Macro MAC and client: each member function is decomposed into micro steps that all preserve a relation (`MacroMicro`, `ClientMicro`),
  so that an invariant has to be checked on micro steps only.
* Access point: invariants over runs plus exact evaluation of the two windows (`ApRun`, `ApCts`).
* PHYs: invariants on records of arrivals; integer arithmetic modulo the symbol duration (nano).
* Channel: a bijection between scheduled events and log entries as invariant.
* Complete devices: the layers are connected as in the code; one invariant relates what the MACs handed over and were given to the log
  of the channel (`StackInv`, `NanoStackInv`, `AirInv`, `CStackInv`); every history projects to one of the models without a channel, whose
  theorems then apply.
* Antenna, spectrum: real analysis with Mathlib.

The witnesses of violations are concrete runs evaluated by the kernel (`decide`); the negations that they prove are existential, so
one run is a full proof. No universally quantified claim rests on evaluation of samples.

## 5. Status of every property

"proved": the statement holds and is proved. "partial": the note says what is violated, what is missing and what is proved.

| | property | status | note |
|---|---|---|---|
| C01 | MAC header round trip | proved | All five types, every payload, either host byte order; fields not carried keep the receiver object's old value. |
| C02 | Announced header size equals bytes written | proved | Five types proved. C02_unknown_type_violated: for any other type byte (never created by the MACs) the announced size is 0 but one byte is written. |
| C03 | Duration announced in a header is the duration the peer reads | partial | Exact iff: whole ns in 0..65535. Violated outside (65536 ns reads as 0, fractions of a ns are cut); C03_duration_partial covers the range below 65536 ns up to 1 ns. |
| C04 | Header bytes determine the frame | proved | Both directions, plus: an RTS loses its duration. |
| C05 | No duplicate delivery by the sequence filter | proved | Over all histories. |
| C06 | The sequence filter never rejects fresh data | partial | Exact characterisation proved; increasing arrivals are all passed up. Violated after wrap: once 65535 was received nothing more is accepted from that source. |
| C07 | Stored energy never becomes negative | proved |  |
| C08 | Booking energy is all-or-nothing | proved |  |
| C09 | Energy ledger balances | proved | For harvests, bookings and refunds. That initialising the model a second time resets the store is C112. |
| C10 | Reaching the energy threshold wakes the MAC | partial | Violated: the callback runs only on exact equality; with default parameters one 100 byte booking silences it forever. Partial: holds if all amounts are multiples of the harvest amount. |
| C11 | Nano MAC queue is bounded | proved |  |
| C12 | Enqueue's answer is truthful | partial | Violated: a 64-byte packet is answered true and dropped, in every state. Proved for all other sizes. |
| C13 | Every accepted packet has one outcome | proved |  |
| C14 | Retry limit bounds the transmissions of a packet | partial | Violated for every limit: each packet for a new destination retransmits the queue head without a timeout. Partial: back-offs per packet are below the limit and equal its timeouts. |
| C15 | Success is reported only on acknowledgement | proved |  |
| C16 | Discard is reported only after the retry limit | proved | Exactly max(limit,1) timeouts. |
| C17 | Per-destination order of transmission | proved |  |
| C18 | Only intact frames for this node (or broadcast) reach the upper layer | proved |  |
| C19 | Every unicast data frame that is passed up is acknowledged, duplicates too | proved |  |
| C20 | A CTS is sent only as an answer to an RTS, with energy booked | proved |  |
| C21 | Broadcast packets leave the queue once sent | partial | Violated: no broadcast ever completes, it stays queued, fills the queue and blocks later first packets to other destinations, in every continuation. Partial: a broadcast entering an empty queue with energy is sent at once. |
| C22 | The nano MAC does not stall | partial | Violated: a run with default parameters ends with a queued packet, no pending event and ample energy. Partial: holds for packets already on the air and for a single unicast destination, unless an attempt lacked energy. |
| C23 | End-to-end: reported success means delivered exactly once | proved | Also for complete devices in time (C23_complete_devices). |
| C24 | End-to-end: deliveries are an in-order duplicate-free subsequence of what was accepted | proved | Also for complete devices in time (C24_complete_devices). |
| C25 | Refunds never exceed bookings in the nano MAC | partial | Violated with RTS and a large FrameLength: a CTS timeout creates energy. Partial: without RTS/CTS refunds are covered by bookings for reasonable pulse energies (as long as the energy model is not initialised again, C112). |
| C26 | Rounding of times to slots | partial | Violated: default 5 ns slot rounds 2 ns to 5 ns; a 1 ns slot moves every multiple; below 1 ns the code divides by zero. Partial: slots of at least 2 ns, nonnegative times. |
| C27 | Network allocation vector never moves backwards | proved | For the duration the received header reports; that RTS and DATA do not announce the right one is C72. |
| C28 | Residual back-off shrinks and is bounded | partial | Violated for a 20 ns slot (810 ns grows to 820 ns). Partial: slots of at least 2 ns dividing 810 ns, which includes the default. |
| C29 | The macro MAC honours the configured retry limit | partial | Violated: the limits are never read, the code uses the literal 5. Partial: five timeouts exactly. |
| C30 | Macro Enqueue's answer and the queue limit | partial | Violated: answers false for accepted packets, ignores the limit, compares the size modulo 65536. Partial: what is accepted and what is dropped. |
| C31 | Completion bookkeeping of the macro MAC is well defined | partial | Violated: completing the last record increments end(); success with an empty queue removes nothing and writes a nonexistent row. Partial: all other cases, for up to 65536 packets. |
| C32 | A macro MAC never starts a transmission while transmitting | partial | Violated: two grants lead to a call of the PHY during a transmission. Partial: the PHY refuses it, so transmissions never overlap. |
| C33 | A macro CTS releases the packet it was requested for | partial | Violated: a CTS arriving after its packet was discarded releases another packet's DATA frame. Partial: packets without outcome. |
| C34 | Every RTS gets one CTS at its own time | partial | Violated: a reception in progress when the window closes suppresses CTSs; with ns-3's default 1 ns resolution the second CTS is lost. Partial: one CTS per RTS is scheduled in order in every case, and without receptions each is sent at exactly its time, in order, and no other CTS until the data window ends. C34_collected: the RTSs answered are those received intact since the last window closed. |
| C35 | Granted data slots do not overlap | partial | Violated: the 16-bit wait wraps for eight clients; clients at different distances overlap. Partial: disjoint for waits below 65536 ns and clients at equal distance. |
| C36 | The data window covers all granted slots | partial | Violated with the default attributes for a BPSK client: the window is too short. Partial: covered if the granted rate is at least the one used for the window. |
| C37 | MCS selection is monotone in power | proved | Also without the assumption that the thresholds increase. |
| C38 | Every sounded node is assigned its strongest sector, once | partial | Violated: only the first reception in a sector counts; nodes heard below -200 dBm only are entered in sector 0. Partial: every node heard is entered exactly once, nobody else, in the sector of the strongest first reception; the full property if powers per sector do not change. |
| C39 | The access point sweeps every sector in every turn | partial | Range, advance, counting of full turns and coverage of every direction are proved for every beam width; revisiting the same sector angles is proved for beam widths 360/n and violated for 100 degrees. |
| C40 | One ACK per received data frame, then the access point moves on | partial | Violated: a reception that disturbs the ACK loses it and stops the access point; an ACK event on an empty list is undefined behaviour. Partial: order and uniqueness for all histories; without receptions during the drain all ACKs are sent in order and then it turns. |
| C41 | The client only transmits when granted and never for a stranger's grant | proved | Every frame on the air is traced to the CTA or CTS that granted it, with its time; RTSs only in the sector last assigned; never more RTSs than CTAs or DATA frames than grants. |
| C42 | A client with queued data always has a record to serve | partial | Violated: after a discard the first record belongs to a packet no longer queued. Partial: with at most 65536 packets every queued packet has a record, and a record without queued packet is one given up whose settlement is due within 1 ps. |
| C43 | A discarded packet is never requested again | partial | Violated: the CTA that discards a packet also schedules an RTS for it, sent after the packet was settled. Partial: no frame for it later than 1 ps plus the longest grant-to-air delay after the discard. |
| C44 | Client back-off always ends | partial | Violated: when the packet backed off for is acknowledged, the back-off never ends, whatever number of CTAs follows. Partial: while its record exists the back-off ends after exactly n CTAs, 1 <= n <= 2^retry, and then the client contends. |
| C45 | Half duplex at the macro PHY | partial | Transmissions: proved. Receptions: violated, a frame during which the node transmitted is reported as received if another audible signal arrives after the transmission. Partial: success needs an audible frame that began while not transmitting, and each own transmission during it masked by a later arrival. |
| C46 | At most one reception result per arriving frame at the macro PHY | partial | Violated: a frame that fails the SINR test at the end of the busy period is reported as failed twice. Partial: the results of a frame are none, one, or two failures; a success belongs to a frame announced when it began. |
| C47 | Carrier sense is released | proved |  |
| C48 | Interference bookkeeping at the macro PHY | partial | Violated: an interferer that ends before the frame does not count; no record is ever discarded. Partial: with no own transmission and no other end in the last nanosecond, success exactly if the SINR against the signals still on the air at the end passes; the decibel comparison is shown equivalent to the ratio in watts. |
| C49 | Sorting of pulse times | proved |  |
| C50 | Pulse interleaving never collides with ongoing pulse trains | partial | Violated: with a pulse on the air at acceptance the new train can run into that train's next pulse. Partial: the start lies within one symbol; trains apart in the current symbol stay apart in every later one; an overlap arises only that way. |
| C51 | Pulse interleaving finds a gap or refuses, reading only initialised slots | proved |  |
| C52 | Nano reception is dropped exactly when it meets an own pulse | partial | Violated: own trains that are scheduled but have not started drop arrivals, and pulses that only touch count. Partial: the exact criterion; a frame that is received overlaps no own pulse. |
| C53 | Nano reception outcome | partial | Violated: uninitialised interference memory decides the outcome, and signals that do not overlap the frame are counted. Partial: every frame is reported exactly once, with the exact criterion. |
| C54 | The channel delivers to every other device exactly once | partial | Violated: a PHY attached twice (SetChannel called twice) is told of every transmission twice. Partial: if no PHY is attached twice, exactly once at every other attached PHY; per position of the device list, and for the ends and the sender, without that assumption. |
| C55 | Noise entries are removed when the frame ends | proved | The entry of a reception that ends is erased by an event at the same time; the theorem about instants says so. |
| C56 | Receive gain peaks at boresight and loses 3 dB at half the beam width | proved | Over the reals. Assumes SetBeamwidth was called (the BeamWidth attribute alone leaves the exponent of the pattern uninitialised). |
| C57 | Orientation normalisation keeps the direction | partial | Proved over the reals. Violated with doubles: tuning to 1e20 degrees loops for ever. Partial for doubles: integer angles below 2^53. |
| C58 | An omnidirectional pair has the configured omnidirectional gain | partial | Violated: the modes are passed as bool, so two omnidirectional transceivers get gain 0 instead of the configured gain. Partial: the gain is the same in every direction. |
| C59 | The transmit spectrum carries exactly the transmit power | partial | Violated: m_numsb / m_numsample is a division of ints. With default attributes the macro spectrum has sub-bands of width 0 (integral 0) and a receiver sees less than 0.99 of the power (97 of 98 sub-bands); the nano spectrum carries 5111/5100 of the power; with more samples than sub-bands its constant is a division by zero. Partial: bounds, and exact if the number of samples divides the number of sub-bands and these fill the bandwidth. Over the reals. |
| C60 | Received power falls with distance | proved | Over the reals, positive distances, a table without negative coefficients (the shipped one has none) and a finite gain; after every history of calls. |
| C61 | The absorption cache is transparent | partial | Violated at distance 0: the absorption loss is 0 or 1 depending on earlier calls. Partial: transparent for every other distance; the received spectrum and power are transparent at every distance. |
| C62 | Send reports whether the device accepted the packet, unchanged | partial | Violated: Send answers true whatever the MAC answers (every packet below 14992 bytes is dropped by the macro MAC and reported as sent), and a 59996-byte packet is replaced by 65000 zero bytes. Partial: every other packet reaches the MAC unchanged behind its link header. |
| C63 | Receive dispatch of the net device | proved | For packets with an 8-byte LLC/SNAP header; C63_short: a shorter packet aborts the program. |
| C64 | UDP client numbers its packets consecutively | partial | Violated: the counter is never incremented, every packet carries 0. Partial: every packet has the configured size. |
| C65 | Trace client sends every byte of the trace | partial | Violated: a frame whose size is a multiple of the maximum is followed by a 12-byte packet, a rest below 12 bytes is padded to 12, and a maximum below 12 is exceeded. Partial: order, times and sizes of all packets; sizes add up exactly iff the rest is at least 12 bytes, and never by more than 12 bytes too many. |
| C66 | Trace client never hangs or reads outside the trace | partial | Violated: a trace without waiting times (one frame at time 0) loops for ever; SetRemote empties the trace, so that Send reads outside it; MaxPacketSize 65536 is stored as 0 and divided by. Partial: every Send ends within one round of the trace if some frame has a waiting time and the maximum is not 0. |
| C67 | Traffic generator never sends to its own node | partial | Violated: the index in the container is compared with the id of the node; with a container of just node 0 the search never ends. Partial: right if every node's id is its index in the container. |
| C68 | Device wiring is independent of the setup order | partial | Violated: a channel set before the PHY is never attached, one set twice is attached twice. Partial: MAC and PHY are linked in every order; the channel has the device once for every call of SetChannel after SetPhy; THzHelper::Install is right. |
| C69 | One outcome per packet in the macro MAC | proved |  |
| C70 | Macro success is backed by an acknowledgement | proved | For at most 65536 accepted packets, as stated. |
| C71 | The macro MAC does not stall with packets queued | partial | Violated: after a discard nothing is pending although a packet is queued. Partial: until the first outcome, with unicast packets only, something that leads on is always pending. |
| C72 | Reservations are announced on the air | partial | Violated: the RTS carries no duration and the DATA header is serialised before the duration is set. Partial: a node overhearing a DATA frame honours whatever value it carries. |
| C73 | A stronger client gets at least the data rate of a weaker one | partial | Violated: below the BPSK threshold the highest rate is granted. Partial: above it the rate is monotone. |
| C74 | The access point keeps sweeping, one sector at a time | partial | Violated both ways: the sweep dies, and two sweeps run at once. Partial: three-way runs whose receptions do not disturb a CTA or an ACK. |
| C75 | The client settles every packet at most once | proved |  |
| C76 | The client reports success only after an ACK | proved | Including that the DATA frame on the air carried the packet's destination and body while sequence numbers are unique. |
| C77 | The client does not wait for an ACK for ever | proved |  |
| C78 | Retries are charged only for frames on the air | partial | Violated: a scheduled RTS suppressed by the MAC state is charged as an unanswered one. Partial: a charge is preceded by DATA on the air for the packet, or by a CTA to contend on. |
| C79 | Enqueue says whether the client took the packet | partial | Violated: the answer is always false. Partial: what Enqueue does to the queue depends on the size only. |
| C80 | A broadcast packet does not block the client | partial | Violated, for every later history: a one-way client whose first packet is a broadcast never transmits nor settles anything. Partial: packets accepted before the broadcast are not held up by it. |
| C81 | The client discards only after the retry limit | proved |  |
| C82 | No timer of the client is set in the past | partial | Violated: in the three-way protocol CTAs between the CTS and the DATA make the ACK timeout due in the past. Partial: every other event, and in the one-way protocol every event, lies ahead. |
| C83 | The macro PHY senses every audible signal | partial | Violated: a signal that begins during an own transmission is never sensed. Partial: with more than 1 ns of it left and not transmitting at its beginning, carrier sense is busy and the PHY says it is not idle. |
| C84 | A frame announced to the MAC is concluded | partial | Violated: an own transmission, or any signal ending within the last nanosecond, leaves the announced frame without result. Partial: otherwise the result comes at its end. |
| C85 | The SINR threshold is in dB | partial | Violated at the nano PHY: the threshold documented in dB is compared with the plain ratio. Proved for the macro PHY. Partial for the nano PHY: the threshold is a ratio; the two agree at the default 10. |
| C86 | A transmission does not turn other nodes' antennas | partial | Violated: the channel passes the orientation of the sender's antenna to the antenna of the other device, which stores it. Partial: antennas in receive mode keep their orientation if the sender is in transmit mode, or is the only node in receive mode. |
| C87 | Each end of a link contributes its own antenna gain | partial | Violated: the antenna at the far end of the link is used for both ends. Partial: right if both antennas are configured alike. |
| C88 | Absorption is that of the nearest tabulated frequency | partial | Violated: the first tabulated frequency within 0.9894 GHz is taken, which for the shipped table (steps of 0.763 GHz) is the one below. Partial: the coefficient is that of a tabulated frequency within 0.9894 GHz, or 0; the nearest one if the table is sparser than the window. |
| C89 | The transmit spectrum covers the configured band | partial | Violated: integer division; with default attributes all sub-bands are empty and at the same frequency. Partial: right if the number of samples divides the number of sub-bands and these fill the bandwidth. |
| C90 | Disposing of one device leaves the other devices attached | partial | Violated: Clear empties the device list of the shared channel. Partial: devices on other channels, and the MAC/PHY wiring of other devices, are kept. |
| C91 | An installed device reports its link as up | partial | Violated: m_linkup is never initialised, the answer is whatever the memory held. Partial: without a PHY the link is down. |
| C92 | The UDP client keeps sending until it is stopped | partial | Violated: after one refusal of the socket the client never sends again. Partial: as long as the socket takes the packets, every packet is sent at its time. |
| C93 | The delay between packets has the documented unit | partial | Violated: draws are taken as microseconds, rounded down to whole ones (a draw below 1 gives delay 0). Partial: the delay is the draw in microseconds, less than 1 us too short. |
| C94 | The UDP server counts every datagram once while it runs | partial | Violated: a non-empty datagram shorter than 12 bytes ends the program, and a stopped server still counts IPv6 datagrams. Partial: right (modulo 2^32) for IPv4 datagrams that are empty or carry the header. |
| C95 | The UDP server can report the packets that were lost | partial | Violated for every conceivable loss counter: all packets of the client carry the number 0. Partial: the number of received packets is right. |
| C96 | Loading a trace gives one frame for every line | partial | Violated: the last line is loaded twice if the file ends with a newline, an empty file gives an uninitialised frame, and the default trace is appended to the loaded one. Partial: exact contents for every file; waiting times add up if the times do not decrease. |
| C97 | The trace client numbers its packets | proved |  |
| C98 | End-to-end, macro MAC: reported success means delivered exactly once | partial | Violated: the counter is uninitialised and may wrap after one packet, then the receiver rejects but acknowledges; a CTS for a packet already given up releases the newest packet's DATA, older packets are then rejected but acknowledged. Partial: right for packets timed out less than five times if no counter wraps and no CTS arrives for a packet already reported; without RTS the latter holds in every history. |
| C99 | End-to-end, macro MAC: deliveries are an in-order duplicate-free subsequence of what was accepted | proved | In every history, as long as no sequence counter wraps (quantifier). |
| C100 | Client: packets are served in the order in which they were accepted | proved |  |
| C101 | End-to-end, centralised: reported success means delivered exactly once | partial | Violated: an access point passes up and acknowledges packets for another one; the counter is uninitialised and may wrap after one packet; a dummy RTS (sounding) has an uninitialised number, which may be that of a later packet; granted by a second access point it releases that packet, the older one is then rejected but acknowledged. Partial: if no counter wraps and every CTS received was asked for with an ordinary RTS, some access point passed the packet up exactly once; without sounding the latter holds in every history, and with a single access point it is that one. Violations and partial theorem also for complete devices (C101_complete_...). |
| C102 | End-to-end, centralised: deliveries are an in-order duplicate-free subsequence of what was accepted | proved | In every history, as long as no sequence counter wraps (quantifier). |
| C103 | Access point: passes up and answers only what was addressed to it | partial | Violated: the destination address of DATA and RTS frames is never looked at. Partial: everything else: what is passed up or answered is an intact frame of the right type, unaltered, answered to its source with its number. Violation and partial theorem also for complete devices (C103_complete_...). |
| C104 | Complete macro devices: what is received was sent | proved |  |
| C105 | Complete macro devices: an undisturbed frame is received | proved | For frames of positive duration. |
| C106 | Complete macro devices: over a good link a packet is delivered and its success reported | partial | Violated: the CTS and ACK timeouts allow for a propagation delay of 33.356 ns (10 m) whatever the distance; over 12 m every packet is reported as failed, without RTS after it was delivered five times over. Partial (C106_clean_exchange_partial, C106_clean_exchange_delivered_partial): whenever the sum of the two propagation delays is below twice the hard-coded delay and a slot, an undisturbed exchange succeeds: of DATA and ACK without RTS, and of RTS, CTS, DATA and ACK (C106_clean_rts_partial, C106_clean_handshake_partial) if the receiver holds no reservation when the RTS arrives. That the first frame is sent at all (back-off) is not part of it. |
| C107 | Macro MAC: DATA for me is acknowledged in time | proved | 'Starts no other' is read as: nothing but an ACK at that very moment, and no DATA frame of another packet received at the same moment. Time does not pass beyond a pending event (onTimeRun). |
| C108 | Macro MAC: an ACK that comes in time counts | proved | Conditions as stated in the property; time does not pass beyond a pending event (onTimeRun). |
| C109 | Macro MAC: an RTS for me is answered in time | proved | 'Starts no other' is read as: nothing but a CTS at that very moment, and no other RTS received at the same moment. Time does not pass beyond a pending event (onTimeRun). |
| C110 | Macro MAC: a CTS that comes in time leads to the DATA frame | proved | Conditions as stated in the property; 'starts no other' is read as: nothing but a unicast DATA frame at that very moment, and no CTS with another number received at the same moment; time does not pass beyond a pending event (onTimeRun). |
| C111 | Energy is harvested at the configured rate | partial | Violated for every energy model aggregated to a node, as the helper does: DoInitialize overrides the virtual function ns-3 calls at time 0, and the constructor schedules another call, so two series of harvests run and the rate is doubled. Exact times and rate for any number of starts proved; partial: right if harvesting was started once. Trusted: ns-3 calls DoInitialize of aggregated objects once. |
| C112 | Stored energy is kept until it is booked | partial | Violated: the second DoInitialize sets the store back to its initial content (61 units are lost after 480 us with default attributes and a draw of 60). Partial: the ledger balances since the last start. |
| C113 | The masked transmit spectrum carries the transmit power | partial | Exact value proved: power times (number of sub-bands / 24) / 4. Violated unless the window has 96 to 119 sub-bands (default: 97), and by an exception if the pulse spectrum was initialised in between. Partial: 96 to 119 sub-bands. |
| C114 | The transmit mask is centred in its window | partial | Violated for the default window: groups 8 to 19 of 24 are used instead of 7 to 18. Partial: symmetric about its own middle, and centred if the window has 26 bands per group band. |
| C115 | The positions in the frequency table agree with each other | partial | Violated if the table ends with the last band (the last row returned is one too low) and for a window above the table. Partial: sorted table with one row more than needed. |
| C116 | The density over the whole spectrum is that of each band | partial | Violated for tables beginning with 0 as the one shipped: the bands begin at 89.9378 GHz. Partial: each band has the density of its row; right (but for one extra band) if the rows are the centres. |
| C117 | Complete nano devices: what is received was sent | proved | For all histories of complete nano devices (MAC, energy store, PHY, channel, one clock). |
| C118 | Complete nano devices: a frame whose pulses meet no others is received | partial | Violated: the interference field of a new reception is read before it is written; if it happens to hold a large value a strong frame alone on the air is not received. Partial: that field holds zero and no pulse train the receiver has booked starts later than one pulse after the arrival begins (that a later one matters is C52_future_violated). |
| C119 | Complete nano devices: an undisturbed exchange succeeds | partial | Violated over 15 cm: the acknowledgement timeout allows 676 ps for both propagation delays together, so every frame is received, B passes the packet up, and A reports failure. Partial: no RTS; the delays and the waiting for a pulse slot at both ends are below 676 ps; the interference field holds zero; at most 65535 packets. |
| C120 | Complete nano devices: reserved energy is returned exactly if DATA does not come | partial | Violated in every exchange (C120_data_comes_later): the timeout is the duration of a CTS and 676 ps and leaves no time for DATA, so the energy is returned before DATA comes and nothing is booked for it. Partial: it is returned if DATA does not come within that time, and only at that time. |
| C121 | A simulation is reproducible | partial | Violated by nano back-offs, which seed the generator with the time of day, and by energy models, which draw from a range given by a member not yet initialised. Partial: simulations without them. |
| C122 | The seed the user sets governs the simulation | partial | Violated: giving a nano device its address overwrites the global seed, so for every simulation that begins with installing one the seed has no effect. Partial: no nano device is given an address or backs off. |
| C123 | No two random numbers share a stream | proved | Every random number is the first of a new random variable. Trusted: ns-3 gives each the next free stream. |
| C124 | Centralised scenario, complete devices: nothing is received that was not sent | proved |  |
| C125 | Centralised scenario, complete devices: an undisturbed frame is received | proved | For frames of positive duration. |
| C126 | Result file of the ad hoc macro MAC | partial | Violated: sizes are kept in 16 bits; a packet of 80536 bytes is reported as 14964 bytes of data. Partial: lines are true, the size for packets below 65519 bytes; every report gets its line if at most 65536 packets were accepted and the work on no other packet ends in the same instant; the counters are right modulo 65536. The delay is in ticks, the file rounds it down to nanoseconds. |
| C127 | Result file of a client | partial | Violated and partial as C126, for clients. |
| C128 | Throughput of macro devices | partial | Violated: sizes are kept in 16 bits. Partial: packets below 65519 bytes, none reported in the instant of its acceptance (division by zero). Rates are rational numbers (no rounding). |

## 6. Findings

Every violated property of section 5 is a finding with a proof. Further observations made while reading and modelling, which
no property of their own covers (or which explain the violations):

* Macro MAC: a timeout sets the state to IDLE even during a transmission; `m_sequence` is not initialised (also in the client); the retry
  limits of the attributes are never read. `examples/thz-macro-central.cc` with `handshake_ways` 0 or 2 sets attributes that
  `THzMacMacro` does not have, so ns-3 aborts.
* Macro MAC, end to end: success can be reported for a packet that its destination discarded. The receiver acknowledges a DATA frame
  also when its duplicate filter rejects it. That happens after the sequence counter has wrapped, and after a CTS for a packet that was
  already given up: `ReceiveCts` releases the DATA frame of the packet enqueued last, so older packets come later than it (C98).
* Macro MAC, timeouts: `SendRts` and `SendData` wait for an answer as if the other device were 10 m away (33356 ps per direction, hard
  coded). With complete devices over 12 m every frame is received and every exchange is reported as failed (C106). The examples of the
  centralised MACs use distances up to 64 m.
* Centralised, end to end: the access point looks at the destination of no frame, so it grants, passes up and acknowledges packets for another
  access point (C101, C103). The number in a dummy RTS (sounding) is uninitialised; if it is that of a
  later packet and a second access point grants it, that packet goes out first, and the oldest one is then rejected, acknowledged and
  reported as successful (C101).
* Access point: the wait announced in a CTS is 16 bits of nanoseconds and wraps; `m_whiteList` is filled but never read; with the default
  attributes a client at the BPSK threshold needs more time than the data window has; the sweep can die (`deadRun`) and can double
  (`twinRun`); an ACK event on an empty list is undefined behaviour (`emptyRun`); beam width 0 is accepted and divides by zero; with the
  default resolution of 1 ns, two CTSs scheduled 1 ps apart coincide and the second is lost; sounding ignores later, stronger
  receptions in a sector, and puts clients below -200 dBm in sector 0.
* Client: a failed reception leaves it in state RX; `SendDataDone` increments `end ()`; a CTA that discards a packet then contends for that
  packet; the back-off is stuck when the packet it waits for is acknowledged; `Enqueue` always answers false; a broadcast packet blocks
  the one-way protocol; the ACK timer can be set in the past.
* Macro PHY: records of receptions are never erased (the erasing loop, thz-phy-macro.cc:382, continues with an iterator that is already at the end); a frame can be reported as failed
  twice; a frame that ends up to 1 ns earlier silently drops the one locked on; arrivals during a transmission are never sensed.
* Nano PHY: interference is accumulated on uninitialised memory; the SINR threshold documented in dB is compared with a ratio.
* Channel: the list of active signals is maintained but never read; `SetChannel` twice attaches twice.
* Antenna: the attribute `BeamWidth` alone leaves the exponent of the pattern uninitialised; the modes are passed as `bool`, so the case of
  omnidirectional antennas (mode 2) is never taken.
* Spectrum: `m_numsb / m_numsample` is an integer division; the absorption is that of the first line within the window, not of the nearest. The constant
  of the mask fits 96 to 119 sub-bands only, and the mask is one group off the middle (C113, C114).
* Net device: `Send` always answers true; a 59996-byte packet is replaced by zeros; `Clear` empties the channel shared with others.
* Energy: `THzEnergyModel::DoInitialize` overrides the virtual function ns-3 itself calls at time 0, and the constructor schedules a second
  call at a time drawn from an uninitialised member. The second call throws away what was harvested and starts a second series of
  harvests (C111, C112).
* Nano MAC timeouts: those for ACK and CTS allow 676 ps for propagation in both directions together, so devices more than about 10 cm apart always time
  out (C119); that for DATA leaves out the duration of DATA, so a receiver with RTS is never charged for DATA and ACK (C120); and
  what it reserves is `FrameLength` (default 5), not the length of the frame.
* Macro MAC and client keep packet sizes in 16 bits, so sizes and throughput of larger packets are reported wrongly (C126, C127, C128).
* Nano MAC `SetAddress` calls `SeedManager::SetSeed`, so the seed set by the user has no effect (C122), and `Backoff` calls it with the time of day, so
  simulations cannot be repeated (C121).

## 7. Tests with wrong programs

`seeded/LOG.jsonl` has one line per deliberately wrong edit of a definition, made in a scratch copy. How to read it:

* `theorems_failed` lists the property theorems that no longer compile with the edit, directly or because a lemma they use fails. That a
  proof script breaks does not by itself show that the statement became false: edits that break no claim also break scripts. It
  shows only that the theorem is no longer established. A theorem that still compiles is established for the edited program too, and it is
  these that were examined and tightened.
* `first_errors` lists the declarations with an error of their own.
* Edits with an empty `claim_broken` are controls: the claims are still true of the edited program, or none speaks about the behaviour.
* `theorems_without_verdict` lists theorems the run did not reach because the prover was killed for memory. They count neither as
  failed nor as surviving. An earlier version of the log counted them as failed in ten entries about `Macro`; those were run again
  and carry a `correction` field.
* When the prover was killed while printing error messages, the run was repeated with the messages of theorems suppressed and the
  `example`s left out; the verdicts come from `#print axioms` in either case.

## 8. Trusted base

* Lean 4.33.0's kernel, and the Mathlib definitions that statements mention (`Real`, `logb`, `rpow`, `cos`, `Complex.arg`, lists, ...).
* That the Lean definitions describe the C++ code. Each cites file and lines; section 3 lists what is left out.
* That ns-3 behaves as assumed: events run in time order, `Schedule` with a nonnegative delay, random variables in their range, `Buffer`
  reads and writes in the byte order documented, `LlcSnapHeader` and `SeqTsHeader` with 8 and 12 bytes.
* No axiom is declared, there is no `sorry`, `native_decide` or `bv_decide`. Axioms used by the theorems of `MANIFEST.json` (checked with
  `#print axioms`; the first group names each theorem, the last group consists of all others):

* no axioms: 1 theorems.
  C95_lost_violated
* `propext`: 18 theorems.
  C02_sizes, C02_unknown_type_violated, C26_division_by_zero_violated, C26_half_slot_violated, C45_half_duplex_violated, C46_twice_violated, C48_overlap_violated, C53_junk_violated, C66_outside_violated, C67_self_violated, C68_linked_partial, C68_order_violated, C83_unsensed_violated, C84_unconcluded_violated, C90_dispose_partial, C91_linkup_partial, C92_failure_violated, C96_load_violated
* `Quot.sound`: 1 theorems.
  C37_choice
* `propext`, `Quot.sound`: 40 theorems.
  C01_header_round_trip, C02_header_size, C03_duration_partial, C03_duration_violated, C04_bytes_determine_frame, C04_rts_drops_duration, C30_answer_violated, C30_enqueue_partial, C30_size_wraps_violated, C37_best, C50_collision_violated, C52_future_violated, C52_touch_violated, C53_bridge_violated, C54_double_violated, C62_answer_violated, C62_packet_partial, C62_packet_violated, C63_dispatch, C63_short, C64_seq_violated, C64_size_partial, C65_bytes_partial, C65_bytes_violated, C65_order_partial, C66_ends_partial, C66_hang_violated, C67_self_partial, C68_attached_partial, C73_rate_violated, C79_answer_violated, C91_linkup_violated, C92_sends_partial, C93_delay_partial, C93_delay_violated, C94_count_partial, C94_count_violated, C95_received_partial, C96_load_partial, C97_seq
* `propext`, `Classical.choice`, `Quot.sound`: 277 theorems.
