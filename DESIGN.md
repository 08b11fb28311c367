# Formal model of lambdalib: design

The object of study is `/repo` (lambdaconcept/lambdalib, an Amaranth HDL core library plus a little
host-side Python). The model is written in Lean 4 under `lean/Verif/`.

## 1. Modelling method

* **Synchronous circuits.** Each Amaranth `Elaboratable` with one clock domain becomes a Mealy machine
  `Circuit σ ι ο` (`Verif/Spec/Circuit.lean`): a reset state, an output function (the `m.d.comb`
  assignments) and a next-state function (the `m.d.sync` assignments). Inputs are arbitrary functions
  `Nat → ι` (one value per clock cycle), so a theorem quantified over the input waveform covers every
  environment, schedule, stall pattern, pin waveform, history and length of execution.
* **Streams.** `transferred valid ready beat n` is the list of beats that crossed an interface
  (valid and ready both high) in the first `n` cycles. `Stable` is the "hold your beat until it is taken" rule.
  Properties are stated with these notions only (`Verif/Spec/*`), never with model registers, unless a
  register is itself an observable output.
* **Widths.** Registers are `Nat`s truncated explicitly (`% 2^w`) where the hardware truncates, `BitVec`
  where bits are inspected, or `Int` with two's complement wrapping. Payloads that the code does not
  inspect are an arbitrary type.
* **Generators.** Constructor parameters (ratios, counts, timeouts, lists of stages...) are Lean parameters;
  theorems quantify over them.
* **Python code** (host library, PLL solver, layout checks, simulation checker) is modelled by total
  functions in `Except`/`Option`, branch by branch.

Files: `Verif/Spec` small specification vocabulary; `Verif/Model` definitions citing the modelled lines;
`Verif/Lemmas` invariants and helper lemmas; `Verif/Props` the property theorems `Cxx_...` with a
concrete non-trivial `example` beside each.

## 2. Trusted base

* Lean 4.33.0 kernel, with at most the axioms `propext`, `Classical.choice`, `Quot.sound`
  (each `Props` file ends with `#print axioms`-checked theorems; no `sorry`, no own axioms, no
  `native_decide`, no `bv_decide`).
* The hand translation from Python/Amaranth to Lean (definitions in `Verif/Model`, each citing file and lines).
* Amaranth 0.4 semantics assumed: a later assignment overrides an earlier one; a comb signal without active
  assignment has its reset value (0 by default); a register keeps its value without active assignment and
  starts at its reset value; assignment truncates; `Signal(range(n))` has the minimal width holding `n-1`;
  `Record.connect` copies fan-out fields forward and ORs fan-in fields back. The domain reset input is not
  asserted after power-on, except where the code itself inserts one (`ResetInserter`).
* Simulation processes (`add_sync_process`) run at each clock edge, read the values before the edge and assign values
  that appear after it; `random` is an arbitrary input.
* A degenerate FSM/switch on a zero-width signal (e.g. `Arbiter` with one sink) is excluded: `n ≥ 2`.
* Not in `/repo`, hence abstracted (arbitrary inputs or explicit contract): `amaranth.lib.fifo`,
  `FFSynchronizer`, `amaranth_stdio.serial`, `luna`, Wishbone targets, vendor primitives. Analog behaviour,
  metastability and physical timing are out of scope. Python floats are modelled as exact rationals.

## 3. Plan per property

| Id | Modelled | Method |
|----|----------|--------|
| C01 | `PipeValid` | invariant accepted = delivered ++ pending, induction on cycles; stability by case analysis |
| C02 | `PipeReady` | invariant with skid register; induction |
| C03 | `_UpConverter` (BitVec lanes) | refinement to list grouping spec; induction |
| C04 | `_DownConverter` | refinement to flatMap of slices; induction, sender stable |
| C05 | both converters | composition of C03/C04 list specs |
| C06 | `_get_converter_ratio`, `_Converter` | decision logic, divisibility |
| C07 | `get_full_layout`, `_make_fanout` | decision logic by induction on layout |
| C08 | `_FIFOWrapper`, depth rule; FIFO contract abstract | pack/unpack round trip; invariant relative to FIFO contract |
| C09 | `Stitcher` | invariant: index = number of firsts/lasts mod count |
| C10 | `Splitter`, n sources | invariant on done flags; induction |
| C11 | `Merger`+`PipeValid` | composition with C01 |
| C12 | `LastInserter` | refinement to list function re-marking last |
| C13 | `LastOnTimeout`+`WaitTimer` | invariant; timer characterisation C19 |
| C14 | `RoundRobin` | variant: cyclic distance decreases |
| C15 | `Arbiter` | history invariant |
| C16 | `Arbiter` | variant + timer |
| C17 | `MemoryStream`, memory as function | phase invariants (write, rewind, read) |
| C18 | `MemoryStreamReader` | invariant |
| C19 | `WaitTimer` | induction: count = t - run length |
| C20 | `WaitNTimer` | induction from idle |
| C21 | `PulseClock` | phase accumulator invariant |
| C22 | `TuningClock` | parity invariant over C21 |
| C23 | `StreamRegs` (both) | history invariant |
| C24 | `Multiplier` | no-overflow lemma + C01 |
| C25 | `CLZ` | case analysis / bit-length characterisation |
| C26 | `Int2Float` arithmetic | arithmetic proof via floor/log2; INT_MIN refuted by witness |
| C27 | `Int2Float` pipeline | invariant |
| C28 | `I2CRegStream` | refinement to flatMap |
| C29 | `TCA9548A` | invariant |
| C30 | `I2CInitiator` | state invariant on FSM phases |
| C31 | `I2CInitiator` write | trace lemma by induction on bits and waits |
| C32 | `I2CInitiator` read | trace lemma |
| C33 | `I2CInitiator` busy | case analysis; first idle cycle refutes literal claim |
| C34 | `I2CStream` | trace refinement |
| C35 | `I2CWriterStream` | invariant; lost final retry refuted by witness |
| C36 | `I2CProto` | trace refinement; desync witnesses |
| C37 | software `I2CBus` + proto grammar | encode/parse round trip |
| C38 | `LiteSPIClkGen` | invariant |
| C39 | `_LiteSPISDRPHYCore` | trace lemma |
| C40 | `SPIStream` | FSM invariant |
| C41 | `SPIPHYSlave` | refinement; stage reset witness |
| C42 | `SPIWishboneBridge` | trace refinement |
| C43 | `WS2812B` | trace lemma |
| C44 | `BlinkKeep` | timer induction |
| C45 | `IIRFilter` | refinement to recurrence |
| C46 | serial wrappers, UART abstract | invariant |
| C47 | `_Splitter` (ULPI) | history invariant |
| C48 | `_Sender` | history invariant |
| C49 | `_Transceiver` | invariant |
| C50 | ECP5 `Parameters` | search soundness/completeness over rationals; existence proof |
| C51 | Xilinx `Parameters` | same |
| C52 | both `Parameters` as call machines | invariant over call sequences |
| C53 | `DELAY_LatticeECP5` | invariant/variant; witness |
| C54 | `SSD1306_Wrapper` | FSM trace |
| C55 | `SSD1306` | FSM trace |
| C56 | `USBGenericDevice` descriptor and endpoint lists | list induction |
| C57 | `_POR`, `_Timer` | counter induction |
| C58 | `StreamSimReceiver.verify` | decision logic |
| C59 | `I2CRegisterInit` | composition with C18 |
| C60 | `DumpULPIRegs`, endpoint wrappers | FSM trace |
| C61 | `LastOnTimeout` | expected false: witness + partial |
| C62 | `MemoryStream` | expected false at full power-of-two depth: witness + partial |
| C63 | `Converter` stage construction | expected false for `put_width_converter_first=False`: witness + partial |
| C64 | `PulseClock` | expected false: witness + partial |
| C65 | `Arbiter` | false in the stall corner: witness + partial |
| C66 | `Arbiter` | false in the stall corner: witness + partial |
| C67 | `Endpoint.__getattr__`, `get_full_layout` | false for hidden names: witness + partial |
| C68 | `I2CInitiator` | termination measure; false for `period_cyc` < 4 |
| C69 | `I2CInitiator` | FSM trace relation |
| C70 | `SPIPHYMaster` parameters | rational arithmetic; 8 bit divider refutes large ratios |
| C71 | `SPIPHYSlave` transmit path | refinement to the list of update edges; late first bit witness |
| C72 | `BlinkDomain` | counter induction |
| C73 | `DirectULPI` (ULPI clock domain) | FSM relation over C47, C48, C49 |
| C74 | `_Splitter` + receive FIFO | composition with C08; overflow witness |
| C75 | ECP5 `Parameters` | from C50; witness by optimality |
| C76 | ECP5 `Parameters` | from C50; witness by optimality |
| C77 | `SSD1306_Wrapper` | FSM trace; witness run |
| C78 | `StreamSimSender` as a circuit | invariant; variant |
| C79 | `StreamSimReceiver` as a circuit | invariant; variant |
| C80 | `StreamSimReceiver` | witness + partial |
| C81 | `StreamSimConnect` as a circuit; field mapping | FSM relation; list induction |
| C82 | `USBDevice.__init__` device loop | list induction |
| C83 | `hexdump` | list induction; read back |
| C84 | `ulpi_wrapper.v` receiver | state as a function of what the PHY told |
| C85 | `ulpi_wrapper.v` transmitter, PHY after the ULPI specification | simulation relation translator/PHY |
| C86 | register writes | relation for the write under way; witness + partial |
| C87 | packet boundaries | an open packet keeps the buffer filled; witness + partial |
| C88 | progress | decreasing work measure |
| C89 | `I2CBusDriver` | register equations; output-only SCL refuted by witness |
| C90 | `I2CInitiator` and `I2CBusDriver` on wires with any target | simulation relation per clock pulse phase, induction on cycles |
| C91 | the same with a device after the I2C specification | refinement of C90 to the device's history |
| C92 | `I2CStream` on wires with a device | C34 and C91 by mutual induction, progress, closed system |
| C93 | host, `I2CProto`, wires and a device | C36 and C92 by mutual induction, distance measure for completion, closed system |
| C94 | `RegsStream` | accounting invariant over the FIFO contract; lost word by witness |
| C95 | `Endpoint.bfm_send` | prefix invariant, idle-window invariant for the timeout, progress |
| C96 | `Endpoint.bfm_read` | the same |
| C97 | `SPIStream`, SPI master and slave connected | composition of C39, C40 and C41: clock pulses of the master as events of the slave; flags in flight for the chip select; liveness by measures |
| C98 | `USBEndpoint` (software) | bulk transfers as specification of the environment; induction on the full packets of a message |
| C99 | `I2CBus` on a `USBEndpoint` | simulation of the byte bridge of C37 by the packet bridge, per request |
| C100 | `elaborate` of both PLLs | parameter dictionary read by a specification of the vendor primitives |
| C101 | SPI stream, master, slave with FIFO and Wishbone bridge connected | C97, the FIFO contract and C42 composed; bus writes as a fold over the words; progress by the burst count |
| C102 | `I2CBus` calls, host, `I2CProto`, wires and a device | programs as trees of writes and reads; the host's place in the run of its program on the machine of C37 as invariant over C93; calls as programs, for every device |
| C103 | `I2CRegisterInit` with writer, initiator, wires and a device | `i2cInitFull`; byte count as progress measure over C91 and C35, the table as a run of groups of three with repeats (`Spec/I2cGroupsDev.lean`) |
| C104 | `SSD1306`, `I2CStream`, initiator, wires and a display | `ssdI2c`; sessions of C55 as a history of the device (C92), folded through the display controller (`Spec/Ssd1306Chip.lean`); closed system with the user |
| C105 | `Arbiter`, users, `TCA9548A`, `I2CStream`, wires and devices | `i2cShare`; the beats taken with their users as a list of whole packets (`Spec/Shared.lean`); the multiplexer as a machine over the history of the device (`Spec/Tca9548a.lean`); round robin distance as progress measure |
| C106 | `I2CInitiator` | number of timer strobes before the next rising or falling edge, times the quarter, plus the timer, as a potential that goes down by at most one per cycle |
| C107 | `examples/i2c_bridge.py` (UART), host library, wires and a device | `i2cTop`; the bridge with its host is a host of `I2CProto` in the sense of C102; induction over cycles with the times at which command, address and data bytes were taken (`protoClock`) against the arrivals of UART bytes |
| C108 | `examples/crg.py` | netlist of drivers (`Spec/Crg.lean`); C50, C51, C52, C75 and C100 for the PLL; resets as an equation over two cycles |
| C109 | `examples/spi_bridge.py` (`SPIMasterBridge` without USB), a device on the pins | `spiMst` as an instance of the link of C97; invariant over the list of selections (`Spec/SpiSession.lean`: what a listener on the pins sees), the device an arbitrary function of it |
| C110 | host `exchange`, packets, `examples/spi_bridge.py`, a device | C98 and C109; packets and messages (`Spec/SpiUsb.lean`) can be told apart; induction over the words taken; executions built for every program and device |
| C111 | `examples/spi_bridge.py` (`SPISlaveBridge` without USB), host `recv` | C41 and C71 for the slave; words in the FIFO counted against the time between two pushes; full packets only (`usbFullPackets`) |
| C112 | `examples/i2c_bridge.py` (USB), host library, wires and a device | `i2cUsbTop`; answers with their packet ends (`Spec/I2cFrames.lean`) against the reads of the program (`PyProg.Framed`); C102's place of the host in its program, with bytes under way counted against the time in which the bridge waits for them (`protoWait`, `protoFed`) |
| C113 | `USBGenericDevice` streams, attributes, handlers | `usbGeneric` around any adapters; the state of an adapter depends on its own endpoint only; C60 for the adapters |
| C114 | `SPIMasterBridge` and `SPISlaveBridge` on two boards, two clocks | slave cycle `n` samples the pins of master cycle `t n`, `t` any monotone function with bounded steps; levels of the SPI clock last half a period, data stays while the clock is high, the chip stays selected 4 cycles after an edge (`Lemmas/SpiSampled.lean`); then C97's words and C111 |
| C115 | chains of `PipeValid`, `PipeReady`, `SyncFIFO`, `AsyncFIFO` | induction over the list of components; each contributes order, capacity, stability and progress (`StreamGood`), kept by `chain` |
| C116 | `Converter` between two clocks (instants with edges of either clock) | the width converter seen at the edges of its clock is a run of the circuit of C03; FIFO contract for the crossing; refuted for the converter behind the crossing |
| C117 | `DirectULPI` with both clocks, power-on reset and FIFOs; PHY after the ULPI specification | the part in `ulpi` seen at the edges of its clock is a run of the circuit of C73; FIFO contract for the crossings; simulation relation transceiver/PHY (`PhyRel`); refuted for a slow user clock, proved for a user as fast as the PHY (`FifoShows`: the FIFO shows what was written up to a delay) |
| C118 | `DumpULPIRegs` with both clocks and power-on reset; PHY with registers (`Spec/UlpiDumpDirect.lean`) | simulation relation dump/PHY (`DumpPhyRel`); progress by waiting for edges |
| C119 | `USBGenericDevice` with both clocks, any number of endpoints | the two-clock device is the device of C113 with inputs gated by the edges; FIFO contract for the crossings; room stays until the next edge |
| C120 | `IIRFilter` against exact arithmetic | error as response of the feedback to one-sample errors (power series), strong induction with the headroom; refines C45 |
| C121 | `IIRFilter(dynamic=True)` | invariant of C45 for one sample with any history; coefficients irrelevant outside of the operand states |
| C122 | progress of converters, `Splitter`, `Merger`, `LastOnTimeout`, `Arbiter` | contradiction from an endless wait; each receiver marks its part for good; the stall timer or a packet end moves the grant again and again |
| C123 | chains of slices, FIFOs, `Stitcher`, `LastInserter`, converters, `Multiplier`, `Int2Float`, `IIRFilter` (`Stages`) | induction over the chain: each component turns sequences into sequences, keeping prefixes, and takes what is offered if its receiver does; a run cut at a cycle gives the beat on offer |
| C124 | `Splitter`, a component per branch and `Merger` (`ForkJoin`) | every part sees a run of its own; what a branch has given is a prefix of its fields of what was presented, and the Merger takes in lockstep; progress by induction over the number of beats taken from all branches |

## 4. Findings (claims the code does not satisfy)

- C26: `Int2Float` converts the most negative integer -2^31 to negative zero.
- C33: `I2CInitiator` executes a strobe in its first waiting cycle although `busy` is still high.
- C35: `I2CWriterStream`: when the last byte sent is not acknowledged and no further byte is offered, the
  retry never happens: in IDLE `use_data_from_cache` is false because `stage` is beyond `cache_stage`.
- C103: with the bug of C35, `I2CRegisterInit` raises `done` although the last register was not written, if the device refuses
  the last value of the table once.
- C36: `I2CProto` drives the write data into `I2CStream` without looking at `sink.valid`, so a host that is late
  gets a byte written that it never sent; the drain after an error runs for `length` cycles whether or not
  bytes arrive and also after a refused read, which has no data bytes, so that the next command is eaten if the host
  sends it before it has the status (`I2CBus` never does, C102); a
  read of zero bytes that is acknowledged reads until the length counter wraps (256 bytes).
- C37: `I2CBus.read_block_data` with a length above 255 raises `ValueError` only after it has written the
  register address to the device; `write_byte_data` drops the status; `read_byte_data` raises `TypeError`
  when the device does not acknowledge.
- C70: `SPIPHYMaster`: the divider has eight bits; a divisor above 255 (SPI clock below 1/512 of the system clock)
  is truncated silently and the SPI clock is faster than requested.
- C61: `LastOnTimeout` may withdraw an offered `last` when new data arrives while the receiver is not ready.
- C62: `MemoryStream` filled completely with a power-of-two depth never stops delivering, since the read
  address wraps before reaching `level`.
- C63: `Converter(put_width_converter_first=False)` clocks the width converter with `cd_from` although it
  sits behind the clock-crossing FIFO. C116: with edges of the sender at every second and of the receiver at every third
  instant it takes a byte twice and misses another.
- C64: `PulseClock`: a `rst` during a pulse stretches it to two cycles.
- C65/C66: `Arbiter`: if a sender resumes in the cycle in which the stall timer expires, the beat is
  delivered (or offered) and the grant moves away nevertheless.
- C67: a payload field called `description`, `bfm_send` or `bfm_read` is accepted but hidden by the Python
  attribute of the same name.
- C68: `I2CInitiator` with `period_cyc` below 4 never finishes a write or read: the quarter-period timer
  is constantly zero and the wait for SCL high needs a non-zero timer.
- C41: `SPIPHYSlave` with several stages: deselecting exactly at a word boundary does not go back to the first
  stage, so the next transfer is cut at the wrong places.
- C71: `SPIPHYSlave` shifts its output at the update edge, so in the modes that sample at the first clock edge
  the first bit appears too late; the chip select synchroniser starts at zero (selected), so the deselected line
  at power-on counts as an end of transfer and discards the first word.
- C60: `DumpULPIRegs` does not look at the command flag, so an RX CMD sent between the read command and the register value
  is delivered as the value; with `max_addr` above 63 the six-bit address wraps and the dump never ends.
- C74: `DirectULPI`: `_Splitter` does not look at `ready` of the receive FIFO; when it is full bytes are lost, and when
  the lost byte is the last of a packet this packet and the next are delivered as one.
- C51: `PLL_Xilinx7Series`: the dividers of secondary outputs are not rounded (24/7 for 350 MHz beside 100 MHz) and
  can exceed 128.
- C53: `DELAY_LatticeECP5`: if `taps` is lowered to the current position while a move pulse is in progress, the pulse is
  not counted and `locked` stays high with the delay one tap too long.
- C75: `PLL_LatticeECP5`: dividers of secondary outputs are rounded down without checking, the reported frequency is the
  requested one: 350 MHz beside 100 MHz is in fact 600 MHz.
- C76: `PLL_LatticeECP5`: the phase parameter is half of the divider and not an integer for odd dividers.
- C77: `SSD1306_Wrapper` looks at `i2c_error` only for the address byte. `I2CStream` stops the transaction at any byte that
  is not acknowledged, so the rest of the packet is sent as new transactions, its first byte as an address.
- C56: `USBGenericDevice` accepts any number of endpoint pairs; from 16 on the endpoint addresses are not legal, from 129
  on OUT addresses collide with IN addresses.
- C117: `DirectULPI` starts to transmit with the first byte of a packet; with a `sync` clock slower than the 60 MHz of the PHY the
  transmit FIFO runs empty inside the packet and the PHY transmits zero bytes in between (`C117_phy_refuted`: half the clock, the packet
  `a5 a6 a7` becomes `a5 00 a6 00 a7` on the wire). `por.done` and `por.rst` go into the `ulpi` domain without a synchroniser; the model has no
  metastability and sees them as they are.
- C86: `ulpi_wrapper.v` clears the pending update when any write completes, so settings changed while a write is under way are
  never written. Settings equal to the power-on registers of the translator (op mode 3) are never written either, and then
  the PHY is not reset.
- C87: `ulpi_wrapper.v` decides on the end of a packet by its buffer being empty, not by `tx_valid`: two packets a cycle apart
  are merged.
- C89: `I2CBusDriver` with an output-only SCL pad does not delay SCL, but SDA by two cycles: an SDA change within two cycles
  before SCL rises is flagged as a start or stop condition. (`I2CInitiator` does not use these flags.)
- C94: `RegsStream` does not look at `ready` of its FIFO, so words written while it is full are lost, without any sign to the software.
- C98: `USBEndpoint.recv`: a synchronous read that times out returns an empty list even if packets were received, so these are
  lost; an asynchronous read ignores the status of the transfer. If the device ends messages of full packets with an empty
  packet, a read of the exact length leaves that packet and the next read returns nothing. With such a device that answers
  every packet, as the SPI bridge of the examples, `exchange` of several packets (`examples/spi_bridge_soft.py` sends three)
  returns the answer to the first one only (`C98_exchange_packets_refuted`).
- C99: `I2CBus.discover_queue` over a `USBEndpoint` prints one address only: every status is a message of its own, and the read
  of 128 bytes ends after the first; the other 127 statuses are taken for the answers of later calls.
- C122: `Arbiter` with `timeout=0` moves the grant in every cycle; a sink whose turns fall on cycles in which the receiver is not ready
  waits for ever (`C122_arbiter_zero_timeout`).
- C80: `StreamSimReceiver` leaves `ready` high after the last beat asked for, so later beats are taken and not recorded.
- C100: `add_secondary_output` compares the domain only with the other secondary ones. With the primary domain given again,
  two outputs of the primitive drive the same clock.
- C101: `SPIPHYSlave` does not look at `ready` of its FIFO; with a Wishbone bridge behind it and a bus that answers late, words are
  lost. Replies of the bridge reach the master shifted by at least two bits, and the words sent to clock them out are taken as
  commands by the bridge.
- C105: `Arbiter` gives the bus to another user when a user pauses inside a packet for the timeout; on an I2C bus the
  bytes of both users are then in one transaction (`C105_pause_refuted`). After a refused address `I2CStream` begins a
  new transaction with the rest of the packet, so that data of one user can be taken as the address of the multiplexer
  (`C105_restart_refuted`). `done` of `TCA9548A` rises before the stop condition that makes the chip connect the channels.
- C107: `examples/i2c_bridge.py` over the UART: a write to a device that refuses it is drained for `length` cycles although
  its bytes are still arriving over the UART, so the rest of them is taken as commands: another device is written to, and the
  next call gets the wrong status (`C107_refused_writes_refuted`). The UART cannot be held back: bytes of buffers longer than the
  receive FIFO are lost, zeros are written to the device instead, and the write is reported as done
  (`C107_long_writes_refuted`); `discover_queue` sends 256 bytes.
- C108: `examples/crg.py` without ULPI: the `usb_io` clock, commented 48 MHz, is the `sync` clock, 100 MHz in the examples
  (`C108_usb_io_refuted`). The 12 MHz of `usb` are exact only if they divide the VCO frequency; on Xilinx the divider is
  not an integer otherwise, and can be above 128 even with `sync` at 48 MHz (`C108_xilinx_usb_refuted`).
- C109: `examples/spi_bridge.py`: `SPIStream` drops the chip select when the user takes the last result, which the master has
  sampled half a period before the last falling edge. With divisors above 3 this is before that edge
  (`C109_release_refuted`: 2.5 MHz at 100 MHz). Not modelled: `--width 2` and `--width 8` of the same example, which ask for
  2 and 8 lines but request a resource of 4 pins.
- C110: `examples/spi_bridge_soft.py` exchanges 1536 bytes in one call; if luna's endpoint sets `last` at the end of every packet,
  the bridge deselects the chip after each 512 bytes (`C110_one_selection_refuted`), and if it sends empty packets after full
  ones the call returns the first 512 bytes (`C110_empty_packets_refuted`). Neither is decided by the code in the repository. In
  synchronous mode the host does not read before all data are written; that the device takes a long buffer nevertheless is
  assumed (`SpiUsbRun.takes`).
- C111: `SPISlaveBridge` never sets `last`, so that the USB device has no reason to send a packet that is not full: a host that
  calls `recv` after a transfer of less than a packet gets nothing (`C111_short_refuted`). While the USB device takes nothing the
  ninth byte is lost (`C111_overflow_refuted`); a transfer that is not a multiple of eight bits ends with a byte whose upper bits
  are older ones, and the length is not passed on (`C111_partial_byte_refuted`). The answers of the slave are late by one bit as in
  C71; the example says that it cannot send.
- C112: `examples/i2c_bridge.py` over USB: the drain of a refused write drops one byte per cycle whether or not one is there. The USB
  clock is slower than the system clock (60 and 100 MHz), so a refused write that is longer than what the FIFO holds leaves bytes that
  are taken as commands, and the next call gets a wrong result (`C112_refused_writes_refuted`). `discover_queue` reads 128 answers in
  one call, but each answer is a packet of its own and the call returns the first (`C112_discover_queue_refuted`). If the endpoint ends
  full packets with an empty one, the call after a block read of full packets fails (`C112_full_packets_refuted`).
- C114: `SPIStream` ends a packet as soon as its last result is taken, 4 cycles after the last rising edge of the SPI clock at the
  earliest. A slave board that samples the pins more slowly than that, for example 16 MHz against 100 MHz, can see the deselection
  together with the edge and drop the last bit of the packet, even if the SPI clock is as slow as 5 MHz (`C114_slow_slave_refuted`).
- C120: `IIRFilter` has no headroom above the sample range and does not saturate: a filter of unity gain whose step response overshoots
  delivers -106 where the ideal output is 150 (`C120_wraps_without_headroom`; iir.py stores and delivers the low bits of the sum). C120
  has the headroom as its condition.

## 5. What is modelled

Every file of `/repo/lambdalib` outside `tests`, and three of the examples. Per file, what is left out:

| File | Modelled | Not modelled |
|------|----------|--------------|
| `interface/stream.py` | layouts, `Endpoint` attributes, fan-out, pipes, width converters, FIFO wrappers, `Converter` construction, `bfm_send`, `bfm_read` | the FIFO itself (contract) |
| `interface/stream_utils.py` | all cores | |
| `interface/stream_sim.py` | the three processes, `verify` | printing, callback |
| `cores/filter/iir.py` | filter with constant and with dynamic coefficients (`dynamic=True`), quantisation | scipy filter design |
| `cores/float/*`, `cores/math/*`, `cores/mem/*`, `cores/time/*`, `cores/regs.py` | all | |
| `litex/cores/regs.py` | register port, `RegsStream` | the CSR bank of LiteX (registers as write strobes) |
| `cores/i2c/*` | all cores, bus driver (synchronisers as two registers), lines and targets for C90-C93, with the host library (C102), the register initialisation down to a device (C103), a bus shared through an arbiter (C105) | pad buffers, metastability |
| `cores/lcd/ssd1306.py` | wrapper, driver, command tables, on the wires with a display (C104) | inside of the display (specified in `Spec/Ssd1306Chip.lean`) |
| `cores/led/*` | all | |
| `cores/pll/*` | parameter solvers, call order, parameters and connections of the primitives, delay line | inside of the primitives (specified in `Spec/PllPrim.lean`), clock constraints |
| `cores/serial.py` | stream wrappers, half-duplex control | the UART of amaranth_stdio |
| `cores/spi/*` | all, and stream, master and slave connected (C97), with the bridge (C101) | pad buffers, double data rate pins |
| `cores/usb/*` | ULPI cores, dump, link, endpoint adapters, generic device with its streams and handlers, descriptors without the contents of the Microsoft ones, UTMI reset, `ulpi_wrapper.v` | luna device stack |
| `software/*` | I2C host library, device choice, endpoint reads and writes, hex dump | libusb itself (bulk transfers are specified in `Spec/UsbBulk.lean`), control transfers |
| `examples/i2c_bridge.py` | `Top` with the UART link (C107) and, from `link.source` to `link.sink`, with the USB link (C112) | USB device, LEDs |
| `examples/crg.py` | all (C108) | requests of pads, PHY reset controller of luna, reset synchronizer of amaranth (specified in `Spec/Crg.lean`) |
| `examples/spi_bridge.py` | `SPIMasterBridge` (C109) and `SPISlaveBridge` (C111) from `link.source` to `link.sink`, as many pins as lines; both on two boards (C114) | USB device, LEDs |
