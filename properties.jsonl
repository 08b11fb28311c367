{"id": "C01", "title": "PipeValid is a lossless in-order one-beat register slice", "statement": "At every cycle the beats (payload, first, last) accepted so far on `sink` are exactly the beats delivered so far on `source`, in the same order, followed by the one beat currently presented with `source.valid` (if any). Nothing is lost, duplicated, reordered or altered, and an offered beat is never retracted or changed while `source.ready` is low.", "quantifier": "every input waveform, i.e. every sequence of beats, every valid/ready schedule on both sides and every number of clock cycles", "why_tests_cant": "a simulation samples a handful of random valid/ready schedules; the claim is about every infinite schedule and every beat value", "anchors": ["lambdalib/interface/stream.py:PipeValid"]}
{"id": "C02", "title": "PipeReady is a lossless in-order register slice", "statement": "At every cycle the beats accepted on `sink` are exactly the beats delivered on `source` in order, followed by one buffered beat exactly when `sink.ready` is low; beats offered on `source` are never retracted or changed under back-pressure even if the sender misbehaves; `sink.ready` depends only on past cycles.", "quantifier": "every input waveform, i.e. every sequence of beats, every valid/ready schedule on both sides and every number of clock cycles", "why_tests_cant": "a simulation samples a handful of random valid/ready schedules; the claim is about every infinite schedule and every beat value", "anchors": ["lambdalib/interface/stream.py:PipeReady"]}
{"id": "C03", "title": "Up-conversion packs consecutive narrow beats into wide words", "statement": "The wide words delivered by an up-converter are exactly the consecutive groups of `ratio` narrow beats (a group ends early on `last`): each beat of a group is found unchanged in its lane (lane order reversed when `reverse`), `first`/`last` of the word are the OR of the group's, at most one incomplete group plus one undelivered word are pending, and an offered word is stable under back-pressure.", "quantifier": "every input waveform, i.e. every sequence of beats, every valid/ready schedule on both sides and every number of clock cycles, every pair of widths with integer ratio, both `reverse` settings", "why_tests_cant": "a simulation samples a handful of random valid/ready schedules; the claim is about every infinite schedule and every beat value", "anchors": ["lambdalib/interface/stream.py:_UpConverter"]}
{"id": "C04", "title": "Down-conversion serialises every wide word into exactly `ratio` narrow beats", "statement": "For a sender that holds its beat until accepted, the narrow beats delivered are exactly, for every accepted word in order, its `ratio` slices (reversed order when `reverse`), with `first` only on the first slice and `last` only on the last slice; a word is accepted exactly with its last slice.", "quantifier": "every input waveform, i.e. every sequence of beats, every valid/ready schedule on both sides and every number of clock cycles, every pair of widths with integer ratio, both `reverse` settings", "why_tests_cant": "a simulation samples a handful of random valid/ready schedules; the claim is about every infinite schedule and every beat value", "anchors": ["lambdalib/interface/stream.py:_DownConverter"]}
{"id": "C05", "title": "Width conversion is invertible", "statement": "Serialising any sequence of wide words with the down-converter and repacking the result with the up-converter of the same ratio and `reverse` flag gives back the same sequence of data words with the same `last`/`first` marks; and conversely packing then serialising gives back the narrow beats whenever packets are a multiple of `ratio`.", "quantifier": "every sequence of words and every schedule at the two interfaces, every ratio and both `reverse` settings", "why_tests_cant": "round trips over unbounded histories and arbitrary stalls cannot be enumerated", "anchors": ["lambdalib/interface/stream.py:_UpConverter", "lambdalib/interface/stream.py:_DownConverter"]}
{"id": "C06", "title": "Converter selection accepts exactly the integer ratios", "statement": "Requesting a converter fails exactly when neither width divides the other in the direction of conversion; otherwise widths satisfy wide = ratio * narrow, equal widths give a pass-through, and both a wider and a narrower side pick the matching direction.", "quantifier": "every pair of positive widths", "why_tests_cant": "infinitely many width pairs", "anchors": ["lambdalib/interface/stream.py:_get_converter_ratio", "lambdalib/interface/stream.py:_Converter"]}
{"id": "C07", "title": "Endpoint layouts are rejected exactly when ambiguous", "statement": "Building an endpoint from a payload layout raises an error exactly when two fields share a name or a field uses a reserved stream name (valid, ready, first, last, payload); otherwise the endpoint has the five stream fields with `ready` the only signal flowing backwards and the payload fields preserved in order.", "quantifier": "every payload layout (list of named, possibly nested, fields)", "why_tests_cant": "infinitely many layouts", "anchors": ["lambdalib/interface/stream.py:EndpointDescription.get_full_layout", "lambdalib/interface/stream.py:_make_fanout"]}
{"id": "C08", "title": "FIFO wrapper carries whole beats and never builds a FIFO shallower than 8", "statement": "Whatever payload, first and last are pushed come out unchanged and in order (packing a beat in a FIFO word and unpacking it is the identity), occupancy never exceeds the depth, no accepted beat is lost, and the effective depth is max(requested, 8).", "quantifier": "every input waveform, i.e. every sequence of beats, every valid/ready schedule on both sides and every number of clock cycles, every layout and depth", "why_tests_cant": "a simulation samples a handful of random valid/ready schedules; the claim is about every infinite schedule and every beat value", "anchors": ["lambdalib/interface/stream.py:_FIFOWrapper", "lambdalib/interface/stream.py:SyncFIFO", "lambdalib/interface/stream.py:AsyncFIFO"]}
{"id": "C09", "title": "Stitcher groups exactly `count` packets", "statement": "Payloads pass through combinationally and untouched, and for a sender emitting well-delimited packets the output `first` marks are exactly those of packets 0, count, 2*count, ... and the output `last` marks exactly those of packets count-1, 2*count-1, ...: successive packets are grouped by `count`.", "quantifier": "every input waveform, i.e. every sequence of beats, every valid/ready schedule on both sides and every number of clock cycles, every count >= 1, every packet length", "why_tests_cant": "a simulation samples a handful of random valid/ready schedules; the claim is about every infinite schedule and every beat value", "anchors": ["lambdalib/interface/stream_utils.py:Stitcher"]}
{"id": "C10", "title": "Splitter delivers each field group exactly once per input beat", "statement": "For a sender that holds its beat until accepted, each source stream delivers, in order and exactly once, the projection of every accepted beat (plus possibly that of the beat being presented), whatever the relative speeds of the receivers; the beat is acknowledged exactly in the cycle in which the last source takes it.", "quantifier": "every input waveform, i.e. every sequence of beats, every valid/ready schedule on both sides and every number of clock cycles, any number of source streams with independent ready schedules", "why_tests_cant": "N independent back-pressure schedules give exponentially many interleavings", "anchors": ["lambdalib/interface/stream_utils.py:Splitter"]}
{"id": "C11", "title": "Merger joins its inputs in lock-step", "statement": "All sinks are acknowledged in the same cycles, and the k-th beat delivered on the source combines exactly the k-th accepted beat of every sink (payload fields unchanged, first/last the OR of the inputs); nothing is lost, duplicated or skewed between inputs.", "quantifier": "every input waveform, i.e. every sequence of beats, every valid/ready schedule on both sides and every number of clock cycles, any number of sinks with independent valid schedules", "why_tests_cant": "N independent schedules", "anchors": ["lambdalib/interface/stream_utils.py:Merger"]}
{"id": "C12", "title": "LastInserter bounds every packet to `count` beats", "statement": "Beats pass through in order and unchanged except for `last`; a delivered beat carries `last` exactly when the wrapped stream set it or when it is the count-th beat since the previous `last`; so no output packet is ever longer than `count`, and existing packet boundaries are kept.", "quantifier": "every input waveform, i.e. every sequence of beats, every valid/ready schedule on both sides and every number of clock cycles, every count >= 1", "why_tests_cant": "a simulation samples a handful of random valid/ready schedules; the claim is about every infinite schedule and every beat value", "anchors": ["lambdalib/interface/stream_utils.py:LastInserter"]}
{"id": "C13", "title": "LastOnTimeout never loses data and marks `last` only on idle", "statement": "Data beats are delivered in order without loss or duplication; a beat is released with `last` if it carried `last`, or when the input has been idle for `timeout` cycles; it is released without inserted `last` as soon as another beat arrives; for a sender that holds its beats, an offered beat is never withdrawn and its data never changes under back-pressure.", "quantifier": "every input waveform, i.e. every sequence of beats, every valid/ready schedule on both sides and every number of clock cycles, every timeout", "why_tests_cant": "a simulation samples a handful of random valid/ready schedules; the claim is about every infinite schedule and every beat value", "anchors": ["lambdalib/interface/stream_utils.py:LastOnTimeout"]}
{"id": "C14", "title": "RoundRobin grants every persistent requester within n-1 rotations", "statement": "The grant index is always a legal index; in each enabled cycle in which another requester is active the grant moves to the next requester in cyclic order; a requester that keeps requesting is granted after at most n-1 enabled cycles.", "quantifier": "every number of requesters >= 2, every request waveform and every enable waveform", "why_tests_cant": "unbounded request histories", "anchors": ["lambdalib/interface/stream_utils.py:RoundRobin"]}
{"id": "C15", "title": "Arbiter never interleaves packets", "statement": "Every beat delivered on the source comes from exactly one sink, unchanged and acknowledged only to that sink; after a beat without `last` from sink i, the next delivered beat also comes from sink i, unless sink i stayed silent for `timeout` cycles in between (or, inside the open packet, immediately before that beat).", "quantifier": "every input waveform, i.e. every sequence of beats, every valid/ready schedule on both sides and every number of clock cycles on any number of sinks", "why_tests_cant": "interleavings of N streams over unbounded histories", "anchors": ["lambdalib/interface/stream_utils.py:Arbiter"]}
{"id": "C16", "title": "Arbiter never starves a waiting sink", "statement": "A sink that keeps requesting is selected after at most n-1 releases of the source (packet completions, idle cycles or stall timeouts), and a selected sink that goes silent in the middle of a packet while others wait loses its grant after `timeout` silent cycles.", "quantifier": "every input waveform, i.e. every sequence of beats, every valid/ready schedule on both sides and every number of clock cycles on any number of sinks", "why_tests_cant": "liveness over infinite schedules", "anchors": ["lambdalib/interface/stream_utils.py:Arbiter"]}
{"id": "C17", "title": "MemoryStream replays what was written after each rewind", "statement": "After writing n words (n up to the depth) with any pauses, and a rewind, the first n words read from `source` are the n written words in order, with `last` exactly on the n-th; rewinding again replays the same words.", "quantifier": "every data sequence, every write/read pause schedule, every number of rewinds, every depth, buffered or not", "why_tests_cant": "a simulation samples a handful of random valid/ready schedules; the claim is about every infinite schedule and every beat value", "anchors": ["lambdalib/cores/mem/stream.py:MemoryStream"]}
{"id": "C18", "title": "MemoryStreamReader plays its table once per rewind", "statement": "Between two rewinds the source delivers exactly a prefix of the init table, in order, with `last` exactly on the final entry, stops after it, and `done` is set exactly when the whole table has been fetched; each rewind restarts from the first entry. With a ready receiver the whole table is delivered.", "quantifier": "every non-empty table, every ready and rewind waveform, buffered or not", "why_tests_cant": "a simulation samples a handful of random valid/ready schedules; the claim is about every infinite schedule and every beat value", "anchors": ["lambdalib/cores/mem/stream.py:MemoryStreamReader"]}
{"id": "C19", "title": "WaitTimer expires after exactly t consecutive waiting cycles", "statement": "`done` is high in a cycle exactly when `wait` was high in each of the t preceding cycles.", "quantifier": "every t and every wait waveform", "why_tests_cant": "unbounded waveforms and every t", "anchors": ["lambdalib/cores/time/timer.py:WaitTimer"]}
{"id": "C20", "title": "WaitNTimer expires after exactly the selected delay", "statement": "Starting from an idle cycle, if exactly the i-th wait input is held, `done` is low for the first ts[i] cycles and high from then on while it is held.", "quantifier": "every list of delays, every selected input, every wait waveform", "why_tests_cant": "unbounded waveforms", "anchors": ["lambdalib/cores/time/timer.py:WaitNTimer"]}
{"id": "C21", "title": "PulseClock has the exact average rate and no drift", "statement": "Without `rst`, the number of cycles in which `o` is high during the first n+1 cycles is floor(n*w/2^32) for the tuning word w, so the pulse count never deviates by one or more from the ideal count; while `rst` is held no new pulse starts.", "quantifier": "every tuning word of at most 2^32, every number of cycles, every rst waveform", "why_tests_cant": "drift only shows up over unbounded time", "anchors": ["lambdalib/cores/time/clk.py:PulseClock"]}
{"id": "C22", "title": "TuningClock toggles at twice the target rate without drift", "statement": "The number of output edges in n cycles is floor of the ideal count; output level is the parity of that count.", "quantifier": "every tuning word of at most 2^32 and number of cycles", "why_tests_cant": "drift only shows up over unbounded time", "anchors": ["lambdalib/cores/time/clk.py:TuningClock"]}
{"id": "C23", "title": "StreamRegs stores beat k of a packet in register k", "statement": "The stream is never stalled; after any history register k holds the payload of the most recent accepted beat whose position in its packet (positions restart after `last` and after `length` beats) is k, and `we[k]` is high exactly in the cycle after such a beat.", "quantifier": "every input waveform, i.e. every sequence of beats, every valid/ready schedule on both sides and every number of clock cycles, every length", "why_tests_cant": "a simulation samples a handful of random valid/ready schedules; the claim is about every infinite schedule and every beat value", "anchors": ["lambdalib/cores/regs.py:StreamRegs", "lambdalib/litex/cores/regs.py:StreamRegs"]}
{"id": "C24", "title": "Multiplier output is the exact product, in order", "statement": "The sequence of delivered products is the sequence of exact integer products of the accepted operand pairs (never truncated, for every signed/unsigned combination), with first/last preserved, and at most one pending result.", "quantifier": "every input waveform, i.e. every sequence of beats, every valid/ready schedule on both sides and every number of clock cycles, every operand shape (width, signedness) and every operand value", "why_tests_cant": "2^(wa+wb) operand pairs for every shape", "anchors": ["lambdalib/cores/math/multiplier.py:Multiplier", "lambdalib/cores/math/multiplier.py:multiplier_layout_o"]}
{"id": "C25", "title": "CLZ counts leading zeros", "statement": "For every non-zero 32-bit input the output is the number of zero bits above the most significant one bit.", "quantifier": "all 2^32 inputs", "why_tests_cant": "2^32 inputs", "anchors": ["lambdalib/cores/float/clz.py:CLZ"]}
{"id": "C26", "title": "Int2Float converts every int32 to the float32 rounded toward zero", "statement": "For every 32-bit two's complement integer the delivered word is the IEEE-754 single precision encoding of that integer rounded toward zero; it is exact when |x| < 2^24.", "quantifier": "all 2^32 inputs", "why_tests_cant": "2^32 inputs", "anchors": ["lambdalib/cores/float/i2f.py:Int2Float"]}
{"id": "C27", "title": "Int2Float pipeline preserves order and packet boundaries", "statement": "Under any stall schedule the delivered words are the conversions of the accepted words in order with `last` preserved, at most two in flight, stable under back-pressure.", "quantifier": "every input waveform, i.e. every sequence of beats, every valid/ready schedule on both sides and every number of clock cycles", "why_tests_cant": "a simulation samples a handful of random valid/ready schedules; the claim is about every infinite schedule and every beat value", "anchors": ["lambdalib/cores/float/i2f.py:Int2Float"]}
{"id": "C28", "title": "I2CRegStream emits one three-byte packet per register write", "statement": "For each accepted (addr, val) pair, in order, exactly the three bytes chip address << 1, addr, val are delivered, with `last` on the third only, under any back-pressure; the next pair is accepted only after the third byte is taken.", "quantifier": "every input waveform, i.e. every sequence of beats, every valid/ready schedule on both sides and every number of clock cycles, every chip address", "why_tests_cant": "a simulation samples a handful of random valid/ready schedules; the claim is about every infinite schedule and every beat value", "anchors": ["lambdalib/cores/i2c/stream.py:I2CRegStream"]}
{"id": "C29", "title": "TCA9548A keeps the multiplexer register in sync with `ctrl`", "statement": "Output is a sequence of two-byte write packets (chip address << 1, then a control byte with `last`); when `done` is high the last completed packet carries the current `ctrl`; if `ctrl` is stable and the receiver takes what is offered at some time, `done` is eventually reached.", "quantifier": "every ctrl waveform and ready schedule", "why_tests_cant": "a simulation samples a handful of random valid/ready schedules; the claim is about every infinite schedule and every beat value", "anchors": ["lambdalib/cores/i2c/tca9548a.py:TCA9548A"]}
{"id": "C30", "title": "I2C initiator only moves SDA under SCL high to signal start and stop", "statement": "In every execution, in every cycle in which the driven SDA level changes while SCL is driven high (before and after), the change is a falling edge belonging to a commanded start or a rising edge belonging to a commanded stop; all data and ack bits change only while SCL is driven low.", "quantifier": "every command sequence, every bus input waveform (slave data, clock stretching), every period", "why_tests_cant": "unbounded executions with adversarial bus inputs", "anchors": ["lambdalib/cores/i2c/i2c.py:I2CInitiator"]}
{"id": "C31", "title": "I2C write clocks out the byte MSB first and reports the acknowledge", "statement": "A write command accepted when idle produces exactly nine SCL rising edges; the driven SDA level at the first eight is the byte MSB first and at the ninth SDA is released; `ack_o` afterwards is the inverse of the sampled SDA.", "quantifier": "every byte, every bus input waveform, every clock stretching", "why_tests_cant": "adversarial bus inputs and stretch durations", "anchors": ["lambdalib/cores/i2c/i2c.py:I2CInitiator"]}
{"id": "C32", "title": "I2C read collects eight bits MSB first and drives the acknowledge", "statement": "A read command accepted when idle releases SDA for eight SCL pulses, latches the sampled bits MSB first in `data_o`, and drives the requested acknowledge level during the ninth pulse.", "quantifier": "every bus input waveform, both ack settings, every clock stretching", "why_tests_cant": "adversarial bus inputs and stretch durations", "anchors": ["lambdalib/cores/i2c/i2c.py:I2CInitiator"]}
{"id": "C33", "title": "I2C initiator ignores commands while busy", "statement": "A start, stop, read or write strobe asserted in a cycle in which `busy` is high has no effect; a strobe asserted while `busy` is low is executed.", "quantifier": "every state and input history", "why_tests_cant": "every possible strobe instant", "anchors": ["lambdalib/cores/i2c/i2c.py:I2CInitiator"]}
{"id": "C34", "title": "I2CStream turns each packet into one I2C transaction", "statement": "The commands given to the I2C core are, for every packet, one start, then one write or read per beat in order with the beat's data (reads acknowledged except the last), then one stop after the `last` beat or after a NAKed write (beats following a NAK begin a new transaction); each beat is consumed exactly once and each read byte is delivered exactly once with `last` mirrored; `error` is raised exactly on NAKed writes.", "quantifier": "every input waveform, i.e. every sequence of beats, every valid/ready schedule on both sides and every number of clock cycles and every I2C core busy/ack/data behaviour", "why_tests_cant": "a simulation samples a handful of random valid/ready schedules; the claim is about every infinite schedule and every beat value", "anchors": ["lambdalib/cores/i2c/stream.py:I2CStream"]}
{"id": "C35", "title": "I2CWriterStream retries NAKed register writes without losing data", "statement": "The bytes taken from `sink` are grouped in threes; each group is sent as start, up to three bytes, stop, and is re-sent from its first byte until all three bytes are acknowledged, before the next group starts; each sink byte is consumed exactly once and the retry happens without needing further input.", "quantifier": "every input waveform, i.e. every sequence of beats, every valid/ready schedule on both sides and every number of clock cycles and every ACK/NAK pattern", "why_tests_cant": "unbounded number of NAK patterns", "anchors": ["lambdalib/cores/i2c/stream.py:I2CWriterStream"]}
{"id": "C36", "title": "I2CProto stays in step with the host for every outcome", "statement": "For every command (header, length, data) the bridge consumes exactly the command's bytes, performs the addressed transaction with exactly these bytes, and answers exactly one status byte (followed by `length` data bytes for an acknowledged read); after an error the remaining command bytes are discarded and the next byte is parsed as a header.", "quantifier": "every command sequence, every host pacing, every ACK/NAK pattern", "why_tests_cant": "host pacing and NAK position combinations are unbounded", "anchors": ["lambdalib/cores/i2c/proto.py:I2CProto"]}
{"id": "C37", "title": "Host I2C library and bridge agree on framing", "statement": "Every request built by the host library is parsed by the bridge as the intended transaction: device address, register address most significant byte first, data bytes; the library never leaves unread reply bytes and returns None/status exactly according to the reply; requests that do not fit the one-byte length are rejected before anything is sent.", "quantifier": "every device address, register address and width, data block and length, every reply", "why_tests_cant": "infinitely many requests and replies", "anchors": ["lambdalib/software/i2c/bus.py:I2CBus", "lambdalib/cores/i2c/proto.py:I2CProto"]}
{"id": "C38", "title": "SPI clock generator has exact period and clean edges", "statement": "While enabled the SPI clock toggles every div+1 cycles, posedge/negedge strobes are high exactly in the cycle before the corresponding pin edge, and the clock is low and phase restarts when disabled.", "quantifier": "every divider and every enable waveform", "why_tests_cant": "unbounded waveforms", "anchors": ["lambdalib/cores/spi/clkgen.py:LiteSPIClkGen"]}
{"id": "C39", "title": "SPI master shifts each word MSB first and returns the sampled word", "statement": "For each accepted word of `len` bits, exactly len/width clock pulses are generated, the data pins carry the word most significant bits first at the rising edges, and exactly one word made of the bits sampled at the rising edges is delivered, in order, with the word's `last`.", "quantifier": "every word, length, divider, input pin waveform and stall schedule", "why_tests_cant": "a simulation samples a handful of random valid/ready schedules; the claim is about every infinite schedule and every beat value", "anchors": ["lambdalib/cores/spi/master.py:_LiteSPISDRPHYCore"]}
{"id": "C40", "title": "SPIStream keeps chip select for exactly one packet exchange", "statement": "Chip select is asserted from the first cycle after a packet appears until the last response word has been delivered; beats are forwarded both ways unchanged, in order and exactly once; no beat of the next packet is sent before the response to the `last` beat was delivered.", "quantifier": "every input waveform, i.e. every sequence of beats, every valid/ready schedule on both sides and every number of clock cycles", "why_tests_cant": "a simulation samples a handful of random valid/ready schedules; the claim is about every infinite schedule and every beat value", "anchors": ["lambdalib/cores/spi/stream.py:SPIStream"]}
{"id": "C41", "title": "SPI slave reassembles the sampled bits into words", "statement": "Per chip-select assertion the received words are the sampled bits cut according to the configured stages (the last stage repeating), a trailing partial word being delivered with its bit length on deselect; each chip-select assertion restarts at the first stage.", "quantifier": "every pin waveform, every word width and stage list", "why_tests_cant": "pin waveforms are unbounded", "anchors": ["lambdalib/cores/spi/slave.py:SPIPHYSlave"]}
{"id": "C42", "title": "SPI-Wishbone bridge performs exactly the requested bursts", "statement": "A command (write flag, byte count, address) produces max(1, ceil(count/wordlen)) bus cycles (fewer for a write cut short by a short word) at consecutive word addresses, writing the received words in order or returning the bus read data in order with `last` on the final word, then waits for the next command; a command or address word of wrong length never reaches the bus.", "quantifier": "every input waveform, i.e. every sequence of beats, every valid/ready schedule on both sides and every number of clock cycles and every bus acknowledge behaviour", "why_tests_cant": "a simulation samples a handful of random valid/ready schedules; the claim is about every infinite schedule and every beat value", "anchors": ["lambdalib/cores/spi/bridge.py:SPIWishboneBridge"]}
{"id": "C43", "title": "WS2812B emits the exact bit waveform", "statement": "Each accepted pixel produces, most significant bit first, for each bit a high pulse of T1H or T0H cycles followed by low for the rest of a fixed bit time; after a pixel with `last` the line stays low at least TRST cycles before the next pixel is accepted.", "quantifier": "every pixel value and width, every timing constants T0H < T1H < T < TRST, every valid schedule", "why_tests_cant": "all data values and timing constants", "anchors": ["lambdalib/cores/led/ws2812b.py:WS2812B"]}
{"id": "C44", "title": "BlinkKeep stretches every activity pulse to exactly `timeout` cycles with the requested duty", "statement": "The LED gate is active in a cycle exactly when the input was active in one of the `timeout` preceding cycles, and while gated the LED is on in exactly the first `duty`*256 slots of every 256-cycle period.", "quantifier": "every timeout that the constructor accepts (at least 256), duty and input waveform", "why_tests_cant": "unbounded waveforms", "anchors": ["lambdalib/cores/led/blink.py:BlinkKeep"]}
{"id": "C45", "title": "IIR filter computes the fixed-point difference equation", "statement": "Each accepted sample yields exactly one output sample, with first/last preserved, equal to the truncated fixed-point sum over the last `order+1` inputs and `order` previous outputs with the given coefficients; back-pressure does not disturb the result.", "quantifier": "every coefficient set, order, sample sequence and ready schedule", "why_tests_cant": "unbounded sample histories (feedback)", "anchors": ["lambdalib/cores/filter/iir.py:IIRFilter"]}
{"id": "C46", "title": "Serial stream wrapper loses no received byte it acknowledged", "statement": "Every byte taken from the UART receiver is delivered exactly once, in order, on `source`, stable under back-pressure, and the receiver is acknowledged only when there is room; transmitted bytes are handed over unchanged. In half-duplex mode the line is driven only while transmitting and is released only after the stop time.", "quantifier": "every input waveform, i.e. every sequence of beats, every valid/ready schedule on both sides and every number of clock cycles", "why_tests_cant": "a simulation samples a handful of random valid/ready schedules; the claim is about every infinite schedule and every beat value", "anchors": ["lambdalib/cores/serial.py:AsyncSerialStream", "lambdalib/cores/serial.py:AsyncSerialTXStream", "lambdalib/cores/serial.py:AsyncSerialStreamHalfDuplex"]}
{"id": "C47", "title": "ULPI receive splitter rebuilds packets", "statement": "The delivered bytes are exactly the received data bytes in order (RX CMD bytes dropped) and `last` is set exactly on the byte followed by an inactive RX CMD.", "quantifier": "every sequence of received bytes and commands", "why_tests_cant": "unbounded sequences", "anchors": ["lambdalib/cores/usb/ulpi.py:_Splitter"]}
{"id": "C48", "title": "ULPI sender tags exactly the first byte of each packet", "statement": "Bytes are forwarded in order and exactly once; the first byte of every packet has its upper nibble replaced by the transmit command and its PID nibble kept, all other bytes are unchanged; `last` is preserved.", "quantifier": "every input waveform, i.e. every sequence of beats, every valid/ready schedule on both sides and every number of clock cycles", "why_tests_cant": "a simulation samples a handful of random valid/ready schedules; the claim is about every infinite schedule and every beat value", "anchors": ["lambdalib/cores/usb/ulpi.py:_Sender"]}
{"id": "C49", "title": "ULPI transceiver never drives the bus while the PHY does", "statement": "The data bus is driven only in cycles where the PHY is not driving it and was not in the previous cycle; a byte is consumed only in such cycles with NXT; STP is a one-cycle pulse exactly after the last byte of a packet is taken; every byte received outside turnaround cycles is reported once with its command flag.", "quantifier": "every dir/nxt/data waveform and sender schedule", "why_tests_cant": "adversarial PHY waveforms", "anchors": ["lambdalib/cores/usb/ulpi.py:_Transceiver"]}
{"id": "C50", "title": "ECP5 PLL solver returns legal, optimal dividers or nothing", "statement": "For every input and output frequency accepted by the constructor a solution exists; the returned dividers are in range, all internal frequencies are in the legal ranges, and no legal divider combination has a smaller output frequency error.", "quantifier": "every legal input/output frequency pair", "why_tests_cant": "infinitely many frequencies", "anchors": ["lambdalib/cores/pll/lattice_ecp5.py:PLL_LatticeECP5.Parameters"]}
{"id": "C51", "title": "Xilinx PLL solver returns legal, optimal dividers or nothing", "statement": "For every input and output frequency accepted by the constructor a solution exists; the returned dividers are in range, the VCO and output frequencies are legal and no legal combination has a smaller output frequency error; secondary dividers are integers.", "quantifier": "every legal input/output frequency pair and secondary outputs", "why_tests_cant": "infinitely many frequencies", "anchors": ["lambdalib/cores/pll/xilinx_7series.py:PLL_Xilinx7Series.Parameters"]}
{"id": "C52", "title": "PLL parameter objects freeze on first use", "statement": "Computing is idempotent; once computed, every attempt to add an output fails and no observable parameter ever changes; at most 3 (ECP5) or 5 (Xilinx) secondary outputs with distinct domains can be registered, and they are assigned to output slots in registration order.", "quantifier": "every sequence of add/compute/read calls", "why_tests_cant": "unbounded call histories", "anchors": ["lambdalib/cores/pll/lattice_ecp5.py:PLL_LatticeECP5.Parameters", "lambdalib/cores/pll/xilinx_7series.py:PLL_Xilinx7Series.Parameters"]}
{"id": "C53", "title": "ECP5 delay line reaches the requested tap", "statement": "Whenever `locked` is high the number of move pulses since the last delay reset equals the requested tap count; if the request is stable, lock is reached within a bounded number of cycles.", "quantifier": "every tap request waveform", "why_tests_cant": "unbounded waveforms", "anchors": ["lambdalib/cores/pll/lattice_ecp5.py:DELAY_LatticeECP5"]}
{"id": "C54", "title": "SSD1306 wrapper frames each packet with address and control byte", "statement": "For every packet accepted the bytes sent are the I2C address byte, the control byte selected by d_cn, then the packet's bytes with `last` on the final one; if the device does not acknowledge its address the whole packet is dropped and the next packet starts afresh.", "quantifier": "every input waveform, i.e. every sequence of beats, every valid/ready schedule on both sides and every number of clock cycles in which d_cn does not change while a beat is offered, and every NAK pattern on the address byte", "why_tests_cant": "a simulation samples a handful of random valid/ready schedules; the claim is about every infinite schedule and every beat value", "anchors": ["lambdalib/cores/lcd/ssd1306.py:SSD1306_Wrapper"]}
{"id": "C55", "title": "SSD1306 sends init, addressing and exactly one frame per update", "statement": "After power-on the init table is sent once command by command, then the addressing table and a full black frame; every later frame is preceded by the addressing table and ends at `last` or after a full screen of bytes. The stream driven keeps an offered beat until it is taken.", "quantifier": "every input waveform, i.e. every sequence of beats, every valid/ready schedule on both sides and every number of clock cycles", "why_tests_cant": "a simulation samples a handful of random valid/ready schedules; the claim is about every infinite schedule and every beat value", "anchors": ["lambdalib/cores/lcd/ssd1306.py:SSD1306"]}
{"id": "C56", "title": "USB device descriptors match the instantiated endpoints", "statement": "The endpoint descriptors advertised are exactly the endpoints instantiated, with the same numbers, directions and maximum packet sizes, all endpoint addresses distinct, zero-sized directions omitted from both.", "quantifier": "every endpoint size list", "why_tests_cant": "infinitely many configurations", "anchors": ["lambdalib/cores/usb/generic_device.py:USBGenericDevice.create_descriptors", "lambdalib/cores/usb/generic_device.py:USBGenericDevice.elaborate"]}
{"id": "C57", "title": "ULPI power-on reset sequencing", "statement": "The PHY reset is asserted from power-on for exactly the 2us count, then released and never asserted again; `done` rises exactly after the 4ms count and stays high.", "quantifier": "every clock frequency (count values), all time", "why_tests_cant": "unbounded time", "anchors": ["lambdalib/cores/usb/ulpi.py:_POR", "lambdalib/cores/usb/ulpi.py:_Timer"]}
{"id": "C58", "title": "Stream simulation checker accepts exactly matching recordings", "statement": "verify(expected) succeeds exactly when for every expected field the recorded list has the same length and the same values in the same order.", "quantifier": "every recording and every expectation", "why_tests_cant": "infinitely many recordings", "anchors": ["lambdalib/interface/stream_sim.py:StreamSimReceiver.verify"]}
{"id": "C59", "title": "I2C register init plays every register write then hands over", "statement": "The bytes handed to the I2C writer are, for each (register, value) pair in order, chip address << 1, register, value; `done` rises exactly after the last byte was taken, and the exposed writer is connected only from then on.", "quantifier": "every register list with at least one entry, chip address and ready schedule", "why_tests_cant": "a simulation samples a handful of random valid/ready schedules; the claim is about every infinite schedule and every beat value", "anchors": ["lambdalib/cores/i2c/init.py:I2CRegisterInit"]}
{"id": "C60", "title": "AsyncSerial/USB/ULPI adapters are transparent", "statement": "The USB endpoint wrappers and the ULPI register dumper deliver each byte of the wrapped interface exactly once: the register dump delivers one byte per register address 0..max in order, each the first byte the PHY sends after that register's read command, and then stops (last address within the six address bits).", "quantifier": "every PHY response waveform and ready schedule", "why_tests_cant": "a simulation samples a handful of random valid/ready schedules; the claim is about every infinite schedule and every beat value", "anchors": ["lambdalib/cores/usb/ulpi.py:DumpULPIRegs", "lambdalib/cores/usb/endpoint_cdc.py"]}
{"id": "C61", "title": "LastOnTimeout keeps `last` stable under back-pressure", "statement": "An offered beat keeps its `last` mark until it is taken.", "quantifier": "every input waveform, i.e. every sequence of beats, every valid/ready schedule on both sides and every number of clock cycles, sender holding its beats", "why_tests_cant": "a simulation samples a handful of random valid/ready schedules; the claim is about every infinite schedule and every beat value", "anchors": ["lambdalib/interface/stream_utils.py:LastOnTimeout"]}
{"id": "C62", "title": "MemoryStream delivers at most the words written per rewind", "statement": "After n words have been delivered since the last rewind, `source.valid` stays low until a new write or rewind.", "quantifier": "every depth, every n <= depth, every ready schedule", "why_tests_cant": "a simulation samples a handful of random valid/ready schedules; the claim is about every infinite schedule and every beat value", "anchors": ["lambdalib/cores/mem/stream.py:MemoryStream"]}
{"id": "C63", "title": "Converter clocks its width converter in the domain of its neighbours", "statement": "Whatever the stage order chosen, each stage of a converter is clocked by the domain of the stream feeding it (and of the one it feeds, except across the FIFO).", "quantifier": "every width pair, pair of clock domains and stage order", "why_tests_cant": "configuration space; a single-clock simulation cannot show it", "anchors": ["lambdalib/interface/stream.py:Converter"]}
{"id": "C64", "title": "PulseClock pulses last one cycle even across `rst`", "statement": "Every high phase of the output lasts exactly one clock cycle when the tuning word is at most half the clock, whatever `rst` does.", "quantifier": "every tuning word <= 2^31 and rst waveform", "why_tests_cant": "unbounded waveforms", "anchors": ["lambdalib/cores/time/clk.py:PulseClock"]}
{"id": "C65", "title": "Arbiter does not cut a packet whose sender has resumed", "statement": "After a beat without `last` from sink i, the next delivered beat also comes from sink i unless sink i was silent for `timeout` cycles strictly after that beat.", "quantifier": "every input waveform on any number of sinks, every timeout", "why_tests_cant": "a simulation samples a handful of random valid/ready schedules; the claim is about every infinite schedule and every beat value", "anchors": ["lambdalib/interface/stream_utils.py:Arbiter"]}
{"id": "C66", "title": "Arbiter keeps an offered beat until it is taken", "statement": "If all sinks hold their beats, a beat offered on the source is neither withdrawn nor replaced while `source.ready` is low.", "quantifier": "every input waveform on any number of sinks, every timeout", "why_tests_cant": "a simulation samples a handful of random valid/ready schedules; the claim is about every infinite schedule and every beat value", "anchors": ["lambdalib/interface/stream_utils.py:Arbiter"]}
{"id": "C67", "title": "Every payload field of an accepted layout is reachable by name", "statement": "If an endpoint can be built from a payload layout then attribute access by the name of any payload field yields that payload field.", "quantifier": "every payload layout", "why_tests_cant": "infinitely many layouts", "anchors": ["lambdalib/interface/stream.py:Endpoint.__getattr__"]}
{"id": "C68", "title": "Every I2C command finishes", "statement": "A command taken by the initiator finishes after finitely many cycles provided the bus clock infinitely often follows the driven clock; without clock stretching it finishes within a fixed number of cycles depending on the period only.", "quantifier": "every command, every period, every bus input waveform in which the clock is released infinitely often", "why_tests_cant": "liveness over unbounded executions with adversarial stretching", "anchors": ["lambdalib/cores/i2c/i2c.py:I2CInitiator"]}
{"id": "C69", "title": "Each I2C command signals exactly its bus conditions", "statement": "A finished start command has signalled exactly one start condition (SDA falling under SCL high), a finished stop command exactly one stop condition, a write or read none; for start and stop the clock line must be seen high when the command is taken and a driven-low SDA must be seen low.", "quantifier": "every command, every period, every bus input waveform", "why_tests_cant": "adversarial bus inputs and stretch durations", "anchors": ["lambdalib/cores/i2c/i2c.py:I2CInitiator"]}
{"id": "C70", "title": "SPI master never clocks faster than requested", "statement": "The SPI clock produced for a requested SPI frequency never exceeds the requested one (nor half the system clock), and chip select is held for at least the requested number of SPI periods before a word is sent.", "quantifier": "every system clock of at least 2 Hz and every positive requested frequency and delay", "why_tests_cant": "two continuous parameters and a rounding rule", "anchors": ["lambdalib/cores/spi/master.py:SPIPHYMaster"]}
{"id": "C71", "title": "SPI slave answers with the words it accepted, aligned with the master", "statement": "The bits the slave drives are the accepted words, most significant group first, and each one is stable on the pad when the master samples it, from the first sampling edge on.", "quantifier": "every SPI mode, bus width, pad waveform and sender schedule", "why_tests_cant": "unbounded waveforms against an asynchronous master", "anchors": ["lambdalib/cores/spi/slave.py:SPIPHYSlave"]}
{"id": "C72", "title": "BlinkDomain is a heartbeat of fixed period", "statement": "The LED starts low and toggles every 2^25 cycles of the chosen clock domain, for ever.", "quantifier": "all time", "why_tests_cant": "a full period takes 67 million cycles", "anchors": ["lambdalib/cores/led/blink.py:BlinkDomain"]}
{"id": "C73", "title": "ULPI link comes up with exactly two register writes, then is transparent", "statement": "After the power-on reset the PHY is written Function Control := 0x60, then after a pause of at least 2us OTG Control := 0, and nothing else; before that nothing is taken from or given to the user; afterwards the PHY takes exactly the user's packets (tagged) and the user is given exactly the packets the PHY sends.", "quantifier": "every PHY pin waveform and user schedule, all time", "why_tests_cant": "unbounded interleavings of an autonomous PHY with the bring-up sequence", "anchors": ["lambdalib/cores/usb/ulpi.py:DirectULPI"]}
{"id": "C74", "title": "ULPI receive path delivers every packet intact", "statement": "Every byte of every packet received from the PHY is delivered to the user in order, once, with its `last` mark.", "quantifier": "every received packet sequence and every user ready schedule", "why_tests_cant": "overflow of the receive FIFO depends on unbounded schedules", "anchors": ["lambdalib/cores/usb/ulpi.py:DirectULPI", "lambdalib/cores/usb/ulpi.py:_Splitter"]}
{"id": "C75", "title": "PLL secondary outputs run at the reported frequency", "statement": "For every secondary output of an ECP5 PLL, the frequency produced by the returned divider from the VCO equals the frequency reported for that output.", "quantifier": "every legal input, output and secondary frequency", "why_tests_cant": "infinitely many frequency combinations", "anchors": ["lambdalib/cores/pll/lattice_ecp5.py:PLL_LatticeECP5.Parameters"]}
{"id": "C76", "title": "ECP5 phase parameters are integers giving the requested phase", "statement": "The coarse phase parameters handed to the PLL primitive are integers, and the difference between a secondary output and the primary one is the requested phase in VCO periods.", "quantifier": "every legal input, output and secondary frequency and phase", "why_tests_cant": "infinitely many frequency combinations", "anchors": ["lambdalib/cores/pll/lattice_ecp5.py:PLL_LatticeECP5.Parameters"]}
{"id": "C77", "title": "Every I2C transaction for the display starts with its address", "statement": "Whenever a new transaction starts on the bus (at the beginning, after `last`, or after a byte that was not acknowledged and made the I2C master stop), the next byte the display driver hands over is the display's address byte, so no pixel or command byte is ever sent as an address.", "quantifier": "every waveform and every pattern of missing acknowledges", "why_tests_cant": "the byte at which the device stops acknowledging is arbitrary", "anchors": ["lambdalib/cores/lcd/ssd1306.py:SSD1306_Wrapper", "lambdalib/cores/i2c/stream.py:I2CStream"]}
{"id": "C78", "title": "Stream simulation sender sends exactly its data", "statement": "The beats taken from the simulated sender are at any time a prefix of the data, it never withdraws or changes a beat it offers, and all the data is sent if the receiver is ready and the random choice positive again and again.", "quantifier": "every data list, initial delay, ready schedule and sequence of random choices", "why_tests_cant": "a simulation samples a handful of random valid/ready schedules; the claim is about every infinite schedule and every beat value", "anchors": ["lambdalib/interface/stream_sim.py:StreamSimSender.sync_process"]}
{"id": "C79", "title": "Stream simulation receiver records exactly what was transferred", "statement": "The recorded beats are at any time the transferred beats in order, up to the length asked for, and each beat offered before that is taken.", "quantifier": "every length, delay, speed, waveform and sequence of random choices", "why_tests_cant": "a simulation samples a handful of random valid/ready schedules; the claim is about every infinite schedule and every beat value", "anchors": ["lambdalib/interface/stream_sim.py:StreamSimReceiver.sync_process"]}
{"id": "C80", "title": "Stream simulation receiver takes no more than the length asked for", "statement": "Every beat taken by the simulated receiver is recorded, so with a length no more than this many beats are taken.", "quantifier": "every length, delay, speed, waveform and sequence of random choices", "why_tests_cant": "a simulation samples a handful of random valid/ready schedules; the claim is about every infinite schedule and every beat value", "anchors": ["lambdalib/interface/stream_sim.py:StreamSimReceiver.sync_process"]}
{"id": "C81", "title": "Stream simulation connection loses nothing", "statement": "What the connection gives to the sink is what it took from the source, in order, each beat once, with the fields renamed and omitted as asked, at most one beat being under way; offers are stable; every beat offered gets through.", "quantifier": "every stable source, sink schedule, sequence of random choices, field list, renaming and omission", "why_tests_cant": "a simulation samples a handful of random valid/ready schedules; the claim is about every infinite schedule and every beat value", "anchors": ["lambdalib/interface/stream_sim.py:StreamSimConnect.sync_process"]}
{"id": "C82", "title": "The host opens the device asked for", "statement": "The USB device opened is the one with the given vendor and product that has exactly `idx` matching devices before it in the list of devices; an error is raised exactly if there are at most `idx` matching devices.", "quantifier": "every device list, vendor, product and index", "why_tests_cant": "infinitely many device lists", "anchors": ["lambdalib/software/usb/device.py:USBDevice.__init__"]}
{"id": "C83", "title": "The hex dump can be read back", "statement": "Row r of the dump shows the address 16 r and the bytes from this address on, up to sixteen; below address 256 each byte stands below the heading digit of its address; different data have different dumps.", "quantifier": "all byte strings", "why_tests_cant": "infinitely many byte strings", "anchors": ["lambdalib/software/utils.py:hexdump"]}
{"id": "C84", "title": "UTMI receiver shows what the PHY tells", "statement": "Through the UTMI to ULPI translator the receive side sees exactly the bytes the transceiver sends, in order, one cycle later, and its activity, error and line state signals follow the latest thing the transceiver told about them; bytes sent inside a packet come with the activity signal high.", "quantifier": "every waveform of the ULPI and UTMI inputs, the reset input staying low after power-on", "why_tests_cant": "a simulation samples a handful of random valid/ready schedules; the claim is about every infinite schedule and every beat value", "anchors": ["lambdalib/cores/usb/ulpi_wrapper.v:ulpi_wrapper", "lambdalib/cores/usb/utmi.py:UTMITranslator"]}
{"id": "C85", "title": "UTMI bytes reach the PHY once and in order", "statement": "Every byte accepted on the UTMI transmit side is taken by the transceiver exactly once and in order, whatever the interruptions and stalls; at most three bytes are waiting; of the first byte of a transmission the packet identifier is sent.", "quantifier": "every waveform of a transceiver that keeps nxt low when it gives the bus back and does not take the bus within a transmission", "why_tests_cant": "a simulation samples a handful of random valid/ready schedules; the claim is about every infinite schedule and every beat value", "anchors": ["lambdalib/cores/usb/ulpi_wrapper.v:ulpi_wrapper"]}
{"id": "C86", "title": "PHY registers follow the UTMI settings", "statement": "Only the Function Control and OTG Control registers are written, each with settings present at successive cycles, the reset bit being in the first Function Control write only; and the last write holds the settings once they no longer change.", "quantifier": "every waveform of the settings and of such a transceiver", "why_tests_cant": "a simulation samples a handful of random valid/ready schedules; the claim is about every infinite schedule and every beat value", "anchors": ["lambdalib/cores/usb/ulpi_wrapper.v:ulpi_wrapper"]}
{"id": "C87", "title": "UTMI packets stay apart", "statement": "The transceiver sends exactly the packets of the UTMI side, where a packet is what is accepted while the valid signal stays high.", "quantifier": "every waveform of the UTMI side and of such a transceiver", "why_tests_cant": "a simulation samples a handful of random valid/ready schedules; the claim is about every infinite schedule and every beat value", "anchors": ["lambdalib/cores/usb/ulpi_wrapper.v:ulpi_wrapper"]}
{"id": "C88", "title": "UTMI translator comes to rest", "statement": "When the UTMI side offers nothing more and the transceiver leaves the bus and keeps raising nxt, then all bytes accepted are sent in complete transmissions and the settings of both registers are taken, and nothing more happens.", "quantifier": "every history before and every pattern of nxt that is high again and again", "why_tests_cant": "liveness over unbounded time", "anchors": ["lambdalib/cores/usb/ulpi_wrapper.v:ulpi_wrapper"]}
{"id": "C89", "title": "I2C bus driver reports the lines and their conditions", "statement": "The pads are open drain; the levels handed to the core are those on the lines two cycles earlier; rising and falling edges of SCL and start and stop conditions are each flagged for one cycle exactly when they were on the lines.", "quantifier": "every waveform of the lines, SCL pad readable or output only", "why_tests_cant": "a simulation samples a handful of random valid/ready schedules; the claim is about every infinite schedule and every beat value", "anchors": ["lambdalib/cores/i2c/i2c.py:I2CBusDriver"]}
{"id": "C90", "title": "I2C commands reach every target on the wires", "statement": "With the initiator connected to wired-and lines through its bus driver, a target on the lines is told exactly the commands executed: a start or stop condition per start or stop, and nine clock pulses per byte with its bits; the acknowledge and the byte read that are reported are what the target put on SDA in these pulses.", "quantifier": "every target that obeys the bus rules, every way it stretches the clock, every period of at least four cycles, every sequence of allowed commands, SCL pad readable or output only", "why_tests_cant": "a simulation samples a handful of random valid/ready schedules; the claim is about every infinite schedule and every beat value", "anchors": ["lambdalib/cores/i2c/i2c.py:I2CInitiator", "lambdalib/cores/i2c/i2c.py:I2CBusDriver"]}
{"id": "C91", "title": "I2C devices receive and send what the commands say", "statement": "A device after the I2C specification, on the lines, has received exactly the bytes written and sent exactly the bytes read, in order, with the right acknowledges; written bytes are reported as acknowledged exactly if the device acknowledges them, and bytes read are those the device sends.", "quantifier": "every device behaviour (acknowledge decisions and bytes sent as any function of the history), every clock stretching, every sequence of sensible commands", "why_tests_cant": "a simulation samples a handful of random valid/ready schedules; the claim is about every infinite schedule and every beat value", "anchors": ["lambdalib/cores/i2c/i2c.py:I2CInitiator", "lambdalib/cores/i2c/i2c.py:I2CBusDriver"]}
{"id": "C92", "title": "I2C stream, initiator, wires and device work together", "statement": "The whole system of I2CStream, initiator, bus driver, wires and a device runs every list of beats to its end: `error` is raised for exactly the bytes that the device does not acknowledge, the bytes delivered are those the device sends with `last` as asked, and the device has been through exactly the starts, bytes and stops that the beats say.", "quantifier": "every device behaviour, every list of beats that does not end a packet while the device is sending, every ready schedule that is high again and again, every period of at least four cycles, every clock stretching that ends", "why_tests_cant": "liveness and safety over unbounded time, all devices and all beat lists", "anchors": ["lambdalib/cores/i2c/stream.py:I2CStream", "lambdalib/cores/i2c/i2c.py:I2CInitiator", "lambdalib/cores/i2c/i2c.py:I2CBusDriver"]}
{"id": "C93", "title": "I2C bridge, wires and device answer the host", "statement": "The whole system of host, I2CProto bridge, initiator, bus driver, wires and a device carries out every list of commands: the host gets, in order, a status for each write and status and data for each read, as the device acknowledges and sends, and the device has been through exactly the transactions of the commands.", "quantifier": "every device behaviour, every list of complete commands, every schedule of the host taking replies, every clock stretching that ends", "why_tests_cant": "liveness and safety over unbounded time, all devices and all command lists", "anchors": ["lambdalib/cores/i2c/proto.py:I2CProto", "lambdalib/cores/i2c/stream.py:I2CStream", "lambdalib/cores/i2c/i2c.py:I2CInitiator", "lambdalib/cores/i2c/i2c.py:I2CBusDriver"]}
{"id": "C94", "title": "CSR writes come out of the register stream", "statement": "Every word that software writes to the data register of the register stream port is delivered to the receiver, in order, once, with `last` as the last register was at that time.", "quantifier": "every sequence of register writes and every receiver schedule, any correct FIFO", "why_tests_cant": "a simulation samples a handful of random valid/ready schedules; the claim is about every infinite schedule and every beat value", "anchors": ["lambdalib/litex/cores/regs.py:RegsStream"]}
{"id": "C95", "title": "Endpoint test sender sends its packets or raises", "statement": "The beats transferred by bfm_send are at any time a prefix of the packets given, with `first` on the first and `last` on the last and each field as assigned latest; an exception is raised exactly if the receiver is not ready for one cycle less than the timeout while a packet is left; and all packets are sent if the receiver is ready more often than that.", "quantifier": "every packet list, timeout and ready schedule", "why_tests_cant": "a simulation samples a handful of random valid/ready schedules; the claim is about every infinite schedule and every beat value", "anchors": ["lambdalib/interface/stream.py:Endpoint.bfm_send"]}
{"id": "C96", "title": "Endpoint test reader returns what was transferred or raises", "statement": "The values returned by successive bfm_read calls are the payloads of the beats transferred, in order, one per call; an exception is raised exactly if the sender offers nothing for as many cycles as the timeout while a call waits.", "quantifier": "every number of calls, timeout and waveform of the sender", "why_tests_cant": "a simulation samples a handful of random valid/ready schedules; the claim is about every infinite schedule and every beat value", "anchors": ["lambdalib/interface/stream.py:Endpoint.bfm_read"]}
{"id": "C97", "title": "SPI stream, master and slave carry every word", "statement": "With SPIStream, the SPI master and the SPI slave connected by their pins, the words received by the slave are exactly the words accepted from the user, in order and with all their bits, each within the time of its clock pulses and three cycles; and every word offered is accepted if the results are taken again and again.", "quantifier": "every pin count of 1, 2, 4 or 8, word width, clock divisor and chip select delay, every schedule of the user, grouping by `last`, every delay of the receive FIFO and input pin waveform", "why_tests_cant": "liveness and safety over unbounded time, all configurations", "anchors": ["lambdalib/cores/spi/stream.py:SPIStream", "lambdalib/cores/spi/master.py:SPIPHYMaster", "lambdalib/cores/spi/slave.py:SPIPHYSlave"]}
{"id": "C98", "title": "USB endpoint reads return whole messages", "statement": "Reading from an endpoint of the host library with a buffer of at least the length of the next message that the device sends returns exactly that message, and the following reads continue with the following messages; nothing is lost, in synchronous and in asynchronous mode; `exchange` returns an answer of the length of the data sent, sent by the device in one message or in one per packet.", "quantifier": "every message, packet size, buffer length and number of messages, with and without empty packets at the end of messages", "why_tests_cant": "messages of all lengths against all packet sizes and buffer lengths; hardware is needed to run the code", "anchors": ["lambdalib/software/usb/device.py:USBEndpoint"]}
{"id": "C99", "title": "The I2C library works over a USB endpoint", "statement": "With an endpoint as its device, every function of the I2C library has the same result and causes the same bus transactions as over a connection that carries single bytes, and leaves no packet unread, although the bridge sends statuses and data in separate messages.", "quantifier": "every behaviour of the devices on the bus, all arguments, both endpoint modes, every packet size above one, with and without empty packets", "why_tests_cant": "the devices on the bus are arbitrary functions of the history; packet boundaries depend on the lengths", "anchors": ["lambdalib/software/usb/device.py:USBEndpoint", "lambdalib/software/i2c/bus.py:I2CBus"]}
{"id": "C100", "title": "The PLL primitive drives each requested clock domain once, at its frequency", "statement": "The primitive instantiated for a PLL object drives every requested clock domain from exactly one output, in the order of the requests, at the frequency and with the phase of its parameters; all other outputs are off, the feedback is wired as the primitive needs it, and no clock domain is driven twice.", "quantifier": "every input and output frequency the constructor accepts, every sequence of calls before, all options, every actual input frequency", "why_tests_cant": "unbounded parameter space; a vendor simulation would be needed for each setting", "anchors": ["lambdalib/cores/pll/lattice_ecp5.py:PLL_LatticeECP5", "lambdalib/cores/pll/xilinx_7series.py:PLL_Xilinx7Series"]}
{"id": "C101", "title": "SPI words become the bus cycles they ask for", "statement": "With SPIStream and the SPI master on one side and the SPI slave with its FIFO and the Wishbone bridge on the other, the words given to SPIStream are executed as commands: the finished bus cycles and replies are at any time those of the words, every word is executed at some time if the bus answers, and replies to reads come back to the master.", "quantifier": "every pin count of 1, 2, 4 or 8, word width of at least 8, clock divisor, chip select delay and address width, every schedule of the user and of the bus, any correct FIFO", "why_tests_cant": "liveness and safety over unbounded time, all configurations; the repository has no design or running test that connects slave and bridge", "anchors": ["lambdalib/cores/spi/slave.py:SPIPHYSlave", "lambdalib/cores/spi/bridge.py:SPIWishboneBridge", "lambdalib/cores/spi/master.py:SPIPHYMaster", "lambdalib/cores/spi/stream.py:SPIStream"]}
{"id": "C102", "title": "Calls of the I2C library end with the right results on the wires", "statement": "A program that calls write_block_data, read_block_data with a length other than zero, discover and discover_queue any number of times, on a host that hands its bytes to the I2CProto bridge as it has them, with initiator, wires and a device behind it, ends; the results are those that the device's acknowledges and bytes say, a call whose arguments do not fit ends the program with ValueError, no byte is left over in either direction, and the device has been through exactly the transactions of the calls.", "quantifier": "every behaviour of the device as long as it sends only when addressed for a read, every list of calls with register widths not negative, every schedule of program and replies, every clock stretching that ends", "why_tests_cant": "host program, bridge, wires and device together over unbounded time, for all devices; needs hardware to run", "anchors": ["lambdalib/software/i2c/bus.py:I2CBus", "lambdalib/cores/i2c/proto.py:I2CProto", "lambdalib/cores/i2c/stream.py:I2CStream", "lambdalib/cores/i2c/i2c.py:I2CInitiator", "lambdalib/cores/i2c/i2c.py:I2CBusDriver"]}
{"id": "C103", "title": "I2C register initialisation writes the whole table on the wires", "statement": "I2CRegisterInit with its writer, initiator and bus driver, and a device on the wires: after power on the device goes through one write transaction (chip address, register, value) for each table entry, in order, a transaction being repeated from its start until the device has acknowledged all its bytes, and nothing else; then done is high and stays high.", "quantifier": "every table with at least one entry, chip address, clock period of at least 4 cycles, clock stretching that ends, every device that sends only when addressed for a read and that does not refuse for ever", "why_tests_cant": "reset-to-done behaviour over unbounded time with a device that refuses and stretches at will; needs hardware to run", "anchors": ["lambdalib/cores/i2c/init.py:I2CRegisterInit", "lambdalib/cores/i2c/stream.py:I2CWriterStream", "lambdalib/cores/i2c/i2c.py:I2CInitiator", "lambdalib/cores/i2c/i2c.py:I2CBusDriver"]}
{"id": "C104", "title": "The SSD1306 driver makes the display show the user's picture", "statement": "SSD1306 with its I2C stream, initiator and bus driver, on the wires with a display: after power on `ready` rises and stays high, every byte that the user offers is taken, and when the user has no more bytes the display is on and its memory holds, cell by cell, the picture made of the bytes (each frame from the first cell, the rest as before, black at first), whatever the memory held at power on.", "quantifier": "every supported screen size, every list of bytes and frame ends, every schedule of the user, every clock period of at least 4 cycles, every clock stretching that ends, every memory content at power on", "why_tests_cant": "reset-to-picture behaviour over unbounded time; needs hardware to run", "anchors": ["lambdalib/cores/lcd/ssd1306.py:SSD1306", "lambdalib/cores/lcd/ssd1306.py:SSD1306_Wrapper", "lambdalib/cores/i2c/stream.py:I2CStream", "lambdalib/cores/i2c/i2c.py:I2CInitiator", "lambdalib/cores/i2c/i2c.py:I2CBusDriver"]}
{"id": "C105", "title": "Users of a shared I2C bus do not disturb each other or the multiplexer", "statement": "Users behind an Arbiter in front of one I2CStream, one of them a TCA9548A driver: as long as no user pauses inside a packet for the timeout of the arbiter, the bus executes whole packets, each of one user, and the packets of every user in their order; every beat offered is taken at some time if packets are of bounded length; and as long as no other user begins a transaction with the address of the multiplexer and the multiplexer acknowledges, its channels are those of `ctrl` whenever `done` is high and a start or a byte begins on the wires, and `done` rises and stays high once `ctrl` does not change.", "quantifier": "every number of users from two, timeout, list of packets, schedule of the users and of the receiver, clock period of at least 4 cycles, every clock stretching that ends, every device that sends only when addressed for a read, every sequence of `ctrl` values", "why_tests_cant": "safety and liveness over unbounded time with all interleavings of the users; needs hardware to run", "anchors": ["lambdalib/interface/stream_utils.py:Arbiter", "lambdalib/cores/i2c/tca9548a.py:TCA9548A", "lambdalib/cores/i2c/stream.py:I2CStream", "lambdalib/cores/i2c/i2c.py:I2CInitiator", "lambdalib/cores/i2c/i2c.py:I2CBusDriver"]}
{"id": "C106", "title": "The I2C clock is never faster than asked for", "statement": "Between any two changes of the driven lines at least a quarter of a period passes; the clock stays high and low for at least half a period each time, from one rising edge to another more than a period passes, across commands too, so that the bus clock is slower than the frequency asked for; a byte keeps the initiator busy for more than nine periods.", "quantifier": "every period, system and bus frequency, every sequence and timing of commands, every behaviour of the bus lines, with and without clock stretching", "why_tests_cant": "all pairs of edges of all executions; a test sees the edges of one run", "anchors": ["lambdalib/cores/i2c/i2c.py:I2CInitiator", "lambdalib/cores/i2c/proto.py:I2CProto", "lambdalib/cores/i2c/init.py:I2CRegisterInit"]}
{"id": "C107", "title": "The I2C library works over the UART of the example bridge", "statement": "The I2C bridge of the examples with its UART link: serial wrapper, receive and transmit FIFOs, I2CProto, wires and a device, and a host that calls write_block_data, read_block_data with a length other than zero, discover and discover_queue any number of times over the UART, which cannot be held back: no byte is lost, the program ends with the results that the device's acknowledges and bytes say, no byte is left over, and the device has been through exactly the transactions of the calls.", "quantifier": "every behaviour of the device as long as it sends only when addressed for a read, every list of calls with register widths not negative, every timing of UART bytes and host, FIFO depth, clock period of at least 4 cycles, every clock stretching that ends", "why_tests_cant": "overflow and underflow depend on the interplay of baud rate, bus clock, clock stretching and lengths over unbounded time; needs hardware to run", "anchors": ["examples/i2c_bridge.py:Top", "lambdalib/cores/serial.py:AsyncSerialStream", "lambdalib/interface/stream.py:SyncFIFO", "lambdalib/cores/i2c/proto.py:I2CProto", "lambdalib/software/i2c/bus.py:I2CBus"]}
{"id": "C108", "title": "The clock generator of the examples drives every clock once, at its frequency, with reset until lock", "statement": "The clock generators of the examples drive every clock and reset of the domains they declare exactly once (the usb clock is left to the ULPI link if there is one), for every reference and system frequency that the PLL accepts; the sync domain runs at the closest frequency the PLL can make; without ULPI the usb domain runs at 12 MHz and the usb_io domain at 48 MHz; as long as the PLL has no lock or the reset pad is active all of these are in reset, and the sync domain is released by its own clock two cycles later.", "quantifier": "every reference and system frequency in the ranges of the two PLLs, with and without ULPI and reset pad, every actual reference frequency, every waveform of lock and reset pad", "why_tests_cant": "unbounded parameter space; needs vendor tools and hardware to run", "anchors": ["examples/crg.py:_CRG", "examples/crg.py:CRG_LatticeECP5", "examples/crg.py:CRG_Xilinx7Series"]}
{"id": "C109", "title": "The SPI bridge exchanges each packet with the device in one selection", "statement": "SPIStream with the SPI master as the example bridge wires them, and a device that answers on the data pins: every packet given is shifted to the device in one selection, all its words in order, most significant bits first, and nothing else is clocked; the packet returned has the same number of words with `last` on the last one, and its bits are what the device answered pulse by pulse; one result comes for every word, every packet offered is accepted and finished if the results are taken, and the chip is released only when the clock is idle.", "quantifier": "every pin count of 1, 2, 4 or 8, word width, clock divisor and chip select delay, every device (an arbitrary function of everything it has received), every packet and schedule of the user", "why_tests_cant": "the device is an arbitrary function of the history; packets of all lengths; safety and liveness over unbounded time; hardware is needed to run the example", "anchors": ["examples/spi_bridge.py:SPIMasterBridge", "lambdalib/cores/spi/stream.py:SPIStream", "lambdalib/cores/spi/master.py:SPIPHYMaster"]}
{"id": "C110", "title": "`exchange` over the SPI bridge returns what the device answered", "statement": "A program that calls `exchange` of the host library any number of times over the SPI bridge of the examples, with a device on the pins, ends; each buffer is shifted to the device in one selection, each call returns as many bytes as it was given, which are what the device answered to this buffer, and no packet is left unread.", "quantifier": "every list of buffers and packet size, every device (an arbitrary function of everything it has received), every pin count of 1, 2, 4 or 8, clock divisor and chip select delay, every timing of host and streams, with and without empty packets, both endpoint modes", "why_tests_cant": "host program, packet boundaries, bridge, pins and an arbitrary device together, over unbounded time; needs hardware to run", "anchors": ["lambdalib/software/usb/device.py:USBEndpoint", "examples/spi_bridge.py:SPIMasterBridge", "examples/spi_bridge_soft.py", "lambdalib/cores/spi/stream.py:SPIStream", "lambdalib/cores/spi/master.py:SPIPHYMaster"]}
{"id": "C111", "title": "The SPI slave bridge delivers to the host every byte that a master sends", "statement": "The SPI slave bridge of the examples: the bytes given to the USB device are the bytes that the master on the pins has clocked out while the bridge was selected, each once and in order, most significant bit first; none is lost as long as the USB device keeps up with the bit rate; and a host that calls `recv` gets them.", "quantifier": "every pin waveform, pin count of 1, 2, 4 or 8, every timing of the USB device, every behaviour of the receive FIFO, every packet size", "why_tests_cant": "pin waveforms and schedules over unbounded time against an asynchronous master; needs hardware to run", "anchors": ["examples/spi_bridge.py:SPISlaveBridge", "lambdalib/cores/spi/slave.py:SPIPHYSlave", "lambdalib/software/usb/device.py:USBEndpoint"]}
{"id": "C112", "title": "The I2C library works over USB with the example bridge", "statement": "The I2C bridge of the examples with its USB link: receive and transmit FIFOs, I2CProto, wires and a device, and a host that calls write_block_data, read_block_data with a length other than zero, discover and discover_queue any number of times over bulk endpoints: the program ends with the results that the device's acknowledges and bytes say, nothing is left over in either direction, and the device has been through exactly the transactions of the calls. Writes may be as long as the protocol allows.", "quantifier": "every behaviour of the device as long as it sends only when addressed for a read, every list of calls with register widths not negative, every packet size, with and without empty packets, every timing of endpoints and host, FIFO depth, clock period of at least 4 cycles, every clock stretching that ends", "why_tests_cant": "packet boundaries, back-pressure, bus clock and clock stretching interact over unbounded time with a device that answers at will; needs hardware to run", "anchors": ["examples/i2c_bridge.py:Top", "lambdalib/software/usb/device.py:USBEndpoint", "lambdalib/interface/stream.py:SyncFIFO", "lambdalib/cores/i2c/proto.py:I2CProto", "lambdalib/software/i2c/bus.py:I2CBus"]}
{"id": "C113", "title": "Every endpoint of the generic USB device has its own streams", "statement": "In USBGenericDevice the bytes that the host sends to endpoint k+1 come out at sources[k], and the bytes put into sinks[k] reach the IN endpoint k+1, each once, in order and with the packet ends, whatever happens at the other endpoints; a direction of size zero is silent; the bits of rx_activity and tx_activity are high exactly when a byte is taken or given on their stream; every stream has its attribute (sink and source with one pair, else sink_k and source_k); and the control endpoint gets the user's request handlers in order and, if asked for, one for the Microsoft descriptors with the right interfaces.", "quantifier": "every list of endpoint sizes, with and without clock domain crossing, any correct FIFO, every traffic on all endpoints, every list of handlers", "why_tests_cant": "all interleavings of any number of endpoints over unbounded time", "anchors": ["lambdalib/cores/usb/generic_device.py:USBGenericDevice", "lambdalib/cores/usb/endpoint_cdc.py"]}
{"id": "C114", "title": "Bytes cross from one board to another over the SPI bridges, with independent clocks", "statement": "The SPI master bridge of the examples on one board and the SPI slave bridge on another, whose clock has nothing to do with that of the first: if the slave samples every level of the SPI clock at least once, the bytes given to the USB device of the second board are those accepted from the USB device of the first, each once and in order, and all of them arrive as long as both USB devices take what they are given.", "quantifier": "every pin count of 1, 2, 4 or 8, clock divisor and chip select delay, every relation of the two clocks over time (jitter, drift, any ratio), every list of packets and timing of both USB devices, every behaviour of the receive FIFO", "why_tests_cant": "all phase relations of two clocks over unbounded time; needs two boards to run", "anchors": ["examples/spi_bridge.py:SPIMasterBridge", "examples/spi_bridge.py:SPISlaveBridge", "lambdalib/cores/spi/master.py:SPIPHYMaster", "lambdalib/cores/spi/slave.py:SPIPHYSlave", "lambdalib/cores/spi/stream.py:SPIStream"]}
{"id": "C115", "title": "Pipelines of register slices and FIFOs of any length lose nothing and never block", "statement": "Any number of PipeValid, PipeReady, SyncFIFO and AsyncFIFO components connected one after another, in any order: the beats at the source are the beats accepted at the sink, in order and unchanged, at most as many are inside as the components hold together; a sender that keeps its beats gives a source that keeps its beats; if the receiver is ready again and again then so is the sink, and every accepted beat is delivered; with a receiver that is always ready a pipeline of register slices takes a beat in every cycle and shows it after as many cycles as it has PipeValid slices.", "quantifier": "every list of components, every FIFO that meets the contract of the primitives, every payload width, every schedule of sender and receiver", "why_tests_cant": "lists of components of any length and unbounded schedules; deadlock freedom is a statement about infinite runs", "anchors": ["lambdalib/interface/stream.py:PipeValid", "lambdalib/interface/stream.py:PipeReady", "lambdalib/interface/stream.py:_FIFOWrapper", "lambdalib/interface/stream.py:SyncFIFO", "lambdalib/interface/stream.py:AsyncFIFO"]}
{"id": "C116", "title": "Conversion between two clocks loses nothing, whatever the clocks do", "statement": "A Converter between two clock domains, with or without change of the width: whatever the instants of the edges of the two clocks, the words delivered at edges of the receiver's clock are those made of the beats accepted at edges of the sender's clock, in order, each once and with `first` and `last`, and at most as many are inside as the FIFO and the width converter hold; every word arrives and the sender is never held up for ever if the receiver takes words again and again.", "quantifier": "every relation of the two clocks over time, every pair of widths, both byte orders and both orders of the stages, any correct FIFO, every schedule of sender and receiver", "why_tests_cant": "all phase relations of two clocks over unbounded time", "anchors": ["lambdalib/interface/stream.py:Converter", "lambdalib/interface/stream.py:AsyncFIFO", "lambdalib/interface/stream.py:_UpConverter", "lambdalib/interface/stream.py:_DownConverter"]}
{"id": "C117", "title": "The ULPI link as a whole carries packets between the clocks of the user and of the PHY", "statement": "DirectULPI with the clock of the user and the clock of the PHY independent of each other: the PHY is held in reset for the time asked for and nothing is written before it is over; then both configuration writes are made, and the PHY transmits the user's packets, in order, each with its first byte as packet identifier; every byte handed over reaches the PHY and the user is never held up for ever if the PHY takes bytes again and again; what the PHY sends is delivered to the user in order with the packet ends, and all of it as long as the receive FIFO does not overflow.", "quantifier": "every relation of the two clocks over time, every behaviour of the PHY's pins, every stream of packets and every schedule of the user, all reset and timer counts below 2^30, any correct FIFO", "why_tests_cant": "all phase relations of two clocks over unbounded time, together with an arbitrary PHY; needs hardware to run", "anchors": ["lambdalib/cores/usb/ulpi.py:DirectULPI", "lambdalib/cores/usb/ulpi.py:_Transceiver", "lambdalib/cores/usb/ulpi.py:_Splitter", "lambdalib/interface/stream.py:AsyncFIFO"]}
{"id": "C118", "title": "The register dump delivers the values of all registers of the PHY", "statement": "DumpULPIRegs with the clock of the user and the clock of the PHY independent of each other, and a PHY on the pins that acknowledges a register read command when it likes, answers with the value in the cycles that the ULPI specification says, and sends status bytes at any other time: the PHY is held in reset for the time asked for; the bytes delivered are the values of the registers 0, 1, 2, ... in order, each once; and all of them up to the last address arrive if both clocks run, the user takes bytes again and again and the PHY does not send status bytes for ever.", "quantifier": "every relation of the two clocks over time, all register values, every delay of the PHY and every sequence of status bytes, every schedule of the user, all reset counts below 2^30, every last address below 64", "why_tests_cant": "all phase relations and delays over unbounded time; needs hardware to run", "anchors": ["lambdalib/cores/usb/ulpi.py:DumpULPIRegs", "lambdalib/cores/usb/ulpi.py:_Transceiver", "lambdalib/cores/usb/ulpi.py:_POR"]}
{"id": "C119", "title": "The generic USB device carries every byte between the clock of the USB core and that of the user", "statement": "USBGenericDevice with clock domain crossing, the clock of the USB core and that of the user being independent of each other: for every endpoint the bytes handed over at edges of the one clock are the bytes taken at edges of the other, in order, each once and with the packet ends, and at most as many are on the way as the FIFO holds; every byte arrives and the sender finds room again and again if the receiver takes bytes again and again, whatever happens at the other endpoints; a byte offered stays until an edge of the receiver's clock takes it; and the activity bits, seen at edges of the user's clock, are high exactly when a byte is moved there.", "quantifier": "every relation of the two clocks over time, every list of endpoint sizes, any correct FIFO, every traffic on all endpoints in both directions", "why_tests_cant": "all phase relations of two clocks and all interleavings of any number of endpoints over unbounded time", "anchors": ["lambdalib/cores/usb/generic_device.py:USBGenericDevice", "lambdalib/cores/usb/endpoint_cdc.py:USBAsyncStreamOutEndpoint", "lambdalib/cores/usb/endpoint_cdc.py:USBAsyncStreamInEndpoint", "lambdalib/interface/stream.py:AsyncFIFO"]}
{"id": "C120", "title": "The fixed-point IIR filter stays within a computable distance of the ideal filter for ever", "statement": "IIRFilter against the difference equation with exact arithmetic and the designed coefficients: if the ideal output leaves the error bound as headroom in the sample range, every delivered sample is that of the ideal filter, up to the error bound and the final rounding down, however long the run; rounding errors do not build up and nothing wraps around. The bound is the absolute sum of the impulse response of the feedback times (one unit of the stored precision plus one unit of the coefficients for each product). A limit on the size of the input samples, derived from the absolute sum of the impulse response, gives the headroom for ever. Without headroom outputs wrap to the other sign, they do not saturate.", "quantifier": "every list of coefficients and all widths, every sequence of samples, any correct multiplier whatever its latency, every schedule, all time", "why_tests_cant": "error accumulation over unbounded time for arbitrary inputs and coefficients cannot be sampled", "anchors": ["lambdalib/cores/filter/iir.py:IIRFilter"]}
{"id": "C121", "title": "The coefficients of the IIR filter can be changed between samples without disturbing the signal", "statement": "IIRFilter with dynamic=True: if the coefficient registers do not change while a sample is being computed, every delivered sample is that of the difference equation with the coefficients that the registers hold in the cycle after the sample is accepted; the history of inputs and outputs goes on across changes, nothing is lost or repeated, and `first` and `last` stay with their samples. A change during a computation gives a sample of neither set of coefficients.", "quantifier": "every sequence of register contents that keeps the condition, every sequence of samples and all widths, any correct multiplier whatever its latency, every schedule, all time", "why_tests_cant": "all instants of register writes relative to an unbounded stream of samples and a multiplier of any latency", "anchors": ["lambdalib/cores/filter/iir.py:IIRFilter"]}
{"id": "C122", "title": "Converters, splitter, merger, last-on-timeout and arbiter keep moving", "statement": "With a receiver that is ready again and again: the up-converter delivers every completed word, takes a beat in every cycle in which the receiver is ready and offers a word in the cycle after the beat that completes it; the down-converter takes every word offered, and with sender and receiver always ready puts out a beat in every cycle and takes a word every `ratio` cycles; the Splitter takes every beat offered although its receivers may never be ready at the same time; the Merger takes the beats of its sinks once all of them have come, and delivers them; LastOnTimeout delivers every beat taken, also the last one before silence; the Arbiter takes every beat offered at any sink, whatever pauses the other senders make, as long as no packet is without end and the timeout is not zero. With a timeout of zero a sink of the Arbiter can wait for ever.", "quantifier": "every infinite schedule of all senders and receivers, all widths, ratios, layouts, timeouts and numbers of sinks", "why_tests_cant": "freedom from deadlock and starvation is a statement about infinite runs", "anchors": ["lambdalib/interface/stream.py:_UpConverter", "lambdalib/interface/stream.py:_DownConverter", "lambdalib/interface/stream_utils.py:Splitter", "lambdalib/interface/stream_utils.py:Merger", "lambdalib/interface/stream_utils.py:LastOnTimeout", "lambdalib/interface/stream_utils.py:Arbiter"]}
{"id": "C123", "title": "Chains of stream components with changes of width, of any length, carry what their parts say and never get stuck", "statement": "Any sequence of register slices, FIFOs, Stitchers, LastInserters, up-converters, down-converters, multipliers, integer-to-float converters and IIR filters connected one after another, in any order and of any length: at every instant what has been delivered and is on offer at the end is the beginning of what the components, applied one after another to whole sequences, make of the beats accepted and on offer at the start; if the receiver takes whatever is offered at some time, every beat offered to the chain is accepted at some time, and all that the components make of the accepted beats is delivered at some time; offers at the end are stable. Words split, passed through any slices and FIFOs and put together with the same ratio and lane order come out unchanged.", "quantifier": "every list of components with all widths, ratios, counts, lane orders, coefficients, any correct FIFO, every schedule of sender and receiver, all time", "why_tests_cant": "all compositions of any length with handshakes that wait on each other, over infinite runs", "anchors": ["lambdalib/interface/stream.py:PipeValid", "lambdalib/interface/stream.py:PipeReady", "lambdalib/interface/stream.py:SyncFIFO", "lambdalib/interface/stream.py:_UpConverter", "lambdalib/interface/stream.py:_DownConverter", "lambdalib/interface/stream_utils.py:Stitcher", "lambdalib/interface/stream_utils.py:LastInserter", "lambdalib/cores/math/multiplier.py:Multiplier", "lambdalib/cores/float/i2f.py:Int2Float", "lambdalib/cores/filter/iir.py:IIRFilter"]}
{"id": "C124", "title": "Fields of a stream can be split, sent along branches of different delay and merged again", "statement": "A Splitter and a Merger with the same lists of fields, and between each source of the one and the sink of the other a component that passes beats on in order: at every instant the beats delivered and on offer have the delimiters and all the fields of the first beats presented, so that fields of different beats are never combined; if the receiver is ready again and again every beat offered is accepted at some time and every beat accepted is delivered at some time, however different the delays and depths of the branches are; offers are stable. Lines of register slices of any kind and length are such components.", "quantifier": "every number of branches and lists of fields, every component in a branch that keeps order and keeps moving if its receiver takes what it offers, every schedule of sender and receiver, all time", "why_tests_cant": "fork and join with branches that wait on each other, over infinite runs", "anchors": ["lambdalib/interface/stream_utils.py:Splitter", "lambdalib/interface/stream_utils.py:Merger", "lambdalib/interface/stream.py:PipeValid", "lambdalib/interface/stream.py:PipeReady"]}
