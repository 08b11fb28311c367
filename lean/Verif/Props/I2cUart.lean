import Verif.Props.I2cTop

/-! Calls of the host library over the UART, on the I2C bridge of the examples (C107). -/

namespace Lambdalib

/-! ### Sizes of the calls -/

/-- Bytes in the longest buffer that a call writes. -/
def BusCall.size : BusCall → Nat
  | .write w _ _ data => 2 + (w / 8).toNat + data.length
  | .read w _ _ _ => 2 + (w / 8).toNat
  | .discover => 2
  | .discoverQueue => 256

theorem pyBytes_length (l : List Int) : ∀ b, pyBytes l = some b → b.length = l.length := by
  induction l with
  | nil => intro b h; cases h; rfl
  | cons v l ih =>
    intro b h
    rw [pyBytes] at h
    split at h
    · rw [Option.map_eq_some_iff] at h
      obtain ⟨b', h1, rfl⟩ := h
      simp [ih b' h1]
    · cases h

theorem reqProg_small (l : List Int) (cap : Nat) (h : l.length ≤ cap) : (reqProg l).Small cap := by
  unfold reqProg
  cases e : pyBytes l with
  | none => trivial
  | some b => exact ⟨by rw [pyBytes_length l b e]; exact h, fun _ => trivial⟩

theorem PyProg.thenOk_small {α β : Type} (cap : Nat) (p : PyProg (Except PyErr α)) (f : α → PyProg (Except PyErr β)) (h : p.Small cap)
    (hf : ∀ a, (f a).Small cap) : (p.thenOk f).Small cap := by
  refine PyProg.bind_small cap p _ h fun a => ?_
  cases a with
  | error e => trivial
  | ok a => exact hf a

theorem probe_small (a cap : Nat) (q : PyProg (Except PyErr (BitVec 8))) (hc : 2 ≤ cap) (hq : q = reqProg [(a : Int) * 2, 0]) :
    q.Small cap := by
  obtain ⟨l, hl⟩ : ∃ l : List Int, l = [(a : Int) * 2, 0] := ⟨_, rfl⟩
  rw [hq, ← hl]
  exact reqProg_small l cap (by rw [hl]; exact hc)

theorem discoverProg_small (cap n : Nat) (hc : 2 ≤ cap) : ∀ a : Nat, (discoverProg n a).Small cap := by
  induction n with
  | zero => intro a; trivial
  | succ n ih =>
    intro a
    rw [discoverProg]
    generalize hq : reqProg [(a : Int) * 2, 0] = q
    have h := probe_small a cap q hc hq.symm
    apply PyProg.thenOk_small _ _ _ h
    intro s
    apply PyProg.thenOk_small _ _ _ (ih _)
    intro r
    trivial

theorem queue_length : ((List.range 128).flatMap fun k => [BitVec.ofNat 8 (k * 2), (0 : BitVec 8)]).length = 256 := by
  decide +kernel

theorem queueProg_small (cap : Nat) (q : PyProg (Except PyErr (List BusTok))) (hc : 256 ≤ cap) (hq : q = queueProg) : q.Small cap := by
  rw [hq]
  unfold queueProg
  rw [pyBytes_probes]
  have h := queue_length
  generalize ((List.range 128).flatMap fun k => [BitVec.ofNat 8 (k * 2), (0 : BitVec 8)]) = q at h ⊢
  exact ⟨by rw [h]; exact hc, fun _ => trivial⟩

theorem BusCall.prog_small (c : BusCall) (cap : Nat) (hc : c.size ≤ cap) : c.prog.Small cap := by
  have hlen : ∀ w r : Int, (regAddrArray w r).length = (w / 8).toNat := by
    intro w r; simp [regAddrArray, regAddrLoop_length, regAddrSize]
  cases c with
  | write w a r data =>
    have h := reqProg_small ([a * 2, regAddrSize w + data.length] ++ (regAddrArray w r ++ data)) cap (by
      simp only [BusCall.size] at hc
      simp only [List.length_append, List.length_cons, List.length_nil, hlen]
      omega)
    exact PyProg.bind_small _ _ _ (PyProg.thenOk_small _ _ _ h fun _ => trivial) fun _ => trivial
  | read w a r l =>
    simp only [BusCall.size] at hc
    have h := reqProg_small ([a * 2, regAddrSize w] ++ regAddrArray w r) cap (by
      simp only [List.length_append, List.length_cons, List.length_nil, hlen]
      omega)
    have h' := reqProg_small [a * 2 + 1, l] cap (by simp only [List.length_cons, List.length_nil]; omega)
    refine PyProg.bind_small _ _ _ (PyProg.thenOk_small _ _ _ h fun s => ?_) fun _ => trivial
    split
    · trivial
    · refine PyProg.thenOk_small _ _ _ h' fun s => ?_
      split
      · trivial
      · exact fun _ => trivial
  | discover =>
    have h := discoverProg_small cap 128 hc 0
    unfold BusCall.prog
    generalize discoverProg 128 0 = q at h ⊢
    exact PyProg.bind_small _ _ _ h fun _ => trivial
  | discoverQueue =>
    unfold BusCall.prog
    generalize hq : queueProg = q
    have h := queueProg_small cap q hc hq.symm
    exact PyProg.bind_small _ _ _ h fun _ => trivial

theorem BusCall.progAll_small (cs : List BusCall) (cap : Nat) (h : ∀ c ∈ cs, c.size ≤ cap) : (BusCall.progAll cs).Small cap := by
  induction cs with
  | nil => trivial
  | cons c cs ih =>
    refine PyProg.thenOk_small _ _ _ (BusCall.prog_small c cap (h c (by simp))) fun r => ?_
    exact PyProg.bind_small _ _ _ (ih fun c hc => h c (by simp [hc])) fun _ => trivial

theorem probes_small (n : Nat) : ∀ a x data, BusTxn.write x data ∈ probes a n → data = [] := by
  intro a x data h
  simp only [probes, List.mem_map] at h
  obtain ⟨k, _, e⟩ := h
  cases e
  rfl

theorem beBytes_length (n : Nat) (v : Int) : (beBytes n v).length = n := by
  simp [beBytes]

/-- The writes on the bus are no longer than the buffers. -/
theorem BusCall.spec_short (d : BusDevices) (log : List BusTxn) (c : BusCall) (a : Nat) (data : List (BitVec 8))
    (h : .write a data ∈ (c.spec d log).2) : data.length + 2 ≤ c.size := by
  cases c with
  | write w b r l =>
    simp only [BusCall.spec] at h
    split at h
    · simp only [List.mem_singleton, BusTxn.write.injEq] at h
      rw [h.2]
      simp only [List.length_append, List.length_map, beBytes_length, BusCall.size]
      omega
    · cases h
  | read w b r l =>
    simp only [BusCall.spec] at h
    simp only [BusCall.size]
    have : data = beBytes (w / 8).toNat r := by
      split at h
      · by_cases hz : (d log (regTxn w b r)).isSome = true
        case neg =>
          rw [if_neg hz] at h
          simp only [regTxn, List.mem_singleton, BusTxn.write.injEq] at h
          exact h.2
        case pos =>
          rw [if_pos hz] at h
          split at h
          · simp only [regTxn, List.mem_cons, BusTxn.write.injEq, reduceCtorEq, List.not_mem_nil, or_false] at h
            exact h.2
          · simp only [regTxn, List.mem_singleton, BusTxn.write.injEq] at h
            exact h.2
      · cases h
    rw [this, beBytes_length]
    omega
  | discover =>
    have := probes_small 128 0 a data h
    rw [this]
    exact Nat.le_refl 2
  | discoverQueue =>
    have := probes_small 128 0 a data h
    rw [this]
    change 0 + 2 ≤ 256
    omega

theorem BusCall.specAll_short (d : BusDevices) (cs : List BusCall) : ∀ log a data,
    .write a data ∈ (BusCall.specAll d log cs).2 → ∃ c ∈ cs, data.length + 2 ≤ c.size := by
  induction cs with
  | nil => intro log a data h; cases h
  | cons c cs ih =>
    intro log a data h
    have h1 := fun hx => BusCall.spec_short d log c a data hx
    have ih := fun log => ih log a data
    unfold BusCall.specAll at h
    generalize c.spec d log = x at h h1
    obtain ⟨x | x, t⟩ := x
    · exact ⟨c, by simp, h1 h⟩
    · rcases List.mem_append.1 h with h | h
      · exact ⟨c, by simp, h1 h⟩
      · obtain ⟨c', h2, h3⟩ := ih _ h
        exact ⟨c', by simp [h2], h3⟩

/-! ### The calls -/

section
variable {D : I2cDev} {bidir : Bool} {period : Nat} {stretch : Bool} {depth : Nat} {cs : List BusCall} {i : Nat → I2cTopIn}
  {go : Nat → Bool} {h : Nat → PyHost (Except PyErr (List BusRes))} {hold : Nat → Bool} {g : Nat}

/-- **C107.** Calls of the library by a host behind a UART, on the I2C bridge of the examples with a device on the wires: no byte from
the UART is lost, the program ends with the results of the calls with the answers of the device, nothing is left in either direction,
and the device has been through exactly the transactions of the calls. `g` is the longest time, in clock cycles, until the next byte of
the host arrives. Missing: buffers longer than the FIFO and writes that a device refuses of which not all bytes can have arrived at
that time, for which the bridge is wrong (below), and what C102 leaves out. -/
theorem C107_calls_partial (hp : 4 ≤ period)
    (hw : I2cWired D.target bidir period stretch (i2cStrCi period stretch (i2cProtoSi period stretch (topPi period stretch depth i))) hold)
    (hu : UartRun period stretch depth (BusCall.progAll cs) i go h)
    (hpace : ∀ n, (h n).tx ≠ [] → ∃ m, n ≤ m ∧ m < n + g ∧ (i m).rxRdy = true) (hD : D.Polite)
    (hrel : ∀ n, ∃ m, n ≤ m ∧ hold m = false) (htx : ∀ n, ∃ m, n ≤ m ∧ (i m).txRdy = true)
    (hgo : ∀ n, ∃ m, n ≤ m ∧ go m = true) (hf : ∀ c ∈ cs, c.WidthOk) (hr : BusCall.ReadOkAll D.bus [] cs)
    (hsz : ∀ c ∈ cs, c.size ≤ fifoDepth depth) (hg : g + 1 ≤ i2cByteTime period)
    (hshort : ∀ l a data, l ++ [.write a data] <+: (BusCall.specAll D.bus [] cs).2 → D.bus l (.write a data) = none →
      data.length * g + 1 ≤ i2cByteTime period) :
    let r := BusCall.specAll D.bus [] cs
    (∀ n, ((i2cTop period stretch depth).wave i n).rxAck = true) ∧ ∃ m, ∀ n, m ≤ n → (h n).prog = .ret r.1 ∧ (h n).tx = [] ∧ (h n).rx = [] ∧
      (i2cBusOf D.target bidir period stretch (i2cStrCi period stretch (i2cProtoSi period stretch (topPi period stretch depth i)))
        hold (n + 1)).tgt.2 = (D.state r.2).1.log := by
  intro r
  have hok := BusCall.progAll_ok D.bus D.bus_sized cs [] hf hr
  have := C107_uart_program_partial hp hw hu hpace hD (BusCall.progAll_complete cs hf) hok.full hok.reads hok.patient hok.lock
    (BusCall.progAll_small cs _ hsz) hg (by rw [hok.run]; exact hshort) hrel htx hgo
  simp only [hok.run] at this
  exact this

/-- **C107.** The lines driven at the pads of the bridge are those that `I2cWired` puts on the wires, and what it sees of the wires is
what comes in at the pads. -/
theorem C107_pads (n : Nat) :
    ((i2cTop period stretch depth).wave i n).sclO =
      i2cScl period stretch (i2cStrCi period stretch (i2cProtoSi period stretch (topPi period stretch depth i))) n ∧
    ((i2cTop period stretch depth).wave i n).sdaO =
      i2cSda period stretch (i2cStrCi period stretch (i2cProtoSi period stretch (topPi period stretch depth i))) n ∧
    (i2cStrCi period stretch (i2cProtoSi period stretch (topPi period stretch depth i)) n).sclI = (i n).sclI ∧
    (i2cStrCi period stretch (i2cProtoSi period stretch (topPi period stretch depth i)) n).sdaI = (i n).sdaI := by
  have h : (i2cInitiator period stretch).st (i2cStrCi period stretch (i2cProtoSi period stretch (topPi period stretch depth i))) n =
      ((i2cTop period stretch depth).st i n).proto.str.core := by
    rw [← i2cStr_core, ← i2cProto_str, ← top_proto]
  refine ⟨?_, ?_, rfl, rfl⟩
  · simp only [i2cScl, Circuit.wave]
    rw [h]; rfl
  · simp only [i2cSda, Circuit.wave]
    rw [h]; rfl

end

/-! ### The whole system -/

/-- Inputs of the bridge when the UART delivers the next byte of the host. -/
def uartFedIn {α : Type} (r : I2cTopS × PyHost α) (pace txRdy scl sda : Bool) : I2cTopIn :=
  ⟨pace && !r.2.tx.isEmpty, r.2.tx.headD 0, txRdy, scl, sda⟩

/-- The bridge with its host. -/
def uartFed {α : Type} (period : Nat) (stretch : Bool) (depth : Nat) (p : PyProg α) :
    Circuit (I2cTopS × PyHost α) ((Bool × Bool × Bool) × Bool × Bool) I2cTopOut where
  reset := ((i2cTop period stretch depth).reset, ⟨p, [], []⟩)
  out r x := (i2cTop period stretch depth).out r.1 (uartFedIn r x.1.1 x.1.2.1 x.2.1 x.2.2)
  next r x :=
    let y := uartFedIn r x.1.1 x.1.2.1 x.2.1 x.2.2
    let o := (i2cTop period stretch depth).out r.1 y
    ((i2cTop period stretch depth).next r.1 y,
      r.2.step x.1.2.2 y.rxRdy (if o.txAck && y.txRdy then some o.txData else none))

section
variable {α : Type} (D : I2cDev) (bidir : Bool) (period : Nat) (stretch : Bool) (depth : Nat) (p : PyProg α) (pace txRdy go hold : Nat → Bool)

/-- The inputs of `uartFed` on the wires with a device. -/
def uartWire : Nat → (Bool × Bool × Bool) × Bool × Bool :=
  closeIn D.target bidir (uartFed period stretch depth p) (fun r => r.1.proto.str.core)
    (fun n _ scl sda => ((pace n, txRdy n, go n), scl, sda)) hold

/-- The host in the whole system: program, UART, bridge, wires, device. -/
def uartSysHost (n : Nat) : PyHost α :=
  ((uartFed period stretch depth p).st (uartWire D bidir period stretch depth p pace txRdy go hold) n).2

/-- The inputs of the bridge in the whole system. -/
def uartSysIn (n : Nat) : I2cTopIn :=
  let x := uartWire D bidir period stretch depth p pace txRdy go hold n
  uartFedIn ((uartFed period stretch depth p).st (uartWire D bidir period stretch depth p pace txRdy go hold) n) x.1.1 x.1.2.1 x.2.1 x.2.2

/-- Whether the bridge takes a byte from the UART. -/
def uartSysAck (n : Nat) : Bool := ((i2cTop period stretch depth).wave (uartSysIn D bidir period stretch depth p pace txRdy go hold) n).rxAck

/-- What the device has been through, after `n` cycles. -/
def uartSysLog (n : Nat) : List DevEv :=
  (i2cBusOf D.target bidir period stretch (i2cStrCi period stretch (i2cProtoSi period stretch
    (topPi period stretch depth (uartSysIn D bidir period stretch depth p pace txRdy go hold)))) hold n).tgt.2

theorem uartSys_st (n : Nat) : (i2cTop period stretch depth).st (uartSysIn D bidir period stretch depth p pace txRdy go hold) n =
    ((uartFed period stretch depth p).st (uartWire D bidir period stretch depth p pace txRdy go hold) n).1 := by
  induction n with
  | zero => rfl
  | succ n ih => rw [Circuit.st_succ, ih]; rfl

theorem uartSys_in (n : Nat) :
    (uartSysIn D bidir period stretch depth p pace txRdy go hold n).rxRdy =
      (pace n && !(uartSysHost D bidir period stretch depth p pace txRdy go hold n).tx.isEmpty) ∧
    (uartSysIn D bidir period stretch depth p pace txRdy go hold n).rxData =
      (uartSysHost D bidir period stretch depth p pace txRdy go hold n).tx.headD 0 ∧
    (uartSysIn D bidir period stretch depth p pace txRdy go hold n).txRdy = txRdy n := ⟨rfl, rfl, rfl⟩

theorem uartSys_run : UartRun period stretch depth p (uartSysIn D bidir period stretch depth p pace txRdy go hold) go
    (uartSysHost D bidir period stretch depth p pace txRdy go hold) where
  init := rfl
  step n := by
    intro o
    have : o = (i2cTop period stretch depth).out
        ((uartFed period stretch depth p).st (uartWire D bidir period stretch depth p pace txRdy go hold) n).1
        (uartSysIn D bidir period stretch depth p pace txRdy go hold n) := by
      simp only [o]
      rw [Circuit.wave, uartSys_st]
    rw [this]
    rfl
  send n hn := by
    rw [(uartSys_in D bidir period stretch depth p pace txRdy go hold n).2.1]
    rw [(uartSys_in D bidir period stretch depth p pace txRdy go hold n).1] at hn
    generalize (uartSysHost D bidir period stretch depth p pace txRdy go hold n).tx = l at *
    cases l with
    | nil => simp at hn
    | cons a l => exact ⟨l, rfl⟩

theorem uartSys_core (n : Nat) : (i2cInitiator period stretch).st (i2cStrCi period stretch (i2cProtoSi period stretch
      (topPi period stretch depth (uartSysIn D bidir period stretch depth p pace txRdy go hold)))) n =
    ((uartFed period stretch depth p).st (uartWire D bidir period stretch depth p pace txRdy go hold) n).1.proto.str.core := by
  rw [← i2cStr_core, ← i2cProto_str, ← top_proto, uartSys_st]

theorem uartSys_bus (n : Nat) : i2cBusOf D.target bidir period stretch (i2cStrCi period stretch (i2cProtoSi period stretch
      (topPi period stretch depth (uartSysIn D bidir period stretch depth p pace txRdy go hold)))) hold n =
    (closeRun D.target bidir (uartFed period stretch depth p) (fun r : I2cTopS × PyHost α => r.1.proto.str.core)
      (fun n _ scl sda => ((pace n, txRdy n, go n), scl, sda)) hold n).2 := by
  refine close_bus D.target bidir _ (fun r : I2cTopS × PyHost α => r.1.proto.str.core) _ hold _ _ (fun n => ?_) n
  have := uartSys_core D bidir period stretch depth p pace txRdy go hold n
  constructor
  · change ((i2cInitiator period stretch).st (i2cStrCi period stretch (i2cProtoSi period stretch (topPi period stretch depth
      (uartSysIn D bidir period stretch depth p pace txRdy go hold)))) n).sclO = _
    rw [this]; rfl
  · change ((i2cInitiator period stretch).st (i2cStrCi period stretch (i2cProtoSi period stretch (topPi period stretch depth
      (uartSysIn D bidir period stretch depth p pace txRdy go hold)))) n).sdaO = _
    rw [this]; rfl

/-- C107: the whole system meets the hypotheses on wires, UART and host. -/
theorem C107_host_exists (g : Nat) (hh : ∀ n, hold n = true → bidir = true ∧ stretch = true)
    (hpace : ∀ n, ∃ m, n ≤ m ∧ m < n + g ∧ pace m = true) :
    let i := uartSysIn D bidir period stretch depth p pace txRdy go hold
    let h := uartSysHost D bidir period stretch depth p pace txRdy go hold
    I2cWired D.target bidir period stretch (i2cStrCi period stretch (i2cProtoSi period stretch (topPi period stretch depth i))) hold ∧
      UartRun period stretch depth p i go h ∧ (∀ n, (h n).tx ≠ [] → ∃ m, n ≤ m ∧ m < n + g ∧ (i m).rxRdy = true) ∧
      ∀ n, (i n).txRdy = txRdy n := by
  intro i h
  have hrun := uartSys_run D bidir period stretch depth p pace txRdy go hold
  have hcc := uartSys_core D bidir period stretch depth p pace txRdy go hold
  have hb := uartSys_bus D bidir period stretch depth p pace txRdy go hold
  have hs := fun n => close_st D.target bidir (uartFed period stretch depth p)
    (fun r : I2cTopS × PyHost α => r.1.proto.str.core) (fun n _ scl sda => ((pace n, txRdy n, go n), scl, sda)) hold n
  refine ⟨⟨fun n => ?_, fun n => ?_, hh⟩, hrun, fun n hn => ?_, fun _ => rfl⟩
  · rw [hb n]
    simp only [i2cScl, i2cSda, Circuit.wave]
    rw [hcc n]
    change (uartWire D bidir period stretch depth p pace txRdy go hold n).2.1 = _
    unfold uartWire
    rw [hs n]
    rfl
  · rw [hb n]
    simp only [i2cScl, i2cSda, Circuit.wave]
    rw [hcc n]
    change (uartWire D bidir period stretch depth p pace txRdy go hold n).2.2 = _
    unfold uartWire
    rw [hs n]
    rfl
  · -- the bytes stay with the host until the UART takes one
    obtain ⟨m, h1, h2, h3⟩ := hpace n
    apply Classical.byContradiction
    intro hno
    have hne : ∀ d, n + d ≤ m → (h (n + d)).tx ≠ [] := by
      intro d hd
      induction d with
      | zero => exact hn
      | succ d ih =>
        have hr : (i (n + d)).rxRdy = false := by
          cases e : (i (n + d)).rxRdy
          · rfl
          · exact absurd ⟨n + d, by omega, by omega, e⟩ hno
        have hst := hrun.step (n + d)
        rw [hr] at hst
        simp only [PyHost.step, Bool.false_eq_true, if_false] at hst
        change h (n + (d + 1)) = _ at hst
        rw [hst]
        have hpre : (h (n + d)).tx ≠ [] := ih (by omega)
        cases go (n + d)
        · exact hpre
        · intro h0
          have := PyHost.act_tx (PyHost.mk (h (n + d)).prog (h (n + d)).tx ((h (n + d)).rx ++
            (if ((i2cTop period stretch depth).wave i (n + d)).txAck && (i (n + d)).txRdy then
              some ((i2cTop period stretch depth).wave i (n + d)).txData else none).toList))
          rw [show (PyHost.act (PyHost.mk (h (n + d)).prog (h (n + d)).tx ((h (n + d)).rx ++
            (if ((i2cTop period stretch depth).wave i (n + d)).txAck && (i (n + d)).txRdy then
              some ((i2cTop period stretch depth).wave i (n + d)).txData else none).toList))).tx = [] from h0] at this
          exact hpre (List.prefix_nil.1 this)
    have := hne (m - n) (by omega)
    rw [show n + (m - n) = m by omega] at this
    refine hno ⟨m, h1, h2, ?_⟩
    rw [(uartSys_in D bidir period stretch depth p pace txRdy go hold m).1, h3]
    cases e : (uartSysHost D bidir period stretch depth p pace txRdy go hold m).tx
    · exact absurd e this
    · rfl

end

/-- **C107.** The same for the whole system, with a UART that delivers a byte whenever `pace` says so: calls that are short enough for the
FIFO and for the time of one byte on the bus, other than block reads of zero bytes, whatever the device answers. -/
theorem C107_calls_system_partial (D : I2cDev) (bidir : Bool) (period : Nat) (stretch : Bool) (depth : Nat) (cs : List BusCall)
    (pace txRdy go hold : Nat → Bool) (g : Nat) (hp : 4 ≤ period) (hh : ∀ n, hold n = true → bidir = true ∧ stretch = true)
    (hrel : ∀ n, ∃ m, n ≤ m ∧ hold m = false) (hpace : ∀ n, ∃ m, n ≤ m ∧ m < n + g ∧ pace m = true)
    (htx : ∀ n, ∃ m, n ≤ m ∧ txRdy m = true) (hgo : ∀ n, ∃ m, n ≤ m ∧ go m = true) (hD : D.Polite)
    (hf : ∀ c ∈ cs, c.WidthOk) (hr : ∀ c ∈ cs, c.NonEmpty) (hsz : ∀ c ∈ cs, c.size ≤ fifoDepth depth)
    (hg : g + 1 ≤ i2cByteTime period) (hshort : ∀ c ∈ cs, (c.size - 2) * g + 1 ≤ i2cByteTime period) :
    let r := BusCall.specAll D.bus [] cs
    (∀ n, uartSysAck D bidir period stretch depth (BusCall.progAll cs) pace txRdy go hold n = true) ∧
    ∃ m, ∀ n, m ≤ n → (uartSysHost D bidir period stretch depth (BusCall.progAll cs) pace txRdy go hold n).prog = .ret r.1 ∧
      (uartSysHost D bidir period stretch depth (BusCall.progAll cs) pace txRdy go hold n).tx = [] ∧
      (uartSysHost D bidir period stretch depth (BusCall.progAll cs) pace txRdy go hold n).rx = [] ∧
      uartSysLog D bidir period stretch depth (BusCall.progAll cs) pace txRdy go hold (n + 1) = (D.state r.2).1.log := by
  obtain ⟨hw, hrun, hpc, hrd⟩ := C107_host_exists D bidir period stretch depth (BusCall.progAll cs) pace txRdy go hold g hh hpace
  refine C107_calls_partial hp hw hrun hpc hD hrel (by simpa only [hrd] using htx) hgo hf (BusCall.readOk_nonEmpty D.bus cs [] hr) hsz hg ?_
  intro l a data hpre _
  obtain ⟨c, hc, hle⟩ := BusCall.specAll_short D.bus cs [] a data (hpre.subset (by simp))
  have h1 := hshort c hc
  have h2 : data.length * g ≤ (c.size - 2) * g := Nat.mul_le_mul_right _ (by omega)
  omega

/-! ### What goes wrong -/

section
variable {α : Type} (D : I2cDev) (bidir : Bool) (period : Nat) (stretch : Bool) (depth : Nat) (p : PyProg α) (pace txRdy go hold : Nat → Bool)

/-- The whole system, step by step. -/
def uartSys (n : Nat) : (I2cTopS × PyHost α) × I2cBusS (DevPh × List DevEv) :=
  closeRun D.target bidir (uartFed period stretch depth p) (fun r : I2cTopS × PyHost α => r.1.proto.str.core)
    (fun n _ scl sda => ((pace n, txRdy n, go n), scl, sda)) hold n

theorem uartSys_host (n : Nat) : uartSysHost D bidir period stretch depth p pace txRdy go hold n =
    (uartSys D bidir period stretch depth p pace txRdy go hold n).1.2 := by
  unfold uartSysHost uartWire uartSys
  rw [close_st]

theorem uartSys_ack (n : Nat) : uartSysAck D bidir period stretch depth p pace txRdy go hold n =
    let s := (uartSys D bidir period stretch depth p pace txRdy go hold n).1.1
    !(s.ser.valid && !decide (s.rx.length < fifoDepth depth)) := by
  have := uartSys_st D bidir period stretch depth p pace txRdy go hold n
  unfold uartWire at this
  rw [close_st] at this
  unfold uartSysAck uartSys
  rw [Circuit.wave, this]
  rfl

theorem uartSys_log (n : Nat) : uartSysLog D bidir period stretch depth p pace txRdy go hold n =
    (uartSys D bidir period stretch depth p pace txRdy go hold n).2.tgt.2 := by
  unfold uartSysLog uartSys
  rw [uartSys_bus]

/-- A program that has ended stays so. -/
theorem uartSys_ret (n m : Nat) (hnm : n ≤ m) (r : α) (h : (uartSysHost D bidir period stretch depth p pace txRdy go hold n).prog = .ret r) :
    (uartSysHost D bidir period stretch depth p pace txRdy go hold m).prog = .ret r := by
  obtain ⟨d, rfl⟩ : ∃ d, m = n + d := ⟨m - n, by omega⟩
  induction d with
  | zero => exact h
  | succ d ih =>
    have := (uartSys_run D bidir period stretch depth p pace txRdy go hold).step (n + d)
    rw [← Nat.add_assoc, this]
    have ih := ih (by omega)
    simp only [PyHost.step, PyHost.act, ih]
    split <;> rfl

theorem dev_see_log (t : DevPh × List DevEv) (a b c e : Bool) : t.2 <+: (D.target.see t a b c e).2 := by
  have h1 : ∀ t, (D.target.fall t).2 = t.2 := by
    intro t
    obtain ⟨ph, l⟩ := t
    cases ph <;> rfl
  have h2 : ∀ t v, t.2 <+: (D.target.rise t v).2 := by
    intro t v
    obtain ⟨ph, l⟩ := t
    cases ph <;> simp only [I2cDev.target] <;> (try split) <;> simp
  have h3 : ∀ t, t.2 <+: (D.target.start t).2 := fun t => List.prefix_append _ _
  have h4 : ∀ t, t.2 <+: (D.target.stop t).2 := fun t => List.prefix_append _ _
  unfold I2cTarget.see
  cases a <;> cases b <;> cases c <;> cases e <;> simp [h1, h2, h3, h4]

theorem uartSys_log_mono (n m : Nat) (hnm : n ≤ m) : uartSysLog D bidir period stretch depth p pace txRdy go hold n <+:
    uartSysLog D bidir period stretch depth p pace txRdy go hold m := by
  obtain ⟨d, rfl⟩ : ∃ d, m = n + d := ⟨m - n, by omega⟩
  induction d with
  | zero => exact List.prefix_rfl
  | succ d ih =>
    refine List.IsPrefix.trans (ih (by omega)) ?_
    exact dev_see_log D _ _ _ _ _

end

/-- A write to an absent device, longer than what has arrived when the address is refused, and a second one. -/
def strayCalls : List BusCall := [.write 8 0x21 0 [1, 0xA0, 2, 7, 9], .write 8 0x21 0 [1]]

theorem strayCalls_run :
    ((uartSys politeDev true 4 false 32 (BusCall.progAll strayCalls) (fun n => n % 40 == 0) (fun _ => true) (fun _ => true)
      (fun _ => false) 1500).1.2.prog matches .ret (.ok [.wrote none, .wrote (some 1)])) = true := by
  decide +kernel

/-- The device 0x50 has been written to, although both writes were for the absent device 0x21. -/
theorem strayCalls_log :
    (uartSys politeDev true 4 false 32 (BusCall.progAll strayCalls) (fun n => n % 40 == 0) (fun _ => true) (fun _ => true)
      (fun _ => false) 1500).2.tgt.2 =
    [.start, .wrote 0x42 false, .stop, .start, .wrote 0xA0 true, .wrote 7 true, .wrote 9 true, .stop,
      .start, .wrote 0x42 false, .stop] := by
  decide +kernel

/-- **C107** (refuted without the condition on refused writes): the data bytes that arrive after the address was refused are taken
as commands. Here the second write to an absent device is reported as done. -/
theorem C107_refused_writes_refuted :
    ¬ ∀ (D : I2cDev) (bidir : Bool) (period : Nat) (stretch : Bool) (depth : Nat) (cs : List BusCall)
      (pace txRdy go hold : Nat → Bool) (g : Nat), 4 ≤ period → (∀ n, hold n = true → bidir = true ∧ stretch = true) →
      (∀ n, ∃ m, n ≤ m ∧ hold m = false) → (∀ n, ∃ m, n ≤ m ∧ m < n + g ∧ pace m = true) →
      (∀ n, ∃ m, n ≤ m ∧ txRdy m = true) → (∀ n, ∃ m, n ≤ m ∧ go m = true) → D.Polite →
      (∀ c ∈ cs, c.WidthOk) → (∀ c ∈ cs, c.NonEmpty) → (∀ c ∈ cs, c.size ≤ fifoDepth depth) → g + 1 ≤ i2cByteTime period →
      ∃ m, ∀ n, m ≤ n → (uartSysHost D bidir period stretch depth (BusCall.progAll cs) pace txRdy go hold n).prog =
        .ret (BusCall.specAll D.bus [] cs).1 := by
  intro h
  obtain ⟨m, hm⟩ := h politeDev true 4 false 32 strayCalls (fun n => n % 40 == 0) (fun _ => true) (fun _ => true) (fun _ => false) 40
    (by omega) (fun _ h => nomatch h) (fun n => ⟨n, Nat.le_refl n, rfl⟩)
    (fun n => ⟨40 * ((n + 39) / 40), by omega, by omega, by simp⟩) (fun n => ⟨n, Nat.le_refl n, rfl⟩) (fun n => ⟨n, Nat.le_refl n, rfl⟩)
    politeDev_polite (by simp [strayCalls, BusCall.WidthOk]) (by simp [strayCalls, BusCall.NonEmpty])
    (by simp [strayCalls, BusCall.size, fifoDepth]) (by simp [i2cByteTime])
  have h1 := hm (max m 1500) (Nat.le_max_left _ _)
  have hspec : (BusCall.specAll politeDev.bus [] strayCalls).1 = .ok [.wrote none, .wrote none] := by decide +kernel
  rw [hspec] at h1
  have h2 := strayCalls_run
  rw [← uartSys_host] at h2
  have h3 : (uartSysHost politeDev true 4 false 32 (BusCall.progAll strayCalls) (fun n => n % 40 == 0) (fun _ => true) (fun _ => true)
      (fun _ => false) 1500).prog = .ret (.ok [.wrote none, .wrote (some 1)]) := by
    generalize (uartSysHost politeDev true 4 false 32 (BusCall.progAll strayCalls) (fun n => n % 40 == 0) (fun _ => true) (fun _ => true)
      (fun _ => false) 1500).prog = q at h2 ⊢
    split at h2
    · rfl
    · cases h2
  rw [uartSys_ret _ _ _ _ _ _ _ _ _ _ 1500 (max m 1500) (Nat.le_max_right _ _) _ h3] at h1
  cases h1

/-- A long write to a device that is there. -/
def longCalls : List BusCall := [.write 8 0x50 0 (List.replicate 20 7)]

theorem longCalls_log :
    (uartSys politeDev true 4 false 8 (BusCall.progAll longCalls) (fun n => n % 5 == 0) (fun _ => true) (fun _ => true)
      (fun _ => false) 1100).2.tgt.2 =
    [.start, .wrote 0xA0 true, .wrote 0 true] ++ List.replicate 8 (.wrote 7 true) ++ List.replicate 4 (.wrote 0 true) := by
  decide +kernel

/-- The write is reported as done. -/
theorem longCalls_run :
    ((uartSys politeDev true 4 false 8 (BusCall.progAll longCalls) (fun n => n % 5 == 0) (fun _ => true) (fun _ => true)
      (fun _ => false) 1700).1.2.prog matches .ret (.ok [.wrote (some 20)])) = true := by
  decide +kernel

/-- **C107** (refuted without the condition on the size of buffers): a write that is longer than the FIFO to a device that is there.
Bytes are lost, and other bytes are written to the device. -/
theorem C107_long_writes_refuted :
    ¬ ∀ (D : I2cDev) (bidir : Bool) (period : Nat) (stretch : Bool) (depth : Nat) (cs : List BusCall)
      (pace txRdy go hold : Nat → Bool) (g : Nat), 4 ≤ period → (∀ n, hold n = true → bidir = true ∧ stretch = true) →
      (∀ n, ∃ m, n ≤ m ∧ hold m = false) → (∀ n, ∃ m, n ≤ m ∧ m < n + g ∧ pace m = true) →
      (∀ n, ∃ m, n ≤ m ∧ txRdy m = true) → (∀ n, ∃ m, n ≤ m ∧ go m = true) → D.Polite →
      (∀ c ∈ cs, c.WidthOk) → (∀ c ∈ cs, c.NonEmpty) → g + 1 ≤ i2cByteTime period →
      (∀ l a data, l ++ [.write a data] <+: (BusCall.specAll D.bus [] cs).2 → D.bus l (.write a data) = none →
        data.length * g + 1 ≤ i2cByteTime period) →
      ∃ m, ∀ n, m ≤ n → uartSysLog D bidir period stretch depth (BusCall.progAll cs) pace txRdy go hold (n + 1) =
        (D.state (BusCall.specAll D.bus [] cs).2).1.log := by
  intro h
  have hspec : (BusCall.specAll politeDev.bus [] longCalls).2 = [.write 0x50 (0 :: List.replicate 20 7)] := by decide +kernel
  obtain ⟨m, hm⟩ := h politeDev true 4 false 8 longCalls (fun n => n % 5 == 0) (fun _ => true) (fun _ => true) (fun _ => false) 5
    (by omega) (fun _ h => nomatch h) (fun n => ⟨n, Nat.le_refl n, rfl⟩)
    (fun n => ⟨5 * ((n + 4) / 5), by omega, by omega, by simp⟩) (fun n => ⟨n, Nat.le_refl n, rfl⟩) (fun n => ⟨n, Nat.le_refl n, rfl⟩)
    politeDev_polite (by simp [longCalls, BusCall.WidthOk]) (by simp [longCalls, BusCall.NonEmpty]) (by simp [i2cByteTime])
    (by
      intro l a data hpre hnone
      rw [hspec] at hpre
      have hl := hpre.length_le
      simp at hl
      subst hl
      simp at hpre
      obtain ⟨rfl, rfl⟩ := hpre
      exact absurd hnone (by decide +kernel))
  have h1 := hm (max m 1100) (Nat.le_max_left _ _)
  have h2 := uartSys_log_mono politeDev true 4 false 8 (BusCall.progAll longCalls) (fun n => n % 5 == 0) (fun _ => true) (fun _ => true)
    (fun _ => false) 1100 (max m 1100 + 1) (by omega)
  rw [h1, uartSys_log, longCalls_log, hspec] at h2
  revert h2
  decide +kernel

/-- With the FIFO of 32 bytes, bytes of a write of 60 bytes are lost. -/
theorem C107_fifo_overflows : uartSysAck politeDev true 4 false 32 (BusCall.progAll [.write 8 0x50 0 (List.replicate 60 7)])
    (fun n => n % 10 == 0) (fun _ => true) (fun _ => true) (fun _ => false) 400 = false ∧
    (uartSysIn politeDev true 4 false 32 (BusCall.progAll [.write 8 0x50 0 (List.replicate 60 7)])
    (fun n => n % 10 == 0) (fun _ => true) (fun _ => true) (fun _ => false) 400).rxRdy = true := by
  constructor
  · rw [uartSys_ack]
    decide +kernel
  · rw [(uartSys_in _ _ _ _ _ _ _ _ _ _ _).1, uartSys_host]
    decide +kernel

/-! ### Examples -/

/-- The theorem applied: 400 kHz from 100 MHz, the FIFO of 32 bytes, a byte of the UART every 340 cycles; two kinds of writes, a block
read, a write to an absent device and a discovery. -/
example : ∃ m, ∀ n, m ≤ n → (uartSysHost politeDev false 250 false 32 (BusCall.progAll libSample) (fun n => n % 340 == 0)
    (fun n => n % 340 == 7) (fun n => n % 5 == 0) (fun _ => false) n).prog = .ret (BusCall.specAll politeDev.bus [] libSample).1 := by
  obtain ⟨m, hm⟩ := (C107_calls_system_partial politeDev false 250 false 32 libSample (fun n => n % 340 == 0) (fun n => n % 340 == 7)
    (fun n => n % 5 == 0) (fun _ => false) 340 (by omega) (fun _ h => nomatch h) (fun n => ⟨n, Nat.le_refl n, rfl⟩)
    (fun n => ⟨340 * ((n + 339) / 340), by omega, by omega, by simp⟩) (fun n => ⟨340 * n + 7, by omega, by simp⟩)
    (fun n => ⟨5 * n, by omega, by simp⟩) politeDev_polite libSample_width libSample_nonEmpty
    (by simp [libSample, BusCall.size, fifoDepth]) (by simp [i2cByteTime]) (by simp [libSample, BusCall.size, i2cByteTime])).2
  exact ⟨m, fun n hn => (hm n hn).1⟩

end Lambdalib
