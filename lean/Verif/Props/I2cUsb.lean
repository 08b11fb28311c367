import Verif.Props.I2cUsbTop
import Verif.Props.I2cUart
import Verif.Lemmas.I2cUsbCalls

/-! Calls of the host library over USB, on the I2C bridge of the examples (C112). -/

namespace Lambdalib

section
variable {D : I2cDev} {bidir : Bool} {size : Nat} {zlp : Bool} {period : Nat} {stretch : Bool} {depth : Nat} {cs : List BusCall}
  {i : Nat → I2cUsbTopIn} {go : Nat → Bool} {h : Nat → UsbPyHost (Except PyErr (List BusRes))} {hold : Nat → Bool} {g : Nat}

/-- What a call must be for an endpoint: not `discover_queue`, and if the endpoint ends full packets with an empty one, the data of a
block read does not fill its packets. -/
def BusCall.UsbOk (size : Nat) (zlp : Bool) : BusCall → Prop
  | .read _ _ _ l => zlp = false ∨ l ≤ 0 ∨ l.toNat % size ≠ 0
  | .discoverQueue => False
  | _ => True

theorem BusCall.UsbOk.frame {size : Nat} {zlp : Bool} {c : BusCall} (h : c.UsbOk size zlp) :
    c.FrameOk fun n => zlp = false ∨ n % size ≠ 0 := by
  cases c with
  | write _ _ _ _ => trivial
  | discover => trivial
  | discoverQueue => exact h
  | read w a r l =>
    rcases h with h | h | h
    · exact .inr (.inl h)
    · exact .inl h
    · exact .inr (.inr h)

/-- **C112.** Calls of the library by a host behind USB, on the I2C bridge of the examples with a device on the wires: the program ends
with the results of the calls with the answers of the device, nothing is left in either direction, and the device has been through
exactly the transactions of the calls. `g` is the longest time, in clock cycles, until the OUT endpoint offers the next byte of the
host. Writes that the device accepts may be as long as the protocol allows. Missing: `discover_queue`, block reads that fill the packets
of an endpoint that sends empty ones, and long writes that a device refuses, for which the bridge is wrong (below), and what C102
leaves out. -/
theorem C112_calls_partial (hs : 2 ≤ size) (hp : 4 ≤ period)
    (hw : I2cWired D.target bidir period stretch (i2cStrCi period stretch (i2cProtoSi period stretch (usbPi period stretch depth i))) hold)
    (hu : UsbRun size zlp period stretch depth (BusCall.progAll cs) i go h)
    (hpace : ∀ n, (h n).tx ≠ [] → ∃ m, n ≤ m ∧ m < n + g ∧ (i m).srcValid = true) (hD : D.Polite)
    (hrel : ∀ n, ∃ m, n ≤ m ∧ hold m = false) (htx : ∀ n, ∃ m, n ≤ m ∧ (i m).sinkReady = true)
    (hgo : ∀ n, ∃ m, n ≤ m ∧ go m = true) (hf : ∀ c ∈ cs, c.WidthOk) (hr : BusCall.ReadOkAll D.bus [] cs)
    (hus : ∀ c ∈ cs, c.UsbOk size zlp) (hg : 2 * g ≤ i2cByteTime period)
    (hshort : g = 1 ∨ ∀ l a data, l ++ [.write a data] <+: (BusCall.specAll D.bus [] cs).2 → D.bus l (.write a data) = none →
      data.length ≤ fifoDepth depth ∧ data.length * g ≤ i2cByteTime period) :
    let r := BusCall.specAll D.bus [] cs
    ∃ m, ∀ n, m ≤ n → (h n).prog = .ret r.1 ∧ (h n).tx = [] ∧ (h n).pk = [] ∧ (h n).cur = [] ∧
      (i2cBusOf D.target bidir period stretch (i2cStrCi period stretch (i2cProtoSi period stretch (usbPi period stretch depth i)))
        hold (n + 1)).tgt.2 = (D.state r.2).1.log := by
  intro r
  have hok := BusCall.progAll_ok D.bus D.bus_sized cs [] hf hr
  have hfr := BusCall.progAll_fr (fun n => zlp = false ∨ n % size ≠ 0) (.inr (by rw [Nat.mod_eq_of_lt (by omega)]; omega)) D.bus D.bus_sized cs []
    hf hr (fun c hc => (hus c hc).frame)
  obtain ⟨m, hm⟩ := C112_usb_program_partial (by omega) hp hw hu hpace hD (BusCall.progAll_complete cs hf) hok.full hok.reads hok.patient hfr hg
    (by rw [hok.run]; exact hshort) hrel htx hgo
  simp only [hok.run] at hm
  refine ⟨m, fun n hn => ?_⟩
  obtain ⟨e1, e2, e3, e4, e5⟩ := hm n hn
  exact ⟨e1, e2, e4 trivial, (List.append_eq_nil_iff.1 e3).2, e5⟩

/-- **C112.** The lines driven at the pads of the bridge are those that `I2cWired` puts on the wires, and what it sees of the wires is
what comes in at the pads. -/
theorem C112_pads (n : Nat) :
    ((i2cUsbTop period stretch depth).wave i n).sclO =
      i2cScl period stretch (i2cStrCi period stretch (i2cProtoSi period stretch (usbPi period stretch depth i))) n ∧
    ((i2cUsbTop period stretch depth).wave i n).sdaO =
      i2cSda period stretch (i2cStrCi period stretch (i2cProtoSi period stretch (usbPi period stretch depth i))) n ∧
    (i2cStrCi period stretch (i2cProtoSi period stretch (usbPi period stretch depth i)) n).sclI = (i n).sclI ∧
    (i2cStrCi period stretch (i2cProtoSi period stretch (usbPi period stretch depth i)) n).sdaI = (i n).sdaI := by
  have h : (i2cInitiator period stretch).st (i2cStrCi period stretch (i2cProtoSi period stretch (usbPi period stretch depth i))) n =
      ((i2cUsbTop period stretch depth).st i n).proto.str.core := by
    rw [← i2cStr_core, ← i2cProto_str, ← usbl_proto]
  refine ⟨?_, ?_, rfl, rfl⟩
  · simp only [i2cScl, Circuit.wave]
    rw [h]; rfl
  · simp only [i2cSda, Circuit.wave]
    rw [h]; rfl

end

/-! ### The whole system -/

/-- Inputs of the bridge when the OUT endpoint hands over the next byte of the host. -/
def usbFedIn {α : Type} (r : I2cUsbTopS × UsbPyHost α) (pace sinkReady scl sda : Bool) : I2cUsbTopIn :=
  ⟨pace && !r.2.tx.isEmpty, ⟨false, false, r.2.tx.headD 0⟩, sinkReady, scl, sda⟩

/-- The bridge with its host. -/
def usbFed {α : Type} (size : Nat) (zlp : Bool) (period : Nat) (stretch : Bool) (depth : Nat) (p : PyProg α) :
    Circuit (I2cUsbTopS × UsbPyHost α) ((Bool × Bool × Bool) × Bool × Bool) I2cUsbTopOut where
  reset := ((i2cUsbTop period stretch depth).reset, ⟨p, [], [], []⟩)
  out r x := (i2cUsbTop period stretch depth).out r.1 (usbFedIn r x.1.1 x.1.2.1 x.2.1 x.2.2)
  next r x :=
    let y := usbFedIn r x.1.1 x.1.2.1 x.2.1 x.2.2
    let o := (i2cUsbTop period stretch depth).out r.1 y
    ((i2cUsbTop period stretch depth).next r.1 y, r.2.step size zlp x.1.2.2 (y.srcValid && o.srcReady) (usbGot o y))

section
variable {α : Type} (D : I2cDev) (bidir : Bool) (size : Nat) (zlp : Bool) (period : Nat) (stretch : Bool) (depth : Nat) (p : PyProg α) (pace sinkReady go hold : Nat → Bool)

/-- The inputs of `usbFed` on the wires with a device. -/
def usbWire : Nat → (Bool × Bool × Bool) × Bool × Bool :=
  closeIn D.target bidir (usbFed size zlp period stretch depth p) (fun r => r.1.proto.str.core)
    (fun n _ scl sda => ((pace n, sinkReady n, go n), scl, sda)) hold

/-- The host in the whole system: program, USB, bridge, wires, device. -/
def usbSysHost (n : Nat) : UsbPyHost α :=
  ((usbFed size zlp period stretch depth p).st (usbWire D bidir size zlp period stretch depth p pace sinkReady go hold) n).2

/-- The inputs of the bridge in the whole system. -/
def usbSysIn (n : Nat) : I2cUsbTopIn :=
  let x := usbWire D bidir size zlp period stretch depth p pace sinkReady go hold n
  usbFedIn ((usbFed size zlp period stretch depth p).st (usbWire D bidir size zlp period stretch depth p pace sinkReady go hold) n) x.1.1 x.1.2.1 x.2.1 x.2.2

/-- What the device has been through, after `n` cycles. -/
def usbSysLog (n : Nat) : List DevEv :=
  (i2cBusOf D.target bidir period stretch (i2cStrCi period stretch (i2cProtoSi period stretch
    (usbPi period stretch depth (usbSysIn D bidir size zlp period stretch depth p pace sinkReady go hold)))) hold n).tgt.2

theorem usbSys_st (n : Nat) : (i2cUsbTop period stretch depth).st (usbSysIn D bidir size zlp period stretch depth p pace sinkReady go hold) n =
    ((usbFed size zlp period stretch depth p).st (usbWire D bidir size zlp period stretch depth p pace sinkReady go hold) n).1 := by
  induction n with
  | zero => rfl
  | succ n ih => rw [Circuit.st_succ, ih]; rfl

theorem usbSys_in (n : Nat) :
    (usbSysIn D bidir size zlp period stretch depth p pace sinkReady go hold n).srcValid =
      (pace n && !(usbSysHost D bidir size zlp period stretch depth p pace sinkReady go hold n).tx.isEmpty) ∧
    (usbSysIn D bidir size zlp period stretch depth p pace sinkReady go hold n).src.payload =
      (usbSysHost D bidir size zlp period stretch depth p pace sinkReady go hold n).tx.headD 0 ∧
    (usbSysIn D bidir size zlp period stretch depth p pace sinkReady go hold n).sinkReady = sinkReady n := ⟨rfl, rfl, rfl⟩

theorem usbSys_run : UsbRun size zlp period stretch depth p (usbSysIn D bidir size zlp period stretch depth p pace sinkReady go hold) go
    (usbSysHost D bidir size zlp period stretch depth p pace sinkReady go hold) where
  init := rfl
  step n := by
    intro o
    have : o = (i2cUsbTop period stretch depth).out
        ((usbFed size zlp period stretch depth p).st (usbWire D bidir size zlp period stretch depth p pace sinkReady go hold) n).1
        (usbSysIn D bidir size zlp period stretch depth p pace sinkReady go hold n) := by
      simp only [o]
      rw [Circuit.wave, usbSys_st]
    rw [this]
    rfl
  send n hn := by
    rw [(usbSys_in D bidir size zlp period stretch depth p pace sinkReady go hold n).2.1]
    rw [(usbSys_in D bidir size zlp period stretch depth p pace sinkReady go hold n).1] at hn
    generalize (usbSysHost D bidir size zlp period stretch depth p pace sinkReady go hold n).tx = l at *
    cases l with
    | nil => simp at hn
    | cons a l => exact ⟨l, rfl⟩

theorem usbSys_core (n : Nat) : (i2cInitiator period stretch).st (i2cStrCi period stretch (i2cProtoSi period stretch
      (usbPi period stretch depth (usbSysIn D bidir size zlp period stretch depth p pace sinkReady go hold)))) n =
    ((usbFed size zlp period stretch depth p).st (usbWire D bidir size zlp period stretch depth p pace sinkReady go hold) n).1.proto.str.core := by
  rw [← i2cStr_core, ← i2cProto_str, ← usbl_proto, usbSys_st]

theorem usbSys_bus (n : Nat) : i2cBusOf D.target bidir period stretch (i2cStrCi period stretch (i2cProtoSi period stretch
      (usbPi period stretch depth (usbSysIn D bidir size zlp period stretch depth p pace sinkReady go hold)))) hold n =
    (closeRun D.target bidir (usbFed size zlp period stretch depth p) (fun r : I2cUsbTopS × UsbPyHost α => r.1.proto.str.core)
      (fun n _ scl sda => ((pace n, sinkReady n, go n), scl, sda)) hold n).2 := by
  refine close_bus D.target bidir _ (fun r : I2cUsbTopS × UsbPyHost α => r.1.proto.str.core) _ hold _ _ (fun n => ?_) n
  have := usbSys_core D bidir size zlp period stretch depth p pace sinkReady go hold n
  constructor
  · change ((i2cInitiator period stretch).st (i2cStrCi period stretch (i2cProtoSi period stretch (usbPi period stretch depth
      (usbSysIn D bidir size zlp period stretch depth p pace sinkReady go hold)))) n).sclO = _
    rw [this]; rfl
  · change ((i2cInitiator period stretch).st (i2cStrCi period stretch (i2cProtoSi period stretch (usbPi period stretch depth
      (usbSysIn D bidir size zlp period stretch depth p pace sinkReady go hold)))) n).sdaO = _
    rw [this]; rfl

/-- C112: the whole system meets the hypotheses on wires, USB and host. -/
theorem C112_host_exists (g : Nat) (hh : ∀ n, hold n = true → bidir = true ∧ stretch = true)
    (hpace : ∀ n, ∃ m, n ≤ m ∧ m < n + g ∧ pace m = true) :
    let i := usbSysIn D bidir size zlp period stretch depth p pace sinkReady go hold
    let h := usbSysHost D bidir size zlp period stretch depth p pace sinkReady go hold
    I2cWired D.target bidir period stretch (i2cStrCi period stretch (i2cProtoSi period stretch (usbPi period stretch depth i))) hold ∧
      UsbRun size zlp period stretch depth p i go h ∧ (∀ n, (h n).tx ≠ [] → ∃ m, n ≤ m ∧ m < n + g ∧ (i m).srcValid = true) ∧
      ∀ n, (i n).sinkReady = sinkReady n := by
  intro i h
  have hrun := usbSys_run D bidir size zlp period stretch depth p pace sinkReady go hold
  have hcc := usbSys_core D bidir size zlp period stretch depth p pace sinkReady go hold
  have hb := usbSys_bus D bidir size zlp period stretch depth p pace sinkReady go hold
  have hs := fun n => close_st D.target bidir (usbFed size zlp period stretch depth p)
    (fun r : I2cUsbTopS × UsbPyHost α => r.1.proto.str.core) (fun n _ scl sda => ((pace n, sinkReady n, go n), scl, sda)) hold n
  refine ⟨⟨fun n => ?_, fun n => ?_, hh⟩, hrun, fun n hn => ?_, fun _ => rfl⟩
  · rw [hb n]
    simp only [i2cScl, i2cSda, Circuit.wave]
    rw [hcc n]
    change (usbWire D bidir size zlp period stretch depth p pace sinkReady go hold n).2.1 = _
    unfold usbWire
    rw [hs n]
    rfl
  · rw [hb n]
    simp only [i2cScl, i2cSda, Circuit.wave]
    rw [hcc n]
    change (usbWire D bidir size zlp period stretch depth p pace sinkReady go hold n).2.2 = _
    unfold usbWire
    rw [hs n]
    rfl
  · -- the bytes stay with the host until the USB takes one
    obtain ⟨m, h1, h2, h3⟩ := hpace n
    apply Classical.byContradiction
    intro hno
    have hne : ∀ d, n + d ≤ m → (h (n + d)).tx ≠ [] := by
      intro d hd
      induction d with
      | zero => exact hn
      | succ d ih =>
        have hr : (i (n + d)).srcValid = false := by
          cases e : (i (n + d)).srcValid
          · rfl
          · exact absurd ⟨n + d, by omega, by omega, e⟩ hno
        have hst := hrun.step (n + d)
        rw [hr] at hst
        simp only [UsbPyHost.step, Bool.false_and, Bool.false_eq_true, if_false] at hst
        change h (n + (d + 1)) = _ at hst
        rw [hst]
        have hpre : (h (n + d)).tx ≠ [] := ih (by omega)
        cases go (n + d)
        · exact hpre
        · intro h0
          generalize (usbGot ((i2cUsbTop period stretch depth).wave i (n + d)) (i (n + d))).toList.foldl (usbIn size zlp)
            ((h (n + d)).pk, (h (n + d)).cur) = r at h0
          have := UsbPyHost.act_tx size (UsbPyHost.mk (h (n + d)).prog (h (n + d)).tx r.1 r.2)
          rw [show (UsbPyHost.act size (UsbPyHost.mk (h (n + d)).prog (h (n + d)).tx r.1 r.2)).tx = [] from h0] at this
          exact hpre (List.prefix_nil.1 this)
    have := hne (m - n) (by omega)
    rw [show n + (m - n) = m by omega] at this
    refine hno ⟨m, h1, h2, ?_⟩
    rw [(usbSys_in D bidir size zlp period stretch depth p pace sinkReady go hold m).1, h3]
    cases e : (usbSysHost D bidir size zlp period stretch depth p pace sinkReady go hold m).tx
    · exact absurd e this
    · rfl

end

/-- **C112.** The same for the whole system, with an OUT endpoint that offers a byte whenever `pace` says so, whatever the device
answers: calls other than block reads of zero bytes and those that the endpoints do not carry, if the OUT endpoint is as fast as the
bridge or the writes that are refused are short. -/
theorem C112_calls_system_partial (D : I2cDev) (bidir : Bool) (size : Nat) (zlp : Bool) (period : Nat) (stretch : Bool) (depth : Nat)
    (cs : List BusCall) (pace sinkReady go hold : Nat → Bool) (g : Nat) (hs : 2 ≤ size) (hp : 4 ≤ period)
    (hh : ∀ n, hold n = true → bidir = true ∧ stretch = true)
    (hrel : ∀ n, ∃ m, n ≤ m ∧ hold m = false) (hpace : ∀ n, ∃ m, n ≤ m ∧ m < n + g ∧ pace m = true)
    (htx : ∀ n, ∃ m, n ≤ m ∧ sinkReady m = true) (hgo : ∀ n, ∃ m, n ≤ m ∧ go m = true) (hD : D.Polite)
    (hf : ∀ c ∈ cs, c.WidthOk) (hr : ∀ c ∈ cs, c.NonEmpty) (hus : ∀ c ∈ cs, c.UsbOk size zlp) (hg : 2 * g ≤ i2cByteTime period)
    (hshort : g = 1 ∨ ∀ l a data, l ++ [.write a data] <+: (BusCall.specAll D.bus [] cs).2 → D.bus l (.write a data) = none →
      data.length ≤ fifoDepth depth ∧ data.length * g ≤ i2cByteTime period) :
    let r := BusCall.specAll D.bus [] cs
    ∃ m, ∀ n, m ≤ n → usbSysHost D bidir size zlp period stretch depth (BusCall.progAll cs) pace sinkReady go hold n = ⟨.ret r.1, [], [], []⟩ ∧
      usbSysLog D bidir size zlp period stretch depth (BusCall.progAll cs) pace sinkReady go hold (n + 1) = (D.state r.2).1.log := by
  obtain ⟨hw, hrun, hpc, hrd⟩ := C112_host_exists D bidir size zlp period stretch depth (BusCall.progAll cs) pace sinkReady go hold g hh hpace
  obtain ⟨m, hm⟩ := C112_calls_partial hs hp hw hrun hpc hD hrel (by simpa only [hrd] using htx) hgo hf (BusCall.readOk_nonEmpty D.bus cs [] hr)
    hus hg hshort
  refine ⟨m, fun n hn => ?_⟩
  obtain ⟨e1, e2, e3, e4, e5⟩ := hm n hn
  refine ⟨?_, e5⟩
  generalize usbSysHost D bidir size zlp period stretch depth (BusCall.progAll cs) pace sinkReady go hold n = k at e1 e2 e3 e4
  obtain ⟨a, b, c, d⟩ := k
  cases e1; cases e2; cases e3; cases e4
  rfl

/-! ### What goes wrong -/

section
variable {α : Type} (D : I2cDev) (bidir : Bool) (size : Nat) (zlp : Bool) (period : Nat) (stretch : Bool) (depth : Nat) (p : PyProg α) (pace sinkReady go hold : Nat → Bool)

/-- The whole system, step by step. -/
def usbSys (n : Nat) : (I2cUsbTopS × UsbPyHost α) × I2cBusS (DevPh × List DevEv) :=
  closeRun D.target bidir (usbFed size zlp period stretch depth p) (fun r : I2cUsbTopS × UsbPyHost α => r.1.proto.str.core)
    (fun n _ scl sda => ((pace n, sinkReady n, go n), scl, sda)) hold n

theorem usbSys_host (n : Nat) : usbSysHost D bidir size zlp period stretch depth p pace sinkReady go hold n =
    (usbSys D bidir size zlp period stretch depth p pace sinkReady go hold n).1.2 := by
  unfold usbSysHost usbWire usbSys
  rw [close_st]

theorem usbSys_log (n : Nat) : usbSysLog D bidir size zlp period stretch depth p pace sinkReady go hold n =
    (usbSys D bidir size zlp period stretch depth p pace sinkReady go hold n).2.tgt.2 := by
  unfold usbSysLog usbSys
  rw [usbSys_bus]

/-- A program that has ended stays so. -/
theorem usbSys_ret (n m : Nat) (hnm : n ≤ m) (r : α) (h : (usbSysHost D bidir size zlp period stretch depth p pace sinkReady go hold n).prog = .ret r) :
    (usbSysHost D bidir size zlp period stretch depth p pace sinkReady go hold m).prog = .ret r := by
  obtain ⟨d, rfl⟩ : ∃ d, m = n + d := ⟨m - n, by omega⟩
  induction d with
  | zero => exact h
  | succ d ih =>
    have := (usbSys_run D bidir size zlp period stretch depth p pace sinkReady go hold).step (n + d)
    rw [← Nat.add_assoc, this]
    have ih := ih (by omega)
    simp only [UsbPyHost.step, UsbPyHost.act, ih]
    split <;> rfl

theorem usbSys_log_mono (n m : Nat) (hnm : n ≤ m) : usbSysLog D bidir size zlp period stretch depth p pace sinkReady go hold n <+:
    usbSysLog D bidir size zlp period stretch depth p pace sinkReady go hold m := by
  obtain ⟨d, rfl⟩ : ∃ d, m = n + d := ⟨m - n, by omega⟩
  induction d with
  | zero => exact List.prefix_rfl
  | succ d ih =>
    refine List.IsPrefix.trans (ih (by omega)) ?_
    exact dev_see_log D _ _ _ _ _

end


/-- A long write to an absent device, and a second one. -/
def usbStray : List BusCall := [.write 8 0x21 0 (List.replicate 45 0 ++ (List.replicate 10 [0xA0, 0]).flatten), .write 8 0x21 0 [1]]

theorem usbStray_run :
    ((usbSys politeDev true 512 false 4 false 32 (BusCall.progAll usbStray) (fun n => n % 2 == 0) (fun _ => true) (fun _ => true)
      (fun _ => false) 600).1.2.prog matches .ret (.ok [.wrote none, .wrote (some 1)])) = true := by
  decide +kernel

/-- **C112** (refuted without the condition on refused writes): a byte offered every second cycle, and 65 data bytes for an absent device.
The bridge drops the data faster than it arrives and takes the last bytes as commands. The second write to the absent device is reported as
done. -/
theorem C112_refused_writes_refuted :
    ¬ ∀ (D : I2cDev) (bidir : Bool) (size : Nat) (zlp : Bool) (period : Nat) (stretch : Bool) (depth : Nat) (cs : List BusCall)
      (pace sinkReady go hold : Nat → Bool) (g : Nat), 2 ≤ size → 4 ≤ period → (∀ n, hold n = true → bidir = true ∧ stretch = true) →
      (∀ n, ∃ m, n ≤ m ∧ hold m = false) → (∀ n, ∃ m, n ≤ m ∧ m < n + g ∧ pace m = true) →
      (∀ n, ∃ m, n ≤ m ∧ sinkReady m = true) → (∀ n, ∃ m, n ≤ m ∧ go m = true) → D.Polite →
      (∀ c ∈ cs, c.WidthOk) → (∀ c ∈ cs, c.NonEmpty) → (∀ c ∈ cs, c.UsbOk size zlp) → 2 * g ≤ i2cByteTime period →
      ∃ m, ∀ n, m ≤ n → (usbSysHost D bidir size zlp period stretch depth (BusCall.progAll cs) pace sinkReady go hold n).prog =
        .ret (BusCall.specAll D.bus [] cs).1 := by
  intro h
  obtain ⟨m, hm⟩ := h politeDev true 512 false 4 false 32 usbStray (fun n => n % 2 == 0) (fun _ => true) (fun _ => true) (fun _ => false) 2
    (by omega) (by omega) (fun _ h => nomatch h) (fun n => ⟨n, Nat.le_refl n, rfl⟩)
    (fun n => ⟨2 * ((n + 1) / 2), by omega, by omega, by simp⟩) (fun n => ⟨n, Nat.le_refl n, rfl⟩) (fun n => ⟨n, Nat.le_refl n, rfl⟩)
    politeDev_polite (by simp [usbStray, BusCall.WidthOk]) (by simp [usbStray, BusCall.NonEmpty])
    (by simp [usbStray, BusCall.UsbOk]) (by simp [i2cByteTime])
  have h1 := hm (max m 600) (Nat.le_max_left _ _)
  have hspec : (BusCall.specAll politeDev.bus [] usbStray).1 = .ok [.wrote none, .wrote none] := by decide +kernel
  have h2 := usbStray_run
  rw [← usbSys_host] at h2
  have h3 : (usbSysHost politeDev true 512 false 4 false 32 (BusCall.progAll usbStray) (fun n => n % 2 == 0) (fun _ => true) (fun _ => true)
      (fun _ => false) 600).prog = .ret (.ok [.wrote none, .wrote (some 1)]) := by
    generalize (usbSysHost politeDev true 512 false 4 false 32 (BusCall.progAll usbStray) (fun n => n % 2 == 0) (fun _ => true) (fun _ => true)
      (fun _ => false) 600).prog = q at h2 ⊢
    split at h2
    · rfl
    · cases h2
  rw [usbSys_ret _ _ _ _ _ _ _ _ _ _ _ _ 600 (max m 600) (Nat.le_max_right _ _) _ h3] at h1
  rw [hspec] at h1
  cases h1

theorem usbQueue_run :
    ((usbSys politeDev true 512 false 4 false 32 (BusCall.progAll [.discoverQueue]) (fun _ => true) (fun _ => true) (fun _ => true)
      (fun _ => false) 400).1.2.prog matches .ret (.ok [.map [.dots]])) = true := by
  decide +kernel

/-- **C112** (refuted for `discover_queue`): a bulk read ends with the first of the 128 answers, as each is a packet of its own. -/
theorem C112_discover_queue_refuted :
    ¬ ∀ (D : I2cDev) (bidir : Bool) (size : Nat) (zlp : Bool) (period : Nat) (stretch : Bool) (depth : Nat) (cs : List BusCall)
      (pace sinkReady go hold : Nat → Bool) (g : Nat), 2 ≤ size → 4 ≤ period → (∀ n, hold n = true → bidir = true ∧ stretch = true) →
      (∀ n, ∃ m, n ≤ m ∧ hold m = false) → (∀ n, ∃ m, n ≤ m ∧ m < n + g ∧ pace m = true) →
      (∀ n, ∃ m, n ≤ m ∧ sinkReady m = true) → (∀ n, ∃ m, n ≤ m ∧ go m = true) → D.Polite →
      (∀ c ∈ cs, c.WidthOk) → (∀ c ∈ cs, c.NonEmpty) → zlp = false → 2 * g ≤ i2cByteTime period → g = 1 →
      ∃ m, ∀ n, m ≤ n → (usbSysHost D bidir size zlp period stretch depth (BusCall.progAll cs) pace sinkReady go hold n).prog =
        .ret (BusCall.specAll D.bus [] cs).1 := by
  intro h
  obtain ⟨m, hm⟩ := h politeDev true 512 false 4 false 32 [.discoverQueue] (fun _ => true) (fun _ => true) (fun _ => true) (fun _ => false) 1
    (by omega) (by omega) (fun _ h => nomatch h) (fun n => ⟨n, Nat.le_refl n, rfl⟩)
    (fun n => ⟨n, by omega, by omega, rfl⟩) (fun n => ⟨n, Nat.le_refl n, rfl⟩) (fun n => ⟨n, Nat.le_refl n, rfl⟩)
    politeDev_polite (by simp [BusCall.WidthOk]) (by simp [BusCall.NonEmpty]) rfl (by simp [i2cByteTime]) rfl
  have h1 := hm (max m 400) (Nat.le_max_left _ _)
  have hspec : (BusCall.specAll politeDev.bus [] [.discoverQueue]).1 ≠ .ok [.map [.dots]] := by decide +kernel
  have h2 := usbQueue_run
  rw [← usbSys_host] at h2
  have h3 : (usbSysHost politeDev true 512 false 4 false 32 (BusCall.progAll [.discoverQueue]) (fun _ => true) (fun _ => true) (fun _ => true)
      (fun _ => false) 400).prog = .ret (.ok [.map [.dots]]) := by
    generalize (usbSysHost politeDev true 512 false 4 false 32 (BusCall.progAll [.discoverQueue]) (fun _ => true) (fun _ => true) (fun _ => true)
      (fun _ => false) 400).prog = q at h2 ⊢
    split at h2
    · rfl
    · cases h2
  rw [usbSys_ret _ _ _ _ _ _ _ _ _ _ _ _ 400 (max m 400) (Nat.le_max_right _ _) _ h3] at h1
  exact hspec (PyProg.ret.inj h1).symm

/-- A block read of one full packet, and a write. -/
def usbFull : List BusCall := [.read 8 0x50 0 2, .write 8 0x50 0 [1]]

theorem usbFull_run :
    ((usbSys politeDev true 2 true 4 false 32 (BusCall.progAll usbFull) (fun _ => true) (fun _ => true) (fun _ => true)
      (fun _ => false) 1000).1.2.prog matches .ret (.error .indexError)) = true := by
  decide +kernel

/-- **C112** (refuted for an endpoint that sends empty packets): the empty packet after the data of the block read is what the write gets
for its status. -/
theorem C112_full_packets_refuted :
    ¬ ∀ (D : I2cDev) (bidir : Bool) (size : Nat) (zlp : Bool) (period : Nat) (stretch : Bool) (depth : Nat) (cs : List BusCall)
      (pace sinkReady go hold : Nat → Bool) (g : Nat), 2 ≤ size → 4 ≤ period → (∀ n, hold n = true → bidir = true ∧ stretch = true) →
      (∀ n, ∃ m, n ≤ m ∧ hold m = false) → (∀ n, ∃ m, n ≤ m ∧ m < n + g ∧ pace m = true) →
      (∀ n, ∃ m, n ≤ m ∧ sinkReady m = true) → (∀ n, ∃ m, n ≤ m ∧ go m = true) → D.Polite →
      (∀ c ∈ cs, c.WidthOk) → (∀ c ∈ cs, c.NonEmpty) → (∀ c ∈ cs, c ≠ .discoverQueue) → 2 * g ≤ i2cByteTime period → g = 1 →
      ∃ m, ∀ n, m ≤ n → (usbSysHost D bidir size zlp period stretch depth (BusCall.progAll cs) pace sinkReady go hold n).prog =
        .ret (BusCall.specAll D.bus [] cs).1 := by
  intro h
  obtain ⟨m, hm⟩ := h politeDev true 2 true 4 false 32 usbFull (fun _ => true) (fun _ => true) (fun _ => true) (fun _ => false) 1
    (by omega) (by omega) (fun _ h => nomatch h) (fun n => ⟨n, Nat.le_refl n, rfl⟩)
    (fun n => ⟨n, by omega, by omega, rfl⟩) (fun n => ⟨n, Nat.le_refl n, rfl⟩) (fun n => ⟨n, Nat.le_refl n, rfl⟩)
    politeDev_polite (by simp [usbFull, BusCall.WidthOk]) (by simp [usbFull, BusCall.NonEmpty]) (by simp [usbFull]) (by simp [i2cByteTime]) rfl
  have h1 := hm (max m 1000) (Nat.le_max_left _ _)
  have hspec : (BusCall.specAll politeDev.bus [] usbFull).1 ≠ .error .indexError := by decide +kernel
  have h2 := usbFull_run
  rw [← usbSys_host] at h2
  have h3 : (usbSysHost politeDev true 2 true 4 false 32 (BusCall.progAll usbFull) (fun _ => true) (fun _ => true) (fun _ => true)
      (fun _ => false) 1000).prog = .ret (.error .indexError) := by
    generalize (usbSysHost politeDev true 2 true 4 false 32 (BusCall.progAll usbFull) (fun _ => true) (fun _ => true) (fun _ => true)
      (fun _ => false) 1000).prog = q at h2 ⊢
    split at h2
    · rfl
    · cases h2
  rw [usbSys_ret _ _ _ _ _ _ _ _ _ _ _ _ 1000 (max m 1000) (Nat.le_max_right _ _) _ h3] at h1
  exact hspec (PyProg.ret.inj h1).symm

/-! ### Examples -/

theorem libSample_usb (size : Nat) (zlp : Bool) (h : 3 ≤ size) : ∀ c ∈ libSample, c.UsbOk size zlp := by
  intro c hc
  simp only [libSample, List.mem_cons, List.not_mem_nil, or_false] at hc
  rcases hc with rfl | rfl | rfl | rfl | rfl
  · trivial
  · trivial
  · refine .inr (.inr ?_)
    change 2 % size ≠ 0
    rw [Nat.mod_eq_of_lt (by omega)]
    omega
  · trivial
  · trivial

/-- The theorem applied: 400 kHz from 100 MHz, packets of 512 bytes, empty packets after full ones, a byte from the OUT endpoint in every
cycle or every second; two kinds of writes, a block read, a write to an absent device and a discovery. -/
example : ∃ m, ∀ n, m ≤ n → (usbSysHost politeDev false 512 true 250 false 32 (BusCall.progAll libSample) (fun _ => true)
    (fun n => n % 2 == 0) (fun n => n % 5 == 0) (fun _ => false) n).prog = .ret (BusCall.specAll politeDev.bus [] libSample).1 := by
  obtain ⟨m, hm⟩ := C112_calls_system_partial politeDev false 512 true 250 false 32 libSample (fun _ => true) (fun n => n % 2 == 0)
    (fun n => n % 5 == 0) (fun _ => false) 1 (by omega) (by omega) (fun _ h => nomatch h) (fun n => ⟨n, Nat.le_refl n, rfl⟩)
    (fun n => ⟨n, by omega, by omega, rfl⟩) (fun n => ⟨2 * n, by omega, by simp⟩)
    (fun n => ⟨5 * n, by omega, by simp⟩) politeDev_polite libSample_width libSample_nonEmpty (libSample_usb 512 true (by omega))
    (by simp [i2cByteTime]) (.inl rfl)
  exact ⟨m, fun n hn => by rw [(hm n hn).1]⟩

/-- Short writes, refused or not, with a byte every second cycle. -/
example : ∃ m, ∀ n, m ≤ n → (usbSysHost politeDev false 512 true 250 false 32 (BusCall.progAll libSample) (fun n => n % 2 == 0)
    (fun n => n % 2 == 0) (fun n => n % 5 == 0) (fun _ => false) n).prog = .ret (BusCall.specAll politeDev.bus [] libSample).1 := by
  obtain ⟨m, hm⟩ := C112_calls_system_partial politeDev false 512 true 250 false 32 libSample (fun n => n % 2 == 0) (fun n => n % 2 == 0)
    (fun n => n % 5 == 0) (fun _ => false) 2 (by omega) (by omega) (fun _ h => nomatch h) (fun n => ⟨n, Nat.le_refl n, rfl⟩)
    (fun n => ⟨2 * ((n + 1) / 2), by omega, by omega, by simp⟩) (fun n => ⟨2 * n, by omega, by simp⟩)
    (fun n => ⟨5 * n, by omega, by simp⟩) politeDev_polite libSample_width libSample_nonEmpty (libSample_usb 512 true (by omega))
    (by simp [i2cByteTime]) (.inr (by
      intro l a data hpre _
      obtain ⟨c, hc, hle⟩ := BusCall.specAll_short politeDev.bus libSample [] a data (hpre.subset (by simp))
      have : c.size ≤ 5 := by
        simp only [libSample, List.mem_cons, List.not_mem_nil, or_false] at hc
        rcases hc with rfl | rfl | rfl | rfl | rfl <;> decide
      rw [show fifoDepth 32 = 32 from rfl, show i2cByteTime 250 = 2268 from rfl]
      omega))
  exact ⟨m, fun n hn => by rw [(hm n hn).1]⟩

end Lambdalib
