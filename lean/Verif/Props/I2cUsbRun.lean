import Verif.Model.I2cUsbTop
import Verif.Props.I2cTopRun
import Verif.Lemmas.I2cFrames

/-! The endpoints of the USB device, the FIFOs and the host of the I2C bridge of the examples, seen from `I2CProto` (C112). -/

namespace Lambdalib

/-- A program with the USB endpoints: the bytes that the OUT endpoint still has to hand over, the packets that are ready for the host, and
the bytes of the packet that the IN endpoint is filling. -/
structure UsbPyHost (α : Type) where
  prog : PyProg α
  tx : List (BitVec 8)
  pk : List (List (BitVec 8))
  cur : List (BitVec 8)

/-- The program goes on by one call; a call of `recv` waits until it has something to return. -/
def UsbPyHost.act {α : Type} (size : Nat) (h : UsbPyHost α) : UsbPyHost α :=
  match h.prog with
  | .ret _ => h
  | .write l k => { h with prog := k, tx := h.tx ++ l }
  | .read n k =>
    match usbRecv true size (some n) h.pk with
    | (some (.ok l), pk) => { h with prog := k l, pk := pk }
    | _ => h

/-- One cycle: the OUT endpoint hands over a byte, the IN endpoint takes one, the program goes on. -/
def UsbPyHost.step {α : Type} (size : Nat) (zlp : Bool) (h : UsbPyHost α) (go sent : Bool) (got : Option (Bool × BitVec 8)) : UsbPyHost α :=
  let r := got.toList.foldl (usbIn size zlp) (h.pk, h.cur)
  let k : UsbPyHost α := ⟨h.prog, if sent then h.tx.tail else h.tx, r.1, r.2⟩
  if go then k.act size else k

/-- The byte with its flag that the IN endpoint takes. -/
def usbGot (o : I2cUsbTopOut) (x : I2cUsbTopIn) : Option (Bool × BitVec 8) :=
  if o.sinkValid && x.sinkReady then some (o.sink.last, o.sink.payload) else none

/-- An execution of the bridge with a host behind USB. -/
structure UsbRun {α : Type} (size : Nat) (zlp : Bool) (period : Nat) (stretch : Bool) (depth : Nat) (p : PyProg α) (i : Nat → I2cUsbTopIn)
    (go : Nat → Bool) (h : Nat → UsbPyHost α) : Prop where
  init : h 0 = ⟨p, [], [], []⟩
  step : ∀ n, let o := (i2cUsbTop period stretch depth).wave i n
    h (n + 1) = (h n).step size zlp (go n) ((i n).srcValid && o.srcReady) (usbGot o (i n))
  send : ∀ n, (i n).srcValid = true → ∃ t, (h n).tx = (i n).src.payload :: t

/-- Bytes in a FIFO with their flags. -/
def topFlag (q : List (BitVec (1 + (1 + 8)))) : List (Bool × BitVec 8) := q.map fun b => ((unpackBeat b).last, (unpackBeat b).payload)

theorem topFlag_snd (q : List (BitVec (1 + (1 + 8)))) : (topFlag q).map Prod.snd = topPay q := by
  unfold topFlag topPay
  rw [List.map_map]
  rfl

theorem topFlag_next (depth : Nat) (q : List (BitVec (1 + (1 + 8)))) (x : SIn (BitVec 8)) :
    topFlag ((topFifo depth).next q x) = (if x.ready then (topFlag q).tail else topFlag q) ++
      (if x.valid && (topShow depth q).ready then [(x.beat.last, x.beat.payload)] else []) := by
  have e : (topFifo depth).next q x = (if x.ready then q.tail else q) ++
      (if x.valid && (topShow depth q).ready then [packBeat x.beat] else []) := rfl
  rw [e]
  unfold topFlag
  rw [List.map_append]
  congr 1
  · split <;> simp
  · split
    · rw [List.map_singleton, C08_fifo_pack_unpack]
    · rfl

section
variable (period : Nat) (stretch : Bool) (depth : Nat)

/-- What a cycle does to the bytes on their way to `I2CProto`. -/
theorem usbl_inside_next (s : I2cUsbTopS) (x : I2cUsbTopIn) :
    let y := usbTopProtoIn depth s x
    let o := (i2cProto period stretch).out s.proto y
    topPay ((i2cUsbTop period stretch depth).next s x).rx = (if y.valid && o.ready then (topPay s.rx).tail else topPay s.rx) ++
      (if x.srcValid && ((i2cUsbTop period stretch depth).out s x).srcReady then [x.src.payload] else []) := by
  intro y o
  have hy : y.valid = !s.rx.isEmpty := rfl
  have e1 : ((i2cUsbTop period stretch depth).next s x).rx = (topFifo depth).next s.rx ⟨x.srcValid, x.src, o.ready⟩ := rfl
  rw [e1, topFifo_next, hy]
  congr 1
  cases hq : s.rx with
  | nil => simp [topPay]
  | cons a l => simp

/-- What a cycle does to the bytes on their way to the USB device. -/
theorem usbl_outside_next (s : I2cUsbTopS) (x : I2cUsbTopIn) :
    let y := usbTopProtoIn depth s x
    let o := (i2cProto period stretch).out s.proto y
    topFlag s.tx ++ (if o.valid && y.ready then [(o.beat.last, o.beat.payload)] else []) =
      (usbGot ((i2cUsbTop period stretch depth).out s x) x).toList ++ topFlag ((i2cUsbTop period stretch depth).next s x).tx := by
  intro y o
  have e1 : ((i2cUsbTop period stretch depth).next s x).tx = (topFifo depth).next s.tx ⟨o.valid, o.beat, x.sinkReady⟩ := rfl
  have e2 : usbGot ((i2cUsbTop period stretch depth).out s x) x = if !s.tx.isEmpty && x.sinkReady then
    some ((unpackBeat (s.tx.headD 0)).last, (unpackBeat (s.tx.headD 0)).payload) else none := rfl
  have e4 : y.ready = (topShow depth s.tx).ready := rfl
  rw [e1, e2, e4, topFlag_next]
  generalize (topShow depth s.tx).ready = r
  obtain ⟨rx, tx, proto⟩ := s
  simp only at *
  generalize o.valid = v
  generalize o.beat = b
  cases tx with
  | nil => cases v <;> cases r <;> cases x.sinkReady <;> simp [topFlag]
  | cons a l => cases v <;> cases r <;> cases x.sinkReady <;> simp [topFlag]

variable (i : Nat → I2cUsbTopIn)

/-- Inputs of `I2CProto` in an execution of the bridge. -/
def usbPi (n : Nat) : I2cProtoIn := usbTopProtoIn depth ((i2cUsbTop period stretch depth).st i n) (i n)

theorem usbl_proto (n : Nat) : ((i2cUsbTop period stretch depth).st i n).proto = (i2cProto period stretch).st (usbPi period stretch depth i) n := by
  induction n with
  | zero => rfl
  | succ n ih =>
    rw [Circuit.st_succ, Circuit.st_succ, ← ih]
    rfl

theorem usbl_wave (n : Nat) : (i2cProto period stretch).wave (usbPi period stretch depth i) n =
    (i2cProto period stretch).out ((i2cUsbTop period stretch depth).st i n).proto (usbPi period stretch depth i n) := by
  rw [Circuit.wave, usbl_proto]

/-- Bytes with their flags that the IN endpoint has taken before cycle `n`. -/
def usbDelivered : Nat → List (Bool × BitVec 8)
  | 0 => []
  | n + 1 => usbDelivered n ++ (usbGot ((i2cUsbTop period stretch depth).wave i n) (i n)).toList

/-- What `I2CProto` has sent is with the endpoint, or in the FIFO. -/
theorem usbl_delivered (n : Nat) : usbDelivered period stretch depth i n ++ topFlag ((i2cUsbTop period stretch depth).st i n).tx =
    i2cProtoReplies period stretch (usbPi period stretch depth i) n := by
  induction n with
  | zero => rfl
  | succ n ih =>
    have e : i2cProtoReplies period stretch (usbPi period stretch depth i) (n + 1) =
      i2cProtoReplies period stretch (usbPi period stretch depth i) n ++
      (if ((i2cProto period stretch).wave (usbPi period stretch depth i) n).valid && (usbPi period stretch depth i n).ready then
        [(((i2cProto period stretch).wave (usbPi period stretch depth i) n).beat.last,
          ((i2cProto period stretch).wave (usbPi period stretch depth i) n).beat.payload)] else []) := rfl
    rw [e, ← ih, usbl_wave, usbDelivered, List.append_assoc, List.append_assoc, Circuit.st_succ]
    exact congrArg _ (usbl_outside_next period stretch depth _ (i n)).symm

/-- The byte that the IN endpoint takes was sent by `I2CProto` earlier. -/
theorem usbl_delivered_succ (n : Nat) : usbDelivered period stretch depth i (n + 1) <+:
    i2cProtoReplies period stretch (usbPi period stretch depth i) n := by
  rw [← usbl_delivered, usbDelivered]
  refine (List.prefix_append_right_inj _).2 ?_
  have e2 : usbGot ((i2cUsbTop period stretch depth).wave i n) (i n) =
    if !((i2cUsbTop period stretch depth).st i n).tx.isEmpty && (i n).sinkReady then
    some ((unpackBeat (((i2cUsbTop period stretch depth).st i n).tx.headD 0)).last,
      (unpackBeat (((i2cUsbTop period stretch depth).st i n).tx.headD 0)).payload) else none := rfl
  rw [e2]
  cases ((i2cUsbTop period stretch depth).st i n).tx with
  | nil => simp
  | cons a l => cases (i n).sinkReady <;> simp [topFlag]

end

section
variable {α : Type}

/-- The host as `I2CProto` sees it: bytes in the bridge are those of the host. -/
def usbHost (s : I2cUsbTopS) (h : UsbPyHost α) : PyHost α := ⟨h.prog, topPay s.rx ++ h.tx, h.pk.flatten ++ h.cur ++ topPay s.tx⟩

/-- The program goes on: it does not wait for a message that is not complete. -/
def usbGo (size : Nat) (go : Bool) (prog : PyProg α) (pk : List (List (BitVec 8))) : Bool :=
  go && match prog with
    | .read m _ => (usbRecv true size (some m) pk).1.isSome
    | _ => true

/-- A call of `recv` waits, or returns the bytes asked for. -/
def UsbExact (size : Nat) (h : UsbPyHost α) : Prop :=
  ∀ m k, h.prog = .read m k → (usbRecv true size (some m) h.pk).1 = none ∨
    ∃ l pk, usbRecv true size (some m) h.pk = (some (.ok l), pk) ∧ l.length = m ∧ h.pk.flatten ++ h.cur = l ++ (pk.flatten ++ h.cur)

/-- A step of the host. -/
theorem usbl_act (size : Nat) (go : Bool) (h : UsbPyHost α) (hx : UsbExact size h) (a b : List (BitVec 8)) :
    (if usbGo size go h.prog h.pk then (PyHost.act ⟨h.prog, a ++ h.tx, h.pk.flatten ++ h.cur ++ b⟩)
      else ⟨h.prog, a ++ h.tx, h.pk.flatten ++ h.cur ++ b⟩) =
      (let k := if go then h.act size else h; ⟨k.prog, a ++ k.tx, k.pk.flatten ++ k.cur ++ b⟩ : PyHost α) := by
  obtain ⟨prog, tx, pk, cur⟩ := h
  cases go
  · rfl
  · simp only [usbGo, Bool.true_and]
    cases prog with
    | ret r => rfl
    | write l k => simp [PyHost.act, UsbPyHost.act]
    | read m k =>
      rcases hx m k rfl with h0 | ⟨l, pk', h1, h2, h3⟩
      · simp only at h0
        simp only [UsbPyHost.act, h0, Option.isSome_none, Bool.false_eq_true, if_false, if_true]
        generalize usbRecv true size (some m) pk = r at h0
        obtain ⟨r, q⟩ := r
        simp only at h0
        subst h0
        rfl
      · simp only at h1 h3
        simp only [UsbPyHost.act, PyHost.act, h1, Option.isSome_some, if_true, h3]
        rw [List.append_assoc, if_pos (by simp; omega), List.take_left' h2, List.drop_left' h2]

variable {size : Nat} {zlp : Bool} {period : Nat} {stretch : Bool} {depth : Nat} {p : PyProg α} {i : Nat → I2cUsbTopIn} {go : Nat → Bool}
  {h : Nat → UsbPyHost α}

/-- The host as `I2CProto` sees it, in an execution. -/
def usbSeen (period : Nat) (stretch : Bool) (depth : Nat) (i : Nat → I2cUsbTopIn) (h : Nat → UsbPyHost α) (n : Nat) : PyHost α :=
  usbHost ((i2cUsbTop period stretch depth).st i n) (h n)

/-- The host in the middle of cycle `n`, before its program goes on. -/
def usbMid (size : Nat) (zlp : Bool) (period : Nat) (stretch : Bool) (depth : Nat) (i : Nat → I2cUsbTopIn) (h : Nat → UsbPyHost α) (n : Nat) :
    UsbPyHost α :=
  let o := (i2cUsbTop period stretch depth).wave i n
  (h n).step size zlp false ((i n).srcValid && o.srcReady) (usbGot o (i n))

/-- When its program goes on. -/
def usbGoes (size : Nat) (zlp : Bool) (period : Nat) (stretch : Bool) (depth : Nat) (i : Nat → I2cUsbTopIn) (go : Nat → Bool)
    (h : Nat → UsbPyHost α) (n : Nat) : Bool :=
  usbGo size (go n) (h n).prog (usbMid size zlp period stretch depth i h n).pk

theorem usbl_offer (s : I2cUsbTopS) (x : I2cUsbTopIn) (hv : (usbTopProtoIn depth s x).valid = true) :
    ∃ t, topPay s.rx = (usbTopProtoIn depth s x).data :: t := by
  have e1 : (usbTopProtoIn depth s x).valid = !s.rx.isEmpty := rfl
  have e2 : (usbTopProtoIn depth s x).data = (unpackBeat (s.rx.headD 0)).payload := rfl
  rw [e2]
  rw [e1] at hv
  unfold topPay
  cases hx : s.rx with
  | nil => rw [hx] at hv; cases hv
  | cons a l => exact ⟨_, rfl⟩

/-- One cycle. -/
theorem usbl_step (s : I2cUsbTopS) (x : I2cUsbTopIn) (go : Bool) (h : UsbPyHost α) (hsend : x.srcValid = true → ∃ t, h.tx = x.src.payload :: t) :
    let u := (i2cUsbTop period stretch depth).out s x
    let y := usbTopProtoIn depth s x
    let o := (i2cProto period stretch).out s.proto y
    let m := h.step size zlp false (x.srcValid && u.srcReady) (usbGot u x)
    UsbExact size m →
    usbHost ((i2cUsbTop period stretch depth).next s x) (h.step size zlp go (x.srcValid && u.srcReady) (usbGot u x)) =
      (usbHost s h).step (usbGo size go h.prog m.pk) (y.valid && o.ready)
        (if o.valid && y.ready then some o.beat.payload else none) := by
  intro u y o m hm
  have h1 := usbl_inside_next period stretch depth s x
  have h2 := usbl_outside_next period stretch depth s x
  have hmid : h.step size zlp go (x.srcValid && u.srcReady) (usbGot u x) = if go then m.act size else m := rfl
  have hmp : m.prog = h.prog := rfl
  have hmt : m.tx = if x.srcValid && u.srcReady then h.tx.tail else h.tx := rfl
  have hmr : m.pk.flatten ++ m.cur = h.pk.flatten ++ h.cur ++ (usbGot u x).toList.map Prod.snd := usbIn_flatten size zlp _ (h.pk, h.cur)
  have htx : (if y.valid && o.ready then (topPay s.rx ++ h.tx).tail else topPay s.rx ++ h.tx) =
      topPay ((i2cUsbTop period stretch depth).next s x).rx ++ m.tx := by
    rw [h1, hmt, List.append_assoc]
    have e : (if x.srcValid && u.srcReady then [x.src.payload] else []) ++ (if x.srcValid && u.srcReady then h.tx.tail else h.tx) = h.tx := by
      split
      · rename_i hr
        rw [Bool.and_eq_true] at hr
        obtain ⟨t, ht⟩ := hsend hr.1
        rw [ht]; rfl
      · rfl
    rw [e]
    change _ = (if y.valid && o.ready then (topPay s.rx).tail else topPay s.rx) ++ h.tx
    split
    · rename_i hv
      rw [Bool.and_eq_true] at hv
      obtain ⟨t, ht⟩ := usbl_offer s x hv.1
      rw [ht]; rfl
    · rfl
  have h2' : h.pk.flatten ++ h.cur ++ topPay s.tx ++ (if o.valid && y.ready then some o.beat.payload else none).toList =
      m.pk.flatten ++ m.cur ++ topPay ((i2cUsbTop period stretch depth).next s x).tx := by
    have h3 := congrArg (List.map Prod.snd) h2
    rw [List.map_append, List.map_append, topFlag_snd, topFlag_snd] at h3
    rw [hmr, List.append_assoc (h.pk.flatten ++ h.cur), List.append_assoc (h.pk.flatten ++ h.cur)]
    refine congrArg _ (Eq.trans ?_ h3)
    congr 1
    change _ = List.map Prod.snd (if o.valid && y.ready then [(o.beat.last, o.beat.payload)] else [])
    cases o.valid && y.ready <;> rfl
  rw [hmid]
  simp only [PyHost.step, usbHost]
  rw [htx, h2', ← hmp]
  exact (usbl_act size go m hm (topPay ((i2cUsbTop period stretch depth).next s x).rx) (topPay ((i2cUsbTop period stretch depth).next s x).tx)).symm

/-- As long as calls of `recv` return what is asked for, the bridge with its host is a host for `I2CProto`. -/
theorem usbl_host_to (hu : UsbRun size zlp period stretch depth p i go h) (N : Nat)
    (hx : ∀ n, n < N → UsbExact size (usbMid size zlp period stretch depth i h n)) :
    PyHostRunTo period stretch p (usbPi period stretch depth i) (usbGoes size zlp period stretch depth i go h)
      (usbSeen period stretch depth i h) N := by
  refine ⟨?_, ?_, ?_, ?_⟩
  · rw [usbSeen, hu.init]; rfl
  · intro n hn
    have := usbl_step (size := size) (zlp := zlp) (period := period) (stretch := stretch) (depth := depth)
      ((i2cUsbTop period stretch depth).st i n) (i n) (go n) (h n) (hu.send n) (hx n hn)
    simp only [usbl_wave]
    simp only [usbSeen, Circuit.st_succ]
    rw [hu.step n]
    exact this
  · intro n _ hv
    obtain ⟨t, ht⟩ := usbl_offer _ (i n) hv
    refine ⟨t ++ (h n).tx, ?_⟩
    simp only [usbSeen, usbHost, ht]
    rfl
  · intro n hn hv hr
    rw [usbl_wave] at hr
    simp only [usbPi, Circuit.st_succ] at *
    generalize (i2cUsbTop period stretch depth).st i n = s at *
    have e3 := usbl_inside_next period stretch depth s (i n)
    have e1 : (usbTopProtoIn depth s (i n)).valid = !s.rx.isEmpty := rfl
    have e2 : (usbTopProtoIn depth ((i2cUsbTop period stretch depth).next s (i n)) (i (n + 1))).valid =
      !((i2cUsbTop period stretch depth).next s (i n)).rx.isEmpty := rfl
    simp only [hr, Bool.and_false, Bool.false_eq_true, if_false] at e3
    rw [e1] at hv
    rw [e2]
    generalize ((i2cUsbTop period stretch depth).next s (i n)).rx = q at *
    cases q with
    | cons => rfl
    | nil =>
      have : topPay s.rx = [] := (List.append_eq_nil_iff.1 e3.symm).1
      simp [topPay] at this
      rw [this] at hv
      cases hv

/-- Where the host is in the messages: `W` are the bytes written, `Dl` the flagged bytes that the endpoint has taken. -/
def FrameAt (size : Nat) (zlp : Bool) (ok : Nat → Prop) (d : BusDevices) (W : List (BitVec 8)) (Dl : List (Bool × BitVec 8)) (h : UsbPyHost α) :
    Prop :=
  ∃ ms0 ms1, frameMsgs d W = ms0 ++ ms1 ∧ ms0.flatten.length ≤ Dl.length ∧
    (h.pk, h.cur) = (Dl.drop ms0.flatten.length).foldl (usbIn size zlp) ([], []) ∧
    h.prog.Framed ok d { W.foldl (frameByte d) ⟨[], [], []⟩ with msgs := ms1 }

theorem frame_rest {d : BusDevices} {W : List (BitVec 8)} {ms0 ms1 : List (List (BitVec 8))} {Dl : List (Bool × BitVec 8)}
    (h1 : frameMsgs d W = ms0 ++ ms1) (h2 : ms0.flatten.length ≤ Dl.length) (hp : Dl <+: (frameMsgs d W).flatMap flagMsg) :
    Dl.drop ms0.flatten.length <+: ms1.flatMap flagMsg := by
  rw [h1, List.flatMap_append] at hp
  obtain ⟨t, ht⟩ := hp
  refine ⟨t, ?_⟩
  have := congrArg (List.drop ms0.flatten.length) ht
  rwa [List.drop_append_of_le_length h2, List.drop_left' (flags_length ms0)] at this

/-- A call of `recv` in its place. -/
theorem frame_exact {d : BusDevices} {W : List (BitVec 8)} {Dl : List (Bool × BitVec 8)} (hs : 0 < size) (m : UsbPyHost α)
    (hf : FrameAt size zlp (fun n => zlp = false ∨ n % size ≠ 0) d W Dl m) (hp : Dl <+: (frameMsgs d W).flatMap flagMsg) : UsbExact size m := by
  intro n k hk
  obtain ⟨ms0, ms1, h1, h2, h3, h4⟩ := hf
  rw [hk] at h4
  obtain ⟨hok, msg, ms, h5, h6, h7⟩ := h4
  simp only at h5
  have hne : msg ≠ [] := frame_ne d W ⟨[], [], []⟩ (by simp) msg (by change _ ∈ frameMsgs d W; rw [h1, h5]; simp)
  have hrest := frame_rest h1 h2 hp
  rw [h5] at hrest
  have := usb_read_message size zlp hs msg ms hne (by rw [h6]; exact hok) _ hrest
  simp only at this
  rw [← h3, h6] at this
  simp only at this
  rcases this with ⟨g1, g2, g3, _, g5⟩ | ⟨_, g2⟩
  · refine .inr ⟨_, _, g2, h6, ?_⟩
    have e1 := usbIn_flatten size zlp (Dl.drop ms0.flatten.length) ([], [])
    have e2 := usbIn_flatten size zlp ((Dl.drop ms0.flatten.length).drop n) ([], [])
    rw [← h3] at e1
    simp only [List.flatten_nil, List.nil_append] at e1 e2
    rw [g3, ← g3, e1]
    rw [g3, e2]
    rw [← g5, ← List.map_append, List.take_append_drop]
  · exact .inl g2

/-- The program goes on. -/
theorem frame_act {d : BusDevices} {W : List (BitVec 8)} {Dl : List (Bool × BitVec 8)} (hs : 0 < size) (m : UsbPyHost α)
    (hf : FrameAt size zlp (fun n => zlp = false ∨ n % size ≠ 0) d W Dl m) (hp : Dl <+: (frameMsgs d W).flatMap flagMsg) :
    ∃ l, (m.act size).tx = m.tx ++ l ∧ FrameAt size zlp (fun n => zlp = false ∨ n % size ≠ 0) d (W ++ l) Dl (m.act size) := by
  have hx := frame_exact hs m hf hp
  obtain ⟨prog, tx, pk, cur⟩ := m
  cases prog with
  | ret r => exact ⟨[], by simp [UsbPyHost.act], by rw [List.append_nil]; exact hf⟩
  | write l k =>
    refine ⟨l, rfl, ?_⟩
    obtain ⟨ms0, ms1, h1, h2, h3, h4⟩ := hf
    have e1 : ∃ q g, W.foldl (frameByte d) ⟨[], [], []⟩ = ⟨q, ms0 ++ ms1, g⟩ := by
      unfold frameMsgs at h1
      generalize W.foldl (frameByte d) ⟨[], [], []⟩ = s at h1
      obtain ⟨q, ms, g⟩ := s
      simp only at h1
      exact ⟨q, g, by rw [h1]⟩
    obtain ⟨q, g, e1⟩ := e1
    have e2 : (W ++ l).foldl (frameByte d) ⟨[], [], []⟩ = ⟨(l.foldl (frameByte d) ⟨q, ms1, g⟩).pending,
        ms0 ++ (l.foldl (frameByte d) ⟨q, ms1, g⟩).msgs, (l.foldl (frameByte d) ⟨q, ms1, g⟩).log⟩ := by
      rw [List.foldl_append, e1]
      exact frame_append d l q ms0 ms1 g
    refine ⟨ms0, (l.foldl (frameByte d) ⟨q, ms1, g⟩).msgs, ?_, h2, h3, ?_⟩
    · rw [frameMsgs, e2]
    · rw [e2]
      rw [e1] at h4
      exact h4
  | read n k =>
    refine ⟨[], ?_, ?_⟩
    · simp only [UsbPyHost.act, List.append_nil]
      split <;> rfl
    · rw [List.append_nil]
      have hf' := hf
      obtain ⟨ms0, ms1, h1, h2, h3, h4⟩ := hf
      obtain ⟨hok, msg, ms, h5, h6, h7⟩ := h4
      simp only at h5
      have hne : msg ≠ [] := frame_ne d W ⟨[], [], []⟩ (by simp) msg (by change _ ∈ frameMsgs d W; rw [h1, h5]; simp)
      have hrest := frame_rest h1 h2 hp
      rw [h5] at hrest
      have := usb_read_message size zlp hs msg ms hne (by rw [h6]; exact hok) _ hrest
      simp only at this
      rw [← h3, h6] at this
      simp only at this
      rcases this with ⟨g1, g2, g3, _, g5⟩ | ⟨_, g2⟩
      · simp only [UsbPyHost.act, g2]
        refine ⟨ms0 ++ [msg], ms, by rw [h1, h5]; simp, ?_, ?_, h7⟩
        · rw [List.length_drop] at g1
          simp only [List.flatten_append, List.length_append, List.flatten_singleton]
          omega
        · simp only [List.flatten_append, List.length_append, List.flatten_singleton, h6]
          rw [← List.drop_drop, g3]
      · simp only [UsbPyHost.act]
        generalize usbRecv true size (some n) pk = r at g2
        obtain ⟨r, q⟩ := r
        simp only at g2
        subst g2
        exact hf'

end

end Lambdalib
