import Verif.Lemmas.I2cBus

/-! Properties of the host library `I2CBus` (C37). -/

namespace Lambdalib

/-- Arguments of a block write that fit the protocol. -/
def WriteFits (width addr : Int) (data : List Int) : Prop :=
  0 ≤ addr ∧ addr ≤ 127 ∧ width / 8 + data.length ≤ 255 ∧ ∀ v ∈ data, 0 ≤ v ∧ v ≤ 255

/-- A request for a write command on an idle bridge. -/
theorem request_write (d : BusDevices) (hd : d.Sized) (s : BridgeS) (hp : s.pending = []) (hr : s.replies = [])
    (addr : Int) (arr : List Int) (ha : 0 ≤ addr ∧ addr ≤ 127) (hl : arr.length ≤ 255)
    (hv : ∀ v ∈ arr, 0 ≤ v ∧ v < 256) :
    let t := BusTxn.write addr.toNat (arr.map (BitVec.ofInt 8))
    busRequest (bridgeDev d) ([addr * 2, (arr.length : Int)] ++ arr) s =
      (.ok (if (d s.log t).isSome then 0 else 1), ⟨[], [], s.log ++ [t]⟩) := by
  intro t
  have h1 : pyBytes ([addr * 2, (arr.length : Int)] ++ arr) =
      some ([BitVec.ofInt 8 (addr * 2), BitVec.ofNat 8 (arr.map (BitVec.ofInt 8)).length] ++
        arr.map (BitVec.ofInt 8)) := by
    rw [pyBytes_some]
    · simp [BitVec.ofInt_natCast]
    · intro v hv'
      simp only [List.cons_append, List.nil_append, List.mem_cons] at hv'
      rcases hv' with rfl | rfl | hv'
      · omega
      · omega
      · exact hv v hv'
  have hn : (BitVec.ofInt 8 (addr * 2)).toNat = addr.toNat * 2 := by
    rw [BitVec.toNat_ofInt]; omega
  unfold busRequest
  rw [h1]
  simp only [bridgeDev]
  rw [bridge_write d s _ _ hp (by omega) (by simp; omega), hr, hn, Nat.mul_div_cancel _ (by omega)]
  show (match ([] ++ txnReply (d s.log t)).take 1 with | [] => _ | status :: _ => _) = _
  cases e : d s.log t with
  | none => rfl
  | some l =>
    have : l = [] := List.length_eq_zero_iff.mp (hd _ _ _ e)
    subst this
    rfl

/-- A request for a read command on an idle bridge: the data stays to be fetched. -/
theorem request_read (d : BusDevices) (s : BridgeS) (hp : s.pending = []) (hr : s.replies = [])
    (addr : Int) (len : Int) (ha : 0 ≤ addr ∧ addr ≤ 127) (hl : 0 ≤ len ∧ len ≤ 255) :
    let t := BusTxn.read addr.toNat len.toNat
    busRequest (bridgeDev d) [addr * 2 + 1, len] s =
      (.ok (if (d s.log t).isSome then 0 else 1), ⟨[], ((d s.log t).getD []), s.log ++ [t]⟩) := by
  intro t
  have h1 : pyBytes [addr * 2 + 1, len] = some [BitVec.ofInt 8 (addr * 2 + 1), BitVec.ofInt 8 len] := by
    rw [pyBytes_some]
    · rfl
    · intro v hv'
      simp only [List.mem_cons, List.not_mem_nil, or_false] at hv'
      rcases hv' with rfl | rfl <;> omega
  have hn : (BitVec.ofInt 8 (addr * 2 + 1)).toNat = addr.toNat * 2 + 1 := by
    rw [BitVec.toNat_ofInt]; omega
  have hm : (BitVec.ofInt 8 len).toNat = len.toNat := by
    rw [BitVec.toNat_ofInt]; omega
  unfold busRequest
  rw [h1]
  simp only [bridgeDev]
  rw [bridge_read d s _ _ hp (by omega), hr, hn, hm, show (addr.toNat * 2 + 1) / 2 = addr.toNat by omega]
  show (match ([] ++ txnReply (d s.log t)).take 1 with | [] => _ | status :: _ => _) = _
  cases e : d s.log t with
  | none => rfl
  | some l => simp [txnReply, t]

/-- C37: a block write that fits is one transaction with the register address most significant byte first
and then the data; nothing is left in the bridge, the result tells whether it was acknowledged. -/
theorem C37_write_block (d : BusDevices) (hd : d.Sized) (s : BridgeS) (hp : s.pending = [])
    (hr : s.replies = []) (width addr reg : Int) (data : List Int) (hw : 0 ≤ width) (hf : WriteFits width addr data) :
    let t := BusTxn.write addr.toNat (beBytes (width / 8).toNat reg ++ data.map (BitVec.ofInt 8))
    writeBlockData (bridgeDev d) width addr reg data s =
      (.ok (if (d s.log t).isSome then some data.length else none), ⟨[], [], s.log ++ [t]⟩) := by
  intro t
  obtain ⟨h1, h2, h4, h5⟩ := hf
  have hlen : ((regAddrArray width reg ++ data).length : Int) = regAddrSize width + data.length := by
    simp [regAddrArray, regAddrLoop_length, regAddrSize]; omega
  have hreq := request_write d hd s hp hr addr (regAddrArray width reg ++ data) ⟨h1, h2⟩
    (by rw [regAddrSize] at hlen; omega)
    (by
      intro v hv
      rcases List.mem_append.mp hv with hv | hv
      · exact regAddrArray_range _ _ v hv
      · have := h5 v hv; omega)
  rw [hlen, List.map_append, regAddrArray_be] at hreq
  unfold writeBlockData
  simp only
  rw [hreq]
  cases (d s.log t).isSome <;> simp [t]

/-- C37: a block write that does not fit is refused before anything is sent. -/
theorem C37_write_rejected {σ : Type} (dev : PyDev σ) (s : σ) (width addr reg : Int) (data : List Int)
    (hw : 0 ≤ width) (hf : ¬ WriteFits width addr data) :
    writeBlockData dev width addr reg data s = (.error .valueError, s) := by
  have : pyBytes ([addr * 2, regAddrSize width + data.length] ++ (regAddrArray width reg ++ data)) = none := by
    unfold regAddrSize
    by_cases h1 : 0 ≤ addr * 2 ∧ addr * 2 < 256
    · by_cases h2 : 0 ≤ width / 8 + (data.length : Int) ∧ width / 8 + (data.length : Int) < 256
      · have h3 : ∃ v ∈ data, ¬ (0 ≤ v ∧ v < 256) := by
          apply Classical.byContradiction
          intro hn
          apply hf
          have h5 : ∀ v ∈ data, 0 ≤ v ∧ v < 256 := fun v hv =>
            Classical.byContradiction fun h => hn ⟨v, hv, h⟩
          exact ⟨by omega, by omega, by omega, fun v hv => by have := h5 v hv; omega⟩
        obtain ⟨v, hv, h⟩ := h3
        exact pyBytes_none _ v (by simp [hv]) h
      · exact pyBytes_none _ _ (by simp) h2
    · exact pyBytes_none _ _ (by simp) h1
  unfold writeBlockData busRequest
  simp only
  rw [this]

/-- C37: a block read that fits is a write of the register address, most significant byte first, and, if that
is acknowledged, a read of `length` bytes; nothing is left in the bridge; the result is the data, or `None` if
one of the two was not acknowledged. -/
theorem C37_read_block (d : BusDevices) (hd : d.Sized) (s : BridgeS) (hp : s.pending = [])
    (hr : s.replies = []) (width addr reg length : Int) (hw : 0 ≤ width) (ha : 0 ≤ addr ∧ addr ≤ 127)
    (hs : width / 8 ≤ 255) (hl : 0 ≤ length ∧ length ≤ 255) :
    let t := BusTxn.write addr.toNat (beBytes (width / 8).toNat reg)
    let u := BusTxn.read addr.toNat length.toNat
    readBlockData (bridgeDev d) width addr reg length s =
      if (d s.log t).isSome then (.ok (d (s.log ++ [t]) u), ⟨[], [], s.log ++ [t] ++ [u]⟩)
      else (.ok none, ⟨[], [], s.log ++ [t]⟩) := by
  intro t u
  have hlen : ((regAddrArray width reg).length : Int) = regAddrSize width := by
    simp [regAddrArray, regAddrLoop_length, regAddrSize]; omega
  have hreq := request_write d hd s hp hr addr (regAddrArray width reg) ha
    (by rw [regAddrSize] at hlen; omega) (regAddrArray_range _ _)
  rw [hlen, regAddrArray_be] at hreq
  unfold readBlockData
  rw [hreq]
  cases h1 : (d s.log t).isSome
  · simp [t]
  · have hreq2 := request_read d ⟨[], [], s.log ++ [t]⟩ rfl rfl addr length ha hl
    simp only [if_true, ne_eq, not_true_eq_false, if_false]
    rw [hreq2]
    simp only
    rw [show BusTxn.read addr.toNat length.toNat = u from rfl]
    cases h2 : d (s.log ++ [t]) u with
    | none => simp
    | some l =>
      have hsz : l.length = length.toNat := hd _ _ _ h2
      simp [bridgeDev, ← hsz]

/-- C37: a block read whose address or register address does not fit is refused before anything is sent.
Missing: a length outside 0..255, see `C37_read_length_refuted`. -/
theorem C37_read_rejected_partial {σ : Type} (dev : PyDev σ) (s : σ) (width addr reg length : Int)
    (hf : ¬ (0 ≤ addr ∧ addr ≤ 127 ∧ 0 ≤ width / 8 ∧ width / 8 ≤ 255)) :
    readBlockData dev width addr reg length s = (.error .valueError, s) := by
  have : pyBytes ([addr * 2, regAddrSize width] ++ regAddrArray width reg) = none := by
    unfold regAddrSize
    by_cases h1 : 0 ≤ addr * 2 ∧ addr * 2 < 256
    · exact pyBytes_none _ (width / 8) (by simp) (by omega)
    · exact pyBytes_none _ _ (by simp) h1
  unfold readBlockData busRequest
  rw [this]

/-- C37 does not hold for a read of 256 bytes: the error is raised after the register address was written to
the device. -/
theorem C37_read_length_refuted :
    readBlockData (bridgeDev fun _ _ => some []) 8 0x50 0x10 256 ⟨[], [], []⟩ =
      (.error .valueError, ⟨[], [], [.write 0x50 [0x10]]⟩) := by
  rfl

/-- The reply byte fetched by the host: an empty reply is an `IndexError`, zero is success, any other value a
failure. -/
def busStatus {α β : Type} (reply : List (BitVec 8)) (s : β) (success : Except PyErr (Option α) × β) :
    Except PyErr (Option α) × β :=
  match reply.head? with
  | none => (.error .indexError, s)
  | some b => if b = 0 then success else (.ok none, s)

/-- C37: with any device at the other end, a block write that fits sends exactly one buffer, fetches exactly one
byte and reports success exactly when that byte is zero. -/
theorem C37_write_any_device {σ : Type} (dev : PyDev σ) (s : σ) (width addr reg : Int) (data : List Int)
    (hw : 0 ≤ width) (hf : WriteFits width addr data) :
    let buffer := BitVec.ofInt 8 (addr * 2) :: BitVec.ofInt 8 (width / 8 + data.length) ::
      (beBytes (width / 8).toNat reg ++ data.map (BitVec.ofInt 8))
    let r := dev.read 1 (dev.write buffer s)
    writeBlockData dev width addr reg data s = busStatus r.1 r.2 (.ok (some data.length), r.2) := by
  intro buffer r
  obtain ⟨h1, h2, h4, h5⟩ := hf
  have hb : pyBytes ([addr * 2, regAddrSize width + data.length] ++ (regAddrArray width reg ++ data)) = some buffer := by
    rw [pyBytes_some]
    · simp [buffer, regAddrArray_be, regAddrSize]
    · intro v hv
      simp only [List.cons_append, List.nil_append, List.mem_cons, List.mem_append, regAddrSize] at hv
      rcases hv with rfl | rfl | hv | hv
      · omega
      · omega
      · exact regAddrArray_range _ _ v hv
      · have := h5 v hv; omega
  have hr : r = dev.read 1 (dev.write buffer s) := rfl
  clear_value r
  unfold writeBlockData
  simp only [busRequest, hb, ← hr]
  rcases r with ⟨_ | ⟨b, l⟩, s'⟩
  · rfl
  · simp only [busStatus, List.head?_cons]
    by_cases h : b = 0
    · rw [if_pos h, if_neg (not_not_intro h)]
    · rw [if_neg h, if_pos h]

/-- C37: with any device at the other end, a block read that fits writes the register address, and continues with
the read command exactly when the status is zero, and fetches `length` bytes exactly when that status is zero
too. -/
theorem C37_read_any_device {σ : Type} (dev : PyDev σ) (s : σ) (width addr reg length : Int)
    (hw : 0 ≤ width) (ha : 0 ≤ addr ∧ addr ≤ 127) (hs : width / 8 ≤ 255) (hl : 0 ≤ length ∧ length ≤ 255) :
    let r := dev.read 1 (dev.write (BitVec.ofInt 8 (addr * 2) :: BitVec.ofInt 8 (width / 8) ::
      beBytes (width / 8).toNat reg) s)
    let q := dev.read 1 (dev.write [BitVec.ofInt 8 (addr * 2 + 1), BitVec.ofInt 8 length] r.2)
    let d := dev.read length.toNat q.2
    readBlockData dev width addr reg length s =
      busStatus r.1 r.2 (busStatus q.1 q.2 (.ok (some d.1), d.2)) := by
  intro r q d
  have hb : pyBytes ([addr * 2, regAddrSize width] ++ regAddrArray width reg) =
      some (BitVec.ofInt 8 (addr * 2) :: BitVec.ofInt 8 (width / 8) :: beBytes (width / 8).toNat reg) := by
    rw [pyBytes_some]
    · simp [regAddrArray_be, regAddrSize]
    · intro v hv
      simp only [List.cons_append, List.nil_append, List.mem_cons, regAddrSize] at hv
      rcases hv with rfl | rfl | hv
      · omega
      · omega
      · exact regAddrArray_range _ _ v hv
  have hb2 : pyBytes [addr * 2 + 1, length] = some [BitVec.ofInt 8 (addr * 2 + 1), BitVec.ofInt 8 length] := by
    rw [pyBytes_some]
    · rfl
    · intro v hv
      simp only [List.mem_cons, List.not_mem_nil, or_false] at hv
      rcases hv with rfl | rfl <;> omega
  have hr : r = dev.read 1 (dev.write (BitVec.ofInt 8 (addr * 2) :: BitVec.ofInt 8 (width / 8) ::
      beBytes (width / 8).toNat reg) s) := rfl
  have hq : q = dev.read 1 (dev.write [BitVec.ofInt 8 (addr * 2 + 1), BitVec.ofInt 8 length] r.2) := rfl
  have hd : d = dev.read length.toNat q.2 := rfl
  clear_value r q d
  unfold readBlockData
  simp only [busRequest, hb, hb2, ← hr]
  rcases r with ⟨_ | ⟨b, l⟩, s'⟩
  · rfl
  · simp only [busStatus, List.head?_cons] at hq ⊢
    by_cases h : b = 0
    · rw [if_pos h, if_neg (not_not_intro h), ← hq]
      rcases q with ⟨_ | ⟨b, l⟩, s''⟩
      · rfl
      · simp only [List.head?_cons] at hd ⊢
        by_cases h : b = 0
        · rw [if_pos h, if_neg (not_not_intro h), hd]
        · rw [if_neg h, if_pos h]
    · rw [if_neg h, if_pos h]

/-- C37: the single-byte functions. Writing does not report a missing acknowledge. -/
theorem C37_write_byte (d : BusDevices) (hd : d.Sized) (s : BridgeS) (hp : s.pending = [])
    (hr : s.replies = []) (width addr reg data : Int) (hw : 0 ≤ width) (hf : WriteFits width addr [data]) :
    writeByteData (bridgeDev d) width addr reg data s = (.ok (), ⟨[], [], s.log ++
      [.write addr.toNat (beBytes (width / 8).toNat reg ++ [BitVec.ofInt 8 data])]⟩) := by
  unfold writeByteData
  rw [C37_write_block d hd s hp hr width addr reg [data] hw hf]
  rfl

/-- C37: reading one byte gives that byte; a missing acknowledge is a `TypeError`. -/
theorem C37_read_byte (d : BusDevices) (hd : d.Sized) (s : BridgeS) (hp : s.pending = [])
    (hr : s.replies = []) (width addr reg : Int) (hw : 0 ≤ width) (ha : 0 ≤ addr ∧ addr ≤ 127)
    (hs : width / 8 ≤ 255) :
    let t := BusTxn.write addr.toNat (beBytes (width / 8).toNat reg)
    let u := BusTxn.read addr.toNat 1
    let r := readByteData (bridgeDev d) width addr reg s
    (∀ b, r.1 = .ok b ↔ (d s.log t).isSome ∧ d (s.log ++ [t]) u = some [b]) ∧
    (r.1 = .error .typeError ↔ ¬ ((d s.log t).isSome ∧ (d (s.log ++ [t]) u).isSome)) ∧
    r.2.pending = [] ∧ r.2.replies = [] := by
  intro t u r
  have h : r = readByteData (bridgeDev d) width addr reg s := rfl
  have hb := C37_read_block d hd s hp hr width addr reg 1 hw ha hs (by omega)
  simp only at hb
  rw [show BusTxn.write addr.toNat (beBytes (width / 8).toNat reg) = t from rfl,
    show BusTxn.read addr.toNat (Int.toNat 1) = u from rfl] at hb
  unfold readByteData at h
  rw [hb] at h
  rw [h]
  cases h1 : (d s.log t).isSome
  · simp
  · cases h2 : d (s.log ++ [t]) u with
    | none => simp
    | some l =>
      have hsz : l.length = 1 := hd _ _ _ h2
      match l, hsz with
      | [b], _ => simp

/-! Discovery -/

/-- The probes of the addresses `a .. a + n - 1`. -/
def probes (a n : Nat) : List BusTxn := (List.range' a n).map fun k => .write k []

/-- Whether the device at address `k` acknowledges its probe when the addresses `a .. k - 1` were probed
before. -/
def probeAck (d : BusDevices) (log : List BusTxn) (a k : Nat) : Bool :=
  (d (log ++ probes a (k - a)) (.write k [])).isSome

/-- The printed map. -/
def busMap (ack : Nat → Bool) (k : Nat) : List BusTok :=
  (if ack k then [.hex k] else [.dots]) ++ (if k % 16 = 15 then [.newline] else [])

theorem discoverLoop_spec (d : BusDevices) (hd : d.Sized) (N : Nat) (hN : N ≤ 128) (n : Nat) :
    ∀ (a : Nat) (log : List BusTxn), a + n ≤ N →
    discoverLoop (bridgeDev d) n a ⟨[], [], log⟩ =
      (.ok ((List.range' a n).filter (probeAck d log a), (List.range' a n).flatMap (busMap (probeAck d log a))),
        ⟨[], [], log ++ probes a n⟩) := by
  induction n with
  | zero =>
    intro a log _
    rw [discoverLoop]
    simp [probes]
  | succ n ih =>
    intro a log hn
    have hreq := request_write d hd ⟨[], [], log⟩ rfl rfl (a : Int) [] (by omega) (by simp) (by simp)
    have hreq' : busRequest (bridgeDev d) [(a : Int) * 2, 0] ⟨[], [], log⟩ =
        (.ok (if probeAck d log a a then 0 else 1), ⟨[], [], log ++ [.write a []]⟩) := by
      simpa [probeAck, probes] using hreq
    have hstep : ∀ k ∈ List.range' (a + 1) n,
        probeAck d (log ++ [.write a []]) (a + 1) k = probeAck d log a k := by
      intro k hk
      rw [List.mem_range'_1] at hk
      unfold probeAck
      rw [show k - a = k - (a + 1) + 1 by omega]
      simp [probes, List.range'_succ]
    rw [discoverLoop, hreq']
    simp only [pyBind]
    rw [ih (a + 1) (log ++ [BusTxn.write a []]) (by omega)]
    rw [List.range'_succ]
    have e1 : (List.range' (a + 1) n).filter (probeAck d (log ++ [.write a []]) (a + 1)) =
        (List.range' (a + 1) n).filter (probeAck d log a) := List.filter_congr hstep
    have e2 : (List.range' (a + 1) n).flatMap (busMap (probeAck d (log ++ [.write a []]) (a + 1))) =
        (List.range' (a + 1) n).flatMap (busMap (probeAck d log a)) := by
      have e3 : (List.range' (a + 1) n).map (busMap (probeAck d (log ++ [.write a []]) (a + 1))) =
          (List.range' (a + 1) n).map (busMap (probeAck d log a)) :=
        List.map_congr_left fun k hk => by simp only [busMap, hstep k hk]
      rw [List.flatMap_def, List.flatMap_def, e3]
    simp only [e1, e2]
    cases h : probeAck d log a a
    · simp [h, busToks, busMap, probes, List.range'_succ]
    · simp [h, busToks, busMap, probes, List.range'_succ]

theorem discoverLoop_zero (d : BusDevices) (hd : d.Sized) (log : List BusTxn) (n : Nat) (hn : n ≤ 128) :
    discoverLoop (bridgeDev d) n 0 ⟨[], [], log⟩ =
      (.ok ((List.range n).filter (probeAck d log 0), (List.range n).flatMap (busMap (probeAck d log 0))),
        ⟨[], [], log ++ probes 0 n⟩) := by
  rw [List.range_eq_range']
  exact discoverLoop_spec d hd n hn n 0 log (by omega)

/-- C37: `discover` probes every seven-bit address once, in order, returns exactly the addresses that
acknowledge, prints the corresponding map and leaves nothing in the bridge. -/
theorem C37_discover (d : BusDevices) (hd : d.Sized) (log : List BusTxn) :
    discover (bridgeDev d) ⟨[], [], log⟩ =
      (.ok ((List.range 128).filter (probeAck d log 0), (List.range 128).flatMap (busMap (probeAck d log 0))),
        ⟨[], [], log ++ probes 0 128⟩) := by
  unfold discover
  exact discoverLoop_zero d hd log 128 (Nat.le_refl _)

/-- Several probes sent at once. -/
theorem bridge_probes (d : BusDevices) (hd : d.Sized) (n : Nat) : ∀ (a : Nat) (r : List (BitVec 8))
    (log : List BusTxn), a + n ≤ 128 →
    ((List.range' a n).flatMap fun k => [BitVec.ofNat 8 (k * 2), (0 : BitVec 8)]).foldl (bridgeByte d)
      ⟨[], r, log⟩ =
    ⟨[], r ++ (List.range' a n).map (fun k => if probeAck d log a k then 0 else 1), log ++ probes a n⟩ := by
  induction n with
  | zero => intro a r log _; simp [probes]
  | succ n ih =>
    intro a r log hn
    have hm : (BitVec.ofNat 8 (a * 2)).toNat = a * 2 := by simp; omega
    have hw := bridge_write d ⟨[], r, log⟩ (BitVec.ofNat 8 (a * 2)) [] rfl (by omega) (by simp)
    rw [hm, Nat.mul_div_cancel _ (by omega)] at hw
    have hrep : txnReply (d log (.write a [])) = [if probeAck d log a a then 0 else 1] := by
      have : (d log (.write a [])).isSome = probeAck d log a a := by simp [probeAck, probes]
      rw [← this]
      cases e : d log (.write a []) with
      | none => rfl
      | some l =>
        have : l = [] := List.length_eq_zero_iff.mp (hd _ _ _ e)
        subst this
        rfl
    rw [List.range'_succ, List.flatMap_cons, List.foldl_append]
    have hw' : [BitVec.ofNat 8 (a * 2), (0 : BitVec 8)].foldl (bridgeByte d) ⟨[], r, log⟩ =
        ⟨[], r ++ [if probeAck d log a a then 0 else 1], log ++ [.write a []]⟩ := by
      rw [← hrep]; exact hw
    rw [hw', ih _ _ _ (by omega)]
    have hstep : ∀ k ∈ List.range' (a + 1) n,
        (if probeAck d (log ++ [.write a []]) (a + 1) k then (0 : BitVec 8) else 1) =
          if probeAck d log a k then 0 else 1 := by
      intro k hk
      rw [List.mem_range'_1] at hk
      unfold probeAck
      rw [show k - a = k - (a + 1) + 1 by omega]
      simp [probes, List.range'_succ]
    rw [List.map_congr_left hstep]
    simp [probes, List.range'_succ]

theorem pyBytes_probes : pyBytes ((List.range 128).flatMap fun (addr : Nat) => [(addr : Int) * 2, 0]) =
    some ((List.range 128).flatMap fun k => [BitVec.ofNat 8 (k * 2), (0 : BitVec 8)]) := by
  decide +kernel

theorem zipIdx_busMap (f : Nat → Bool) (n : Nat) : ∀ a,
    (((List.range' a n).map fun k => if f k then (0 : BitVec 8) else 1).zipIdx a).flatMap
      (fun p => busToks p.2 p.1) = (List.range' a n).flatMap (busMap f) := by
  induction n with
  | zero => intro a; rfl
  | succ n ih =>
    intro a
    rw [List.range'_succ, List.map_cons, List.zipIdx_cons, List.flatMap_cons, List.flatMap_cons, ih]
    congr 1
    cases h : f a <;> simp [busToks, busMap, h]

theorem discoverQueue_spec (d : BusDevices) (hd : d.Sized) (log : List BusTxn) (n : Nat) (hn : n ≤ 128) :
    (let r := (bridgeDev d).read n ((bridgeDev d).write
        ((List.range n).flatMap fun k => [BitVec.ofNat 8 (k * 2), (0 : BitVec 8)]) ⟨[], [], log⟩)
     ((.ok (r.1.zipIdx.flatMap fun p => busToks p.2 p.1), r.2) : Except PyErr (List BusTok) × BridgeS)) =
      (.ok ((List.range n).flatMap (busMap (probeAck d log 0))), ⟨[], [], log ++ probes 0 n⟩) := by
  have h := bridge_probes d hd n 0 [] log (by omega)
  rw [← List.range_eq_range'] at h
  have k0 := zipIdx_busMap (probeAck d log 0) n 0
  rw [← List.range_eq_range'] at k0
  simp only [bridgeDev]
  rw [h]
  simp only [List.nil_append]
  rw [List.take_of_length_le (by simp), k0, List.drop_of_length_le (by simp)]

/-- C37: `discover_queue` sends the same probes in the same order, prints the same map as `discover` and
leaves nothing in the bridge. -/
theorem C37_discover_queue (d : BusDevices) (hd : d.Sized) (log : List BusTxn) :
    discoverQueue (bridgeDev d) ⟨[], [], log⟩ =
      (.ok ((List.range 128).flatMap (busMap (probeAck d log 0))), ⟨[], [], log ++ probes 0 128⟩) := by
  unfold discoverQueue
  rw [pyBytes_probes]
  exact discoverQueue_spec d hd log 128 (Nat.le_refl _)

/-- C37: the executed transactions and replies are those of the bridge protocol (C36): for every command that
is not a read of zero bytes there are beats such that the command's bytes, the beats and the replies form a
well-formed command, and the beats address the device and carry the data of the transaction. -/
theorem C37_bridge_protocol (d : BusDevices) (hd : d.Sized) (log : List BusTxn) (h : BitVec 8)
    (data : List (BitVec 8)) (len : Nat) (hl : len < 256)
    (hw : h.getLsbD 0 = false → data.length = len) (hr : h.getLsbD 0 = true → data = [] ∧ 0 < len) :
    let c := [h, BitVec.ofNat 8 len] ++ data
    c.foldl (bridgeByte d) ⟨[], [], log⟩ =
      ⟨[], txnReply (d log (cmdTxn c)), log ++ [cmdTxn c]⟩ ∧
    ∃ beats replies, ProtoOk c beats replies ∧ replies.map Prod.snd = txnReply (d log (cmdTxn c)) ∧
      beats.head?.map (fun b => b.1.payload) = some (false, h) ∧
      (d log (cmdTxn c) ≠ none →
        beats.tail.map (fun b => b.1.payload) =
          if h.getLsbD 0 then List.replicate len (true, 0) else data.map fun x => (false, x)) := by
  intro c
  have hlen : (BitVec.ofNat 8 len).toNat = len := by simp; omega
  cases hb : h.getLsbD 0
  · have hh : h.toNat % 2 = 0 := by
      rw [← BitVec.testBit_toNat, Nat.testBit_zero] at hb; simpa using hb
    have hdl := hw hb
    subst hdl
    have hc : cmdTxn c = .write (h.toNat / 2) data := by simp [c, cmdTxn, hh]
    refine ⟨?_, ?_⟩
    · rw [hc]; exact bridge_write d ⟨[], [], log⟩ h data rfl hh hl
    · rw [hc]
      cases e : d log (.write (h.toNat / 2) data) with
      | none =>
        exact ⟨_, _, ProtoOk.writeNakAddr h data hb hl, rfl, rfl, by simp⟩
      | some l =>
        have : l = [] := List.length_eq_zero_iff.mp (hd _ _ _ e)
        subst this
        rcases List.eq_nil_or_concat data with h0 | ⟨pre, b, h0⟩
        · subst h0
          exact ⟨_, _, ProtoOk.probe h hb, rfl, rfl, by simp⟩
        · rw [List.concat_eq_append] at h0
          subst h0
          refine ⟨_, _, by simpa [c] using ProtoOk.write h pre b hb (by simpa using hl), rfl, rfl, ?_⟩
          intro _
          simp [protoWr, Function.comp_def]
  · have hh : h.toNat % 2 = 1 := by
      rw [← BitVec.testBit_toNat, Nat.testBit_zero] at hb; simpa using hb
    obtain ⟨h0, hpos⟩ := hr hb
    subst h0
    have hc : cmdTxn c = .read (h.toNat / 2) len := by simp [c, cmdTxn, hh, Nat.mod_eq_of_lt hl]
    refine ⟨?_, ?_⟩
    · rw [hc]
      have := bridge_read d ⟨[], [], log⟩ h (BitVec.ofNat 8 len) rfl hh
      rw [hlen] at this
      exact this
    · rw [hc]
      cases e : d log (.read (h.toNat / 2) len) with
      | none => exact ⟨_, _, ProtoOk.readNak h len hb hl, rfl, rfl, by simp⟩
      | some l =>
        have hsz : l.length = len := hd _ _ _ e
        rcases List.eq_nil_or_concat l with h0 | ⟨pre, b, h0⟩
        · subst h0; simp at hsz; omega
        · rw [List.concat_eq_append] at h0
          subst h0
          have hsz' : len = pre.length + 1 := by simpa using hsz.symm
          subst hsz'
          refine ⟨_, _, ProtoOk.read h pre b hb hl, ?_, rfl, ?_⟩
          · simp [txnReply, Function.comp_def]
          · intro _
            simp [protoRd, List.replicate_succ']

/-! Examples: a device at 0x50 that acknowledges everything and returns its number of bytes of 7. -/

def demoDevices : BusDevices
  | _, .write a _ => if a = 0x50 then some [] else none
  | _, .read a n => if a = 0x50 then some (List.replicate n 7) else none

example : demoDevices.Sized := by
  intro h t l e
  cases t <;> simp only [demoDevices] at e <;> split at e <;> simp_all
  rw [← e]; simp

example : writeBlockData (bridgeDev demoDevices) 16 0x50 0x1234 [1, 2] ⟨[], [], []⟩ =
    (.ok (some 2), ⟨[], [], [.write 0x50 [0x12, 0x34, 1, 2]]⟩) := by rfl

example : WriteFits 16 0x50 [1, 2] := by simp [WriteFits]

example : ¬ WriteFits 8 0x80 [1] := by simp [WriteFits]

example : readBlockData (bridgeDev demoDevices) 8 0x50 3 2 ⟨[], [], []⟩ =
    (.ok (some [7, 7]), ⟨[], [], [.write 0x50 [3], .read 0x50 2]⟩) := by rfl

example : (readByteData (bridgeDev demoDevices) 8 0x51 3 ⟨[], [], []⟩).1 = .error .typeError := by rfl

end Lambdalib
