import Verif.Model.UsbHost
import Verif.Props.I2cBus

/-! C98, C99: endpoints of the host library and the I2C library on top of them. -/

namespace Lambdalib

/-- A buffer of `length` bytes suits a message: either it has the length of the message, which is not followed by an empty
packet, or it is longer and the message ends with a short packet. -/
def BufferSuits (size : Nat) (zlp : Bool) (message length : Nat) : Prop :=
  (length = message ∧ (zlp = false ∨ message % size ≠ 0)) ∨ (message < length ∧ (zlp = true ∨ message % size ≠ 0))

theorem bulkIn_cut {β : Type} (size : Nat) (zlp : Bool) (hs : 0 < size) (rest : List (List β)) (k : Nat) :
    ∀ (m : List β) (L : Nat), m.length / size = k → BufferSuits size zlp m.length L → (m = [] → m.length < L) →
    bulkIn size L (usbCut size zlp k m ++ rest) = (.completed, m, rest) := by
  induction k with
  | zero =>
    intro m L hk h hn
    have hlt : m.length < size := by
      rcases Nat.div_eq_zero_iff.mp hk with h | h <;> omega
    have hz : usbCut size zlp 0 m = [m] := by
      unfold usbCut
      rw [if_neg]
      intro hc
      simp at hc
      obtain ⟨h1, h2⟩ := hc
      subst h1
      have := hn rfl
      subst h2
      rcases h with h | ⟨_, h⟩
      · simp at h this; omega
      · simp at h
    rw [hz]
    simp only [List.cons_append, List.nil_append, bulkIn]
    have hle : m.length ≤ L := by rcases h with h | h <;> omega
    rw [if_neg (by omega), if_pos (Or.inl hlt)]
  | succ k ih =>
    intro m L hk h hn
    have hge : size ≤ m.length := by
      apply Classical.byContradiction; intro hc
      rw [Nat.div_eq_of_lt (by omega)] at hk; omega
    have hle : m.length ≤ L := by rcases h with h | h <;> omega
    have hkd : (m.length - size) / size = k := by
      have := Nat.div_eq_sub_div hs hge
      omega
    have hmod : (m.length - size) % size = m.length % size := (Nat.mod_eq_sub_mod hge).symm
    have hlen : (m.take size).length = size := by simp; omega
    simp only [usbCut, List.cons_append, bulkIn, hlen]
    rw [if_neg (by omega)]
    by_cases hL : size = L
    · rw [if_pos (Or.inr hL)]
      have hml : m.length = size := by omega
      have hd : m.drop size = [] := List.drop_of_length_le (by omega)
      have hz : zlp = false := by
        rcases h with ⟨_, h | h⟩ | h
        · exact h
        · rw [hml, Nat.mod_self] at h; omega
        · omega
      have hk0 : k = 0 := by rw [← hkd, hml]; simp
      subst hk0
      rw [hd, List.take_of_length_le (by omega), hz]
      rfl
    · rw [if_neg (by omega)]
      rw [ih (m.drop size) (L - size) (by simpa using hkd)]
      · simp
      · rw [List.length_drop]
        rcases h with ⟨h1, h2⟩ | ⟨h1, h2⟩
        · exact Or.inl ⟨by omega, by rw [hmod]; exact h2⟩
        · exact Or.inr ⟨by omega, by rw [hmod]; exact h2⟩
      · intro _
        rw [List.length_drop]
        rename_i hd
        have : (m.drop size).length = 0 := by rw [hd]; rfl
        rw [List.length_drop] at this
        omega

theorem bulkIn_message {β : Type} (size : Nat) (zlp : Bool) (hs : 0 < size) (m : List β) (hm : m ≠ [])
    (rest : List (List β)) (L : Nat) (h : BufferSuits size zlp m.length L) :
    bulkIn size L (usbPackets size zlp m ++ rest) = (.completed, m, rest) := by
  unfold usbPackets
  rw [if_neg (by simpa using hm)]
  exact bulkIn_cut size zlp hs rest _ m L rfl h (fun h => absurd h hm)

/-- C98: a read with a suitable buffer returns exactly the next message and leaves what follows, in both modes.
Missing: the other buffers, see the refutations below. -/
theorem C98_recv_partial {β : Type} (asynchronous : Bool) (size : Nat) (zlp : Bool) (hs : 0 < size) (m : List β)
    (hm : m ≠ []) (rest : List (List β)) (L : Nat) (h : BufferSuits size zlp m.length L) :
    usbRecv asynchronous size (some L) (usbPackets size zlp m ++ rest) = (some (.ok m), rest) := by
  unfold usbRecv
  simp only
  rw [bulkIn_message size zlp hs m hm rest L h]
  cases asynchronous <;> rfl

/-- C98: reading without a length returns any message that is shorter than a packet. -/
theorem C98_recv_default {β : Type} (asynchronous : Bool) (size : Nat) (zlp : Bool) (m : List β)
    (hm : m ≠ []) (rest : List (List β)) (hl : m.length < size) :
    usbRecv asynchronous size none (usbPackets size zlp m ++ rest) = (some (.ok m), rest) := by
  have h := C98_recv_partial asynchronous size zlp (by omega) m hm rest size
    (Or.inr ⟨hl, Or.inr (by
      rw [Nat.mod_eq_of_lt hl]
      have := List.length_pos_iff.mpr hm
      omega)⟩)
  exact h

/-- Reads one after the other; `none` if one of them does not return a value. -/
def usbRecvAll {β : Type} (asynchronous : Bool) (size : Nat) :
    List Nat → List (List β) → Option (List (List β)) × List (List β)
  | [], ps => (some [], ps)
  | n :: ns, ps =>
    let r := usbRecv asynchronous size (some n) ps
    match r.1 with
    | some (.ok l) =>
      let q := usbRecvAll asynchronous size ns r.2
      (q.1.map (l :: ·), q.2)
    | _ => (none, r.2)

/-- C98: the messages sent by the device are returned one by one by reads of their lengths, if none is followed by an empty
packet. -/
theorem C98_messages_partial {β : Type} (asynchronous : Bool) (size : Nat) (zlp : Bool) (hs : 0 < size)
    (ms : List (List β)) (rest : List (List β))
    (h : ∀ m ∈ ms, m ≠ [] ∧ (zlp = false ∨ m.length % size ≠ 0)) :
    usbRecvAll asynchronous size (ms.map List.length) (ms.flatMap (usbPackets size zlp) ++ rest) = (some ms, rest) := by
  induction ms with
  | nil => rfl
  | cons m ms ih =>
    obtain ⟨hm, hz⟩ := h m (by simp)
    simp only [List.map_cons, List.flatMap_cons, List.append_assoc, usbRecvAll]
    rw [C98_recv_partial asynchronous size zlp hs m hm _ m.length (Or.inl ⟨rfl, hz⟩)]
    simp only
    rw [ih (fun m hm => h m (by simp [hm]))]
    rfl

/-- C98: `exchange` with a device that answers a buffer with one message of the same length. -/
theorem C98_exchange_partial {β σ : Type} (asynchronous : Bool) (size : Nat) (zlp : Bool) (hs : 0 < size)
    (device : List β → σ → σ × List (List β)) (data answer : List β) (s s' : σ) (hd : data ≠ [])
    (hdev : device data s = (s', usbPackets size zlp answer)) (hl : answer.length = data.length)
    (hz : zlp = false ∨ data.length % size ≠ 0) :
    usbExchange asynchronous size device data s [] = (some (.ok answer), s', []) := by
  unfold usbExchange
  simp only
  rw [hdev]
  have h := C98_recv_partial asynchronous size zlp hs answer
    (by intro e; subst e; simp at hl; exact hd (List.length_eq_zero_iff.mp hl.symm)) [] data.length
    (Or.inl ⟨hl.symm, by rw [hl]; exact hz⟩)
  rw [List.nil_append, List.append_nil] at *
  rw [h]

/-- C98: a message left unread is returned before the answer, which is left in its place. -/
theorem C98_exchange_unread {β σ : Type} (asynchronous : Bool) (size : Nat) (zlp : Bool) (hs : 0 < size)
    (device : List β → σ → σ × List (List β)) (data old : List β) (s : σ) (packets : List (List β)) (hd : data ≠ [])
    (hl : old.length = data.length) (hz : zlp = false ∨ data.length % size ≠ 0) :
    usbExchange asynchronous size device data s (usbPackets size zlp old ++ packets) =
      (some (.ok old), (device data s).1, packets ++ (device data s).2) := by
  unfold usbExchange
  simp only
  rw [List.append_assoc, C98_recv_partial asynchronous size zlp hs old
    (by intro e; subst e; simp at hl; exact hd (List.length_eq_zero_iff.mp hl.symm)) _ data.length
    (Or.inl ⟨hl.symm, by rw [hl]; exact hz⟩)]

example : usbExchange true 4 (fun (l : List Nat) (s : Nat) => (s + 1, [l])) [1, 2] 0 (usbPackets 4 true [8, 9] ++ [[5]]) =
    (some (.ok [8, 9]), 1, [[5], [1, 2]]) := rfl

/-! What goes wrong with the other buffers. -/

theorem bulkIn_cut_zlp {β : Type} (size : Nat) (hs : 0 < size) (rest : List (List β)) (k : Nat) :
    ∀ (m : List β), m.length = (k + 1) * size →
    bulkIn size m.length (usbCut size true (k + 1) m ++ rest) = (.completed, m, [] :: rest) := by
  induction k with
  | zero =>
    intro m hm
    rw [Nat.zero_add, Nat.one_mul] at hm
    have ht : m.take size = m := List.take_of_length_le (by omega)
    have hd : m.drop size = [] := List.drop_of_length_le (by omega)
    simp only [usbCut, List.cons_append, bulkIn, ht, hd]
    rw [if_neg (by omega), if_pos (Or.inr trivial)]
    rfl
  | succ k ih =>
    intro m hm
    have e : (k + 1 + 1) * size = (k + 1) * size + size := Nat.succ_mul _ _
    have hp : 0 < (k + 1) * size := Nat.mul_pos (by omega) hs
    have hlen : (m.take size).length = size := by simp; omega
    have hi := ih (m.drop size) (by rw [List.length_drop]; omega)
    rw [List.length_drop] at hi
    rw [usbCut]
    simp only [List.cons_append, bulkIn, hlen]
    rw [if_neg (by omega), if_neg (by omega), hi]
    simp

/-- C98 does not hold for messages that are a multiple of the packet size if these are ended by an empty packet: a read of
the length of the message leaves the empty packet, and the next read returns nothing. -/
theorem C98_empty_packet_refuted {β : Type} (asynchronous : Bool) (size : Nat) (hs : 0 < size) (m : List β)
    (hm : m ≠ []) (hz : m.length % size = 0) (rest : List (List β)) (L : Nat) :
    usbRecv asynchronous size (some m.length) (usbPackets size true m ++ rest) = (some (.ok m), [] :: rest) ∧
    usbRecv asynchronous size (some L) ([] :: rest) = (some (.ok []), rest) := by
  constructor
  · obtain ⟨k, hk⟩ : ∃ k, m.length / size = k + 1 := by
      have h0 := List.length_pos_iff.mpr hm
      have := Nat.div_add_mod m.length size
      cases hq : m.length / size with
      | zero => rw [hq] at this; simp at this; omega
      | succ k => exact ⟨k, rfl⟩
    have hlen : m.length = (k + 1) * size := by
      have := Nat.div_add_mod m.length size
      rw [hk, hz, Nat.mul_comm] at this
      omega
    have hc : usbPackets size true m = usbCut size true (k + 1) m := by
      unfold usbPackets
      rw [if_neg (by simpa using hm), hk]
    unfold usbRecv
    simp only
    rw [hc, bulkIn_cut_zlp size hs rest k m hlen]
    cases asynchronous <;> rfl
  · unfold usbRecv
    simp only [bulkIn, List.length_nil, Nat.not_lt_zero, if_false]
    rw [if_pos (Or.inl hs)]
    cases asynchronous <;> rfl

/-- C98 does not hold for a message of full packets without an empty packet if the buffer is longer: the asynchronous read
does not return, the synchronous read returns nothing and the message is lost. -/
theorem C98_longer_refuted :
    usbRecv true 2 (some 3) (usbPackets 2 false [1, 2]) = (none, []) ∧
    usbRecv false 2 (some 3) (usbPackets 2 false [1, 2]) = (some (.ok []), []) ∧
    usbRecv true 2 (some 5) (usbPackets 2 false [1, 2] ++ usbPackets 2 false [3, 4, 5]) =
      (some (.ok [1, 2, 3, 4, 5]), []) :=
  ⟨rfl, rfl, rfl⟩

/-- C98 does not hold for a message longer than the buffer: the synchronous read raises an error, the asynchronous read
returns as if the transfer had succeeded, and bytes of the message are lost in both. -/
theorem C98_shorter_refuted :
    usbRecv false 4 (some 1) (usbPackets 4 true [1, 2]) = (some (.error .overflow), []) ∧
    usbRecv true 4 (some 1) (usbPackets 4 true [1, 2]) = (some (.ok []), []) :=
  ⟨rfl, rfl⟩

example : usbRecv true 2 (some 3) (usbPackets 2 true [1, 2, 3] ++ [[9]]) = (some (.ok [1, 2, 3]), [[9]]) := rfl
example : usbRecv false 2 (some 5) (usbPackets 2 true [1, 2, 3, 4] ++ [[9]]) = (some (.ok [1, 2, 3, 4]), [[9]]) := rfl
example : BufferSuits 2 true 4 5 := Or.inr ⟨by decide, Or.inl rfl⟩
example : usbRecvAll true 2 [1, 3] ([[7], [1, 2, 3]].flatMap (usbPackets 2 true) ++ []) = (some [[7], [1, 2, 3]], []) := by
  decide

/-! Exactly the suitable buffers work. -/

theorem bulkIn_length_le {β : Type} (size : Nat) (ps : List (List β)) :
    ∀ L, (bulkIn size L ps).2.1.length ≤ L := by
  induction ps with
  | nil => intro L; simp [bulkIn]
  | cons p ps ih =>
    intro L
    simp only [bulkIn]
    split
    · simp
    · split
      · simp; omega
      · have := ih (L - p.length)
        simp only [List.length_append]
        omega

/-- Full packets only, in a buffer that is longer: the transfer does not end. -/
theorem bulkIn_cut_open {β : Type} (size : Nat) (hs : 0 < size) (k : Nat) :
    ∀ (m : List β) (L : Nat), m.length = k * size → m.length < L →
    (bulkIn size L (usbCut size false k m)).1 = .timedOut := by
  induction k with
  | zero =>
    intro m L hm hl
    have : m = [] := List.length_eq_zero_iff.mp (by simpa using hm)
    subst this
    simp [usbCut, bulkIn]
  | succ k ih =>
    intro m L hm hl
    rw [Nat.succ_mul] at hm
    have ht : (m.take size).length = size := by rw [List.length_take]; omega
    simp only [usbCut, bulkIn, ht]
    rw [if_neg (by omega), if_neg (by omega)]
    exact ih (m.drop size) (L - size) (by rw [List.length_drop]; omega) (by rw [List.length_drop]; omega)

/-- C98: a buffer returns the next message and leaves what follows, whatever that is, if and only if it is suitable. -/
theorem C98_recv_iff {β : Type} (asynchronous : Bool) (size : Nat) (zlp : Bool) (hs : 0 < size) (m : List β)
    (hm : m ≠ []) (L : Nat) :
    (∀ rest, usbRecv asynchronous size (some L) (usbPackets size zlp m ++ rest) = (some (.ok m), rest)) ↔
      BufferSuits size zlp m.length L := by
  constructor
  · intro h
    have hpos := List.length_pos_iff.mpr hm
    rcases Nat.lt_trichotomy L m.length with hl | hl | hl
    · exfalso
      have h1 := h []
      have h2 := bulkIn_length_le size (usbPackets size zlp m ++ []) L
      unfold usbRecv at h1
      simp only at h1
      cases asynchronous with
      | false =>
        simp only [Bool.not_false, if_true, Prod.mk.injEq] at h1
        obtain ⟨h1, -⟩ := h1
        split at h1
        · simp only [Option.some.injEq, Except.ok.injEq] at h1
          rw [h1] at h2; omega
        · simp only [Option.some.injEq, Except.ok.injEq] at h1
          exact hm h1.symm
        · cases h1
      | true =>
        simp only [Bool.not_true, Bool.false_eq_true, if_false, Prod.mk.injEq] at h1
        obtain ⟨h1, -⟩ := h1
        split at h1
        · cases h1
        · simp only [Option.some.injEq, Except.ok.injEq] at h1
          rw [h1] at h2; omega
    · subst hl
      refine Or.inl ⟨rfl, ?_⟩
      cases zlp with
      | false => exact Or.inl rfl
      | true =>
        refine Or.inr fun hz => ?_
        have h1 := (C98_empty_packet_refuted asynchronous size hs m hm hz [] 0).1
        rw [h []] at h1
        simp at h1
    · refine Or.inr ⟨hl, ?_⟩
      cases zlp with
      | true => exact Or.inl rfl
      | false =>
        refine Or.inr fun hz => ?_
        have hk : m.length = m.length / size * size := by
          have := Nat.div_add_mod m.length size
          rw [hz, Nat.mul_comm] at this
          omega
        have h1 := bulkIn_cut_open size hs _ m L hk hl
        have h2 := h []
        have hp : usbPackets size false m = usbCut size false (m.length / size) m := by
          unfold usbPackets; rw [if_neg (by simpa using hm)]
        unfold usbRecv at h2
        rw [hp, List.append_nil] at h2
        simp only [h1] at h2
        cases asynchronous with
        | false =>
          simp only [Bool.not_false, if_true, Prod.mk.injEq, Option.some.injEq, Except.ok.injEq] at h2
          exact hm h2.1.symm
        | true => simp at h2
  · intro h rest
    exact C98_recv_partial asynchronous size zlp hs m hm rest L h

/-! A device that answers every packet of the buffer with a message of its own, as the SPI bridge of the examples does
(`examples/spi_bridge.py`, `examples/spi_bridge_soft.py`). -/

/-- C98 does not hold for `exchange` of more than one packet with such a device if messages of full packets are ended by an
empty packet: it returns the answer to the first packet only, and leaves the others. -/
theorem C98_exchange_packets_refuted {β σ : Type} (asynchronous : Bool) (size : Nat) (hs : 0 < size)
    (device : List β → σ → σ × List (List β)) (data first : List β) (others : List (List β)) (s s' : σ)
    (hdev : device data s = (s', (first :: others).flatMap (usbPackets size true)))
    (hf : first.length = size) (hl : size < data.length) :
    usbExchange asynchronous size device data s [] = (some (.ok first), s', others.flatMap (usbPackets size true)) := by
  unfold usbExchange
  simp only
  rw [hdev, List.nil_append, List.flatMap_cons]
  have hne : first ≠ [] := by intro e; subst e; simp at hf; omega
  rw [C98_recv_partial asynchronous size true hs first hne _ data.length (Or.inr ⟨by omega, Or.inl rfl⟩)]

/-- C98 holds for it if no empty packets are sent: the answers to the packets are returned together. -/
theorem C98_exchange_packets_partial {β σ : Type} (asynchronous : Bool) (size : Nat) (hs : 0 < size)
    (device : List β → σ → σ × List (List β)) (data lastAnswer : List β) (full : List (List β)) (s s' : σ)
    (hdev : device data s = (s', (full ++ [lastAnswer]).flatMap (usbPackets size false)))
    (hf : ∀ m ∈ full, m.length = size) (hn : lastAnswer ≠ []) (hl : (full ++ [lastAnswer]).flatten.length = data.length)
    (hla : lastAnswer.length ≤ size) :
    usbExchange asynchronous size device data s [] = (some (.ok (full ++ [lastAnswer]).flatten), s', []) := by
  have hone : ∀ m : List β, m ≠ [] → m.length ≤ size → usbPackets size false m = [m] := by
    intro m hm hle
    unfold usbPackets
    rw [if_neg (by simpa using hm)]
    rcases Nat.lt_or_eq_of_le hle with h | h
    · rw [Nat.div_eq_of_lt h]
      simp [usbCut, hm]
    · rw [h, Nat.div_self hs]
      have ht : m.take size = m := List.take_of_length_le (by omega)
      have hd : m.drop size = [] := List.drop_of_length_le (by omega)
      simp [usbCut, ht, hd]
  have hpk : (full ++ [lastAnswer]).flatMap (usbPackets size false) = full ++ [lastAnswer] := by
    rw [List.flatMap_append, List.flatMap_cons, List.flatMap_nil, List.append_nil, hone _ hn hla]
    congr 1
    clear hdev hl
    induction full with
    | nil => rfl
    | cons m full ih =>
      have := hf m (by simp)
      rw [List.flatMap_cons, hone m (by intro e; subst e; simp at this; omega) (by omega),
        ih (fun m hm => hf m (by simp [hm]))]
      rfl
  have key : ∀ (full : List (List β)) (L : Nat), (∀ m ∈ full, m.length = size) →
      (full ++ [lastAnswer]).flatten.length = L →
      bulkIn size L (full ++ [lastAnswer]) = (.completed, (full ++ [lastAnswer]).flatten, []) := by
    intro full
    induction full with
    | nil =>
      intro L _ hL
      simp only [List.nil_append, List.flatten_cons, List.flatten_nil, List.append_nil] at hL ⊢
      simp only [bulkIn]
      rw [if_neg (by omega), if_pos (Or.inr hL)]
    | cons m full ih =>
      intro L hf hL
      have hm := hf m (by simp)
      have h0 := List.length_pos_iff.mpr hn
      simp only [List.cons_append, List.flatten_cons, List.length_append] at hL ⊢
      have hlt : lastAnswer.length ≤ (full ++ [lastAnswer]).flatten.length := by simp
      simp only [bulkIn]
      rw [if_neg (by omega), if_neg (by omega), ih (L - m.length) (fun m hm => hf m (by simp [hm])) (by omega)]
  unfold usbExchange usbRecv
  simp only
  rw [hdev, List.nil_append, hpk, key full data.length hf hl]
  cases asynchronous <;> rfl

/-- Three packets of two bytes, each answered by itself: with and without empty packets. -/
example : usbExchange true 2 (fun (_ : List Nat) (_ : Unit) => ((), [[7, 8], [9, 10], [11, 12]].flatMap (usbPackets 2 true)))
    [1, 2, 3, 4, 5, 6] () [] = (some (.ok [7, 8]), (), [[9, 10], [], [11, 12], []]) := rfl
example : usbExchange true 2 (fun (_ : List Nat) (_ : Unit) => ((), [[7, 8], [9, 10], [11, 12]].flatMap (usbPackets 2 false)))
    [1, 2, 3, 4, 5, 6] () [] = (some (.ok [7, 8, 9, 10, 11, 12]), (), []) := rfl

/-! The I2C library on an endpoint -/

/-- The messages sent for transactions after a history. -/
def logMessages (d : BusDevices) : List BusTxn → List BusTxn → List (List (BitVec 8))
  | _, [] => []
  | log, t :: ts => replyMessages (d log t) ++ logMessages d (log ++ [t]) ts

/-- The bridge executes the same transactions and sends its replies in messages. -/
theorem usb_bridge_bytes (size : Nat) (zlp : Bool) (d : BusDevices) (l : List (BitVec 8)) :
    ∀ (p : List (BitVec 8)) (ps : List (List (BitVec 8))) (r : List (BitVec 8)) (log : List BusTxn) (f : Bool),
    ∃ ts, (l.foldl (bridgeByte d) ⟨p, r, log⟩).log = log ++ ts ∧
      l.foldl (usbBridgeByte size zlp d) ⟨p, ps, log, f⟩ =
        ⟨(l.foldl (bridgeByte d) ⟨p, r, log⟩).pending,
          ps ++ (logMessages d log ts).flatMap (usbPackets size zlp), log ++ ts, f⟩ := by
  induction l with
  | nil => intro p ps r log f; exact ⟨[], by simp, by simp [logMessages]⟩
  | cons b l ih =>
    intro p ps r log f
    rw [List.foldl_cons, List.foldl_cons]
    unfold bridgeByte usbBridgeByte
    simp only
    cases h : protoPhase (p ++ [b]) with
    | header o =>
      simp only
      obtain ⟨ts, h1, h2⟩ := ih [] (ps ++ (replyMessages (d log (cmdTxn (p ++ [b])))).flatMap (usbPackets size zlp))
        (r ++ txnReply (d log (cmdTxn (p ++ [b])))) (log ++ [cmdTxn (p ++ [b])]) f
      refine ⟨cmdTxn (p ++ [b]) :: ts, ?_, ?_⟩
      · rw [show (log ++ cmdTxn (p ++ [b]) :: ts) = log ++ [cmdTxn (p ++ [b])] ++ ts by simp]; exact h1
      · rw [show (log ++ cmdTxn (p ++ [b]) :: ts) = log ++ [cmdTxn (p ++ [b])] ++ ts by simp]
        simp only [logMessages, List.flatMap_append, ← List.append_assoc]
        exact h2
    | length h => exact ih _ ps r log f
    | data n => exact ih _ ps r log f

/-- Messages for bytes after which the bridge executed one transaction. -/
theorem usb_bridge_one (size : Nat) (zlp : Bool) (d : BusDevices) (l : List (BitVec 8)) (log : List BusTxn) (t : BusTxn)
    (r : List (BitVec 8)) (f : Bool) (h : l.foldl (bridgeByte d) ⟨[], [], log⟩ = ⟨[], r, log ++ [t]⟩) :
    l.foldl (usbBridgeByte size zlp d) ⟨[], [], log, f⟩ =
      ⟨[], (replyMessages (d log t)).flatMap (usbPackets size zlp), log ++ [t], f⟩ := by
  obtain ⟨ts, h1, h2⟩ := usb_bridge_bytes size zlp d l [] [] [] log f
  rw [h] at h1 h2
  simp only at h1 h2
  have : ts = [t] := (List.append_cancel_left h1).symm
  subst this
  rw [h2]
  simp [logMessages]

theorem usbPackets_one (size : Nat) (zlp : Bool) (hs : 1 < size) (b : BitVec 8) : usbPackets size zlp [b] = [[b]] := by
  unfold usbPackets
  simp only [List.isEmpty_cons, Bool.false_eq_true, if_false, List.length_cons, List.length_nil]
  rw [Nat.div_eq_of_lt (by omega)]
  rfl

/-- Fetching a status. -/
theorem usb_read_status (asynchronous : Bool) (size : Nat) (zlp : Bool) (d : BusDevices) (hs : 1 < size) (b : BitVec 8)
    (rest : List (List (BitVec 8))) (p : List (BitVec 8)) (log : List BusTxn) (f : Bool) :
    (usbBusDev asynchronous size zlp d).read 1 ⟨p, [b] :: rest, log, f⟩ = ([b], ⟨p, rest, log, f⟩) := by
  have h := C98_recv_partial asynchronous size zlp (by omega) [b] (by simp) rest 1
    (Or.inl ⟨rfl, Or.inr (by simp [Nat.mod_eq_of_lt hs])⟩)
  rw [usbPackets_one size zlp hs] at h
  simp only [usbBusDev]
  simp only [List.cons_append, List.nil_append] at h
  rw [h]

/-- A request with a write command: same result and transactions as on a byte connection, nothing left. -/
theorem usb_request_write (asynchronous : Bool) (size : Nat) (zlp : Bool) (d : BusDevices) (hd : d.Sized) (hs : 1 < size)
    (addr : Int) (arr : List Int) (log : List BusTxn) :
    let r := busRequest (bridgeDev d) ([addr * 2, (arr.length : Int)] ++ arr) ⟨[], [], log⟩
    busRequest (usbBusDev asynchronous size zlp d) ([addr * 2, (arr.length : Int)] ++ arr) ⟨[], [], log, false⟩ =
      (r.1, ⟨[], [], r.2.log, false⟩) ∧ r.2 = ⟨[], [], r.2.log⟩ := by
  intro r
  by_cases hf : ∀ v ∈ [addr * 2, (arr.length : Int)] ++ arr, 0 ≤ v ∧ v < 256
  · have ha := hf (addr * 2) (by simp)
    have hl := hf arr.length (by simp)
    have hreq := request_write d hd ⟨[], [], log⟩ rfl rfl addr arr (by omega) (by omega) (fun v hv => by
      have := hf v (by simp [hv]); omega)
    have hr : r = _ := hreq
    rw [hr]
    simp only
    refine ⟨?_, trivial⟩
    unfold busRequest
    rw [pyBytes_some _ hf]
    simp only
    have hm : (BitVec.ofInt 8 (addr * 2)).toNat = addr.toNat * 2 := by
      rw [BitVec.toNat_ofInt]; omega
    have hn : BitVec.ofInt 8 (arr.length : Int) = BitVec.ofNat 8 (arr.map (BitVec.ofInt 8)).length := by
      apply BitVec.eq_of_toNat_eq
      rw [BitVec.toNat_ofInt]
      simp only [List.length_map, BitVec.toNat_ofNat]
      omega
    have hw := bridge_write d ⟨[], [], log⟩ (BitVec.ofInt 8 (addr * 2)) (arr.map (BitVec.ofInt 8)) rfl (by omega)
      (by simp; omega)
    rw [hm, Nat.mul_div_cancel _ (by omega), ← hn] at hw
    have hu := usb_bridge_one size zlp d _ log _ _ false hw
    have hb : (usbBusDev asynchronous size zlp d).write
        (([addr * 2, (arr.length : Int)] ++ arr).map (BitVec.ofInt 8)) ⟨[], [], log, false⟩ =
        ⟨[], (replyMessages (d log (.write addr.toNat (arr.map (BitVec.ofInt 8))))).flatMap (usbPackets size zlp),
          log ++ [.write addr.toNat (arr.map (BitVec.ofInt 8))], false⟩ := by
      rw [List.map_append]
      exact hu
    rw [hb]
    cases e : d log (.write addr.toNat (arr.map (BitVec.ofInt 8))) with
    | none =>
      simp only [replyMessages, List.flatMap_cons, List.flatMap_nil, usbPackets_one size zlp hs, List.append_nil]
      rw [usb_read_status asynchronous size zlp d hs]
      rfl
    | some l =>
      have hl : l = [] := List.length_eq_zero_iff.mp (hd _ _ _ e)
      subst hl
      simp only [replyMessages, List.flatMap_cons, List.flatMap_nil, usbPackets_one size zlp hs, List.append_nil]
      rw [usb_read_status asynchronous size zlp d hs]
      rfl
  · have hx : ∃ v ∈ [addr * 2, (arr.length : Int)] ++ arr, ¬ (0 ≤ v ∧ v < 256) :=
      Classical.byContradiction fun hn => hf fun v hv => Classical.byContradiction fun h => hn ⟨v, hv, h⟩
    obtain ⟨v, hv, h⟩ := hx
    have hp := pyBytes_none _ v hv h
    have hr : r = (.error .valueError, ⟨[], [], log⟩) := by
      show busRequest _ _ _ = _
      unfold busRequest
      rw [hp]
    rw [hr]
    refine ⟨?_, rfl⟩
    unfold busRequest
    rw [hp]

theorem regAddrArray_size (width reg : Int) (hw : 0 ≤ width) :
    ((regAddrArray width reg).length : Int) = regAddrSize width := by
  simp [regAddrArray, regAddrLoop_length, regAddrSize]; omega

/-- C99: a block write over an endpoint has the same result and the same transactions as over a byte connection (C37), for
all arguments, and leaves nothing unread. -/
theorem C99_write_block (asynchronous : Bool) (size : Nat) (zlp : Bool) (hs : 1 < size) (d : BusDevices) (hd : d.Sized)
    (width addr reg : Int) (hw : 0 ≤ width) (data : List Int) (log : List BusTxn) :
    let r := writeBlockData (bridgeDev d) width addr reg data ⟨[], [], log⟩
    writeBlockData (usbBusDev asynchronous size zlp d) width addr reg data ⟨[], [], log, false⟩ =
      (r.1, ⟨[], [], r.2.log, false⟩) := by
  intro r
  have h := usb_request_write asynchronous size zlp d hd hs addr (regAddrArray width reg ++ data) log
  have hlen : ((regAddrArray width reg ++ data).length : Int) = regAddrSize width + data.length := by
    rw [List.length_append, Int.natCast_add, regAddrArray_size width reg hw]
  rw [hlen] at h
  obtain ⟨h1, h2⟩ := h
  have hr : r = writeBlockData (bridgeDev d) width addr reg data ⟨[], [], log⟩ := rfl
  clear_value r
  unfold writeBlockData at hr ⊢
  simp only at hr ⊢
  rw [h1]
  generalize busRequest (bridgeDev d) ([addr * 2, regAddrSize width + data.length] ++ (regAddrArray width reg ++ data))
    ⟨[], [], log⟩ = q at *
  obtain ⟨q1, q2⟩ := q
  subst hr
  cases q1 with
  | error e => rfl
  | ok b =>
    simp only
    by_cases hb : b = 0
    · rw [if_neg (not_not_intro hb), if_neg (not_not_intro hb)]
    · rw [if_pos hb, if_pos hb]

/-- C99: writing a byte. -/
theorem C99_write_byte (asynchronous : Bool) (size : Nat) (zlp : Bool) (hs : 1 < size) (d : BusDevices) (hd : d.Sized)
    (width addr reg data : Int) (hw : 0 ≤ width) (log : List BusTxn) :
    let r := writeByteData (bridgeDev d) width addr reg data ⟨[], [], log⟩
    writeByteData (usbBusDev asynchronous size zlp d) width addr reg data ⟨[], [], log, false⟩ =
      (r.1, ⟨[], [], r.2.log, false⟩) := by
  intro r
  have h := C99_write_block asynchronous size zlp hs d hd width addr reg hw [data] log
  have hr : r = writeByteData (bridgeDev d) width addr reg data ⟨[], [], log⟩ := rfl
  clear_value r
  unfold writeByteData at hr ⊢
  simp only at h
  rw [h]
  generalize writeBlockData (bridgeDev d) width addr reg [data] ⟨[], [], log⟩ = q at *
  obtain ⟨q1, q2⟩ := q
  subst hr
  cases q1 <;> rfl

/-- C99: a block read over an endpoint has the same result and the same transactions as over a byte connection and leaves
nothing unread, whatever the address, width and register. Missing: a length of zero (C36) and lengths that are a multiple of
the packet size if the device ends these with an empty packet, see `C99_read_block_refuted`. -/
theorem C99_read_block_partial (asynchronous : Bool) (size : Nat) (zlp : Bool) (hs : 1 < size) (d : BusDevices)
    (hd : d.Sized) (width addr reg length : Int) (hw : 0 ≤ width) (hl : 0 < length ∧ length ≤ 255)
    (hz : zlp = false ∨ length.toNat % size ≠ 0) (log : List BusTxn) :
    let r := readBlockData (bridgeDev d) width addr reg length ⟨[], [], log⟩
    readBlockData (usbBusDev asynchronous size zlp d) width addr reg length ⟨[], [], log, false⟩ =
      (r.1, ⟨[], [], r.2.log, false⟩) := by
  by_cases hf : 0 ≤ addr ∧ addr ≤ 127 ∧ 0 ≤ width / 8 ∧ width / 8 ≤ 255
  · intro r
    have hr : r = _ := C37_read_block d hd ⟨[], [], log⟩ rfl rfl width addr reg length hw (by omega) (by omega) (by omega)
    clear_value r
    have h := usb_request_write asynchronous size zlp d hd hs addr (regAddrArray width reg) log
    have hreq := request_write d hd ⟨[], [], log⟩ rfl rfl addr (regAddrArray width reg) (by omega)
      (by have := regAddrArray_size width reg hw; rw [regAddrSize] at this; omega) (regAddrArray_range _ _)
    rw [regAddrArray_size width reg hw] at h hreq
    rw [regAddrArray_be] at hreq
    simp only at h hreq hr
    rw [hreq] at h
    obtain ⟨h1, _⟩ := h
    unfold readBlockData
    rw [h1, hr]
    generalize ht : BusTxn.write addr.toNat (beBytes (width / 8).toNat reg) = t at *
    cases hsome : (d log t).isSome
    · simp
    · simp only [if_true, ne_eq, not_true_eq_false, if_false]
      generalize hlog : log ++ [t] = log' at *
      -- the read command
      have hm : (BitVec.ofInt 8 (addr * 2 + 1)).toNat = addr.toNat * 2 + 1 := by
        rw [BitVec.toNat_ofInt]; omega
      have hn : (BitVec.ofInt 8 length).toNat = length.toNat := by
        rw [BitVec.toNat_ofInt]; omega
      have hrd := bridge_read d ⟨[], [], log'⟩ (BitVec.ofInt 8 (addr * 2 + 1)) (BitVec.ofInt 8 length) rfl (by omega)
      rw [hm, hn, show (addr.toNat * 2 + 1) / 2 = addr.toNat by omega] at hrd
      have hu := usb_bridge_one size zlp d _ log' _ _ false hrd
      have hb : pyBytes [addr * 2 + 1, length] = some [BitVec.ofInt 8 (addr * 2 + 1), BitVec.ofInt 8 length] := by
        rw [pyBytes_some]
        · rfl
        · intro v hv
          simp only [List.mem_cons, List.not_mem_nil, or_false] at hv
          rcases hv with rfl | rfl <;> omega
      have hwr : (usbBusDev asynchronous size zlp d).write [BitVec.ofInt 8 (addr * 2 + 1), BitVec.ofInt 8 length]
          ⟨[], [], log', false⟩ = _ := hu
      unfold busRequest
      rw [hb]
      simp only
      rw [hwr]
      cases e : d log' (.read addr.toNat length.toNat) with
      | none =>
        simp only [replyMessages, List.flatMap_cons, List.flatMap_nil, usbPackets_one size zlp hs, List.append_nil]
        rw [usb_read_status asynchronous size zlp d hs]
        simp
      | some l =>
        have hsz : l.length = length.toNat := hd _ _ _ e
        match l, hsz with
        | [], hsz => simp at hsz; omega
        | b :: l, hsz =>
          simp only [replyMessages, List.flatMap_cons, List.flatMap_nil, usbPackets_one size zlp hs, List.append_nil,
            List.cons_append, List.nil_append]
          rw [usb_read_status asynchronous size zlp d hs]
          simp only [not_true_eq_false, if_false]
          have hrecv := C98_recv_partial asynchronous size zlp (by omega) (b :: l) (by simp) [] length.toNat
            (Or.inl ⟨hsz.symm, by rw [hsz]; exact hz⟩)
          rw [List.append_nil] at hrecv
          simp only [usbBusDev]
          rw [hrecv]
  · intro r
    have h1 := C37_read_rejected_partial (bridgeDev d) ⟨[], [], log⟩ width addr reg length hf
    have hr : r = _ := h1
    rw [hr]
    exact C37_read_rejected_partial _ _ width addr reg length hf

/-- C99: with packets of 512 bytes (high speed) every block read of the library works. -/
theorem C99_read_block_large (asynchronous : Bool) (size : Nat) (zlp : Bool) (hs : 256 ≤ size) (d : BusDevices)
    (hd : d.Sized) (width addr reg length : Int) (hw : 0 ≤ width) (hl : 0 < length ∧ length ≤ 255) (log : List BusTxn) :
    let r := readBlockData (bridgeDev d) width addr reg length ⟨[], [], log⟩
    readBlockData (usbBusDev asynchronous size zlp d) width addr reg length ⟨[], [], log, false⟩ =
      (r.1, ⟨[], [], r.2.log, false⟩) :=
  C99_read_block_partial asynchronous size zlp (by omega) d hd width addr reg length hw hl
    (Or.inr (by rw [Nat.mod_eq_of_lt (by omega)]; omega)) log

/-- C99: reading a byte. -/
theorem C99_read_byte (asynchronous : Bool) (size : Nat) (zlp : Bool) (hs : 1 < size) (d : BusDevices) (hd : d.Sized)
    (width addr reg : Int) (hw : 0 ≤ width) (log : List BusTxn) :
    let r := readByteData (bridgeDev d) width addr reg ⟨[], [], log⟩
    readByteData (usbBusDev asynchronous size zlp d) width addr reg ⟨[], [], log, false⟩ =
      (r.1, ⟨[], [], r.2.log, false⟩) := by
  intro r
  have h := C99_read_block_partial asynchronous size zlp hs d hd width addr reg 1 hw (by omega)
    (Or.inr (by rw [show Int.toNat 1 = 1 from rfl, Nat.mod_eq_of_lt hs]; omega)) log
  have hr : r = readByteData (bridgeDev d) width addr reg ⟨[], [], log⟩ := rfl
  clear_value r
  unfold readByteData at hr ⊢
  simp only at h
  rw [h]
  generalize readBlockData (bridgeDev d) width addr reg 1 ⟨[], [], log⟩ = q at *
  obtain ⟨q1, q2⟩ := q
  subst hr
  match q1 with
  | .error e => rfl
  | .ok none => rfl
  | .ok (some []) => rfl
  | .ok (some (b :: l)) => rfl

theorem usb_discoverLoop (asynchronous : Bool) (size : Nat) (zlp : Bool) (hs : 1 < size) (d : BusDevices) (hd : d.Sized)
    (n : Nat) : ∀ (a : Nat) (log : List BusTxn),
    discoverLoop (usbBusDev asynchronous size zlp d) n a ⟨[], [], log, false⟩ =
      ((discoverLoop (bridgeDev d) n a ⟨[], [], log⟩).1,
        ⟨[], [], (discoverLoop (bridgeDev d) n a ⟨[], [], log⟩).2.log, false⟩) := by
  induction n with
  | zero => intro a log; rfl
  | succ n ih =>
    intro a log
    have h := usb_request_write asynchronous size zlp d hd hs a [] log
    simp only [List.length_nil, List.append_nil, Int.natCast_zero] at h
    obtain ⟨h1, h2⟩ := h
    rw [discoverLoop, discoverLoop, h1]
    generalize busRequest (bridgeDev d) [(a : Int) * 2, 0] ⟨[], [], log⟩ = q at *
    obtain ⟨q1, q2⟩ := q
    cases q1 with
    | error e => rfl
    | ok b =>
      simp only at h2
      simp only [pyBind]
      rw [ih, h2]
      simp only
      generalize discoverLoop (bridgeDev d) n (a + 1) ⟨[], [], q2.log⟩ = w
      obtain ⟨w1, w2⟩ := w
      cases w1 <;> rfl

/-- C99: discovery over an endpoint returns and prints the same and leaves nothing unread. -/
theorem C99_discover (asynchronous : Bool) (size : Nat) (zlp : Bool) (hs : 1 < size) (d : BusDevices) (hd : d.Sized)
    (log : List BusTxn) :
    discover (usbBusDev asynchronous size zlp d) ⟨[], [], log, false⟩ =
      (.ok ((List.range 128).filter (probeAck d log 0), (List.range 128).flatMap (busMap (probeAck d log 0))),
        ⟨[], [], log ++ probes 0 128, false⟩) := by
  have h := usb_discoverLoop asynchronous size zlp hs d hd 128 0 log
  have h37 := C37_discover d hd log
  unfold discover at h37 ⊢
  rw [h, h37]

theorem logMessages_probes (d : BusDevices) (hd : d.Sized) (n : Nat) : ∀ (a : Nat) (log : List BusTxn),
    logMessages d log (probes a n) =
      (List.range' a n).map fun k => [if probeAck d log a k then (0 : BitVec 8) else 1] := by
  induction n with
  | zero => intro a log; rfl
  | succ n ih =>
    intro a log
    have hp : probes a (n + 1) = .write a [] :: probes (a + 1) n := by simp [probes, List.range'_succ]
    have hm : replyMessages (d log (.write a [])) = [[if probeAck d log a a then 0 else 1]] := by
      have hs : (d log (.write a [])).isSome = probeAck d log a a := by simp [probeAck, probes]
      rw [← hs]
      cases e : d log (.write a []) with
      | none => rfl
      | some l =>
        have : l = [] := List.length_eq_zero_iff.mp (hd _ _ _ e)
        subst this
        rfl
    rw [hp, logMessages, ih, hm, List.range'_succ, List.map_cons]
    have hstep : ∀ k ∈ List.range' (a + 1) n,
        [if probeAck d (log ++ [.write a []]) (a + 1) k then (0 : BitVec 8) else 1] =
          [if probeAck d log a k then 0 else 1] := by
      intro k hk
      rw [List.mem_range'_1] at hk
      unfold probeAck
      rw [show k - a = k - (a + 1) + 1 by omega]
      simp [probes, List.range'_succ]
    rw [List.map_congr_left hstep]
    rfl

theorem usb_discoverQueue (asynchronous : Bool) (size : Nat) (zlp : Bool) (hs : 1 < size) (d : BusDevices)
    (hd : d.Sized) (log : List BusTxn) (n : Nat) (hn : n + 1 ≤ 128) :
    (usbBusDev asynchronous size zlp d).read 128 ((usbBusDev asynchronous size zlp d).write
        ((List.range (n + 1)).flatMap fun k => [BitVec.ofNat 8 (k * 2), (0 : BitVec 8)]) ⟨[], [], log, false⟩) =
      ([if probeAck d log 0 0 then 0 else 1],
        ⟨[], (List.range' 1 n).map fun k => [if probeAck d log 0 k then 0 else 1], log ++ probes 0 (n + 1), false⟩) := by
  have hb := bridge_probes d hd (n + 1) 0 [] log (by omega)
  rw [← List.range_eq_range'] at hb
  obtain ⟨ts, h1, h2⟩ := usb_bridge_bytes size zlp d
    ((List.range (n + 1)).flatMap fun k => [BitVec.ofNat 8 (k * 2), (0 : BitVec 8)]) [] [] [] log false
  rw [hb] at h1 h2
  simp only at h1 h2
  have hts : ts = probes 0 (n + 1) := (List.append_cancel_left h1).symm
  subst hts
  have hpk : ∀ l : List Nat, (l.map fun k => [if probeAck d log 0 k then (0 : BitVec 8) else 1]).flatMap
      (usbPackets size zlp) = l.map fun k => [if probeAck d log 0 k then (0 : BitVec 8) else 1] := by
    intro l
    induction l with
    | nil => rfl
    | cons k l ih => rw [List.map_cons, List.flatMap_cons, ih, usbPackets_one size zlp hs]; rfl
  rw [logMessages_probes d hd, hpk, List.nil_append, List.range'_succ, List.map_cons, Nat.zero_add] at h2
  simp only [usbBusDev]
  rw [h2]
  simp only [usbRecv, bulkIn, List.length_cons, List.length_nil, Nat.zero_add]
  rw [if_neg (show ¬ (128 < 1) by omega), if_pos (Or.inl hs)]
  cases asynchronous <;> rfl

/-- C99 does not hold for `discover_queue`: whatever the devices are, the read of 128 bytes ends with the first status; the
printed map has one address only, and 127 packets are left for the following calls. -/
theorem C99_discover_queue_refuted (asynchronous : Bool) (size : Nat) (zlp : Bool) (hs : 1 < size) (d : BusDevices)
    (hd : d.Sized) (log : List BusTxn) :
    let r := discoverQueue (usbBusDev asynchronous size zlp d) ⟨[], [], log, false⟩
    r.1 = .ok (busMap (probeAck d log 0) 0) ∧ r.2.packets.length = 127 ∧ r.2.log = log ++ probes 0 128 := by
  intro r
  have h : r = discoverQueue (usbBusDev asynchronous size zlp d) ⟨[], [], log, false⟩ := rfl
  clear_value r
  unfold discoverQueue at h
  rw [pyBytes_probes] at h
  simp only at h
  rw [usb_discoverQueue asynchronous size zlp hs d hd log 127 (by omega)] at h
  subst h
  refine ⟨?_, by simp, rfl⟩
  cases hp : probeAck d log 0 0 <;> simp [busToks, busMap, hp]

/-- C99 does not hold for reads of 64 bytes with packets of 64 bytes (full speed) and a device that ends messages with an
empty packet: the read returns the data, but the next call of the library raises an `IndexError` although the write was
executed. -/
theorem C99_read_block_refuted :
    let dev := usbBusDev true 64 true demoDevices
    let r := readBlockData dev 8 0x50 0x10 64 ⟨[], [], [], false⟩
    r.1 = .ok (some (List.replicate 64 7)) ∧
    (writeBlockData dev 8 0x50 0x10 [1] r.2).1 = .error .indexError ∧
    (writeBlockData dev 8 0x50 0x10 [1] r.2).2.log = r.2.log ++ [.write 0x50 [0x10, 1]] :=
  ⟨rfl, rfl, rfl⟩

example : readBlockData (usbBusDev false 64 true demoDevices) 8 0x50 0x10 3 ⟨[], [], [], false⟩ =
    (.ok (some [7, 7, 7]), ⟨[], [], [.write 0x50 [0x10], .read 0x50 3], false⟩) := rfl
example : writeBlockData (usbBusDev true 64 true demoDevices) 8 0x51 0x10 [1] ⟨[], [], [], false⟩ =
    (.ok none, ⟨[], [], [.write 0x51 [0x10, 1]], false⟩) := rfl

end Lambdalib
