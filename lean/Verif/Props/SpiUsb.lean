import Verif.Lemmas.SpiUsb
import Verif.Props.SpiMaster

/-! C110: `exchange` of the host library over the SPI bridge of the examples. -/

namespace Lambdalib

section
variable (nb div csDelay : Nat) (perPacket : Bool) (size : Nat) (ds : List (List Nat)) (i : Nat → SpiMstIn)

/-- Number of bytes of the first `k` buffers. -/
def usbTotal (k : Nat) : Nat := ((ds.take k).map List.length).sum

/-- A host program that calls `exchange` with the buffers `ds`, seen from the streams of the USB device: the words that it sends come
in order; those of a buffer come at some time if the answers to all buffers before have been given; a word that is offered stays
until it is taken; and the IN endpoint takes the answers (the host reads all the time, as it does in asynchronous mode). -/
structure SpiUsbRun : Prop where
  offers : ∀ n, (i n).dValid = true → (usbOutBeats perPacket size ds)[(mstAcc 8 nb div csDelay i n).length]? = some ((i n).dLast, (i n).dData)
  calls : ∀ n k, k < ds.length → (mstAcc 8 nb div csDelay i n).length < usbTotal ds (k + 1) →
    usbTotal ds k ≤ (mstGot 8 nb div csDelay i n).length → ∃ m, n ≤ m ∧ (i m).dValid = true
  holds : ∀ n, (i n).dValid = true → ((spiMst 8 nb div csDelay).wave i n).str.dReady = false → (i (n + 1)).dValid = true
  takes : ∀ n, ∃ m, n ≤ m ∧ (i m).dReady = true ∧ (i m).avail = true

theorem usbTotal_le {j k : Nat} (h : j ≤ k) : usbTotal ds j ≤ usbTotal ds k := by
  unfold usbTotal
  have : ds.take j = (ds.take k).take j := by rw [List.take_take, Nat.min_eq_left h]
  rw [this]
  conv => rhs; rw [← List.take_append_drop j (ds.take k), List.map_append, List.sum_append]
  omega

theorem usbOutBeats_append (a b : List (List Nat)) :
    usbOutBeats perPacket size (a ++ b) = usbOutBeats perPacket size a ++ usbOutBeats perPacket size b := by
  simp [usbOutBeats]

theorem spiPacket_length (p : List Nat) : (spiPacket p).length = p.length := by
  rw [← List.length_map (f := Prod.snd), spiPacket_snd]

theorem usbOutBeats_snd : (usbOutBeats perPacket size ds).map Prod.snd = ds.flatten := by
  induction ds with
  | nil => rfl
  | cons d ds ih =>
    rw [show d :: ds = [d] ++ ds from rfl, usbOutBeats_append, List.map_append, ih]
    congr 1
    simp only [usbOutBeats, List.flatMap_cons, List.flatMap_nil, List.append_nil, List.map_flatten, List.map_map]
    rw [show (List.map Prod.snd ∘ spiPacket) = id from funext spiPacket_snd, List.map_id, usbOutPackets_flatten]

theorem usbOutBeats_length : (usbOutBeats perPacket size ds).length = usbTotal ds ds.length := by
  rw [← List.length_map (f := Prod.snd), usbOutBeats_snd, List.length_flatten]
  simp [usbTotal]

theorem usbOutBeats_take (k : Nat) :
    (usbOutBeats perPacket size ds).take (usbTotal ds k) = usbOutBeats perPacket size (ds.take k) := by
  conv => lhs; rw [← List.take_append_drop k ds, usbOutBeats_append]
  have : (usbOutBeats perPacket size (ds.take k)).length = usbTotal ds k := by
    rw [usbOutBeats_length]; unfold usbTotal; rw [List.take_length]
  rw [List.take_append_drop]
  exact List.take_left' this

/-- The last word of buffers has `last`. -/
theorem usbOutBeats_last (hs : 0 < size) (h : ∀ d ∈ ds, d ≠ []) (hne : ds ≠ []) :
    ∃ A d, usbOutBeats perPacket size ds = A ++ [(true, d)] := by
  obtain ⟨ds', d, rfl⟩ : ∃ l d, ds = l ++ [d] := by simpa using (List.eq_nil_or_concat ds).resolve_left hne
  have hd := h d (by simp)
  have hp : usbOutPackets perPacket size d ≠ [] := by
    intro e
    have := usbOutPackets_flatten perPacket size d
    rw [e] at this
    exact hd this.symm
  obtain ⟨ps, p, hpp⟩ : ∃ l p, usbOutPackets perPacket size d = l ++ [p] := by simpa using (List.eq_nil_or_concat (usbOutPackets perPacket size d)).resolve_left hp
  have hpe : p ≠ [] := usbOutPackets_ne perPacket size hs d hd p (by rw [hpp]; simp)
  obtain ⟨q, x, rfl⟩ : ∃ l x, p = l ++ [x] := by simpa using (List.eq_nil_or_concat p).resolve_left hpe
  refine ⟨usbOutBeats perPacket size ds' ++ (ps.map spiPacket).flatten ++ q.map (fun d => (false, d)), x, ?_⟩
  rw [usbOutBeats_append]
  simp [usbOutBeats, hpp, spiPacket_snoc]

variable {nb div csDelay perPacket size ds i}

theorem SpiUsbRun.acc_take (hr : SpiUsbRun nb div csDelay perPacket size ds i) (n : Nat) :
    mstAcc 8 nb div csDelay i n = (usbOutBeats perPacket size ds).take (mstAcc 8 nb div csDelay i n).length := by
  induction n with
  | zero => rfl
  | succ n ih =>
    have hsucc : mstAcc 8 nb div csDelay i (n + 1) = mstAcc 8 nb div csDelay i n ++
      (if (i n).dValid && ((spiMst 8 nb div csDelay).wave i n).str.dReady then [((i n).dLast, (i n).dData)] else []) := rfl
    rw [hsucc]
    split
    · rename_i h
      simp only [Bool.and_eq_true] at h
      have ho := hr.offers n h.1
      rw [List.length_append, List.length_cons, List.length_nil, Nat.zero_add]
      obtain ⟨hlt, hge⟩ := List.getElem?_eq_some_iff.mp ho
      rw [List.take_succ_eq_append_getElem hlt, ← ih, hge]
    · rw [List.append_nil]; exact ih

theorem mst_acc_mono (W nb div csDelay : Nat) (i : Nat → SpiMstIn) (n k : Nat) :
    mstAcc W nb div csDelay i n <+: mstAcc W nb div csDelay i (n + k) :=
  transferred_prefix _ _ _ n k

theorem mst_got_mono (W nb div csDelay : Nat) (i : Nat → SpiMstIn) (n k : Nat) :
    mstGot W nb div csDelay i n <+: mstGot W nb div csDelay i (n + k) :=
  transferred_prefix _ _ _ n k

/-- When the chip is not selected, as many words have been given as taken. -/
theorem mst_even (hc : SpiMstCfg 8 nb) (n : Nat) (h : mstCsN 8 nb div csDelay i n = true) :
    (mstGot 8 nb div csDelay i n).length = (mstAcc 8 nb div csDelay i n).length := by
  obtain ⟨xs, _, h2, _, h4, h5⟩ := C109_exchange 8 nb div csDelay i hc n h
  rw [h2, h4, List.length_flatten, List.length_flatten, List.map_map, List.map_map]
  congr 1
  apply List.map_congr_left
  intro x hx
  simp only [Function.comp, spiPacket_length]
  exact h5 x hx

/-- Once the words of the first `k` buffers have been taken, there is a time without selection with exactly these. -/
theorem SpiUsbRun.rest (hc : SpiMstCfg 8 nb) (hs : 0 < size) (hd : ∀ d ∈ ds, d ≠ [])
    (hr : SpiUsbRun nb div csDelay perPacket size ds i) (k n : Nat) (h : (mstAcc 8 nb div csDelay i n).length = usbTotal ds k) :
    ∃ m, mstCsN 8 nb div csDelay i m = true ∧ mstAcc 8 nb div csDelay i m = usbOutBeats perPacket size (ds.take k) := by
  have ha := hr.acc_take n
  rw [h, usbOutBeats_take] at ha
  cases hk : ds.take k with
  | nil =>
    refine ⟨0, ?_, rfl⟩
    rw [mst_csn]
    rfl
  | cons d l =>
    rw [hk] at ha
    obtain ⟨A, x, hx⟩ := usbOutBeats_last perPacket size (d :: l) hs (by
      intro e he
      rw [← hk] at he
      exact hd e (List.mem_of_mem_take he)) (by simp)
    obtain ⟨m, h1, h2⟩ := C109_answered 8 nb div csDelay i hc hr.takes n A x (by rw [ha, hx])
    exact ⟨m, h1, by rw [h2, ha]⟩

theorem mst_acc_reach (W nb div csDelay : Nat) (i : Nat → SpiMstIn) (j n : Nat) (h : j ≤ (mstAcc W nb div csDelay i n).length) :
    ∃ m, (mstAcc W nb div csDelay i m).length = j := by
  induction n with
  | zero => exact ⟨0, by simp [mstAcc, transferred] at h ⊢; omega⟩
  | succ n ih =>
    have hsucc : mstAcc W nb div csDelay i (n + 1) = mstAcc W nb div csDelay i n ++
      (if (i n).dValid && ((spiMst W nb div csDelay).wave i n).str.dReady then [((i n).dLast, (i n).dData)] else []) := rfl
    by_cases hj : j ≤ (mstAcc W nb div csDelay i n).length
    · exact ih hj
    · refine ⟨n + 1, ?_⟩
      rw [hsucc] at h ⊢
      rw [List.length_append] at h ⊢
      split at h <;> rename_i hif
      · rw [if_pos hif]; simp at h ⊢; omega
      · simp at h; omega

theorem SpiUsbRun.all (hc : SpiMstCfg 8 nb) (hs : 0 < size) (hd : ∀ d ∈ ds, d ≠ [])
    (hr : SpiUsbRun nb div csDelay perPacket size ds i) (j : Nat) (hj : j ≤ usbTotal ds ds.length) :
    ∃ n, (mstAcc 8 nb div csDelay i n).length = j := by
  induction j with
  | zero => exact ⟨0, rfl⟩
  | succ j ih =>
    obtain ⟨n, hn⟩ := ih (by omega)
    obtain ⟨k, hk, h1, h2⟩ : ∃ k, k < ds.length ∧ usbTotal ds k ≤ j ∧ j < usbTotal ds (k + 1) := by
      have : ∀ K, K ≤ ds.length → j < usbTotal ds K → ∃ k, k < ds.length ∧ usbTotal ds k ≤ j ∧ j < usbTotal ds (k + 1) := by
        intro K
        induction K with
        | zero => intro _ h; simp [usbTotal] at h
        | succ K ihK =>
          intro hK h
          by_cases hlt : j < usbTotal ds K
          · exact ihK (by omega) hlt
          · exact ⟨K, by omega, by omega, h⟩
      exact this ds.length (Nat.le_refl _) (by omega)
    obtain ⟨n0, hn0⟩ := mst_acc_reach 8 nb div csDelay i (usbTotal ds k) n (by omega)
    obtain ⟨m, hm1, hm2⟩ := hr.rest hc hs hd k n0 hn0
    have hg : usbTotal ds k ≤ (mstGot 8 nb div csDelay i (m + n)).length := by
      have e1 := mst_even hc m hm1
      have e2 := (mst_got_mono 8 nb div csDelay i m n).length_le
      have e3 : (usbOutBeats perPacket size (ds.take k)).length = usbTotal ds k := by
        rw [usbOutBeats_length]; unfold usbTotal; rw [List.take_length]
      rw [hm2, e3] at e1
      omega
    by_cases hgt : (mstAcc 8 nb div csDelay i (m + n)).length < usbTotal ds (k + 1)
    · obtain ⟨m', hm', hv⟩ := hr.calls (m + n) k hk hgt hg
      obtain ⟨m2, hm2, hv2, hr2⟩ := C109_accepted 8 nb div csDelay i hc hr.takes m' (by
        intro q hq hno
        induction q, hq using Nat.le_induction with
        | base => exact hv
        | succ q hq ihq =>
          exact hr.holds q (ihq fun k h1 h2 => hno k h1 (by omega)) (hno q hq (by omega)))
      apply mst_acc_reach 8 nb div csDelay i (j + 1) (m2 + 1)
      have hsucc : mstAcc 8 nb div csDelay i (m2 + 1) = mstAcc 8 nb div csDelay i m2 ++
        (if (i m2).dValid && ((spiMst 8 nb div csDelay).wave i m2).str.dReady then [((i m2).dLast, (i m2).dData)] else []) := rfl
      rw [hsucc, hv2, hr2]
      have := (mst_acc_mono 8 nb div csDelay i n (m2 - n)).length_le
      rw [show n + (m2 - n) = m2 by omega, hn] at this
      simp
      omega
    · exact mst_acc_reach 8 nb div csDelay i (j + 1) (m + n) (by omega)

/-- **C110.** A program that calls `exchange` with buffers, over the SPI bridge with a device on its pins, ends: there is a time when the
chip is not selected and exactly the words of all buffers have been taken. The device has then seen the packets of the buffers, each in
one selection, and the calls return what the device answered, each as many bytes as it was given. Missing: buffers of more than a
packet if full packets are followed by empty ones, see `C110_empty_packets_refuted`. -/
theorem C110_exchange_partial (hc : SpiMstCfg 8 nb) (hs : 0 < size) (asynchronous zlp : Bool)
    (hd : ∀ d ∈ ds, UsbFits perPacket size zlp d) (D : SpiDevice) (hr : SpiUsbRun nb div csDelay perPacket size ds i)
    (hD : ∀ n, D.On (mstCsN 8 nb div csDelay i) (mstClk 8 nb div csDelay i) (mstDq 8 nb div csDelay i) n) :
    ∃ n, mstCsN 8 nb div csDelay i n = true ∧ mstAcc 8 nb div csDelay i n = usbOutBeats perPacket size ds ∧
      (mstSess 8 nb div csDelay i n).map (List.map Prod.fst) = (ds.flatMap (usbOutPackets perPacket size)).map (spiSent 8 nb) ∧
      usbRecvAll asynchronous size (ds.map List.length)
        ((usbMessages (mstGot 8 nb div csDelay i n)).flatMap (usbPackets size zlp)) =
        (some (D.buffers nb perPacket size [] ds), []) ∧
      (D.buffers nb perPacket size [] ds).map List.length = ds.map List.length := by
  have hne : ∀ d ∈ ds, d ≠ [] := fun d h => (hd d h).1
  have hT := link_T 8 nb 8 hc.link
  obtain ⟨n0, hn0⟩ := hr.all hc hs hne _ (Nat.le_refl _)
  obtain ⟨n, h1, h2⟩ := hr.rest hc hs hne ds.length n0 hn0
  rw [List.take_length] at h2
  obtain ⟨ps, p1, p2, p3, p4⟩ := C109_device 8 nb div csDelay i hc D n h1 (hD n)
  have hps : ps = ds.flatMap (usbOutPackets perPacket size) := by
    apply spiPackets_inj ps _ p1
    · intro p hp
      obtain ⟨d, hd1, hd2⟩ := List.mem_flatMap.mp hp
      exact usbOutPackets_ne perPacket size hs d (hne d hd1) p hd2
    · rw [← p2, h2]; rfl
  subst hps
  refine ⟨n, h1, h2, ?_, ?_, D.buffers_lengths nb hT perPacket size ds []⟩
  · rw [p3]
    unfold SpiDevice.sessions
    rw [List.map_map]
    conv => rhs; rw [← List.zipIdx_map_fst 0 (List.map (spiSent 8 nb) _)]
    apply List.map_congr_left
    intro p _
    simp only [Function.comp, SpiDevice.session, List.map_map]
    conv => rhs; rw [← List.zipIdx_map_fst 0 p.1]
    rfl
  · have : (D.sessions ((ds.flatMap (usbOutPackets perPacket size)).map (spiSent 8 nb))).map
        (fun s => spiPacket (spiAnswer 8 nb (s.map Prod.snd))) =
        (D.answers 8 nb [] (ds.flatMap (usbOutPackets perPacket size))).map spiPacket := by
      rw [← D.answers_sessions, List.map_map]; rfl
    rw [p4, this, usbMessages_packets]
    · exact usb_recv_buffers D nb hT asynchronous perPacket zlp size hs ds hd []
    · intro p hp e
      subst e
      have h0 : (0 : Nat) ∈ (D.answers 8 nb [] (ds.flatMap (usbOutPackets perPacket size))).map List.length :=
        List.mem_map.mpr ⟨[], hp, rfl⟩
      rw [D.answers_lengths 8 nb hT] at h0
      obtain ⟨q, hq, hq0⟩ := List.mem_map.mp h0
      obtain ⟨d, hd1, hd2⟩ := List.mem_flatMap.mp hq
      exact usbOutPackets_ne perPacket size hs d (hne d hd1) q hd2 (List.length_eq_zero_iff.mp hq0)

theorem usbOutPackets_single (hs : 0 < size) (d : List Nat) (hd : d ≠ []) (h : perPacket = false ∨ d.length ≤ size) :
    usbOutPackets perPacket size d = [d] := by
  unfold usbOutPackets
  cases perPacket with
  | false => rfl
  | true => exact usbPackets_full size hs d hd (by simpa using h)

theorem usbOutPackets_many (hs : 0 < size) (d : List Nat) (h : size < d.length) :
    1 < (usbOutPackets true size d).length := by
  have hne : d ≠ [] := by intro e; subst e; simp at h
  have h1 := usbOutPackets_flatten true size d
  have h2 := usbPackets_length size hs d
  rw [show usbPackets size false d = usbOutPackets true size d from rfl] at h2
  match hm : usbOutPackets true size d with
  | [] => rw [hm] at h1; exact absurd h1.symm hne
  | [p] =>
    rw [hm] at h1 h2
    have := (h2 p (by simp)).2
    rw [show p = d by simpa using h1] at this
    omega
  | _ :: _ :: _ => simp

/-- **C110.** If no buffer is longer than a packet, each is exchanged in one selection. Missing: longer ones, see
`C110_one_selection_refuted`. -/
theorem C110_one_selection_partial (hc : SpiMstCfg 8 nb) (hs : 0 < size) (hd : ∀ d ∈ ds, d ≠ [])
    (hl : ∀ d ∈ ds, if perPacket then d.length ≤ size else d.length % size ≠ 0) (D : SpiDevice)
    (hr : SpiUsbRun nb div csDelay perPacket size ds i)
    (hD : ∀ n, D.On (mstCsN 8 nb div csDelay i) (mstClk 8 nb div csDelay i) (mstDq 8 nb div csDelay i) n) :
    ∃ n, mstCsN 8 nb div csDelay i n = true ∧ (mstAcc 8 nb div csDelay i n).map Prod.snd = ds.flatten ∧
      (mstSess 8 nb div csDelay i n).map (List.map Prod.fst) = ds.map (spiSent 8 nb) := by
  obtain ⟨n, h1, h2, h3, _⟩ := C110_exchange_partial hc hs true false (fun d h => ⟨hd d h, by
    have := hl d h
    split <;> simp_all⟩) D hr hD
  refine ⟨n, h1, by rw [h2, usbOutBeats_snd], ?_⟩
  rw [h3]
  congr 1
  have : ∀ l : List (List Nat), (∀ d ∈ l, usbOutPackets perPacket size d = [d]) → l.flatMap (usbOutPackets perPacket size) = l := by
    intro l
    induction l with
    | nil => intro _; rfl
    | cons d l ih => intro h; rw [List.flatMap_cons, h d (by simp), ih fun d hd => h d (by simp [hd])]; rfl
  apply this
  intro d h
  refine usbOutPackets_single hs d (hd d h) ?_
  have := hl d h
  cases perPacket with
  | false => exact .inl rfl
  | true => exact .inr (by simpa using this)

/-- **C110 is refuted** for longer buffers if empty packets follow messages of full packets: `exchange` returns fewer bytes than it was
given, and leaves packets unread. -/
theorem C110_empty_packets_refuted (hc : SpiMstCfg 8 nb) (hs : 0 < size) (asynchronous : Bool) (d : List Nat) (h : size < d.length)
    (D : SpiDevice) : ∃ a rest, a.length = size ∧ rest ≠ [] ∧
    usbRecv asynchronous size (some d.length) ((D.answers 8 nb [] (usbOutPackets true size d)).flatMap (usbPackets size true)) =
      (some (.ok a), rest) := by
  have hT := link_T 8 nb 8 hc.link
  have hl := D.answers_lengths 8 nb hT [] (usbOutPackets true size d)
  have h1 := usbOutPackets_many hs d h
  have hp : usbOutPackets true size d = d.take size :: usbCut size false (d.length / size - 1) (d.drop size) := by
    rw [usbOutPackets, if_pos rfl, usbPackets, if_neg (by
      intro e
      rw [List.isEmpty_iff.mp e] at h
      simp at h)]
    obtain ⟨k, hk⟩ : ∃ k, d.length / size = k + 1 := ⟨d.length / size - 1, by
      have := Nat.div_pos (Nat.le_of_lt h) hs
      omega⟩
    rw [hk]
    rfl
  match hm : D.answers 8 nb [] (usbOutPackets true size d) with
  | [] => rw [hm, hp] at hl; simp at hl
  | [a] =>
    rw [hm] at hl
    have := congrArg List.length hl
    simp at this
    omega
  | a :: b :: l =>
    rw [hm, hp] at hl
    simp only [List.map_cons, List.cons.injEq] at hl
    have ha : a.length = size := by rw [hl.1, List.length_take]; omega
    have hb : b ≠ [] := by
      intro e
      subst e
      have : ([] : List Nat) ∈ usbCut size false (d.length / size - 1) (d.drop size) := by
        match hx : usbCut size false (d.length / size - 1) (d.drop size) with
        | [] => rw [hx] at hl; simp at hl
        | x :: _ =>
          rw [hx] at hl
          simp only [List.map_cons, List.cons.injEq, List.length_nil] at hl
          rw [List.length_eq_zero_iff.mp hl.2.1.symm]
          simp
      have hh := usbPackets_length size hs d [] (by
        rw [show usbPackets size false d = usbOutPackets true size d from rfl, hp]
        simp [this])
      exact hh.1 rfl
    have hane : a ≠ [] := by intro e; subst e; simp at ha; omega
    refine ⟨a, (b :: l).flatMap (usbPackets size true), ha, ?_, ?_⟩
    · rw [List.flatMap_cons]
      intro e
      have := (List.append_eq_nil_iff.mp e).1
      unfold usbPackets at this
      rw [if_neg (by simpa using hb)] at this
      cases hq : b.length / size <;> rw [hq] at this <;> simp [usbCut] at this
    · rw [List.flatMap_cons]
      exact C98_recv_partial asynchronous size true hs a hane _ d.length (Or.inr ⟨by omega, Or.inl rfl⟩)

end

/-! There are such executions. -/

section
variable (nb div csDelay : Nat) (perPacket : Bool) (size : Nat) (ds : List (List Nat)) (D : SpiDevice)

/-- The streams of a host that has sent `c` words and got `g`, and sends a buffer when it has the answers to those before. -/
def spiHostIn (c g : Nat) : SpiMstIn :=
  let b := (usbOutBeats perPacket size ds)[c]?
  ⟨b.isSome && (List.range ds.length).any fun k => decide (c < usbTotal ds (k + 1)) && decide (usbTotal ds k ≤ g),
    (b.getD (false, 0)).1, (b.getD (false, 0)).2, true, true, 0⟩

/-- The bridge with host and device: state, selections and previous pins as in `mstClose`, words sent and got. -/
def spiHostRun : Nat → (SpiMstS × List (List (Nat × Nat)) × Bool × Bool) × Nat × Nat
  | 0 => (((spiMst 8 nb div csDelay).reset, [], true, false), 0, 0)
  | n + 1 =>
    let r := (spiHostRun n).1
    let x := spiHostIn perPacket size ds (spiHostRun n).2.1 (spiHostRun n).2.2
    let o := ((spiMst 8 nb div csDelay).out r.1 x).phy
    let dq := devDrives D r.2.1 o.csN r.2.2.1
    let h := spiSelect (!o.csN && r.2.2.1) r.2.1
    let w := (spiMst 8 nb div csDelay).out r.1 (x.pins dq)
    (((spiMst 8 nb div csDelay).next r.1 (x.pins dq),
      (if !o.csN && (!r.2.2.2 && o.clk) then h.dropLast ++ [h.getLastD [] ++ [(o.dqO, dq)]] else h), o.csN, o.clk),
      (spiHostRun n).2.1 + (if (x.pins dq).dValid && w.str.dReady then 1 else 0),
      (spiHostRun n).2.2 + (if w.str.dValid && (x.pins dq).dReady then 1 else 0))

def spiHostU (n : Nat) : SpiMstIn :=
  spiHostIn perPacket size ds (spiHostRun nb div csDelay perPacket size ds D n).2.1 (spiHostRun nb div csDelay perPacket size ds D n).2.2

/-- The inputs of the bridge in this execution. -/
def spiHostWave : Nat → SpiMstIn := mstCloseIn 8 nb div csDelay D (spiHostU nb div csDelay perPacket size ds D)

theorem spi_host_close (n : Nat) : mstClose 8 nb div csDelay D (spiHostU nb div csDelay perPacket size ds D) n =
    (spiHostRun nb div csDelay perPacket size ds D n).1 := by
  induction n with
  | zero => rfl
  | succ n ih => rw [mstClose, ih]; rfl

theorem spi_host_counts (n : Nat) : (spiHostRun nb div csDelay perPacket size ds D n).2 =
    ((mstAcc 8 nb div csDelay (spiHostWave nb div csDelay perPacket size ds D) n).length,
      (mstGot 8 nb div csDelay (spiHostWave nb div csDelay perPacket size ds D) n).length) := by
  induction n with
  | zero => rfl
  | succ n ih =>
    have e1 : ∀ i : Nat → SpiMstIn, (mstAcc 8 nb div csDelay i (n + 1)).length = (mstAcc 8 nb div csDelay i n).length +
        (if (i n).dValid && ((spiMst 8 nb div csDelay).out ((spiMst 8 nb div csDelay).st i n) (i n)).str.dReady then 1 else 0) := by
      intro i
      have hsucc : mstAcc 8 nb div csDelay i (n + 1) = mstAcc 8 nb div csDelay i n ++
        (if (i n).dValid && ((spiMst 8 nb div csDelay).wave i n).str.dReady then [((i n).dLast, (i n).dData)] else []) := rfl
      rw [hsucc, List.length_append]
      change _ + (if (i n).dValid && ((spiMst 8 nb div csDelay).wave i n).str.dReady then _ else _ : List (Bool × Nat)).length =
        _ + (if (i n).dValid && ((spiMst 8 nb div csDelay).wave i n).str.dReady then 1 else 0)
      split <;> rfl
    have e2 : ∀ i : Nat → SpiMstIn, (mstGot 8 nb div csDelay i (n + 1)).length = (mstGot 8 nb div csDelay i n).length +
        (if ((spiMst 8 nb div csDelay).out ((spiMst 8 nb div csDelay).st i n) (i n)).str.dValid && (i n).dReady then 1 else 0) := by
      intro i
      have hsucc : mstGot 8 nb div csDelay i (n + 1) = mstGot 8 nb div csDelay i n ++
        (if ((spiMst 8 nb div csDelay).wave i n).str.dValid && (i n).dReady then
          [(((spiMst 8 nb div csDelay).wave i n).str.dLast, ((spiMst 8 nb div csDelay).wave i n).str.dData)] else []) := rfl
      rw [hsucc, List.length_append]
      change _ + (if ((spiMst 8 nb div csDelay).wave i n).str.dValid && (i n).dReady then _ else _ : List (Bool × Nat)).length =
        _ + (if ((spiMst 8 nb div csDelay).wave i n).str.dValid && (i n).dReady then 1 else 0)
      split <;> rfl
    have hst : (spiMst 8 nb div csDelay).st (spiHostWave nb div csDelay perPacket size ds D) n =
        (spiHostRun nb div csDelay perPacket size ds D n).1.1 := by
      have := congrArg Prod.fst (mst_close 8 nb div csDelay D (spiHostU nb div csDelay perPacket size ds D) n)
      rw [spi_host_close] at this
      exact this.symm
    have hin : spiHostWave nb div csDelay perPacket size ds D n = (spiHostU nb div csDelay perPacket size ds D n).pins
        (devDrives D (spiHostRun nb div csDelay perPacket size ds D n).1.2.1
          ((spiMst 8 nb div csDelay).out (spiHostRun nb div csDelay perPacket size ds D n).1.1
            (spiHostU nb div csDelay perPacket size ds D n)).phy.csN (spiHostRun nb div csDelay perPacket size ds D n).1.2.2.1) := by
      unfold spiHostWave mstCloseIn
      rw [spi_host_close]
    rw [e1, e2, hst, hin]
    have h1 := congrArg Prod.fst ih
    have h2 := congrArg Prod.snd ih
    simp only at h1 h2
    rw [← h1, ← h2]
    rfl

/-- **C110.** For every program and device there is such an execution, in which the host sends a buffer only when it has the answer to
the one before. -/
theorem C110_exists : SpiUsbRun nb div csDelay perPacket size ds (spiHostWave nb div csDelay perPacket size ds D) ∧
    (∀ n, D.On (mstCsN 8 nb div csDelay (spiHostWave nb div csDelay perPacket size ds D))
      (mstClk 8 nb div csDelay (spiHostWave nb div csDelay perPacket size ds D))
      (mstDq 8 nb div csDelay (spiHostWave nb div csDelay perPacket size ds D)) n) ∧
    ∀ n, (spiHostWave nb div csDelay perPacket size ds D n).dValid = true →
      ∃ k, k < ds.length ∧ (mstAcc 8 nb div csDelay (spiHostWave nb div csDelay perPacket size ds D) n).length < usbTotal ds (k + 1) ∧
        usbTotal ds k ≤ (mstGot 8 nb div csDelay (spiHostWave nb div csDelay perPacket size ds D) n).length := by
  have hcnt := spi_host_counts nb div csDelay perPacket size ds D
  have hv : ∀ n, (spiHostWave nb div csDelay perPacket size ds D n).dValid =
      (spiHostIn perPacket size ds (mstAcc 8 nb div csDelay (spiHostWave nb div csDelay perPacket size ds D) n).length
        (mstGot 8 nb div csDelay (spiHostWave nb div csDelay perPacket size ds D) n).length).dValid := by
    intro n
    have : (spiHostWave nb div csDelay perPacket size ds D n).dValid = (spiHostU nb div csDelay perPacket size ds D n).dValid := rfl
    rw [this, spiHostU, hcnt]
  have hk : ∀ n, (spiHostWave nb div csDelay perPacket size ds D n).dValid = true ↔
      ∃ k, k < ds.length ∧ (mstAcc 8 nb div csDelay (spiHostWave nb div csDelay perPacket size ds D) n).length < usbTotal ds (k + 1) ∧
        usbTotal ds k ≤ (mstGot 8 nb div csDelay (spiHostWave nb div csDelay perPacket size ds D) n).length := by
    intro n
    rw [hv]
    simp only [spiHostIn, Bool.and_eq_true, List.any_eq_true, List.mem_range, decide_eq_true_eq]
    constructor
    · rintro ⟨_, k, h1, h2, h3⟩
      exact ⟨k, h1, h2, h3⟩
    · rintro ⟨k, h1, h2, h3⟩
      refine ⟨?_, k, h1, h2, h3⟩
      rw [List.getElem?_eq_getElem (by
        rw [usbOutBeats_length]
        exact Nat.lt_of_lt_of_le h2 (usbTotal_le ds h1))]
      rfl
  refine ⟨⟨?_, ?_, ?_, ?_⟩, ?_, fun n h => (hk n).mp h⟩
  · intro n h
    rw [hv] at h
    have e1 : (spiHostWave nb div csDelay perPacket size ds D n).dLast = (spiHostU nb div csDelay perPacket size ds D n).dLast := rfl
    have e2 : (spiHostWave nb div csDelay perPacket size ds D n).dData = (spiHostU nb div csDelay perPacket size ds D n).dData := rfl
    rw [e1, e2, spiHostU, hcnt]
    simp only [spiHostIn, Bool.and_eq_true] at h ⊢
    obtain ⟨b, hb⟩ := Option.isSome_iff_exists.mp h.1
    rw [hb]
    rfl
  · intro n k h1 h2 h3
    exact ⟨n, Nat.le_refl _, (hk n).mpr ⟨k, h1, h2, h3⟩⟩
  · intro n h hr
    obtain ⟨k, h1, h2, h3⟩ := (hk n).mp h
    refine (hk (n + 1)).mpr ⟨k, h1, ?_, Nat.le_trans h3 (mst_got_mono 8 nb div csDelay _ n 1).length_le⟩
    have hsucc : ∀ i : Nat → SpiMstIn, mstAcc 8 nb div csDelay i (n + 1) = mstAcc 8 nb div csDelay i n ++
      (if (i n).dValid && ((spiMst 8 nb div csDelay).wave i n).str.dReady then [((i n).dLast, (i n).dData)] else []) := fun _ => rfl
    rw [hsucc, hr, Bool.and_false]
    simpa using h2
  · intro n
    exact ⟨n, Nat.le_refl _, rfl, rfl⟩
  · intro n
    exact mst_on 8 nb div csDelay D _ n

/-- **C110 is refuted** for longer buffers if the USB device marks the end of every packet: the chip is deselected in between. -/
theorem C110_one_selection_refuted (hc : SpiMstCfg 8 nb) (hs : 0 < size) (d : List Nat) (h : size < d.length) :
    ∃ i, SpiUsbRun nb div csDelay true size [d] i ∧
      (∀ n, D.On (mstCsN 8 nb div csDelay i) (mstClk 8 nb div csDelay i) (mstDq 8 nb div csDelay i) n) ∧
      ∃ n, (mstAcc 8 nb div csDelay i n).map Prod.snd = d ∧ 1 < (mstSess 8 nb div csDelay i n).length := by
  obtain ⟨h1, h2, _⟩ := C110_exists nb div csDelay true size [d] D
  refine ⟨_, h1, h2, ?_⟩
  obtain ⟨n, _, h4, h5, _⟩ := C110_exchange_partial hc hs true false (by
    intro e he
    obtain rfl : e = d := by simpa using he
    exact ⟨by intro e'; subst e'; simp at h, Or.inl rfl⟩) D h1 h2
  refine ⟨n, by rw [h4, usbOutBeats_snd]; simp, ?_⟩
  have := congrArg List.length h5
  rw [List.length_map, List.length_map, List.flatMap_cons, List.flatMap_nil, List.append_nil] at this
  rw [this]
  exact usbOutPackets_many hs d h

end

/-- Two buffers with packets of two bytes: what the shifting device answers. -/
example : spiShiftDev.buffers 1 true 2 [] [[165, 60, 7], [255]] = [[210, 158, 131], [255]] := by decide +kernel
example : ∀ d ∈ [[165, 60, 7], [255]], UsbFits true 2 false d := by
  intro d hd
  simp at hd
  rcases hd with rfl | rfl <;> exact ⟨by simp, Or.inl rfl⟩
example : UsbFits false 2 true [165, 60, 7] := ⟨by simp, by simp⟩
example : usbOutPackets true 2 [165, 60, 7] = [[165, 60], [7]] := rfl
/-- The example program sends three full packets in one call. -/
example : ∃ i, SpiUsbRun 1 1 8 true 512 [List.replicate 1536 0] i ∧
    (∀ n, spiShiftDev.On (mstCsN 8 1 1 8 i) (mstClk 8 1 1 8 i) (mstDq 8 1 1 8 i) n) ∧
    ∃ n, (mstAcc 8 1 1 8 i n).map Prod.snd = List.replicate 1536 0 ∧ 1 < (mstSess 8 1 1 8 i n).length :=
  C110_one_selection_refuted 1 1 8 512 spiShiftDev ⟨.inl rfl, ⟨8, rfl⟩, by omega, by omega⟩ (by omega) _
    (by rw [List.length_replicate]; omega)

end Lambdalib
