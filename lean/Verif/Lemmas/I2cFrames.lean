import Verif.Spec.I2cFrames
import Verif.Props.I2cLibrary
import Verif.Props.UsbHost

/-! Replies of the I2C bridge as messages, and the packets of a bulk IN endpoint. -/

namespace Lambdalib

/-! ### Messages -/

theorem flagMsg_snd (m : List (BitVec 8)) : (flagMsg m).map Prod.snd = m := by
  induction m with
  | nil => rfl
  | cons b l ih => simp [flagMsg, ih]

theorem flagMsg_length (m : List (BitVec 8)) : (flagMsg m).length = m.length := by
  rw [← List.length_map (f := Prod.snd), flagMsg_snd]

theorem flagMsg_snoc (m : List (BitVec 8)) (b : BitVec 8) : flagMsg (m ++ [b]) = m.map (fun b => (false, b)) ++ [(true, b)] := by
  induction m with
  | nil => rfl
  | cons a m ih =>
    rw [List.cons_append, flagMsg, ih]
    cases m <;> rfl

/-- A beginning of a message. -/
theorem flagMsg_begin (m p : List (BitVec 8)) (h : p <+: m) (hl : p.length < m.length) : p.map (fun b => (false, b)) <+: flagMsg m := by
  rcases eq_snoc m with rfl | ⟨m, b, rfl⟩
  · simp at hl
  · rw [flagMsg_snoc]
    refine List.IsPrefix.trans (List.IsPrefix.map _ ?_) (List.prefix_append _ _)
    rcases List.prefix_concat_iff.1 h with h | h
    · rw [h] at hl; exact absurd hl (by simp)
    · exact h

theorem flagMsg_cut (m : List (BitVec 8)) (l t : List (Bool × BitVec 8)) (h : l ++ t = flagMsg m) (ht : t ≠ []) :
    l = (l.map Prod.snd).map (fun b => (false, b)) := by
  rcases eq_snoc m with rfl | ⟨m, b, rfl⟩
  · simp only [flagMsg, List.append_eq_nil_iff] at h
    exact absurd h.2 ht
  · rw [flagMsg_snoc] at h
    rcases eq_snoc t with rfl | ⟨t, x, rfl⟩
    · exact absurd rfl ht
    · rw [← List.append_assoc] at h
      obtain ⟨h, _⟩ := snoc_inj h
      have hl : l <+: m.map (fun b => (false, b)) := ⟨t, h⟩
      rw [List.prefix_iff_eq_take, ← List.map_take] at hl
      rw [hl]
      simp

theorem txnReply_messages (x : Option (List (BitVec 8))) : txnReply x = (replyMessages x).flatten := by
  cases x with
  | none => rfl
  | some l => cases l <;> simp [txnReply, replyMessages]

theorem replyMessages_ne (x : Option (List (BitVec 8))) : ∀ m ∈ replyMessages x, m ≠ [] := by
  intro m hm
  cases x with
  | none => simp [replyMessages] at hm; rw [hm]; simp
  | some l =>
    cases l with
    | nil => simp [replyMessages] at hm; rw [hm]; simp
    | cons b l => simp [replyMessages] at hm; rcases hm with rfl | rfl <;> simp

/-- The bridge machine with messages. -/
theorem frame_bridge (d : BusDevices) (l : List (BitVec 8)) : ∀ p ms r log, (ms : List (List (BitVec 8))).flatten = r →
    let f := l.foldl (frameByte d) ⟨p, ms, log⟩
    l.foldl (bridgeByte d) ⟨p, r, log⟩ = ⟨f.pending, f.msgs.flatten, f.log⟩ := by
  induction l with
  | nil => intro p ms r log h; simp only [List.foldl_nil, h]
  | cons b l ih =>
    intro p ms r log h
    simp only [List.foldl_cons]
    have e : ∃ p1 m1 g1, frameByte d ⟨p, ms, log⟩ b = ⟨p1, m1, g1⟩ ∧ bridgeByte d ⟨p, r, log⟩ b = ⟨p1, m1.flatten, g1⟩ := by
      unfold frameByte bridgeByte
      simp only
      cases hph : protoPhase (p ++ [b])
      · exact ⟨_, _, _, rfl, by simp only [List.flatten_append, ← txnReply_messages, h]⟩
      · exact ⟨_, _, _, rfl, by simp only [h]⟩
      · exact ⟨_, _, _, rfl, by simp only [h]⟩
    obtain ⟨p1, m1, g1, e1, e2⟩ := e
    rw [e1, e2]
    exact ih p1 m1 _ g1 rfl

theorem frame_ne (d : BusDevices) (l : List (BitVec 8)) : ∀ s : FrameS, (∀ m ∈ s.msgs, m ≠ []) →
    ∀ m ∈ (l.foldl (frameByte d) s).msgs, m ≠ [] := by
  induction l with
  | nil => intro s h; exact h
  | cons b l ih =>
    intro s h
    refine ih _ ?_
    unfold frameByte
    simp only
    split
    · intro m hm
      rcases List.mem_append.1 hm with hm | hm
      · exact h m hm
      · exact replyMessages_ne _ m hm
    · exact h

theorem frame_append (d : BusDevices) (l : List (BitVec 8)) : ∀ p ms ms' log,
    l.foldl (frameByte d) ⟨p, ms ++ ms', log⟩ =
      ⟨(l.foldl (frameByte d) ⟨p, ms', log⟩).pending, ms ++ (l.foldl (frameByte d) ⟨p, ms', log⟩).msgs,
        (l.foldl (frameByte d) ⟨p, ms', log⟩).log⟩ := by
  induction l with
  | nil => intros; rfl
  | cons b l ih =>
    intro p ms ms' log
    simp only [List.foldl_cons]
    have e : ∃ p1 m1 g1, frameByte d ⟨p, ms', log⟩ b = ⟨p1, m1, g1⟩ ∧ frameByte d ⟨p, ms ++ ms', log⟩ b = ⟨p1, ms ++ m1, g1⟩ := by
      unfold frameByte
      simp only
      split
      · exact ⟨_, _, _, rfl, by simp⟩
      · exact ⟨_, _, _, rfl, rfl⟩
    obtain ⟨p1, m1, g1, e1, e2⟩ := e
    rw [e1, e2]
    exact ih p1 ms m1 g1

theorem frame_mono (d : BusDevices) (a p : List (BitVec 8)) (s : FrameS) :
    (a.foldl (frameByte d) s).msgs <+: ((a ++ p).foldl (frameByte d) s).msgs := by
  rw [List.foldl_append]
  generalize a.foldl (frameByte d) s = s
  obtain ⟨q, ms, log⟩ := s
  have := frame_append d p q ms [] log
  rw [List.append_nil] at this
  rw [this]
  exact List.prefix_append _ _

/-- The messages asked for by some bytes. -/
def frameMsgs (d : BusDevices) (w : List (BitVec 8)) : List (List (BitVec 8)) := (w.foldl (frameByte d) ⟨[], [], []⟩).msgs

theorem frame_replies (d : BusDevices) (w : List (BitVec 8)) :
    (w.foldl (bridgeByte d) ⟨[], [], []⟩).replies = (frameMsgs d w).flatten := by
  rw [frame_bridge d w [] [] [] [] rfl]
  rfl

theorem flags_snd (ms : List (List (BitVec 8))) : (ms.flatMap flagMsg).map Prod.snd = ms.flatten := by
  induction ms with
  | nil => rfl
  | cons m ms ih => rw [List.flatMap_cons, List.map_append, flagMsg_snd, ih]; rfl

theorem flags_length (ms : List (List (BitVec 8))) : (ms.flatMap flagMsg).length = ms.flatten.length := by
  rw [← flags_snd, List.length_map]

theorem flags_mono (d : BusDevices) (a p : List (BitVec 8)) :
    (frameMsgs d a).flatMap flagMsg <+: (frameMsgs d (a ++ p)).flatMap flagMsg := by
  obtain ⟨t, ht⟩ := frame_mono d a p ⟨[], [], []⟩
  unfold frameMsgs
  rw [← ht, List.flatMap_append]
  exact List.prefix_append _ _

/-- The replies of a command are flagged as messages. -/
theorem proto_flags {a b c} (h : ProtoOk a b c) (r : Option (List (BitVec 8))) (hr : c.map Prod.snd = txnReply r) :
    c = (replyMessages r).flatMap flagMsg := by
  have one : ∀ x : BitVec 8, [(true, x)].map Prod.snd = txnReply r → [(true, x)] = (replyMessages r).flatMap flagMsg := by
    intro x hx
    cases r with
    | none => cases hx; rfl
    | some l =>
      cases l with
      | nil => cases hx; rfl
      | cons y l => cases hx
  cases h with
  | probe h hw => exact one _ hr
  | write h pre b hw hl => exact one _ hr
  | writeNakAddr h data hw hl => exact one _ hr
  | writeNak h pre b post hw hl => exact one _ hr
  | readNak h len hr' hl => exact one _ hr
  | read h pre b hr' hl =>
    have hm : ([(true, (0 : BitVec 8))] ++ pre.map (fun d => (false, d)) ++ [(true, b)]).map Prod.snd = 0 :: (pre ++ [b]) := by simp
    rw [hm] at hr
    cases r with
    | none => cases hr
    | some l =>
      obtain ⟨_, rfl⟩ := List.cons.inj (show 0 :: (pre ++ [b]) = 0 :: l from hr)
      have : replyMessages (some (pre ++ [b])) = [[0], pre ++ [b]] := by cases pre <;> rfl
      rw [this]
      simp only [List.flatMap_cons, List.flatMap_nil, flagMsg_snoc, List.append_nil, List.append_assoc]
      rfl

/-- The transactions executed and the messages. -/
theorem frame_log (d : BusDevices) (l : List (BitVec 8)) : ∀ (p : List (BitVec 8)) (ms : List (List (BitVec 8))) (r : List (BitVec 8))
    (log : List BusTxn), ∃ ts, (l.foldl (bridgeByte d) ⟨p, r, log⟩).log = log ++ ts ∧
      l.foldl (frameByte d) ⟨p, ms, log⟩ = ⟨(l.foldl (bridgeByte d) ⟨p, r, log⟩).pending, ms ++ logMessages d log ts, log ++ ts⟩ := by
  induction l with
  | nil => intro p ms r log; exact ⟨[], by simp, by simp [logMessages]⟩
  | cons b l ih =>
    intro p ms r log
    rw [List.foldl_cons, List.foldl_cons]
    unfold bridgeByte frameByte
    simp only
    cases h : protoPhase (p ++ [b]) with
    | header o =>
      simp only
      obtain ⟨ts, h1, h2⟩ := ih [] (ms ++ replyMessages (d log (cmdTxn (p ++ [b])))) (r ++ txnReply (d log (cmdTxn (p ++ [b]))))
        (log ++ [cmdTxn (p ++ [b])])
      refine ⟨cmdTxn (p ++ [b]) :: ts, ?_, ?_⟩
      · rw [show (log ++ cmdTxn (p ++ [b]) :: ts) = log ++ [cmdTxn (p ++ [b])] ++ ts by simp]; exact h1
      · rw [show (log ++ cmdTxn (p ++ [b]) :: ts) = log ++ [cmdTxn (p ++ [b])] ++ ts by simp]
        simp only [logMessages, ← List.append_assoc]
        exact h2
    | length h => exact ih _ ms r log
    | data n => exact ih _ ms r log

/-- What the machine with messages does with bytes with which the bridge executes one transaction. -/
theorem frame_one (d : BusDevices) (l : List (BitVec 8)) (ms : List (List (BitVec 8))) (r : List (BitVec 8)) (log : List BusTxn) (t : BusTxn)
    (h : l.foldl (bridgeByte d) ⟨[], [], log⟩ = ⟨[], r, log ++ [t]⟩) :
    l.foldl (frameByte d) ⟨[], ms, log⟩ = ⟨[], ms ++ replyMessages (d log t), log ++ [t]⟩ := by
  obtain ⟨ts, h1, h2⟩ := frame_log d l [] ms [] log
  rw [h] at h1 h2
  obtain rfl : ts = [t] := (List.append_cancel_left h1).symm
  rw [h2]
  simp [logMessages]

/-- What the machine with messages does with the bytes of a well-formed command. -/
theorem proto_frame {a b c} (h : ProtoOk a b c) (d : BusDevices) (s : FrameS) (hp : s.pending = []) :
    a.foldl (frameByte d) s = ⟨[], s.msgs ++ replyMessages (d s.log (cmdTxn a)), s.log ++ [cmdTxn a]⟩ := by
  obtain ⟨q, ms, log⟩ := s
  simp only at hp ⊢
  subst hp
  exact frame_one d a ms _ log _ (proto_bridge h d ⟨[], [], log⟩ rfl)

section
variable {D : I2cDev}

/-- The replies to complete commands are flagged as messages. -/
theorem seq_flags {a b c d} (h : ProtoSeqD a b c d) (hB : b.map Prod.snd = D.naks devRest (b.map Prod.fst))
    (hc : (a.foldl (bridgeByte D.bus) ⟨[], [], []⟩).replies = c.map Prod.snd) : c = (frameMsgs D.bus a).flatMap flagMsg := by
  induction h with
  | nil => rfl
  | @snoc a b c d a' b' c' hs hok ih =>
    rw [List.map_append, List.map_append, D.naks_append] at hB
    obtain ⟨hB1, hB2⟩ := List.append_inj hB (by rw [D.naks_length]; simp)
    obtain ⟨i1, _, _, _, _, i6⟩ := seq_bridge D hs hB1
    rw [List.foldl_append, proto_bridge hok D.bus _ i1, List.map_append] at hc
    simp only at hc
    obtain ⟨k1, k2⟩ := List.append_inj hc (by rw [i6, List.length_map])
    have hfb := frame_bridge D.bus a [] [] [] [] rfl
    simp only at hfb
    unfold frameMsgs
    rw [List.foldl_append, proto_frame hok D.bus _ (by rw [hfb] at i1; exact i1)]
    simp only [List.flatMap_append]
    have := ih hB1 k1
    unfold frameMsgs at this
    rw [← this]
    congr 1
    refine proto_flags hok _ ?_
    rw [← k2, hfb]

variable {bidir : Bool} {period : Nat} {stretch : Bool} {i : Nat → I2cProtoIn} {hold : Nat → Bool}

/-- C112: at any time the replies, with `last`, are a beginning of the messages that the bytes taken from the host ask for. -/
theorem bridge_flags (hp : 4 ≤ period)
    (hw : I2cWired D.target bidir period stretch (i2cStrCi period stretch (i2cProtoSi period stretch i)) hold) (hD : D.Polite) (n : Nat)
    (hh : ∀ k, k < n → i2cHostHoldsAt period stretch i k) (ht : ∀ k, k < n → i2cProtoInTimeAt period stretch i k)
    (hr : ReadsZero D.bus (i2cProtoBytes period stretch i n))
    (hpt : ∀ k, k < n → (i k).valid = true →
      ¬ Owes D.bus (i2cProtoBytes period stretch i k) (i2cProtoReplies period stretch i k).length) :
    i2cProtoReplies period stretch i n <+: (frameMsgs D.bus (i2cProtoBytes period stretch i n)).flatMap flagMsg := by
  have hst := fun k (hk : k < n) => bridge_stable hp hw hD k (fun l hl => hh l (by omega)) (fun l hl => ht l (by omega)) (hr.prefix (bytes_prefix (by omega)))
    fun k _ => hpt k (by omega)
  have hfit := fun k (hk : k < n) => bridge_fits hp hw hD k (fun l hl => hh l (by omega)) (fun l hl => ht l (by omega)) (hr.prefix (bytes_prefix (by omega)))
    fun k _ => hpt k (by omega)
  have hrel := bridge_rel hp hw hD n hh ht hr hpt
  have hun := C93_replies_partial hp hw hD n hh ht hr hpt
  have hB := (sys_run_upto hp hw n hst hfit).1
  have hRd := sys_reads_upto hp hw n hst hfit
  have hdat : i2cProtoData period stretch i n =
      (i2cStrDelivered period stretch (i2cProtoSi period stretch i) n).map (fun x => (x.last, x.payload)) :=
    (transferred_map (fun x : Beat (BitVec 8) => (x.last, x.payload)) _ _ _ n).symm
  obtain ⟨pend, hpend⟩ : ∃ pend, (D.reads devRest ((i2cStrBeats period stretch (i2cProtoSi period stretch i) n).map
      Prod.fst)).map (fun x => (x.last, x.payload)) = i2cProtoData period stretch i n ++ pend := by
    rw [hRd, List.map_append, hdat]
    exact ⟨_, rfl⟩
  clear hRd hdat hfit hst hr
  generalize i2cProtoBytes period stretch i n = A at *
  generalize i2cStrBeats period stretch (i2cProtoSi period stretch i) n = B at *
  generalize i2cProtoReplies period stretch i n = R at *
  generalize i2cProtoData period stretch i n = Dl at *
  generalize (i2cProto period stretch).st i n = s at *
  obtain ⟨fsm, header, len, status, str⟩ := s
  obtain ⟨_, _, a, b, c, d, hseq, hdl, hrel⟩ := hrel
  rw [hdl] at hpend
  have hfl : ∀ extra, B = b ++ extra → c = (frameMsgs D.bus a).flatMap flagMsg ∧ (a.foldl (bridgeByte D.bus) ⟨[], [], []⟩).pending = [] ∧
      (a.foldl (bridgeByte D.bus) ⟨[], [], []⟩).replies = c.map Prod.snd := by
    intro extra h2
    subst h2
    obtain ⟨g1, _, g3, _, _⟩ := seq_split hseq hB hpend
    rw [List.map_append, List.map_append, D.naks_append] at hB
    obtain ⟨hB1, _⟩ := List.append_inj hB (by rw [D.naks_length]; simp)
    exact ⟨seq_flags hseq hB1 g3, g1, g3⟩
  have simple : ∀ p extra, A = a ++ p → B = b ++ extra → R = c → R <+: (frameMsgs D.bus A).flatMap flagMsg := by
    intro p extra h1 h2 h3
    rw [h3, (hfl extra h2).1, h1]
    exact flags_mono ..
  have reading : ∀ N extra (pre : List (BitVec 8)), N < 256 → pre.length < N → header.getLsbD 0 = true → A = a ++ [header, BitVec.ofNat 8 N] →
      B = b ++ extra → R = c ++ [(true, 0)] ++ pre.map (fun d => (false, d)) → R <+: (frameMsgs D.bus A).flatMap flagMsg := by
    intro N extra pre hN hpN hb h1 h2 h4
    obtain ⟨k1, k2, k3⟩ := hfl extra h2
    have hfb := frame_bridge D.bus a [] [] [] [] rfl
    simp only at hfb
    have hlen : (BitVec.ofNat 8 N).toNat = N := by simp; omega
    have hrd := bridge_read D.bus ⟨[], [], (a.foldl (bridgeByte D.bus) ⟨[], [], []⟩).log⟩ header (BitVec.ofNat 8 N) rfl (byte_odd header hb).1
    have hrd' := bridge_read D.bus (a.foldl (bridgeByte D.bus) ⟨[], [], []⟩) header (BitVec.ofNat 8 N) k2 (byte_odd header hb).1
    rw [h1, List.foldl_append, hrd', h4, List.map_append, List.map_append] at hun
    simp only [k3, List.map_map] at hun
    rw [List.append_assoc, List.prefix_append_right_inj] at hun
    have hms : frameMsgs D.bus A = frameMsgs D.bus a ++ replyMessages (D.bus (a.foldl (bridgeByte D.bus) ⟨[], [], []⟩).log
        (.read (header.toNat / 2) (BitVec.ofNat 8 N).toNat)) := by
      have hone := frame_one D.bus [header, BitVec.ofNat 8 N] (frameMsgs D.bus a) _ _ _ hrd
      have hst : a.foldl (frameByte D.bus) ⟨[], [], []⟩ = ⟨[], frameMsgs D.bus a, (a.foldl (bridgeByte D.bus) ⟨[], [], []⟩).log⟩ := by
        rw [hfb] at k2 ⊢
        unfold frameMsgs
        generalize a.foldl (frameByte D.bus) ⟨[], [], []⟩ = f at k2
        obtain ⟨fp, fm, fl⟩ := f
        simp only at k2 ⊢
        rw [k2]
      rw [h1, frameMsgs, List.foldl_append, hst, hone]
    rw [hms, h4, List.flatMap_append, List.append_assoc, ← k1, List.prefix_append_right_inj]
    have hsz := D.bus_sized (a.foldl (bridgeByte D.bus) ⟨[], [], []⟩).log (.read (header.toNat / 2) (BitVec.ofNat 8 N).toNat)
    generalize D.bus (a.foldl (bridgeByte D.bus) ⟨[], [], []⟩).log (.read (header.toNat / 2) (BitVec.ofNat 8 N).toNat) = r at *
    cases r with
    | none =>
      simp only [txnReply, List.map_singleton, List.singleton_append] at hun
      exact absurd (List.cons_prefix_cons.1 hun).1 (by decide)
    | some l =>
      have hl := hsz l rfl
      simp only [hlen] at hl
      simp only [txnReply, List.map_singleton, List.singleton_append] at hun
      have hpl := (List.cons_prefix_cons.1 hun).2
      have hid : (Prod.snd ∘ fun d : BitVec 8 => (false, d)) = id := rfl
      rw [hid, List.map_id] at hpl
      have : replyMessages (some l) = [[0], l] := by
        cases l with
        | nil => simp at hl; omega
        | cons => rfl
      rw [this]
      simp only [List.flatMap_cons, List.flatMap_nil, List.append_nil]
      change [(true, 0)] ++ _ <+: [(true, 0)] ++ flagMsg l
      rw [List.prefix_append_right_inj]
      exact flagMsg_begin l pre hpl (by omega)
  cases fsm <;> simp only at hrel
  case header => exact simple [] [] (by simp [hrel.1]) (by simp [hrel.2.1]) hrel.2.2.1
  case length => exact simple _ [] hrel.1 (by simp [hrel.2.1]) hrel.2.2.1
  case addr => exact simple _ [] hrel.1 (by simp [hrel.2.1]) hrel.2.2.1
  case ok => exact simple _ _ hrel.1 hrel.2.1 hrel.2.2.1
  case write =>
    obtain ⟨pre, h1, h2, h3, h4, h5, h6, h7⟩ := hrel
    exact simple _ _ (by rw [h1, List.append_assoc]) (by rw [h6, List.append_assoc]) h7
  case error =>
    obtain ⟨a', b', h1, h2, h3, _⟩ := hrel
    exact simple _ _ h1 h2 h3
  case status =>
    obtain ⟨a', b', h1, h2, h3, _⟩ := hrel
    exact simple _ _ h1 h2 h3
  case read =>
    obtain ⟨k, pre, rd, h1, h2, h3, h4, h5, h6, h7, h8, h9⟩ := hrel
    exact reading (len + k) _ pre h3 (by omega) h4 h1 (by rw [h6, List.append_assoc]) h7
  case flush =>
    obtain ⟨pre, rd, h1, h3, h4, h5, h6, h7, h8, h9⟩ := hrel
    exact reading (pre.length + 1) _ pre h3 (by omega) h4 h1 (by rw [h6, List.append_assoc, List.append_assoc]) h7

end

/-! ### Packets -/

/-- No bytes are lost in the endpoint. -/
theorem usbIn_flatten (size : Nat) (zlp : Bool) (l : List (Bool × BitVec 8)) : ∀ s,
    (l.foldl (usbIn size zlp) s).1.flatten ++ (l.foldl (usbIn size zlp) s).2 = s.1.flatten ++ s.2 ++ l.map Prod.snd := by
  induction l with
  | nil => intro s; simp
  | cons x l ih =>
    intro s
    rw [List.foldl_cons, ih]
    unfold usbIn
    simp only
    split
    · split <;> simp
    · split <;> simp

theorem usbCut_cons {β : Type} (size : Nat) (zlp : Bool) (k : Nat) (c r : List β) (hc : c.length = size) :
    usbCut size zlp (k + 1) (c ++ r) = c :: usbCut size zlp k r := by
  rw [usbCut, List.take_left' hc, List.drop_left' hc]

/-- The endpoint sends a message in the packets of the specification. -/
theorem usbIn_message (size : Nat) (zlp : Bool) (hs : 0 < size) (m : List (BitVec 8)) : ∀ pk cur, m ≠ [] → cur.length < size →
    (flagMsg m).foldl (usbIn size zlp) (pk, cur) = (pk ++ usbPackets size zlp (cur ++ m), []) := by
  induction m with
  | nil => intro pk cur h; exact absurd rfl h
  | cons b m ih =>
    intro pk cur _ hl
    rw [flagMsg, List.foldl_cons]
    have hp : ∀ r : List (BitVec 8), (cur ++ b :: r).isEmpty = false := by intro r; cases cur <;> rfl
    cases m with
    | nil =>
      simp only [flagMsg, List.foldl_nil, usbIn, List.isEmpty_nil, Bool.true_and, if_true]
      unfold usbPackets
      rw [hp, List.length_append, List.length_singleton]
      simp only [Bool.false_eq_true, if_false]
      by_cases he : cur.length + 1 = size
      · rw [if_pos he, he, Nat.div_self hs, ← List.append_nil (cur ++ [b]), usbCut_cons _ _ _ _ _ (by simpa using he), List.append_nil, List.append_assoc]
        cases zlp <;> rfl
      · rw [if_neg he, Nat.div_eq_of_lt (by omega), usbCut, hp]
        rfl
    | cons b' m =>
      by_cases he : cur.length + 1 = size
      · have h1 : usbIn size zlp (pk, cur) ((b' :: m).isEmpty, b) = (pk ++ [cur ++ [b]], []) := by
          simp only [usbIn, List.length_append, List.length_singleton, he, if_true, List.isEmpty_cons, Bool.false_and, Bool.false_eq_true,
            if_false, List.append_nil]
        rw [h1, ih _ _ (by simp) (by simpa using hs)]
        have h2 : usbPackets size zlp (cur ++ b :: b' :: m) = (cur ++ [b]) :: usbPackets size zlp ([] ++ b' :: m) := by
          unfold usbPackets
          rw [hp]
          simp only [Bool.false_eq_true, if_false, List.nil_append, List.isEmpty_cons]
          have e : (cur ++ b :: b' :: m).length / size = (b' :: m).length / size + 1 := by
            rw [List.length_append, List.length_cons, show cur.length + ((b' :: m).length + 1) = (b' :: m).length + size by omega,
              Nat.add_div_right _ hs]
          rw [e, show cur ++ b :: b' :: m = (cur ++ [b]) ++ (b' :: m) by simp, usbCut_cons _ _ _ _ _ (by simpa using he)]
        rw [h2]
        simp
      · have h1 : usbIn size zlp (pk, cur) ((b' :: m).isEmpty, b) = (pk, cur ++ [b]) := by
          simp only [usbIn, List.length_append, List.length_singleton, he, if_false, List.isEmpty_cons, Bool.false_eq_true]
        rw [h1, ih _ _ (by simp) (by simp; omega), show cur ++ [b] ++ b' :: m = cur ++ b :: b' :: m by simp]

/-- A message that has not ended: only full packets. -/
theorem usbIn_open (size : Nat) (zlp : Bool) (l : List (BitVec 8)) : ∀ pk cur, cur.length < size → (∀ p ∈ pk, p.length = size) →
    let s := (l.map fun b => (false, b)).foldl (usbIn size zlp) (pk, cur)
    ∀ p ∈ s.1, p.length = size := by
  induction l with
  | nil => intro pk cur _ h; exact h
  | cons b l ih =>
    intro pk cur hl h
    rw [List.map_cons, List.foldl_cons]
    by_cases he : cur.length + 1 = size
    · have h1 : usbIn size zlp (pk, cur) (false, b) = (pk ++ [cur ++ [b]], []) := by
        simp [usbIn, he]
      rw [h1]
      refine ih _ _ (by simp; omega) ?_
      intro p hp
      rcases List.mem_append.1 hp with hp | hp
      · exact h p hp
      · rw [List.mem_singleton] at hp
        rw [hp]; simpa using he
    · have h1 : usbIn size zlp (pk, cur) (false, b) = (pk, cur ++ [b]) := by
        simp [usbIn, he]
      rw [h1]
      exact ih _ _ (by simp; omega) h

/-- A transfer does not end with full packets that do not fill its buffer. -/
theorem bulkIn_waits {β : Type} (size : Nat) (pk : List (List β)) : ∀ n, (∀ p ∈ pk, p.length = size) → pk.flatten.length < n →
    (bulkIn size n pk).1 = .timedOut := by
  induction pk with
  | nil => intros; rfl
  | cons p pk ih =>
    intro n h hn
    have hp := h p (by simp)
    rw [List.flatten_cons, List.length_append] at hn
    rw [bulkIn, if_neg (by omega), if_neg (by omega)]
    exact ih _ (fun q hq => h q (by simp [hq])) (by omega)

/-- Packets before those of a message. -/
theorem usbIn_pk (size : Nat) (zlp : Bool) (l : List (Bool × BitVec 8)) : ∀ pk pk' cur,
    l.foldl (usbIn size zlp) (pk ++ pk', cur) = (pk ++ (l.foldl (usbIn size zlp) (pk', cur)).1, (l.foldl (usbIn size zlp) (pk', cur)).2) := by
  induction l with
  | nil => intros; rfl
  | cons x l ih =>
    intro pk pk' cur
    rw [List.foldl_cons, List.foldl_cons]
    have e : ∃ q c, usbIn size zlp (pk', cur) x = (q, c) ∧ usbIn size zlp (pk ++ pk', cur) x = (pk ++ q, c) := by
      unfold usbIn
      simp only
      split
      · exact ⟨_, _, rfl, by simp⟩
      · split
        · exact ⟨_, _, rfl, by simp⟩
        · exact ⟨_, _, rfl, rfl⟩
    obtain ⟨q, c, e1, e2⟩ := e
    rw [e1, e2, ih]

/-- What a read of exactly the next message does when `l` is what the endpoint has been given since the last message that was read:
it waits for the end of the message, and then returns it. -/
theorem usb_read_message (size : Nat) (zlp : Bool) (hs : 0 < size) (m : List (BitVec 8)) (ms : List (List (BitVec 8)))
    (hm : m ≠ []) (hz : zlp = false ∨ m.length % size ≠ 0) (l : List (Bool × BitVec 8)) (hl : l <+: (m :: ms).flatMap flagMsg) :
    let s := l.foldl (usbIn size zlp) ([], [])
    (m.length ≤ l.length ∧ usbRecv true size (some m.length) s.1 =
        (some (.ok m), ((l.drop m.length).foldl (usbIn size zlp) ([], [])).1) ∧
        s.2 = ((l.drop m.length).foldl (usbIn size zlp) ([], [])).2 ∧ l.drop m.length <+: ms.flatMap flagMsg ∧
        (l.take m.length).map Prod.snd = m) ∨
      (l.length < m.length ∧ (usbRecv true size (some m.length) s.1).1 = none) := by
  intro s
  rw [List.flatMap_cons] at hl
  by_cases h : m.length ≤ l.length
  · left
    have hlf := flagMsg_length m
    obtain ⟨t, ht⟩ := hl
    have hsp : l = flagMsg m ++ l.drop m.length := by
      have h1 : l.take m.length = flagMsg m := by
        have := congrArg (List.take m.length) ht
        rwa [List.take_append_of_le_length h, List.take_left' hlf] at this
      rw [← h1, List.take_append_drop]
    have h2 : l.drop m.length <+: ms.flatMap flagMsg := by
      refine ⟨t, ?_⟩
      have := congrArg (List.drop m.length) ht
      rwa [List.drop_append_of_le_length h, List.drop_left' hlf] at this
    have hfold : s = (usbPackets size zlp m ++ ((l.drop m.length).foldl (usbIn size zlp) ([], [])).1,
        ((l.drop m.length).foldl (usbIn size zlp) ([], [])).2) := by
      have : s = l.foldl (usbIn size zlp) ([], []) := rfl
      rw [this]
      conv => lhs; rw [hsp]
      rw [List.foldl_append, usbIn_message size zlp hs m [] [] hm hs, List.nil_append, List.nil_append, ← usbIn_pk, List.append_nil]
    refine ⟨h, ?_, ?_, h2, ?_⟩
    · rw [hfold]
      exact C98_recv_partial true size zlp hs m hm _ _ (Or.inl ⟨rfl, hz⟩)
    · rw [hfold]
    · conv => lhs; rw [hsp]
      rw [List.take_left' hlf, flagMsg_snd]
  · right
    refine ⟨by omega, ?_⟩
    have hlp : l <+: flagMsg m := by
      refine List.prefix_of_prefix_length_le hl (List.prefix_append _ _) ?_
      rw [flagMsg_length]; omega
    obtain ⟨t, ht⟩ := hlp
    have htn : t ≠ [] := by
      intro h0
      have := congrArg List.length ht
      rw [h0, List.append_nil, flagMsg_length] at this
      omega
    have hcut := flagMsg_cut m l t ht htn
    have hopen := usbIn_open size zlp (l.map Prod.snd) [] [] hs (by simp)
    rw [← hcut] at hopen
    have hfl := usbIn_flatten size zlp l ([], [])
    simp only [List.flatten_nil, List.nil_append] at hfl
    have hlen := congrArg List.length hfl
    rw [List.length_append, List.length_map] at hlen
    have := bulkIn_waits size (l.foldl (usbIn size zlp) ([], [])).1 m.length hopen (by omega)
    have hss : s = l.foldl (usbIn size zlp) ([], []) := rfl
    rw [hss]
    unfold usbRecv
    simp only [this]
    rfl

end Lambdalib
