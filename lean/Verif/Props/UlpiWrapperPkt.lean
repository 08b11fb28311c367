import Verif.Props.UlpiWrapperRegs

/-! C87 and C88: packet boundaries and progress of the UTMI to ULPI translator. -/

namespace Lambdalib

theorem UwQueue.unique {b : UwBuf} {q q' : List Nat} (h : UwQueue b q) (h' : UwQueue b q') : q = q' := by
  cases h <;> cases h' <;> simp_all

section
variable (x : Nat → UwIn)

/-- Packets of the UTMI side. -/
def uwUser (n : Nat) : List (List Nat) × List Nat :=
  utmiPackets (fun k => (x k).txValid) (fun k => (ulpiWrapper.wave x k).txReady) (fun k => (x k).txData) n

theorem uwUser_succ (n : Nat) : uwUser x (n + 1) =
    if (x n).txValid then ((uwUser x n).1, (uwUser x n).2 ++ uwAcc (ulpiWrapper.st x n) (x n))
    else if (uwUser x n).2 = [] then ((uwUser x n).1, []) else ((uwUser x n).1 ++ [(uwUser x n).2], []) := by
  change (if (x n).txValid then ((uwUser x n).1, (uwUser x n).2 ++
    (if (ulpiWrapper.wave x n).txReady then [(x n).txData] else [])) else _) = _
  unfold uwAcc
  cases h : (x n).txValid
  · by_cases hc : (uwUser x n).2 = []
    · simp only [Bool.false_eq_true, if_false]
      rw [if_pos hc]
      exact if_pos hc
    · simp only [Bool.false_eq_true, if_false]
      rw [if_neg hc]
      exact if_neg hc
  · rfl

/-- The UTMI side begins a packet only when the PHY has sent all before, and nothing is received in a packet. -/
def UwUserFair : Prop :=
  (∀ n, (x n).txValid = true → (ulpiWrapper.wave x n).txReady = true → (uwUser x n).2 = [] →
    (uwPhy x n).packets.length = (uwUser x n).1.length) ∧
  ∀ n, (x n).txValid = true → (uwUser x n).2 ≠ [] ∨ (ulpiWrapper.wave x n).txReady = true →
    (ulpiWrapper.wave x n).rxActive = false

variable {x}

theorem uw_packets (hf : UwPhyFair x) (hu : UwUserFair x) (n : Nat) :
    ∃ cur o q, UwRel (ulpiWrapper.st x n) (uwPhy x n).st cur o q ∧
      ((uwUser x n).2 ≠ [] → q ≠ [] ∧ (ulpiWrapper.st x n).delay = 0) ∧
      (((uwPhy x n).packets = (uwUser x n).1.map maskPid ∧ cur ++ o ++ q = (uwUser x n).2 ∧
          ((ulpiWrapper.st x n).core.stp = true → cur = [])) ∨
        ((uwUser x n).2 = [] ∧ ∃ init, (uwUser x n).1 = init ++ [cur ++ o ++ q] ∧ cur ++ o ++ q ≠ [] ∧
          (uwPhy x n).packets = init.map maskPid ∧
          ((ulpiWrapper.st x n).core.stp = true → cur ≠ [] → q = []))) := by
  induction n with
  | zero => exact ⟨[], [], [], uw_rel_init, fun h => absurd rfl h, .inl ⟨rfl, rfl, fun _ => rfl⟩⟩
  | succ n ih =>
    obtain ⟨cur, o, q, h1, h2, h3⟩ := ih
    have hs := uw_step h1 (x n) (hf.p1 n) (fun bs hbs hstp => hf.2 n bs hbs hstp)
    have hq := h1.queue
    have hnext := hq.next (x n)
    have hready := hq.ready
    have hlen := hq.length_le
    have hst : (ulpiWrapper.st x (n + 1)).buf = uwBufNext (ulpiWrapper.st x n) (x n) := rfl
    rw [← uwPhy_succ, ← Circuit.st_succ] at hs
    rw [← hst] at hnext
    have hdel : (ulpiWrapper.st x (n + 1)).delay = if (ulpiWrapper.st x n).core.rxActive then 7 else
        if (ulpiWrapper.st x n).delay != 0 then (ulpiWrapper.st x n).delay - 1 else (ulpiWrapper.st x n).delay := rfl
    have hu1 : (x n).txValid = true → uwTxReady (ulpiWrapper.st x n) = true → (uwUser x n).2 = [] →
      (uwPhy x n).packets.length = (uwUser x n).1.length := hu.1 n
    have hu2 : (x n).txValid = true → (uwUser x n).2 ≠ [] ∨ uwTxReady (ulpiWrapper.st x n) = true →
      (ulpiWrapper.st x n).core.rxActive = false := hu.2 n
    have hus := uwUser_succ x n
    -- an open packet keeps the buffer filled
    have hopen : (uwUser x (n + 1)).2 ≠ [] →
        ((if uwAccept (ulpiWrapper.st x n) (x n) then q.tail else q) ++ uwAcc (ulpiWrapper.st x n) (x n)) ≠ [] ∧
        (ulpiWrapper.st x (n + 1)).delay = 0 := by
      intro hne
      cases hv : (x n).txValid with
      | false =>
        rw [hus, hv, if_neg (by simp)] at hne
        split at hne <;> exact absurd rfl hne
      | true =>
        rw [hus, hv, if_pos rfl] at hne
        have hd : (ulpiWrapper.st x n).delay = 0 ∧ (ulpiWrapper.st x n).core.rxActive = false := by
          by_cases ho : (uwUser x n).2 = []
          · have hr : uwTxReady (ulpiWrapper.st x n) = true := by
              cases hr : uwTxReady (ulpiWrapper.st x n) with
              | true => rfl
              | false => exact absurd (by simp [uwAcc, hr, ho]) hne
            refine ⟨?_, hu2 hv (.inr hr)⟩
            rw [hready] at hr
            simpa using (Bool.and_eq_true_iff.mp hr).2
          · exact ⟨(h2 ho).2, hu2 hv (.inl ho)⟩
        refine ⟨?_, by rw [hdel, hd.2, hd.1]; rfl⟩
        by_cases hl : q.length < 2
        · have : uwAcc (ulpiWrapper.st x n) (x n) = [(x n).txData] := by
            simp [uwAcc, hv, hready, hl, hd.1]
          rw [this]; simp
        · have : q.length = 2 := by omega
          match q, this with
          | [a, b], _ => cases uwAccept (ulpiWrapper.st x n) (x n) <;> simp
    generalize hQ : (if uwAccept (ulpiWrapper.st x n) (x n) then q.tail else q) ++ uwAcc (ulpiWrapper.st x n) (x n) = Q at *
    rcases hs with ⟨hp, cur', o', q', hr, he, hend, hstp⟩ | ⟨hp, hne, ho, hstp, o', q', hr, he⟩
    · have hq' : q' = Q := hr.queue.unique hnext
      subst hq'
      refine ⟨cur', o', q', hr, hopen, ?_⟩
      rw [hp]
      rcases h3 with ⟨e1, e2, e3⟩ | ⟨e1, init, e2, e5, e3, e4⟩
      · cases hv : (x n).txValid with
        | true =>
          rw [hv, if_pos rfl] at hus
          rw [hus]
          refine .inl ⟨e1, by rw [he, e2], ?_⟩
          intro hst'
          refine Classical.byContradiction fun hc => ?_
          have hq0 := hend hst' hc
          by_cases hop : (uwUser x n).2 = []
          · rw [hop] at e2
            simp only [List.append_eq_nil_iff] at e2
            obtain ⟨⟨rfl, rfl⟩, rfl⟩ := e2
            have : q' = uwAcc (ulpiWrapper.st x n) (x n) := by
              rw [← hQ]; cases uwAccept (ulpiWrapper.st x n) (x n) <;> simp
            rw [this] at he
            have := congrArg List.length he
            simp at this
            exact hc (List.length_eq_zero_iff.mp (by omega))
          · exact (h2 hop).1 hq0
        | false =>
          have ha : uwAcc (ulpiWrapper.st x n) (x n) = [] := by simp [uwAcc, hv]
          rw [ha, List.append_nil, e2] at he
          rw [hv, if_neg (by simp)] at hus
          by_cases hop : (uwUser x n).2 = []
          · rw [if_pos hop] at hus
            rw [hus]
            rw [hop] at he
            refine .inl ⟨e1, he, fun _ => ?_⟩
            simp only [List.append_eq_nil_iff] at he
            exact he.1.1
          · rw [if_neg hop] at hus
            rw [hus]
            refine .inr ⟨rfl, _, by rw [he], by rw [he]; exact hop, e1, ?_⟩
            intro a b
            have := hend a b
            subst this
            rw [← hQ, ha]; cases uwAccept (ulpiWrapper.st x n) (x n) <;> simp
      · have ha : uwAcc (ulpiWrapper.st x n) (x n) = [] := by
          cases hv : (x n).txValid with
          | false => simp [uwAcc, hv]
          | true =>
            cases hr : uwTxReady (ulpiWrapper.st x n) with
            | false => simp [uwAcc, hr]
            | true =>
              have := hu1 hv hr e1
              rw [e2, e3] at this
              simp at this
        have hus' : uwUser x (n + 1) = ((uwUser x n).1, []) := by
          rw [hus, ha, e1]
          cases (x n).txValid <;> simp
        rw [hus']
        rw [ha, List.append_nil] at he
        refine .inr ⟨rfl, init, by rw [he]; exact e2, by rw [he]; exact e5, e3, ?_⟩
        intro a b
        have := hend a b
        subst this
        rw [← hQ, ha]; cases uwAccept (ulpiWrapper.st x n) (x n) <;> simp
    · have hq' : q' = Q := hr.queue.unique hnext
      subst hq'
      refine ⟨[], o', q', hr, hopen, ?_⟩
      rcases h3 with ⟨e1, e2, e3⟩ | ⟨e1, init, e2, e5, e3, e4⟩
      · exact absurd (e3 hstp) hne
      · have ha : uwAcc (ulpiWrapper.st x n) (x n) = [] := by
          cases hv : (x n).txValid with
          | false => simp [uwAcc, hv]
          | true =>
            cases hr : uwTxReady (ulpiWrapper.st x n) with
            | false => simp [uwAcc, hr]
            | true =>
              have := hu1 hv hr e1
              rw [e2, e3] at this
              simp at this
        have hus' : uwUser x (n + 1) = ((uwUser x n).1, []) := by
          rw [hus, ha, e1]
          cases (x n).txValid <;> simp
        have hq0 := e4 hstp hne
        subst hq0 ho
        rw [ha] at he
        left
        rw [hus', hp, e3, e2]
        refine ⟨by simp, ?_, fun _ => rfl⟩
        simpa using he

variable (x)

/-- C87: if the UTMI side begins a packet only when the PHY has sent all packets before, and nothing is received between the
first and the last byte of a packet, then the PHY sends exactly the packets of the UTMI side, the last one possibly not yet.
Missing: packets that follow one another closely, see `C87_refuted`. -/
theorem C87_packets_partial (hf : UwPhyFair x) (hu : UwUserFair x) (n : Nat) :
    ∃ late : List (List Nat), late.length ≤ 1 ∧ ∃ sent, (uwUser x n).1 = sent ++ late ∧
      (uwPhy x n).packets = sent.map maskPid := by
  obtain ⟨cur, o, q, -, -, h⟩ := uw_packets hf hu n
  rcases h with ⟨h, -⟩ | ⟨-, init, h1, -, h2, -⟩
  · exact ⟨[], by simp, _, by simp, h⟩
  · exact ⟨_, by simp, init, h1, h2⟩

end

/-- Bytes offered in the cycles given; the PHY is slow to take the command. -/
def uwPktDemo (offer : List (Option Nat)) (n : Nat) : UwIn :=
  { data := 0, dir := false, nxt := decide (6 ≤ n), txData := ((offer[n]?).join).getD 0, txValid := ((offer[n]?).join).isSome
    op := 3, xcvr := 0, term := false, dp := true, dm := true }

/-- C87 in full is false: two packets with a short gap between them are sent as one. -/
theorem C87_refuted : ∃ x : Nat → UwIn, UwPhyFair x ∧ (uwUser x 20).1 = [[0xc3, 0x11], [0xd2]] ∧
    (uwPhy x 20).packets = [[0x3, 0x11, 0xd2]] ∧ uwAccepted x 20 = [0xc3, 0x11, 0xd2] :=
  ⟨uwPktDemo [some 0xc3, some 0x11, none, some 0xd2], ⟨fun _ h => (by cases h), fun _ _ _ _ => rfl⟩,
    by decide +kernel, by decide +kernel, by decide +kernel⟩

/-- Two packets with a gap long enough. -/
def uwPktDemo2 : Nat → UwIn :=
  uwPktDemo ([some 0xc3, some 0x11, some 0x22, some 0x22, some 0x22, some 0x22, some 0x22] ++
    List.replicate 6 none ++ [some 0xd2])

example : UwPhyFair uwPktDemo2 ∧ UwUserFair uwPktDemo2 ∧ (uwUser uwPktDemo2 20).1 = [[0xc3, 0x11, 0x22], [0xd2]] ∧
    (uwPhy uwPktDemo2 20).packets = [[0x3, 0x11, 0x22], [0x2]] := by
  refine ⟨⟨fun _ h => (by cases h), fun _ _ _ _ => rfl⟩, ?_, by decide +kernel, by decide +kernel⟩
  have h1 : ∀ n < 20, ((uwPktDemo2 n).txValid = true → (ulpiWrapper.wave uwPktDemo2 n).txReady = true →
      (uwUser uwPktDemo2 n).2 = [] → (uwPhy uwPktDemo2 n).packets.length = (uwUser uwPktDemo2 n).1.length) ∧
      (ulpiWrapper.wave uwPktDemo2 n).rxActive = false := by decide +kernel
  have h2 : ∀ n, 20 ≤ n → (uwPktDemo2 n).txValid = false := by
    intro n hn
    simp only [uwPktDemo2, uwPktDemo]
    rw [List.getElem?_eq_none (by simp; omega)]
    rfl
  constructor
  · intro n hv
    by_cases hn : n < 20
    · exact (h1 n hn).1 hv
    · rw [h2 n (by omega)] at hv; cases hv
  · intro n hv _
    by_cases hn : n < 20
    · exact (h1 n hn).2
    · rw [h2 n (by omega)] at hv; cases hv

section
variable {x : Nat → UwIn}

/-- Work left: settings to write, bytes to send, and the steps of what is under way. -/
def uwLeft (s : UwS) : Nat :=
  4 * ((uwUpd true s).toNat + (uwUpd false s).toNat) + 3 * (s.buf.v0.toNat + s.buf.v1.toNat) +
  match s.core.state with
  | .idle => 3 + s.core.stp.toNat
  | .cmd => 2
  | .reg => 1
  | .data => 5

theorem UwQueue.count {b : UwBuf} {q : List Nat} (h : UwQueue b q) : b.v0.toNat + b.v1.toNat = q.length := by
  cases h <;> simp_all

/-- No new work comes and the bus is free. -/
structure UwCalm (s : UwS) (y : UwIn) : Prop where
  dirQ : s.dirQ = false
  dir : y.dir = false
  tx : y.txValid = false
  mode : s.mode.op = y.op ∧ s.mode.term = y.term ∧ s.mode.xcvr = y.xcvr
  otg : s.otg.dp = y.dp ∧ s.otg.dm = y.dm

theorem uw_upd_calm {s : UwS} {y : UwIn} (hc : UwCalm s y) :
    uwUpd true (ulpiWrapper.next s y) = (uwUpd true s && !uwModeDone s y) ∧
    uwUpd false (ulpiWrapper.next s y) = (uwUpd false s && !uwOtgDone s y) := by
  obtain ⟨-, -, -, ⟨h1, h2, h3⟩, ⟨h4, h5⟩⟩ := hc
  constructor
  · change (if s.mode.update && uwModeDone s y then false else if s.mode.op != y.op || s.mode.term != y.term ||
      s.mode.xcvr != y.xcvr then true else s.mode.update) = (s.mode.update && !uwModeDone s y)
    rw [h1, h2, h3]
    cases s.mode.update <;> cases uwModeDone s y <;> simp
  · change (if s.otg.update && uwOtgDone s y then false else if s.otg.dp != y.dp || s.otg.dm != y.dm then true
      else s.otg.update) = (s.otg.update && !uwOtgDone s y)
    rw [h4, h5]
    cases s.otg.update <;> cases uwOtgDone s y <;> simp

/-- In a calm cycle work is done, unless the translator waits for the PHY. -/
theorem uw_left_step {s : UwS} {m : PhySt} {cur o q : List Nat} {op : UwOp} (hrel : UwRel s m cur o q)
    (hreg : UwReg s m op) {y : UwIn} (hc : UwCalm s y) :
    (uwLeft (ulpiWrapper.next s y) < uwLeft s) ∨
    (s.core.state ≠ .idle ∧ y.nxt = false ∧ uwLeft (ulpiWrapper.next s y) = uwLeft s ∧
      (ulpiWrapper.next s y).core.state = s.core.state) ∨
    (uwLeft s = 3 ∧ uwLeft (ulpiWrapper.next s y) = 3 ∧ s.core.state = .idle ∧ s.core.stp = false) := by
  have hq := hrel.queue
  have hn := hq.next y
  have hb := hq.bufReady
  have ha : uwAcc s y = [] := by simp [uwAcc, hc.tx]
  rw [ha, List.append_nil] at hn
  have hcnt := hq.count
  have hcnt' : (ulpiWrapper.next s y).buf.v0.toNat + (ulpiWrapper.next s y).buf.v1.toNat =
      (if uwAccept s y then q.tail else q).length := hn.count
  obtain ⟨hu1, hu2⟩ := uw_upd_calm hc
  have ht : uwTurn s y = false := by simp [uwTurn, hc.dirQ, hc.dir]
  have hcs : (ulpiWrapper.next s y).core = uwCoreNext s y := rfl
  cases hst : s.core.state with
  | idle =>
    have hd1 : uwModeDone s y = false := by simp [uwModeDone, hst]
    have hd2 : uwOtgDone s y = false := by simp [uwOtgDone, hst]
    have hacc : uwAccept s y = (!(s.mode.update || s.otg.update)) := by
      simp [uwAccept, hst, ht, hc.dir]
    simp only [hd1, hd2, Bool.not_false, Bool.and_true] at hu1 hu2
    unfold uwLeft
    rw [hu1, hu2, hcnt, hcnt', hcs, hst, hacc]
    by_cases hm : s.mode.update = true
    · left
      have e : (uwCoreNext s y).state = .cmd := by simp [uwCoreNext, ht, hc.dir, hst, hm]
      rw [e, hm]
      simp only [Bool.true_or, Bool.not_true, Bool.false_eq_true, if_false]
      omega
    · rw [Bool.not_eq_true] at hm
      by_cases ho : s.otg.update = true
      · left
        have e : (uwCoreNext s y).state = .cmd := by simp [uwCoreNext, ht, hc.dir, hst, hm, ho]
        rw [e, hm, ho]
        simp only [Bool.or_true, Bool.not_true, Bool.false_eq_true, if_false]
        omega
      · rw [Bool.not_eq_true] at ho
        have u1 : uwUpd true s = false := hm
        have u2 : uwUpd false s = false := ho
        rw [hm, ho, u1, u2]
        cases q with
        | nil =>
          have e : (uwCoreNext s y).state = .idle ∧ (uwCoreNext s y).stp = false := by
            simp [uwCoreNext, ht, hc.dir, hst, hm, ho, hb]
          rw [e.1]
          simp only [e.2]
          cases hsp : s.core.stp
          · right; right; simp
          · left; simp
        | cons a t =>
          left
          have e : (uwCoreNext s y).state = .data := by
            simp [uwCoreNext, ht, hc.dir, hst, hm, ho, hb]
          rw [e]
          simp
          omega
  | cmd =>
    have hd1 : uwModeDone s y = false := by simp [uwModeDone, hst]
    have hd2 : uwOtgDone s y = false := by simp [uwOtgDone, hst]
    have hacc : uwAccept s y = false := by simp [uwAccept, hst]
    simp only [hd1, hd2, Bool.not_false, Bool.and_true] at hu1 hu2
    cases hx : y.nxt with
    | true =>
      left
      have e : (uwCoreNext s y).state = .reg := by simp [uwCoreNext, ht, hc.dir, hst, hx]
      unfold uwLeft
      rw [hu1, hu2, hcnt, hcnt', hcs, hst, hacc, e]
      simp
    | false =>
      right; left
      have e : (uwCoreNext s y).state = .cmd := by simp [uwCoreNext, ht, hc.dir, hst, hx]
      unfold uwLeft
      rw [hu1, hu2, hcnt, hcnt', hcs, hst, hacc, e]
      simp
  | reg =>
    have hacc : uwAccept s y = false := by simp [uwAccept, hst]
    cases hx : y.nxt with
    | true =>
      left
      have e : (uwCoreNext s y).state = .idle ∧ (uwCoreNext s y).stp = true := by
        simp [uwCoreNext, ht, hc.dir, hst, hx]
      have hk : ∃ k, s.core.modeWrite = k ∧ s.core.otgWrite = !k ∧ uwUpd k s = true := by
        cases hreg with
        | none h => rcases h with h | h <;> rw [hst] at h <;> cases h
        | cmd h => rw [hst] at h; cases h
        | @reg k _ _ _ h1 h2 h3 _ => exact ⟨k, h1, h2, h3⟩
        | @lost k _ _ h1 h2 h3 _ => exact ⟨k, h1, h2, h3⟩
        | done h => rw [hst] at h; cases h
      obtain ⟨k, k1, k2, k3⟩ := hk
      unfold uwLeft
      rw [hu1, hu2, hcnt, hcnt', hcs, hst, hacc, e.1]
      simp only [e.2]
      cases k
      · have d1 : uwModeDone s y = false := by simp [uwModeDone, k1]
        have d2 : uwOtgDone s y = true := by simp [uwOtgDone, hst, k2, hx, hc.dir]
        rw [d1, d2, k3]
        simp; omega
      · have d1 : uwModeDone s y = true := by simp [uwModeDone, hst, k1, hx, hc.dir]
        have d2 : uwOtgDone s y = false := by simp [uwOtgDone, k2]
        rw [d1, d2, k3]
        simp; omega
    | false =>
      right; left
      have hd1 : uwModeDone s y = false := by simp [uwModeDone, hx]
      have hd2 : uwOtgDone s y = false := by simp [uwOtgDone, hx]
      simp only [hd1, hd2, Bool.not_false, Bool.and_true] at hu1 hu2
      have e : (uwCoreNext s y).state = .reg := by simp [uwCoreNext, ht, hc.dir, hst, hx]
      unfold uwLeft
      rw [hu1, hu2, hcnt, hcnt', hcs, hst, hacc, e]
      simp
  | data =>
    have hd1 : uwModeDone s y = false := by simp [uwModeDone, hst]
    have hd2 : uwOtgDone s y = false := by simp [uwOtgDone, hst]
    have hacc : uwAccept s y = y.nxt := by simp [uwAccept, hst, hc.dir]
    simp only [hd1, hd2, Bool.not_false, Bool.and_true] at hu1 hu2
    cases hx : y.nxt with
    | true =>
      left
      unfold uwLeft
      rw [hu1, hu2, hcnt, hcnt', hcs, hst, hacc, hx]
      cases q with
      | nil =>
        have e : (uwCoreNext s y).state = .idle ∧ (uwCoreNext s y).stp = true := by
          simp [uwCoreNext, ht, hc.dir, hst, hx, hb]
        rw [e.1]
        simp only [e.2]
        simp
      | cons a t =>
        have e : (uwCoreNext s y).state = .data := by simp [uwCoreNext, ht, hc.dir, hst, hx, hb]
        rw [e]
        simp
    | false =>
      right; left
      have e : (uwCoreNext s y).state = .data := by simp [uwCoreNext, ht, hc.dir, hst, hx]
      unfold uwLeft
      rw [hu1, hu2, hcnt, hcnt', hcs, hst, hacc, hx, e]
      simp

/-- From cycle `N` on the UTMI side offers nothing and keeps its settings, the PHY leaves the bus to the translator and
raises `nxt` again and again. -/
structure UwRest (x : Nat → UwIn) (N : Nat) : Prop where
  dir : ∀ n, N ≤ n → (x n).dir = false
  tx : ∀ n, N ≤ n → (x n).txValid = false
  same : ∀ n, N ≤ n → (x (n + 1)).op = (x n).op ∧ (x (n + 1)).term = (x n).term ∧ (x (n + 1)).xcvr = (x n).xcvr ∧
    (x (n + 1)).dp = (x n).dp ∧ (x (n + 1)).dm = (x n).dm
  nxt : ∀ n, ∃ m, n ≤ m ∧ (x m).nxt = true

theorem UwRest.calm {N n : Nat} (h : UwRest x N) (hn : N + 1 ≤ n) : UwCalm (ulpiWrapper.st x n) (x n) := by
  obtain ⟨k, rfl⟩ : ∃ k, n = k + 1 := ⟨n - 1, by omega⟩
  obtain ⟨h1, h2, h3, h4, h5⟩ := h.same k (by omega)
  exact ⟨h.dir k (by omega), h.dir _ (by omega), h.tx _ (by omega), ⟨h1.symm, h2.symm, h3.symm⟩, ⟨h4.symm, h5.symm⟩⟩

theorem uw_left_run (hf : UwPhyFair x) {N n : Nat} (h : UwRest x N) (hn : N + 1 ≤ n) :
    (uwLeft (ulpiWrapper.st x (n + 1)) < uwLeft (ulpiWrapper.st x n)) ∨
    ((ulpiWrapper.st x n).core.state ≠ .idle ∧ (x n).nxt = false ∧
      uwLeft (ulpiWrapper.st x (n + 1)) = uwLeft (ulpiWrapper.st x n) ∧
      (ulpiWrapper.st x (n + 1)).core.state = (ulpiWrapper.st x n).core.state) ∨
    (uwLeft (ulpiWrapper.st x n) = 3 ∧ uwLeft (ulpiWrapper.st x (n + 1)) = 3 ∧
      (ulpiWrapper.st x n).core.state = .idle ∧ (ulpiWrapper.st x n).core.stp = false) := by
  obtain ⟨⟨cur, o, q, h1⟩, h2⟩ := uw_run hf n
  exact uw_left_step h1 h2 (h.calm hn)

theorem uw_left_end (hf : UwPhyFair x) {N : Nat} (h : UwRest x N) (k : Nat) : ∀ n, N + 1 ≤ n →
    uwLeft (ulpiWrapper.st x n) ≤ k → ∃ m, n ≤ m ∧ uwLeft (ulpiWrapper.st x m) = 3 ∧
      (ulpiWrapper.st x m).core.state = .idle ∧ (ulpiWrapper.st x m).core.stp = false := by
  induction k with
  | zero =>
    intro n hn hk
    rcases uw_left_run hf h hn with h1 | ⟨h1, -⟩ | ⟨h1, -⟩
    · omega
    · exfalso
      unfold uwLeft at hk
      cases hs : (ulpiWrapper.st x n).core.state <;> rw [hs] at hk <;> simp at hk
    · omega
  | succ k ih =>
    intro n hn hk
    -- wait for the PHY
    have hwait : ∀ d n, N + 1 ≤ n → uwLeft (ulpiWrapper.st x n) ≤ k + 1 → (x (n + d)).nxt = true →
        ∃ m, n ≤ m ∧ uwLeft (ulpiWrapper.st x m) = 3 ∧
          (ulpiWrapper.st x m).core.state = .idle ∧ (ulpiWrapper.st x m).core.stp = false := by
      intro d
      induction d with
      | zero =>
        intro n hn hk hx
        rcases uw_left_run hf h hn with h1 | ⟨-, h1, -⟩ | ⟨h1, -, h2, h3⟩
        · obtain ⟨m, e1, e2⟩ := ih (n + 1) (by omega) (by omega)
          exact ⟨m, by omega, e2⟩
        · rw [Nat.add_zero, h1] at hx; cases hx
        · exact ⟨n, Nat.le_refl n, h1, h2, h3⟩
      | succ d ihd =>
        intro n hn hk hx
        rcases uw_left_run hf h hn with h1 | ⟨-, -, h1, -⟩ | ⟨h1, -, h2, h3⟩
        · obtain ⟨m, e1, e2⟩ := ih (n + 1) (by omega) (by omega)
          exact ⟨m, by omega, e2⟩
        · obtain ⟨m, e1, e2⟩ := ihd (n + 1) (by omega) (by omega) (by rw [← hx]; congr 2; omega)
          exact ⟨m, by omega, e2⟩
        · exact ⟨n, Nat.le_refl n, h1, h2, h3⟩
    obtain ⟨m, hm, hx⟩ := h.nxt n
    exact hwait (m - n) n hn hk (by rw [← hx]; congr 2; omega)

theorem uw_left_three {s : UwS} (h : uwLeft s = 3) (hs : s.core.state = .idle) :
    s.core.stp = false ∧ uwUpd true s = false ∧ uwUpd false s = false ∧ s.buf.v0 = false ∧ s.buf.v1 = false := by
  unfold uwLeft at h
  rw [hs] at h
  simp only at h
  cases h1 : uwUpd true s <;> cases h2 : uwUpd false s <;> cases h3 : s.buf.v0 <;> cases h4 : s.buf.v1 <;>
    cases h5 : s.core.stp <;> simp_all

theorem uw_rest (hf : UwPhyFair x) (N : Nat) (h : UwRest x N) :
    ∃ M, ∀ n, M ≤ n → uwLeft (ulpiWrapper.st x n) = 3 ∧ (ulpiWrapper.st x n).core.state = .idle := by
  obtain ⟨M, hM, h1, h2, h3⟩ := uw_left_end hf h (uwLeft (ulpiWrapper.st x (N + 1))) (N + 1) (Nat.le_refl _) (Nat.le_refl _)
  refine ⟨M, ?_⟩
  have hstay : ∀ d, uwLeft (ulpiWrapper.st x (M + d)) = 3 ∧ (ulpiWrapper.st x (M + d)).core.state = .idle := by
    intro d
    induction d with
    | zero => exact ⟨h1, h2⟩
    | succ d ih =>
      have hcalm := h.calm (show N + 1 ≤ M + d by omega)
      obtain ⟨e0, e1, e2, e3, e4⟩ := uw_left_three ih.1 ih.2
      have hb : uwBufReady (ulpiWrapper.st x (M + d)) = false := by simp [uwBufReady, e3, e4]
      have ht : uwTurn (ulpiWrapper.st x (M + d)) (x (M + d)) = false := by simp [uwTurn, hcalm.dirQ, hcalm.dir]
      have m1 : (ulpiWrapper.st x (M + d)).mode.update = false := e1
      have m2 : (ulpiWrapper.st x (M + d)).otg.update = false := e2
      have hs : (ulpiWrapper.st x (M + (d + 1))).core.state = .idle := by
        change (uwCoreNext (ulpiWrapper.st x (M + d)) (x (M + d))).state = .idle
        simp [uwCoreNext, ht, hcalm.dir, ih.2, m1, m2, hb]
      refine ⟨?_, hs⟩
      rcases uw_left_run hf h (show N + 1 ≤ M + d by omega) with hlt | ⟨hne, -⟩ | ⟨-, e, -⟩
      · exfalso
        have : 3 ≤ uwLeft (ulpiWrapper.st x (M + (d + 1))) := by
          unfold uwLeft
          rw [hs]
          simp only
          omega
        rw [ih.1] at hlt
        exact absurd hlt (by have : M + d + 1 = M + (d + 1) := rfl; rw [this]; omega)
      · exact absurd ih.2 hne
      · exact e
  intro n hn
  obtain ⟨d, rfl⟩ : ∃ d, n = M + d := ⟨n - M, by omega⟩
  exact hstay d

/-- C88: when the UTMI side comes to rest and the PHY serves the translator, then after some time nothing is left to do: all
bytes accepted have been sent in transmissions that are complete, and the settings of both registers have been taken. -/
theorem C88_rest (hf : UwPhyFair x) (N : Nat) (h : UwRest x N) :
    ∃ M, ∀ n, M ≤ n → (∃ pks : List (List Nat), uwAccepted x n = pks.flatten ∧ (uwPhy x n).packets = pks.map maskPid ∧
      ∀ p ∈ pks, p ≠ []) ∧ (uwPhy x n).st = .idle ∧ (ulpiWrapper.wave x n).stp = false ∧
      ∀ k, uwUnsettled x k n = false := by
  obtain ⟨M, hM⟩ := uw_rest hf N h
  refine ⟨M, fun n hn => ?_⟩
  obtain ⟨s1, s2⟩ := hM n hn
  obtain ⟨e0, e1, e2, e3, e4⟩ := uw_left_three s1 s2
  obtain ⟨cur, o, q, pks, hr, p1, p2, p3⟩ := uw_bytes hf n
  have hq : q = [] := by
    have := hr.queue
    cases this <;> simp_all
  subst hq
  refine ⟨⟨pks, ?_, p3, p2⟩, ?_, e0, ?_⟩
  · generalize (uwPhy x n).st = m at hr
    cases hr <;> simp_all
  · generalize (uwPhy x n).st = m at hr
    cases hr <;> simp_all
  · intro k
    rw [← uw_unsettled hf]
    cases k
    · exact e2
    · exact e1

/-- C88: with C86, settings that no longer change end up in the register, if each change came after the PHY had taken the
one before. -/
theorem C88_settings (hf : UwPhyFair x) (N : Nat) (h : UwRest x N) (k : Bool)
    (hc : ∀ n, uwChange x k n = true → uwUnsettled x k n = false) :
    ∃ M, ∀ n, M ≤ n →
      (writesTo (uwAddr k) (uwPhy x n).writes).getLast?.map (uwLow k) = some (uwBefore x k n) ∨
      (writesTo (uwAddr k) (uwPhy x n).writes = [] ∧ uwBefore x k n = uwBefore x k 0) := by
  obtain ⟨M, hM⟩ := C88_rest hf N h
  refine ⟨M, fun n hn => ?_⟩
  obtain ⟨-, -, h1, h2⟩ := hM n hn
  exact C86_latest_partial hf k hc n (h2 k) h1

/-- C88: with C87, all packets of the UTMI side are sent. -/
theorem C88_packets (hf : UwPhyFair x) (hu : UwUserFair x) (N : Nat) (h : UwRest x N) :
    ∃ M, ∀ n, M ≤ n → (uwPhy x n).packets = (uwUser x n).1.map maskPid ∧ (uwUser x n).2 = [] := by
  obtain ⟨M, hM⟩ := uw_rest hf N h
  refine ⟨M, fun n hn => ?_⟩
  obtain ⟨s1, s2⟩ := hM n hn
  obtain ⟨e0, -, -, e3, e4⟩ := uw_left_three s1 s2
  obtain ⟨cur, o, q, hr, -, hp⟩ := uw_packets hf hu n
  have hz : cur = [] ∧ o = [] ∧ q = [] := by
    have hq : q = [] := by
      have := hr.queue
      cases this <;> simp_all
    subst hq
    generalize (uwPhy x n).st = m at hr
    cases hr <;> simp_all
  obtain ⟨rfl, rfl, rfl⟩ := hz
  rcases hp with ⟨h1, h2, -⟩ | ⟨-, init, -, h1, -⟩
  · exact ⟨h1, h2.symm⟩
  · exact absurd rfl h1

example : UwRest (uwPktDemo [some 0xc3, some 0x11, none, some 0xd2]) 4 ∧ UwRest (uwRegDemo 12) 13 := by
  refine ⟨⟨fun _ _ => rfl, ?_, fun _ _ => ⟨rfl, rfl, rfl, rfl, rfl⟩, fun n => ⟨n + 6, by omega, by simp [uwPktDemo]⟩⟩,
    ⟨fun _ _ => rfl, fun _ _ => rfl, ?_, fun n => ⟨n, Nat.le_refl n, rfl⟩⟩⟩
  · intro n hn
    simp only [uwPktDemo]
    rw [List.getElem?_eq_none (by simp; omega)]
    rfl
  · intro n hn
    have h1 : ¬ n < 12 := by omega
    have h2 : ¬ n + 1 < 12 := by omega
    simp [uwRegDemo, h1, h2]

end

end Lambdalib
