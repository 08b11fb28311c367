import Verif.Lemmas.SpiPhy
import Verif.Lemmas.Run
import Verif.Props.Time
import Verif.Props.Spi

/-! C39: the SPI master PHY. -/

namespace Lambdalib

section
variable (W P div csDelay : Nat) (i : Nat → SpiPhyIn)

/-- The words accepted, the pins at the rising clock edges, and the words given to the receive FIFO. -/
def spiAccepted (n : Nat) : List (Bool × SpiWord) :=
  transferred (fun k => (i k).valid) (fun k => ((spiPhy W P div csDelay).wave i k).ready)
    (fun k => ((i k).last, (i k).word)) n

def spiPulses (n : Nat) : List (Nat × Nat) :=
  clkRises (fun k => ((spiPhy W P div csDelay).wave i k).clk)
    (fun k => (((spiPhy W P div csDelay).wave i k).dqO, (i k).dqI)) n

def spiResults (n : Nat) : List (Bool × Nat) :=
  transferred (fun k => ((spiPhy W P div csDelay).wave i k).fValid) (fun _ => true)
    (fun k => (((spiPhy W P div csDelay).wave i k).fLast, ((spiPhy W P div csDelay).wave i k).fData)) n

/-- The rise strobe is the rise of the clock pin. -/
theorem spi_pe_step (s : SpiPhyS) (x : SpiPhyIn) (h : s.ck.cnt ≤ div % 256) :
    ((spiPhy W P div csDelay).next s x).ck.pe =
      (((spiPhy W P div csDelay).next s x).ck.clk && !s.ck.clk) := by
  simp only [spiPhy, spiClkGen, spiPhyCk]
  have hD : div % 2 ^ 8 = div % 256 := rfl
  cases s.running
  · simp
  · by_cases hlt : s.ck.cnt < div % 2 ^ 8
    · have hne : s.ck.cnt ≠ div % 2 ^ 8 := by omega
      have : (s.ck.cnt == div % 2 ^ 8) = false := by simp only [beq_eq_false_iff_ne]; exact hne
      rw [if_pos rfl, if_pos hlt, this]; cases s.ck.clk <;> rfl
    · have : (s.ck.cnt == div % 2 ^ 8) = true := by simp only [beq_iff_eq]; omega
      rw [if_pos rfl, if_neg hlt, this]; cases s.ck.clk <;> rfl

theorem spi_inv (hok : ∀ n, (i n).valid = true → SpiWordOk W P (i n).word) (n : Nat) :
    spiRel W P div (spiAccepted W P div csDelay i n) (spiPulses W P div csDelay i n)
      (spiResults W P div csDelay i n) ((spiPhy W P div csDelay).st i n) ∧
    ((spiPhy W P div csDelay).st i n).ck.pe = (((spiPhy W P div csDelay).st i n).ck.clk &&
      !(match n with | 0 => false | k + 1 => ((spiPhy W P div csDelay).st i k).ck.clk)) := by
  induction n with
  | zero =>
    refine ⟨⟨Nat.zero_le _, [], [], SpiDone.nil, .inl ⟨rfl, rfl, rfl, rfl, rfl, rfl⟩⟩, rfl⟩
  | succ n ih =>
    obtain ⟨hr, hp⟩ := ih
    refine ⟨?_, ?_⟩
    · have := spi_step W P div csDelay _ _ _ _ (i n) hr (hok n)
      have h1 : spiAccepted W P div csDelay i (n + 1) = spiAccepted W P div csDelay i n ++
        spiAcc W P div csDelay ((spiPhy W P div csDelay).st i n) (i n) := rfl
      have h2 : spiPulses W P div csDelay i (n + 1) = spiPulses W P div csDelay i n ++
          spiEdge W P div csDelay ((spiPhy W P div csDelay).st i n) (i n) := by
        simp only [spiEdge, hp]
        cases n <;> rfl
      have h3 : spiResults W P div csDelay i (n + 1) = spiResults W P div csDelay i n ++
          spiPush W P div csDelay ((spiPhy W P div csDelay).st i n) (i n) := by
        show _ ++ (if _ && true then _ else _) = _
        rw [Bool.and_true]
        rfl
      rw [h1, h2, h3, Circuit.st_succ]
      exact this
    · rw [Circuit.st_succ]
      exact spi_pe_step W P div csDelay _ _ hr.1

/-- C39: at every moment the accepted words are those transferred completely, followed by at most one word in
transfer. The pulses on the clock pin are exactly those of the complete words (`len / width` each, carrying the
word most significant group first) followed by a proper prefix of the pulses of the word in transfer. Each
complete word has exactly one result, in order, with its `last` and the sampled bits; at most the newest result
has not been given to the FIFO yet. -/
theorem C39_transfer (hok : ∀ n, (i n).valid = true → SpiWordOk W P (i n).word) (n : Nat) :
    ∃ A cur E e p, spiAccepted W P div csDelay i n = A ++ cur ∧ spiPulses W P div csDelay i n = E ++ e ∧
      SpiDone A E (spiResults W P div csDelay i n ++ p) ∧ p.length ≤ 1 ∧
      (cur = [] ∧ e = [] ∨ ∃ last w, cur = [(last, w)] ∧ e.length < w.len / w.width ∧
        e.map Prod.fst = (spiOuts w).take e.length) := by
  obtain ⟨⟨_, A, E, hd, h⟩, _⟩ := spi_inv W P div csDelay i hok n
  rcases h with ⟨_, _, _, _, h1, h2⟩ | ⟨_, _, h1, h2⟩ | ⟨_, last, w, m, e, hc, h1, h2⟩
  · refine ⟨A, [], E, [], _, by rw [h1]; simp, by rw [h2]; simp, hd, ?_, .inl ⟨rfl, rfl⟩⟩
    split <;> simp
  · refine ⟨A, [], E, [], _, by rw [h1]; simp, by rw [h2]; simp, hd, ?_, .inl ⟨rfl, rfl⟩⟩
    split <;> simp
  · refine ⟨A, [(last, w)], E, e, _, h1, h2, hd, ?_, .inr ⟨last, w, rfl, hc.elt, hc.outs⟩⟩
    split <;> simp

theorem SpiDone.lengths {A : List (Bool × SpiWord)} {E : List (Nat × Nat)} {F : List (Bool × Nat)}
    (h : SpiDone A E F) : A.length = F.length := by
  induction h with
  | nil => rfl
  | snoc w last e r _ _ _ ih => simp [ih]

/-- The FIFO is an ordinary FIFO of depth 8: the level rises by one with each accepted push and falls with each
pop. -/
def FifoLevel (push pop : Nat → Bool) (level : Nat → Nat) : Prop :=
  level 0 = 0 ∧ ∀ n, level (n + 1) + (if pop n then 1 else 0) =
    level n + (if push n && decide (level n < 8) then 1 else 0)

/-- Bookkeeping: results outstanding are at most two, and a word is accepted only when two slots are free. -/
theorem spi_room (hok : ∀ n, (i n).valid = true → SpiWordOk W P (i n).word) (pop : Nat → Bool)
    (hf : FifoLevel (fun n => ((spiPhy W P div csDelay).wave i n).fValid) pop (fun n => (i n).level)) (n : Nat) :
    (spiResults W P div csDelay i n).length +
        (if ((spiPhy W P div csDelay).wave i n).fValid then 1 else 0) ≤ (spiAccepted W P div csDelay i n).length ∧
    (i n).level + ((spiAccepted W P div csDelay i n).length - (spiResults W P div csDelay i n).length) ≤ 8 := by
  have key : ∀ n, (spiResults W P div csDelay i n).length +
        (if ((spiPhy W P div csDelay).wave i n).fValid then 1 else 0) ≤ (spiAccepted W P div csDelay i n).length ∧
      (spiAccepted W P div csDelay i n).length ≤ (spiResults W P div csDelay i n).length + 1 +
        (if ((spiPhy W P div csDelay).wave i n).fValid then 1 else 0) := by
    intro n
    obtain ⟨⟨_, A, E, hd, h⟩, _⟩ := spi_inv W P div csDelay i hok n
    have hl := hd.lengths
    have hw : ((spiPhy W P div csDelay).wave i n).fValid = ((spiPhy W P div csDelay).st i n).fValid := rfl
    rw [hw]
    rw [List.length_append] at hl
    have hi : (if ((spiPhy W P div csDelay).st i n).fValid then
        [(((spiPhy W P div csDelay).st i n).fLast, ((spiPhy W P div csDelay).st i n).srIn)] else []).length =
        if ((spiPhy W P div csDelay).st i n).fValid then 1 else 0 := by split <;> rfl
    rw [hi] at hl
    rcases h with ⟨_, _, _, _, h1, h2⟩ | ⟨_, _, h1, h2⟩ | ⟨_, last, w, m, e, hc, h1, h2⟩
    · rw [h1]; omega
    · rw [h1]; omega
    · rw [h1, List.length_append, List.length_singleton]; omega
  refine ⟨(key n).1, ?_⟩
  induction n with
  | zero =>
    have : (i 0).level = 0 := hf.1
    rw [this]; exact Nat.zero_le _
  | succ n ih =>
    have hs := hf.2 n
    have k0 := key n
    have k1 := key (n + 1)
    have hA : (spiAccepted W P div csDelay i (n + 1)).length = (spiAccepted W P div csDelay i n).length +
        if (i n).valid && ((spiPhy W P div csDelay).wave i n).ready then 1 else 0 := by
      simp only [spiAccepted, transferred_succ, List.length_append]
      congr 1
      split <;> rfl
    have hR : (spiResults W P div csDelay i (n + 1)).length = (spiResults W P div csDelay i n).length +
        if ((spiPhy W P div csDelay).wave i n).fValid then 1 else 0 := by
      simp only [spiResults, transferred_succ, List.length_append, Bool.and_true]
      congr 1
      split <;> rfl
    have hrdy : ((spiPhy W P div csDelay).wave i n).ready = true → (i n).level ≤ 6 := by
      intro h
      have h : spiOutLoad div csDelay ((spiPhy W P div csDelay).st i n) (i n) = true := h
      simp only [spiOutLoad, spiXfrEn, Bool.and_eq_true, Bool.not_eq_true', decide_eq_false_iff_not] at h
      have := h.2.2
      omega
    have hapart : ((spiPhy W P div csDelay).wave i n).fValid = true →
        ((spiPhy W P div csDelay).wave i (n + 1)).fValid = true → False := by
      intro h1 h2
      have e2 : spiInEnd div ((spiPhy W P div csDelay).st i n) = true := h2
      have p2 : ((spiPhy W P div csDelay).st i n).ck.pe = true := by
        simp only [spiInEnd, Bool.and_eq_true] at e2; exact e2.1
      cases n with
      | zero => exact absurd h1 (by simp [Circuit.wave, Circuit.st, spiPhy])
      | succ n =>
        have e1 : spiInEnd div ((spiPhy W P div csDelay).st i n) = true := h1
        have p1 : ((spiPhy W P div csDelay).st i n).ck.pe = true := by
          simp only [spiInEnd, Bool.and_eq_true] at e1; exact e1.1
        rw [(spi_inv W P div csDelay i hok n).2] at p1
        rw [(spi_inv W P div csDelay i hok (n + 1)).2] at p2
        simp only [Bool.and_eq_true, Bool.not_eq_true'] at p1 p2
        rw [p1.1] at p2
        exact nomatch p2.2
    dsimp only at hs
    rw [hA] at k1 ⊢
    rw [hR] at k1 ⊢
    have hpush : (if ((spiPhy W P div csDelay).wave i n).fValid && decide ((i n).level < 8) then 1 else 0) ≤
        if ((spiPhy W P div csDelay).wave i n).fValid then 1 else 0 := by
      cases ((spiPhy W P div csDelay).wave i n).fValid
      · exact Nat.le_refl _
      · simp only [Bool.true_and, if_true]; split <;> omega
    have hfv : (if ((spiPhy W P div csDelay).wave i n).fValid then 1 else 0) +
        (if ((spiPhy W P div csDelay).wave i (n + 1)).fValid then 1 else 0) ≤ 1 := by
      cases h1 : ((spiPhy W P div csDelay).wave i n).fValid
      · split <;> split <;> simp_all
      · cases h2 : ((spiPhy W P div csDelay).wave i (n + 1)).fValid
        · simp
        · exact (hapart h1 h2).elim
    generalize (if ((spiPhy W P div csDelay).wave i n).fValid && decide ((i n).level < 8) then 1 else 0) = u at *
    generalize (if ((spiPhy W P div csDelay).wave i n).fValid then 1 else 0) = f0 at *
    generalize (if ((spiPhy W P div csDelay).wave i (n + 1)).fValid then 1 else 0) = f1 at *
    by_cases hl : ((i n).valid && ((spiPhy W P div csDelay).wave i n).ready) = true
    · have h6 := hrdy (by simp only [Bool.and_eq_true] at hl; exact hl.2)
      rw [if_pos hl] at k1 ⊢
      omega
    · rw [if_neg hl] at k1 ⊢
      omega

/-- C39: no result is lost: whenever the master gives a word to its receive FIFO, the FIFO has room. -/
theorem C39_no_overflow (hok : ∀ n, (i n).valid = true → SpiWordOk W P (i n).word) (pop : Nat → Bool)
    (hf : FifoLevel (fun n => ((spiPhy W P div csDelay).wave i n).fValid) pop (fun n => (i n).level)) (n : Nat)
    (h : ((spiPhy W P div csDelay).wave i n).fValid = true) : (i n).level < 8 := by
  have h1 := (spi_room W P div csDelay i hok pop hf n).2
  have h2 := (spi_room W P div csDelay i hok pop hf n).1
  rw [h] at h2
  simp only [if_true] at h2
  omega

/-- C39: words are accepted only while the chip is selected, that is (with the delay) after the selection was
held for `cs_delay + 1` cycles. -/
theorem C39_selected (n : Nat) (h : ((spiPhy W P div csDelay).wave i n).ready = true) :
    ((spiPhy W P div csDelay).wave i n).csN = false ∧ csDelay + 1 ≤ n ∧
      ∀ k < n, n ≤ k + (csDelay + 1) → (i k).cs = true := by
  have h : spiOutLoad div csDelay ((spiPhy W P div csDelay).st i n) (i n) = true := h
  have hcs : ∀ n, ((spiPhy W P div csDelay).st i n).csCnt = (waitTimer (csDelay + 1)).st (fun k => (i k).cs) n := by
    intro n
    induction n with
    | zero => rfl
    | succ n ih => rw [Circuit.st_succ, Circuit.st_succ, ← ih]; rfl
  simp only [spiOutLoad, spiXfrEn, Bool.and_eq_true] at h
  have hd := h.2.1.1
  refine ⟨?_, ?_⟩
  · show (!(waitTimer (csDelay + 1)).out _ _) = false
    rw [hd]; rfl
  · rw [hcs] at hd
    exact (C19_waittimer_exact (csDelay + 1) (fun k => (i k).cs) n).1 hd

/-- One cycle inside a word, for the exact timing. -/
theorem spi_time_step (s : SpiPhyS) (x : SpiPhyIn) (w : SpiWord) (hw : SpiWordOk W P w) (k : Nat)
    (hk : k + 1 < 2 * (w.len / w.width) * (div % 256 + 1)) (hr : s.running = true) (hwd : s.widthR = w.width)
    (hoc : s.srOutCnt = w.len - w.width * (k / (2 * (div % 256 + 1)) + 1))
    (hc : s.ck.cnt = k % (div % 256 + 1)) (hclk : s.ck.clk = decide (k / (div % 256 + 1) % 2 = 1)) :
    ((spiPhy W P div csDelay).out s x).ready = false ∧
    ((spiPhy W P div csDelay).next s x).running = true ∧ ((spiPhy W P div csDelay).next s x).widthR = w.width ∧
    ((spiPhy W P div csDelay).next s x).srOutCnt =
      w.len - w.width * ((k + 1) / (2 * (div % 256 + 1)) + 1) ∧
    ((spiPhy W P div csDelay).next s x).ck.cnt = (k + 1) % (div % 256 + 1) ∧
    ((spiPhy W P div csDelay).next s x).ck.clk = decide ((k + 1) / (div % 256 + 1) % 2 = 1) := by
  have hck := spiClk_step 8 (div % 256) (Nat.mod_lt _ (by decide)) s.ck (spiPhyCk div s) rfl hr k hc hclk
  have h1 : k = (div % 256 + 1) * (k / (div % 256 + 1)) + k % (div % 256 + 1) := (Nat.div_add_mod k _).symm
  have h2 : k % (div % 256 + 1) < div % 256 + 1 := Nat.mod_lt _ (by omega)
  have e0 : k / (2 * (div % 256 + 1)) = k / (div % 256 + 1) / 2 := by
    rw [Nat.mul_comm, Nat.div_div_eq_div_mul]
  have e1 : (k + 1) / (2 * (div % 256 + 1)) = (k + 1) / (div % 256 + 1) / 2 := by
    rw [Nat.mul_comm, Nat.div_div_eq_div_mul]
  have e2 : (k + 1) / (div % 256 + 1) =
      k / (div % 256 + 1) + if k % (div % 256 + 1) = div % 256 then 1 else 0 := by
    by_cases hd : k % (div % 256 + 1) = div % 256
    · rw [if_pos hd]
      have : k + 1 = (div % 256 + 1) * (k / (div % 256 + 1) + 1) := by
        rw [Nat.mul_add, Nat.mul_one]; omega
      rw [this, Nat.mul_div_cancel_left _ (by omega)]
    · rw [if_neg hd]
      have : k + 1 = (div % 256 + 1) * (k / (div % 256 + 1)) + (k % (div % 256 + 1) + 1) := by omega
      rw [this, Nat.mul_add_div (by omega), Nat.div_eq_of_lt (by omega : k % (div % 256 + 1) + 1 < div % 256 + 1)]
  have hT : w.len / w.width * 2 = 2 * (w.len / w.width) := Nat.mul_comm _ _
  rw [e0] at hoc
  rw [e1, e2]
  rw [e2] at hck
  generalize hq : k / (div % 256 + 1) = q at *
  generalize hrr : k % (div % 256 + 1) = r at *
  have hqT : q < 2 * (w.len / w.width) := by
    apply Classical.byContradiction
    intro h
    have : (div % 256 + 1) * (2 * (w.len / w.width)) ≤ (div % 256 + 1) * q := Nat.mul_le_mul_left _ (by omega)
    rw [Nat.mul_comm (div % 256 + 1) (2 * _)] at this
    omega
  have hcn := spi_cnt hw (q / 2) (by omega)
  have hD : div % 2 ^ 8 = div % 256 := rfl
  by_cases hsh : q % 2 = 1 ∧ r = div % 256
  · obtain ⟨hq1, hr1⟩ := hsh
    have hq2 : q / 2 + 1 < w.len / w.width := by
      apply Classical.byContradiction
      intro h
      have h3 : 2 * (w.len / w.width) ≤ q + 1 := by omega
      have : (div % 256 + 1) * (2 * (w.len / w.width)) ≤ (div % 256 + 1) * (q + 1) := Nat.mul_le_mul_left _ h3
      rw [Nat.mul_comm (div % 256 + 1) (2 * _), Nat.mul_add (div % 256 + 1) q 1] at this
      omega
    have hs : spiOutShift div s = true := by
      simp [spiOutShift, spiClkGen, spiPhyCk, hr, hclk, hq1, hc, hr1]
    have hz : s.srOutCnt ≠ 0 := by rw [hoc]; intro h; have := hcn.1.mp h; omega
    have hoe : spiOutEnd div s = false := by simp [spiOutEnd, hz]
    have hl : spiOutLoad div csDelay s x = false := by simp [spiOutLoad, hoe, hr]
    refine ⟨hl, by simp [spiPhy, hl, hoe, hr], by simp [spiPhy, hl, hwd], ?_, hck.1, hck.2⟩
    have : ((spiPhy W P div csDelay).next s x).srOutCnt = (s.srOutCnt + 256 - w.width) % 256 := by
      simp [spiPhy, hs, hoe, hwd]
    rw [this, hoc, hcn.2 hq2, if_pos hr1]
    have : (q + 1) / 2 = q / 2 + 1 := by omega
    rw [this]
  · have hs : spiOutShift div s = false := by
      simp only [spiOutShift, spiClkGen, spiPhyCk, hr, hclk, hc, hD, Bool.true_and, Bool.and_eq_false_iff,
        decide_eq_false_iff_not, beq_eq_false_iff_ne]
      by_cases h : q % 2 = 1
      · exact .inr (fun h' => hsh ⟨h, h'⟩)
      · exact .inl h
    have hoe : spiOutEnd div s = false := by simp [spiOutEnd, hs]
    have hl : spiOutLoad div csDelay s x = false := by simp [spiOutLoad, hoe, hr]
    refine ⟨hl, by simp [spiPhy, hl, hoe, hr], by simp [spiPhy, hl, hwd], ?_, hck.1, hck.2⟩
    have : ((spiPhy W P div csDelay).next s x).srOutCnt = s.srOutCnt := by
      simp [spiPhy, hs, hl]
    rw [this, hoc]
    by_cases hr1 : r = div % 256
    · rw [if_pos hr1]
      have : (q + 1) / 2 = q / 2 := by
        have : ¬ q % 2 = 1 := fun h => hsh ⟨h, hr1⟩
        omega
      rw [this]
    · rw [if_neg hr1]; rfl

theorem spi_time (n : Nat) (hw : SpiWordOk W P (i n).word)
    (h : ((spiPhy W P div csDelay).wave i n).ready = true) :
    ∀ k, k < 2 * ((i n).word.len / (i n).word.width) * (div % 256 + 1) →
      ∀ s, s = (spiPhy W P div csDelay).st i (n + 1 + k) →
      s.running = true ∧ s.widthR = (i n).word.width ∧
      s.srOutCnt = (i n).word.len - (i n).word.width * (k / (2 * (div % 256 + 1)) + 1) ∧
      s.ck.cnt = k % (div % 256 + 1) ∧ s.ck.clk = decide (k / (div % 256 + 1) % 2 = 1) := by
  have h0 : spiOutLoad div csDelay ((spiPhy W P div csDelay).st i n) (i n) = true := h
  intro k
  induction k with
  | zero =>
    intro _ s hs
    subst hs
    rw [Nat.add_zero, Circuit.st_succ]
    generalize (spiPhy W P div csDelay).st i n = s at *
    generalize i n = x at *
    obtain ⟨hw0, hw8, hT, _⟩ := hw.facts
    have hmax := hw.max
    have hle : x.word.width ≤ x.word.len := Nat.le_of_dvd hw.pos hw.dvd
    have hne : (spiOutShift div s && !spiOutEnd div s) = false := by
      have : (!s.running || spiOutEnd div s) = true := by
        simp only [spiOutLoad, Bool.and_eq_true] at h0; exact h0.1
      cases he : spiOutEnd div s
      · rw [he] at this
        have : s.running = false := by simpa using this
        simp [spiOutShift, spiClkGen, spiPhyCk, this]
      · simp
    have hck : ((spiPhy W P div csDelay).next s x).ck.clk = false ∧
        ((spiPhy W P div csDelay).next s x).ck.cnt = 0 := by
      simp only [spiOutLoad, spiOutEnd, spiOutShift, Bool.and_eq_true, Bool.or_eq_true,
        Bool.not_eq_true', spiClkGen, spiPhyCk, beq_iff_eq] at h0
      rcases h0.1 with h1 | h1
      · simp [spiPhy, spiClkGen, spiPhyCk, h1]
      · obtain ⟨⟨⟨h1, h2⟩, h3⟩, _⟩ := h1
        simp [spiPhy, spiClkGen, spiPhyCk, h1, h2, h3]
    refine ⟨by simp [spiPhy, h0], by simp [spiPhy, h0], ?_, by simpa using hck.2, by simpa using hck.1⟩
    have : ((spiPhy W P div csDelay).next s x).srOutCnt = (x.word.len + 256 - x.word.width) % 256 := by
      simp only [spiPhy, h0, hne, if_true]; rfl
    rw [this]
    simp only [Nat.zero_div, Nat.zero_add, Nat.mul_one]
    omega
  | succ k ih =>
    intro hk s hs
    subst hs
    obtain ⟨h1, h2, h3, h4, h5⟩ := ih (by omega) _ rfl
    exact (spi_time_step W P div csDelay _ (i (n + 1 + k)) _ hw k hk h1 h2 h3 h4 h5).2

/-- C39: exact timing: for `2 (div + 1)` cycles per pulse after a word was accepted, the clock pin toggles every
`div + 1` cycles, and no other word is accepted before the last of these cycles. -/
theorem C39_timing (n : Nat) (hw : SpiWordOk W P (i n).word)
    (h : ((spiPhy W P div csDelay).wave i n).ready = true) (k : Nat)
    (hk : k < 2 * ((i n).word.len / (i n).word.width) * (div % 256 + 1)) :
    ((spiPhy W P div csDelay).wave i (n + 1 + k)).clk = decide (k / (div % 256 + 1) % 2 = 1) ∧
    (k + 1 < 2 * ((i n).word.len / (i n).word.width) * (div % 256 + 1) →
      ((spiPhy W P div csDelay).wave i (n + 1 + k)).ready = false) := by
  have key := spi_time W P div csDelay i n hw h
  obtain ⟨h1, h2, h3, h4, h5⟩ := key k hk _ rfl
  exact ⟨h5, fun hk' => (spi_time_step W P div csDelay _ (i (n + 1 + k)) _ hw k hk' h1 h2 h3 h4 h5).1⟩

theorem spi_end (n : Nat) (hw : SpiWordOk W P (i n).word)
    (h : ((spiPhy W P div csDelay).wave i n).ready = true) (m : Nat)
    (hm : m = n + 2 * ((i n).word.len / (i n).word.width) * (div % 256 + 1)) :
    n < m ∧ spiOutEnd div ((spiPhy W P div csDelay).st i m) = true := by
  obtain ⟨hw0, hw8, hT, _⟩ := hw.facts
  have hTp : 0 < (i n).word.len / (i n).word.width := Nat.div_pos (Nat.le_of_dvd hw.pos hw.dvd) hw0
  have hle : 1 * 1 ≤ 2 * ((i n).word.len / (i n).word.width) * (div % 256 + 1) :=
    Nat.mul_le_mul (by omega) (by omega)
  obtain ⟨h1, h2, h3, h4, h5⟩ := spi_time W P div csDelay i n hw h
    (2 * ((i n).word.len / (i n).word.width) * (div % 256 + 1) - 1) (by omega)
    ((spiPhy W P div csDelay).st i m) (by rw [hm]; congr 1; omega)
  generalize hTT : (i n).word.len / (i n).word.width = T at *
  have e1 : 2 * T * (div % 256 + 1) - 1 = (div % 256 + 1) * (2 * T - 1) + div % 256 := by
    have : (div % 256 + 1) * (2 * T) = (div % 256 + 1) * (2 * T - 1) + (div % 256 + 1) := by
      have e : 2 * T = 2 * T - 1 + 1 := by omega
      conv => lhs; rw [e]
      exact Nat.mul_succ _ _
    rw [Nat.mul_comm]
    omega
  have e2 : (2 * T * (div % 256 + 1) - 1) % (div % 256 + 1) = div % 256 := by
    rw [e1, Nat.mul_add_mod, Nat.mod_eq_of_lt (by omega)]
  have e3 : (2 * T * (div % 256 + 1) - 1) / (div % 256 + 1) = 2 * T - 1 := by
    rw [e1, Nat.mul_add_div (by omega), Nat.div_eq_of_lt (by omega)]; rfl
  have e4 : (2 * T * (div % 256 + 1) - 1) / (2 * (div % 256 + 1)) = T - 1 := by
    rw [Nat.mul_comm 2 (div % 256 + 1), ← Nat.div_div_eq_div_mul, e3]; omega
  rw [e4, show T - 1 + 1 = T by omega, hT, Nat.sub_self] at h3
  rw [e2] at h4
  rw [e3, decide_eq_true (by omega)] at h5
  refine ⟨by omega, ?_⟩
  generalize (spiPhy W P div csDelay).st i m = s at *
  simp [spiOutEnd, spiOutShift, spiClkGen, spiPhyCk, h1, h3, h4, h5]

theorem spi_running (hok : ∀ n, (i n).valid = true → SpiWordOk W P (i n).word) (m : Nat)
    (hr : ((spiPhy W P div csDelay).st i m).running = true) :
    ∃ n, n < m ∧ ((spiPhy W P div csDelay).wave i n).ready = true ∧
      m ≤ n + 2 * ((i n).word.len / (i n).word.width) * (div % 256 + 1) := by
  have hval : ∀ n, ((spiPhy W P div csDelay).wave i n).ready = true → (i n).valid = true := by
    intro n h
    have h : spiOutLoad div csDelay ((spiPhy W P div csDelay).st i n) (i n) = true := h
    simp only [spiOutLoad, spiXfrEn, Bool.and_eq_true] at h
    exact h.2.1.2
  induction m with
  | zero => cases hr
  | succ m ih =>
    by_cases hl : spiOutLoad div csDelay ((spiPhy W P div csDelay).st i m) (i m) = true
    · have := (spi_end W P div csDelay i m (hok m (hval m hl)) hl _ rfl).1
      exact ⟨m, by omega, hl, this⟩
    · rw [Circuit.st_succ] at hr
      have hs : ((spiPhy W P div csDelay).st i m).running = true ∧
          spiOutEnd div ((spiPhy W P div csDelay).st i m) = false := by
        generalize (spiPhy W P div csDelay).st i m = s at *
        simp only [spiPhy, hl, spiOutLoad] at hr
        simp only [spiOutLoad] at hl
        cases h1 : spiOutEnd div s <;> cases h2 : spiXfrEn csDelay s (i m) <;> simp_all
      obtain ⟨n, h1, h2, h3⟩ := ih hs.1
      refine ⟨n, by omega, h2, ?_⟩
      rcases Nat.lt_or_ge m (n + 2 * ((i n).word.len / (i n).word.width) * (div % 256 + 1)) with h | h
      · omega
      · have := (spi_end W P div csDelay i n (hok n (hval n h2)) h2 m (by omega)).2
        rw [hs.2] at this
        cases this

/-- C39: a word is accepted as soon as the chip is selected, the receive FIFO has two free places and the time of
every word accepted before is over: no stall is permanent. -/
theorem C39_accept (hok : ∀ n, (i n).valid = true → SpiWordOk W P (i n).word) (m : Nat)
    (hfree : ∀ n, n < m → ((spiPhy W P div csDelay).wave i n).ready = true →
      n + 2 * ((i n).word.len / (i n).word.width) * (div % 256 + 1) ≤ m)
    (hv : (i m).valid = true) (hl : (i m).level ≤ 6) (hc : ((spiPhy W P div csDelay).wave i m).csN = false) :
    ((spiPhy W P div csDelay).wave i m).ready = true := by
  have hend : ((spiPhy W P div csDelay).st i m).running = true →
      spiOutEnd div ((spiPhy W P div csDelay).st i m) = true := by
    intro hr
    obtain ⟨n, h1, h2, h3⟩ := spi_running W P div csDelay i hok m hr
    have := hfree n h1 h2
    have hv' : (i n).valid = true := by
      have h : spiOutLoad div csDelay ((spiPhy W P div csDelay).st i n) (i n) = true := h2
      simp only [spiOutLoad, spiXfrEn, Bool.and_eq_true] at h
      exact h.2.1.2
    exact (spi_end W P div csDelay i n (hok n hv') h2 m (by omega)).2
  have hc : (!(waitTimer (csDelay + 1)).out ((spiPhy W P div csDelay).st i m).csCnt (i m).cs) = false := hc
  show spiOutLoad div csDelay ((spiPhy W P div csDelay).st i m) (i m) = true
  generalize (spiPhy W P div csDelay).st i m = s at *
  have hd : (waitTimer (csDelay + 1)).out s.csCnt (i m).cs = true := by simpa using hc
  have hx : spiXfrEn csDelay s (i m) = true := by
    simp only [spiXfrEn, hd, hv, Bool.true_and, Bool.not_eq_true', decide_eq_false_iff_not]; omega
  cases hr : s.running
  · simp [spiOutLoad, hx, hr]
  · simp [spiOutLoad, hx, hend hr]

end

/-! ### Concrete run -/

/-- Words 0xA5 (last) and 0x3 (4 bits) on one pin, divider 1, `cs_delay` 0; MISO follows the parity of `n / 3`. -/
def spiDemo (n : Nat) : SpiPhyIn :=
  ⟨true, decide (n < 40), decide (n < 30), if n < 30 then ⟨0xA5, 8, 1, true⟩ else ⟨3, 4, 1, true⟩,
    if n / 3 % 2 = 1 then 2 else 0, 0⟩

example : ∀ n, (spiDemo n).valid = true → SpiWordOk 8 1 (spiDemo n).word := by
  intro n _
  simp only [spiDemo]
  split <;> constructor <;> decide

example : spiAccepted 8 1 1 0 spiDemo 60 = [(true, ⟨0xA5, 8, 1, true⟩), (false, ⟨3, 4, 1, true⟩)] := by decide +kernel
example : ((spiPhy 8 1 1 0).wave spiDemo 1).ready = true ∧ ((spiPhy 8 1 1 0).wave spiDemo 33).ready = true := by
  decide +kernel
example : FifoLevel (fun n => ((spiPhy 8 1 1 0).wave spiDemo n).fValid)
    (fun n => ((spiPhy 8 1 1 0).wave spiDemo n).fValid) (fun n => (spiDemo n).level) := by
  refine ⟨rfl, fun n => ?_⟩
  simp [spiDemo]
example : spiPulses 8 1 1 0 spiDemo 60 = [(1, 2), (0, 0), (1, 0), (0, 2), (0, 0), (1, 0), (0, 2), (1, 0)] ++
    [(0, 0), (0, 2), (1, 0), (1, 0)] := by decide +kernel
example : spiResults 8 1 1 0 spiDemo 60 = [(true, 146), (false, 36)] := by decide +kernel
example : 146 % 2 ^ 8 = spiIns 1 [2, 0, 0, 2, 0, 0, 2, 0] ∧ 36 % 2 ^ 4 = spiIns 1 [0, 2, 0, 0] := by decide
example : spiOuts ⟨0xA5, 8, 1, true⟩ = [1, 0, 1, 0, 0, 1, 0, 1] ∧ spiOuts ⟨3, 4, 1, true⟩ = [0, 0, 1, 1] := by decide

end Lambdalib
