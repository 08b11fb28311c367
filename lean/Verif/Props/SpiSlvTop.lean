import Verif.Model.SpiSlvTop
import Verif.Props.SpiSlave
import Verif.Props.I2cBridge
import Verif.Props.UsbHost
import Verif.Spec.SpiUsb

/-! C111: the SPI slave bridge of the examples. -/

namespace Lambdalib

section
variable (nb : Nat) (i : Nat → SlvTopIn)

/-- The pads as inputs of the slave, with the word it may send: 8 bits. -/
def slvTopIn (n : Nat) : SlvIn := ⟨(i n).clk, (i n).csN, (i n).dq, (i n).txValid, (i n).txData, 8⟩

/-- What the master on the pins has sent before cycle `n` (two cycles late), cut into words of 8 bits, with the number of bits: words
cut short by a deselection have fewer. -/
def slvSent (n : Nat) : List (Nat × Nat) := (slvSpec nb [8] (slvSeen true (slvTopIn i) n)).2

/-- The bytes given to the USB device. -/
def slvGot (n : Nat) : List Nat :=
  transferred (fun k => ((slvTop nb).wave i k).valid) (fun k => (i k).ready) (fun k => ((slvTop nb).wave i k).data) n

/-- A word of the slave is lost in cycle `k`. -/
def slvLost (k : Nat) : Prop :=
  ((spiSlave 8 nb true [8]).wave (slvTopIn i) k).fValid = true ∧ (i k).room = false

theorem slvTop_slv (n : Nat) : ((slvTop nb).st i n).slv = (spiSlave 8 nb true [8]).st (slvTopIn i) n := by
  induction n with
  | zero => rfl
  | succ n ih => rw [Circuit.st_succ, Circuit.st_succ, ← ih]; rfl

theorem slvTop_fifo_succ (n : Nat) : ((slvTop nb).st i (n + 1)).fifo =
    (if ((slvTop nb).wave i n).valid && (i n).ready then ((slvTop nb).st i n).fifo.tail else ((slvTop nb).st i n).fifo) ++
      (if ((spiSlave 8 nb true [8]).wave (slvTopIn i) n).fValid && (i n).room then
        [((spiSlave 8 nb true [8]).wave (slvTopIn i) n).fData] else []) := by
  have h : ((slvTop nb).st i (n + 1)).fifo =
    (if ((slvTop nb).wave i n).valid && (i n).ready then ((slvTop nb).st i n).fifo.tail else ((slvTop nb).st i n).fifo) ++
      (if ((spiSlave 8 nb true [8]).out ((slvTop nb).st i n).slv (slvTopIn i n)).fValid && (i n).room then
        [((spiSlave 8 nb true [8]).out ((slvTop nb).st i n).slv (slvTopIn i n)).fData] else []) := rfl
  rw [h, slvTop_slv]
  rfl

theorem slvLog_succ (n : Nat) : slvLog 8 nb true [8] (slvTopIn i) (n + 1) = slvLog 8 nb true [8] (slvTopIn i) n ++
    (if ((spiSlave 8 nb true [8]).wave (slvTopIn i) n).fValid then
      [(((spiSlave 8 nb true [8]).wave (slvTopIn i) n).fData, ((spiSlave 8 nb true [8]).wave (slvTopIn i) n).fLen)] else []) := by
  have h : slvLog 8 nb true [8] (slvTopIn i) (n + 1) = slvLog 8 nb true [8] (slvTopIn i) n ++
    (if ((spiSlave 8 nb true [8]).wave (slvTopIn i) n).fValid && true then
      [(((spiSlave 8 nb true [8]).wave (slvTopIn i) n).fData, ((spiSlave 8 nb true [8]).wave (slvTopIn i) n).fLen)] else []) := rfl
  rw [h, Bool.and_true]

theorem slvTop_words (n : Nat) (hroom : ∀ k < n, ¬ slvLost nb i k) :
    (slvLog 8 nb true [8] (slvTopIn i) n).map Prod.fst = slvGot nb i n ++ ((slvTop nb).st i n).fifo := by
  induction n with
  | zero => rfl
  | succ n ih =>
    have hg : slvGot nb i (n + 1) = slvGot nb i n ++
      (if ((slvTop nb).wave i n).valid && (i n).ready then [((slvTop nb).wave i n).data] else []) := rfl
    have hv : ((slvTop nb).wave i n).valid = true → ((slvTop nb).st i n).fifo =
        ((slvTop nb).wave i n).data :: ((slvTop nb).st i n).fifo.tail := by
      intro h
      have h : ((i n).avail && !((slvTop nb).st i n).fifo.isEmpty) = true := h
      change ((slvTop nb).st i n).fifo = ((slvTop nb).st i n).fifo.headD 0 :: ((slvTop nb).st i n).fifo.tail
      generalize ((slvTop nb).st i n).fifo = f at h ⊢
      cases f
      · simp at h
      · rfl
    have hr : ((spiSlave 8 nb true [8]).wave (slvTopIn i) n).fValid = true → (i n).room = true := by
      intro h
      cases hx : (i n).room
      · exact absurd ⟨h, hx⟩ (hroom n (by omega))
      · rfl
    rw [slvLog_succ, hg, slvTop_fifo_succ, List.map_append, ih fun k hk => hroom k (by omega)]
    have e : List.map Prod.fst (if ((spiSlave 8 nb true [8]).wave (slvTopIn i) n).fValid then
      [(((spiSlave 8 nb true [8]).wave (slvTopIn i) n).fData, ((spiSlave 8 nb true [8]).wave (slvTopIn i) n).fLen)] else []) =
      (if ((spiSlave 8 nb true [8]).wave (slvTopIn i) n).fValid && (i n).room then
        [((spiSlave 8 nb true [8]).wave (slvTopIn i) n).fData] else []) := by
      by_cases h : ((spiSlave 8 nb true [8]).wave (slvTopIn i) n).fValid = true
      · rw [h, hr h]; rfl
      · rw [Bool.not_eq_true] at h; rw [h]; rfl
    rw [e]
    by_cases h : (((slvTop nb).wave i n).valid && (i n).ready) = true
    · rw [if_pos h, if_pos h]
      rw [Bool.and_eq_true] at h
      conv => lhs; rw [hv h.1]
      simp
    · rw [if_neg h, if_neg h]
      simp

theorem slv_log_lt (n : Nat) : ∀ w ∈ slvLog 8 nb true [8] (slvTopIn i) n, w.1 < 256 := by
  have hreg : ∀ m, ((spiSlave 8 nb true [8]).st (slvTopIn i) m).regIn < 256 := by
    apply Circuit.st_invariant (spiSlave 8 nb true [8]) (fun s => s.regIn < 256) (by show 0 < 256; omega)
    intro s x h
    show (if slvSample true s then _ else _) < 256
    split
    · exact Nat.mod_lt _ (by omega)
    · exact h
  induction n with
  | zero => simp [slvLog, transferred]
  | succ n ih =>
    rw [slvLog_succ]
    intro w hw
    rcases List.mem_append.mp hw with h | h
    · exact ih w h
    · split at h
      · obtain rfl : w = _ := by simpa using h
        exact hreg n
      · simp at h

variable (hnb : nb = 1 ∨ nb = 2 ∨ nb = 4 ∨ nb = 8)
include hnb

theorem slvTop_cfg : SlvCfg 8 nb [8] :=
  ⟨by omega, by simp, by
    intro k hk
    obtain rfl : k = 8 := by simpa using hk
    refine ⟨by omega, by omega, ?_⟩
    rcases hnb with rfl | rfl | rfl | rfl <;> decide⟩

/-- A word complete for the specification is given to the FIFO in this cycle at the latest. -/
theorem slv_sent_log (n : Nat) : slvSent nb i n <+: slvCut (slvLog 8 nb true [8] (slvTopIn i) (n + 1)) := by
  rw [slvLog_succ]
  rcases slv_inv 8 nb true [8] (slvTopIn i) (slvTop_cfg nb hnb) (fun _ _ _ => .inr (slvSpec_stage_zero nb 8 _)) n with
    ⟨_, h⟩ | ⟨v, l, hB, h⟩
  · rw [slvSent, h]
    unfold slvCut
    rw [List.map_append]
    exact List.prefix_append _ _
  · have hp : ((spiSlave 8 nb true [8]).wave (slvTopIn i) n).fValid = true := by
      show slvPush true [8] _ = true
      have h0 : ((spiSlave 8 nb true [8]).st (slvTopIn i) n).idx = 0 := by have := hB.idxLt; simpa using this
      simp [slvPush, slvSample, slvRise, hB.edge, hB.cnt, hB.full, h0]
    have e1 : ((spiSlave 8 nb true [8]).wave (slvTopIn i) n).fData = ((spiSlave 8 nb true [8]).st (slvTopIn i) n).regIn := rfl
    have e2 : ((spiSlave 8 nb true [8]).wave (slvTopIn i) n).fLen = ((spiSlave 8 nb true [8]).st (slvTopIn i) n).cntIn := rfl
    rw [hp, if_pos rfl, slvSent, h, e1, e2]
    unfold slvCut
    rw [List.map_append, List.map_cons, List.map_nil, hB.cnt, hB.reg]
    exact List.prefix_refl _

/-- **C111.** If no word is lost, the bytes given to the USB device are those that the master sent, in order; at most one more than the
FIFO holds are still under way. The low bits are right even if words are cut short. -/
theorem C111_low_bits (n : Nat) (hroom : ∀ k < n, ¬ slvLost nb i k) :
    ∃ L p : List (Nat × Nat), p.length ≤ 1 ∧ slvSent nb i n = L.map (fun w => (w.1 % 2 ^ w.2, w.2)) ++ p ∧
      L.map Prod.fst = slvGot nb i n ++ ((slvTop nb).st i n).fifo := by
  obtain ⟨p, hp, h⟩ := C41_words_single 8 nb true (slvTopIn i) 8 (by omega) (by
    refine ⟨by omega, by omega, ?_⟩
    rcases hnb with rfl | rfl | rfl | rfl <;> decide) n
  exact ⟨_, p, hp, h, slvTop_words nb i n hroom⟩

/-- **C111.** The other direction: the pins and `link.source.ready` are those of the transmitter of C71, which is late by one bit. -/
theorem C111_transmit (n : Nat) :
    ((slvTop nb).wave i n).dqO = (slvTxOf nb true (slvTopIn i) n).pins ∧
      ((slvTop nb).wave i n).txReady = (!slvCsN (slvTopIn i) n && decide ((slvTxOf nb true (slvTopIn i) n).todo = [])) := by
  have h := C71_transmit_partial 8 nb true [8] (slvTopIn i) (by omega) (by
    intro k _
    refine ⟨?_, Nat.le_refl 8⟩
    show nb ∣ 8
    rcases hnb with rfl | rfl | rfl | rfl <;> decide) n
  have e : (slvTop nb).wave i n = ⟨(i n).avail && !((slvTop nb).st i n).fifo.isEmpty, false, ((slvTop nb).st i n).fifo.headD 0,
    ((spiSlave 8 nb true [8]).out ((slvTop nb).st i n).slv (slvTopIn i n)).ready,
    ((spiSlave 8 nb true [8]).out ((slvTop nb).st i n).slv (slvTopIn i n)).dqO⟩ := rfl
  rw [e, slvTop_slv]
  exact h

omit hnb in
theorem slv_whole (l L p : List (Nat × Nat)) (h : l = L.map (fun w => (w.1 % 2 ^ w.2, w.2)) ++ p) (hlt : ∀ w ∈ L, w.1 < 256)
    (hw : ∀ w ∈ l, w.2 = 8) : l.map Prod.fst = L.map Prod.fst ++ p.map Prod.fst := by
  subst h
  rw [List.map_append, List.map_map]
  congr 1
  apply List.map_congr_left
  intro w hm
  have : w.2 = 8 := hw (w.1 % 2 ^ w.2, w.2) (List.mem_append_left _ (List.mem_map.mpr ⟨w, hm, rfl⟩))
  have h2 := hlt w hm
  simp only [Function.comp, this]
  omega

/-- **C111.** If the master sends whole bytes and no word is lost, the bytes given to the USB device are those that the master sent, in
order; at most one more than the FIFO holds are still under way. Missing: words cut short, see `C111_partial_byte_refuted`, and the loss
of words, see `C111_overflow_refuted`. -/
theorem C111_bytes_partial (n : Nat) (hroom : ∀ k < n, ¬ slvLost nb i k) (hwhole : ∀ w ∈ slvSent nb i n, w.2 = 8) :
    ∃ p, p.length ≤ 1 ∧ (slvSent nb i n).map Prod.fst = slvGot nb i n ++ ((slvTop nb).st i n).fifo ++ p := by
  obtain ⟨p, hp, h⟩ := C41_words_single 8 nb true (slvTopIn i) 8 (by omega) (by
    refine ⟨by omega, by omega, ?_⟩
    rcases hnb with rfl | rfl | rfl | rfl <;> decide) n
  refine ⟨p.map Prod.fst, by rwa [List.length_map], ?_⟩
  rw [← slvTop_words nb i n hroom]
  exact slv_whole _ _ p h (slv_log_lt nb i n) hwhole

/-- **C111.** If moreover the USB device takes words again and again, every byte that the master sent is given to it at some time. -/
theorem C111_delivered (hroom : ∀ k, ¬ slvLost nb i k) (htakes : ∀ n, ∃ m, n ≤ m ∧ (i m).ready = true ∧ (i m).avail = true) (n : Nat)
    (hwhole : ∀ w ∈ slvSent nb i n, w.2 = 8) : ∃ m, (slvSent nb i n).map Prod.fst <+: slvGot nb i m := by
  have hlog := slv_sent_log nb i hnb n
  obtain ⟨p, hp⟩ := hlog
  have h1 : (slvSent nb i n).map Prod.fst <+: (slvLog 8 nb true [8] (slvTopIn i) (n + 1)).map Prod.fst := by
    have hlen := congrArg List.length hp
    have e : slvSent nb i n = ((slvLog 8 nb true [8] (slvTopIn i) (n + 1)).take (slvSent nb i n).length).map
        (fun w => (w.1 % 2 ^ w.2, w.2)) ++ [] := by
      rw [List.append_nil, List.map_take]
      change _ = (slvCut _).take _
      rw [← hp, List.take_left]
    rw [slv_whole _ _ [] e (fun w hw => slv_log_lt nb i _ w (List.mem_of_mem_take hw)) hwhole, List.map_nil, List.append_nil,
      List.map_take]
    exact List.take_prefix _ _
  have hmono : ∀ a b, a ≤ b → slvLog 8 nb true [8] (slvTopIn i) a <+: slvLog 8 nb true [8] (slvTopIn i) b := by
    intro a b hab
    obtain ⟨k, rfl⟩ := Nat.exists_eq_add_of_le hab
    exact transferred_prefix _ _ _ a k
  have hgot : ∀ a b, a ≤ b → slvGot nb i a <+: slvGot nb i b := by
    intro a b hab
    obtain ⟨k, rfl⟩ := Nat.exists_eq_add_of_le hab
    exact transferred_prefix _ _ _ a k
  have key : ∀ j, j ≤ (slvLog 8 nb true [8] (slvTopIn i) (n + 1)).length → ∃ m, n + 1 ≤ m ∧ j ≤ (slvGot nb i m).length := by
    intro j
    induction j with
    | zero => intro _; exact ⟨n + 1, Nat.le_refl _, Nat.zero_le _⟩
    | succ j ih =>
      intro hj
      obtain ⟨m, hm, hjm⟩ := ih (by omega)
      obtain ⟨m', hm', hr, ha⟩ := htakes m
      have hg := (hgot m m' hm').length_le
      by_cases hd : j + 1 ≤ (slvGot nb i m').length
      · exact ⟨m', by omega, hd⟩
      · have hw := congrArg List.length (slvTop_words nb i m' fun k _ => hroom k)
        rw [List.length_map, List.length_append] at hw
        have hl := (hmono (n + 1) m' (by omega)).length_le
        refine ⟨m' + 1, by omega, ?_⟩
        have hs : slvGot nb i (m' + 1) = slvGot nb i m' ++
          (if ((slvTop nb).wave i m').valid && (i m').ready then [((slvTop nb).wave i m').data] else []) := rfl
        have hv : ((slvTop nb).wave i m').valid = true := by
          show ((i m').avail && !((slvTop nb).st i m').fifo.isEmpty) = true
          rw [ha]
          have : ((slvTop nb).st i m').fifo ≠ [] := by intro e; rw [e] at hw; simp at hw; omega
          simpa using this
        rw [hs, hv, hr]
        simp
        omega
  obtain ⟨m, hm, hl⟩ := key _ (Nat.le_refl _)
  refine ⟨m, h1.trans ?_⟩
  have hw := slvTop_words nb i m fun k _ => hroom k
  have hp2 : (slvLog 8 nb true [8] (slvTopIn i) (n + 1)).map Prod.fst <+: (slvLog 8 nb true [8] (slvTopIn i) m).map Prod.fst :=
    (hmono (n + 1) m hm).map _
  rw [hw] at hp2
  exact List.prefix_of_prefix_length_le hp2 (List.prefix_append _ _) (by rwa [List.length_map])

/-- Time since a word was given to the FIFO: two cycles for each group of the next one. -/
theorem slv_apart (n t : Nat) (ht : t < n) (hp : slvPush true [8] ((spiSlave 8 nb true [8]).st (slvTopIn i) t) = true)
    (hno : ∀ k, t < k → k < n → slvPush true [8] ((spiSlave 8 nb true [8]).st (slvTopIn i) k) = false) :
    nb * t + 2 * ((spiSlave 8 nb true [8]).st (slvTopIn i) n).cntIn + nb ≤ nb * n ∨
      (((spiSlave 8 nb true [8]).st (slvTopIn i) n).clkR = true ∧
        nb * t + 2 * ((spiSlave 8 nb true [8]).st (slvTopIn i) n).cntIn ≤ nb * n) := by
  induction n with
  | zero => omega
  | succ n ih =>
    have hle : ((spiSlave 8 nb true [8]).st (slvTopIn i) n).cntIn ≤ 8 ∧
        (slvSample true ((spiSlave 8 nb true [8]).st (slvTopIn i) n) = true →
          ((spiSlave 8 nb true [8]).st (slvTopIn i) n).cntIn + nb ≤ 8) := by
      rcases slv_inv 8 nb true [8] (slvTopIn i) (slvTop_cfg nb hnb) (fun _ _ _ => .inr (slvSpec_stage_zero nb 8 _)) n with
        ⟨hA, _⟩ | ⟨v, l, hB, _⟩
      · have h0 : ((spiSlave 8 nb true [8]).st (slvTopIn i) n).idx = 0 := by have := hA.idxLt; simpa using this
        have h1 := hA.lt
        have h2 := hA.cnt
        rw [h0] at h1
        simp only [List.getD_cons_zero] at h1
        refine ⟨by omega, fun _ => ?_⟩
        rcases hnb with rfl | rfl | rfl | rfl <;> omega
      · have h0 : ((spiSlave 8 nb true [8]).st (slvTopIn i) n).idx = 0 := by have := hB.idxLt; simpa using this
        have h1 := hB.full
        rw [h0] at h1
        simp only [List.getD_cons_zero] at h1
        refine ⟨by rw [hB.cnt]; omega, fun hs => ?_⟩
        simp [slvSample, slvRise, hB.edge] at hs
    have hnx : ((spiSlave 8 nb true [8]).st (slvTopIn i) (n + 1)).cntIn =
        (if slvSample true ((spiSlave 8 nb true [8]).st (slvTopIn i) n) then
          truncRange 9 (((spiSlave 8 nb true [8]).st (slvTopIn i) n).cntIn + nb)
        else if slvPush true [8] ((spiSlave 8 nb true [8]).st (slvTopIn i) n) then 0
        else ((spiSlave 8 nb true [8]).st (slvTopIn i) n).cntIn) := rfl
    have hck : ((spiSlave 8 nb true [8]).st (slvTopIn i) (n + 1)).clkR = ((spiSlave 8 nb true [8]).st (slvTopIn i) n).clk2 := rfl
    have hm : nb * (n + 1) = nb * n + nb := rfl
    rw [hnx, hck, hm]
    by_cases htn : t = n
    · subst htn
      have hns : slvSample true ((spiSlave 8 nb true [8]).st (slvTopIn i) t) = false := by
        unfold slvPush at hp
        rw [Bool.and_eq_true] at hp
        simpa using hp.1
      rw [hns, hp]
      left
      simp
    · have ih := ih (by omega) fun k h1 h2 => hno k h1 (by omega)
      rw [hno n (by omega) (by omega)]
      cases hs : slvSample true ((spiSlave 8 nb true [8]).st (slvTopIn i) n) with
      | false =>
        left
        simp only [Bool.false_eq_true, if_false]
        rcases ih with h | h <;> omega
      | true =>
        have h1 := hle.2 hs
        have hs' : (!((spiSlave 8 nb true [8]).st (slvTopIn i) n).cs2 && !((spiSlave 8 nb true [8]).st (slvTopIn i) n).clkR &&
          ((spiSlave 8 nb true [8]).st (slvTopIn i) n).clk2) = true := hs
        simp only [Bool.and_eq_true] at hs'
        right
        rw [if_pos rfl]
        have htr : truncRange 9 (((spiSlave 8 nb true [8]).st (slvTopIn i) n).cntIn + nb) =
            ((spiSlave 8 nb true [8]).st (slvTopIn i) n).cntIn + nb := by
          have : ∀ c, c ≤ 8 → truncRange 9 c = c := by decide
          exact this _ h1
        rw [htr]
        refine ⟨hs'.2, ?_⟩
        rcases ih with h | h
        · omega
        · rw [h.1] at hs'; simp at hs'

/-- **C111.** When the master sends whole bytes, these come at least two cycles per clock pulse apart. So if the USB device takes a word in
each such time, and the FIFO has room for at least two words, no word is lost. -/
theorem C111_room (hfifo : ∀ n, ((slvTop nb).st i n).fifo.length < 2 → (i n).room = true)
    (hwin : ∀ n, ∃ m, n ≤ m ∧ m < n + 2 * (8 / nb) ∧ (i m).ready = true ∧ (i m).avail = true)
    (hwhole : ∀ n, ∀ w ∈ slvSent nb i n, w.2 = 8) (k : Nat) : ¬ slvLost nb i k := by
  have hcnt : ∀ n, slvPush true [8] ((spiSlave 8 nb true [8]).st (slvTopIn i) n) = true →
      ((spiSlave 8 nb true [8]).st (slvTopIn i) n).cntIn = 8 := by
    intro n hp
    obtain ⟨p, hp1, h⟩ := C41_words_single 8 nb true (slvTopIn i) 8 (by omega) (by
      refine ⟨by omega, by omega, ?_⟩
      rcases hnb with rfl | rfl | rfl | rfl <;> decide) (n + 1)
    have hm : (((spiSlave 8 nb true [8]).st (slvTopIn i) n).regIn, ((spiSlave 8 nb true [8]).st (slvTopIn i) n).cntIn) ∈
        slvLog 8 nb true [8] (slvTopIn i) (n + 1) := by
      rw [slvLog_succ]
      apply List.mem_append_right
      have : ((spiSlave 8 nb true [8]).wave (slvTopIn i) n).fValid = true := hp
      rw [this, if_pos rfl]
      exact List.mem_singleton.mpr rfl
    have := hwhole (n + 1) (((spiSlave 8 nb true [8]).st (slvTopIn i) n).regIn %
        2 ^ ((spiSlave 8 nb true [8]).st (slvTopIn i) n).cntIn, ((spiSlave 8 nb true [8]).st (slvTopIn i) n).cntIn) (by
      rw [slvSent, h]
      exact List.mem_append_left _ (List.mem_map.mpr ⟨_, hm, rfl⟩))
    exact this
  have hinv : ∀ n, ((slvTop nb).st i n).fifo = [] ∨ (((slvTop nb).st i n).fifo.length = 1 ∧ ∃ t, t < n ∧
      slvPush true [8] ((spiSlave 8 nb true [8]).st (slvTopIn i) t) = true ∧
      (∀ k, t < k → k < n → slvPush true [8] ((spiSlave 8 nb true [8]).st (slvTopIn i) k) = false) ∧
      ∀ k, t < k → k < n → ((i k).ready && (i k).avail) = false) := by
    intro n
    induction n with
    | zero => exact .inl rfl
    | succ n ih =>
      have hf := slvTop_fifo_succ nb i n
      have hval : ((slvTop nb).wave i n).valid = ((i n).avail && !((slvTop nb).st i n).fifo.isEmpty) := rfl
      have hfv : ((spiSlave 8 nb true [8]).wave (slvTopIn i) n).fValid =
        slvPush true [8] ((spiSlave 8 nb true [8]).st (slvTopIn i) n) := rfl
      have hroom : (i n).room = true := by
        apply hfifo
        rcases ih with h | ⟨h, _⟩ <;> rw [h] <;> simp
      rw [hfv, hroom, Bool.and_true] at hf
      rcases ih with h | ⟨h, t, ht, hp, hno, hnr⟩
      · rw [hval, h] at hf
        simp only [List.isEmpty_nil, Bool.not_true, Bool.and_false, Bool.false_and, Bool.false_eq_true, if_false, List.nil_append] at hf
        cases hq : slvPush true [8] ((spiSlave 8 nb true [8]).st (slvTopIn i) n) with
        | false => left; rw [hf, hq]; rfl
        | true =>
          right
          refine ⟨by rw [hf, hq]; rfl, n, by omega, hq, fun k _ _ => by omega, fun k _ _ => by omega⟩
      · obtain ⟨w, hw⟩ : ∃ w, ((slvTop nb).st i n).fifo = [w] := List.length_eq_one_iff.mp h
        rw [hval, hw] at hf
        simp only [List.isEmpty_cons, Bool.not_false, Bool.and_true, List.tail_cons] at hf
        cases hq : slvPush true [8] ((spiSlave 8 nb true [8]).st (slvTopIn i) n) with
        | false =>
          rw [hq] at hf
          simp only [Bool.false_eq_true, if_false, List.append_nil] at hf
          by_cases hr : ((i n).avail && (i n).ready) = true
          · left; rw [hf, if_pos hr]
          · right
            rw [Bool.not_eq_true] at hr
            refine ⟨by rw [hf, hr]; rfl, t, by omega, hp, ?_, ?_⟩
            · intro k h1 h2
              by_cases hk : k = n
              · rw [hk]; exact hq
              · exact hno k h1 (by omega)
            · intro k h1 h2
              by_cases hk : k = n
              · rw [hk, Bool.and_comm]; exact hr
              · exact hnr k h1 (by omega)
        | true =>
          have hc := hcnt n hq
          have ha := slv_apart nb i hnb n t ht hp hno
          rw [hc] at ha
          obtain ⟨m, h1, h2, h3, h4⟩ := hwin (t + 1)
          have hn : t + 2 * (8 / nb) ≤ n := by
            rcases hnb with rfl | rfl | rfl | rfl <;> rcases ha with ha | ha <;> omega
          have hm : m = n := by
            apply Classical.byContradiction
            intro hne
            have := hnr m (by omega) (by omega)
            rw [h3, h4] at this
            cases this
          subst hm
          right
          rw [hq, h3, h4] at hf
          refine ⟨by rw [hf]; rfl, m, by omega, hq, fun k _ _ => by omega, fun k _ _ => by omega⟩
  intro hl
  have : (i k).room = true := by
    apply hfifo
    rcases hinv k with h | ⟨h, _⟩ <;> rw [h] <;> simp
  rw [hl.2] at this
  cases this

end

/-! The host. The slave never sets `last`, so that the USB device sends full packets only. -/

/-- **C111.** `last` is never set. -/
theorem C111_last (nb : Nat) (i : Nat → SlvTopIn) (n : Nat) : ((slvTop nb).wave i n).last = false := rfl

theorem usbFullPackets_succ (size : Nat) (hs : 0 < size) (l : List Nat) (h : size ≤ l.length) :
    usbFullPackets size l = l.take size :: usbFullPackets size (l.drop size) := by
  unfold usbFullPackets
  obtain ⟨k, hk⟩ : ∃ k, l.length / size = k + 1 := ⟨l.length / size - 1, by have := Nat.div_pos h hs; omega⟩
  have hk2 : (l.drop size).length / size = k := by
    have := Nat.div_eq_sub_div hs h
    rw [List.length_drop]
    omega
  rw [hk, hk2, List.range_succ_eq_map, List.map_cons, List.map_map]
  simp only [Nat.zero_mul, List.drop_zero]
  congr 1
  apply List.map_congr_left
  intro j _
  simp only [Function.comp, List.drop_drop]
  rw [show size + j * size = (j + 1) * size by rw [Nat.add_mul]; omega]

/-- **C111.** Calls of `recv` return the bytes given to the USB device, `size` at a time. Missing: what does not fill a packet, see
`C111_short_refuted`. -/
theorem C111_recv_partial (asynchronous : Bool) (size : Nat) (hs : 0 < size) (l : List Nat) :
    usbRecvAll asynchronous size (List.replicate (l.length / size) size) (usbFullPackets size l) = (some (usbFullPackets size l), []) ∧
      (usbFullPackets size l).flatten = l.take (l.length / size * size) := by
  generalize hk : l.length / size = k
  induction k generalizing l with
  | zero =>
    have : usbFullPackets size l = [] := by unfold usbFullPackets; rw [hk]; rfl
    rw [this]
    simp [usbRecvAll]
  | succ k ih =>
    have hge : size ≤ l.length := by
      apply Classical.byContradiction; intro hc
      rw [Nat.div_eq_of_lt (by omega)] at hk; omega
    have hkd : (l.drop size).length / size = k := by
      have := Nat.div_eq_sub_div hs hge
      rw [List.length_drop]
      omega
    obtain ⟨h1, h2⟩ := ih (l.drop size) hkd
    have hl : (l.take size).length = size := by rw [List.length_take]; omega
    have hr : usbRecv asynchronous size (some size) (l.take size :: usbFullPackets size (l.drop size)) =
        (some (.ok (l.take size)), usbFullPackets size (l.drop size)) := by
      unfold usbRecv
      simp only [bulkIn, hl, Nat.lt_irrefl, if_false, or_true, if_true]
      cases asynchronous <;> rfl
    constructor
    · rw [usbFullPackets_succ size hs l hge, List.replicate_succ, usbRecvAll, hr]
      simp only
      rw [h1]
      rfl
    · rw [usbFullPackets_succ size hs l hge, List.flatten_cons, h2, show (k + 1) * size = size + k * size by rw [Nat.add_mul]; omega,
        List.take_add]

/-- **C111 is refuted** for transfers that do not fill a packet: `recv` returns nothing, or not at all, although the bytes have been given
to the USB device. -/
theorem C111_short_refuted (asynchronous : Bool) (size : Nat) (l : List Nat) (h : l.length < size) :
    usbRecv asynchronous size none (usbFullPackets size l) = (if asynchronous then none else some (.ok []), []) := by
  have : usbFullPackets size l = [] := by unfold usbFullPackets; rw [Nat.div_eq_of_lt h]; rfl
  rw [this]
  cases asynchronous <;> rfl

/-- A master that sends `bits` bits with four cycles per bit, all high except the very last one; the USB device takes words from cycle
`take` on, and the FIFO is full from cycle `full` until then. -/
def slvTopDemo (bits take full : Nat) (n : Nat) : SlvTopIn :=
  ⟨decide (16 ≤ n ∧ n < 16 + 4 * bits ∧ n % 4 / 2 = 1), !decide (8 ≤ n ∧ n < 24 + 4 * bits), if n / 4 + 1 = 4 + bits then 0 else 1,
    false, 0, decide (take ≤ n), decide (n < full ∨ take < n), true⟩

/-- **C111 is refuted** for words cut short: of nine bits 1, 1, 1, 1, 1, 1, 1, 1, 0 the bridge delivers two bytes, the second with bits of
the first. -/
theorem C111_partial_byte_refuted : slvSent 1 (slvTopDemo 9 0 1000) 80 = [(255, 8), (0, 1)] ∧
    slvGot 1 (slvTopDemo 9 0 1000) 80 = [255, 254] := by decide +kernel

/-- **C111 is refuted** when the USB device does not take words for a while, as when the host does not ask for any: with the FIFO of eight
words, the ninth is lost without a trace. -/
theorem C111_overflow_refuted :
    (∀ n < 400, (slvTopDemo 72 350 274 n).room = decide (((slvTop 1).st (slvTopDemo 72 350 274) n).fifo.length < 8)) ∧
      (slvSent 1 (slvTopDemo 72 350 274) 400).map Prod.fst = [255, 255, 255, 255, 255, 255, 255, 255, 254] ∧
      slvGot 1 (slvTopDemo 72 350 274) 400 = [255, 255, 255, 255, 255, 255, 255, 255] ∧
      ((slvTop 1).st (slvTopDemo 72 350 274) 400).fifo = [] := by decide +kernel

/-! Concrete cases. -/

/-- Two bytes, the USB device always ready. -/
example : slvSent 1 (slvTopDemo 16 0 0) 100 = [(255, 8), (254, 8)] ∧ slvGot 1 (slvTopDemo 16 0 0) 100 = [255, 254] := by decide +kernel

/-- The FIFO always takes words, so that none is lost. -/
example (k : Nat) : ¬ slvLost 1 (slvTopDemo 16 0 1) k := fun h => by
  have : decide (k < 1 ∨ 0 < k) = false := h.2
  simp at this

/-- The hypotheses of `C111_room` on the FIFO and the USB device, and that of `C111_delivered`. -/
example (bits : Nat) : (∀ n, ((slvTop 1).st (slvTopDemo bits 0 1) n).fifo.length < 2 → (slvTopDemo bits 0 1 n).room = true) ∧
    ∀ n, ∃ m, n ≤ m ∧ m < n + 2 * (8 / 1) ∧ (slvTopDemo bits 0 1 m).ready = true ∧ (slvTopDemo bits 0 1 m).avail = true :=
  ⟨fun n _ => decide_eq_true (by omega), fun n => ⟨n, Nat.le_refl _, by omega, decide_eq_true (Nat.zero_le n), rfl⟩⟩

/-- Packets of two bytes: the fifth byte does not arrive. -/
example : usbFullPackets 2 [1, 2, 3, 4, 5] = [[1, 2], [3, 4]] ∧
    usbRecvAll false 2 [2, 2] [[1, 2], [3, 4]] = (some [[1, 2], [3, 4]], []) := ⟨rfl, rfl⟩

end Lambdalib
