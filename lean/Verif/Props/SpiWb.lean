import Verif.Model.SpiWb
import Verif.Spec.SpiWb
import Verif.Props.SpiLink
import Verif.Props.SpiBridge
import Verif.Props.RegsStream

/-! C101: words given to `SPIStream` on one side become bus cycles of `SPIWishboneBridge` on the other side. -/

namespace Lambdalib

section
variable (W nb div csDelay aw : Nat) (miso : Bool) {σ : Type}
  (f : Circuit σ (FifoIn (1 + (1 + spiWbBits W))) (FifoOut (1 + (1 + spiWbBits W)))) (i : Nat → SpiWbIn)

/-- Words accepted from the user of `SPIStream`, as the slave should receive them: data and number of bits. -/
def spiWbSent (n : Nat) : List (Nat × Nat) :=
  transferred (fun k => (i k).link.dValid) (fun k => ((spiWb W nb div csDelay aw miso f).wave i k).1.str.dReady)
    (fun k => ((i k).link.dData % 2 ^ W, W)) n

/-- Words the bridge has taken. -/
def spiWbTaken (n : Nat) : List (Nat × Nat) :=
  brgWords W aw (fun k => spiWbBrg W nb div csDelay aw miso f ((spiWb W nb div csDelay aw miso f).st i k) (i k)) n

/-- Finished bus cycles. -/
def spiWbBus (n : Nat) : List WbXfer :=
  transferred (fun k => ((spiWb W nb div csDelay aw miso f).wave i k).2.cyc && ((spiWb W nb div csDelay aw miso f).wave i k).2.stb)
    (fun k => (i k).ack)
    (fun k => ⟨((spiWb W nb div csDelay aw miso f).wave i k).2.we, ((spiWb W nb div csDelay aw miso f).wave i k).2.adr,
      if ((spiWb W nb div csDelay aw miso f).wave i k).2.we then ((spiWb W nb div csDelay aw miso f).wave i k).2.datW
        else (i k).datR⟩) n

/-- Replies given to the slave, with `last`. -/
def spiWbReplies (n : Nat) : List (Nat × Bool) :=
  transferred (fun k => ((spiWb W nb div csDelay aw miso f).wave i k).2.valid)
    (fun k => ((spiWb W nb div csDelay aw miso f).wave i k).1.slv.ready)
    (fun k => (((spiWb W nb div csDelay aw miso f).wave i k).2.data, ((spiWb W nb div csDelay aw miso f).wave i k).2.last)) n

/-- Inputs of the parts. -/
def wbLi (n : Nat) : SpiLinkIn := spiWbLink W nb div csDelay aw miso f ((spiWb W nb div csDelay aw miso f).st i n) (i n)
def wbFi (n : Nat) : SIn (BitVec (spiWbBits W)) :=
  spiWbFifo W nb div csDelay aw miso ((spiWb W nb div csDelay aw miso f).st i n) (i n)
def wbBi (n : Nat) : BrgIn := spiWbBrg W nb div csDelay aw miso f ((spiWb W nb div csDelay aw miso f).st i n) (i n)

theorem spiWb_link (n : Nat) : ((spiWb W nb div csDelay aw miso f).st i n).link =
    (spiLink W nb div csDelay W true miso).st (wbLi W nb div csDelay aw miso f i) n := by
  induction n with
  | zero => rfl
  | succ n ih => rw [Circuit.st_succ, Circuit.st_succ, ← ih]; rfl

theorem spiWb_fifo (n : Nat) : ((spiWb W nb div csDelay aw miso f).st i n).fifo =
    (fifoWrapper f).st (wbFi W nb div csDelay aw miso f i) n := by
  induction n with
  | zero => rfl
  | succ n ih => rw [Circuit.st_succ, Circuit.st_succ, ← ih]; rfl

theorem spiWb_brg (n : Nat) : ((spiWb W nb div csDelay aw miso f).st i n).brg =
    (spiBridge W aw).st (wbBi W nb div csDelay aw miso f i) n := by
  induction n with
  | zero => rfl
  | succ n ih => rw [Circuit.st_succ, Circuit.st_succ, ← ih]; rfl

theorem spiWb_wave1 (n : Nat) : ((spiWb W nb div csDelay aw miso f).wave i n).1 =
    (spiLink W nb div csDelay W true miso).wave (wbLi W nb div csDelay aw miso f i) n := by
  simp only [Circuit.wave]; rw [← spiWb_link]; rfl

theorem spiWb_wave2 (n : Nat) : ((spiWb W nb div csDelay aw miso f).wave i n).2 =
    (spiBridge W aw).wave (wbBi W nb div csDelay aw miso f i) n := by
  simp only [Circuit.wave]; rw [← spiWb_brg]; rfl

theorem spiWb_sent (n : Nat) : spiWbSent W nb div csDelay aw miso f i n =
    (linkAcc W nb div csDelay W miso (wbLi W nb div csDelay aw miso f i) n).map fun b => (b.2 % 2 ^ W, W) := by
  unfold spiWbSent linkAcc
  rw [transferred_map]
  apply transferred_congr <;> intro k
  · rfl
  · rw [spiWb_wave1]
  · rfl

theorem spiWb_bus (n : Nat) : spiWbBus W nb div csDelay aw miso f i n = brgXfers W aw (wbBi W nb div csDelay aw miso f i) n := by
  unfold spiWbBus brgXfers
  apply transferred_congr <;> intro k
  · simp only [spiWb_wave2]
  · rfl
  · simp only [spiWb_wave2]; rfl

theorem spiWb_replies (n : Nat) : spiWbReplies W nb div csDelay aw miso f i n =
    brgReplies W aw (wbBi W nb div csDelay aw miso f i) n := by
  unfold spiWbReplies brgReplies
  apply transferred_congr <;> intro k
  · rw [spiWb_wave2]
  · rfl
  · rw [spiWb_wave2]

/-- What the slave gives to the FIFO. -/
theorem wbFi_valid (n : Nat) : (wbFi W nb div csDelay aw miso f i n).valid =
    ((spiLink W nb div csDelay W true miso).wave (wbLi W nb div csDelay aw miso f i) n).slv.fValid := by
  simp only [Circuit.wave]; rw [← spiWb_link]; rfl

theorem wbFi_word (n : Nat) : (wbFi W nb div csDelay aw miso f i n).beat.payload = spiWbPack W
    (((spiLink W nb div csDelay W true miso).wave (wbLi W nb div csDelay aw miso f i) n).slv.fData,
      ((spiLink W nb div csDelay W true miso).wave (wbLi W nb div csDelay aw miso f i) n).slv.fLen) := by
  simp only [Circuit.wave]; rw [← spiWb_link]; rfl

theorem wbBi_valid (n : Nat) : (wbBi W nb div csDelay aw miso f i n).valid =
    ((fifoWrapper f).wave (wbFi W nb div csDelay aw miso f i) n).valid := by
  simp only [Circuit.wave]; rw [← spiWb_fifo]; rfl

theorem wbBi_word (n : Nat) : ((wbBi W nb div csDelay aw miso f i n).data, (wbBi W nb div csDelay aw miso f i n).len) =
    spiWbUnpack W ((fifoWrapper f).wave (wbFi W nb div csDelay aw miso f i) n).beat.payload := by
  simp only [Circuit.wave]; rw [← spiWb_fifo]; rfl

theorem wbFi_ready (n : Nat) : (wbFi W nb div csDelay aw miso f i n).ready =
    ((spiBridge W aw).wave (wbBi W nb div csDelay aw miso f i) n).ready := by
  simp only [Circuit.wave]; rw [← spiWb_brg]; rfl

/-- The bridge takes what the FIFO delivers. -/
theorem spiWb_taken (n : Nat) : spiWbTaken W nb div csDelay aw miso f i n =
    (delivered (fifoWrapper f) (wbFi W nb div csDelay aw miso f i) n).map fun b => spiWbUnpack W b.payload := by
  unfold spiWbTaken delivered
  show brgWords W aw (wbBi W nb div csDelay aw miso f i) n = _
  unfold brgWords
  rw [transferred_map]
  apply transferred_congr <;> intro k
  · exact wbBi_valid ..
  · exact (wbFi_ready ..).symm
  · exact wbBi_word ..

theorem spiWb_unpack (d l : Nat) (hd : d < 2 ^ W) (hl : l ≤ W) : spiWbUnpack W (spiWbPack W (d, l)) = (d, l) := by
  have h1 : truncRange (W + 1) l = l := truncRange_of_lt (by omega)
  have h2 : l < 2 ^ rangeWidth (W + 1) := by
    rw [← h1]; exact Nat.mod_lt _ (Nat.two_pow_pos _)
  unfold spiWbUnpack spiWbPack
  rw [BitVec.toNat_ofNat, h1, Nat.mod_eq_of_lt hd]
  have h3 : d + 2 ^ W * l < 2 ^ spiWbBits W := by
    unfold spiWbBits
    rw [Nat.pow_add]
    have : 2 ^ W * (l + 1) ≤ 2 ^ W * 2 ^ rangeWidth (W + 1) := Nat.mul_le_mul_left _ h2
    rw [Nat.mul_add, Nat.mul_one] at this
    omega
  rw [Nat.mod_eq_of_lt h3, Nat.add_mul_mod_self_left, Nat.mod_eq_of_lt hd,
    Nat.add_mul_div_left _ _ (Nat.two_pow_pos _), Nat.div_eq_of_lt hd, Nat.zero_add]

/-- The receive register has `W` bits. -/
theorem slv_regIn (width nb : Nat) (rising : Bool) (stages : List Nat) (x : Nat → SlvIn) (n : Nat) :
    ((spiSlave width nb rising stages).st x n).regIn < 2 ^ width := by
  induction n with
  | zero => exact Nat.two_pow_pos _
  | succ n ih =>
    rw [Circuit.st_succ]
    generalize (spiSlave width nb rising stages).st x n = s at *
    simp only [spiSlave]
    split
    · exact Nat.mod_lt _ (Nat.two_pow_pos _)
    · exact ih

theorem transferred_extends {β : Type} (v r : Nat → Bool) (b : Nat → β) (k d : Nat) :
    transferred v r b k <+: transferred v r b (k + d) := by
  induction d with
  | zero => exact List.prefix_rfl
  | succ d ih => rw [← Nat.add_assoc, transferred_succ]; exact ih.trans (List.prefix_append _ _)

theorem transferred_mem {β : Type} (v r : Nat → Bool) (b : Nat → β) (P : β → Prop) (h : ∀ k, P (b k)) (n : Nat) :
    ∀ w ∈ transferred v r b n, P w := by
  induction n with
  | zero => intro w hw; exact (nomatch hw)
  | succ n ih =>
    intro w hw
    rw [transferred_succ] at hw
    rcases List.mem_append.mp hw with hw | hw
    · exact ih w hw
    · split at hw
      · rw [List.mem_singleton] at hw; rw [hw]; exact h n
      · exact (nomatch hw)

variable {W nb div csDelay aw miso f i}

/-- Received words are complete. -/
theorem link_rec_words (hc : SpiLinkCfg W nb W) (j : Nat → SpiLinkIn) (n : Nat) :
    slvCut (linkRec W nb div csDelay W miso j n) = linkRec W nb div csDelay W miso j n ∧
    ∀ w ∈ linkRec W nb div csDelay W miso j n, w.1 < 2 ^ W ∧ w.2 = W := by
  have h1 : ∀ w ∈ linkRec W nb div csDelay W miso j n, w.1 < 2 ^ W := by
    unfold linkRec
    apply transferred_mem
    intro k
    simp only [Circuit.wave]
    show ((spiLink W nb div csDelay W true miso).st j k).slv.regIn < _
    rw [link_slv]
    exact slv_regIn ..
  have h2 : ∀ w ∈ linkRec W nb div csDelay W miso j n, w.2 = W := by
    intro w hw
    have hm : (w.1 % 2 ^ w.2, w.2) ∈ slvCut (linkRec W nb div csDelay W miso j n) := List.mem_map.mpr ⟨w, hw, rfl⟩
    have := (C97_received W nb div csDelay W miso j hc n).subset hm
    obtain ⟨b, _, hb⟩ := List.mem_map.mp this
    exact ((Prod.mk.injEq ..).mp hb).2.symm
  refine ⟨?_, fun w hw => ⟨h1 w hw, h2 w hw⟩⟩
  unfold slvCut
  refine (List.map_congr_left fun w hw => ?_).trans (List.map_id _)
  rw [h2 w hw, Nat.mod_eq_of_lt (h1 w hw), ← h2 w hw]
  rfl

/-- As long as the FIFO has room, it gets all received words. -/
theorem spiWb_accepted (hc : SpiLinkCfg W nb W) (n : Nat)
    (hr : ∀ k, k < n → (wbFi W nb div csDelay aw miso f i k).valid = true →
      ((fifoWrapper f).wave (wbFi W nb div csDelay aw miso f i) k).ready = true) :
    (accepted (fifoWrapper f) (wbFi W nb div csDelay aw miso f i) n).map (fun b => spiWbUnpack W b.payload) =
      linkRec W nb div csDelay W miso (wbLi W nb div csDelay aw miso f i) n := by
  have key : ∀ k, k ≤ n → (accepted (fifoWrapper f) (wbFi W nb div csDelay aw miso f i) k).map (fun b => spiWbUnpack W b.payload) =
      linkRec W nb div csDelay W miso (wbLi W nb div csDelay aw miso f i) k := by
    intro k
    induction k with
    | zero => intro _; rfl
    | succ k ih =>
      intro hk
      have e1 : accepted (fifoWrapper f) (wbFi W nb div csDelay aw miso f i) (k + 1) =
        accepted (fifoWrapper f) (wbFi W nb div csDelay aw miso f i) k ++
        (if (wbFi W nb div csDelay aw miso f i k).valid && ((fifoWrapper f).wave (wbFi W nb div csDelay aw miso f i) k).ready
          then [(wbFi W nb div csDelay aw miso f i k).beat] else []) := rfl
      have e2 : linkRec W nb div csDelay W miso (wbLi W nb div csDelay aw miso f i) (k + 1) =
        linkRec W nb div csDelay W miso (wbLi W nb div csDelay aw miso f i) k ++
        (if ((spiLink W nb div csDelay W true miso).wave (wbLi W nb div csDelay aw miso f i) k).slv.fValid && true then
          [(((spiLink W nb div csDelay W true miso).wave (wbLi W nb div csDelay aw miso f i) k).slv.fData,
            ((spiLink W nb div csDelay W true miso).wave (wbLi W nb div csDelay aw miso f i) k).slv.fLen)] else []) := rfl
      have hw := (link_rec_words (nb := nb) (div := div) (csDelay := csDelay) (miso := miso) hc
        (wbLi W nb div csDelay aw miso f i) (k + 1)).2
      rw [e1, List.map_append, ih (by omega)]
      have hrk := hr k (by omega)
      have hv := wbFi_valid W nb div csDelay aw miso f i k
      have hb := wbFi_word W nb div csDelay aw miso f i k
      cases hq : (wbFi W nb div csDelay aw miso f i k).valid
      · rw [e2, ← hv, hq]; simp
      · rw [e2, ← hv, hq] at hw
        rw [e2, ← hv, hrk hq, hq]
        have := hw _ (List.mem_append_right _ (List.mem_singleton.mpr rfl))
        simp only [Bool.and_self, if_true, List.map_cons, List.map_nil, hb]
        rw [spiWb_unpack _ _ _ this.1 (Nat.le_of_eq this.2)]
  exact key n (Nat.le_refl n)

theorem spiWb_written (k : Nat) : (fifoWritten f (fun k => fifoDrive (wbFi W nb div csDelay aw miso f i k)) k).length =
    (accepted (fifoWrapper f) (wbFi W nb div csDelay aw miso f i) k).length := by
  have : fifoWritten f (fun k => fifoDrive (wbFi W nb div csDelay aw miso f i k)) k =
      (accepted (fifoWrapper f) (wbFi W nb div csDelay aw miso f i) k).map packBeat := by
    unfold accepted fifoWritten
    rw [transferred_map]
    apply transferred_congr <;> intro k
    · rfl
    · simp only [Circuit.wave, fifoWrapper_st]; rfl
    · rfl
  rw [this, List.length_map]

theorem spiWb_read (k : Nat) : (fifoRead f (fun k => fifoDrive (wbFi W nb div csDelay aw miso f i k)) k).length =
    (delivered (fifoWrapper f) (wbFi W nb div csDelay aw miso f i) k).length := by
  have : (fifoRead f (fun k => fifoDrive (wbFi W nb div csDelay aw miso f i k)) k).map unpackBeat =
      delivered (fifoWrapper f) (wbFi W nb div csDelay aw miso f i) k := by
    unfold delivered fifoRead
    rw [transferred_map]
    apply transferred_congr <;> intro k
    · simp only [Circuit.wave, fifoWrapper_st]; rfl
    · rfl
    · simp only [Circuit.wave, fifoWrapper_st]; rfl
  rw [← this, List.length_map]

theorem link_rec_le (hc : SpiLinkCfg W nb W) (n : Nat) :
    linkRec W nb div csDelay W miso (wbLi W nb div csDelay aw miso f i) n <+: spiWbSent W nb div csDelay aw miso f i n := by
  have := C97_received W nb div csDelay W miso (wbLi W nb div csDelay aw miso f i) hc n
  rwa [(link_rec_words hc _ n).1, ← spiWb_sent] at this

theorem link_rec_early (hc : SpiLinkCfg W nb W) (n : Nat) :
    linkRec W nb div csDelay W miso (wbLi W nb div csDelay aw miso f i) (n + 1) <+: spiWbSent W nb div csDelay aw miso f i n := by
  match n with
  | 0 =>
    have e : linkRec W nb div csDelay W miso (wbLi W nb div csDelay aw miso f i) 1 = [] := by
      have hv : ((spiLink W nb div csDelay W true miso).wave (wbLi W nb div csDelay aw miso f i) 0).slv.fValid = false := by
        have : W ≠ 0 := Nat.pos_iff_ne_zero.mp hc.pos
        simp [Circuit.wave, Circuit.st, spiLink, spiSlave, slvPush, slvSample, slvRise, slvEnd, Ne.symm this]
      show [] ++ (if _ && true then _ else []) = []
      beta_reduce
      rw [hv]
      rfl
    rw [e]
    exact List.nil_prefix
  | n + 1 =>
    obtain ⟨A, e, cur, h1, _, _, h4, _⟩ := link_received W nb div csDelay W miso (wbLi W nb div csDelay aw miso f i) hc n
    rw [(link_rec_words hc _ _).1] at h4
    refine h4.trans ?_
    rw [spiWb_sent]
    refine List.IsPrefix.map _ (List.IsPrefix.trans ?_ (link_acc_mono W nb div csDelay W miso (wbLi W nb div csDelay aw miso f i) n 1))
    rw [h1]
    exact List.prefix_append _ _

/-- A master that never has more than 8 words on the way finds the FIFO with room. -/
theorem spiWb_room (hc : SpiLinkCfg W nb W) (hroom : FifoRoom f 8)
    (hs : ∀ n, (spiWbSent W nb div csDelay aw miso f i n).length ≤ (spiWbTaken W nb div csDelay aw miso f i n).length + 8)
    (k : Nat) (hv : (wbFi W nb div csDelay aw miso f i k).valid = true) :
    ((fifoWrapper f).wave (wbFi W nb div csDelay aw miso f i) k).ready = true := by
  induction k using Nat.strongRecOn with
  | ind k ih =>
    have hacc := congrArg List.length (spiWb_accepted hc k (fun j hj hvj => ih j hj hvj))
    have hle := (link_rec_early (div := div) (csDelay := csDelay) (aw := aw) (miso := miso) (f := f) (i := i) hc k).length_le
    have e2 : linkRec W nb div csDelay W miso (wbLi W nb div csDelay aw miso f i) (k + 1) =
      linkRec W nb div csDelay W miso (wbLi W nb div csDelay aw miso f i) k ++
      (if ((spiLink W nb div csDelay W true miso).wave (wbLi W nb div csDelay aw miso f i) k).slv.fValid && true then
        [(((spiLink W nb div csDelay W true miso).wave (wbLi W nb div csDelay aw miso f i) k).slv.fData,
          ((spiLink W nb div csDelay W true miso).wave (wbLi W nb div csDelay aw miso f i) k).slv.fLen)] else []) := rfl
    have hsk := hs k
    rw [e2, ← wbFi_valid, hv, List.length_append] at hle
    rw [List.length_map] at hacc
    rw [spiWb_taken, List.length_map] at hsk
    simp only [Bool.and_self, if_true, List.length_singleton] at hle
    have := hroom (fun k => fifoDrive (wbFi W nb div csDelay aw miso f i k)) k (by rw [spiWb_written, spiWb_read]; omega)
    simp only [Circuit.wave, fifoWrapper_st] at this ⊢
    exact this

/-- C101, the FIFO: the words taken by the bridge are the received ones, in order; the others are in the FIFO. -/
theorem spiWb_words {cap : Nat} (hc : SpiLinkCfg W nb W) (hf : FifoContract f cap) (hroom : FifoRoom f 8)
    (hs : ∀ n, (spiWbSent W nb div csDelay aw miso f i n).length ≤ (spiWbTaken W nb div csDelay aw miso f i n).length + 8) (n : Nat) :
    ∃ q, linkRec W nb div csDelay W miso (wbLi W nb div csDelay aw miso f i) n = spiWbTaken W nb div csDelay aw miso f i n ++ q := by
  obtain ⟨q, h1, _⟩ := C08_fifo_lossless f hf (wbFi W nb div csDelay aw miso f i) n
  rw [← spiWb_accepted hc n (fun k _ => spiWb_room hc hroom hs k), h1, List.map_append, ← spiWb_taken]
  exact ⟨_, rfl⟩

/-- **C101**, for a master that never has more than 8 words given to `SPIStream` and not yet taken by the bridge: at any time the
words given are complete commands, a part of a command and words not yet taken; the finished bus cycles and the replies given to
the slave are those of these commands. Missing: a master that does not wait, for which words are lost
(`C101_overflow_refuted`). -/
theorem C101_bus_partial {cap : Nat} (hW : 8 ≤ W) (hc : SpiLinkCfg W nb W) (hf : FifoContract f cap) (hroom : FifoRoom f 8)
    (hs : ∀ n, (spiWbSent W nb div csDelay aw miso f i n).length ≤ (spiWbTaken W nb div csDelay aw miso f i n).length + 8) (n : Nat) :
    ∃ A X R a x r rest, spiWbSent W nb div csDelay aw miso f i n = A ++ a ++ rest ∧ rest.length ≤ 8 ∧
      spiWbBus W nb div csDelay aw miso f i n = X ++ x ∧ spiWbReplies W nb div csDelay aw miso f i n = R ++ r ∧
      BrgDone W aw A X R ∧ BrgPart W aw a x r := by
  obtain ⟨q, hq⟩ := spiWb_words hc hf hroom hs n
  obtain ⟨q', hq'⟩ := link_rec_le (div := div) (csDelay := csDelay) (aw := aw) (miso := miso) (f := f) (i := i) hc n
  have hx : ∀ n, (wbBi W nb div csDelay aw miso f i n).data < 2 ^ W := fun n => Nat.mod_lt _ (Nat.two_pow_pos _)
  obtain ⟨A, X, R, a, x, r, h1, h2, h3, h4, h5⟩ := C42_commands W aw (wbBi W nb div csDelay aw miso f i) hW hx n
  have h1 : spiWbTaken W nb div csDelay aw miso f i n = A ++ a := h1
  have e : spiWbSent W nb div csDelay aw miso f i n = A ++ a ++ (q ++ q') := by
    rw [← hq', hq, h1]; simp only [List.append_assoc]
  have hl := hs n
  rw [h1, e, List.length_append] at hl
  exact ⟨A, X, R, a, x, r, q ++ q', e, by omega, by rw [spiWb_bus]; exact h2, by rw [spiWb_replies]; exact h3, h4, h5⟩

/-- A word offered to the bridge is taken at some time, if the bus answers again and again while the bridge can use the answer. -/
theorem brg_takes (W aw : Nat) (j : Nat → BrgIn) (hb : 0 < W / 8)
    (hack : ∀ n, ∃ m, n ≤ m ∧ (j m).ack = true ∧
      (((spiBridge W aw).wave j m).cyc = true → ((spiBridge W aw).wave j m).we = false → (j m).ready = true))
    (hst : ∀ n, (j n).valid = true → ((spiBridge W aw).wave j n).ready = false → (j (n + 1)).valid = true)
    (n : Nat) (hv : (j n).valid = true) :
    ∃ m, n ≤ m ∧ (j m).valid = true ∧ ((spiBridge W aw).wave j m).ready = true := by
  have step : ∀ (s : BrgS) (x : BrgIn), x.valid = true → ((spiBridge W aw).out s x).ready = false →
      ((spiBridge W aw).next s x).st = .run → ((spiBridge W aw).next s x).count ≤ s.count ∧
      (x.ack = true → (((spiBridge W aw).out s x).cyc = true → ((spiBridge W aw).out s x).we = false → x.ready = true) →
        ((spiBridge W aw).next s x).count < s.count) := by
    intro s x hx hr hn
    obtain ⟨st, write, const, count, addr⟩ := s
    obtain ⟨valid, data, len, ready, ack, datR⟩ := x
    have hcnt : ∀ c, W / 8 < c → (c + 2 ^ (W - 2) - W / 8) % 2 ^ (W - 2) < c := by
      intro c hc
      have : (c + 2 ^ (W - 2) - W / 8) % 2 ^ (W - 2) = (c - W / 8) % 2 ^ (W - 2) := by
        rw [Nat.sub_add_comm (Nat.le_of_lt hc), Nat.add_mod_right]
      have h2 := Nat.mod_le (c - W / 8) (2 ^ (W - 2))
      omega
    cases st
    · simp [spiBridge] at hr
    · simp [spiBridge] at hr
    · cases write <;> cases ack <;> cases ready <;> simp [spiBridge, brgStb] at hr hn ⊢
      · exact ⟨Nat.le_of_lt (hcnt _ hn), hcnt _ hn⟩
  apply Classical.byContradiction
  intro hno
  have hnr : ∀ m, n ≤ m → (j m).valid = true → ((spiBridge W aw).wave j m).ready = false := by
    intro m hm hvm
    cases h : ((spiBridge W aw).wave j m).ready
    · rfl
    · exact absurd ⟨m, hm, hvm, h⟩ hno
  have hva : ∀ d, (j (n + d)).valid = true := by
    intro d
    induction d with
    | zero => exact hv
    | succ d ih => exact hst (n + d) ih (hnr _ (by omega) ih)
  have hrun : ∀ d, ((spiBridge W aw).st j (n + d)).st = .run := by
    intro d
    have h := hnr (n + d) (by omega) (hva d)
    simp only [Circuit.wave] at h
    generalize (spiBridge W aw).st j (n + d) = s at *
    cases hs : s.st
    · simp [spiBridge, hs] at h
    · simp [spiBridge, hs] at h
    · rfl
  have hstep : ∀ d, _ := fun d => step ((spiBridge W aw).st j (n + d)) (j (n + d)) (hva d) (hnr _ (by omega) (hva d))
    (by rw [← Circuit.st_succ]; exact hrun (d + 1))
  have hmono : ∀ d e, ((spiBridge W aw).st j (n + (d + e))).count ≤ ((spiBridge W aw).st j (n + d)).count := by
    intro d e
    induction e with
    | zero => exact Nat.le_refl _
    | succ e ih =>
      have := (hstep (d + e)).1
      rw [← Circuit.st_succ] at this
      exact Nat.le_trans this ih
  have key : ∀ c d, ((spiBridge W aw).st j (n + d)).count = c → False := by
    intro c
    induction c using Nat.strongRecOn with
    | ind c ih =>
      intro d hd
      obtain ⟨m, hm, ha, hr⟩ := hack (n + d)
      obtain ⟨e, rfl⟩ : ∃ e, m = n + (d + e) := ⟨m - n - d, by omega⟩
      have h1 := (hstep (d + e)).2 ha hr
      have h2 := hmono d e
      rw [← Circuit.st_succ] at h1
      exact ih _ (by rw [← hd]; exact Nat.lt_of_lt_of_le h1 h2) (d + e + 1) rfl
  exact key _ 0 rfl

theorem spiWb_taken_mono (n d : Nat) : spiWbTaken W nb div csDelay aw miso f i n <+: spiWbTaken W nb div csDelay aw miso f i (n + d) :=
  transferred_extends _ _ _ _ _

/-- **C101.** If the bus answers again and again while the bridge can use the answer (a write, or a read with the slave ready for
the reply), every word given to `SPIStream` is taken by the bridge at some time, by such a master. -/
theorem C101_all_taken {cap : Nat} (hW : 8 ≤ W) (hc : SpiLinkCfg W nb W) (hf : FifoContract f cap) (hroom : FifoRoom f 8)
    (hlive : FifoLive f)
    (hs : ∀ n, (spiWbSent W nb div csDelay aw miso f i n).length ≤ (spiWbTaken W nb div csDelay aw miso f i n).length + 8)
    (hack : ∀ n, ∃ m, n ≤ m ∧ (i m).ack = true ∧ (((spiWb W nb div csDelay aw miso f).wave i m).2.cyc = true →
      ((spiWb W nb div csDelay aw miso f).wave i m).2.we = false → ((spiWb W nb div csDelay aw miso f).wave i m).1.slv.ready = true))
    (n : Nat) : ∃ m, spiWbSent W nb div csDelay aw miso f i n <+: spiWbTaken W nb div csDelay aw miso f i m := by
  have hall := C97_all_received W nb div csDelay W miso (wbLi W nb div csDelay aw miso f i) hc n
  rw [(link_rec_words hc _ _).1, ← spiWb_sent] at hall
  generalize n + 2 * (W / nb) * (div % 256 + 1) + 3 = N at hall
  have hb : 0 < W / 8 := by omega
  have htake : ∀ n, (wbBi W nb div csDelay aw miso f i n).valid = true → ∃ m, n ≤ m ∧ (wbBi W nb div csDelay aw miso f i m).valid = true ∧
      ((spiBridge W aw).wave (wbBi W nb div csDelay aw miso f i) m).ready = true := by
    apply brg_takes W aw _ hb
    · intro n
      obtain ⟨m, h1, h2, h3⟩ := hack n
      refine ⟨m, h1, h2, ?_⟩
      rw [spiWb_wave2] at h3
      exact h3
    · intro n hv hr
      rw [wbBi_valid] at hv ⊢
      rw [← wbFi_ready] at hr
      exact (C08_fifo_stable f hf (wbFi W nb div csDelay aw miso f i) n hv hr).1
  have grow : ∀ k, k ≤ (linkRec W nb div csDelay W miso (wbLi W nb div csDelay aw miso f i) N).length →
      ∃ m, N ≤ m ∧ k ≤ (spiWbTaken W nb div csDelay aw miso f i m).length := by
    intro k
    induction k with
    | zero => intro _; exact ⟨N, Nat.le_refl _, Nat.zero_le _⟩
    | succ k ih =>
      intro hk
      obtain ⟨m, hm, hkm⟩ := ih (by omega)
      rcases Nat.lt_or_ge k (spiWbTaken W nb div csDelay aw miso f i m).length with hlt | hge
      · exact ⟨m, hm, hlt⟩
      · have hacc := congrArg List.length (spiWb_accepted (div := div) (csDelay := csDelay) (aw := aw) (miso := miso) (f := f) (i := i)
          hc m (fun k _ => spiWb_room hc hroom hs k))
        rw [List.length_map] at hacc
        have hp : (linkRec W nb div csDelay W miso (wbLi W nb div csDelay aw miso f i) N).length ≤
            (linkRec W nb div csDelay W miso (wbLi W nb div csDelay aw miso f i) m).length := by
          obtain ⟨d, rfl⟩ : ∃ d, m = N + d := ⟨m - N, by omega⟩
          exact (transferred_extends _ _ _ _ _).length_le
        have ht := congrArg List.length (spiWb_taken W nb div csDelay aw miso f i m)
        rw [List.length_map] at ht
        obtain ⟨m1, h1, h2⟩ := hlive (fun k => fifoDrive (wbFi W nb div csDelay aw miso f i k)) m
          (by rw [spiWb_written, spiWb_read]; omega)
        have hv : (wbBi W nb div csDelay aw miso f i m1).valid = true := by
          rw [wbBi_valid]
          simp only [Circuit.wave, fifoWrapper_st] at h2 ⊢
          exact h2
        obtain ⟨m2, h3, h4, h5⟩ := htake m1 hv
        refine ⟨m2 + 1, by omega, ?_⟩
        obtain ⟨d, rfl⟩ : ∃ d, m2 = m + d := ⟨m2 - m, by omega⟩
        have hl := (spiWb_taken_mono (div := div) (csDelay := csDelay) (aw := aw) (miso := miso) (f := f) (i := i) (nb := nb) m d).length_le
        have e : spiWbTaken W nb div csDelay aw miso f i (m + d + 1) = spiWbTaken W nb div csDelay aw miso f i (m + d) ++
          (if (wbBi W nb div csDelay aw miso f i (m + d)).valid &&
              ((spiBridge W aw).wave (wbBi W nb div csDelay aw miso f i) (m + d)).ready then
            [((wbBi W nb div csDelay aw miso f i (m + d)).data, (wbBi W nb div csDelay aw miso f i (m + d)).len)] else []) := rfl
        rw [e, h4, h5, List.length_append]
        simp only [Bool.and_self, if_true, List.length_singleton]
        omega
  obtain ⟨m, hm, hl⟩ := grow _ (Nat.le_refl _)
  refine ⟨m, hall.trans ?_⟩
  obtain ⟨d, rfl⟩ : ∃ d, m = N + d := ⟨m - N, by omega⟩
  have hp : linkRec W nb div csDelay W miso (wbLi W nb div csDelay aw miso f i) N <+:
      linkRec W nb div csDelay W miso (wbLi W nb div csDelay aw miso f i) (N + d) := transferred_extends _ _ _ _ _
  obtain ⟨q, hq⟩ := spiWb_words hc hf hroom hs (N + d)
  exact List.prefix_of_prefix_length_le hp (hq ▸ List.prefix_append _ _) hl

/-- Data words of a write that is not finished. -/
theorem wb_data (W aw c a : Nat) (P : List WbXfer) (ws : List (Nat × Nat)) (hf : ∀ w ∈ ws, W ≤ w.2)
    (hl : ws.length < burstLen (W / 8) (c / 4)) :
    ws.foldl (wbWord W aw) (.data c a 0, P) = (.data c a ws.length, P ++ writeXfers W aw a ws) := by
  induction ws using snocInduction with
  | nil => simp [writeXfers]
  | snoc l w ih =>
    rw [List.length_append, List.length_singleton] at hl
    have hw := hf w (by simp)
    rw [List.foldl_append, ih (fun v hv => hf v (by simp [hv])) (by omega)]
    have e : writeXfers W aw a (l ++ [w]) = writeXfers W aw a l ++ [⟨true, burstAdr W aw a l.length, w.1⟩] := zipIdx_snoc _ l w
    rw [e, List.length_append]
    simp only [List.foldl_cons, List.foldl_nil, wbWord, List.length_singleton]
    rw [if_neg (by omega), List.append_assoc]

theorem wb_write (W aw c a : Nat) (P : List WbXfer) (ws : List (Nat × Nat)) (hne : ws ≠ []) (hf : fullBefore W ws)
    (hl : ws.length ≤ burstLen (W / 8) (c / 4))
    (he : ws.length = burstLen (W / 8) (c / 4) ∨ ∃ w, ws.getLast? = some w ∧ w.2 < W) :
    ws.foldl (wbWord W aw) (.data c a 0, P) = (.command, P ++ writeXfers W aw a ws) := by
  induction ws using snocInduction with
  | nil => exact absurd rfl hne
  | snoc l w _ =>
    rw [List.length_append, List.length_singleton] at hl he
    have hf : ∀ v ∈ l, W ≤ v.2 := by
      intro v hv
      exact hf v (by rw [List.dropLast_concat]; exact hv)
    rw [List.foldl_append, wb_data W aw c a P l hf (by omega)]
    have e : writeXfers W aw a (l ++ [w]) = writeXfers W aw a l ++ [⟨true, burstAdr W aw a l.length, w.1⟩] := zipIdx_snoc _ l w
    rw [e]
    simp only [List.foldl_cons, List.foldl_nil, wbWord]
    rw [if_pos, List.append_assoc]
    rcases he with he | ⟨v, hv, hlt⟩
    · exact .inl he
    · rw [List.getLast?_concat, Option.some.injEq] at hv
      exact .inr (hv ▸ hlt)

theorem writeXfers_we (W aw a : Nat) (ws : List (Nat × Nat)) : (writeXfers W aw a ws).filter (·.we) = writeXfers W aw a ws := by
  rw [List.filter_eq_self]
  intro x hx
  obtain ⟨p, _, rfl⟩ := List.mem_map.mp hx
  rfl

theorem readXfers_we (W aw a : Nat) (rs : List Nat) : (readXfers W aw a rs).filter (·.we) = [] := by
  rw [List.filter_eq_nil_iff]
  intro x hx
  obtain ⟨p, _, rfl⟩ := List.mem_map.mp hx
  simp

theorem wb_done (W aw : Nat) {A : List (Nat × Nat)} {X : List WbXfer} {R : List (Nat × Bool)} (h : BrgDone W aw A X R) :
    A.foldl (wbWord W aw) (.command, []) = (.command, X.filter (·.we)) := by
  induction h with
  | nil => rfl
  | badCommand d l _ hl ih => rw [List.foldl_append, ih]; simp [wbWord, hl]
  | badAddress c d l _ hl ih => rw [List.foldl_append, ih]; simp [wbWord, hl]
  | write c a ws _ hodd hne hf hl he ih =>
    rw [List.append_assoc, List.foldl_append, ih, List.foldl_append, List.filter_append, writeXfers_we]
    have e : ∀ P, List.foldl (wbWord W aw) (.command, P) [(c, W), (a, W)] = (.data c a 0, P) := by
      intro P; simp [wbWord, hodd]
    rw [e]
    exact wb_write W aw c a _ ws hne hf hl he
  | read c a rs _ he hl ih =>
    rw [List.foldl_append, ih, List.filter_append, readXfers_we, List.append_nil]
    simp [wbWord, he]

theorem wb_part (W aw : Nat) {a : List (Nat × Nat)} {x : List WbXfer} {r : List (Nat × Bool)} (h : BrgPart W aw a x r)
    (P : List WbXfer) : (a.foldl (wbWord W aw) (.command, P)).2 = P ++ x.filter (·.we) := by
  cases h with
  | none => simp
  | command c => simp [wbWord]
  | write c a ws hodd hf hl =>
    rw [List.foldl_append, writeXfers_we]
    have e : List.foldl (wbWord W aw) (.command, P) [(c, W), (a, W)] = (.data c a 0, P) := by simp [wbWord, hodd]
    rw [e, wb_data W aw c a P ws hf hl]
  | read c a rs he hl =>
    rw [readXfers_we, List.append_nil]
    simp [wbWord, he]

theorem wbWord_prefix (W aw : Nat) (p : WbPlace × List WbXfer) (l : List (Nat × Nat)) : p.2 <+: (l.foldl (wbWord W aw) p).2 := by
  induction l generalizing p with
  | nil => exact List.prefix_rfl
  | cons w l ih =>
    refine List.IsPrefix.trans ?_ (ih _)
    unfold wbWord
    split
    · exact List.prefix_rfl
    · exact List.prefix_rfl
    · exact List.prefix_append _ _

theorem wbWrites_mono (W aw : Nat) {l l' : List (Nat × Nat)} (h : l <+: l') : wbWrites W aw l <+: wbWrites W aw l' := by
  obtain ⟨t, rfl⟩ := h
  unfold wbWrites
  rw [List.foldl_append]
  exact wbWord_prefix W aw _ t

/-- The writes on the bus are those of the words taken. -/
theorem spiWb_writes (hW : 8 ≤ W) (n : Nat) : (spiWbBus W nb div csDelay aw miso f i n).filter (·.we) =
    wbWrites W aw (spiWbTaken W nb div csDelay aw miso f i n) := by
  have hx : ∀ n, (wbBi W nb div csDelay aw miso f i n).data < 2 ^ W := fun n => Nat.mod_lt _ (Nat.two_pow_pos _)
  obtain ⟨A, X, R, a, x, r, h1, h2, h3, h4, h5⟩ := C42_commands W aw (wbBi W nb div csDelay aw miso f i) hW hx n
  have h1 : spiWbTaken W nb div csDelay aw miso f i n = A ++ a := h1
  rw [spiWb_bus, h1, h2, wbWrites, List.foldl_append, wb_done W aw h4, wb_part W aw h5, List.filter_append]

/-- **C101**, the writes: those on the bus are at any time the first of the writes that the words given to `SPIStream` ask for, and
all of them at some time if the bus answers; for the same master as in `C101_bus_partial`. -/
theorem C101_writes_partial {cap : Nat} (hW : 8 ≤ W) (hc : SpiLinkCfg W nb W) (hf : FifoContract f cap) (hroom : FifoRoom f 8)
    (hs : ∀ n, (spiWbSent W nb div csDelay aw miso f i n).length ≤ (spiWbTaken W nb div csDelay aw miso f i n).length + 8) (n : Nat) :
    ((spiWbBus W nb div csDelay aw miso f i n).filter (·.we) <+: wbWrites W aw (spiWbSent W nb div csDelay aw miso f i n)) ∧
    (FifoLive f → (∀ n, ∃ m, n ≤ m ∧ (i m).ack = true ∧ (((spiWb W nb div csDelay aw miso f).wave i m).2.cyc = true →
      ((spiWb W nb div csDelay aw miso f).wave i m).2.we = false →
        ((spiWb W nb div csDelay aw miso f).wave i m).1.slv.ready = true)) →
      ∃ m, wbWrites W aw (spiWbSent W nb div csDelay aw miso f i n) <+: (spiWbBus W nb div csDelay aw miso f i m).filter (·.we)) := by
  constructor
  · rw [spiWb_writes hW]
    apply wbWrites_mono
    obtain ⟨q, hq⟩ := spiWb_words hc hf hroom hs n
    exact List.IsPrefix.trans (hq ▸ List.prefix_append _ _) (link_rec_le hc n)
  · intro hlive hack
    obtain ⟨m, hm⟩ := C101_all_taken hW hc hf hroom hlive hs hack n
    exact ⟨m, by rw [spiWb_writes hW]; exact wbWrites_mono W aw hm⟩

end

/-- The progress assumed is there in a queue. -/
theorem C101_live_inhabited (w depth : Nat) : FifoLive (queueFifo w depth) := by
  intro i n h
  refine ⟨n, Nat.le_refl n, ?_⟩
  have key : fifoWritten (queueFifo w depth) i n = fifoRead (queueFifo w depth) i n ++ (queueFifo w depth).st i n := by
    clear h
    induction n with
    | zero => rfl
    | succ n ih =>
      have e1 : fifoWritten (queueFifo w depth) i (n + 1) = fifoWritten (queueFifo w depth) i n ++
        (if (i n).wEn && ((queueFifo w depth).out ((queueFifo w depth).st i n) (i n)).wRdy then [(i n).wData] else []) := rfl
      have e2 : fifoRead (queueFifo w depth) i (n + 1) = fifoRead (queueFifo w depth) i n ++
        (if ((queueFifo w depth).out ((queueFifo w depth).st i n) (i n)).rRdy && (i n).rEn then
          [((queueFifo w depth).out ((queueFifo w depth).st i n) (i n)).rData] else []) := rfl
      rw [e1, e2, ih, Circuit.st_succ]
      generalize (queueFifo w depth).st i n = q
      cases q <;> cases hr : (i n).rEn <;> simp [queueFifo, hr]
  rw [key, List.length_append] at h
  simp only [Circuit.wave]
  generalize (queueFifo w depth).st i n = q at *
  cases q
  · simp at h
  · rfl

/-- Words given back to the user of `SPIStream`. -/
def spiWbGot (W nb div csDelay aw : Nat) (miso : Bool) {σ : Type}
    (f : Circuit σ (FifoIn (1 + (1 + spiWbBits W))) (FifoOut (1 + (1 + spiWbBits W)))) (i : Nat → SpiWbIn) (n : Nat) : List Nat :=
  transferred (fun k => ((spiWb W nb div csDelay aw miso f).wave i k).1.str.dValid) (fun k => (i k).link.dReady)
    (fun k => ((spiWb W nb div csDelay aw miso f).wave i k).1.str.dData) n

/-- A write of twelve bytes at 16, with a bus that answers after all words were sent. -/
def wbFlood (n : Nat) : SpiWbIn :=
  ⟨⟨decide (n < 29), decide (27 ≤ n), [49, 16, 1, 2, 3, 4, 5, 6, 7, 8, 9, 10, 11, 12].getD ((n - 1) / 2) 0, true, true, 0, false, 0, 0⟩,
    decide (36 ≤ n), 0⟩

/-- C101: without waiting for the bridge, words are lost: of the twelve writes asked for, only eight are ever made. -/
theorem C101_overflow_refuted : SpiLinkCfg 8 8 8 ∧ (∀ n, 36 ≤ n → (wbFlood n).ack = true) ∧
    spiWbSent 8 8 0 0 8 false (queueFifo _ 8) wbFlood 46 =
      [49, 16, 1, 2, 3, 4, 5, 6, 7, 8, 9, 10, 11, 12].map (fun d => (d, 8)) ∧
    wbWrites 8 8 (spiWbSent 8 8 0 0 8 false (queueFifo _ 8) wbFlood 46) =
      [⟨true, 16, 1⟩, ⟨true, 17, 2⟩, ⟨true, 18, 3⟩, ⟨true, 19, 4⟩, ⟨true, 20, 5⟩, ⟨true, 21, 6⟩, ⟨true, 22, 7⟩, ⟨true, 23, 8⟩,
        ⟨true, 24, 9⟩, ⟨true, 25, 10⟩, ⟨true, 26, 11⟩, ⟨true, 27, 12⟩] ∧
    ∀ n, 46 ≤ n → spiWbBus 8 8 0 0 8 false (queueFifo _ 8) wbFlood n =
      [⟨true, 16, 1⟩, ⟨true, 17, 2⟩, ⟨true, 18, 3⟩, ⟨true, 19, 4⟩, ⟨true, 20, 5⟩, ⟨true, 21, 6⟩, ⟨true, 22, 7⟩, ⟨true, 23, 8⟩] := by
  have hin : ∀ d, wbFlood (46 + d) = ⟨⟨false, true, 0, true, true, 0, false, 0, 0⟩, true, 0⟩ := by
    intro d
    have h1 : ¬ 46 + d < 29 := by omega
    have h2 : 27 ≤ 46 + d := by omega
    have h3 : 36 ≤ 46 + d := by omega
    have h4 : 14 ≤ (46 + d - 1) / 2 := by omega
    have h5 : [49, 16, 1, 2, 3, 4, 5, 6, 7, 8, 9, 10, 11, 12].getD ((46 + d - 1) / 2) 0 = 0 := by
      rw [List.getD_eq_getElem?_getD, List.getElem?_eq_none (by simpa using h4)]; rfl
    simp only [wbFlood, h5, h1, h2, h3, decide_true, decide_false]
  have hst : ∀ d, (spiWb 8 8 0 0 8 false (queueFifo _ 8)).st wbFlood (46 + d) = (spiWb 8 8 0 0 8 false (queueFifo _ 8)).st wbFlood 46 := by
    intro d
    induction d with
    | zero => rfl
    | succ d ih =>
      show (spiWb 8 8 0 0 8 false (queueFifo _ 8)).st wbFlood (46 + d + 1) = _
      rw [Circuit.st_succ, ih, hin d]
      decide +kernel
  refine ⟨⟨.inr (.inr (.inr rfl)), ⟨1, rfl⟩, by omega, by omega, by omega⟩, fun n hn => by simp [wbFlood, hn], by decide +kernel,
    by decide +kernel, fun n hn => ?_⟩
  obtain ⟨d, rfl⟩ : ∃ d, n = 46 + d := ⟨n - 46, by omega⟩
  clear hn
  induction d with
  | zero => decide +kernel
  | succ d ih =>
    have e : spiWbBus 8 8 0 0 8 false (queueFifo _ 8) wbFlood (46 + d + 1) = spiWbBus 8 8 0 0 8 false (queueFifo _ 8) wbFlood (46 + d) ++
      (if (((spiWb 8 8 0 0 8 false (queueFifo _ 8)).out ((spiWb 8 8 0 0 8 false (queueFifo _ 8)).st wbFlood (46 + d)) (wbFlood (46 + d))).2.cyc &&
        ((spiWb 8 8 0 0 8 false (queueFifo _ 8)).out ((spiWb 8 8 0 0 8 false (queueFifo _ 8)).st wbFlood (46 + d)) (wbFlood (46 + d))).2.stb) &&
        (wbFlood (46 + d)).ack then [_] else []) := rfl
    show spiWbBus 8 8 0 0 8 false (queueFifo _ 8) wbFlood (46 + d + 1) = _
    rw [e, ih, hst d, hin d]
    have hn : (((spiWb 8 8 0 0 8 false (queueFifo _ 8)).out ((spiWb 8 8 0 0 8 false (queueFifo _ 8)).st wbFlood 46)
        ⟨⟨false, true, 0, true, true, 0, false, 0, 0⟩, true, 0⟩).2.cyc &&
        ((spiWb 8 8 0 0 8 false (queueFifo _ 8)).out ((spiWb 8 8 0 0 8 false (queueFifo _ 8)).st wbFlood 46)
        ⟨⟨false, true, 0, true, true, 0, false, 0, 0⟩, true, 0⟩).2.stb) = false := by decide +kernel
    rw [if_neg]
    · rfl
    · rw [hn]; simp

/-- A read of one byte at 32, a pause, then three words to clock out the reply. The bus always has the byte 165. -/
def wbReadDemo (n : Nat) : SpiWbIn :=
  ⟨⟨decide (n < 20) || (decide (60 ≤ n) && decide (n < 100)), decide (85 ≤ n), if n < 4 then 4 else if n < 20 then 32 else 0, true, true,
    0, false, 0, 0⟩, true, 165⟩

/-- C101: reads do not come back to the master: the reply 165 is given to the slave, and no word that the master gets has this value.
The words sent to clock out the reply are commands for the bridge, here a second read. -/
theorem C101_read_refuted : SpiLinkCfg 8 1 8 ∧
    spiWbSent 8 1 0 0 8 true (queueFifo _ 8) wbReadDemo 112 = [(4, 8), (32, 8), (0, 8), (0, 8), (0, 8)] ∧
    spiWbBus 8 1 0 0 8 true (queueFifo _ 8) wbReadDemo 112 = [⟨false, 32, 165⟩, ⟨false, 0, 165⟩] ∧
    spiWbReplies 8 1 0 0 8 true (queueFifo _ 8) wbReadDemo 112 = [(165, true), (165, true)] ∧
    spiWbGot 8 1 0 0 8 true (queueFifo _ 8) wbReadDemo 112 = [0, 0, 41, 127, 244] := by
  refine ⟨⟨.inl rfl, ⟨8, rfl⟩, by omega, by omega, by omega⟩, ?_, ?_, ?_, ?_⟩ <;> decide +kernel

/-- Two writes, the first of two bytes, with a bus that answers in every third cycle. -/
def wbWriteDemo (n : Nat) : SpiWbIn :=
  ⟨⟨decide (n < 15), decide (13 ≤ n), [9, 32, 161, 178, 5, 64, 195].getD ((n - 1) / 2) 0, true, true, 0, false, 0, 0⟩, n % 3 == 0, 0⟩

example : spiWbSent 8 8 0 0 8 false (queueFifo _ 8) wbWriteDemo 40 = [9, 32, 161, 178, 5, 64, 195].map (fun d => (d, 8)) ∧
    spiWbBus 8 8 0 0 8 false (queueFifo _ 8) wbWriteDemo 40 = [⟨true, 32, 161⟩, ⟨true, 33, 178⟩, ⟨true, 64, 195⟩] ∧
    ∀ n < 40, (spiWbSent 8 8 0 0 8 false (queueFifo _ 8) wbWriteDemo n).length ≤
      (spiWbTaken 8 8 0 0 8 false (queueFifo _ 8) wbWriteDemo n).length + 8 := by decide +kernel

end Lambdalib
