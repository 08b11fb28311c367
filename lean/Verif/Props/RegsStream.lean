import Verif.Spec.RegsStream
import Verif.Props.UsbEp

/-! `RegsStream` (C94). -/

namespace Lambdalib

section
variable {w : Nat} {σ : Type} (f : Circuit σ (FifoIn (1 + (1 + w))) (FifoOut (1 + (1 + w))))
  (i : Nat → Option (CsrWr w) × Bool)

/-- Words taken by the receiver, with `last`. -/
def regsStrTaken (n : Nat) : List (BitVec w × Bool) :=
  transferred (fun k => ((regsStream f).wave i k).valid) (fun k => (i k).2)
    (fun k => (((regsStream f).wave i k).beat.payload, ((regsStream f).wave i k).beat.last)) n

/-- Input of the FIFO. -/
def regsStrFi (n : Nat) : SIn (BitVec w) := regsStrIn ((regsStream f).st i n) (i n).2

theorem regsStr_fifo (n : Nat) : ((regsStream f).st i n).fifo = (fifoWrapper f).st (regsStrFi f i) n := by
  induction n with
  | zero => rfl
  | succ n ih =>
    rw [Circuit.st_succ, Circuit.st_succ, ← ih]
    unfold regsStrFi
    generalize (regsStream f).st i n = s
    simp only [regsStream]
    split <;> rfl

theorem regsStr_wave (n : Nat) : (regsStream f).wave i n = (fifoWrapper f).wave (regsStrFi f i) n := by
  simp only [Circuit.wave]
  rw [← regsStr_fifo]
  rfl

theorem regsStr_taken (n : Nat) : regsStrTaken f i n =
    (delivered (fifoWrapper f) (regsStrFi f i) n).map fun b => (b.payload, b.last) := by
  unfold regsStrTaken delivered
  rw [transferred_map]
  apply transferred_congr <;> intro k
  · rw [regsStr_wave]
  · rfl
  · rw [regsStr_wave]

theorem csrAsked_succ (wr : Nat → Option (CsrWr w)) (n : Nat) :
    ((List.range (n + 1)).map wr).foldl csrAsk (false, []) =
      csrAsk (((List.range n).map wr).foldl csrAsk (false, [])) (wr n) := by
  rw [List.range_succ]
  simp

/-- The registers hold the word that was asked for last. -/
theorem regsStr_pending (n : Nat)
    (hr : ∀ k, k < n → ((regsStream f).st i k).re = true → ((regsStream f).wave i k).ready = true) :
    let s := (regsStream f).st i n
    (((List.range n).map fun k => (i k).1).foldl csrAsk (false, [])).1 = s.last ∧
    csrAsked (fun k => (i k).1) n =
      (accepted (fifoWrapper f) (regsStrFi f i) n).map (fun b => (b.payload, b.last)) ++
        (if s.re then [(s.data, s.last)] else []) := by
  induction n with
  | zero => exact ⟨rfl, rfl⟩
  | succ n ih =>
    obtain ⟨i1, i2⟩ := ih fun k hk => hr k (by omega)
    have hrn := hr n (by omega)
    rw [regsStr_wave] at hrn
    have e : accepted (fifoWrapper f) (regsStrFi f i) (n + 1) = accepted (fifoWrapper f) (regsStrFi f i) n ++
      (if (regsStrFi f i n).valid && ((fifoWrapper f).wave (regsStrFi f i) n).ready then [(regsStrFi f i n).beat] else []) := rfl
    have hfi : regsStrFi f i n = regsStrIn ((regsStream f).st i n) (i n).2 := rfl
    unfold csrAsked at i2 ⊢
    rw [csrAsked_succ (fun k => (i k).1), e, hfi, Circuit.st_succ]
    generalize (((List.range n).map fun k => (i k).1).foldl csrAsk (false, [])) = A at *
    generalize (fifoWrapper f).wave (regsStrFi f i) n = o at *
    generalize accepted (fifoWrapper f) (regsStrFi f i) n = B at *
    generalize (regsStream f).st i n = s at *
    obtain ⟨a1, a2⟩ := A
    obtain ⟨data, re, last, fifo⟩ := s
    simp only at i1 i2 hrn
    subst i1
    have hB : (B ++ if re && o.ready then [(⟨false, a1, data⟩ : Beat (BitVec w))] else []).map (fun b => (b.payload, b.last)) = a2 := by
      rw [i2]
      cases re
      · simp
      · simp [hrn rfl]
    have hB' : (B ++ if (regsStrIn (⟨data, re, a1, fifo⟩ : RegsStrS w σ) (i n).2).valid && o.ready then
        [(regsStrIn (⟨data, re, a1, fifo⟩ : RegsStrS w σ) (i n).2).beat] else []).map (fun b => (b.payload, b.last)) = a2 := hB
    rw [hB']
    generalize i n = x
    obtain ⟨x, r⟩ := x
    rcases x with _ | _ | _ <;> simp [csrAsk, regsStream]

/-- C94, as long as the FIFO has room at each word: the words taken are those that the software asked for, in order and with
their `last`; at most the FIFO and the register hold words on the way. Missing: a FIFO that is full, for which the claim is false
(`C94_written_refuted`). -/
theorem C94_words_partial {cap : Nat} (hf : FifoContract f cap) (n : Nat)
    (hr : ∀ k, k < n → ((regsStream f).st i k).re = true → ((regsStream f).wave i k).ready = true) :
    ∃ q, csrAsked (fun k => (i k).1) n = regsStrTaken f i n ++ q ∧ q.length ≤ cap + 1 := by
  obtain ⟨q, h1, h2, _⟩ := C08_fifo_lossless f hf (regsStrFi f i) n
  obtain ⟨_, h4⟩ := regsStr_pending f i n hr
  rw [h4, h1, regsStr_taken, List.map_append, List.append_assoc]
  refine ⟨_, rfl, ?_⟩
  rw [List.length_append, List.length_map]
  split <;> simp <;> omega

/-- **C94.** Software that never has more than `depth` words asked for and not yet taken loses none. -/
theorem C94_words_spaced {cap depth : Nat} (hf : FifoContract f cap) (hroom : FifoRoom f depth)
    (hs : ∀ n, (csrAsked (fun k => (i k).1) n).length ≤ (regsStrTaken f i n).length + depth) (n : Nat) :
    ∃ q, csrAsked (fun k => (i k).1) n = regsStrTaken f i n ++ q ∧ q.length ≤ depth := by
  have hr : ∀ k, ((regsStream f).st i k).re = true → ((regsStream f).wave i k).ready = true := by
    intro k
    induction k using Nat.strongRecOn with
    | ind k ih =>
      intro hre
      have hp := (regsStr_pending f i k ih).2
      rw [if_pos hre] at hp
      have hl := hs k
      rw [hp, List.length_append, List.length_map, List.length_singleton, regsStr_taken, List.length_map] at hl
      have hW : (fifoWritten f (fun k => fifoDrive (regsStrFi f i k)) k).length =
          (accepted (fifoWrapper f) (regsStrFi f i) k).length := by
        have : fifoWritten f (fun k => fifoDrive (regsStrFi f i k)) k =
            (accepted (fifoWrapper f) (regsStrFi f i) k).map packBeat := by
          unfold accepted fifoWritten
          rw [transferred_map]
          apply transferred_congr <;> intro k
          · rfl
          · simp only [Circuit.wave, fifoWrapper_st]; rfl
          · rfl
        rw [this, List.length_map]
      have hR : (fifoRead f (fun k => fifoDrive (regsStrFi f i k)) k).length =
          (delivered (fifoWrapper f) (regsStrFi f i) k).length := by
        have : (fifoRead f (fun k => fifoDrive (regsStrFi f i k)) k).map unpackBeat =
            delivered (fifoWrapper f) (regsStrFi f i) k := by
          unfold delivered fifoRead
          rw [transferred_map]
          apply transferred_congr <;> intro k
          · simp only [Circuit.wave, fifoWrapper_st]; rfl
          · rfl
          · simp only [Circuit.wave, fifoWrapper_st]; rfl
        rw [← this, List.length_map]
      have := hroom (fun k => fifoDrive (regsStrFi f i k)) k (by omega)
      rw [regsStr_wave]
      simp only [Circuit.wave, fifoWrapper_st] at this ⊢
      exact this
  obtain ⟨q, h1, _⟩ := C94_words_partial f i hf n (fun k _ => hr k)
  refine ⟨q, h1, ?_⟩
  have := hs n
  rw [h1, List.length_append] at this
  omega

end

/-- The room assumed is there in a queue. -/
theorem C94_room_inhabited (w depth : Nat) : FifoRoom (queueFifo w depth) depth := by
  intro i n h
  have key : fifoWritten (queueFifo w depth) i n = fifoRead (queueFifo w depth) i n ++ (queueFifo w depth).st i n := by
    clear h
    induction n with
    | zero => rfl
    | succ n ih =>
      have e1 : fifoWritten (queueFifo w depth) i (n + 1) = fifoWritten (queueFifo w depth) i n ++
        (if (i n).wEn && ((queueFifo w depth).out ((queueFifo w depth).st i n) (i n)).wRdy then [(i n).wData] else []) := rfl
      have e2 : fifoRead (queueFifo w depth) i (n + 1) = fifoRead (queueFifo w depth) i n ++
        (if ((queueFifo w depth).out ((queueFifo w depth).st i n) (i n)).rRdy && (i n).rEn then
          [((queueFifo w depth).out ((queueFifo w depth).st i n) (i n)).rData] else []) := rfl
      rw [e1, e2, ih, Circuit.st_succ]
      generalize (queueFifo w depth).st i n = q
      cases q <;> cases hr : (i n).rEn <;> simp [queueFifo, hr]
  rw [key, List.length_append] at h
  simp only [Circuit.wave]
  generalize (queueFifo w depth).st i n = q at *
  simp only [queueFifo, decide_eq_true_eq]
  omega

/-- C94: ten words written while the receiver waits; the full claim fails, two of them are lost. -/
def regsStrBurst (n : Nat) : Option (CsrWr 8) × Bool :=
  (if n < 10 then some (.data (BitVec.ofNat 8 n)) else none, decide (11 ≤ n))

theorem C94_written_refuted : ∃ (f : Circuit (List (BitVec 10)) (FifoIn 10) (FifoOut 10)) (i : Nat → Option (CsrWr 8) × Bool),
    FifoContract f 8 ∧ FifoRoom f 8 ∧ (∀ n, 11 ≤ n → (i n).2 = true ∧ (i n).1 = none) ∧
    (csrAsked (fun k => (i k).1) 40).map Prod.fst = [0, 1, 2, 3, 4, 5, 6, 7, 8, 9] ∧
    (regsStrTaken f i 40).map Prod.fst = [0, 1, 2, 3, 4, 5, 6, 7] ∧ ∀ n, 40 ≤ n → regsStrTaken f i n = regsStrTaken f i 40 := by
  have hst : ∀ d, (regsStream (queueFifo 10 8)).st regsStrBurst (40 + d) = ⟨9, false, false, []⟩ := by
    intro d
    induction d with
    | zero => decide +kernel
    | succ d ih =>
      rw [← Nat.add_assoc, Circuit.st_succ, ih]
      have : regsStrBurst (40 + d) = (none, true) := by simp [regsStrBurst]; omega
      rw [this]
      rfl
  refine ⟨queueFifo 10 8, regsStrBurst, C08_fifo_contract_inhabited 10 8, C94_room_inhabited 10 8, ?_, by decide +kernel,
    by decide +kernel, ?_⟩
  · intro n hn
    simp [regsStrBurst, show ¬ n < 10 by omega, hn]
  · intro n hn
    obtain ⟨d, rfl⟩ : ∃ d, n = 40 + d := ⟨n - 40, by omega⟩
    clear hn
    induction d with
    | zero => rfl
    | succ d ih =>
      have e : regsStrTaken (queueFifo 10 8) regsStrBurst (40 + d + 1) = regsStrTaken (queueFifo 10 8) regsStrBurst (40 + d) ++
        (if ((regsStream (queueFifo 10 8)).out ((regsStream (queueFifo 10 8)).st regsStrBurst (40 + d)) (regsStrBurst (40 + d))).valid &&
          (regsStrBurst (40 + d)).2 then [_] else []) := rfl
      rw [← Nat.add_assoc, e, ih, hst d]
      simp [regsStream, fifoWrapper, queueFifo]

/-- Two words, the second with `last`, then one without. -/
def regsStrSample (n : Nat) : Option (CsrWr 8) × Bool :=
  (if n = 0 then some (.data 0x11) else if n = 1 then some (.last true) else if n = 2 then some (.data 0x22)
    else if n = 5 then some (.last false) else if n = 6 then some (.data 0x33) else none, decide (3 ≤ n))

example : csrAsked (fun k => (regsStrSample k).1) 20 = [(0x11, false), (0x22, true), (0x33, false)] ∧
    regsStrTaken (queueFifo 10 8) regsStrSample 20 = [(0x11, false), (0x22, true), (0x33, false)] := by decide +kernel

end Lambdalib
