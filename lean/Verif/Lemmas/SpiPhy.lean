import Verif.Spec.Spi

/-! Invariant of the SPI PHY. -/

namespace Lambdalib

/-- Shifting out: the top bits of the shifted word are the next group. -/
theorem spi_top (d W e w : Nat) (h : e + w ≤ W) :
    d * 2 ^ e % 2 ^ W / 2 ^ (W - w) = d / 2 ^ (W - w - e) % 2 ^ w := by
  have hW : 2 ^ W = 2 ^ (W - w) * 2 ^ w := by rw [← Nat.pow_add]; congr 1; omega
  have hw : 2 ^ (W - w) = 2 ^ e * 2 ^ (W - w - e) := by rw [← Nat.pow_add]; congr 1; omega
  rw [hW, Nat.mod_mul_right_div_self]
  congr 1
  rw [hw, Nat.mul_comm d, Nat.mul_div_mul_left _ _ (Nat.two_pow_pos e)]

theorem spi_shift (d W e w : Nat) : d * 2 ^ e % 2 ^ W * 2 ^ w % 2 ^ W = d * 2 ^ (e + w) % 2 ^ W := by
  rw [Nat.mod_mul_mod, Nat.mul_assoc, Nat.pow_add]

/-- Shifting in. -/
theorem spi_in (r W k w d : Nat) (h : k + w ≤ W) (hd : d < 2 ^ w) :
    (r * 2 ^ w + d) % 2 ^ W % 2 ^ (k + w) = r % 2 ^ k * 2 ^ w + d := by
  rw [Nat.mod_mod_of_dvd _ (Nat.pow_dvd_pow 2 h), Nat.pow_add, Nat.mul_comm (2 ^ k), Nat.mod_mul,
    Nat.mul_comm r, Nat.mul_add_mod, Nat.mod_eq_of_lt hd, Nat.mul_add_div (Nat.two_pow_pos w),
    Nat.div_eq_of_lt hd]
  simp [Nat.mul_comm, Nat.add_comm]

theorem spiSample_lt (w dq : Nat) : spiSample w dq < 2 ^ w := by
  unfold spiSample
  split
  · rename_i h; subst h; omega
  · exact Nat.mod_lt _ (Nat.two_pow_pos w)

theorem spiIns_snoc (w : Nat) (l : List Nat) (d : Nat) :
    spiIns w (l ++ [d]) = spiIns w l * 2 ^ w + spiSample w d := by
  simp [spiIns]

section
variable (W P div csDelay : Nat)

/-- Progress of the word being transferred: `m` falling edges done, `e` the pulses seen so far. -/
structure SpiCur (s : SpiPhyS) (last : Bool) (w : SpiWord) (m : Nat) (e : List (Nat × Nat)) : Prop where
  lt : m < w.len / w.width
  ok : SpiWordOk W P w
  srOut : s.srOut = w.data * 2 ^ (W - w.len + w.width * m) % 2 ^ W
  outCnt : s.srOutCnt = w.len - w.width * (m + 1)
  width : s.widthR = w.width
  elt : e.length < w.len / w.width
  outs : e.map Prod.fst = (spiOuts w).take e.length
  ins : s.srIn % 2 ^ (w.width * e.length) = spiIns w.width (e.map Prod.snd)
  inCnt : s.srInCnt = w.len - w.width * (e.length + 1)
  last : s.lastR = last
  low : s.ck.clk = false → s.ck.pe = false ∧ e.length = m
  pe : s.ck.clk = true → s.ck.pe = true → s.ck.cnt = 0 ∧ e.length = m
  high : s.ck.clk = true → s.ck.pe = false → e.length = m + 1

/-- The word whose last pulse is still high. -/
structure SpiTail (s : SpiPhyS) : Prop where
  outCnt : s.srOutCnt = 0
  inCnt : s.srInCnt = 0
  clk : s.ck.clk = true
  pe : s.ck.pe = false

def spiRel (A : List (Bool × SpiWord)) (E : List (Nat × Nat)) (F : List (Bool × Nat)) (s : SpiPhyS) : Prop :=
  s.ck.cnt ≤ div % 256 ∧
  ∃ A0 E0, SpiDone A0 E0 (F ++ if s.fValid then [(s.fLast, s.srIn)] else []) ∧
    ((s.running = false ∧ s.ck.clk = false ∧ s.ck.cnt = 0 ∧ s.ck.pe = false ∧ A = A0 ∧ E = E0) ∨
     (s.running = true ∧ SpiTail s ∧ A = A0 ∧ E = E0) ∨
     (s.running = true ∧ ∃ last w m e, SpiCur W P s last w m e ∧ A = A0 ++ [(last, w)] ∧ E = E0 ++ e))

/-- Log increments of one cycle. -/
def spiAcc (s : SpiPhyS) (x : SpiPhyIn) : List (Bool × SpiWord) :=
  if x.valid && ((spiPhy W P div csDelay).out s x).ready then [(x.last, x.word)] else []

def spiEdge (s : SpiPhyS) (x : SpiPhyIn) : List (Nat × Nat) :=
  if s.ck.pe then [(((spiPhy W P div csDelay).out s x).dqO, x.dqI)] else []

def spiPush (s : SpiPhyS) (x : SpiPhyIn) : List (Bool × Nat) :=
  if ((spiPhy W P div csDelay).out s x).fValid then
    [(((spiPhy W P div csDelay).out s x).fLast, ((spiPhy W P div csDelay).out s x).fData)] else []

/-- A loaded word starts with nothing done. -/
theorem spi_load_cur (s : SpiPhyS) (last : Bool) (w : SpiWord) (hw : SpiWordOk W P w)
    (h1 : s.srOut = w.data * 2 ^ (W - w.len) % 2 ^ W) (h2 : s.srOutCnt = (w.len + 256 - w.width) % 256)
    (h3 : s.srInCnt = (w.len + 256 - w.width) % 256) (h4 : s.widthR = w.width) (h5 : s.lastR = last)
    (h6 : s.ck.clk = false) (h7 : s.ck.pe = false) : SpiCur W P s last w 0 [] := by
  have hpos : 0 < w.width := by rcases hw.width with h | h | h | h <;> omega
  have hle : w.width ≤ w.len := Nat.le_of_dvd hw.pos hw.dvd
  have hT : 0 < w.len / w.width := Nat.div_pos hle hpos
  have hmax := hw.max
  have e : (w.len + 256 - w.width) % 256 = w.len - w.width := by omega
  exact ⟨hT, hw, by simpa using h1, by rw [h2, e]; simp, h4, hT, rfl, by simp [spiIns, Nat.mod_one],
    by rw [h3, e]; simp, h5, fun _ => ⟨h7, rfl⟩, (fun h => by rw [h6] at h; cases h),
    (fun h => by rw [h6] at h; cases h)⟩

/-- Number facts about the word being transferred. -/
theorem SpiWordOk.facts {W P : Nat} {w : SpiWord} (h : SpiWordOk W P w) :
    0 < w.width ∧ w.width ≤ 8 ∧ w.width * (w.len / w.width) = w.len ∧ spiWidthCase w.width = true := by
  refine ⟨?_, ?_, Nat.mul_div_cancel' h.dvd, ?_⟩
  · rcases h.width with h | h | h | h <;> omega
  · rcases h.width with h | h | h | h <;> omega
  · rcases h.width with h | h | h | h <;> simp [spiWidthCase, h]

/-- Counting down. -/
theorem spi_cnt {W P : Nat} {w : SpiWord} (h : SpiWordOk W P w) (m : Nat) (hm : m < w.len / w.width) :
    (w.len - w.width * (m + 1) = 0 ↔ m + 1 = w.len / w.width) ∧
    (m + 1 < w.len / w.width →
      (w.len - w.width * (m + 1) + 256 - w.width) % 256 = w.len - w.width * (m + 1 + 1)) := by
  obtain ⟨h0, h8, hT, _⟩ := h.facts
  have hmax := h.max
  generalize w.len / w.width = T at *
  have e1 : w.width * (m + 1) ≤ w.width * T := Nat.mul_le_mul_left _ (by omega)
  refine ⟨⟨fun hz => ?_, fun hz => ?_⟩, fun hlt => ?_⟩
  · apply Classical.byContradiction
    intro hne
    have : w.width * (m + 1 + 1) ≤ w.width * T := Nat.mul_le_mul_left _ (by omega)
    rw [Nat.mul_add w.width (m + 1) 1] at this
    omega
  · rw [hz]; omega
  · have e2 : w.width * (m + 1 + 1) ≤ w.width * T := Nat.mul_le_mul_left _ (by omega)
    rw [Nat.mul_add w.width (m + 1) 1] at e2 ⊢
    have e3 : w.width * (m + 1) = w.width * m + w.width := by rw [Nat.mul_add, Nat.mul_one]
    omega

theorem spiOuts_getElem (w : SpiWord) (m : Nat) (hm : m < w.len / w.width) :
    (spiOuts w).take (m + 1) = (spiOuts w).take m ++
      [w.data / 2 ^ (w.len - w.width * (m + 1)) % 2 ^ w.width] := by
  rw [List.take_add_one]
  congr 1
  simp [spiOuts, hm]

theorem spiOuts_length (w : SpiWord) : (spiOuts w).length = w.len / w.width := by simp [spiOuts]

/-- The pins at a rising edge. -/
theorem spi_edge {s : SpiPhyS} {x : SpiPhyIn} {last : Bool} {w : SpiWord} {m : Nat} {e : List (Nat × Nat)}
    (h : SpiCur W P s last w m e) (hm : e.length = m) :
    let d := ((spiPhy W P div csDelay).out s x).dqO
    let r := (s.srIn * 2 ^ s.widthR + (if s.widthR = 1 then x.dqI / 2 % 2 else x.dqI % 2 ^ s.widthR)) % 2 ^ W
    (e ++ [(d, x.dqI)]).map Prod.fst = (spiOuts w).take (m + 1) ∧
    r % 2 ^ (w.width * (m + 1)) = spiIns w.width ((e ++ [(d, x.dqI)]).map Prod.snd) := by
  obtain ⟨h0, h8, hT, hc⟩ := h.ok.facts
  have hlt := h.lt
  have hle : w.width * (m + 1) ≤ w.len := by
    rw [← hT]; exact Nat.mul_le_mul_left _ hlt
  have hWl := h.ok.len
  have hp := h.ok.pins
  have e3 : w.width * (m + 1) = w.width * m + w.width := by rw [Nat.mul_add, Nat.mul_one]
  intro d r
  constructor
  · rw [List.map_append, h.outs, hm, spiOuts_getElem w m hlt]
    congr 1
    simp only [List.map_cons, List.map_nil, List.cons.injEq, and_true, d]
    have : ((spiPhy W P div csDelay).out s x).dqO = s.srOut / 2 ^ (W - s.widthR) % 2 ^ P := by
      simp only [spiPhy, h.width, hc, if_true]
    rw [this, h.srOut, h.width, spi_top _ _ _ _ (by omega),
      show W - w.width - (W - w.len + w.width * m) = w.len - w.width * (m + 1) by omega,
      Nat.mod_eq_of_lt (Nat.lt_of_lt_of_le (Nat.mod_lt _ (Nat.two_pow_pos _)) (Nat.pow_le_pow_right (by omega) hp))]
  · have hs : (if s.widthR = 1 then x.dqI / 2 % 2 else x.dqI % 2 ^ s.widthR) = spiSample w.width x.dqI := by
      rw [h.width]; rfl
    have hr : r = (s.srIn * 2 ^ w.width + spiSample w.width x.dqI) % 2 ^ W := by
      show (s.srIn * 2 ^ s.widthR + _) % 2 ^ W = _
      rw [hs, h.width]
    rw [hr, e3, spi_in _ _ _ _ _ (by omega) (spiSample_lt _ _), List.map_append]
    simp only [List.map_cons, List.map_nil]
    rw [spiIns_snoc, ← h.ins, hm]

set_option maxHeartbeats 1000000 in
/-- One clock cycle. -/
theorem spi_step (A : List (Bool × SpiWord)) (E : List (Nat × Nat)) (F : List (Bool × Nat)) (s : SpiPhyS)
    (x : SpiPhyIn) (h : spiRel W P div A E F s) (hok : x.valid = true → SpiWordOk W P x.word) :
    spiRel W P div (A ++ spiAcc W P div csDelay s x) (E ++ spiEdge W P div csDelay s x)
      (F ++ spiPush W P div csDelay s x) ((spiPhy W P div csDelay).next s x) := by
  obtain ⟨hcnt, A0, E0, hdone, h⟩ := h
  have hF : F ++ spiPush W P div csDelay s x = F ++ (if s.fValid then [(s.fLast, s.srIn)] else []) := rfl
  rw [hF]
  generalize F ++ (if s.fValid then [(s.fLast, s.srIn)] else []) = F' at *
  have hcmod : s.ck.cnt < div % 256 → (s.ck.cnt + 1) % 2 ^ 8 = s.ck.cnt + 1 := by
    intro h; omega
  have hD : div % 2 ^ 8 = div % 256 := rfl
  -- the word loaded in this cycle
  have hacc : spiAcc W P div csDelay s x = if spiOutLoad div csDelay s x then [(x.last, x.word)] else [] := by
    show (if (x.valid && spiOutLoad div csDelay s x) = true then _ else _) = _
    cases hv : x.valid
    · have : spiOutLoad div csDelay s x = false := by simp [spiOutLoad, spiXfrEn, hv]
      rw [this]; rfl
    · rfl
  have hvalid : spiOutLoad div csDelay s x = true → SpiWordOk W P x.word := by
    intro hl
    apply hok
    cases hv : x.valid
    · simp [spiOutLoad, spiXfrEn, hv] at hl
    · rfl
  have hedge : s.ck.pe = false → spiEdge W P div csDelay s x = [] := by
    intro h; simp [spiEdge, h]
  -- end of a word: the next one is loaded, or the clock stops
  have hend : ∀ A1 E1 F1, SpiDone A1 E1 (F1 ++
        if ((spiPhy W P div csDelay).next s x).fValid then
          [(((spiPhy W P div csDelay).next s x).fLast, ((spiPhy W P div csDelay).next s x).srIn)] else []) →
      (s.running = false ∨ spiOutEnd div s = true) → (spiInShift div s = true → spiInEnd div s = true) →
      (s.running = false → s.ck.clk = false ∧ s.ck.cnt = 0 ∧ s.ck.pe = false) →
      spiRel W P div (A1 ++ spiAcc W P div csDelay s x) E1 F1 ((spiPhy W P div csDelay).next s x) := by
    intro A1 E1 F1 hd he hi hidle
    have hoe : spiOutEnd div s = true → s.ck.clk = true ∧ s.ck.cnt = div % 256 ∧ s.running = true := by
      intro he
      simp only [spiOutEnd, spiOutShift, spiClkGen, spiPhyCk, Bool.and_eq_true, beq_iff_eq, hD] at he
      exact ⟨he.1.1.2, he.1.2, he.1.1.1⟩
    have hck : ((spiPhy W P div csDelay).next s x).ck.clk = false ∧
        ((spiPhy W P div csDelay).next s x).ck.cnt = 0 ∧ ((spiPhy W P div csDelay).next s x).ck.pe = false := by
      rcases he with he | he
      · simp [spiPhy, spiClkGen, spiPhyCk, he]
      · obtain ⟨h1, h2, h3⟩ := hoe he
        simp [spiPhy, spiClkGen, spiPhyCk, h1, h2, h3]
    have hor : (!s.running || spiOutEnd div s) = true := by
      rcases he with he | he <;> simp [he]
    have hin : (spiInShift div s && !spiInEnd div s) = false := by
      cases h1 : spiInShift div s
      · rfl
      · rw [hi h1]; rfl
    have hon : (spiOutShift div s && !spiOutEnd div s) = false := by
      rcases he with he | he
      · simp [spiOutShift, spiClkGen, spiPhyCk, he]
      · simp [he]
    refine ⟨by rw [hck.2.1]; omega, A1, E1, hd, ?_⟩
    cases hx : spiXfrEn csDelay s x
    · left
      have hl : spiOutLoad div csDelay s x = false := by simp [spiOutLoad, hx]
      refine ⟨?_, hck.1, hck.2.1, hck.2.2, by rw [hacc, hl]; simp, rfl⟩
      show (if spiOutLoad div csDelay s x then true
        else if spiOutEnd div s && !spiXfrEn csDelay s x then false else s.running) = false
      rw [hl, hx]
      rcases he with he | he <;> simp [he]
    · right; right
      have hl : spiOutLoad div csDelay s x = true := by simp [spiOutLoad, hx, hor]
      refine ⟨by simp [spiPhy, hl], x.last, x.word, 0, [], ?_, by rw [hacc, hl]; rfl, by simp⟩
      apply spi_load_cur W P _ _ _ (hvalid hl)
      · simp [spiPhy, hl]
      · simp only [spiPhy, hl, hon, if_true]; rfl
      · simp only [spiPhy, hl, hin, if_true]; rfl
      · simp [spiPhy, hl]
      · simp [spiPhy, hl]
      · exact hck.1
      · exact hck.2.2
  rcases h with ⟨hrun, hclk, hc0, hpe, rfl, rfl⟩ | ⟨hrun, ht, rfl, rfl⟩ | ⟨hrun, last, w, m, e, hc, rfl, rfl⟩
  · -- idle
    rw [hedge hpe, List.append_nil]
    have his : spiInShift div s = false := hpe
    apply hend A E F' _ (.inl hrun) (fun h => by rw [his] at h; cases h) (fun _ => ⟨hclk, hc0, hpe⟩)
    have : ((spiPhy W P div csDelay).next s x).fValid = false := by simp [spiPhy, spiInEnd, his]
    rw [this]
    simpa using hdone
  · -- tail of the last pulse
    rw [hedge ht.pe, List.append_nil]
    have his : spiInShift div s = false := ht.pe
    have hfv : ((spiPhy W P div csDelay).next s x).fValid = false := by simp [spiPhy, spiInEnd, his]
    have hd' : SpiDone A E (F' ++ if ((spiPhy W P div csDelay).next s x).fValid then
          [(((spiPhy W P div csDelay).next s x).fLast, ((spiPhy W P div csDelay).next s x).srIn)] else []) := by
      rw [hfv]; simpa using hdone
    by_cases hce : s.ck.cnt = div % 256
    · apply hend A E F' hd' (.inr _) (fun h => by rw [his] at h; cases h)
        (fun h => by rw [hrun] at h; cases h)
      simp [spiOutEnd, spiOutShift, spiClkGen, spiPhyCk, hrun, ht.clk, hce, ht.outCnt]
    · have hlt : s.ck.cnt < div % 256 := by omega
      have hsh : spiOutShift div s = false := by
        simp [spiOutShift, spiClkGen, spiPhyCk, hce]
      have hoe : spiOutEnd div s = false := by simp [spiOutEnd, hsh]
      have hl : spiOutLoad div csDelay s x = false := by simp [spiOutLoad, hoe, hrun]
      have hck : ((spiPhy W P div csDelay).next s x).ck.cnt = s.ck.cnt + 1 := by
        simp only [spiPhy, spiClkGen, spiPhyCk, hrun, if_true, hD, if_pos hlt]; exact hcmod hlt
      refine ⟨by rw [hck]; omega, A, E, hd', .inr (.inl ⟨?_, ⟨?_, ?_, ?_, ?_⟩, ?_, rfl⟩)⟩
      · simp [spiPhy, hl, hoe, hrun]
      · simp [spiPhy, hl, hsh, ht.outCnt]
      · simp [spiPhy, hl, his, ht.inCnt]
      · simp [spiPhy, spiClkGen, spiPhyCk, hrun, ht.clk, hlt]
      · simp [spiPhy, spiClkGen, spiPhyCk, hrun, ht.clk]
      · rw [hacc, hl]; simp
  · obtain ⟨h0, h8, hT, hcase⟩ := hc.ok.facts
    have hcn := spi_cnt hc.ok m hc.lt
    cases hclk : s.ck.clk
    · -- clock low
      obtain ⟨hpe, hel⟩ := hc.low hclk
      rw [hedge hpe, List.append_nil]
      have his : spiInShift div s = false := hpe
      have hfv : ((spiPhy W P div csDelay).next s x).fValid = false := by simp [spiPhy, spiInEnd, his]
      have hsh : spiOutShift div s = false := by simp [spiOutShift, spiClkGen, spiPhyCk, hclk]
      have hoe : spiOutEnd div s = false := by simp [spiOutEnd, hsh]
      have hl : spiOutLoad div csDelay s x = false := by simp [spiOutLoad, hoe, hrun]
      refine ⟨?_, A0, E0, by rw [hfv]; simpa using hdone, .inr (.inr ⟨?_, last, w, m, e, ?_, ?_, rfl⟩)⟩
      · simp only [spiPhy, spiClkGen, spiPhyCk, hrun, if_true, hD]
        split
        · rename_i h; rw [hcmod h]; omega
        · omega
      · simp [spiPhy, hl, hoe, hrun]
      · refine ⟨hc.lt, hc.ok, ?_, ?_, ?_, hc.elt, hc.outs, ?_, ?_, ?_, ?_, ?_, ?_⟩
        · rw [← hc.srOut]; simp [spiPhy, hl, hsh]
        · rw [← hc.outCnt]; simp [spiPhy, hl, hsh]
        · rw [← hc.width]; simp [spiPhy, hl]
        · rw [← hc.ins]; simp [spiPhy, his]
        · rw [← hc.inCnt]; simp [spiPhy, hl, his]
        · rw [← hc.last]; simp [spiPhy, hl]
        · intro hlow
          refine ⟨?_, hel⟩
          simp only [spiPhy, spiClkGen, spiPhyCk, hrun, hclk, if_true, hD] at hlow ⊢
          by_cases hlt : s.ck.cnt < div % 256
          · have : s.ck.cnt ≠ div % 256 := by omega
            simp [this]
          · rw [if_neg hlt] at hlow; simp at hlow
        · intro hhi _
          refine ⟨?_, hel⟩
          simp only [spiPhy, spiClkGen, spiPhyCk, hrun, hclk, if_true, hD] at hhi ⊢
          by_cases hlt : s.ck.cnt < div % 256
          · rw [if_pos hlt] at hhi; cases hhi
          · rw [if_neg hlt]
        · intro hhi hp
          exfalso
          simp only [spiPhy, spiClkGen, spiPhyCk, hrun, hclk, if_true, hD] at hhi hp
          by_cases hlt : s.ck.cnt < div % 256
          · rw [if_pos hlt] at hhi; cases hhi
          · have : s.ck.cnt = div % 256 := by omega
            simp [this] at hp
      · rw [hacc, hl]; simp
    · cases hpe : s.ck.pe
      · -- clock high, after the rising edge
        have hel := hc.high hclk hpe
        have helt := hc.elt
        rw [hedge hpe, List.append_nil]
        have his : spiInShift div s = false := hpe
        have hfv : ((spiPhy W P div csDelay).next s x).fValid = false := by simp [spiPhy, spiInEnd, his]
        have hz : s.srOutCnt ≠ 0 := by
          rw [hc.outCnt]; intro h; have := hcn.1.mp h; omega
        have hoe : spiOutEnd div s = false := by simp [spiOutEnd, hz]
        have hl : spiOutLoad div csDelay s x = false := by simp [spiOutLoad, hoe, hrun]
        have hin : ((spiPhy W P div csDelay).next s x).srIn % 2 ^ (w.width * e.length) =
            spiIns w.width (e.map Prod.snd) := by rw [← hc.ins]; simp [spiPhy, his]
        have hic : ((spiPhy W P div csDelay).next s x).srInCnt = w.len - w.width * (e.length + 1) := by
          rw [← hc.inCnt]; simp [spiPhy, hl, his]
        have hwd : ((spiPhy W P div csDelay).next s x).widthR = w.width := by
          rw [← hc.width]; simp [spiPhy, hl]
        have hla : ((spiPhy W P div csDelay).next s x).lastR = last := by
          rw [← hc.last]; simp [spiPhy, hl]
        by_cases hce : s.ck.cnt = div % 256
        · have hsh : spiOutShift div s = true := by
            simp [spiOutShift, spiClkGen, spiPhyCk, hclk, hrun, hce]
          have hck : ((spiPhy W P div csDelay).next s x).ck.clk = false ∧
              ((spiPhy W P div csDelay).next s x).ck.cnt = 0 ∧
              ((spiPhy W P div csDelay).next s x).ck.pe = false := by
            simp [spiPhy, spiClkGen, spiPhyCk, hclk, hce, hrun]
          refine ⟨by rw [hck.2.1]; omega, A0, E0, by rw [hfv]; simpa using hdone,
            .inr (.inr ⟨?_, last, w, m + 1, e, ?_, by rw [hacc, hl]; simp, rfl⟩)⟩
          · simp [spiPhy, hl, hoe, hrun]
          · refine ⟨by omega, hc.ok, ?_, ?_, hwd, hc.elt, hc.outs, hin, hic, hla, fun _ => ⟨hck.2.2, hel⟩,
              (fun h => by rw [hck.1] at h; cases h), (fun h => by rw [hck.1] at h; cases h)⟩
            · have : ((spiPhy W P div csDelay).next s x).srOut = s.srOut * 2 ^ w.width % 2 ^ W := by
                simp [spiPhy, hl, hsh, hc.width, hcase]
              rw [this, hc.srOut, spi_shift, Nat.mul_add, Nat.mul_one, Nat.add_assoc]
            · have : ((spiPhy W P div csDelay).next s x).srOutCnt = (s.srOutCnt + 256 - w.width) % 256 := by
                simp [spiPhy, hsh, hoe, hc.width]
              rw [this, hc.outCnt, hcn.2 (by omega)]
        · have hlt : s.ck.cnt < div % 256 := by omega
          have hsh : spiOutShift div s = false := by
            simp [spiOutShift, spiClkGen, spiPhyCk, hce]
          have hck : ((spiPhy W P div csDelay).next s x).ck.clk = true ∧
              ((spiPhy W P div csDelay).next s x).ck.cnt = s.ck.cnt + 1 ∧
              ((spiPhy W P div csDelay).next s x).ck.pe = false := by
            refine ⟨by simp [spiPhy, spiClkGen, spiPhyCk, hclk, hrun, hlt], ?_,
              by simp [spiPhy, spiClkGen, spiPhyCk, hclk]⟩
            simp only [spiPhy, spiClkGen, spiPhyCk, hrun, if_true, hD, if_pos hlt]; exact hcmod hlt
          refine ⟨by rw [hck.2.1]; omega, A0, E0, by rw [hfv]; simpa using hdone,
            .inr (.inr ⟨?_, last, w, m, e, ?_, by rw [hacc, hl]; simp, rfl⟩)⟩
          · simp [spiPhy, hl, hoe, hrun]
          · refine ⟨hc.lt, hc.ok, ?_, ?_, hwd, hc.elt, hc.outs, hin, hic, hla,
              (fun h => by rw [hck.1] at h; cases h), (fun _ h => by rw [hck.2.2] at h; cases h), fun _ _ => hel⟩
            · rw [← hc.srOut]; simp [spiPhy, hl, hsh]
            · rw [← hc.outCnt]; simp [spiPhy, hl, hsh]
      · -- rising edge
        obtain ⟨hc0, hel⟩ := hc.pe hclk hpe
        have his : spiInShift div s = true := hpe
        have hoi := spi_edge W P div csDelay (x := x) hc hel
        dsimp only at hoi
        obtain ⟨ho, hi⟩ := hoi
        have hed : spiEdge W P div csDelay s x = [(((spiPhy W P div csDelay).out s x).dqO, x.dqI)] := by
          simp [spiEdge, hpe]
        rw [hed, List.append_assoc E0 e]
        have hsrin : ((spiPhy W P div csDelay).next s x).srIn = (s.srIn * 2 ^ s.widthR +
            (if s.widthR = 1 then x.dqI / 2 % 2 else x.dqI % 2 ^ s.widthR)) % 2 ^ W := by
          simp only [spiPhy, his, hc.width, hcase, Bool.and_self, if_true]
        rw [← hsrin] at hi
        have hlen : (e ++ [(((spiPhy W P div csDelay).out s x).dqO, x.dqI)]).length = m + 1 := by simp [hel]
        generalize he' : e ++ [(((spiPhy W P div csDelay).out s x).dqO, x.dqI)] = e' at *
        by_cases hfin : m + 1 = w.len / w.width
        · -- last pulse
          have hz : s.srInCnt = 0 := by rw [hc.inCnt, hel]; exact hcn.1.mpr hfin
          have hie : spiInEnd div s = true := by simp [spiInEnd, his, hz]
          have hfv : ((spiPhy W P div csDelay).next s x).fValid = true := by simp [spiPhy, hie]
          have hfl : ((spiPhy W P div csDelay).next s x).fLast = last := by simp [spiPhy, hie, hc.last]
          have hd' : SpiDone (A0 ++ [(last, w)]) (E0 ++ e')
              (F' ++ if ((spiPhy W P div csDelay).next s x).fValid then
                [(((spiPhy W P div csDelay).next s x).fLast, ((spiPhy W P div csDelay).next s x).srIn)]
                else []) := by
            rw [hfv, hfl]
            refine SpiDone.snoc w last e' _ hdone ?_ ?_
            · rw [ho, hfin, ← spiOuts_length, List.take_length]
            · rw [← hi, hfin, hT]
          have ho0 : s.srOutCnt = 0 := by rw [hc.outCnt]; exact hcn.1.mpr hfin
          by_cases hz0 : div % 256 = 0
          · apply hend _ _ _ hd' (.inr _) (fun _ => hie) (fun h => by rw [hrun] at h; cases h)
            simp [spiOutEnd, spiOutShift, spiClkGen, spiPhyCk, hrun, hclk, hc0, hz0, ho0]
          · have hne : s.ck.cnt ≠ div % 256 := by omega
            have hlt : s.ck.cnt < div % 256 := by omega
            have hsh : spiOutShift div s = false := by
              simp [spiOutShift, spiClkGen, spiPhyCk, hne]
            have hoe : spiOutEnd div s = false := by simp [spiOutEnd, hsh]
            have hl : spiOutLoad div csDelay s x = false := by simp [spiOutLoad, hoe, hrun]
            refine ⟨?_, _, _, hd', .inr (.inl ⟨?_, ⟨?_, ?_, ?_, ?_⟩, by rw [hacc, hl]; simp, rfl⟩)⟩
            · simp only [spiPhy, spiClkGen, spiPhyCk, hrun, if_true, hD, if_pos hlt]
              rw [hcmod hlt]; omega
            · simp [spiPhy, hl, hoe, hrun]
            · simp [spiPhy, hl, hsh, ho0]
            · simp [spiPhy, hl, hie, hz]
            · simp [spiPhy, spiClkGen, spiPhyCk, hrun, hclk, hlt]
            · simp [spiPhy, spiClkGen, spiPhyCk, hclk]
        · have hm1 : m + 1 < w.len / w.width := by have := hc.lt; omega
          have hz : s.srInCnt ≠ 0 := by
            rw [hc.inCnt, hel]; intro h; exact hfin (hcn.1.mp h)
          have hie : spiInEnd div s = false := by simp [spiInEnd, hz]
          have hfv : ((spiPhy W P div csDelay).next s x).fValid = false := by simp [spiPhy, hie]
          have ho0 : s.srOutCnt ≠ 0 := by
            rw [hc.outCnt]; intro h; exact hfin (hcn.1.mp h)
          have hoe : spiOutEnd div s = false := by simp [spiOutEnd, ho0]
          have hl : spiOutLoad div csDelay s x = false := by simp [spiOutLoad, hoe, hrun]
          have hic : ((spiPhy W P div csDelay).next s x).srInCnt = w.len - w.width * (e'.length + 1) := by
            have : ((spiPhy W P div csDelay).next s x).srInCnt = (s.srInCnt + 256 - w.width) % 256 := by
              simp [spiPhy, his, hie, hc.width]
            rw [this, hc.inCnt, hel, hcn.2 hm1, hlen]
          have hwd : ((spiPhy W P div csDelay).next s x).widthR = w.width := by
            rw [← hc.width]; simp [spiPhy, hl]
          have hla : ((spiPhy W P div csDelay).next s x).lastR = last := by
            rw [← hc.last]; simp [spiPhy, hl]
          have ho' : e'.map Prod.fst = (spiOuts w).take e'.length := by rw [hlen]; exact ho
          have hi' : ((spiPhy W P div csDelay).next s x).srIn % 2 ^ (w.width * e'.length) =
              spiIns w.width (e'.map Prod.snd) := by rw [hlen]; exact hi
          by_cases hz0 : div % 256 = 0
          · have hsh : spiOutShift div s = true := by
              simp [spiOutShift, spiClkGen, spiPhyCk, hclk, hrun, hc0, hz0]
            have hck : ((spiPhy W P div csDelay).next s x).ck.clk = false ∧
                ((spiPhy W P div csDelay).next s x).ck.cnt = 0 ∧
                ((spiPhy W P div csDelay).next s x).ck.pe = false := by
              simp [spiPhy, spiClkGen, spiPhyCk, hclk, hz0, hrun]
            refine ⟨by rw [hck.2.1]; omega, A0, E0, by rw [hfv]; simpa using hdone,
              .inr (.inr ⟨?_, last, w, m + 1, e', ?_, by rw [hacc, hl]; simp, rfl⟩)⟩
            · simp [spiPhy, hl, hoe, hrun]
            · refine ⟨hm1, hc.ok, ?_, ?_, hwd, by omega, ho', hi', hic, hla, fun _ => ⟨hck.2.2, hlen⟩,
                (fun h => by rw [hck.1] at h; cases h), (fun h => by rw [hck.1] at h; cases h)⟩
              · have : ((spiPhy W P div csDelay).next s x).srOut = s.srOut * 2 ^ w.width % 2 ^ W := by
                  simp [spiPhy, hl, hsh, hc.width, hcase]
                rw [this, hc.srOut, spi_shift, Nat.mul_add, Nat.mul_one, Nat.add_assoc]
              · have : ((spiPhy W P div csDelay).next s x).srOutCnt = (s.srOutCnt + 256 - w.width) % 256 := by
                  simp [spiPhy, hsh, hoe, hc.width]
                rw [this, hc.outCnt, hcn.2 hm1]
          · have hne : s.ck.cnt ≠ div % 256 := by omega
            have hlt : s.ck.cnt < div % 256 := by omega
            have hsh : spiOutShift div s = false := by
              simp [spiOutShift, spiClkGen, spiPhyCk, hne]
            have hck : ((spiPhy W P div csDelay).next s x).ck.clk = true ∧
                ((spiPhy W P div csDelay).next s x).ck.cnt = s.ck.cnt + 1 ∧
                ((spiPhy W P div csDelay).next s x).ck.pe = false := by
              refine ⟨by simp [spiPhy, spiClkGen, spiPhyCk, hclk, hrun, hlt], ?_,
                by simp [spiPhy, spiClkGen, spiPhyCk, hclk]⟩
              simp only [spiPhy, spiClkGen, spiPhyCk, hrun, if_true, hD, if_pos hlt]; exact hcmod hlt
            refine ⟨by rw [hck.2.1]; omega, A0, E0, by rw [hfv]; simpa using hdone,
              .inr (.inr ⟨?_, last, w, m, e', ?_, by rw [hacc, hl]; simp, rfl⟩)⟩
            · simp [spiPhy, hl, hoe, hrun]
            · refine ⟨hc.lt, hc.ok, ?_, ?_, hwd, by omega, ho', hi', hic, hla,
                (fun h => by rw [hck.1] at h; cases h), (fun _ h => by rw [hck.2.2] at h; cases h), fun _ _ => hlen⟩
              · rw [← hc.srOut]; simp [spiPhy, hl, hsh]
              · rw [← hc.outCnt]; simp [spiPhy, hl, hsh]

end

end Lambdalib
