import Verif.Lemmas.ConverterRoundtrip

/-! C03-C06: width conversion. -/

namespace Lambdalib

/-- C03: the words delivered (plus the one on offer) carry exactly the closed groups of accepted
narrow beats, in order; at most one word is on offer, and never together with an open group. -/
theorem C03_upconverter_packs {wf wt r : Nat} (rev : Bool) (hr : 2 ≤ r) (hw : wt = r * wf)
    (i : Nat → SIn (BitVec wf)) (n : Nat) :
    let c := upConverter wf wt r rev
    let g := groups r (accepted c i n)
    List.Forall₂ (Packs r rev)
      (delivered c i n ++ if (c.wave i n).valid then [(c.wave i n).beat] else []) g.1 ∧
    ((c.wave i n).valid = true → g.2 = []) := by
  intro c g
  have h := upInv (rev := rev) hr hw i n
  exact ⟨h.words, h.idle⟩

/-- C03 (meaning of the grouping): no beat is lost or reordered, the open group has fewer than `r`
beats and no `last`. -/
theorem C03_groups_meaning {α : Type} (r : Nat) (hr : 0 < r) (l : List (Beat α)) :
    (groups r l).1.flatten ++ (groups r l).2 = l ∧ (groups r l).2.length < r ∧
      (groups r l).2.any (·.last) = false :=
  ⟨groups_flatten r l, groups_open r hr l⟩

/-- C03: an offered word is stable under back-pressure. -/
theorem C03_upconverter_stable {wf wt r : Nat} (rev : Bool) (i : Nat → SIn (BitVec wf)) :
    SourceStable (upConverter wf wt r rev) i := by
  intro n
  simp only [Circuit.wave, Circuit.st_succ]
  generalize (upConverter wf wt r rev).st i n = s
  generalize i n = x
  generalize i (n + 1) = y
  intro hv hr
  have hv' : s.strobe = true := hv
  simp [upConverter, hv', hr]

/-- C03: the converter accepts a beat whenever no word is on offer or the word is being taken. -/
theorem C03_upconverter_ready {wf wt r : Nat} (rev : Bool) (i : Nat → SIn (BitVec wf)) (n : Nat) :
    ((upConverter wf wt r rev).wave i n).ready = true ↔
      ((upConverter wf wt r rev).wave i n).valid = false ∨ (i n).ready = true := by
  simp only [Circuit.wave]
  generalize (upConverter wf wt r rev).st i n = s
  simp [upConverter]

/-- C04: for a sender that holds its words, the narrow beats delivered are the chunks of the accepted
words in order, followed by the first `k < r` chunks of the word being presented. -/
theorem C04_downconverter_serialises {wf wt r : Nat} (rev : Bool) (hr : 2 ≤ r)
    (i : Nat → SIn (BitVec wf)) (hs : SinkStable (downConverter wf wt r rev) i) (n : Nat) :
    ∃ k < r, (0 < k → (i n).valid = true) ∧
      delivered (downConverter wf wt r rev) i n
        = (accepted (downConverter wf wt r rev) i n).flatMap (chunks wt r rev)
          ++ (chunks wt r rev (i n).beat).take k :=
  let h := downInv (rev := rev) (by omega) i hs n
  ⟨_, h.lt, h.valid, h.eq⟩

/-- C04: for a sender that holds its words, the beats offered are stable under back-pressure. -/
theorem C04_downconverter_stable {wf wt r : Nat} (rev : Bool) (i : Nat → SIn (BitVec wf))
    (hs : SinkStable (downConverter wf wt r rev) i) :
    SourceStable (downConverter wf wt r rev) i := by
  intro n hv hr
  have h := hs n
  simp only [Circuit.wave, Circuit.st_succ] at *
  generalize (downConverter wf wt r rev).st i n = mux at *
  have := h hv (by simp [downConverter, hr])
  constructor
  · exact this.1
  · simp [downConverter, hr, this.2]

/-- C04: a beat is offered exactly when a word is presented (no dead cycles). -/
theorem C04_downconverter_valid {wf wt r : Nat} (rev : Bool) (i : Nat → SIn (BitVec wf)) (n : Nat) :
    ((downConverter wf wt r rev).wave i n).valid = (i n).valid := rfl

/-- C05: serialising and repacking with the same ratio and lane order gives back exactly the words
accepted, except for the one on offer. -/
theorem C05_down_up_roundtrip {w W r : Nat} (rev : Bool) (hr : 2 ≤ r) (hW : W = r * w)
    (i : Nat → SIn (BitVec W)) (n : Nat)
    (hs : SinkStable (chain (downConverter W w r rev) (upConverter w W r rev)) i) :
    let c := chain (downConverter W w r rev) (upConverter w W r rev)
    accepted c i n = delivered c i n ++
      (if (c.wave i n).valid then [(c.wave i n).beat] else []) := by
  intro c
  let c1 := downConverter W w r rev
  let c2 := upConverter w W r rev
  have hi := up_readyIndep w W r rev
  have h1 := downInv (rev := rev) (wt := w) (by omega) (chainIn1 c1 c2 i)
    (chain_sinkStable c1 c2 i hs) n
  have h2 := C03_upconverter_packs rev hr hW (chainIn2 c1 c2 i) n
  have hm := chain_middle c1 c2 i hi n
  have ha := chain_accepted c1 c2 i n
  have hd := chain_delivered c1 c2 i n
  have hw := chain_wave2 c1 c2 i n
  simp only [c] at *
  rw [ha, hd, hw.1, hw.2]
  obtain ⟨l1, _, l3⟩ := h1
  rw [hm] at l3
  simp only [c2] at h2 ⊢
  rw [l3, groups_append_chunks (by omega) _ (by rw [groups_flatMap_chunks (by omega)]) _ _ l1,
    groups_flatMap_chunks (by omega)] at h2
  have h3 := h2.1
  simp only [] at h3
  rw [List.forall₂_map_right_iff] at h3
  have h4 : List.Forall₂ (fun (x b : Beat (BitVec W)) => x = b) _ _ :=
    h3.imp (fun _ _ h => eq_of_packs_chunks (by omega) hW h)
  rw [List.forall₂_eq_eq_eq] at h4
  exact h4.symm

/-- C05: packing and serialising with the same ratio and lane order gives back the accepted beats in
order, with at most `r` beats in flight, when packets are aligned on the ratio. -/
theorem C05_up_down_roundtrip {w W r : Nat} (rev : Bool) (hr : 2 ≤ r) (hW : W = r * w)
    (i : Nat → SIn (BitVec w)) (n : Nat)
    (ha : Aligned r (accepted (chain (upConverter w W r rev) (downConverter W w r rev)) i n)) :
    let c := chain (upConverter w W r rev) (downConverter W w r rev)
    delivered c i n <+: accepted c i n ∧
      (accepted c i n).length ≤ (delivered c i n).length + r := by
  intro c
  let c1 := upConverter w W r rev
  let c2 := downConverter W w r rev
  have hi := down_readyIndep W w r rev
  have hst := chain_middle_stable c1 c2 i hi (C03_upconverter_stable rev _)
  have h1 := C03_upconverter_packs rev hr hW (chainIn1 c1 c2 i) n
  have h2 := downInv (rev := rev) (by omega) (chainIn2 c1 c2 i) hst n
  have hm := chain_middle c1 c2 i hi n
  have hA := chain_accepted c1 c2 i n
  have hd := chain_delivered c1 c2 i n
  have hv2 : (chainIn2 c1 c2 i n).valid = (c1.wave (chainIn1 c1 c2 i) n).valid ∧
      (chainIn2 c1 c2 i n).beat = (c1.wave (chainIn1 c1 c2 i) n).beat := by
    have h1 : c1.st (chainIn1 c1 c2 i) n = ((chain c1 c2).st i n).1 := by rw [chain_st]
    simp only [Circuit.wave, h1]
    exact ⟨rfl, rfl⟩
  simp only [c] at *
  change Aligned r (accepted (chain c1 c2) i n) at ha
  change delivered (chain c1 c2) i n <+: accepted (chain c1 c2) i n ∧ _ ≤ (delivered (chain c1 c2) i n).length + r
  rw [hA] at ha ⊢
  rw [hd]
  change List.Forall₂ _ (delivered c1 _ n ++ if (c1.wave _ n).valid then _ else _)
    (groups r (accepted c1 _ n)).1 ∧ _ at h1
  obtain ⟨g1, g2, g3⟩ := groups_aligned (by omega) _ ha
  have hfl := groups_flatten r (accepted c1 (chainIn1 c1 c2 i) n)
  have hop := groups_open r (by omega) (accepted c1 (chainIn1 c1 c2 i) n)
  have hser := flatMap_chunks_of_packs (by omega) h1.1 g1
  obtain ⟨m1, m2, m3⟩ := h2
  change delivered c2 _ n = (accepted c2 _ n).flatMap _ ++ _ at m3
  change c2.st (chainIn2 c1 c2 i) n < r at m1
  rw [← hm] at m3
  rw [hv2.2] at m3
  generalize hmux : (downConverter W w r rev).st (chainIn2 c1 c2 i) n = mux at *
  cases hv : (c1.wave (chainIn1 c1 c2 i) n).valid
  · have h0 : mux = 0 := by
      rcases Nat.eq_zero_or_pos mux with h | h
      · exact h
      · have := m2 h; rw [hv2.1, hv] at this; cases this
    subst h0
    rw [hv] at hser
    simp only [Bool.false_eq_true, ↓reduceIte, List.append_nil] at hser
    simp only [List.take_zero, List.append_nil] at m3
    rw [m3, hser]
    refine ⟨⟨_, hfl⟩, ?_⟩
    conv_lhs => rw [← hfl]
    simp only [List.length_append]
    omega
  · have h2' := h1.2 hv
    rw [hv] at hser
    simp only [↓reduceIte, List.flatMap_append, List.flatMap_cons, List.flatMap_nil,
      List.append_nil] at hser
    rw [h2', List.append_nil] at hfl
    rw [m3, ← hfl, ← hser]
    refine ⟨?_, ?_⟩
    · exact List.prefix_append_right_inj _ |>.2 (List.take_prefix _ _)
    · simp only [List.length_append, chunks_length]
      omega

/-- C06: `_get_converter_ratio` succeeds exactly for integer ratios, with the right direction and
`wide = ratio * narrow`. -/
theorem C06_ratio_ok_iff (a b : Nat) (ha : 0 < a) (hb : 0 < b) (k : ConverterKind) (r : Nat) :
    getConverterRatio a b = .ok (k, r) ↔
      (k = .up ∧ a < b ∧ b = r * a) ∨ (k = .down ∧ b < a ∧ a = r * b) ∨
      (k = .identity ∧ a = b ∧ r = 1) := by
  have key : ∀ x y : Nat, 0 < y → ((x % y = 0 ∧ x / y = r) ↔ x = r * y) := by
    intro x y hy
    constructor
    · rintro ⟨h1, rfl⟩
      exact (Nat.div_mul_cancel (Nat.dvd_of_mod_eq_zero h1)).symm
    · rintro rfl
      exact ⟨Nat.mul_mod_left _ _, Nat.mul_div_cancel _ hy⟩
  unfold getConverterRatio
  by_cases h1 : a > b
  · simp only [h1, ↓reduceIte]
    have h2 : ¬ a < b := by omega
    have h3 : ¬ a = b := by omega
    rw [← key a b hb]
    by_cases h4 : a % b = 0
    · simp [h4, h2, h3, h1, eq_comm]
    · simp [h4, h2, h3]
  · by_cases h2 : a < b
    · simp only [h1, h2, ↓reduceIte]
      have h3 : ¬ a = b := by omega
      rw [← key b a ha]
      by_cases h4 : b % a = 0
      · simp [h4, h1, h3, eq_comm]
      · simp [h4, h3, show ¬ b < a by omega]
    · have h3 : a = b := by omega
      subst h3
      simp [eq_comm]

/-- C06: `_get_converter_ratio` raises exactly when neither width divides the other. -/
theorem C06_ratio_error_iff (a b : Nat) (ha : 0 < a) (hb : 0 < b) :
    (∃ e, getConverterRatio a b = .error e) ↔ ¬ a ∣ b ∧ ¬ b ∣ a := by
  have hnd : ∀ x y : Nat, 0 < x → x < y → ¬ y ∣ x := fun x y hx h hd =>
    absurd (Nat.le_of_dvd hx hd) (by omega)
  unfold getConverterRatio
  by_cases h1 : a > b
  · have := hnd b a hb h1
    by_cases h4 : a % b = 0
    · simp [h1, h4, Nat.dvd_of_mod_eq_zero h4]
    · simp [h1, h4, this, Nat.dvd_iff_mod_eq_zero]
  · by_cases h2 : a < b
    · have := hnd a b ha h2
      by_cases h4 : b % a = 0
      · simp [h1, h2, h4, Nat.dvd_of_mod_eq_zero h4]
      · simp [h1, h2, h4, this, Nat.dvd_iff_mod_eq_zero]
    · have h3 : a = b := by omega
      subst h3
      simp

/-- C06: equal widths give a pass-through. -/
theorem C06_identity {α : Type} (i : Nat → SIn α) (n : Nat) :
    accepted identityConverter i n = delivered identityConverter i n := by
  induction n with
  | zero => rfl
  | succ n ih => rw [accepted_succ, delivered_succ, ih]; rfl

/-! Concrete cases. -/

/-- Four bytes, the third closing its packet early, receiver always ready. -/
def upSample : Nat → SIn (BitVec 8) := fun n =>
  ⟨n < 4, ⟨n == 0, n == 2, BitVec.ofNat 8 (0x10 + n)⟩, true⟩

example : delivered (upConverter 8 16 2 false) upSample 4 =
    [⟨true, false, 0x1110⟩, ⟨false, true, 0x1112⟩] := by decide
example : (delivered (upConverter 8 16 2 true) upSample 4).head? =
    some ⟨true, false, 0x1011⟩ := by decide
example : groups 2 (accepted (upConverter 8 16 2 false) upSample 4) =
    ([[⟨true, false, 0x10⟩, ⟨false, false, 0x11⟩], [⟨false, true, 0x12⟩]],
      [⟨false, false, 0x13⟩]) := by decide

/-- A sender holding one 32-bit word until it is accepted, with a stalling receiver. -/
def downSample : Nat → SIn (BitVec 32) := fun n =>
  ⟨true, ⟨true, true, 0xAABBCCDD⟩, n % 2 == 0⟩

example (rev : Bool) : SinkStable (downConverter 32 8 4 rev) downSample := by
  intro n _ _; exact ⟨rfl, rfl⟩
example : delivered (downConverter 32 8 4 false) downSample 7 =
    [⟨true, false, 0xDD⟩, ⟨false, false, 0xCC⟩, ⟨false, false, 0xBB⟩, ⟨false, true, 0xAA⟩] := by
  decide
example (rev : Bool) :
    SinkStable (chain (downConverter 32 8 4 rev) (upConverter 8 32 4 rev)) downSample := by
  intro n _ _; exact ⟨rfl, rfl⟩
example : (delivered (chain (downConverter 32 8 4 true) (upConverter 8 32 4 true)) downSample 6) =
    [⟨true, true, 0xAABBCCDD⟩] := by decide

/-- Aligned packets of two bytes. -/
def alignedSample : Nat → SIn (BitVec 8) := fun n =>
  let k := if n < 2 then n else if n < 4 then 2 else 3
  ⟨true, ⟨k % 2 == 0, k % 2 == 1, BitVec.ofNat 8 k⟩, true⟩
example : accepted (chain (upConverter 8 16 2 false) (downConverter 16 8 2 false)) alignedSample 5
    = [⟨true, false, 0⟩, ⟨false, true, 1⟩, ⟨true, false, 2⟩, ⟨false, true, 3⟩] := by decide
example : delivered (chain (upConverter 8 16 2 false) (downConverter 16 8 2 false)) alignedSample 5
    = [⟨true, false, 0⟩, ⟨false, true, 1⟩] := by decide
example : Aligned 2 (accepted (chain (upConverter 8 16 2 false) (downConverter 16 8 2 false))
    alignedSample 5) := by unfold Aligned; decide

example : getConverterRatio 32 8 = .ok (.down, 4) := by decide
example : getConverterRatio 8 24 = .ok (.up, 3) := by decide
example : ∃ e, getConverterRatio 8 12 = .error e := ⟨_, rfl⟩

end Lambdalib
