import Verif.Model.Converter
import Verif.Spec.Convert
import Verif.Lemmas.List

/-! Helper lemmas for the width converters. -/

namespace Lambdalib

theorem getLane_eq_slice {W : Nat} (w k : Nat) (x : BitVec W) : getLane w k x = slice w k x := by
  simp [getLane, slice, BitVec.extractLsb']

theorem laneIdx_eq_position (r k : Nat) (rev : Bool) : laneIdx r rev k = position r rev k := by
  cases rev <;> simp [laneIdx, position]; omega

theorem position_lt {r k : Nat} (rev : Bool) (h : k < r) : position r rev k < r := by
  cases rev <;> simp [position] <;> omega

theorem position_inj {r j k : Nat} (rev : Bool) (hj : j < r) (hk : k < r)
    (h : position r rev j = position r rev k) : j = k := by
  cases rev <;> simp [position] at h <;> omega

theorem position_surj {r j : Nat} (rev : Bool) (hj : j < r) :
    ∃ k < r, position r rev k = j := by
  cases rev
  · exact ⟨j, hj, by simp [position]⟩
  · exact ⟨r - 1 - j, by omega, by simp [position]; omega⟩

theorem groups_snoc {α : Type} (r : Nat) (l : List (Beat α)) (b : Beat α) :
    groups r (l ++ [b]) = groupStep r (groups r l) b := by
  simp [groups]

/-- Grouping neither loses nor reorders beats. -/
theorem groups_flatten {α : Type} (r : Nat) (l : List (Beat α)) :
    (groups r l).1.flatten ++ (groups r l).2 = l := by
  induction l using snocInduction with
  | nil => simp [groups]
  | snoc l b ih =>
    rw [groups_snoc]
    unfold groupStep
    split
    · simp only [List.flatten_append, List.flatten_cons, List.flatten_nil, List.append_nil]
      rw [← List.append_assoc, ih]
    · simp only []
      rw [← List.append_assoc, ih]

/-- The open group is shorter than `r` and contains no `last`. -/
theorem groups_open {α : Type} (r : Nat) (hr : 0 < r) (l : List (Beat α)) :
    (groups r l).2.length < r ∧ (groups r l).2.any (·.last) = false := by
  induction l using snocInduction with
  | nil => simp [groups, hr]
  | snoc l b ih =>
    rw [groups_snoc]
    unfold groupStep
    split
    · simp [hr]
    · rename_i h
      simp only [not_or] at h
      simp [ih.2, h.1]
      have := ih.1
      omega

/-- Invariant of the up-converter. -/
structure UpInv {wf wt : Nat} (r : Nat) (rev : Bool) (A : List (Beat (BitVec wf)))
    (D : List (Beat (BitVec wt))) (s : UpS wt) : Prop where
  demux : s.demux = (groups r A).2.length
  idle : s.strobe = true → (groups r A).2 = []
  words : List.Forall₂ (Packs r rev) (D ++ if s.strobe then [⟨s.first, s.last, s.data⟩] else [])
    (groups r A).1
  part : s.strobe = false → Packs r rev ⟨s.first, s.last, s.data⟩ (groups r A).2

/-- Loading one more beat into the word under construction. -/
theorem Packs_snoc {wf wt r : Nat} {rev : Bool} (hw : wt = r * wf) {f l : Bool} {d : BitVec wt}
    {g : List (Beat (BitVec wf))} (b : Beat (BitVec wf)) (hg : g.length < r)
    (h : Packs r rev ⟨f, l, d⟩ g) :
    Packs r rev ⟨b.first || f, b.last || l, setLane wf (laneIdx r rev g.length) d b.payload⟩
      (g ++ [b]) := by
  obtain ⟨h1, h2, h3⟩ := h
  refine ⟨by simp_all [Bool.or_comm], by simp_all [Bool.or_comm], ?_⟩
  intro k hk
  simp only [List.length_append, List.length_cons, List.length_nil, Nat.zero_add] at hk
  simp only [← getLane_eq_slice] at h3 ⊢
  rw [laneIdx_eq_position]
  by_cases hkg : k = g.length
  · subst hkg
    rw [getLane_setLane_same]
    · simp
    · rw [hw]; exact Nat.mul_le_mul_right _ (position_lt rev hg)
  · rw [getLane_setLane_ne]
    · rw [List.getElem_append_left (by omega)]
      exact h3 k (by omega)
    · intro h; exact hkg (position_inj rev (by omega) hg h)

theorem Packs_nil {wf wt r : Nat} {rev : Bool} (d : BitVec wt) :
    Packs r rev ⟨false, false, d⟩ ([] : List (Beat (BitVec wf))) := by
  simp [Packs]

theorem upInv {wf wt r : Nat} {rev : Bool} (hr : 2 ≤ r) (hw : wt = r * wf)
    (i : Nat → SIn (BitVec wf)) (n : Nat) :
    UpInv r rev (accepted (upConverter wf wt r rev) i n) (delivered (upConverter wf wt r rev) i n)
      ((upConverter wf wt r rev).st i n) := by
  refine stream_induct (upConverter wf wt r rev) (UpInv r rev) ?_ ?_ i n
  · constructor <;> simp [upConverter, groups, Packs]
  · rintro A D s ⟨xv, xb, xr⟩ ⟨h1, h2, h3, h4⟩
    have ho := groups_open r (by omega) A
    have hd : s.demux < r := by omega
    cases hs : s.strobe
    · -- no word on offer: the sink is ready
      simp only [hs, Bool.false_eq_true, ↓reduceIte, List.append_nil, forall_const] at h2 h3 h4
      cases xv
      · constructor <;> simp_all [upConverter]
      · have hp := Packs_snoc hw xb ho.1 h4
        have hstep := groups_snoc r A xb
        by_cases hl : xb.last = true ∨ (groups r A).2.length + 1 = r
        · simp only [groupStep, hl, ↓reduceIte] at hstep
          have hl' : s.demux = r - 1 ∨ xb.last = true := by
            rcases hl with hl | hl
            · exact .inr hl
            · left; omega
          have hn : (upConverter wf wt r rev).next s ⟨true, xb, xr⟩ =
              ⟨0, true, xb.first || s.first, xb.last || s.last,
                setLane wf (laneIdx r rev s.demux) s.data xb.payload⟩ := by
            simp [upConverter, hs, hd]
            rcases hl' with h | h <;> simp [h]
          rw [hn]
          constructor <;> simp [upConverter, hs, hstep]
          · rw [h1]; exact forall₂_snoc h3 hp
        · simp only [groupStep, hl, ↓reduceIte] at hstep
          have hl' : ¬ (s.demux = r - 1 ∨ xb.last = true) := by
            simp only [not_or, Bool.not_eq_true] at hl
            simp [hl.1]; omega
          have htr : truncRange r (s.demux + 1) = s.demux + 1 :=
            truncRange_of_lt (by simp at hl'; omega)
          have hn : (upConverter wf wt r rev).next s ⟨true, xb, xr⟩ =
              ⟨s.demux + 1, false, xb.first || s.first, xb.last || s.last,
                setLane wf (laneIdx r rev s.demux) s.data xb.payload⟩ := by
            simp only [not_or, Bool.not_eq_true] at hl'
            simp [upConverter, hs, hl'.1, hl'.2, hd, htr]
          rw [hn]
          constructor <;> simp [upConverter, hs, hstep, ← h1]
          · exact h3
          · simpa [← h1] using hp
    · have h2 := h2 hs
      simp only [hs, ↓reduceIte] at h3 h4
      have hd0 : s.demux = 0 := by simp [h1, h2]
      cases xr
      · constructor <;> simp_all [upConverter]
      · cases xv
        · constructor <;> simp_all [upConverter]
          exact Packs_nil _
        · have hstep := groups_snoc r A xb
          have hp := Packs_snoc (rev := rev) hw xb (g := []) (f := false) (l := false) (d := s.data)
            (by simp; omega) (Packs_nil _)
          simp only [Bool.or_false, List.length_nil, List.nil_append] at hp
          by_cases hl : xb.last = true
          · simp only [groupStep, hl, true_or, ↓reduceIte, h2, List.nil_append] at hstep
            constructor <;> simp [upConverter, hs, hstep, hd0, hl] <;> try omega
            · have := forall₂_snoc h3 hp
              simpa [hl, show 0 < r by omega] using this
          · have hl2 : ¬ (xb.last = true ∨ (groups r A).2.length + 1 = r) := by
              simp [hl, h2]; omega
            rw [groupStep, if_neg hl2, h2, List.nil_append] at hstep
            have hr1 : ¬ 0 = r - 1 := by omega
            have htr : truncRange r 1 = 1 := truncRange_of_lt (by omega)
            constructor <;> simp [upConverter, hs, hstep, hd0, hl, hr1, htr] 
            · exact h3
            · simpa [hl, show 0 < r by omega] using hp


theorem chunks_length {wf wt r : Nat} {rev : Bool} (b : Beat (BitVec wf)) :
    (chunks wt r rev b).length = r := by simp [chunks]

/-- Output of the down-converter in position `mux`. -/
theorem down_beat {wf wt r : Nat} {rev : Bool} (mux : Nat) (hm : mux < r) (x : SIn (BitVec wf)) :
    ((downConverter wf wt r rev).out mux x).beat
      = (chunks wt r rev x.beat)[mux]'(by simp [chunks, hm]) := by
  simp [downConverter, chunks, hm, getLane_eq_slice, laneIdx_eq_position]
  have : (mux == r - 1) = (mux + 1 == r) := by rw [Bool.eq_iff_iff]; simp; omega
  rw [this]

/-- Invariant of the down-converter. -/
structure DownInv {wf wt : Nat} (r : Nat) (rev : Bool) (A : List (Beat (BitVec wf)))
    (D : List (Beat (BitVec wt))) (mux : Nat) (x : SIn (BitVec wf)) : Prop where
  lt : mux < r
  valid : 0 < mux → x.valid = true
  eq : D = A.flatMap (chunks wt r rev) ++ (chunks wt r rev x.beat).take mux

theorem downInv {wf wt r : Nat} {rev : Bool} (hr : 1 ≤ r) (i : Nat → SIn (BitVec wf))
    (hs : SinkStable (downConverter wf wt r rev) i) (n : Nat) :
    DownInv r rev (accepted (downConverter wf wt r rev) i n)
      (delivered (downConverter wf wt r rev) i n) ((downConverter wf wt r rev).st i n) (i n) := by
  induction n with
  | zero => constructor <;> simp [accepted, delivered, downConverter] <;> omega
  | succ n ih =>
    have hst := hs n
    simp only [Circuit.wave] at hst
    rw [accepted_succ, delivered_succ, Circuit.st_succ]
    generalize accepted (downConverter wf wt r rev) i n = A at *
    generalize delivered (downConverter wf wt r rev) i n = D at *
    generalize (downConverter wf wt r rev).st i n = mux at *
    obtain ⟨h1, h2, h3⟩ := ih
    have hb := down_beat (wt := wt) (rev := rev) mux h1 (i n)
    have hv : ((downConverter wf wt r rev).out mux (i n)).valid = (i n).valid := rfl
    have hrd : ((downConverter wf wt r rev).out mux (i n)).ready
      = (mux == r - 1 && (i n).ready) := rfl
    rw [hv, hrd, hb]
    rw [hrd] at hst
    have htake : (chunks wt r rev (i n).beat).take (mux + 1)
        = (chunks wt r rev (i n).beat).take mux
          ++ [(chunks wt r rev (i n).beat)[mux]'(by simp [chunks, h1])] := by
      rw [List.take_add_one]; simp [chunks, h1]
    by_cases hx : (i n).valid = true ∧ (i n).ready = true
    · by_cases hl : mux = r - 1
      · have hfull : (chunks wt r rev (i n).beat).take (mux + 1) = chunks wt r rev (i n).beat :=
          List.take_of_length_le (by simp [chunks]; omega)
        constructor
        · simp [downConverter, hx, hl]; omega
        · simp [downConverter, hx, hl]
        · simp [downConverter, hx, hl, h3]
          rw [← hl]; exact hfull
      · have htr : truncRange r (mux + 1) = mux + 1 := truncRange_of_lt (by omega)
        have hst := hst hx.1 (by simp [hl])
        constructor
        · simp [downConverter, hx, hl, htr]; omega
        · intro _; exact hst.1
        · rw [hst.2]
          have hn : (downConverter wf wt r rev).next mux (i n) = mux + 1 := by
            simp [downConverter, hx.1, hx.2, hl, htr]
          have hl' : (mux == r - 1) = false := by simp [hl]
          rw [hn, htake, h3, hx.1, hx.2, hl']
          simp
    · by_cases hv : (i n).valid = true
      · have hr' : (i n).ready = false := by simpa [hv] using hx
        have hst := hst hv (by simp [hr'])
        constructor
        · simp [downConverter, hr', h1]
        · intro _; exact hst.1
        · rw [hst.2]; simp [downConverter, hr', h3]
      · have hv' : (i n).valid = false := by simpa using hv
        have h0 : mux = 0 := by
          rcases Nat.eq_zero_or_pos mux with h | h
          · exact h
          · exact absurd (h2 h) hv
        subst h0
        constructor
        · simp [downConverter, hv']; omega
        · simp [downConverter, hv']
        · simp [downConverter, hv', h3]

section Chain
variable {σ τ α β γ : Type} [Inhabited β]
  (c1 : Circuit σ (SIn α) (SOut β)) (c2 : Circuit τ (SIn β) (SOut γ)) (i : Nat → SIn α)

/-- Inputs seen by the first component of a chain. -/
def chainIn1 (n : Nat) : SIn α :=
  ⟨(i n).valid, (i n).beat,
    (c2.out ((chain c1 c2).st i n).2 ⟨false, zeroBeat, (i n).ready⟩).ready⟩

/-- Inputs seen by the second component of a chain. -/
def chainIn2 (n : Nat) : SIn β :=
  let o1 := c1.out ((chain c1 c2).st i n).1 (chainIn1 c1 c2 i n)
  ⟨o1.valid, o1.beat, (i n).ready⟩

theorem chain_st (n : Nat) :
    (chain c1 c2).st i n = (c1.st (chainIn1 c1 c2 i) n, c2.st (chainIn2 c1 c2 i) n) := by
  induction n with
  | zero => rfl
  | succ n ih =>
    rw [Circuit.st_succ, Circuit.st_succ, Circuit.st_succ]
    have h1 : c1.st (chainIn1 c1 c2 i) n = ((chain c1 c2).st i n).1 := by rw [ih]
    have h2 : c2.st (chainIn2 c1 c2 i) n = ((chain c1 c2).st i n).2 := by rw [ih]
    rw [h1, h2]
    rfl

theorem chain_accepted (n : Nat) :
    accepted (chain c1 c2) i n = accepted c1 (chainIn1 c1 c2 i) n := by
  induction n with
  | zero => rfl
  | succ n ih =>
    rw [accepted_succ, accepted_succ, ih]
    have h1 : c1.st (chainIn1 c1 c2 i) n = ((chain c1 c2).st i n).1 := by rw [chain_st]
    rw [h1]; rfl

theorem chain_delivered (n : Nat) :
    delivered (chain c1 c2) i n = delivered c2 (chainIn2 c1 c2 i) n := by
  induction n with
  | zero => rfl
  | succ n ih =>
    rw [delivered_succ, delivered_succ, ih]
    have h2 : c2.st (chainIn2 c1 c2 i) n = ((chain c1 c2).st i n).2 := by rw [chain_st]
    rw [h2]; rfl

theorem chain_middle (h : ReadyIndep c2) (n : Nat) :
    delivered c1 (chainIn1 c1 c2 i) n = accepted c2 (chainIn2 c1 c2 i) n := by
  induction n with
  | zero => rfl
  | succ n ih =>
    rw [delivered_succ, accepted_succ, ih]
    have h1 : c1.st (chainIn1 c1 c2 i) n = ((chain c1 c2).st i n).1 := by rw [chain_st]
    have h2 : c2.st (chainIn2 c1 c2 i) n = ((chain c1 c2).st i n).2 := by rw [chain_st]
    rw [h1, h2]
    have h3 : (c2.out ((chain c1 c2).st i n).2 (chainIn2 c1 c2 i n)).ready
        = (chainIn1 c1 c2 i n).ready := h _ _ _ _ _ _
    rw [h3]; rfl

theorem chain_wave2 (n : Nat) :
    ((chain c1 c2).wave i n).valid = (c2.wave (chainIn2 c1 c2 i) n).valid ∧
    ((chain c1 c2).wave i n).beat = (c2.wave (chainIn2 c1 c2 i) n).beat := by
  simp only [Circuit.wave]
  have h2 : c2.st (chainIn2 c1 c2 i) n = ((chain c1 c2).st i n).2 := by rw [chain_st]
  rw [h2]; exact ⟨rfl, rfl⟩

theorem chain_wave1 (n : Nat) :
    ((chain c1 c2).wave i n).ready = (c1.wave (chainIn1 c1 c2 i) n).ready := by
  simp only [Circuit.wave]
  have h1 : c1.st (chainIn1 c1 c2 i) n = ((chain c1 c2).st i n).1 := by rw [chain_st]
  rw [h1]; rfl

theorem chain_sinkStable (h : SinkStable (chain c1 c2) i) :
    SinkStable c1 (chainIn1 c1 c2 i) := by
  intro n hv hr
  exact h n hv ((chain_wave1 c1 c2 i n).trans hr)

theorem chain_middle_ready (h : ReadyIndep c2) (n : Nat) :
    (c2.wave (chainIn2 c1 c2 i) n).ready = (chainIn1 c1 c2 i n).ready := by
  simp only [Circuit.wave]
  have h2 : c2.st (chainIn2 c1 c2 i) n = ((chain c1 c2).st i n).2 := by rw [chain_st]
  rw [h2]
  exact h _ _ _ _ _ _

theorem chain_middle_stable (h : ReadyIndep c2)
    (hs : SourceStable c1 (chainIn1 c1 c2 i)) : SinkStable c2 (chainIn2 c1 c2 i) := by
  intro n hv hr
  replace hr := (chain_middle_ready c1 c2 i h n).symm.trans hr
  have h1 : ∀ n, c1.st (chainIn1 c1 c2 i) n = ((chain c1 c2).st i n).1 := by
    intro n; rw [chain_st]
  have key : ∀ n, (chainIn2 c1 c2 i n).valid = (c1.wave (chainIn1 c1 c2 i) n).valid ∧
      (chainIn2 c1 c2 i n).beat = (c1.wave (chainIn1 c1 c2 i) n).beat := by
    intro n
    simp only [Circuit.wave, h1]
    exact ⟨rfl, rfl⟩
  have := hs n ((key n).1.symm.trans hv) hr
  exact ⟨(key (n + 1)).1.trans this.1,
    (key (n + 1)).2.trans (this.2.trans (key n).2.symm)⟩

end Chain

theorem up_readyIndep (wf wt r : Nat) (rev : Bool) : ReadyIndep (upConverter wf wt r rev) := by
  intro s v v' b b' r; rfl
theorem down_readyIndep (wf wt r : Nat) (rev : Bool) : ReadyIndep (downConverter wf wt r rev) := by
  intro s v v' b b' r; rfl

end Lambdalib
