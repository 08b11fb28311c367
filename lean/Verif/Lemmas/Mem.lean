import Verif.Model.Mem
import Verif.Spec.Window

/-! Invariants of the memory streams. -/

namespace Lambdalib

section Buffer
variable {σ ι α ο : Type} [Inhabited α]

/-- Input waveform seen by the producer inside `bufferedSrc`. -/
def bufInner (c : Circuit σ (ι × Bool) (SrcOut α ο)) (rst : ι → Bool) (i : Nat → ι × Bool) (n : Nat) :
    ι × Bool :=
  ((i n).1, !(((bufferedSrc c rst).st i n).2.valid) || (i n).2)

theorem buf_st (c : Circuit σ (ι × Bool) (SrcOut α ο)) (rst : ι → Bool) (i : Nat → ι × Bool)
    (n : Nat) : ((bufferedSrc c rst).st i n).1 = c.st (bufInner c rst i) n := by
  induction n with
  | zero => rfl
  | succ n ih =>
    rw [Circuit.st_succ, Circuit.st_succ, ← ih]
    simp only [bufInner]
    generalize (bufferedSrc c rst).st i n = s
    simp [bufferedSrc, pipeValid]

theorem buf_next2 (c : Circuit σ (ι × Bool) (SrcOut α ο)) (rst : ι → Bool) (i : Nat → ι × Bool)
    (n : Nat) : ((bufferedSrc c rst).st i (n + 1)).2 =
      if rst (i n).1 then pipeValid.reset else
        if !((bufferedSrc c rst).st i n).2.valid || (i n).2 then
          ⟨(c.wave (bufInner c rst i) n).valid, (c.wave (bufInner c rst i) n).beat⟩
        else ((bufferedSrc c rst).st i n).2 := by
  rw [Circuit.st_succ]
  simp only [Circuit.wave, ← buf_st]
  simp only [bufInner]
  generalize (bufferedSrc c rst).st i n = s
  simp [bufferedSrc, pipeValid]

theorem buf_wave (c : Circuit σ (ι × Bool) (SrcOut α ο)) (rst : ι → Bool) (i : Nat → ι × Bool)
    (n : Nat) : (bufferedSrc c rst).wave i n =
      ⟨((bufferedSrc c rst).st i n).2.valid, ((bufferedSrc c rst).st i n).2.beat,
        (c.wave (bufInner c rst i) n).extra⟩ := by
  simp only [Circuit.wave, ← buf_st]
  simp only [bufInner]
  generalize (bufferedSrc c rst).st i n = s
  simp [bufferedSrc, pipeValid]

/-- What the producer hands over in a window without reset is what leaves the buffer plus the beat on
offer. -/
theorem buf_window (c : Circuit σ (ι × Bool) (SrcOut α ο)) (rst : ι → Bool) (i : Nat → ι × Bool)
    (a : Nat) (h0 : ((bufferedSrc c rst).st i a).2.valid = false) (m : Nat)
    (hr : ∀ k, a ≤ k → k < a + m → rst (i k).1 = false) :
    xferWindow (fun k => (c.wave (bufInner c rst i) k).valid) (fun k => (bufInner c rst i k).2)
      (fun k => (c.wave (bufInner c rst i) k).beat) a m =
    xferWindow (fun k => ((bufferedSrc c rst).wave i k).valid) (fun k => (i k).2)
      (fun k => ((bufferedSrc c rst).wave i k).beat) a m ++
      (if ((bufferedSrc c rst).wave i (a + m)).valid
        then [((bufferedSrc c rst).wave i (a + m)).beat] else []) := by
  induction m with
  | zero => simp [buf_wave, h0]
  | succ m ih =>
    have ih := ih (fun k h1 h2 => hr k h1 (by omega))
    have hrm := hr (a + m) (by omega) (by omega)
    rw [xferWindow_succ, xferWindow_succ, ih, ← Nat.add_assoc]
    have e : (bufInner c rst i (a + m)).2 =
      (!(((bufferedSrc c rst).st i (a + m)).2.valid) || (i (a + m)).2) := rfl
    simp only [buf_wave, buf_next2, hrm, e]
    rcases Bool.eq_false_or_eq_true ((bufferedSrc c rst).st i (a + m)).2.valid with h1 | h1 <;>
      rcases Bool.eq_false_or_eq_true (c.wave (bufInner c rst i) (a + m)).valid with h2 | h2 <;>
      rcases Bool.eq_false_or_eq_true (i (a + m)).2 with h3 | h3 <;> simp [h1, h2, h3]

end Buffer

section MemStream
variable {α : Type} [Inhabited α]

theorem rangeWidth_ge (d : Nat) : d ≤ 2 ^ rangeWidth d := by
  unfold rangeWidth
  split
  · simp; omega
  · have : d - 1 < 2 ^ ((d - 1).log2 + 1) := Nat.lt_log2_self
    omega

/-- Words accepted on the sink in a window. -/
def memWritten (depth : Nat) (i : Nat → MemIn α × Bool) (a m : Nat) : List α :=
  xferWindow (fun k => (i k).1.valid) (fun k => ((memoryStream depth).wave i k).extra)
    (fun k => (i k).1.data) a m

/-- Beats delivered on the source in a window. -/
def memRead (depth : Nat) (i : Nat → MemIn α × Bool) (a m : Nat) : List (Beat α) :=
  xferWindow (fun k => ((memoryStream depth).wave i k).valid) (fun k => (i k).2)
    (fun k => ((memoryStream depth).wave i k).beat) a m

theorem mem_write_phase (depth : Nat) (i : Nat → MemIn α × Bool) (a : Nat)
    (hstart : a = 0 ∨ (1 ≤ a ∧ (i (a - 1)).1.rewind = true)) (m : Nat)
    (hw : ∀ k, a ≤ k → k < a + m → (i k).1.rewind = false)
    (hn : (memWritten depth i a m).length ≤ depth) :
    let s := (memoryStream depth).st i (a + m)
    let W := memWritten depth i a m
    s.addrWr = W.length % 2 ^ rangeWidth depth ∧ (1 ≤ W.length → s.level = W.length) ∧
    ∀ j (hj : j < W.length), s.mem j = W[j] := by
  induction m with
  | zero =>
    have h0 : ((memoryStream depth).st i a).addrWr = 0 := by
      rcases hstart with rfl | ⟨h1, h2⟩
      · rfl
      · obtain ⟨b, rfl⟩ : ∃ b, a = b + 1 := ⟨a - 1, by omega⟩
        rw [Circuit.st_succ]
        generalize (memoryStream depth).st i b = s
        simp only [Nat.add_sub_cancel] at h2
        simp [memoryStream, h2]
    simp [memWritten, h0]
  | succ m ih =>
    have hr := hw (a + m) (by omega) (by omega)
    have hs : memWritten depth i a (m + 1) = memWritten depth i a m ++
        (if (i (a + m)).1.valid then [(i (a + m)).1.data] else []) := by
      rw [memWritten, xferWindow_succ]
      have : ((memoryStream depth).wave i (a + m)).extra = true := by
        simp only [Circuit.wave]
        generalize (memoryStream depth).st i (a + m) = s
        simp [memoryStream, hr]
      simp only [this, Bool.and_true]; rfl
    rw [hs] at hn
    obtain ⟨i1, i2, i3⟩ := ih (fun k h1 h2 => hw k h1 (by omega)) (by simp at hn; omega)
    rw [hs, ← Nat.add_assoc]
    simp only [Circuit.st_succ]
    generalize hW : memWritten depth i a m = W at *
    generalize (memoryStream depth).st i (a + m) = s at *
    cases hv : (i (a + m)).1.valid
    · have hnext : ∀ f : MemS α → Nat, f ((memoryStream depth).next s (i (a + m))) =
          f ((memoryStream depth).next s (i (a + m))) := fun _ => rfl
      have e1 : ((memoryStream depth).next s (i (a + m))).addrWr = s.addrWr := by
        simp only [memoryStream, hr, hv]; simp; split <;> rfl
      have e2 : ((memoryStream depth).next s (i (a + m))).level = s.level := by
        simp only [memoryStream, hr, hv]; simp; split <;> rfl
      have e3 : ((memoryStream depth).next s (i (a + m))).mem = s.mem := by
        simp only [memoryStream, hr, hv]; simp; split <;> rfl
      rw [e1, e2, e3]
      simp only [Bool.false_eq_true, if_false, List.append_nil]
      exact ⟨i1, i2, i3⟩
    · rw [hv] at hn
      simp only [if_true, List.length_append, List.length_cons, List.length_nil] at hn
      have hA := rangeWidth_ge depth
      have hlt : W.length % 2 ^ rangeWidth depth = W.length := Nat.mod_eq_of_lt (by omega)
      have e1 : ((memoryStream depth).next s (i (a + m))).addrWr = truncRange depth (s.addrWr + 1) := by
        simp [memoryStream, hr, hv]
      have e2 : ((memoryStream depth).next s (i (a + m))).level
          = truncRange (depth + 1) (s.addrWr + 1) := by simp [memoryStream, hr, hv]
      have e3 : ((memoryStream depth).next s (i (a + m))).mem
          = fun x => if x = s.addrWr then (i (a + m)).1.data else s.mem x := by
        simp [memoryStream, hr, hv]
      rw [e1, e2, e3, i1, hlt]
      simp only [if_true, List.length_append, List.length_cons, List.length_nil]
      refine ⟨rfl, fun _ => truncRange_of_lt (by omega), ?_⟩
      intro j hj
      by_cases hjl : j < W.length
      · rw [List.getElem_append_left hjl, if_neg (by omega)]
        exact i3 j hjl
      · have : j = W.length := by omega
        subst this
        simp

theorem mem_keep (depth : Nat) (s : MemS α) (x : MemIn α × Bool) (hv : x.1.valid = false) :
    ((memoryStream depth).next s x).mem = s.mem ∧ ((memoryStream depth).next s x).level = s.level := by
  simp only [memoryStream, hv]
  simp
  constructor <;> (split; rfl; split <;> rfl)

theorem mem_keep_many (depth : Nat) (i : Nat → MemIn α × Bool) (b d : Nat)
    (hv : ∀ k, b ≤ k → k < b + d → (i k).1.valid = false) :
    ((memoryStream depth).st i (b + d)).mem = ((memoryStream depth).st i b).mem ∧
    ((memoryStream depth).st i (b + d)).level = ((memoryStream depth).st i b).level := by
  induction d with
  | zero => exact ⟨rfl, rfl⟩
  | succ d ih =>
    obtain ⟨h1, h2⟩ := ih (fun k a b => hv k a (by omega))
    rw [← Nat.add_assoc, Circuit.st_succ]
    have := mem_keep depth ((memoryStream depth).st i (b + d)) (i (b + d))
      (hv _ (by omega) (by omega))
    exact ⟨this.1.trans h1, this.2.trans h2⟩

/-- One read-phase step. -/
theorem mem_read_step (depth : Nat) (s : MemS α) (x : MemIn α × Bool) (hv : x.1.valid = false)
    (hr : x.1.rewind = false) :
    (memoryStream depth).next s x =
      if decide (s.addrRd < s.level) && x.2 then
        { s with addrRd := truncRange depth (s.addrRd + 1),
                 rdata := s.mem (truncRange depth (s.addrRd + 1)) }
      else { s with rdata := s.mem s.addrRd } := by
  simp only [memoryStream, memAddrNxt, memValid, hv, hr]
  by_cases h1 : s.addrRd < s.level
  · have h2 : ¬ s.level ≤ s.addrRd := by omega
    cases h3 : x.2 <;> simp [h1, h2]
  · have h2 : s.level ≤ s.addrRd := by omega
    simp [h1, h2]

theorem mem_read_phase (depth n : Nat) (W : List α) (hW : W.length = n) (hn1 : 1 ≤ n)
    (hn : n ≤ depth) (i : Nat → MemIn α × Bool) (r : Nat) (hrw : (i r).1.rewind = true)
    (hv0 : (i r).1.valid = false)
    (hlev : ((memoryStream depth).st i r).level = n)
    (hmem : ∀ j (hj : j < W.length), ((memoryStream depth).st i r).mem j = W[j]) (m : Nat)
    (hw : ∀ k, r < k → k < r + 1 + m → (i k).1.rewind = false ∧ (i k).1.valid = false) :
    let D := memRead depth i (r + 1) m
    let s := (memoryStream depth).st i (r + 1 + m)
    s.level = n ∧ (∀ j (hj : j < W.length), s.mem j = W[j]) ∧ s.rdata = s.mem s.addrRd ∧
    s.addrRd = D.length % 2 ^ rangeWidth depth ∧ (n < 2 ^ rangeWidth depth → D.length ≤ n) ∧
    ∀ j (hj : j < D.length), some D[j].payload = W[j % n]? ∧
      (D[j].last = true ↔ j % n = n - 1) ∧ D[j].first = false := by
  have hA := rangeWidth_ge depth
  induction m with
  | zero =>
    have hk := mem_keep depth ((memoryStream depth).st i r) (i r) hv0
    simp only [memRead, xferWindow_zero, Nat.add_zero, Circuit.st_succ]
    refine ⟨hk.2.trans hlev, fun j hj => by rw [hk.1]; exact hmem j hj, ?_, ?_, by simp, by simp⟩
    · rw [hk.1]
      generalize (memoryStream depth).st i r = s
      simp [memoryStream, memAddrNxt, hrw]
    · generalize (memoryStream depth).st i r = s
      simp [memoryStream, hrw]
  | succ m ih =>
    obtain ⟨h1, h2, h3, h4, h5, h6⟩ := ih (fun k a b => hw k a (by omega))
    obtain ⟨hr, hv⟩ := hw (r + 1 + m) (by omega) (by omega)
    have hs : memRead depth i (r + 1) (m + 1) = memRead depth i (r + 1) m ++
        (if decide (((memoryStream depth).st i (r + 1 + m)).addrRd <
            ((memoryStream depth).st i (r + 1 + m)).level) && (i (r + 1 + m)).2 then
          [⟨false, decide (((memoryStream depth).st i (r + 1 + m)).addrRd + 1 =
              ((memoryStream depth).st i (r + 1 + m)).level),
            ((memoryStream depth).st i (r + 1 + m)).rdata⟩] else []) := by
      rw [memRead, xferWindow_succ]
      have e1 : ((memoryStream depth).wave i (r + 1 + m)).valid =
          decide (((memoryStream depth).st i (r + 1 + m)).addrRd <
            ((memoryStream depth).st i (r + 1 + m)).level) := by
        simp only [Circuit.wave]
        generalize (memoryStream depth).st i (r + 1 + m) = s
        simp only [memoryStream, memValid, hr, hv]
        by_cases h : s.addrRd < s.level
        · simp [h]
        · simp [h]; omega
      simp only [e1]; rfl
    rw [hs, ← Nat.add_assoc]
    simp only [Circuit.st_succ, mem_read_step depth _ _ hv hr]
    generalize memRead depth i (r + 1) m = D at *
    generalize (memoryStream depth).st i (r + 1 + m) = s at *
    by_cases hf : (decide (s.addrRd < s.level) && (i (r + 1 + m)).2) = true
    · simp only [hf, if_true]
      simp only [Bool.and_eq_true, decide_eq_true_eq] at hf
      have hDA : D.length % 2 ^ rangeWidth depth = D.length % n ∧
          (n < 2 ^ rangeWidth depth → D.length < n) := by
        by_cases hnA : n < 2 ^ rangeWidth depth
        · have := h5 hnA
          rw [Nat.mod_eq_of_lt (show D.length < 2 ^ rangeWidth depth by omega)] at h4 ⊢
          have hl : D.length < n := by omega
          exact ⟨(Nat.mod_eq_of_lt hl).symm, fun _ => hl⟩
        · have : 2 ^ rangeWidth depth = n := by omega
          rw [this]; exact ⟨rfl, fun h => by omega⟩
      refine ⟨h1, h2, trivial, ?_, ?_, ?_⟩
      · unfold truncRange
        rw [h4, List.length_append]; simp
      · intro h; have := hDA.2 h; simp; omega
      · intro j hj
        simp only [List.length_append, List.length_cons, List.length_nil] at hj
        by_cases hjl : j < D.length
        · rw [List.getElem_append_left hjl]; exact h6 j hjl
        · have : j = D.length := by omega
          subst this
          simp only [List.getElem_concat_length]
          have hlt : D.length % n < n := Nat.mod_lt _ (by omega)
          refine ⟨?_, ?_, trivial⟩
          · rw [h3, h4, hDA.1, h2 _ (by omega), List.getElem?_eq_getElem (by omega)]
          · rw [h4, h1, hDA.1]; simp; omega
    · simp only [hf, Bool.false_eq_true, if_false, List.append_nil]
      exact ⟨h1, h2, trivial, h4, h5, h6⟩

end MemStream

section Reader
variable {α : Type} [Inhabited α]

/-- The table as a stream packet: `last` on the final entry. -/
def tableBeats (init : List α) : List (Beat α) :=
  init.mapIdx fun j x => ⟨false, decide (j + 1 = init.length), x⟩

/-- Beats delivered by the reader in a window. -/
def rdRead (init : List α) (i : Nat → Bool × Bool) (a m : Nat) : List (Beat α) :=
  xferWindow (fun k => ((memoryStreamReader init).wave i k).valid) (fun k => (i k).2)
    (fun k => ((memoryStreamReader init).wave i k).beat) a m

theorem rd_step (init : List α) (s : MemRdS α) (x : Bool × Bool) (hr : x.1 = false) :
    (memoryStreamReader init).next s x =
      if !s.wait && !s.done && x.2 then
        ⟨if decide (s.addrRd + 1 = init.length) then true else s.done, false,
          truncRange init.length (s.addrRd + 1),
          init.getD (truncRange init.length (s.addrRd + 1)) default⟩
      else ⟨s.done, false, s.addrRd, init.getD s.addrRd default⟩ := by
  simp only [memoryStreamReader, hr]
  cases h1 : s.wait <;> cases h2 : s.done <;> cases h3 : x.2 <;> simp

theorem rd_phase (init : List α) (hN : init ≠ []) (i : Nat → Bool × Bool) (a : Nat)
    (hstart : a = 0 ∨ (1 ≤ a ∧ (i (a - 1)).1 = true)) (m : Nat)
    (hw : ∀ k, a ≤ k → k < a + m → (i k).1 = false) :
    let D := rdRead init i a m
    let s := (memoryStreamReader init).st i (a + m)
    D = (tableBeats init).take D.length ∧ D.length ≤ init.length ∧
    (s.done = true ↔ D.length = init.length) ∧ (s.wait = true ↔ m = 0) ∧
    (s.done = false → s.addrRd = D.length) ∧
    (s.done = false → s.wait = false → s.rdata = init.getD D.length default) := by
  have hpos : 0 < init.length := List.length_pos_iff.2 hN
  induction m with
  | zero =>
    have h0 : ((memoryStreamReader init).st i a).done = false ∧
        ((memoryStreamReader init).st i a).wait = true ∧
        ((memoryStreamReader init).st i a).addrRd = 0 := by
      rcases hstart with rfl | ⟨h1, h2⟩
      · exact ⟨rfl, rfl, rfl⟩
      · obtain ⟨b, rfl⟩ : ∃ b, a = b + 1 := ⟨a - 1, by omega⟩
        rw [Circuit.st_succ]
        generalize (memoryStreamReader init).st i b = s
        simp only [Nat.add_sub_cancel] at h2
        simp [memoryStreamReader, h2]
    simp only [rdRead, xferWindow_zero, Nat.add_zero, h0]
    simp
    exact fun h => hN (List.length_eq_zero_iff.1 h.symm)
  | succ m ih =>
    obtain ⟨h1, h2, h3, h4, h5, h6⟩ := ih (fun k x y => hw k x (by omega))
    have hr := hw (a + m) (by omega) (by omega)
    have hs : rdRead init i a (m + 1) = rdRead init i a m ++
        (if !((memoryStreamReader init).st i (a + m)).wait &&
            !((memoryStreamReader init).st i (a + m)).done && (i (a + m)).2 then
          [⟨false, decide (((memoryStreamReader init).st i (a + m)).addrRd + 1 = init.length),
            ((memoryStreamReader init).st i (a + m)).rdata⟩] else []) := by
      rw [rdRead, xferWindow_succ]
      have e1 : ((memoryStreamReader init).wave i (a + m)).valid =
          (!((memoryStreamReader init).st i (a + m)).wait &&
            !((memoryStreamReader init).st i (a + m)).done) := by
        simp only [Circuit.wave]
        generalize (memoryStreamReader init).st i (a + m) = s
        simp [memoryStreamReader, hr]
      simp only [e1]; rfl
    rw [hs, ← Nat.add_assoc]
    simp only [Circuit.st_succ, rd_step init _ _ hr]
    generalize rdRead init i a m = D at *
    generalize (memoryStreamReader init).st i (a + m) = s at *
    by_cases hf : (!s.wait && !s.done && (i (a + m)).2) = true
    · simp only [hf, if_true]
      simp only [Bool.and_eq_true, Bool.not_eq_true'] at hf
      obtain ⟨⟨hw', hd⟩, _⟩ := hf
      have h5 := h5 hd
      have h6 := h6 hd hw'
      have hlt : D.length < init.length := by
        have : D.length ≠ init.length := fun h => by rw [h3.2 h] at hd; cases hd
        omega
      have hbeat : (⟨false, decide (s.addrRd + 1 = init.length), s.rdata⟩ : Beat α)
          = (tableBeats init)[D.length]'(by simpa [tableBeats] using hlt) := by
        simp [tableBeats, h5, h6, List.getD, List.getElem?_eq_getElem hlt]
      simp only [List.length_append, List.length_cons, List.length_nil]
      refine ⟨?_, by omega, ?_, by simp, ?_, ?_⟩
      · rw [hbeat, List.take_add_one, ← h1, List.getElem?_eq_getElem]; rfl
      · rw [h5]
        by_cases hx : D.length + 1 = init.length <;> simp [hx, hd]
      · rw [h5]
        by_cases hx : D.length + 1 = init.length
        · simp [hx]
        · intro _; exact truncRange_of_lt (by omega)
      · rw [h5]
        by_cases hx : D.length + 1 = init.length
        · simp [hx]
        · intro _ _; rw [truncRange_of_lt (by omega)]
    · simp only [hf, Bool.false_eq_true, if_false, List.append_nil]
      refine ⟨h1, h2, h3, by simp, h5, fun hd _ => by rw [h5 hd]⟩

end Reader
end Lambdalib
