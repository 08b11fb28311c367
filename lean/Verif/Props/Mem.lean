import Verif.Lemmas.Mem

/-! C17, C18, C62: memory streams. -/

namespace Lambdalib
variable {α : Type} [Inhabited α]

/-- A use of the memory: write from cycle `a` (reset or just after a rewind) to cycle `a + l - 1`, then
no more writes until cycle `r + m`; rewind in cycle `r ≥ a + l`, and no rewind in the `m` cycles
following `r`. Reads and rewinds between the writes and `r` are allowed. -/
structure MemUse (i : Nat → MemIn α × Bool) (a l r m : Nat) : Prop where
  start : a = 0 ∨ (1 ≤ a ∧ (i (a - 1)).1.rewind = true)
  writing : ∀ k, a ≤ k → k < a + l → (i k).1.rewind = false
  order : a + l ≤ r
  rewind : (i r).1.rewind = true
  noWrite : ∀ k, a + l ≤ k → k < r + 1 + m → (i k).1.valid = false
  noRewind : ∀ k, r < k → k < r + 1 + m → (i k).1.rewind = false

theorem memUse_phase (depth : Nat) (i : Nat → MemIn α × Bool) (a l r m : Nat)
    (hu : MemUse i a l r m) (h1 : 1 ≤ (memWritten depth i a l).length)
    (hd : (memWritten depth i a l).length ≤ depth) :
    let n := (memWritten depth i a l).length
    let W := memWritten depth i a l
    let D := memRead depth i (r + 1) m
    let s := (memoryStream depth).st i (r + 1 + m)
    s.level = n ∧ s.addrRd = D.length % 2 ^ rangeWidth depth ∧
    (n < 2 ^ rangeWidth depth → D.length ≤ n) ∧
    ∀ j (hj : j < D.length), some D[j].payload = W[j % n]? ∧
      (D[j].last = true ↔ j % n = n - 1) ∧ D[j].first = false := by
  have hw := mem_write_phase depth i a hu.start l hu.writing hd
  have hk := mem_keep_many depth i (a + l) (r - (a + l))
    (fun k x y => hu.noWrite k x (by have := hu.order; omega))
  rw [show a + l + (r - (a + l)) = r by have := hu.order; omega] at hk
  have hr := mem_read_phase depth _ (memWritten depth i a l) rfl h1 hd i r hu.rewind
    (hu.noWrite r hu.order (by omega)) (hk.2.trans (hw.2.1 h1))
    (fun j hj => by rw [hk.1]; exact hw.2.2 j hj) m
    (fun k x y => ⟨hu.noRewind k x y, hu.noWrite k (by have := hu.order; omega) y⟩)
  exact ⟨hr.1, hr.2.2.2.1, hr.2.2.2.2.1, hr.2.2.2.2.2⟩

/-- C17: after writing `n` words (1 ≤ n ≤ depth) and a rewind, the j-th word read is the j-th word
written (cyclically beyond `n`, see C62), and `last` marks exactly the n-th. -/
theorem C17_memstream_replay (depth : Nat) (i : Nat → MemIn α × Bool) (a l r m : Nat)
    (hu : MemUse i a l r m) (h1 : 1 ≤ (memWritten depth i a l).length)
    (hd : (memWritten depth i a l).length ≤ depth)
    (j : Nat) (hj : j < (memRead depth i (r + 1) m).length)
    (hjn : j < (memWritten depth i a l).length) :
    (memRead depth i (r + 1) m)[j].payload = (memWritten depth i a l)[j] ∧
    ((memRead depth i (r + 1) m)[j].last = true ↔ j + 1 = (memWritten depth i a l).length) := by
  have h := (memUse_phase depth i a l r m hu h1 hd).2.2.2 j hj
  rw [Nat.mod_eq_of_lt hjn, List.getElem?_eq_getElem hjn] at h
  refine ⟨by simpa using h.1, ?_⟩
  rw [h.2.1]; omega

/-- C17: as long as fewer than `n` words have been read since the rewind, a word is on offer. -/
theorem C17_memstream_available (depth : Nat) (i : Nat → MemIn α × Bool) (a l r m : Nat)
    (hu : MemUse i a l r (m + 1)) (h1 : 1 ≤ (memWritten depth i a l).length)
    (hd : (memWritten depth i a l).length ≤ depth)
    (hm : (memRead depth i (r + 1) m).length < (memWritten depth i a l).length) :
    ((memoryStream depth).wave i (r + 1 + m)).valid = true := by
  have hu' : MemUse i a l r m := ⟨hu.start, hu.writing, hu.order, hu.rewind,
    fun k x y => hu.noWrite k x (by omega), fun k x y => hu.noRewind k x (by omega)⟩
  obtain ⟨h2, h3, _, _⟩ := memUse_phase depth i a l r m hu' h1 hd
  have hr := hu.noRewind (r + 1 + m) (by omega) (by omega)
  have hv := hu.noWrite (r + 1 + m) (by have := hu.order; omega) (by omega)
  have hA := rangeWidth_ge depth
  rw [Nat.mod_eq_of_lt (by omega)] at h3
  simp only [Circuit.wave]
  generalize (memoryStream depth).st i (r + 1 + m) = s at *
  simp only [memoryStream, memValid, hr, hv]
  simp; omega

/-- C17: words are accepted in every cycle without rewind. -/
theorem C17_memstream_accepts (depth : Nat) (i : Nat → MemIn α × Bool) (k : Nat) :
    ((memoryStream depth).wave i k).extra = !(i k).1.rewind := rfl

/-- C17: nothing is offered in a cycle with a rewind or with a word being written. -/
theorem C17_memstream_quiet (depth : Nat) (i : Nat → MemIn α × Bool) (k : Nat)
    (h : (i k).1.rewind = true ∨ (i k).1.valid = true) :
    ((memoryStream depth).wave i k).valid = false := by
  simp only [Circuit.wave]
  generalize (memoryStream depth).st i k = s
  rcases h with h | h <;> simp [memoryStream, memValid, h]

/-- Words accepted by the buffered variant in a window. -/
def memWrittenB (depth : Nat) (i : Nat → MemIn α × Bool) (a m : Nat) : List α :=
  xferWindow (fun k => (i k).1.valid) (fun k => ((memoryStreamBuffered depth).wave i k).extra)
    (fun k => (i k).1.data) a m

/-- Beats delivered by the buffered variant in a window. -/
def memReadB (depth : Nat) (i : Nat → MemIn α × Bool) (a m : Nat) : List (Beat α) :=
  xferWindow (fun k => ((memoryStreamBuffered depth).wave i k).valid) (fun k => (i k).2)
    (fun k => ((memoryStreamBuffered depth).wave i k).beat) a m

theorem memB_written (depth : Nat) (i : Nat → MemIn α × Bool) (a m : Nat) :
    memWrittenB depth i a m
      = memWritten depth (bufInner (memoryStream depth) (·.rewind) i) a m := by
  simp only [memWrittenB, memWritten, memoryStreamBuffered, buf_wave]
  rfl

theorem memB_use {i : Nat → MemIn α × Bool} {a l r m : Nat} (depth : Nat) (hu : MemUse i a l r m) :
    MemUse (bufInner (memoryStream depth) (·.rewind) i) a l r m :=
  ⟨hu.start, hu.writing, hu.order, hu.rewind, hu.noWrite, hu.noRewind⟩

theorem memB_read (depth : Nat) (i : Nat → MemIn α × Bool) (a l r m : Nat)
    (hu : MemUse i a l r m) :
    memRead depth (bufInner (memoryStream depth) (·.rewind) i) (r + 1) m =
    memReadB depth i (r + 1) m ++
      (if ((memoryStreamBuffered depth).wave i (r + 1 + m)).valid
        then [((memoryStreamBuffered depth).wave i (r + 1 + m)).beat] else []) := by
  refine buf_window (memoryStream depth) (·.rewind) i (r + 1) ?_ m
    (fun k x y => hu.noRewind k x y)
  rw [buf_next2, if_pos hu.rewind]; rfl

/-- C17, buffered: same contents and order. -/
theorem C17_memstream_buffered_replay (depth : Nat) (i : Nat → MemIn α × Bool) (a l r m : Nat)
    (hu : MemUse i a l r m) (h1 : 1 ≤ (memWrittenB depth i a l).length)
    (hd : (memWrittenB depth i a l).length ≤ depth)
    (j : Nat) (hj : j < (memReadB depth i (r + 1) m).length)
    (hjn : j < (memWrittenB depth i a l).length) :
    (memReadB depth i (r + 1) m)[j].payload = (memWrittenB depth i a l)[j] ∧
    ((memReadB depth i (r + 1) m)[j].last = true ↔ j + 1 = (memWrittenB depth i a l).length) := by
  have hw := memB_written depth i a l
  have hb := memB_read depth i a l r m hu
  have key := C17_memstream_replay depth (bufInner (memoryStream depth) (·.rewind) i) a l r m
    (memB_use depth hu) (by rw [← hw]; exact h1) (by rw [← hw]; exact hd) j
    (by rw [hb, List.length_append]; omega) (by rw [← hw]; exact hjn)
  simp only [hb, ← hw] at key
  rw [List.getElem_append_left hj] at key
  exact key

/-- C17, buffered: from the second cycle after the rewind on, a word is on offer as long as fewer
than `n` have been read. -/
theorem C17_memstream_buffered_available (depth : Nat) (i : Nat → MemIn α × Bool) (a l r m : Nat)
    (hu : MemUse i a l r (m + 1)) (h1 : 1 ≤ (memWrittenB depth i a l).length)
    (hd : (memWrittenB depth i a l).length ≤ depth)
    (hm : (memReadB depth i (r + 1) (m + 1)).length < (memWrittenB depth i a l).length) :
    ((memoryStreamBuffered depth).wave i (r + 1 + (m + 1))).valid = true := by
  rw [← Bool.not_eq_false]
  intro hf
  have hw := memB_written depth i a l
  have hb := memB_read depth i a l r (m + 1) hu
  rw [hf] at hb
  simp only [Bool.false_eq_true, if_false, List.append_nil] at hb
  have hinner : ((memoryStream depth).wave (bufInner (memoryStream depth) (·.rewind) i)
      (r + 1 + m)).valid = false := by
    have hf2 : (((memoryStreamBuffered depth).st i (r + 1 + m + 1)).2).valid = false := by
      simp only [memoryStreamBuffered, buf_wave] at hf ⊢; exact hf
    simp only [memoryStreamBuffered] at hf2
    have hrw := hu.noRewind (r + 1 + m) (by omega) (by omega)
    rw [buf_next2, if_neg (by rw [hrw]; decide)] at hf2
    split at hf2
    · exact hf2
    · rename_i hen
      simp [hf2] at hen
  have := C17_memstream_available depth (bufInner (memoryStream depth) (·.rewind) i) a l r m
    (memB_use depth hu) (by rw [← hw]; exact h1) (by rw [← hw]; exact hd)
    (by
      rw [← hw]
      have e : memRead depth (bufInner (memoryStream depth) (·.rewind) i) (r + 1) (m + 1) =
        memRead depth (bufInner (memoryStream depth) (·.rewind) i) (r + 1) m ++
        (if ((memoryStream depth).wave (bufInner (memoryStream depth) (·.rewind) i)
            (r + 1 + m)).valid && (bufInner (memoryStream depth) (·.rewind) i (r + 1 + m)).2
          then [((memoryStream depth).wave (bufInner (memoryStream depth) (·.rewind) i)
            (r + 1 + m)).beat] else []) := rfl
      rw [hinner] at e
      simp only [Bool.false_and, Bool.false_eq_true, if_false, List.append_nil] at e
      rw [← e, hb]; exact hm)
  rw [this] at hinner; cases hinner

/-- Write 7, 8, 9 (with a pause), rewind in cycle 5, read, depth 4. -/
def memSample : Nat → MemIn Nat × Bool := fun k =>
  (⟨k = 5, k = 0 || k = 2 || k = 3, 7 + k / 2 + k / 3⟩, 5 ≤ k)
example : MemUse memSample 0 4 5 6 := by
  refine ⟨.inl rfl, ?_, by omega, by decide, ?_, ?_⟩
  · intro k _ h; simp [memSample]; omega
  · intro k h1 h2; simp [memSample]; omega
  · intro k h1 h2; simp [memSample]; omega
example : memWritten 4 memSample 0 4 = [7, 8, 9] ∧
    memRead 4 memSample 6 6 = [⟨false, false, 7⟩, ⟨false, false, 8⟩, ⟨false, true, 9⟩] ∧
    memReadB 4 memSample 6 6 = [⟨false, false, 7⟩, ⟨false, false, 8⟩, ⟨false, true, 9⟩] := by decide

/-! ### C62 -/

/-- Write two words in a memory of depth 2, rewind in cycle 2, read. -/
def memFullSample : Nat → MemIn Nat × Bool := fun k => (⟨k = 2, k < 2, k⟩, true)

/-- C62 (full claim, refuted): a full memory of power-of-two depth is delivered again and again. -/
theorem C62_memstream_stops_refuted :
    ¬ ∀ (depth : Nat) (i : Nat → MemIn Nat × Bool) (a l r m : Nat), MemUse i a l r m →
      1 ≤ (memWritten depth i a l).length → (memWritten depth i a l).length ≤ depth →
      (memRead depth i (r + 1) m).length ≤ (memWritten depth i a l).length := by
  intro h
  have := h 2 memFullSample 0 2 2 3
    ⟨.inl rfl, fun k _ h => by simp [memFullSample]; omega, by omega, by decide,
      fun k h1 h2 => by simp [memFullSample]; omega,
      fun k h1 h2 => by simp [memFullSample]; omega⟩ (by decide) (by decide)
  revert this; decide

theorem lt_space (depth n : Nat) (hn : n ≤ depth) (h : n < depth ∨ ∀ k, depth ≠ 2 ^ k) :
    n < 2 ^ rangeWidth depth := by
  have hA := rangeWidth_ge depth
  rcases h with h | h
  · omega
  · have := h (rangeWidth depth); omega

/-- C62 (partial): unless the memory is full and its depth a power of two, at most the `n` written words
are delivered per rewind. -/
theorem C62_memstream_stops_partial (depth : Nat) (i : Nat → MemIn α × Bool) (a l r m : Nat)
    (hu : MemUse i a l r m) (h1 : 1 ≤ (memWritten depth i a l).length)
    (hd : (memWritten depth i a l).length ≤ depth)
    (hp : (memWritten depth i a l).length < depth ∨ ∀ k, depth ≠ 2 ^ k) :
    (memRead depth i (r + 1) m).length ≤ (memWritten depth i a l).length :=
  (memUse_phase depth i a l r m hu h1 hd).2.2.1 (lt_space _ _ hd hp)

/-- C62 (partial), buffered. -/
theorem C62_memstream_buffered_stops_partial (depth : Nat) (i : Nat → MemIn α × Bool)
    (a l r m : Nat) (hu : MemUse i a l r m) (h1 : 1 ≤ (memWrittenB depth i a l).length)
    (hd : (memWrittenB depth i a l).length ≤ depth)
    (hp : (memWrittenB depth i a l).length < depth ∨ ∀ k, depth ≠ 2 ^ k) :
    (memReadB depth i (r + 1) m).length ≤ (memWrittenB depth i a l).length := by
  rw [memB_written] at *
  have h := C62_memstream_stops_partial depth _ a l r m (memB_use depth hu) h1 hd hp
  rw [memB_read depth i a l r m hu, List.length_append] at h
  omega

/-- C62 (partial): what happens instead when a power-of-two memory is full: the contents repeat
cyclically. -/
theorem C62_memstream_wraps_partial (depth : Nat) (i : Nat → MemIn α × Bool) (a l r m : Nat)
    (hu : MemUse i a l r m) (h1 : 1 ≤ (memWritten depth i a l).length)
    (hd : (memWritten depth i a l).length ≤ depth)
    (j : Nat) (hj : j < (memRead depth i (r + 1) m).length) :
    some (memRead depth i (r + 1) m)[j].payload =
      (memWritten depth i a l)[j % (memWritten depth i a l).length]? :=
  ((memUse_phase depth i a l r m hu h1 hd).2.2.2 j hj).1

/-! ### C18 -/

/-- C18: since the last rewind (or reset), the reader has delivered a prefix of the table, with
`last` exactly on the final entry, `done` tells that the whole table has been delivered, and from
the second cycle on an entry is offered exactly as long as some are left. -/
theorem C18_reader_plays (init : List α) (hN : init ≠ []) (i : Nat → Bool × Bool) (a m : Nat)
    (hstart : a = 0 ∨ (1 ≤ a ∧ (i (a - 1)).1 = true))
    (hw : ∀ k, a ≤ k → k < a + m → (i k).1 = false) :
    let D := rdRead init i a m
    (∃ k ≤ init.length, D = (init.mapIdx fun j x =>
      (⟨false, decide (j + 1 = init.length), x⟩ : Beat α)).take k) ∧
    (((memoryStreamReader init).wave i (a + m)).extra = true ↔ D.length = init.length) ∧
    ((i (a + m)).1 = false → 1 ≤ m →
      (((memoryStreamReader init).wave i (a + m)).valid = true ↔ D.length < init.length)) := by
  obtain ⟨h1, h2, h3, h4, h5, h6⟩ := rd_phase init hN i a hstart m hw
  refine ⟨⟨_, h2, h1⟩, h3, ?_⟩
  intro hr hm
  have hwait : ((memoryStreamReader init).st i (a + m)).wait = false := by
    rw [← Bool.not_eq_true, h4]; omega
  simp only [Circuit.wave]
  generalize (memoryStreamReader init).st i (a + m) = s at *
  simp only [memoryStreamReader, hr, hwait]
  cases hd : s.done
  · have : (rdRead init i a m).length ≠ init.length := fun h => by
      rw [h3.2 h] at hd; cases hd
    simp; omega
  · have := h3.1 hd
    simp; omega

/-- C18: a receiver that is always ready gets the whole table, one entry per cycle. -/
theorem C18_reader_complete (init : List α) (hN : init ≠ []) (i : Nat → Bool × Bool) (a m : Nat)
    (hstart : a = 0 ∨ (1 ≤ a ∧ (i (a - 1)).1 = true))
    (hw : ∀ k, a ≤ k → k < a + m → (i k).1 = false)
    (hr : ∀ k, a ≤ k → k < a + m → (i k).2 = true) (hm : init.length < m) :
    rdRead init i a m = init.mapIdx fun j x => ⟨false, decide (j + 1 = init.length), x⟩ := by
  have key : ∀ d, d ≤ m → min (d - 1) init.length ≤ (rdRead init i a d).length := by
    intro d
    induction d with
    | zero => intro _; simp
    | succ d ih =>
      intro hd
      have ih := ih (by omega)
      have hp := C18_reader_plays init hN i a d hstart (fun k x y => hw k x (by omega))
      have e : rdRead init i a (d + 1) = rdRead init i a d ++
        (if ((memoryStreamReader init).wave i (a + d)).valid && (i (a + d)).2
          then [((memoryStreamReader init).wave i (a + d)).beat] else []) := rfl
      rw [e, hr _ (by omega) (by omega), List.length_append]
      by_cases hd0 : d = 0
      · subst hd0; simp
      · have hv := hp.2.2 (hw _ (by omega) (by omega)) (by omega)
        by_cases hlt : (rdRead init i a d).length < init.length
        · rw [hv.2 hlt]; simp; omega
        · simp; omega
  obtain ⟨h1, h2, _⟩ := rd_phase init hN i a hstart m hw
  have h3 := key m (Nat.le_refl m)
  have h4 : (rdRead init i a m).length = init.length := by omega
  rw [h4] at h1
  rw [h1, tableBeats, List.take_of_length_le (by simp)]

/-- C18: nothing is offered in a cycle with a rewind, nor in the following one. -/
theorem C18_reader_quiet (init : List α) (i : Nat → Bool × Bool) (k : Nat) (h : (i k).1 = true) :
    ((memoryStreamReader init).wave i k).valid = false ∧
    ((memoryStreamReader init).wave i (k + 1)).valid = false := by
  simp only [Circuit.wave, Circuit.st_succ]
  generalize (memoryStreamReader init).st i k = s
  simp [memoryStreamReader, h]

/-- Beats delivered by the buffered reader in a window. -/
def rdReadB (init : List α) (i : Nat → Bool × Bool) (a m : Nat) : List (Beat α) :=
  xferWindow (fun k => ((memoryStreamReaderBuffered init).wave i k).valid) (fun k => (i k).2)
    (fun k => ((memoryStreamReaderBuffered init).wave i k).beat) a m

/-- C18, buffered: since the last rewind (or reset), a prefix of the table has been delivered; once the
table is delivered nothing more is offered; `done` is set exactly when the whole table has been
fetched, i.e. at most its last entry is still on offer. -/
theorem C18_reader_buffered_plays (init : List α) (hN : init ≠ []) (i : Nat → Bool × Bool)
    (a m : Nat) (hstart : a = 0 ∨ (1 ≤ a ∧ (i (a - 1)).1 = true))
    (hw : ∀ k, a ≤ k → k < a + m → (i k).1 = false) :
    let c := memoryStreamReaderBuffered init
    let T := init.mapIdx fun j x => (⟨false, decide (j + 1 = init.length), x⟩ : Beat α)
    let D := rdReadB init i a m
    let P := D ++ (if (c.wave i (a + m)).valid then [(c.wave i (a + m)).beat] else [])
    (∃ k ≤ init.length, P = T.take k) ∧
    ((c.wave i (a + m)).extra = true ↔ P.length = init.length) := by
  have h0 : ((bufferedSrc (memoryStreamReader init) id).st i a).2.valid = false := by
    rcases hstart with rfl | ⟨h1, h2⟩
    · rfl
    · obtain ⟨b, rfl⟩ : ∃ b, a = b + 1 := ⟨a - 1, by omega⟩
      simp only [Nat.add_sub_cancel] at h2
      rw [buf_next2, if_pos (by exact h2)]; rfl
  have hb := buf_window (memoryStreamReader init) id i a h0 m hw
  have hp := C18_reader_plays init hN (bufInner (memoryStreamReader init) id i) a m hstart hw
  simp only [rdRead] at hp
  rw [hb] at hp
  refine ⟨hp.1, ?_⟩
  rw [show ((memoryStreamReaderBuffered init).wave i (a + m)).extra
    = ((memoryStreamReader init).wave (bufInner (memoryStreamReader init) id i) (a + m)).extra by
      simp only [memoryStreamReaderBuffered, buf_wave]]
  exact hp.2.1

/-- C18, buffered: from the third cycle after the rewind on, an entry is offered as long as some are
left. -/
theorem C18_reader_buffered_available (init : List α) (hN : init ≠ []) (i : Nat → Bool × Bool)
    (a m : Nat) (hstart : a = 0 ∨ (1 ≤ a ∧ (i (a - 1)).1 = true))
    (hw : ∀ k, a ≤ k → k < a + (m + 1) → (i k).1 = false) (hm : 1 ≤ m)
    (hlt : (rdReadB init i a (m + 1)).length < init.length) :
    ((memoryStreamReaderBuffered init).wave i (a + (m + 1))).valid = true := by
  rw [← Bool.not_eq_false]
  intro hf
  have h0 : ((bufferedSrc (memoryStreamReader init) id).st i a).2.valid = false := by
    rcases hstart with rfl | ⟨h1, h2⟩
    · rfl
    · obtain ⟨b, rfl⟩ : ∃ b, a = b + 1 := ⟨a - 1, by omega⟩
      simp only [Nat.add_sub_cancel] at h2
      rw [buf_next2, if_pos (by exact h2)]; rfl
  have hb := buf_window (memoryStreamReader init) id i a h0 (m + 1) hw
  have hp := C18_reader_plays init hN (bufInner (memoryStreamReader init) id i) a m hstart
    (fun k x y => hw k x (by omega))
  have hf' : ((bufferedSrc (memoryStreamReader init) id).wave i (a + (m + 1))).valid = false := hf
  rw [hf'] at hb
  simp only [Bool.false_eq_true, if_false, List.append_nil] at hb
  have hinner : ((memoryStreamReader init).wave (bufInner (memoryStreamReader init) id i)
      (a + m)).valid = false := by
    have hf2 : (((bufferedSrc (memoryStreamReader init) id).st i (a + m + 1)).2).valid = false := by
      simp only [buf_wave] at hf'; exact hf'
    have hrw := hw (a + m) (by omega) (by omega)
    rw [buf_next2, if_neg (by simp [hrw])] at hf2
    split at hf2
    · exact hf2
    · rename_i hen
      simp [hf2] at hen
  have hv := hp.2.2 (hw _ (by omega) (by omega)) hm
  rw [hinner] at hv
  simp only [Bool.false_eq_true, false_iff] at hv
  apply hv
  have e : rdRead init (bufInner (memoryStreamReader init) id i) a (m + 1) =
      rdRead init (bufInner (memoryStreamReader init) id i) a m ++
      (if ((memoryStreamReader init).wave (bufInner (memoryStreamReader init) id i) (a + m)).valid &&
          (bufInner (memoryStreamReader init) id i (a + m)).2
        then [((memoryStreamReader init).wave (bufInner (memoryStreamReader init) id i)
          (a + m)).beat] else []) := rfl
  rw [hinner] at e
  simp only [Bool.false_and, Bool.false_eq_true, if_false, List.append_nil] at e
  rw [← e]
  change (xferWindow _ _ _ a (m + 1)).length < _
  rw [hb]
  exact hlt

/-- Table of three entries, rewound in cycle 6 after being played. -/
def rdSample : Nat → Bool × Bool := fun k => (k = 6, k ≠ 2)
example : rdRead [5, 6, 7] rdSample 0 6 = [⟨false, false, 5⟩, ⟨false, false, 6⟩, ⟨false, true, 7⟩] ∧
    rdRead [5, 6, 7] rdSample 7 3 = [⟨false, false, 5⟩, ⟨false, false, 6⟩] ∧
    rdReadB [5, 6, 7] rdSample 7 5 = [⟨false, false, 5⟩, ⟨false, false, 6⟩, ⟨false, true, 7⟩] := by
  decide
example : ∀ k, 7 ≤ k → k < 7 + 5 → (rdSample k).1 = false := by
  intro k h1 _; simp [rdSample]; omega

end Lambdalib
