import Verif.Model.Ssd1306
import Verif.Spec.Ssd1306
import Verif.Lemmas.Run
import Verif.Spec.Count
import Verif.Props.UsbEp

/-! Properties of the SSD1306 driver (C54, C55, C77). -/

namespace Lambdalib

/-! ### C54: wrapper -/

section
variable (i : Nat → WrapIn)

/-- Beats accepted by the wrapper. -/
def wrapAccepted (n : Nat) : List SsdBeat :=
  transferred (fun k => (i k).valid) (fun k => (ssdWrapper.wave i k).ready)
    (fun k => ⟨(i k).dcn, (i k).data, (i k).last⟩) n

/-- Bytes sent by the wrapper, with the error flag in the cycle of the transfer. -/
def wrapSent (n : Nat) : List (SsdByte × Bool) :=
  transferred (fun k => (ssdWrapper.wave i k).valid) (fun k => (i k).ready)
    (fun k => (⟨(ssdWrapper.wave i k).data, (ssdWrapper.wave i k).last⟩, (i k).err)) n

/-- The address byte of packet `p` has the error flag `nak p`. -/
def WrapNak (nak : Nat → Bool) : Prop :=
  ∀ n p, p < (ssdErrors (wrapSent i n)).2.length → (ssdErrors (wrapSent i n)).2[p]? = some (nak p)

/-- Relation between the wrapper and the specification. -/
def WrapRel (nak : Nat → Bool) (s : WrapSt) (held : Option Bool) (pos : SsdPos) (errs : List Bool)
    (sent : List SsdByte) (p : SsdProg) : Prop :=
  match s with
  | .addr => pos = .address ∧ p.inside = none ∧ errs.length = p.begun ∧ sent = p.bytes
  | .control => pos = .control ∧ p.inside = none ∧ errs.length = p.begun + 1 ∧ nak p.begun = false ∧
      sent = p.bytes ++ [ssdAddrByte]
  | .data => pos = .body ∧
      ((p.inside = some true ∧ errs.length = p.begun ∧ sent = p.bytes) ∨
        (p.inside = none ∧ errs.length = p.begun + 1 ∧ nak p.begun = false ∧
          ∃ d, held = some d ∧ sent = p.bytes ++ [ssdAddrByte, ssdCtrlByte d]))
  | .error => pos = .address ∧
      ((p.inside = some false ∧ errs.length = p.begun ∧ sent = p.bytes) ∨
        (p.inside = none ∧ errs.length = p.begun + 1 ∧ nak p.begun = true ∧ sent = p.bytes ++ [ssdAddrByte]))

/-- One cycle. -/
theorem wrap_step (nak : Nat → Bool) (s : WrapSt) (x : WrapIn) (held : Option Bool) (e : SsdPos × List Bool)
    (sent : List SsdByte) (p : SsdProg) (h : WrapRel nak s held e.1 e.2 sent p)
    (hheld : ∀ d, x.valid = true → held = some d → x.dcn = d)
    (hnak : ∀ e', e' = (if (ssdWrapper.out s x).valid && x.ready then
        ssdErrStep e (⟨(ssdWrapper.out s x).data, (ssdWrapper.out s x).last⟩, x.err) else e) →
      ∀ q, q < e'.2.length → e'.2[q]? = some (nak q)) :
    let o := ssdWrapper.out s x
    let e' := if o.valid && x.ready then ssdErrStep e (⟨o.data, o.last⟩, x.err) else e
    WrapRel nak (ssdWrapper.next s x) (if x.valid then (if o.ready then none else some x.dcn) else held) e'.1 e'.2
      (sent ++ if o.valid && x.ready then [⟨o.data, o.last⟩] else [])
      (if x.valid && o.ready then ssdStep nak p ⟨x.dcn, x.data, x.last⟩ else p) := by
  intro o e'
  have hn := hnak e' rfl
  obtain ⟨pos, errs⟩ := e
  obtain ⟨valid, dcn, data, last, ready, err⟩ := x
  obtain ⟨begun, inside, bytes⟩ := p
  dsimp only at *
  cases s with
  | addr =>
    obtain ⟨h1, h2, h3, h4⟩ := h
    subst h1
    cases valid <;> cases ready
    · exact ⟨rfl, h2, h3, by simpa [ssdWrapper, o] using h4⟩
    · exact ⟨rfl, h2, h3, by simpa [ssdWrapper, o] using h4⟩
    · exact ⟨rfl, h2, h3, by simpa [ssdWrapper, o] using h4⟩
    · have hl := hn errs.length (by simp [e', o, ssdWrapper, ssdErrStep])
      simp [e', o, ssdWrapper, ssdErrStep] at hl
      cases err
      · refine ⟨rfl, h2, ?_, ?_, ?_⟩
        · simp [e', o, ssdWrapper, ssdErrStep, h3]
        · show nak begun = _; rw [← show errs.length = begun from h3]; exact hl.symm
        · simp [o, ssdWrapper, h4, ssdAddrByte]
      · refine ⟨rfl, Or.inr ⟨h2, ?_, ?_, ?_⟩⟩
        · simp [e', o, ssdWrapper, ssdErrStep, h3]
        · show nak begun = _; rw [← show errs.length = begun from h3]; exact hl.symm
        · simp [o, ssdWrapper, h4, ssdAddrByte]
  | control =>
    obtain ⟨h1, h2, h3, h4, h5⟩ := h
    subst h1
    cases valid <;> cases ready
    · exact ⟨rfl, h2, h3, h4, by simpa [ssdWrapper, o] using h5⟩
    · exact ⟨rfl, h2, h3, h4, by simpa [ssdWrapper, o] using h5⟩
    · exact ⟨rfl, h2, h3, h4, by simpa [ssdWrapper, o] using h5⟩
    · refine ⟨rfl, Or.inr ⟨h2, h3, h4, dcn, rfl, ?_⟩⟩
      simp [o, ssdWrapper, h5, ssdCtrlByte]
  | data =>
    obtain ⟨h1, h2⟩ := h
    subst h1
    rcases h2 with ⟨h2, h3, h4⟩ | ⟨h2, h3, h4, d, h5, h6⟩
    · cases valid <;> cases ready
      · exact ⟨rfl, Or.inl ⟨h2, h3, by simpa [ssdWrapper, o] using h4⟩⟩
      · exact ⟨rfl, Or.inl ⟨h2, h3, by simpa [ssdWrapper, o] using h4⟩⟩
      · exact ⟨rfl, Or.inl ⟨h2, h3, by simpa [ssdWrapper, o] using h4⟩⟩
      · subst h2
        cases last
        · exact ⟨rfl, Or.inl ⟨rfl, h3, by simp [ssdWrapper, o, h4, ssdStep]⟩⟩
        · exact ⟨rfl, rfl, h3, by simp [ssdWrapper, o, h4, ssdStep]⟩
    · cases valid <;> cases ready
      · exact ⟨rfl, Or.inr ⟨h2, h3, h4, d, h5, by simpa [ssdWrapper, o] using h6⟩⟩
      · exact ⟨rfl, Or.inr ⟨h2, h3, h4, d, h5, by simpa [ssdWrapper, o] using h6⟩⟩
      · exact ⟨rfl, Or.inr ⟨h2, h3, h4, d, by rw [← hheld d rfl h5]; rfl, by simpa [ssdWrapper, o] using h6⟩⟩
      · subst h2
        have hd := hheld d rfl h5
        subst hd
        cases last
        · exact ⟨rfl, Or.inl ⟨by simp [ssdWrapper, o, ssdStep, h4], by simpa [ssdWrapper, o, e', ssdStep, ssdErrStep] using h3,
            by simp [ssdWrapper, o, h6, ssdStep, h4]⟩⟩
        · exact ⟨rfl, by simp [ssdWrapper, o, ssdStep], by simpa [ssdWrapper, o, e', ssdStep, ssdErrStep] using h3,
            by simp [ssdWrapper, o, h6, ssdStep, h4]⟩
  | error =>
    obtain ⟨h1, h2⟩ := h
    subst h1
    rcases h2 with ⟨h2, h3, h4⟩ | ⟨h2, h3, h4, h5⟩
    · cases valid
      · exact ⟨rfl, Or.inl ⟨h2, h3, by simpa [ssdWrapper, o] using h4⟩⟩
      · subst h2
        cases last
        · exact ⟨rfl, Or.inl ⟨by simp [ssdWrapper, o, ssdStep], h3, by simp [ssdWrapper, o, ssdStep, h4]⟩⟩
        · exact ⟨rfl, by simp [ssdWrapper, o, ssdStep], h3, by simp [ssdWrapper, o, ssdStep, h4]⟩
    · cases valid
      · exact ⟨rfl, Or.inr ⟨h2, h3, h4, by simpa [ssdWrapper, o] using h5⟩⟩
      · subst h2
        cases last
        · exact ⟨rfl, Or.inl ⟨by simp [ssdWrapper, o, ssdStep, h4], h3, by simp [ssdWrapper, o, ssdStep, h4, h5]⟩⟩
        · exact ⟨rfl, by simp [ssdWrapper, o, ssdStep], h3, by simp [ssdWrapper, o, ssdStep, h4, h5]⟩

/-- C54: if the sender does not change `d_cn` before a beat is taken, then at any moment the bytes sent are: for every
packet begun the address byte, the control byte chosen by `d_cn` of its first beat and the accepted bytes, `last` with
the final one; only the address byte if that was not acknowledged; then possibly the address and control byte of the
packet being offered. -/
theorem C54_bytes (nak : Nat → Bool) (hnak : WrapNak i nak)
    (hheld : DcnHeld (fun k => (i k).valid) (fun k => (ssdWrapper.wave i k).ready) (fun k => (i k).dcn)) (n : Nat) :
    ∃ pend, (wrapSent i n).map Prod.fst = (ssdBytes nak (wrapAccepted i n)).bytes ++ pend ∧
      (pend = [] ∨ ((ssdBytes nak (wrapAccepted i n)).inside = none ∧ (pend = [ssdAddrByte] ∨
        ∃ d, pend = [ssdAddrByte, ssdCtrlByte d]))) := by
  have key : ∀ n, WrapRel nak (ssdWrapper.st i n)
      (heldDcn (fun k => (i k).valid) (fun k => (ssdWrapper.wave i k).ready) (fun k => (i k).dcn) n)
      (ssdErrors (wrapSent i n)).1 (ssdErrors (wrapSent i n)).2 ((wrapSent i n).map Prod.fst)
      (ssdBytes nak (wrapAccepted i n)) := by
    intro n
    induction n with
    | zero => exact ⟨rfl, rfl, rfl, rfl⟩
    | succ n ih =>
      have he : ssdErrors (wrapSent i (n + 1)) = if (ssdWrapper.wave i n).valid && (i n).ready then
          ssdErrStep (ssdErrors (wrapSent i n))
            (⟨(ssdWrapper.wave i n).data, (ssdWrapper.wave i n).last⟩, (i n).err) else ssdErrors (wrapSent i n) := by
        simp only [wrapSent, transferred]
        split <;> simp [ssdErrors, List.foldl_append]
      have hs := wrap_step nak _ (i n) _ _ _ _ ih (hheld n) (by
        intro e' he' q hq
        have := hnak (n + 1) q
        rw [he] at this
        subst he'
        exact this hq)
      have e1 : ssdBytes nak (wrapAccepted i (n + 1)) = if (i n).valid && (ssdWrapper.wave i n).ready then
          ssdStep nak (ssdBytes nak (wrapAccepted i n)) ⟨(i n).dcn, (i n).data, (i n).last⟩
          else ssdBytes nak (wrapAccepted i n) := by
        simp only [wrapAccepted, transferred]
        split <;> simp [ssdBytes, List.foldl_append]
      have e2 : (wrapSent i (n + 1)).map Prod.fst = (wrapSent i n).map Prod.fst ++
          if (ssdWrapper.wave i n).valid && (i n).ready then
            [⟨(ssdWrapper.wave i n).data, (ssdWrapper.wave i n).last⟩] else [] := by
        simp only [wrapSent, transferred]
        split <;> simp
      rw [he, e1, e2, Circuit.st_succ]
      exact hs
  have h := key n
  generalize ssdWrapper.st i n = s at h
  cases s with
  | addr => exact ⟨[], by simpa using h.2.2.2, Or.inl rfl⟩
  | control => exact ⟨_, h.2.2.2.2, Or.inr ⟨h.2.1, Or.inl rfl⟩⟩
  | data =>
    rcases h.2 with ⟨h2, h3, h4⟩ | ⟨h2, h3, h4, d, h5, h6⟩
    · exact ⟨[], by simpa using h4, Or.inl rfl⟩
    · exact ⟨_, h6, Or.inr ⟨h2, Or.inr ⟨d, rfl⟩⟩⟩
  | error =>
    rcases h.2 with ⟨h2, h3, h4⟩ | ⟨h2, h3, h4, h5⟩
    · exact ⟨[], by simpa using h4, Or.inl rfl⟩
    · exact ⟨_, h5, Or.inr ⟨h2, Or.inl rfl⟩⟩

/-- C54: with a stable sender the bytes are offered stably, and an offered beat always moves on as soon as the receiver
is ready: a byte is sent or the beat is dropped. -/
theorem C54_handshake :
    (Stable (fun k => (i k).valid) (fun k => (ssdWrapper.wave i k).ready)
        (fun k => ((i k).dcn, (i k).data, (i k).last)) →
      Stable (fun k => (ssdWrapper.wave i k).valid) (fun k => (i k).ready)
        (fun k => ((ssdWrapper.wave i k).data, (ssdWrapper.wave i k).last))) ∧
    ∀ n, (i n).valid = true → (ssdWrapper.wave i n).valid = true ∨ (ssdWrapper.wave i n).ready = true := by
  constructor
  · intro hst n hv hr
    have h := hst n
    simp only [Circuit.wave, Circuit.st_succ] at *
    generalize ssdWrapper.st i n = s at *
    generalize i n = x at *
    generalize i (n + 1) = y at *
    obtain ⟨valid, dcn, data, last, ready, err⟩ := x
    obtain ⟨valid', dcn', data', last', ready', err'⟩ := y
    dsimp only at hr
    subst hr
    cases s <;> simp_all [ssdWrapper]
  · intro n hv
    simp only [Circuit.wave]
    generalize ssdWrapper.st i n = s
    cases s <;> simp [ssdWrapper, hv]

end

/-- Three packets, the second not acknowledged. -/
def wrapDemo (n : Nat) : WrapIn :=
  ⟨decide (n < 18), decide (6 ≤ n), if n < 6 then 0xA5 else 0x11, decide (n < 6 ∨ 12 ≤ n), decide (n % 2 = 1),
    decide (n = 7)⟩

example : (wrapSent wrapDemo 30).map (fun b => b.1.data) = [0x78, 0, 0xA5, 0x78, 0x78, 0x40, 0x11] ∧
    (ssdErrors (wrapSent wrapDemo 30)).2 = [false, true, false] := by decide +kernel
example : (wrapAccepted wrapDemo 30).map (fun b => (b.dcn, b.last)) =
    [(false, true), (true, false), (true, false), (true, false), (true, false), (true, true), (true, true)] := by
  decide +kernel
example : ∀ n, n < 20 → ∀ d, (wrapDemo n).valid = true → heldDcn (fun k => (wrapDemo k).valid)
    (fun k => (ssdWrapper.wave wrapDemo k).ready) (fun k => (wrapDemo k).dcn) n = some d → (wrapDemo n).dcn = d := by
  decide +kernel

/-! ### C55: driver -/

/-- The buffered table reader has delivered `k` words since its last rewind. -/
structure RdAt (l : List Nat) (s : MemRdS Nat × PipeValidS Nat) (k : Nat) : Prop where
  le : k + (if s.2.valid then 1 else 0) ≤ l.length
  head : s.2.valid = true → l[k]? = some s.2.beat.payload
  done : s.1.done = decide (k + (if s.2.valid then 1 else 0) = l.length)
  addr : s.1.done = false → s.1.addrRd = k + (if s.2.valid then 1 else 0)
  data : s.1.done = false → s.1.wait = false → l[s.1.addrRd]? = some s.1.rdata

theorem rdAt_rewind (l : List Nat) (hl : l ≠ []) (s : MemRdS Nat × PipeValidS Nat) (r : Bool) :
    RdAt l ((memoryStreamReaderBuffered l).next s (true, r)) 0 := by
  have h0 : 0 < l.length := List.length_pos_iff.mpr hl
  constructor <;> simp [memoryStreamReaderBuffered, bufferedSrc, memoryStreamReader, pipeValid]; omega

theorem rd_hold (l : List Nat) (done wait : Bool) (addr rdata : Nat) (beat : Beat Nat) :
    (memoryStreamReaderBuffered l).next (⟨done, wait, addr, rdata⟩, ⟨true, beat⟩) (false, false) =
      (⟨done, false, addr, l.getD addr default⟩, ⟨true, beat⟩) := by
  cases wait <;> cases done <;> rfl

theorem rd_idle (l : List Nat) (done wait valid r : Bool) (addr rdata : Nat) (beat : Beat Nat)
    (h : (!valid || r) = true) (hw : (wait || done) = true) :
    ∃ b, (memoryStreamReaderBuffered l).next (⟨done, wait, addr, rdata⟩, ⟨valid, beat⟩) (false, r) =
      (⟨done, false, addr, l.getD addr default⟩, ⟨false, b⟩) := by
  cases wait <;> cases done <;> cases valid <;> cases r <;> simp at h hw <;> exact ⟨_, rfl⟩

theorem rd_load (l : List Nat) (valid r : Bool) (addr rdata : Nat) (beat : Beat Nat)
    (h : (!valid || r) = true) :
    (memoryStreamReaderBuffered l).next (⟨false, false, addr, rdata⟩, ⟨valid, beat⟩) (false, r) =
      (⟨if decide (addr + 1 = l.length) then true else false, false, truncRange l.length (addr + 1),
        l.getD (truncRange l.length (addr + 1)) default⟩, ⟨true, ⟨false, decide (addr + 1 = l.length), rdata⟩⟩) := by
  cases valid <;> cases r <;> simp at h <;> rfl

theorem rdAt_step (l : List Nat) (s : MemRdS Nat × PipeValidS Nat) (k : Nat) (r : Bool) (h : RdAt l s k) :
    RdAt l ((memoryStreamReaderBuffered l).next s (false, r)) (k + if s.2.valid && r then 1 else 0) := by
  obtain ⟨⟨done, wait, addr, rdata⟩, ⟨valid, beat⟩⟩ := s
  obtain ⟨h1, h2, h3, h4, h5⟩ := h
  dsimp only at *
  have hget : ∀ j, j < l.length → l[j]? = some (l.getD j default) := by
    intro j hj; simp [List.getD, hj]
  have hlt : done = false → addr < l.length := by
    intro hd
    have h4 := h4 hd
    rw [hd] at h3
    have : k + (if valid then 1 else 0) ≠ l.length := by simpa using h3
    omega
  by_cases hen : (!valid || r) = true
  · have hk : k + (if valid && r then 1 else 0) = k + (if valid then 1 else 0) := by
      cases valid <;> cases r <;> simp at hen ⊢
    rw [hk]
    by_cases hw : (wait || done) = true
    · obtain ⟨b, hb⟩ := rd_idle l done wait valid r addr rdata beat hen hw
      rw [hb]
      refine ⟨h1, (by simp), h3, h4, fun hd _ => hget _ (hlt hd)⟩
    · have hw1 : wait = false := by cases wait <;> simp at hw ⊢
      have hw2 : done = false := by cases done <;> simp at hw ⊢
      subst hw1 hw2
      rw [rd_load l valid r addr rdata beat hen]
      have ha := h4 rfl
      have hl := hlt rfl
      have hd := h5 rfl rfl
      rw [← ha]
      refine ⟨?_, fun _ => hd, ?_, ?_, ?_⟩
      · simp; omega
      · simp
      · intro hx
        have hx : addr + 1 ≠ l.length := by simpa using hx
        simp only [if_true]
        exact truncRange_of_lt (by omega)
      · intro hx _
        have hx : addr + 1 ≠ l.length := by simpa using hx
        have ht : truncRange l.length (addr + 1) = addr + 1 := truncRange_of_lt (by omega)
        simp only [ht]
        exact hget _ (by omega)
  · have hv : valid = true := by cases valid <;> simp at hen ⊢
    have hr : r = false := by cases r <;> simp [hv] at hen ⊢
    subst hv hr
    rw [rd_hold]
    exact ⟨h1, h2, h3, h4, fun hd _ => hget _ (hlt hd)⟩

theorem rdAt_out (l : List Nat) (s : MemRdS Nat × PipeValidS Nat) (k : Nat) (h : RdAt l s k) (x : Bool × Bool) :
    let o := (memoryStreamReaderBuffered l).out s x
    o.valid = s.2.valid ∧ o.beat = s.2.beat ∧ ((o.extra && !o.valid) = true ↔ k = l.length) := by
  obtain ⟨⟨done, wait, addr, rdata⟩, ⟨valid, beat⟩⟩ := s
  obtain ⟨h1, h2, h3, h4, h5⟩ := h
  dsimp only at *
  refine ⟨rfl, rfl, ?_⟩
  simp only [memoryStreamReaderBuffered, bufferedSrc, memoryStreamReader, pipeValid, Bool.and_eq_true, Bool.not_eq_true']
  cases valid
  · simp [h3]
  · simp at h1 ⊢; omega

section
variable (c : SsdCfg) (porInit : Bool)

/-- Relation between the driver and the running session. -/
def SsdRel (s : SsdS) (beats : List SsdBeat) (user : List (Nat × Bool)) : Prop :=
  s.cnt < c.size ∧
  match s.st with
  | .unknown | .reset => s.ready = false ∧ s.cnt = 0 ∧ beats = [] ∧ user = []
  | .init => s.ready = false ∧ s.cnt = 0 ∧ user = [] ∧ RdAt (ssdDisplay c) s.display 0 ∧
      ∃ k, RdAt (ssdInit c) s.init k ∧ beats = ssdCmds ((ssdInit c).take k)
  | .display => s.cnt = 0 ∧ ∃ k, RdAt (ssdDisplay c) s.display k ∧
      ((s.ready = false ∧ user = [] ∧ beats = ssdCmds (ssdInit c) ++ ssdCmds ((ssdDisplay c).take k)) ∨
        (s.ready = true ∧ (ssdFrames (ssdDisplay c) c.size user).1 = 0 ∧
          beats = ssdBoot (ssdInit c) (ssdDisplay c) c.size ++ (ssdFrames (ssdDisplay c) c.size user).2 ++
            ssdCmds ((ssdDisplay c).take k)))
  | .framebuffer =>
      (s.ready = false ∧ user = [] ∧
        beats = ssdCmds (ssdInit c) ++ ssdCmds (ssdDisplay c) ++ (ssdBlack c.size).take s.cnt) ∨
      (s.ready = true ∧ (ssdFrames (ssdDisplay c) c.size user).1 = s.cnt ∧
        beats = ssdBoot (ssdInit c) (ssdDisplay c) c.size ++ (ssdFrames (ssdDisplay c) c.size user).2 ++
          if s.cnt = 0 then ssdCmds (ssdDisplay c) else [])

/-- Beat given to the wrapper in a cycle. -/
def ssdFire (s : SsdS) (x : SsdIn) : List SsdBeat :=
  let w := ssdWrapIn c s x
  if w.valid && (ssdWrapper.out s.wrap w).ready then [⟨w.dcn, w.data, w.last⟩] else []

/-- Byte taken from the user in a cycle. -/
def ssdTake (s : SsdS) (x : SsdIn) : List (Nat × Bool) :=
  if x.valid && ((ssd1306 c porInit).out s x).sinkReady then [(x.data, x.last)] else []

theorem ssdCmds_take_succ (l : List Nat) (k d : Nat) (h : l[k]? = some d) :
    ssdCmds (l.take (k + 1)) = ssdCmds (l.take k) ++ [⟨false, d, true⟩] := by
  rw [List.take_add_one, h]; simp [ssdCmds]

theorem ssdBlack_take_succ (size k : Nat) (h : k < size) :
    (ssdBlack size).take (k + 1) = (ssdBlack size).take k ++ [⟨true, 0, decide (k + 1 = size)⟩] := by
  rw [List.take_add_one]; simp [ssdBlack, h]

theorem ssdFrames_snoc (setup : List Nat) (size : Nat) (user : List (Nat × Bool)) (u : Nat × Bool) :
    ssdFrames setup size (user ++ [u]) =
      (if u.2 || decide ((ssdFrames setup size user).1 + 1 = size) then 0 else (ssdFrames setup size user).1 + 1,
        (ssdFrames setup size user).2 ++ (if (ssdFrames setup size user).1 = 0 then ssdCmds setup else []) ++
          [⟨true, u.1, u.2 || decide ((ssdFrames setup size user).1 + 1 = size)⟩]) := by
  rw [ssdFrames, List.foldl_append]; rfl

/-- `wrapper.sink.ready`. -/
def ssdWR (s : SsdS) (x : SsdIn) : Bool := (ssdWrapper.out s.wrap (ssdWrapIn c s x)).ready

theorem ssd_next_init (ready : Bool) (cnt : Nat) (ini disp : MemRdS Nat × PipeValidS Nat) (wrap : WrapSt) (x : SsdIn) :
    let s : SsdS := ⟨.init, ready, cnt, ini, disp, wrap⟩
    (ssd1306 c porInit).next s x =
      ⟨if ini.1.done && !ini.2.valid then .display else .init, ready, cnt,
        (memoryStreamReaderBuffered (ssdInit c)).next ini (false, ssdWR c s x),
        (memoryStreamReaderBuffered (ssdDisplay c)).next disp (false, false),
        ssdWrapper.next wrap (ssdWrapIn c s x)⟩ ∧
    ssdFire c s x = (if ini.2.valid && ssdWR c s x then [⟨false, ini.2.beat.payload, true⟩] else []) ∧
    ssdTake c porInit s x = [] := by
  refine ⟨?_, rfl, ?_⟩
  · have o1 : ((memoryStreamReaderBuffered (ssdInit c)).out ini (false, false)).extra = ini.1.done := rfl
    have o2 : ((memoryStreamReaderBuffered (ssdInit c)).out ini (false, false)).valid = ini.2.valid := rfl
    simp only [ssd1306, o1, o2, ssdWR]
    split <;> rfl
  · simp [ssdTake, ssd1306]

theorem ssd_next_display (ready : Bool) (cnt : Nat) (ini disp : MemRdS Nat × PipeValidS Nat) (wrap : WrapSt)
    (x : SsdIn) (hr : x.reset = false) (ha : (!ready || x.valid) = true) :
    let s : SsdS := ⟨.display, ready, cnt, ini, disp, wrap⟩
    (ssd1306 c porInit).next s x =
      ⟨if disp.1.done && !disp.2.valid then .framebuffer else .display, ready, cnt,
        (memoryStreamReaderBuffered (ssdInit c)).next ini (false, false),
        (memoryStreamReaderBuffered (ssdDisplay c)).next disp (false, ssdWR c s x),
        ssdWrapper.next wrap (ssdWrapIn c s x)⟩ ∧
    ssdFire c s x = (if disp.2.valid && ssdWR c s x then [⟨false, disp.2.beat.payload, true⟩] else []) := by
  have o1 : ((memoryStreamReaderBuffered (ssdDisplay c)).out disp (false, false)).extra = disp.1.done := rfl
  have o2 : ((memoryStreamReaderBuffered (ssdDisplay c)).out disp (false, false)).valid = disp.2.valid := rfl
  have o3 : ((memoryStreamReaderBuffered (ssdDisplay c)).out disp (false, false)).beat = disp.2.beat := rfl
  have hw : ssdWrapIn c ⟨.display, ready, cnt, ini, disp, wrap⟩ x =
      ⟨disp.2.valid, false, disp.2.beat.payload, true, x.srcReady, x.err⟩ := by
    simp only [ssdWrapIn, hr, ha, o2, o3]; rfl
  refine ⟨?_, ?_⟩
  · simp only [ssd1306, o1, o2, ssdWR, hr, ha, if_true, Bool.false_eq_true, if_false]
    split <;> rfl
  · simp only [ssdFire, ssdWR, hw]

theorem ssd_next_wait (cnt : Nat) (ini disp : MemRdS Nat × PipeValidS Nat) (wrap : WrapSt)
    (x : SsdIn) (hr : x.reset = false) (ready : Bool) (ha : ¬(!ready || x.valid) = true) :
    let s : SsdS := ⟨.display, ready, cnt, ini, disp, wrap⟩
    (ssd1306 c porInit).next s x =
      ⟨.display, ready, cnt,
        (memoryStreamReaderBuffered (ssdInit c)).next ini (false, false),
        (memoryStreamReaderBuffered (ssdDisplay c)).next disp (false, false),
        ssdWrapper.next wrap (ssdWrapIn c s x)⟩ ∧
    ssdFire c s x = [] := by
  refine ⟨?_, ?_⟩
  · simp only [ssd1306, hr, ha, Bool.false_eq_true, if_false]
  · simp only [ssdFire, ssdWrapIn, hr, ha, Bool.false_eq_true, if_false, Bool.false_and]

theorem ssd_next_black (cnt : Nat) (ini disp : MemRdS Nat × PipeValidS Nat) (wrap : WrapSt) (x : SsdIn) :
    let s : SsdS := ⟨.framebuffer, false, cnt, ini, disp, wrap⟩
    (ssd1306 c porInit).next s x =
      (if ssdWR c s x then
        if cnt = c.size - 1 then ⟨.display, true, 0,
          (memoryStreamReaderBuffered (ssdInit c)).next ini (false, false),
          (memoryStreamReaderBuffered (ssdDisplay c)).next disp (true, false),
          ssdWrapper.next wrap (ssdWrapIn c s x)⟩
        else ⟨.framebuffer, false, truncRange c.size (cnt + 1),
          (memoryStreamReaderBuffered (ssdInit c)).next ini (false, false),
          (memoryStreamReaderBuffered (ssdDisplay c)).next disp (false, false),
          ssdWrapper.next wrap (ssdWrapIn c s x)⟩
      else ⟨.framebuffer, false, cnt,
          (memoryStreamReaderBuffered (ssdInit c)).next ini (false, false),
          (memoryStreamReaderBuffered (ssdDisplay c)).next disp (false, false),
          ssdWrapper.next wrap (ssdWrapIn c s x)⟩) ∧
    ssdFire c s x = (if ssdWR c s x then [⟨true, 0, decide (cnt = c.size - 1)⟩] else []) ∧
    ssdTake c porInit s x = [] := by
  have hw : ssdWrapIn c ⟨.framebuffer, false, cnt, ini, disp, wrap⟩ x =
      ⟨true, true, 0, decide (cnt = c.size - 1), x.srcReady, x.err⟩ := rfl
  refine ⟨?_, ?_, ?_⟩
  · simp only [ssd1306, ssdWR, hw, Bool.true_and]
    split
    · by_cases h : cnt = c.size - 1 <;> simp [h]
    · rfl
  · simp only [ssdFire, ssdWR, hw, Bool.true_and]
  · simp [ssdTake, ssd1306]

theorem ssd_next_frame (cnt : Nat) (ini disp : MemRdS Nat × PipeValidS Nat) (wrap : WrapSt) (x : SsdIn) :
    let s : SsdS := ⟨.framebuffer, true, cnt, ini, disp, wrap⟩
    (ssd1306 c porInit).next s x =
      (if x.valid && ssdWR c s x then
        if decide (cnt = c.size - 1) || x.last then ⟨.display, true, 0,
          (memoryStreamReaderBuffered (ssdInit c)).next ini (false, false),
          (memoryStreamReaderBuffered (ssdDisplay c)).next disp (true, false),
          ssdWrapper.next wrap (ssdWrapIn c s x)⟩
        else ⟨.framebuffer, true, truncRange c.size (cnt + 1),
          (memoryStreamReaderBuffered (ssdInit c)).next ini (false, false),
          (memoryStreamReaderBuffered (ssdDisplay c)).next disp (false, false),
          ssdWrapper.next wrap (ssdWrapIn c s x)⟩
      else ⟨.framebuffer, true, cnt,
          (memoryStreamReaderBuffered (ssdInit c)).next ini (false, false),
          (memoryStreamReaderBuffered (ssdDisplay c)).next disp (false, false),
          ssdWrapper.next wrap (ssdWrapIn c s x)⟩) ∧
    ssdFire c s x = (if x.valid && ssdWR c s x then [⟨true, x.data, decide (cnt = c.size - 1) || x.last⟩] else []) ∧
    ssdTake c porInit s x = (if x.valid && ssdWR c s x then [(x.data, x.last)] else []) := by
  have hw : ssdWrapIn c ⟨.framebuffer, true, cnt, ini, disp, wrap⟩ x =
      ⟨x.valid, true, x.data, decide (cnt = c.size - 1) || x.last, x.srcReady, x.err⟩ := rfl
  refine ⟨?_, ?_, ?_⟩
  · simp only [ssd1306, ssdWR, hw]
    generalize (decide (cnt = c.size - 1) || x.last) = l
    split
    · cases l <;> rfl
    · rfl
  · simp only [ssdFire, ssdWR, hw]
  · simp only [ssdTake, ssd1306, ssdWR, hw]; rfl

theorem ssd_step (hsz : 0 < c.size) (s : SsdS) (x : SsdIn) (beats : List SsdBeat) (user : List (Nat × Bool))
    (h : SsdRel c s beats user) :
    if s.st = .display ∧ x.reset = true then
      SsdCut (ssdInit c) (ssdDisplay c) c.size (beats, user) ∧ ssdFire c s x = [] ∧ ssdTake c porInit s x = [] ∧
        SsdRel c ((ssd1306 c porInit).next s x) [] []
    else SsdRel c ((ssd1306 c porInit).next s x) (beats ++ ssdFire c s x) (user ++ ssdTake c porInit s x) := by
  have hI : ssdInit c ≠ [] := by simp [ssdInit]
  have hD : ssdDisplay c ≠ [] := by simp [ssdDisplay]
  obtain ⟨st, ready, cnt, ini, disp, wrap⟩ := s
  obtain ⟨hc, h⟩ := h
  dsimp only at hc
  cases st with
  | unknown =>
    obtain ⟨h1, h2, h3, h4⟩ := h
    dsimp only at h1 h2
    subst h1 h2 h3 h4
    rw [if_neg (by simp)]
    simp only [ssdFire, ssdTake, ssdWrapIn, ssd1306]
    by_cases hr : (x.reset || porInit) = true
    · rw [if_pos hr]; exact ⟨hc, rfl, rfl, by simp, by simp⟩
    · rw [if_neg hr]; exact ⟨hc, rfl, rfl, by simp, by simp⟩
  | reset =>
    obtain ⟨h1, h2, h3, h4⟩ := h
    dsimp only at h1 h2
    subst h1 h2 h3 h4
    rw [if_neg (by simp)]
    simp only [ssdFire, ssdTake, ssdWrapIn, ssd1306]
    exact ⟨hc, rfl, rfl, by simp, rdAt_rewind _ hD _ _, 0, rdAt_rewind _ hI _ _, by simp [ssdCmds]⟩
  | init =>
    obtain ⟨h1, h2, h3, h4, k, h5, h6⟩ := h
    dsimp only at h1 h2 h4 h5
    subst h1 h2 h3
    rw [if_neg (by simp)]
    have o3 := (rdAt_out _ _ _ h5 (false, false)).2.2
    change (ini.1.done && !ini.2.valid) = true ↔ _ at o3
    obtain ⟨n1, n2, n3⟩ := ssd_next_init c porInit false 0 ini disp wrap x
    rw [n1, n2, n3]
    generalize ssdWR c _ x = r
    have hd := rdAt_step _ _ _ false h4
    simp only [Bool.and_false, Bool.false_eq_true, if_false, Nat.add_zero] at hd
    have hi := rdAt_step _ _ _ r h5
    have hb : beats ++ (if ini.2.valid && r then [⟨false, ini.2.beat.payload, true⟩] else []) =
        ssdCmds ((ssdInit c).take (k + if ini.2.valid && r then 1 else 0)) := by
      by_cases hv : (ini.2.valid && r) = true
      · rw [if_pos hv, if_pos hv, h6, ssdCmds_take_succ _ _ _ (h5.head (by simp at hv; exact hv.1))]
      · rw [if_neg hv, if_neg hv, h6]; simp
    rw [hb]
    by_cases hdone : k = (ssdInit c).length
    · have hv : ini.2.valid = false := by
        have := h5.le; cases hv : ini.2.valid with
        | false => rfl
        | true => rw [hv, if_pos rfl] at this; omega
      rw [if_pos (o3.mpr hdone)]
      refine ⟨hc, rfl, 0, hd, Or.inl ⟨rfl, rfl, ?_⟩⟩
      rw [hv]; simp [hdone, ssdCmds]
    · rw [if_neg (fun hh => hdone (o3.mp hh))]
      exact ⟨hc, rfl, rfl, rfl, hd, _, hi, rfl⟩
  | display =>
    obtain ⟨h1, k, h2, h3⟩ := h
    dsimp only at h1 h2 h3
    subst h1
    have htake : ssdTake c porInit ⟨.display, ready, 0, ini, disp, wrap⟩ x = [] := by
      simp [ssdTake, ssd1306]
    rw [htake, List.append_nil]
    by_cases hrst : x.reset = true
    · rw [if_pos ⟨rfl, hrst⟩]
      refine ⟨⟨ssdCmds ((ssdDisplay c).take k), ?_, ?_⟩, ?_, rfl, ?_⟩
      · exact (List.take_prefix _ _).map _
      · rcases h3 with ⟨_, a, b⟩ | ⟨_, a, b⟩
        · exact Or.inl ⟨a, b⟩
        · exact Or.inr ⟨a, b⟩
      · simp [ssdFire, ssdWrapIn, hrst]
      · simp only [ssd1306, hrst, if_true]
        exact ⟨hc, rfl, rfl, rfl, rfl⟩
    · rw [if_neg (fun hh => hrst hh.2)]
      have hrst : x.reset = false := by simpa using hrst
      by_cases ha : (!ready || x.valid) = true
      · obtain ⟨n1, n2⟩ := ssd_next_display c porInit ready 0 ini disp wrap x hrst ha
        rw [n1, n2]
        generalize ssdWR c _ x = r
        have o3 := (rdAt_out _ _ _ h2 (false, false)).2.2
        change (disp.1.done && !disp.2.valid) = true ↔ _ at o3
        have hd := rdAt_step _ _ _ r h2
        have hb : ssdCmds ((ssdDisplay c).take k) ++
            (if disp.2.valid && r then [⟨false, disp.2.beat.payload, true⟩] else []) =
            ssdCmds ((ssdDisplay c).take (k + if disp.2.valid && r then 1 else 0)) := by
          by_cases hv : (disp.2.valid && r) = true
          · rw [if_pos hv, if_pos hv, ssdCmds_take_succ _ _ _ (h2.head (by simp at hv; exact hv.1))]
          · rw [if_neg hv, if_neg hv]; simp
        by_cases hdone : k = (ssdDisplay c).length
        · have hv : disp.2.valid = false := by
            have := h2.le; cases hv : disp.2.valid with
            | false => rfl
            | true => rw [hv, if_pos rfl] at this; omega
          rw [if_pos (o3.mpr hdone)]
          rw [hv]
          simp only [Bool.false_and, Bool.false_eq_true, if_false, List.append_nil]
          refine ⟨hc, ?_⟩
          rcases h3 with ⟨a1, a2, a3⟩ | ⟨a1, a2, a3⟩
          · left; refine ⟨a1, a2, ?_⟩; rw [a3, hdone]; simp
          · right; refine ⟨a1, a2, ?_⟩; rw [a3, hdone]; simp
        · rw [if_neg (fun hh => hdone (o3.mp hh))]
          refine ⟨hc, rfl, _, hd, ?_⟩
          rcases h3 with ⟨a1, a2, a3⟩ | ⟨a1, a2, a3⟩
          · left; refine ⟨a1, a2, ?_⟩; rw [a3, List.append_assoc, hb]
          · right; refine ⟨a1, a2, ?_⟩; rw [a3, List.append_assoc, hb]
      · have hd := rdAt_step _ _ _ false h2
        simp only [Bool.and_false, Bool.false_eq_true, if_false, Nat.add_zero] at hd
        obtain ⟨n1, n2⟩ := ssd_next_wait c porInit 0 ini disp wrap x hrst ready ha
        rw [n1, n2, List.append_nil]
        exact ⟨hc, rfl, k, hd, h3⟩
  | framebuffer =>
    rw [if_neg (by simp)]
    dsimp only at h
    rcases h with ⟨h1, h2, h3⟩ | ⟨h1, h2, h3⟩
    · subst h1 h2
      obtain ⟨n1, n2, n3⟩ := ssd_next_black c porInit cnt ini disp wrap x
      rw [n1, n2, n3]
      generalize ssdWR c _ x = r
      cases r
      · simp only [Bool.false_eq_true, if_false, List.append_nil]
        exact ⟨hc, Or.inl ⟨rfl, rfl, h3⟩⟩
      · simp only [if_true]
        have hbl := ssdBlack_take_succ c.size cnt hc
        by_cases hl : cnt + 1 = c.size
        · have hl' : cnt = c.size - 1 := by omega
          rw [if_pos hl', decide_eq_true hl']
          refine ⟨hsz, rfl, 0, rdAt_rewind _ hD _ _, Or.inr ⟨rfl, rfl, ?_⟩⟩
          rw [decide_eq_true hl] at hbl
          have hfull : (ssdBlack c.size).take (cnt + 1) = ssdBlack c.size := by
            rw [List.take_of_length_le]; simp [ssdBlack, hl]
          rw [hfull] at hbl
          rw [ssdBoot, hbl, h3]
          simp [ssdFrames, ssdCmds]
        · have hl' : ¬ cnt = c.size - 1 := by omega
          rw [if_neg hl', decide_eq_false hl']
          rw [decide_eq_false hl] at hbl
          have hlt : cnt + 1 < c.size := by omega
          rw [truncRange_of_lt hlt]
          refine ⟨hlt, Or.inl ⟨rfl, rfl, ?_⟩⟩
          show _ = _ ++ (ssdBlack c.size).take (cnt + 1)
          rw [hbl, h3, List.append_assoc]
    · subst h1
      obtain ⟨n1, n2, n3⟩ := ssd_next_frame c porInit cnt ini disp wrap x
      rw [n1, n2, n3]
      generalize (x.valid && ssdWR c _ x) = r
      have hdec : decide (cnt = c.size - 1) = decide (cnt + 1 = c.size) := by
        rw [decide_eq_decide]; omega
      have hsn := ssdFrames_snoc (ssdDisplay c) c.size user (x.data, x.last)
      rw [h2] at hsn
      dsimp only at hsn
      rw [hdec]
      cases r
      · simp only [Bool.false_eq_true, if_false, List.append_nil]
        exact ⟨hc, Or.inr ⟨rfl, h2, h3⟩⟩
      · simp only [if_true]
        rw [Bool.or_comm] at hsn
        by_cases hl : (decide (cnt + 1 = c.size) || x.last) = true
        · rw [if_pos hl]
          rw [if_pos hl] at hsn
          refine ⟨hsz, rfl, 0, rdAt_rewind _ hD _ _, Or.inr ⟨rfl, ?_, ?_⟩⟩
          · rw [hsn]
          · rw [hsn, h3]; simp [ssdCmds]
        · rw [if_neg hl]
          rw [if_neg hl] at hsn
          have hlt : cnt + 1 < c.size := by simp at hl; omega
          rw [truncRange_of_lt hlt]
          refine ⟨hlt, Or.inr ⟨rfl, ?_, ?_⟩⟩
          · rw [hsn]
          · rw [hsn, h3]; simp

/-- The wrapper inside the driver is the wrapper. -/
theorem ssd_next_wrap (s : SsdS) (x : SsdIn) :
    ((ssd1306 c porInit).next s x).wrap = ssdWrapper.next s.wrap (ssdWrapIn c s x) := by
  obtain ⟨st, ready, cnt, ini, disp, wrap⟩ := s
  cases st <;> simp only [ssd1306]
  · split
    · rfl
    · split <;> rfl
  · split
    · split <;> rfl
    · rfl

/-- Input of the wrapper inside the driver. -/
def ssdWrapInput (x : Nat → SsdIn) (k : Nat) : WrapIn := ssdWrapIn c ((ssd1306 c porInit).st x k) (x k)

theorem ssd_wrap_st (x : Nat → SsdIn) (n : Nat) :
    ((ssd1306 c porInit).st x n).wrap = ssdWrapper.st (ssdWrapInput c porInit x) n := by
  induction n with
  | zero => rfl
  | succ n ih => rw [Circuit.st_succ, Circuit.st_succ, ssd_next_wrap, ih]; rfl

/-- The table reader has delivered everything. -/
def rdEnd (s : MemRdS Nat × PipeValidS Nat) : Bool := s.1.done && !s.2.valid

theorem rdAt_end {l : List Nat} {s : MemRdS Nat × PipeValidS Nat} {k : Nat} (h : RdAt l s k) :
    rdEnd s = true ↔ k = l.length := (rdAt_out _ _ _ h (false, false)).2.2

/-- The value of `dcn` already offered, by state. -/
def SsdHeld (s : SsdS) (held : Option Bool) : Prop :=
  ∀ d, held = some d → match s.st with
    | .unknown => False
    | .reset => d = false
    | .init => d = false ∧ rdEnd s.init = false
    | .display => d = false ∧ rdEnd s.display = false
    | .framebuffer => d = true

theorem rdAt_not_end_step {l : List Nat} {s : MemRdS Nat × PipeValidS Nat} {k : Nat} (h : RdAt l s k)
    (hn : rdEnd s = false) (r : Bool) (hv : (s.2.valid && r) = false) :
    rdEnd ((memoryStreamReaderBuffered l).next s (false, r)) = false := by
  have h2 := rdAt_step l s k r h
  rw [hv, if_neg (by simp), Nat.add_zero] at h2
  have e1 := rdAt_end h
  have e2 := rdAt_end h2
  cases hh : rdEnd ((memoryStreamReaderBuffered l).next s (false, r)) with
  | false => rfl
  | true => rw [e1.mpr (e2.mp hh)] at hn; cases hn

theorem rdAt_valid_not_end {s : MemRdS Nat × PipeValidS Nat} (hv : s.2.valid = true) : rdEnd s = false := by
  simp [rdEnd, hv]

theorem ssd_held_step (s : SsdS) (x : SsdIn) (beats : List SsdBeat) (user : List (Nat × Bool))
    (h : SsdRel c s beats user) (held : Option Bool) (hh : SsdHeld s held) :
    let w := ssdWrapIn c s x
    (∀ d, w.valid = true → held = some d → w.dcn = d) ∧
    SsdHeld ((ssd1306 c porInit).next s x)
      (if w.valid then (if (ssdWrapper.out s.wrap w).ready then none else some w.dcn) else held) := by
  obtain ⟨st, ready, cnt, ini, disp, wrap⟩ := s
  obtain ⟨hc, h⟩ := h
  dsimp only at hc
  intro w
  have hD : ssdDisplay c ≠ [] := by simp [ssdDisplay]
  have hI : ssdInit c ≠ [] := by simp [ssdInit]
  cases st with
  | unknown =>
    refine ⟨fun d hv => by simp [w, ssdWrapIn] at hv, ?_⟩
    have : w.valid = false := rfl
    rw [this]
    intro d hd
    exact absurd (hh d (by simpa using hd)) (by simp)
  | reset =>
    refine ⟨fun d hv => by simp [w, ssdWrapIn] at hv, ?_⟩
    have : w.valid = false := rfl
    rw [this]
    intro d hd
    have hd0 : d = false := hh d (by simpa using hd)
    refine ⟨hd0, ?_⟩
    have := rdAt_end (rdAt_rewind (ssdInit c) hI ini false)
    show rdEnd ((memoryStreamReaderBuffered (ssdInit c)).next ini (true, false)) = false
    cases he : rdEnd ((memoryStreamReaderBuffered (ssdInit c)).next ini (true, false)) with
    | false => rfl
    | true => have := this.mp he; simp [ssdInit] at this
  | init =>
    obtain ⟨h1, h2, h3, h4, k, h5, h6⟩ := h
    dsimp only at h1 h2 h4 h5
    have hwv : w.valid = ini.2.valid := rfl
    have hwd : w.dcn = false := rfl
    refine ⟨fun d _ hd => by rw [hwd]; exact ((hh d hd).1).symm, ?_⟩
    obtain ⟨n1, n2, n3⟩ := ssd_next_init c porInit ready cnt ini disp wrap x
    rw [n1]
    have hWR : (ssdWrapper.out wrap w).ready = ssdWR c ⟨.init, ready, cnt, ini, disp, wrap⟩ x := rfl
    rw [hWR, hwv, hwd]
    generalize ssdWR c _ x = r
    intro d hd
    by_cases hv : ini.2.valid = true
    · rw [hv, if_pos rfl] at hd
      cases r
      · have hd : d = false := by simpa using hd.symm
        have he := rdAt_valid_not_end hv
        have he' : (ini.1.done && !ini.2.valid) = false := he
        rw [he']
        exact ⟨hd, rdAt_not_end_step h5 he false (by simp)⟩
      · simp at hd
    · have hv : ini.2.valid = false := by simpa using hv
      rw [hv, if_neg (by simp)] at hd
      have hd' := hh d hd
      have he : rdEnd ini = false := hd'.2
      have he' : (ini.1.done && !ini.2.valid) = false := he
      rw [he']
      exact ⟨hd'.1, rdAt_not_end_step h5 he r (by simp [hv])⟩
  | display =>
    obtain ⟨h1, k, h2, h3⟩ := h
    dsimp only at h1 h2 h3
    by_cases hrst : x.reset = true
    · have hwv : w.valid = false := by simp [w, ssdWrapIn, hrst]
      refine ⟨fun d hv => (by rw [hwv] at hv; cases hv), ?_⟩
      rw [hwv, if_neg (by simp)]
      intro d hd
      have hd' := hh d hd
      simp only [ssd1306, hrst, if_true]
      exact hd'.1
    · have hrst : x.reset = false := by simpa using hrst
      by_cases ha : (!ready || x.valid) = true
      · have hw : w = ⟨disp.2.valid, false, disp.2.beat.payload, true, x.srcReady, x.err⟩ := by
          simp only [w, ssdWrapIn, hrst, ha]; rfl
        have hwv : w.valid = disp.2.valid := by rw [hw]
        have hwd : w.dcn = false := by rw [hw]
        refine ⟨fun d _ hd => by rw [hwd]; exact ((hh d hd).1).symm, ?_⟩
        obtain ⟨n1, n2⟩ := ssd_next_display c porInit ready cnt ini disp wrap x hrst ha
        rw [n1]
        have hWR : (ssdWrapper.out wrap w).ready = ssdWR c ⟨.display, ready, cnt, ini, disp, wrap⟩ x := rfl
        rw [hWR, hwv, hwd]
        generalize ssdWR c _ x = r
        intro d hd
        by_cases hv : disp.2.valid = true
        · rw [hv, if_pos rfl] at hd
          cases r
          · have hd : d = false := by simpa using hd.symm
            have he := rdAt_valid_not_end hv
            have he' : (disp.1.done && !disp.2.valid) = false := he
            rw [he']
            exact ⟨hd, rdAt_not_end_step h2 he false (by simp)⟩
          · simp at hd
        · have hv : disp.2.valid = false := by simpa using hv
          rw [hv, if_neg (by simp)] at hd
          have hd' := hh d hd
          have he : rdEnd disp = false := hd'.2
          have he' : (disp.1.done && !disp.2.valid) = false := he
          rw [he']
          exact ⟨hd'.1, rdAt_not_end_step h2 he r (by simp [hv])⟩
      · have hwv : w.valid = false := by
          simp only [w, ssdWrapIn, hrst, ha, Bool.false_eq_true, if_false]
        refine ⟨fun d hv => (by rw [hwv] at hv; cases hv), ?_⟩
        rw [hwv, if_neg (by simp)]
        obtain ⟨n1, n2⟩ := ssd_next_wait c porInit cnt ini disp wrap x hrst ready ha
        rw [n1]
        intro d hd
        have hd' := hh d hd
        exact ⟨hd'.1, rdAt_not_end_step h2 hd'.2 false (by simp)⟩
  | framebuffer =>
    cases ready
    · have hw : w = ⟨true, true, 0, decide (cnt = c.size - 1), x.srcReady, x.err⟩ := rfl
      have hwv : w.valid = true := by rw [hw]
      have hwd : w.dcn = true := by rw [hw]
      refine ⟨fun d _ hd => by rw [hwd]; exact (hh d hd).symm, ?_⟩
      obtain ⟨n1, n2, n3⟩ := ssd_next_black c porInit cnt ini disp wrap x
      rw [n1]
      have hWR : (ssdWrapper.out wrap w).ready = ssdWR c ⟨.framebuffer, false, cnt, ini, disp, wrap⟩ x := rfl
      rw [hWR, hwv, hwd, if_pos rfl]
      generalize ssdWR c _ x = r
      intro d hd
      cases r
      · simp only [Bool.false_eq_true, if_false] at hd ⊢
        exact (Option.some.inj hd).symm
      · simp at hd
    · have hw : w = ⟨x.valid, true, x.data, decide (cnt = c.size - 1) || x.last, x.srcReady, x.err⟩ := rfl
      have hwv : w.valid = x.valid := by rw [hw]
      have hwd : w.dcn = true := by rw [hw]
      refine ⟨fun d _ hd => by rw [hwd]; exact (hh d hd).symm, ?_⟩
      obtain ⟨n1, n2, n3⟩ := ssd_next_frame c porInit cnt ini disp wrap x
      rw [n1]
      have hWR : (ssdWrapper.out wrap w).ready = ssdWR c ⟨.framebuffer, true, cnt, ini, disp, wrap⟩ x := rfl
      rw [hWR, hwv, hwd]
      generalize ssdWR c _ x = r
      intro d hd
      cases hv : x.valid
      · rw [hv, if_neg (by simp)] at hd
        rw [Bool.false_and, if_neg (by simp)]
        exact hh d hd
      · rw [hv, if_pos rfl] at hd
        cases r
        · simp only [Bool.and_false, Bool.false_eq_true, if_false] at hd ⊢
          exact (Option.some.inj hd).symm
        · simp at hd

/-- Bytes taken from the user. -/
def ssdUser (x : Nat → SsdIn) (n : Nat) : List (Nat × Bool) :=
  transferred (fun k => (x k).valid) (fun k => ((ssd1306 c porInit).wave x k).sinkReady)
    (fun k => ((x k).data, (x k).last)) n

/-- Bytes given to the I2C master, with the error flag in the cycle of the transfer. -/
def ssdSent (x : Nat → SsdIn) (n : Nat) : List (SsdByte × Bool) :=
  transferred (fun k => ((ssd1306 c porInit).wave x k).valid) (fun k => (x k).srcReady)
    (fun k => (⟨((ssd1306 c porInit).wave x k).data, ((ssd1306 c porInit).wave x k).last⟩, (x k).err)) n

end

theorem ssdWrapIn_ready (c : SsdCfg) (s : SsdS) (x : SsdIn) :
    (ssdWrapIn c s x).ready = x.srcReady ∧ (ssdWrapIn c s x).err = x.err := by
  obtain ⟨st, ready, cnt, ini, disp, wrap⟩ := s
  cases st <;> simp only [ssdWrapIn, and_self]
  · split
    · simp
    · split <;> simp
  · split <;> simp

theorem ssdErrors_prefix (i : Nat → WrapIn) (n m : Nat) :
    (ssdErrors (wrapSent i n)).2 <+: (ssdErrors (wrapSent i (n + m))).2 := by
  induction m with
  | zero => exact List.prefix_rfl
  | succ m ih =>
    refine ih.trans ?_
    have he : wrapSent i (n + (m + 1)) = wrapSent i (n + m) ++
        (if (ssdWrapper.wave i (n + m)).valid && (i (n + m)).ready then
          [(⟨(ssdWrapper.wave i (n + m)).data, (ssdWrapper.wave i (n + m)).last⟩, (i (n + m)).err)] else []) := rfl
    rw [he]
    split
    · have he2 : ∀ l b, ssdErrors (l ++ [b]) = ssdErrStep (ssdErrors l) b := by
        intro l b; rw [ssdErrors, List.foldl_append]; rfl
      rw [he2]
      generalize ssdErrors (wrapSent i (n + m)) = e
      obtain ⟨p, l⟩ := e
      cases p <;> simp [ssdErrStep]
    · rw [List.append_nil]; exact List.prefix_rfl

/-- The error flags of the address bytes are determined by the run. -/
theorem wrapNak_exists (i : Nat → WrapIn) : ∃ nak, WrapNak i nak := by
  classical
  refine ⟨fun p => if h : ∃ n, p < (ssdErrors (wrapSent i n)).2.length then
    (ssdErrors (wrapSent i (Classical.choose h))).2.getD p false else false, ?_⟩
  intro n p hp
  have h : ∃ n, p < (ssdErrors (wrapSent i n)).2.length := ⟨n, hp⟩
  show _ = some (dite _ _ _)
  rw [dif_pos h]
  have hq := Classical.choose_spec h
  generalize Classical.choose h = m at hq
  have key : ∀ a b, a ≤ b → p < (ssdErrors (wrapSent i a)).2.length →
      (ssdErrors (wrapSent i a)).2[p]? = (ssdErrors (wrapSent i b)).2[p]? := by
    intro a b hab ha
    obtain ⟨d, rfl⟩ := Nat.exists_eq_add_of_le hab
    obtain ⟨t, ht⟩ := ssdErrors_prefix i a d
    rw [← ht, List.getElem?_append_left ha]
  have e : (ssdErrors (wrapSent i n)).2[p]? = (ssdErrors (wrapSent i m)).2[p]? := by
    rcases Nat.le_total n m with hnm | hnm
    · exact key n m hnm hp
    · exact (key m n hnm hq).symm
  rw [e]; simp [List.getD, hq]

/-- What the constructor derives, by screen. -/
theorem ssdNew_screens (w h : Nat) (c : SsdCfg) (hc : ssdNew w h = some c) :
    ∃ clock pins col, (w, h, clock, pins, col) ∈ ssdScreens ∧ ssdInit c = ssdInitSeq h clock pins ∧
      ssdDisplay c = ssdSetupSeq w h col ∧ c.size = w * h / 8 ∧ 0 < c.size := by
  unfold ssdNew ssdTable at hc
  split at hc
  · rename_i e; obtain ⟨rfl, rfl⟩ := e
    simp only [Option.map_some, Option.some.injEq] at hc; subst hc
    exact ⟨128, 18, 0, by decide, by decide, by decide, by decide, by decide⟩
  split at hc
  · rename_i e; obtain ⟨rfl, rfl⟩ := e
    simp only [Option.map_some, Option.some.injEq] at hc; subst hc
    exact ⟨128, 2, 0, by decide, by decide, by decide, by decide, by decide⟩
  split at hc
  · rename_i e; obtain ⟨rfl, rfl⟩ := e
    simp only [Option.map_some, Option.some.injEq] at hc; subst hc
    exact ⟨96, 2, 0, by decide, by decide, by decide, by decide, by decide⟩
  split at hc
  · rename_i e; obtain ⟨rfl, rfl⟩ := e
    simp only [Option.map_some, Option.some.injEq] at hc; subst hc
    exact ⟨128, 18, 32, by decide, by decide, by decide, by decide, by decide⟩
  split at hc
  · rename_i e; obtain ⟨rfl, rfl⟩ := e
    simp only [Option.map_some, Option.some.injEq] at hc; subst hc
    exact ⟨128, 18, 32, by decide, by decide, by decide, by decide, by decide⟩
  · simp at hc

/-- The running session as seen by the user. -/
theorem SsdRel.now {c : SsdCfg} {s : SsdS} {beats : List SsdBeat} {user : List (Nat × Bool)}
    (h : SsdRel c s beats user) : SsdNow (ssdInit c) (ssdDisplay c) c.size s.ready (beats, user) := by
  obtain ⟨st, ready, cnt, ini, disp, wrap⟩ := s
  obtain ⟨hc, h⟩ := h
  cases st with
  | unknown =>
    obtain ⟨h1, h2, h3, h4⟩ := h
    dsimp only at h1; subst h1 h3 h4
    exact ⟨rfl, List.nil_prefix⟩
  | reset =>
    obtain ⟨h1, h2, h3, h4⟩ := h
    dsimp only at h1; subst h1 h3 h4
    exact ⟨rfl, List.nil_prefix⟩
  | init =>
    obtain ⟨h1, h2, h3, h4, k, h5, h6⟩ := h
    dsimp only at h1; subst h1 h3 h6
    refine ⟨rfl, ?_⟩
    show ssdCmds ((ssdInit c).take k) <+: ssdBoot _ _ _
    rw [ssdBoot, List.append_assoc]
    exact ((List.take_prefix _ _).map _).trans (List.prefix_append _ _)
  | display =>
    obtain ⟨h1, k, h2, h3⟩ := h
    dsimp only at h3
    rcases h3 with ⟨a1, a2, a3⟩ | ⟨a1, a2, a3⟩
    · subst a1 a2 a3
      refine ⟨rfl, ?_⟩
      show ssdCmds _ ++ ssdCmds _ <+: ssdBoot _ _ _
      rw [ssdBoot]
      refine List.IsPrefix.trans ?_ (List.prefix_append _ _)
      exact (List.prefix_append_right_inj _).mpr ((List.take_prefix _ _).map _)
    · subst a1
      exact ⟨_, (List.take_prefix k _).map _, fun hne => absurd a2 hne, a3⟩
  | framebuffer =>
    dsimp only at h
    rcases h with ⟨a1, a2, a3⟩ | ⟨a1, a2, a3⟩
    · subst a1 a2 a3
      refine ⟨rfl, ?_⟩
      show _ ++ _ <+: ssdBoot _ _ _
      rw [ssdBoot]
      exact (List.prefix_append_right_inj _).mpr (List.take_prefix _ _)
    · subst a1
      by_cases h0 : cnt = 0
      · rw [if_pos h0] at a3
        exact ⟨_, List.prefix_rfl, fun hne => absurd (a2.trans h0) hne, a3⟩
      · rw [if_neg h0] at a3
        exact ⟨[], List.nil_prefix, fun _ => rfl, a3⟩

/-- The bytes sent are those of the wrapper. -/
theorem ssd_sent_wrap (c : SsdCfg) (porInit : Bool) (x : Nat → SsdIn) (n : Nat) :
    ssdSent c porInit x n = wrapSent (ssdWrapInput c porInit x) n := by
  refine transferred_congr (fun k => ?_) (fun k => ?_) (fun k => ?_) n
  · simp only [Circuit.wave, ← ssd_wrap_st]; rfl
  · exact (ssdWrapIn_ready _ _ _).1.symm
  · rw [show (ssdWrapInput c porInit x k).err = (x k).err from (ssdWrapIn_ready _ _ _).2]
    simp only [Circuit.wave, ← ssd_wrap_st]; rfl

/-- The sessions, for given error flags of the address bytes. -/
theorem ssd_sessions (w h : Nat) (c : SsdCfg) (porInit : Bool) (x : Nat → SsdIn) (clock pins col : Nat)
    (hi : ssdInit c = ssdInitSeq h clock pins) (hd : ssdDisplay c = ssdSetupSeq w h col) (hz : c.size = w * h / 8)
    (hpos : 0 < c.size) (nak : Nat → Bool)
    (hnak : ∀ n p, p < (ssdErrors (ssdSent c porInit x n)).2.length →
      (ssdErrors (ssdSent c porInit x n)).2[p]? = some (nak p)) (n : Nat) :
    ∃ (cuts : List (List SsdBeat × List (Nat × Bool))) (beats : List SsdBeat) (user : List (Nat × Bool))
        (pend : List SsdByte),
      (∀ q ∈ cuts, SsdCut (ssdInitSeq h clock pins) (ssdSetupSeq w h col) (w * h / 8) q) ∧
      cuts.length ≤ highCount (fun k => (x k).reset) 0 n ∧
      SsdNow (ssdInitSeq h clock pins) (ssdSetupSeq w h col) (w * h / 8) ((ssd1306 c porInit).wave x n).ready
        (beats, user) ∧
      ssdUser c porInit x n = cuts.flatMap Prod.snd ++ user ∧
      (ssdSent c porInit x n).map Prod.fst = (ssdBytes nak (cuts.flatMap Prod.fst ++ beats)).bytes ++ pend ∧
      (pend = [] ∨ ((ssdBytes nak (cuts.flatMap Prod.fst ++ beats)).inside = none ∧ (pend = [ssdAddrByte] ∨
        ∃ d, pend = [ssdAddrByte, ssdCtrlByte d]))) := by
  have key : ∀ n, (∃ (cuts : List (List SsdBeat × List (Nat × Bool))) (beats : List SsdBeat) (user : List (Nat × Bool)),
      (∀ q ∈ cuts, SsdCut (ssdInit c) (ssdDisplay c) c.size q) ∧
      cuts.length ≤ highCount (fun k => (x k).reset) 0 n ∧
      SsdRel c ((ssd1306 c porInit).st x n) beats user ∧
      ssdUser c porInit x n = cuts.flatMap Prod.snd ++ user ∧
      wrapAccepted (ssdWrapInput c porInit x) n = cuts.flatMap Prod.fst ++ beats) ∧
      SsdHeld ((ssd1306 c porInit).st x n) (heldDcn (fun k => (ssdWrapInput c porInit x k).valid)
        (fun k => (ssdWrapper.wave (ssdWrapInput c porInit x) k).ready)
        (fun k => (ssdWrapInput c porInit x k).dcn) n) := by
    intro n
    induction n with
    | zero =>
      exact ⟨⟨[], [], [], by simp, by simp, ⟨hpos, rfl, rfl, rfl, rfl⟩, rfl, rfl⟩, fun d hd => by simp [heldDcn] at hd⟩
    | succ n ih =>
      obtain ⟨⟨cuts, beats, user, k1, k2, k3, k4, k5⟩, k6⟩ := ih
      have hst := ssd_step c porInit hpos _ (x n) beats user k3
      have hu : ssdUser c porInit x (n + 1) = ssdUser c porInit x n ++ ssdTake c porInit ((ssd1306 c porInit).st x n) (x n) := rfl
      have hw : wrapAccepted (ssdWrapInput c porInit x) (n + 1) =
          wrapAccepted (ssdWrapInput c porInit x) n ++ ssdFire c ((ssd1306 c porInit).st x n) (x n) := by
        have hr : (ssdWrapper.wave (ssdWrapInput c porInit x) n).ready =
            (ssdWrapper.out ((ssd1306 c porInit).st x n).wrap (ssdWrapInput c porInit x n)).ready := by
          rw [ssd_wrap_st]; rfl
        simp only [wrapAccepted, transferred, hr]
        rfl
      have hcnt : highCount (fun k => (x k).reset) 0 (n + 1) =
          highCount (fun k => (x k).reset) 0 n + if (x n).reset then 1 else 0 := by
        simp [highCount]
      refine ⟨?_, ?_⟩
      · by_cases hcut : ((ssd1306 c porInit).st x n).st = .display ∧ (x n).reset = true
        · rw [if_pos hcut] at hst
          obtain ⟨s1, s2, s3, s4⟩ := hst
          refine ⟨cuts ++ [(beats, user)], [], [], ?_, ?_, s4, ?_, ?_⟩
          · intro q hq
            rcases List.mem_append.mp hq with hq | hq
            · exact k1 q hq
            · rw [List.mem_singleton.mp hq]; exact s1
          · rw [hcnt, if_pos hcut.2, List.length_append]; simp; exact k2
          · rw [hu, s3, k4]; simp
          · rw [hw, s2, k5]; simp
        · rw [if_neg hcut] at hst
          refine ⟨cuts, _, _, k1, ?_, hst, ?_, ?_⟩
          · rw [hcnt]; omega
          · rw [hu, k4, List.append_assoc]
          · rw [hw, k5, List.append_assoc]
      · have := (ssd_held_step c porInit _ (x n) beats user k3 _ k6).2
        rw [Circuit.st_succ]
        convert this using 1
        rw [heldDcn]
        simp only [Circuit.wave, ← ssd_wrap_st]
        rfl
  have hheld : DcnHeld (fun k => (ssdWrapInput c porInit x k).valid)
      (fun k => (ssdWrapper.wave (ssdWrapInput c porInit x) k).ready) (fun k => (ssdWrapInput c porInit x k).dcn) := by
    intro n d hv hd
    obtain ⟨⟨cuts, beats, user, k1, k2, k3, k4, k5⟩, k6⟩ := key n
    exact (ssd_held_step c porInit _ (x n) beats user k3 _ k6).1 d hv hd
  have hnak' : WrapNak (ssdWrapInput c porInit x) nak := fun n p hp => by
    have := hnak n p
    rw [ssd_sent_wrap] at this
    exact this hp
  obtain ⟨⟨cuts, beats, user, k1, k2, k3, k4, k5⟩, k6⟩ := key n
  obtain ⟨pend, p1, p2⟩ := C54_bytes _ nak hnak' hheld n
  rw [← hi, ← hd, ← hz]
  refine ⟨cuts, beats, user, pend, k1, k2, k3.now, k4, ?_, ?_⟩
  · rw [ssd_sent_wrap, p1, k5]
  · rw [← k5]; exact p2

/-- C55: for every supported screen and every waveform, what was sent so far is the transactions (C54) of a number of
sessions ended by `reset` (at most one per cycle of `reset`) and of the running session. A session is: the
initialisation, command by command; the addressing; a black frame of the whole screen; then the frames of the user, each
preceded by the addressing commands and ended by `last` or after the whole screen. `ready` is high exactly from the end
of the black frame, no byte of the user is taken before, and each byte taken is sent once. A session ends only between
frames or before the black frame. -/
theorem C55_sessions (w h : Nat) (c : SsdCfg) (hc : ssdNew w h = some c) (porInit : Bool) (x : Nat → SsdIn) :
    ∃ clock pins col, (w, h, clock, pins, col) ∈ ssdScreens ∧ ∃ nak : Nat → Bool,
      (∀ n p, p < (ssdErrors (ssdSent c porInit x n)).2.length →
        (ssdErrors (ssdSent c porInit x n)).2[p]? = some (nak p)) ∧
      ∀ n, ∃ (cuts : List (List SsdBeat × List (Nat × Bool))) (beats : List SsdBeat) (user : List (Nat × Bool))
          (pend : List SsdByte),
        (∀ q ∈ cuts, SsdCut (ssdInitSeq h clock pins) (ssdSetupSeq w h col) (w * h / 8) q) ∧
        cuts.length ≤ highCount (fun k => (x k).reset) 0 n ∧
        SsdNow (ssdInitSeq h clock pins) (ssdSetupSeq w h col) (w * h / 8) ((ssd1306 c porInit).wave x n).ready
          (beats, user) ∧
        ssdUser c porInit x n = cuts.flatMap Prod.snd ++ user ∧
        (ssdSent c porInit x n).map Prod.fst = (ssdBytes nak (cuts.flatMap Prod.fst ++ beats)).bytes ++ pend ∧
        (pend = [] ∨ ((ssdBytes nak (cuts.flatMap Prod.fst ++ beats)).inside = none ∧ (pend = [ssdAddrByte] ∨
          ∃ d, pend = [ssdAddrByte, ssdCtrlByte d]))) := by
  obtain ⟨clock, pins, col, hs, hi, hd, hz, hpos⟩ := ssdNew_screens w h c hc
  obtain ⟨nak, hnak⟩ := wrapNak_exists (ssdWrapInput c porInit x)
  have hnak' : ∀ n p, p < (ssdErrors (ssdSent c porInit x n)).2.length →
      (ssdErrors (ssdSent c porInit x n)).2[p]? = some (nak p) := fun n p => by rw [ssd_sent_wrap]; exact hnak n p
  exact ⟨clock, pins, col, hs, nak, hnak', ssd_sessions w h c porInit x clock pins col hi hd hz hpos nak hnak'⟩

end Lambdalib
