import Verif.Props.Ssd1306
import Verif.Props.UlpiDump

/-! Progress of the SSD1306 driver (C55) and transactions after errors (C77). -/

namespace Lambdalib

/-- Words the reader has still to deliver. -/
def rdRem (l : List Nat) (s : MemRdS Nat × PipeValidS Nat) : Nat :=
  (if s.1.done then 0 else l.length - s.1.addrRd) + if s.2.valid then 1 else 0

/-- Cycles until the reader offers the next word. -/
def rdPh (s : MemRdS Nat × PipeValidS Nat) : Nat := if s.2.valid then 0 else if s.1.wait then 2 else 1

def wrapPh : WrapSt → Nat
  | .addr => 3
  | .control => 2
  | .data => 1
  | .error => 1

theorem rdPh_le (s : MemRdS Nat × PipeValidS Nat) : rdPh s ≤ 2 := by
  unfold rdPh; split <;> [omega; (split <;> omega)]

theorem rdAt_rem {l : List Nat} {s : MemRdS Nat × PipeValidS Nat} {k : Nat} (h : RdAt l s k) :
    rdRem l s + k = l.length := by
  obtain ⟨⟨done, wait, addr, rdata⟩, ⟨valid, beat⟩⟩ := s
  obtain ⟨h1, h2, h3, h4, h5⟩ := h
  dsimp only [rdRem] at *
  cases done
  · have h4 := h4 rfl
    simp only [Bool.false_eq_true, if_false]
    omega
  · have h3 : k + (if valid then 1 else 0) = l.length := by simpa using h3
    simp only [if_true]
    omega

theorem rdPh_step {l : List Nat} {s : MemRdS Nat × PipeValidS Nat} {k : Nat} (h : RdAt l s k) (r : Bool)
    (hv : s.2.valid = false) (hk : k < l.length) :
    rdPh ((memoryStreamReaderBuffered l).next s (false, r)) < rdPh s := by
  obtain ⟨⟨done, wait, addr, rdata⟩, ⟨valid, beat⟩⟩ := s
  obtain ⟨h1, h2, h3, h4, h5⟩ := h
  dsimp only at *
  subst hv
  have hd : done = false := by
    rw [h3]; simp; omega
  subst hd
  cases wait
  · rw [rd_load l false r addr rdata beat (by simp)]
    simp [rdPh]
  · obtain ⟨b, hb⟩ := rd_idle l false true false r addr rdata beat (by simp) (by simp)
    rw [hb]
    simp [rdPh]

theorem rdPh_hold {l : List Nat} {s : MemRdS Nat × PipeValidS Nat} (hv : s.2.valid = true) :
    rdPh ((memoryStreamReaderBuffered l).next s (false, false)) = 0 := by
  obtain ⟨⟨done, wait, addr, rdata⟩, ⟨valid, beat⟩⟩ := s
  dsimp only at hv
  subst hv
  rw [rd_hold]
  simp [rdPh]

theorem wrapPh_step (s : WrapSt) (w : WrapIn) :
    (w.valid = false → ssdWrapper.next s w = s) ∧
    (w.valid = true → (((ssdWrapper.out s w).ready = false ∧ wrapPh (ssdWrapper.next s w) ≤ wrapPh s ∧
      (w.ready = true ∨ (ssdWrapper.out s w).valid = false → wrapPh (ssdWrapper.next s w) < wrapPh s)) ∨
      ((ssdWrapper.out s w).ready = true ∧ wrapPh (ssdWrapper.next s w) ≤ 3 ∧ 1 ≤ wrapPh s))) := by
  obtain ⟨valid, dcn, data, last, ready, err⟩ := w
  cases s <;> cases valid <;> cases ready <;> cases err <;> cases last <;> simp [ssdWrapper, wrapPh]

section
variable (c : SsdCfg) (porInit : Bool)

/-- What is left to do before the screen is ready, or before the next byte of the user is taken. -/
def ssdMeasure (s : SsdS) : Nat :=
  wrapPh s.wrap + match s.st with
    | .unknown => 0
    | .reset => 10 * ((ssdInit c).length + (ssdDisplay c).length + c.size) + 40
    | .init => 10 * (rdRem (ssdInit c) s.init + (ssdDisplay c).length + c.size) + 30 + rdPh s.init
    | .display => 10 * (rdRem (ssdDisplay c) s.display + if s.ready then 0 else c.size) + 20 + rdPh s.display
    | .framebuffer => 10 * (if s.ready then 0 else c.size - s.cnt) + 10

/-- Progress of a reader feeding the wrapper. -/
theorem rd_wrap_step {l : List Nat} {s : MemRdS Nat × PipeValidS Nat} {k : Nat} (h : RdAt l s k) (hk : k < l.length)
    (wr : WrapSt) (w : WrapIn) (hw : w.valid = s.2.valid) :
    let s' := (memoryStreamReaderBuffered l).next s (false, (ssdWrapper.out wr w).ready)
    let m := wrapPh wr + (10 * rdRem l s + rdPh s)
    let m' := wrapPh (ssdWrapper.next wr w) + (10 * rdRem l s' + rdPh s')
    m' ≤ m ∧ (w.ready = true ∨ (ssdWrapper.out wr w).valid = false → m' < m) := by
  intro s' m m'
  have hs := rdAt_step l s k (ssdWrapper.out wr w).ready h
  have r1 := rdAt_rem h
  have r2 := rdAt_rem hs
  obtain ⟨w1, w2⟩ := wrapPh_step wr w
  have hp := rdPh_le s'
  cases hv : s.2.valid with
  | false =>
    rw [hv] at r2
    simp only [Bool.false_and, Bool.false_eq_true, if_false] at r2
    have hlt : rdPh s' < rdPh s := rdPh_step h _ hv hk
    have he := w1 (hw.trans hv)
    have r2 : rdRem l s' + (k + 0) = l.length := r2
    simp only [m, m', he]
    omega
  | true =>
    rcases w2 (hw.trans hv) with ⟨a1, a2, a3⟩ | ⟨a1, a2, a3⟩
    · rw [hv, a1] at r2
      simp only [Bool.and_false, Bool.false_eq_true, if_false] at r2
      have hh : rdPh s' = 0 := by simp only [s', a1]; exact rdPh_hold hv
      have r2 : rdRem l s' + (k + 0) = l.length := by simp only [s', a1]; exact r2
      simp only [m, m']
      refine ⟨by omega, fun hr => ?_⟩
      have := a3 hr
      omega
    · rw [hv, a1] at r2
      simp only [Bool.and_true, if_true] at r2
      have r2 : rdRem l s' + (k + 1) = l.length := by simp only [s', a1]; exact r2
      simp only [m, m']
      omega

theorem ssd_live_step (s : SsdS) (x : SsdIn) (beats : List SsdBeat)
    (user : List (Nat × Bool)) (h : SsdRel c s beats user) (hr : x.reset = false) (hv : s.ready = true → x.valid = true)
    (hu : s.st ≠ .unknown) :
    let s' := (ssd1306 c porInit).next s x
    (s.ready = false ∧ s'.ready = true) ∨ (s.ready = true ∧ ((ssd1306 c porInit).out s x).sinkReady = true) ∨
    (ssdMeasure c s' ≤ ssdMeasure c s ∧ (x.srcReady = true ∨ ((ssd1306 c porInit).out s x).valid = false → ssdMeasure c s' < ssdMeasure c s) ∧
      s'.st ≠ .unknown ∧ s'.ready = s.ready) := by
  intro s'
  have hD : ssdDisplay c ≠ [] := by simp [ssdDisplay]
  have hI : ssdInit c ≠ [] := by simp [ssdInit]
  obtain ⟨st, ready, cnt, ini, disp, wrap⟩ := s
  obtain ⟨hc, h⟩ := h
  dsimp only at hc hv hu
  cases st with
  | unknown => exact absurd rfl hu
  | reset =>
    right; right
    have r1 := rdAt_rem (rdAt_rewind (ssdInit c) hI ini false)
    have r2 := rdPh_le ((memoryStreamReaderBuffered (ssdInit c)).next ini (true, false))
    have hw := (wrapPh_step wrap (ssdWrapIn c ⟨.reset, ready, cnt, ini, disp, wrap⟩ x)).1 rfl
    have hs : s' = ⟨.init, ready, cnt, (memoryStreamReaderBuffered (ssdInit c)).next ini (true, false),
      (memoryStreamReaderBuffered (ssdDisplay c)).next disp (true, false), wrap⟩ := by
      simp only [s', ssd1306, hw]
    rw [hs]
    dsimp only [ssdMeasure]
    refine ⟨by omega, fun _ => by omega, by simp, rfl⟩
  | init =>
    right; right
    obtain ⟨h1, h2, h3, h4, k, h5, h6⟩ := h
    dsimp only at h1 h2 h4 h5
    obtain ⟨n1, n2, n3⟩ := ssd_next_init c porInit ready cnt ini disp wrap x
    have he := rdAt_end h5
    simp only [s', n1]
    by_cases hk : k = (ssdInit c).length
    · have he' : (ini.1.done && !ini.2.valid) = true := he.mpr hk
      have hvf : ini.2.valid = false := by simp at he'; exact he'.2
      rw [if_pos he']
      have hd := rdAt_rem (rdAt_step _ _ _ false h4)
      have hp := rdPh_le ((memoryStreamReaderBuffered (ssdDisplay c)).next disp (false, false))
      have hi := rdAt_rem h5
      have hw := (wrapPh_step wrap (ssdWrapIn c ⟨.init, ready, cnt, ini, disp, wrap⟩ x)).1 hvf
      rw [hw]
      subst h1
      dsimp only [ssdMeasure]
      simp only [Bool.and_false, Bool.false_eq_true, if_false] at hd ⊢
      refine ⟨by omega, fun _ => by omega, by simp, trivial⟩
    · have he' : ¬ (ini.1.done && !ini.2.valid) = true := fun hh => hk (he.mp hh)
      rw [if_neg he']
      have hlt : k < (ssdInit c).length := by have := h5.le; omega
      have hm := rd_wrap_step h5 hlt wrap (ssdWrapIn c ⟨.init, ready, cnt, ini, disp, wrap⟩ x) rfl
      rw [(ssdWrapIn_ready _ _ _).1] at hm
      dsimp only [ssdMeasure, ssdWR] at hm ⊢
      refine ⟨by omega, fun hh => ?_, by simp, trivial⟩
      have := hm.2 hh
      omega
  | display =>
    right; right
    obtain ⟨h1, k, h2, h3⟩ := h
    dsimp only at h1 h2 h3
    have ha : (!ready || x.valid) = true := by
      cases ready
      · rfl
      · simp [hv rfl]
    obtain ⟨n1, n2⟩ := ssd_next_display c porInit ready cnt ini disp wrap x hr ha
    have hw : ssdWrapIn c ⟨.display, ready, cnt, ini, disp, wrap⟩ x =
        ⟨disp.2.valid, false, disp.2.beat.payload, true, x.srcReady, x.err⟩ := by
      simp only [ssdWrapIn, hr, ha]; rfl
    have he := rdAt_end h2
    simp only [s', n1]
    by_cases hk : k = (ssdDisplay c).length
    · have he' : (disp.1.done && !disp.2.valid) = true := he.mpr hk
      have hvf : disp.2.valid = false := by simp at he'; exact he'.2
      rw [if_pos he']
      have hi := rdAt_rem h2
      have hw := (wrapPh_step wrap (ssdWrapIn c ⟨.display, ready, cnt, ini, disp, wrap⟩ x)).1 (by rw [hw]; exact hvf)
      rw [hw]
      subst h1
      dsimp only [ssdMeasure]
      generalize (if ready = true then 0 else c.size) = q
      refine ⟨by omega, fun _ => by omega, by simp, trivial⟩
    · have he' : ¬ (disp.1.done && !disp.2.valid) = true := fun hh => hk (he.mp hh)
      rw [if_neg he']
      have hlt : k < (ssdDisplay c).length := by have := h2.le; omega
      have hm := rd_wrap_step h2 hlt wrap (ssdWrapIn c ⟨.display, ready, cnt, ini, disp, wrap⟩ x) (by rw [hw])
      rw [(ssdWrapIn_ready _ _ _).1] at hm
      dsimp only [ssdMeasure, ssdWR] at hm ⊢
      generalize (if ready = true then 0 else c.size) = q
      refine ⟨by omega, fun hh => ?_, by simp, trivial⟩
      have := hm.2 hh
      omega
  | framebuffer =>
    cases ready
    · obtain ⟨n1, n2, n3⟩ := ssd_next_black c porInit cnt ini disp wrap x
      have hm := (wrapPh_step wrap (ssdWrapIn c ⟨.framebuffer, false, cnt, ini, disp, wrap⟩ x)).2 rfl
      rw [(ssdWrapIn_ready _ _ _).1] at hm
      simp only [s', n1]
      rcases hm with ⟨a1, a2, a3⟩ | ⟨a1, a2, a3⟩ <;>
        change ssdWR c ⟨.framebuffer, false, cnt, ini, disp, wrap⟩ x = _ at a1
      · right; right
        rw [a1, if_neg (by simp)]
        dsimp only [ssdMeasure]
        simp only [Bool.false_eq_true, if_false]
        refine ⟨by omega, fun hh => ?_, by simp, trivial⟩
        have := a3 hh
        omega
      · rw [a1, if_pos rfl]
        by_cases hl : cnt = c.size - 1
        · rw [if_pos hl]
          exact Or.inl ⟨trivial, rfl⟩
        · rw [if_neg hl]
          right; right
          have hlt : cnt + 1 < c.size := by omega
          rw [truncRange_of_lt hlt]
          dsimp only [ssdMeasure]
          simp only [Bool.false_eq_true, if_false]
          refine ⟨by omega, fun hh => by omega, by simp, trivial⟩
    · obtain ⟨n1, n2, n3⟩ := ssd_next_frame c porInit cnt ini disp wrap x
      have hx := hv rfl
      have hm := (wrapPh_step wrap (ssdWrapIn c ⟨.framebuffer, true, cnt, ini, disp, wrap⟩ x)).2 hx
      rw [(ssdWrapIn_ready _ _ _).1] at hm
      rcases hm with ⟨a1, a2, a3⟩ | ⟨a1, a2, a3⟩
      · right; right
        change ssdWR c ⟨.framebuffer, true, cnt, ini, disp, wrap⟩ x = _ at a1
        simp only [s', n1]
        rw [a1, Bool.and_false, if_neg (by simp)]
        dsimp only [ssdMeasure]
        simp only [if_true]
        refine ⟨by omega, fun hh => ?_, by simp, trivial⟩
        have := a3 hh
        omega
      · right; left
        exact ⟨rfl, a1⟩

/-- Some relation holds in every cycle. -/
theorem ssd_rel (hpos : 0 < c.size) (x : Nat → SsdIn) (n : Nat) :
    ∃ beats user, SsdRel c ((ssd1306 c porInit).st x n) beats user := by
  induction n with
  | zero => exact ⟨[], [], hpos, rfl, rfl, rfl, rfl⟩
  | succ n ih =>
    obtain ⟨beats, user, h⟩ := ih
    have := ssd_step c porInit hpos _ (x n) beats user h
    rw [Circuit.st_succ]
    split at this
    · exact ⟨_, _, this.2.2.2⟩
    · exact ⟨_, _, this⟩

/-- Without reset and with a receiver that takes each byte offered at some time, the next event happens. -/
theorem ssd_live (hpos : 0 < c.size) (x : Nat → SsdIn) (N : Nat) (hreset : ∀ n, N ≤ n → (x n).reset = false)
    (hready : ∀ n, ∃ m, n ≤ m ∧ ((x m).srcReady = true ∨ ((ssd1306 c porInit).wave x m).valid = false)) (rdy : Bool)
    (hvalid : rdy = true → ∀ n, N ≤ n → (∀ m, N ≤ m → m < n → ((ssd1306 c porInit).wave x m).sinkReady = false) →
      (x n).valid = true)
    (hu : ((ssd1306 c porInit).st x N).st ≠ .unknown) (hr : ((ssd1306 c porInit).st x N).ready = rdy) :
    ∃ n, N ≤ n ∧ ((rdy = false ∧ ((ssd1306 c porInit).st x (n + 1)).ready = true) ∨
      (rdy = true ∧ ((ssd1306 c porInit).wave x n).sinkReady = true)) := by
  by_contra hno
  have hno : ∀ n, N ≤ n → ¬((rdy = false ∧ ((ssd1306 c porInit).st x (n + 1)).ready = true) ∨
      (rdy = true ∧ ((ssd1306 c porInit).wave x n).sinkReady = true)) := by
    intro n hn hh; exact hno ⟨n, hn, hh⟩
  have hnt : rdy = true → ∀ n, N ≤ n → ((ssd1306 c porInit).wave x n).sinkReady = false := by
    intro hrd n hn
    have := hno n hn
    cases hh : ((ssd1306 c porInit).wave x n).sinkReady with
    | false => rfl
    | true => exact absurd (Or.inr ⟨hrd, hh⟩) this
  have hstep : ∀ n, N ≤ n → ((ssd1306 c porInit).st x n).st ≠ .unknown → ((ssd1306 c porInit).st x n).ready = rdy →
      ssdMeasure c ((ssd1306 c porInit).st x (n + 1)) ≤ ssdMeasure c ((ssd1306 c porInit).st x n) ∧
      ((x n).srcReady = true ∨ ((ssd1306 c porInit).wave x n).valid = false →
        ssdMeasure c ((ssd1306 c porInit).st x (n + 1)) < ssdMeasure c ((ssd1306 c porInit).st x n)) ∧
      ((ssd1306 c porInit).st x (n + 1)).st ≠ .unknown ∧ ((ssd1306 c porInit).st x (n + 1)).ready = rdy := by
    intro n hn b1 b2
    obtain ⟨beats, user, h⟩ := ssd_rel c porInit hpos x n
    rcases ssd_live_step c porInit _ (x n) beats user h (hreset _ hn)
      (fun hh => hvalid (b2.symm.trans hh) _ hn (fun m hm _ => hnt (b2.symm.trans hh) m hm)) b1 with
      ⟨a1, a2⟩ | ⟨a1, a2⟩ | ⟨a1, a2, a3, a4⟩
    · exact absurd (Or.inl ⟨b2.symm.trans a1, a2⟩) (hno n hn)
    · exact absurd (Or.inr ⟨b2.symm.trans a1, a2⟩) (hno n hn)
    · exact ⟨a1, a2, a3, a4.trans b2⟩
  have key : ∀ M n, N ≤ n → ((ssd1306 c porInit).st x n).st ≠ .unknown → ((ssd1306 c porInit).st x n).ready = rdy →
      ssdMeasure c ((ssd1306 c porInit).st x n) < M → False := by
    intro M
    induction M with
    | zero => intro n _ _ _ h; omega
    | succ M ih =>
      intro n hn b1 b2 hM
      obtain ⟨m, hm, hmr⟩ := hready n
      obtain ⟨d, rfl⟩ := Nat.exists_eq_add_of_le hm
      clear hm
      induction d generalizing n with
      | zero =>
        obtain ⟨a1, a2, a3, a4⟩ := hstep n hn b1 b2
        have := a2 hmr
        exact ih (n + 1) (by omega) a3 a4 (by omega)
      | succ d ihd =>
        obtain ⟨a1, a2, a3, a4⟩ := hstep n hn b1 b2
        exact ihd (n + 1) (by omega) a3 a4 (by omega) (by rwa [show n + 1 + d = n + (d + 1) by omega])
  exact key _ N (Nat.le_refl _) hu hr (Nat.lt_succ_self _)

theorem ssd_not_unknown (x : Nat → SsdIn) (n : Nat) (h : ((ssd1306 c porInit).st x n).st = .unknown) :
    (∀ m, m < n → (porInit = false ∧ (x m).reset = false)) := by
  induction n with
  | zero => intro m hm; omega
  | succ n ih =>
    rw [Circuit.st_succ] at h
    generalize hs : (ssd1306 c porInit).st x n = s at *
    obtain ⟨st, ready, cnt, ini, disp, wrap⟩ := s
    have hst : st = .unknown ∧ porInit = false ∧ (x n).reset = false := by
      cases st with
      | unknown =>
        by_cases hr : ((x n).reset || porInit) = true
        · exfalso
          simp only [ssd1306, hr, if_true] at h
          cases h
        · simp at hr; exact ⟨rfl, hr.2, hr.1⟩
      | reset => exfalso; simp only [ssd1306] at h; cases h
      | init => exfalso; rw [(ssd_next_init c porInit ready cnt ini disp wrap (x n)).1] at h; dsimp only at h; split at h <;> cases h
      | display =>
        exfalso
        simp only [ssd1306] at h
        split at h
        · cases h
        · split at h
          · split at h <;> cases h
          · cases h
      | framebuffer =>
        exfalso
        simp only [ssd1306] at h
        split at h
        · split at h <;> cases h
        · cases h
    intro m hm
    by_cases hmn : m = n
    · rw [hmn]; exact hst.2
    · exact ih hst.1 m (by omega)

end

/-- C55: after power-on with `por_init`, or after any reset, when no further reset comes and the I2C master takes each byte
offered at some time, the screen becomes ready. -/
theorem C55_ready (w h : Nat) (c : SsdCfg) (hc : ssdNew w h = some c) (porInit : Bool) (x : Nat → SsdIn) (N : Nat)
    (hstart : 0 < N ∧ (porInit = true ∨ ∃ m, m < N ∧ (x m).reset = true))
    (hreset : ∀ n, N ≤ n → (x n).reset = false) (hready : ∀ n, ∃ m, n ≤ m ∧ ((x m).srcReady = true ∨ ((ssd1306 c porInit).wave x m).valid = false)) :
    ∃ n, N ≤ n ∧ ((ssd1306 c porInit).wave x n).ready = true := by
  obtain ⟨_, _, _, _, _, _, _, hpos⟩ := ssdNew_screens w h c hc
  have hu : ((ssd1306 c porInit).st x N).st ≠ .unknown := by
    intro hh
    have := ssd_not_unknown c porInit x N hh
    rcases hstart.2 with hp | ⟨m, hm, hr⟩
    · have := (this 0 hstart.1).1; rw [hp] at this; cases this
    · have := (this m hm).2; rw [hr] at this; cases this
  cases hr : ((ssd1306 c porInit).st x N).ready with
  | true => exact ⟨N, Nat.le_refl _, hr⟩
  | false =>
    obtain ⟨n, hn, hh⟩ := ssd_live c porInit hpos x N hreset hready false (by simp) hu hr
    rcases hh with ⟨_, h2⟩ | ⟨h1, _⟩
    · exact ⟨n + 1, by omega, h2⟩
    · cases h1

/-- C55: once ready, without reset and with an I2C master that takes each byte offered at some time, a byte that the user
offers is taken. -/
theorem C55_taken (w h : Nat) (c : SsdCfg) (hc : ssdNew w h = some c) (porInit : Bool) (x : Nat → SsdIn) (N : Nat)
    (hrdy : ((ssd1306 c porInit).wave x N).ready = true)
    (hreset : ∀ n, N ≤ n → (x n).reset = false) (hready : ∀ n, ∃ m, n ≤ m ∧ ((x m).srcReady = true ∨ ((ssd1306 c porInit).wave x m).valid = false))
    (hvalid : ∀ n, N ≤ n → (∀ m, N ≤ m → m < n → ((ssd1306 c porInit).wave x m).sinkReady = false) →
      (x n).valid = true) :
    ∃ n, N ≤ n ∧ ((ssd1306 c porInit).wave x n).sinkReady = true := by
  obtain ⟨_, _, _, _, _, _, _, hpos⟩ := ssdNew_screens w h c hc
  have hr : ((ssd1306 c porInit).st x N).ready = true := hrdy
  have hu : ((ssd1306 c porInit).st x N).st ≠ .unknown := by
    intro hh
    obtain ⟨beats, user, hc, h⟩ := ssd_rel c porInit hpos x N
    rw [hh] at h
    have := h.1
    rw [hr] at this; cases this
  obtain ⟨n, hn, hh⟩ := ssd_live c porInit hpos x N hreset hready true (fun _ => hvalid) hu hr
  rcases hh with ⟨h1, _⟩ | ⟨_, h2⟩
  · cases h1
  · exact ⟨n, hn, h2⟩

/-! ### The source obeys the stream rule -/

theorem rd_hold_out (l : List Nat) (s : MemRdS Nat × PipeValidS Nat) (hv : s.2.valid = true) :
    ((memoryStreamReaderBuffered l).next s (false, false)).2 = s.2 := by
  obtain ⟨⟨done, wait, addr, rdata⟩, ⟨valid, beat⟩⟩ := s
  dsimp only at hv
  subst hv
  rw [rd_hold]

/-- What is offered to the wrapper is kept until it is taken. -/
theorem ssd_wrapIn_keeps (c : SsdCfg) (porInit : Bool) (s : SsdS) (x x' : SsdIn) (hr : x.reset = false) (hr' : x'.reset = false)
    (hv : (ssdWrapIn c s x).valid = true) (hw : ssdWR c s x = false)
    (hu : x.valid = true → ((ssd1306 c porInit).out s x).sinkReady = false →
      x'.valid = true ∧ (x'.data, x'.last) = (x.data, x.last)) :
    let w := ssdWrapIn c s x
    let w' := ssdWrapIn c ((ssd1306 c porInit).next s x) x'
    w'.valid = true ∧ (w'.dcn, w'.data, w'.last) = (w.dcn, w.data, w.last) := by
  obtain ⟨st, ready, cnt, ini, disp, wrap⟩ := s
  cases st with
  | unknown => cases hv
  | reset => cases hv
  | init =>
    obtain ⟨n1, _, _⟩ := ssd_next_init c porInit ready cnt ini disp wrap x
    have hvi : ini.2.valid = true := hv
    rw [n1, hw, hvi, Bool.not_true, Bool.and_false, if_neg (by simp)]
    have h := rd_hold_out (ssdInit c) ini hvi
    generalize (memoryStreamReaderBuffered (ssdInit c)).next ini (false, false) = ini' at h
    obtain ⟨a, b⟩ := ini'
    dsimp only at h
    subst h
    exact ⟨hvi, rfl⟩
  | display =>
    by_cases ha : (!ready || x.valid) = true
    · obtain ⟨n1, _⟩ := ssd_next_display c porInit ready cnt ini disp wrap x hr ha
      have e : ∀ q d (y : SsdIn), y.reset = false → (!ready || y.valid) = true →
          ssdWrapIn c ⟨.display, ready, cnt, q, d, ssdWrapper.next wrap (ssdWrapIn c ⟨.display, ready, cnt, ini, disp, wrap⟩ x)⟩ y =
            ⟨d.2.valid, false, d.2.beat.payload, true, y.srcReady, y.err⟩ := by
        intro q d y h1 h2
        simp only [ssdWrapIn, h1, h2]; rfl
      have e0 : ssdWrapIn c ⟨.display, ready, cnt, ini, disp, wrap⟩ x =
          ⟨disp.2.valid, false, disp.2.beat.payload, true, x.srcReady, x.err⟩ := by
        simp only [ssdWrapIn, hr, ha]; rfl
      have hvi : disp.2.valid = true := by rw [e0] at hv; exact hv
      have ha' : (!ready || x'.valid) = true := by
        cases ready
        · rfl
        · simp only [Bool.not_true, Bool.false_or] at ha ⊢
          exact (hu ha rfl).1
      rw [n1, hw, hvi, Bool.not_true, Bool.and_false, if_neg (by simp), e _ _ _ hr' ha', e0, rd_hold_out _ _ hvi]
      exact ⟨hvi, rfl⟩
    · simp only [ssdWrapIn, hr, ha] at hv
      simp at hv
  | framebuffer =>
    cases ready
    · obtain ⟨n1, _, _⟩ := ssd_next_black c porInit cnt ini disp wrap x
      rw [n1, hw, if_neg (by simp)]
      exact ⟨rfl, rfl⟩
    · obtain ⟨n1, _, _⟩ := ssd_next_frame c porInit cnt ini disp wrap x
      have hvx : x.valid = true := hv
      obtain ⟨u1, u2⟩ := hu hvx hw
      injection u2 with u2 u3
      rw [n1, hw, Bool.and_false, if_neg (by simp)]
      refine ⟨u1, ?_⟩
      show (true, x'.data, decide (cnt = c.size - 1) || x'.last) = (true, x.data, decide (cnt = c.size - 1) || x.last)
      rw [u2, u3]

/-- C55: without `reset`, a user who neither withdraws nor changes an offered byte makes the driver do the same with the bytes
that it offers to the I2C master. -/
theorem C55_source_stable (c : SsdCfg) (porInit : Bool) (x : Nat → SsdIn) (hreset : ∀ n, (x n).reset = false)
    (hu : Stable (fun k => (x k).valid) (fun k => ((ssd1306 c porInit).wave x k).sinkReady) (fun k => ((x k).data, (x k).last))) :
    Stable (fun k => ((ssd1306 c porInit).wave x k).valid) (fun k => (x k).srcReady)
      (fun k => (((ssd1306 c porInit).wave x k).data, ((ssd1306 c porInit).wave x k).last)) := by
  have h := (C54_handshake (ssdWrapInput c porInit x)).1 (by
    intro n hv hr
    have := ssd_wrapIn_keeps c porInit ((ssd1306 c porInit).st x n) (x n) (x (n + 1)) (hreset n) (hreset (n + 1)) hv
      (by simp only [Circuit.wave, ← ssd_wrap_st] at hr; exact hr) (hu n)
    rw [← Circuit.st_succ] at this
    exact this)
  have e : ∀ k, ssdWrapper.wave (ssdWrapInput c porInit x) k =
      ssdWrapper.out ((ssd1306 c porInit).st x k).wrap (ssdWrapIn c ((ssd1306 c porInit).st x k) (x k)) := by
    intro k
    rw [ssd_wrap_st]; rfl
  intro n hv hr
  have := h n
  simp only [e] at this
  exact this hv ((ssdWrapIn_ready _ _ _).1.trans hr)

/-! ### Concrete run -/

/-- A 96 x 16 screen; the user sends two short frames. -/
def ssdDemoCfg : SsdCfg := (ssdNew 96 16).getD ⟨0, 0, 0, 0, 0, 0, 0⟩

example : ssdNew 96 16 = some ssdDemoCfg := rfl
example : ssdNew 96 17 = none := by decide

def ssdDemo (n : Nat) : SsdIn := ⟨false, true, n % 256, decide (n % 2 = 1), true, false⟩

example : ((ssd1306 ssdDemoCfg true).wave ssdDemo 400).ready = true ∧
    (ssdUser ssdDemoCfg true ssdDemo 400).map Prod.fst = [60, 61, 85, 109, 133] ∧
    ((ssdSent ssdDemoCfg true ssdDemo 400).map (fun b => b.1.data)).take 6 = [0x78, 0, 0xAE, 0x78, 0, 0xD5] := by
  decide +kernel

example : ∃ n, 1 ≤ n ∧ ((ssd1306 ssdDemoCfg true).wave ssdDemo n).ready = true :=
  C55_ready 96 16 ssdDemoCfg rfl true ssdDemo 1 ⟨by decide, Or.inl rfl⟩ (fun _ _ => rfl) (fun n => ⟨n, Nat.le_refl _, .inl rfl⟩)

/-! ### C77: transactions after errors -/

section
variable (i : Nat → WrapIn)

theorem ssdStarts_end (l : List (SsdByte × Bool)) (b : SsdByte × Bool) :
    SsdStarts (l ++ [b]) (l.length + 1) ↔ b.1.last = true ∨ b.2 = true := by
  constructor
  · rintro (h | ⟨b', h1, h2⟩)
    · omega
    · simp at h1; subst h1; exact h2
  · intro h
    exact Or.inr ⟨b, by simp, h⟩

theorem ssdStarts_append (l : List (SsdByte × Bool)) (b : SsdByte × Bool) (j : Nat) (hj : j ≤ l.length) :
    SsdStarts (l ++ [b]) j ↔ SsdStarts l j := by
  unfold SsdStarts
  cases j with
  | zero => simp
  | succ j => rw [show j + 1 - 1 = j by omega, List.getElem?_append_left (by omega)]

/-- Errors only at the start or end of a transaction. -/
def SsdEdgeErrors (l : List (SsdByte × Bool)) : Prop :=
  ∀ j b, l[j]? = some b → b.2 = true → SsdStarts l j ∨ b.1.last = true

def SsdAddressed (l : List (SsdByte × Bool)) : Prop := ∀ j b, l[j]? = some b → SsdStarts l j → b.1 = ssdAddrByte

theorem wrap_starts_step (s : WrapSt) (x : WrapIn) (l : List (SsdByte × Bool))
    (ih : SsdEdgeErrors l → SsdAddressed l ∧ (SsdStarts l l.length ↔ s = .addr ∨ s = .error)) (l' : List (SsdByte × Bool))
    (hl' : l' = l ++ if (ssdWrapper.out s x).valid && x.ready then
      [(⟨(ssdWrapper.out s x).data, (ssdWrapper.out s x).last⟩, x.err)] else []) (he : SsdEdgeErrors l') :
    SsdAddressed l' ∧ (SsdStarts l' l'.length ↔ ssdWrapper.next s x = .addr ∨ ssdWrapper.next s x = .error) := by
  by_cases hf : ((ssdWrapper.out s x).valid && x.ready) = true
  · rw [if_pos hf] at hl'
    subst hl'
    generalize hb : ((⟨(ssdWrapper.out s x).data, (ssdWrapper.out s x).last⟩, x.err) : SsdByte × Bool) = b at *
    obtain ⟨ih1, ih2⟩ := ih (by
      intro j b' hj hb'
      have hlt : j < l.length := by
        rcases Nat.lt_or_ge j l.length with h | h
        · exact h
        · rw [List.getElem?_eq_none h] at hj; cases hj
      have := he j b' (by rw [List.getElem?_append_left hlt]; exact hj) hb'
      rwa [ssdStarts_append _ _ _ (by omega)] at this)
    have hlen : (l ++ [b]).length = l.length + 1 := by simp
    have heb := he l.length b (by simp)
    rw [ssdStarts_append _ _ _ (Nat.le_refl _), ih2] at heb
    refine ⟨?_, ?_⟩
    · intro j b' hj hst
      rcases Nat.lt_or_ge j l.length with hlt | hge
      · rw [ssdStarts_append _ _ _ (by omega)] at hst
        rw [List.getElem?_append_left hlt] at hj
        exact ih1 j b' hj hst
      · have hj2 : j = l.length := by
          rcases Nat.lt_or_ge l.length j with h | h
          · rw [List.getElem?_eq_none (by rw [hlen]; omega)] at hj; cases hj
          · omega
        subst hj2
        rw [ssdStarts_append _ _ _ (Nat.le_refl _), ih2] at hst
        simp at hj
        subst hj
        rcases hst with rfl | rfl
        · rw [← hb]; rfl
        · simp [ssdWrapper] at hf
    · rw [hlen, ssdStarts_end]
      clear ih ih1 ih2 he
      obtain ⟨valid, dcn, data, last, ready, err⟩ := x
      cases s <;> cases valid <;> cases ready <;> simp [ssdWrapper] at hf <;> subst hb <;> cases last <;> cases err <;>
        simp_all [ssdWrapper]
  · rw [if_neg hf, List.append_nil] at hl'
    subst hl'
    obtain ⟨ih1, ih2⟩ := ih he
    refine ⟨ih1, ?_⟩
    rw [ih2]
    clear ih ih1 ih2 he
    obtain ⟨valid, dcn, data, last, ready, err⟩ := x
    cases s <;> cases valid <;> cases ready <;> cases last <;> cases err <;> simp_all [ssdWrapper]

/-- C77 (partial): if the I2C master reports errors only for bytes that start or end a transaction, every transaction
starts with the address byte. The full claim has no hypothesis on the errors. -/
theorem C77_transactions_partial (n : Nat)
    (herr : ∀ j b, (wrapSent i n)[j]? = some b → b.2 = true → SsdStarts (wrapSent i n) j ∨ b.1.last = true) :
    ∀ j b, (wrapSent i n)[j]? = some b → SsdStarts (wrapSent i n) j → b.1 = ssdAddrByte := by
  have key : ∀ m, SsdEdgeErrors (wrapSent i m) → SsdAddressed (wrapSent i m) ∧
      (SsdStarts (wrapSent i m) (wrapSent i m).length ↔ ssdWrapper.st i m = .addr ∨ ssdWrapper.st i m = .error) := by
    intro m
    induction m with
    | zero =>
      intro _
      exact ⟨by intro j b hj; simp [wrapSent, transferred] at hj,
        by simp [SsdStarts, ssdWrapper, wrapSent, transferred]⟩
    | succ m ih => exact wrap_starts_step _ (i m) _ ih _ rfl
  exact (key n herr).1

/-- C77 is false of the code: a byte after the address is not acknowledged, and the following byte, pixel data or a
command, starts a transaction as if it were an address. -/
theorem C77_transactions_refuted :
    ∃ (i : Nat → WrapIn) (n : Nat), Stable (fun k => (i k).valid) (fun k => (ssdWrapper.wave i k).ready)
        (fun k => ((i k).dcn, (i k).data, (i k).last)) ∧
      ¬ (∀ j b, (wrapSent i n)[j]? = some b → SsdStarts (wrapSent i n) j → b.1 = ssdAddrByte) := by
  refine ⟨fun n => ⟨true, false, 0xAE, true, true, decide (n = 1)⟩, 3, fun n _ _ => ⟨rfl, rfl⟩, ?_⟩
  intro h
  have := h 2 (⟨0xAE, true⟩, false) (by decide +kernel) (Or.inr ⟨(⟨0, false⟩, true), by decide +kernel, Or.inr rfl⟩)
  exact absurd this (by decide)

/-- Address byte not acknowledged, packet dropped, next packet. -/
example : (wrapSent wrapDemo 30).map (fun b => (b.1.data, b.1.last, b.2)) =
    [(0x78, false, false), (0, false, false), (0xA5, true, false), (0x78, false, true), (0x78, false, false),
      (0x40, false, false), (0x11, true, false)] := by decide +kernel

end

end Lambdalib
