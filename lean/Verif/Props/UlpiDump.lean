import Verif.Lemmas.Ulpi

/-! Property C60, register dump over ULPI. -/

namespace Lambdalib

/-- What happens in cycle `n`, in terms of the pins and the offered command. -/
def dumpEvent (i : Nat → DumpIn) (o : Nat → DumpOut) (n : Nat) : List DumpEv :=
  (if (o n).cmd && (o n).oe && (i n).nxt then [.command (o n).o] else []) ++
  (if prevOf false (fun k => (i k).dir) n && (i n).dir then [.byte (i n).dataI] else [])

def dumpEvents (i : Nat → DumpIn) (o : Nat → DumpOut) : Nat → List DumpEv
  | 0 => []
  | n + 1 => dumpEvents i o n ++ dumpEvent i o n

/-- The commands taken by the PHY. -/
def dumpCommands (l : List DumpEv) : List Nat :=
  l.filterMap (fun e => match e with | .command b => some b | .byte _ => none)

/-- The bytes delivered on `source`. -/
def dumpDelivered (i : Nat → DumpIn) (o : Nat → DumpOut) (n : Nat) : List Nat :=
  transferred (fun k => (o k).valid) (fun k => (i k).ready) (fun k => (o k).data) n

def dumpWaiting (w : Bool) (l : List DumpEv) : Bool :=
  match l.getLast? with | none => w | some (.command _) => true | some (.byte _) => false

theorem dumpWaiting_cons (w : Bool) (e : DumpEv) (l) :
    dumpWaiting w (e :: l) = dumpWaiting (match e with | .command _ => true | .byte _ => false) l := by
  unfold dumpWaiting
  rw [List.getLast?_cons]
  cases l.getLast? with
  | none => cases e <;> rfl
  | some v => cases e <;> cases v <;> rfl

theorem dumpAnswers_snoc (w : Bool) (l : List DumpEv) (e : DumpEv) :
    dumpAnswers w (l ++ [e]) = dumpAnswers w l ++
      (match e with | .command _ => [] | .byte b => if dumpWaiting w l then [b] else []) := by
  induction l generalizing w with
  | nil => cases e <;> cases w <;> rfl
  | cons a l ih =>
    cases a with
    | command c =>
      show dumpAnswers true (l ++ [e]) = dumpAnswers true l ++ _
      rw [ih, dumpWaiting_cons]
    | byte b =>
      cases w with
      | true =>
        show b :: dumpAnswers false (l ++ [e]) = (b :: dumpAnswers false l) ++ _
        rw [ih, dumpWaiting_cons]; rfl
      | false =>
        show dumpAnswers false (l ++ [e]) = dumpAnswers false l ++ _
        rw [ih, dumpWaiting_cons]

/-- Commands taken so far, from the state. -/
def dumpM (maxAddr : Nat) (s : DumpS) : Nat :=
  match s.st with | .reset => 0 | .readCmd => s.addr | .done => maxAddr + 1 | _ => s.addr + 1

def dumpD (maxAddr : Nat) (s : DumpS) : Nat :=
  match s.st with | .reset => 0 | .readCmd | .readVal | .outVal => s.addr | .addrInc => s.addr + 1 | .done => maxAddr + 1

def dumpPend (s : DumpS) : List Nat :=
  match s.st with | .readVal => if s.x.sValid then [s.x.sData] else [] | .outVal => [s.data] | _ => []

structure DumpRel (maxAddr : Nat) (s : DumpS) (E : List DumpEv) (D : List Nat) : Prop where
  addr : s.addr ≤ maxAddr
  addr0 : s.st = .reset → s.addr = 0
  stp : s.x.stp = false
  cmds : dumpCommands E = (List.range (dumpM maxAddr s)).map (0xc0 ||| ·)
  len : D.length = dumpD maxAddr s
  ans : dumpAnswers false E = D ++ dumpPend s
  wait : dumpWaiting false E = (s.st == .readVal && !s.x.sValid)

def dumpStepEv (maxAddr : Nat) (s : DumpS) (x : DumpIn) : List DumpEv :=
  (if ((dumpUlpi maxAddr).out s x).cmd && ((dumpUlpi maxAddr).out s x).oe && x.nxt
    then [.command ((dumpUlpi maxAddr).out s x).o] else []) ++
  (if s.x.dirR && x.dir then [.byte x.dataI] else [])

theorem dumpRel_step {maxAddr : Nat} (hm : maxAddr < 64) {s : DumpS} {E D} (h : DumpRel maxAddr s E D) (x : DumpIn) :
    DumpRel maxAddr ((dumpUlpi maxAddr).next s x) (E ++ dumpStepEv maxAddr s x)
      (D ++ (if ((dumpUlpi maxAddr).out s x).valid && x.ready then [((dumpUlpi maxAddr).out s x).data] else [])) := by
  obtain ⟨st, addr, data, ⟨dirR, stp, sValid, sData, sCmd⟩⟩ := s
  obtain ⟨dir, nxt, dataI, porDone, ready⟩ := x
  obtain ⟨ha, ha0, hs, hc, hl, hans, hw⟩ := h
  dsimp only at ha ha0 hs
  subst hs
  have hcm : ∀ l e, dumpCommands (l ++ [e]) = dumpCommands l ++ dumpCommands [e] := fun l e => List.filterMap_append
  have hwt : ∀ l e, dumpWaiting false (l ++ [e]) = (match e with | .command _ => true | .byte _ => false) := by
    intro l e; simp only [dumpWaiting, List.getLast?_concat]; cases e <;> rfl
  cases st with
  | readCmd =>
    cases dirR <;> cases dir <;> cases nxt <;>
      simp [dumpUlpi, dumpX, xcvr, dumpStepEv, dumpM, dumpD, dumpPend] at hc hl hans hw ⊢ <;>
      constructor <;>
      simp_all [dumpM, dumpD, dumpPend, dumpAnswers_snoc, dumpCommands, List.range_succ]
  | reset =>
    have ha0 := ha0 rfl
    subst ha0
    cases dirR <;> cases dir <;> cases porDone <;>
      simp [dumpUlpi, dumpX, xcvr, dumpStepEv, dumpM, dumpD, dumpPend] at hc hl hans hw ⊢ <;>
      constructor <;>
      simp_all [dumpM, dumpD, dumpPend, dumpAnswers_snoc, dumpCommands] <;> rfl
  | readVal =>
    cases dirR <;> cases dir <;> cases sValid <;>
      simp [dumpUlpi, dumpX, xcvr, dumpStepEv, dumpM, dumpD, dumpPend] at hc hl hans hw ⊢ <;>
      constructor <;>
      simp_all [dumpM, dumpD, dumpPend, dumpAnswers_snoc, dumpCommands] <;> rfl
  | outVal =>
    cases dirR <;> cases dir <;> cases ready <;>
      simp [dumpUlpi, dumpX, xcvr, dumpStepEv, dumpM, dumpD, dumpPend] at hc hl hans hw ⊢ <;>
      constructor <;>
      simp_all [dumpM, dumpD, dumpPend, dumpAnswers_snoc, dumpCommands] <;> rfl
  | done =>
    cases dirR <;> cases dir <;>
      simp [dumpUlpi, dumpX, xcvr, dumpStepEv, dumpM, dumpD, dumpPend] at hc hl hans hw ⊢ <;>
      constructor <;>
      simp_all [dumpM, dumpD, dumpPend, dumpAnswers_snoc, dumpCommands] <;> rfl
  | addrInc =>
    by_cases he : addr = maxAddr
    · subst he
      cases dirR <;> cases dir <;>
        simp [dumpUlpi, dumpX, xcvr, dumpStepEv, dumpM, dumpD, dumpPend] at hc hl hans hw ⊢ <;>
        constructor <;>
        simp_all [dumpM, dumpD, dumpPend, dumpAnswers_snoc, dumpCommands] <;> rfl
    · have hlt : addr + 1 ≤ maxAddr := by omega
      have hmod : (addr + 1) % 64 = addr + 1 := Nat.mod_eq_of_lt (by omega)
      cases dirR <;> cases dir <;>
        simp [dumpUlpi, dumpX, xcvr, dumpStepEv, dumpM, dumpD, dumpPend, he, hmod] at hc hl hans hw ⊢ <;>
        constructor <;>
        simp_all [dumpM, dumpD, dumpPend, dumpAnswers_snoc, dumpCommands] <;> rfl

theorem dumpRel_run {maxAddr : Nat} (hm : maxAddr < 64) (i : Nat → DumpIn) (n : Nat) :
    DumpRel maxAddr ((dumpUlpi maxAddr).st i n) (dumpEvents i ((dumpUlpi maxAddr).wave i) n)
      (dumpDelivered i ((dumpUlpi maxAddr).wave i) n) := by
  induction n with
  | zero => constructor <;> first | rfl | simp [dumpUlpi]
  | succ n ih =>
    have h := dumpRel_step hm ih (i n)
    have hd : ((dumpUlpi maxAddr).st i n).x.dirR = prevOf false (fun k => (i k).dir) n := by
      cases n with
      | zero => rfl
      | succ n =>
        rw [Circuit.st_succ]
        generalize (dumpUlpi maxAddr).st i n = s
        simp only [dumpUlpi, prevOf]
        cases s.st <;> simp only <;> (repeat' split) <;> rfl
    rw [dumpStepEv, hd] at h
    exact h

/-- C60: the register read commands taken by the PHY are those for addresses 0, 1, 2, … in order and never beyond the
last one; the bytes delivered are the answers to the commands in order, at most one is outstanding. In particular never
more than one byte per address is delivered. -/
theorem C60_dump (maxAddr : Nat) (hm : maxAddr < 64) (i : Nat → DumpIn) (n : Nat) :
    let E := dumpEvents i ((dumpUlpi maxAddr).wave i) n
    let D := dumpDelivered i ((dumpUlpi maxAddr).wave i) n
    dumpCommands E = (List.range (dumpCommands E).length).map (0xc0 ||| ·) ∧
    (dumpCommands E).length ≤ maxAddr + 1 ∧
    D <+: dumpAnswers false E ∧
    D.length ≤ (dumpCommands E).length ∧ (dumpCommands E).length ≤ D.length + 1 := by
  intro E D
  have h := dumpRel_run hm i n
  have hl : (dumpCommands E).length = dumpM maxAddr ((dumpUlpi maxAddr).st i n) := by rw [h.cmds]; simp
  refine ⟨by rw [hl]; exact h.cmds, ?_, ?_, ?_, ?_⟩
  · rw [hl]; have := h.addr; unfold dumpM; split <;> omega
  · exact ⟨_, h.ans.symm⟩
  · rw [hl, h.len]; unfold dumpM dumpD; cases ((dumpUlpi maxAddr).st i n).st <;> simp
  · rw [hl, h.len]; unfold dumpM dumpD; cases ((dumpUlpi maxAddr).st i n).st <;> simp

/-- C60: after one byte per register has been delivered nothing is offered any more, and no command is sent. -/
theorem C60_stops (maxAddr : Nat) (hm : maxAddr < 64) (i : Nat → DumpIn) (n : Nat)
    (h : (dumpDelivered i ((dumpUlpi maxAddr).wave i) n).length = maxAddr + 1) (k : Nat) (hk : n < k) :
    ((dumpUlpi maxAddr).wave i k).valid = false ∧ ((dumpUlpi maxAddr).wave i k).cmd = false ∧
    ((dumpUlpi maxAddr).wave i k).o = 0 := by
  have hst : ∀ d, ((dumpUlpi maxAddr).st i (n + 1 + d)).st = .done := by
    intro d
    induction d with
    | zero =>
      have r := dumpRel_run hm i n
      have hl := r.len
      rw [h] at hl
      rw [Nat.add_zero, Circuit.st_succ]
      have ha := r.addr
      clear r h
      generalize (dumpUlpi maxAddr).st i n = s at *
      unfold dumpD at hl
      simp only [dumpUlpi]
      split at hl <;> rename_i hs <;> simp only [hs]
      all_goals first | omega | skip
      rw [if_pos (by omega)]
    | succ d ih =>
      rw [show n + 1 + (d + 1) = (n + 1 + d) + 1 from rfl, Circuit.st_succ]
      generalize (dumpUlpi maxAddr).st i (n + 1 + d) = s at *
      simp only [dumpUlpi, ih]
  have hs := hst (k - (n + 1))
  rw [show n + 1 + (k - (n + 1)) = k by omega] at hs
  simp only [Circuit.wave]
  generalize (dumpUlpi maxAddr).st i k = s at *
  simp [dumpUlpi, dumpX, xcvr, hs]

/-- C60: a byte offered stays until it is taken. -/
theorem C60_stable (maxAddr : Nat) (i : Nat → DumpIn) (n : Nat)
    (hv : ((dumpUlpi maxAddr).wave i n).valid = true) (hr : (i n).ready = false) :
    ((dumpUlpi maxAddr).wave i (n + 1)).valid = true ∧
    ((dumpUlpi maxAddr).wave i (n + 1)).data = ((dumpUlpi maxAddr).wave i n).data := by
  simp only [Circuit.wave, Circuit.st_succ] at *
  generalize (dumpUlpi maxAddr).st i n = s at *
  have hs : s.st = .outVal := by simpa [dumpUlpi] using hv
  simp [dumpUlpi, hs, hr]

/-- Waiting for an event: a state kept until the event is still there when the event happens. -/
theorem eventually_leave (P ev : Nat → Prop) (hstay : ∀ m, P m → ¬ ev m → P (m + 1)) :
    ∀ d n, P n → ev (n + d) → ∃ j, n ≤ j ∧ P j ∧ ev j := by
  intro d
  induction d with
  | zero => intro n hp he; exact ⟨n, Nat.le_refl _, hp, he⟩
  | succ d ih =>
    intro n hp he
    by_cases h : ev n
    · exact ⟨n, Nat.le_refl _, hp, h⟩
    · obtain ⟨j, hj, a, b⟩ := ih (n + 1) (hstay n hp h) (by rwa [show n + 1 + d = n + (d + 1) by omega])
      exact ⟨j, by omega, a, b⟩

/-- C60: the dump completes: if the power-on reset ends, the PHY keeps taking commands and answering, and the receiver
keeps taking bytes, exactly one byte per register is delivered. -/
theorem C60_completes (maxAddr : Nat) (hm : maxAddr < 64) (i : Nat → DumpIn)
    (hpor : ∃ k, (i k).porDone = true)
    (htake : ∀ n, ∃ k, n < k ∧ (i k).nxt = true ∧ (i k).dir = false ∧ (i (k - 1)).dir = false)
    (hans : ∀ n, ∃ k, n < k ∧ (i k).dir = true ∧ (i (k - 1)).dir = true)
    (hrdy : ∀ n, ∃ k, n < k ∧ (i k).ready = true) :
    ∃ n, (dumpDelivered i ((dumpUlpi maxAddr).wave i) n).length = maxAddr + 1 := by
  let s := fun n => (dumpUlpi maxAddr).st i n
  have hs : ∀ n, s (n + 1) = (dumpUlpi maxAddr).next (s n) (i n) := fun n => rfl
  have hdir : ∀ n, (s (n + 1)).x.dirR = (i n).dir := by
    intro n
    rw [hs]
    simp only [dumpUlpi]
    cases (s n).st <;> simp only <;> (repeat' split) <;> rfl
  have hval : ∀ n, (s (n + 1)).x.sValid = ((s n).x.dirR && (i n).dir) := by
    intro n
    rw [hs]
    simp only [dumpUlpi]
    cases (s n).st <;> simp only <;> (repeat' split) <;> rfl
  have hstp : ∀ n, (s n).x.stp = false := fun n => (dumpRel_run hm i n).stp
  -- one register
  have round : ∀ n a, (s n).st = .readCmd → (s n).addr = a →
      ∃ j, n < j ∧ (s j).st = .addrInc ∧ (s j).addr = a := by
    intro n a hst haddr
    obtain ⟨k, hk, h1, h2, h3⟩ := htake n
    obtain ⟨j, hj, ⟨p1, p2⟩, he⟩ := eventually_leave (fun m => (s m).st = .readCmd ∧ (s m).addr = a)
      (fun m => (i m).nxt = true ∧ (i m).dir = false ∧ (s m).x.dirR = false)
      (by
        intro m ⟨a1, a2⟩ hne
        rw [hs]
        have hr : (xcvr.out (s m).x (dumpX (s m) (i m))).ready = false := by
          have := hstp m
          cases hd : (s m).x.dirR <;> cases hx : (i m).dir <;> cases hn : (i m).nxt <;>
            simp_all [xcvr, dumpX]
        simp only [dumpUlpi, a1, hr]
        exact ⟨rfl, a2⟩) (k - n) n ⟨hst, haddr⟩
      (by
        rw [show n + (k - n) = k by omega]
        refine ⟨h1, h2, ?_⟩
        have := hdir (k - 1)
        rw [show k - 1 + 1 = k by omega] at this
        rw [this, h3])
    have hr : (xcvr.out (s j).x (dumpX (s j) (i j))).ready = true := by
      simp [xcvr, dumpX, he.1, he.2.1, he.2.2, hstp j]
    have q : (s (j + 1)).st = .readVal ∧ (s (j + 1)).addr = a := by
      rw [hs]; simp only [dumpUlpi, p1, hr]; exact ⟨rfl, p2⟩
    obtain ⟨k', hk', g1, g2⟩ := hans (j + 1)
    obtain ⟨j', hj', ⟨r1, r2⟩, he'⟩ := eventually_leave (fun m => (s m).st = .readVal ∧ (s m).addr = a)
      (fun m => (s m).x.sValid = true)
      (by
        intro m ⟨a1, a2⟩ hne
        simp only [Bool.not_eq_true] at hne
        rw [hs]
        have hv : (xcvr.out (s m).x (dumpX (s m) (i m))).sValid = false := hne
        simp only [dumpUlpi, a1, hv]
        exact ⟨rfl, a2⟩) (k' + 1 - (j + 1)) (j + 1) q
      (by
        rw [show j + 1 + (k' + 1 - (j + 1)) = k' + 1 by omega, hval, g1]
        have := hdir (k' - 1)
        rw [show k' - 1 + 1 = k' by omega] at this
        rw [this, g2]; rfl)
    have q' : (s (j' + 1)).st = .outVal ∧ (s (j' + 1)).addr = a := by
      rw [hs]
      have hv : (xcvr.out (s j').x (dumpX (s j') (i j'))).sValid = true := he'
      simp only [dumpUlpi, r1, hv]; exact ⟨rfl, r2⟩
    obtain ⟨k'', hk'', g⟩ := hrdy (j' + 1)
    obtain ⟨j'', hj'', ⟨t1, t2⟩, he''⟩ := eventually_leave (fun m => (s m).st = .outVal ∧ (s m).addr = a)
      (fun m => (i m).ready = true)
      (by
        intro m ⟨a1, a2⟩ hne
        simp only [Bool.not_eq_true] at hne
        rw [hs]
        simp only [dumpUlpi, a1, hne]
        exact ⟨rfl, a2⟩) (k'' - (j' + 1)) (j' + 1) q' (by rw [show j' + 1 + (k'' - (j' + 1)) = k'' by omega]; exact g)
    refine ⟨j'' + 1, by omega, ?_⟩
    rw [hs]; simp only [dumpUlpi, t1, he'']; exact ⟨rfl, t2⟩
  have start : ∃ n, (s n).st = .readCmd ∧ (s n).addr = 0 := by
    obtain ⟨k, hk⟩ := hpor
    obtain ⟨j, _, ⟨a1, a2⟩, he⟩ := eventually_leave (fun m => (s m).st = .reset ∧ (s m).addr = 0)
      (fun m => (i m).porDone = true)
      (by
        intro m ⟨a1, a2⟩ hne
        simp only [Bool.not_eq_true] at hne
        rw [hs]
        simp only [dumpUlpi, a1, hne]
        exact ⟨rfl, a2⟩) k 0 ⟨rfl, rfl⟩ (by rw [Nat.zero_add]; exact hk)
    refine ⟨j + 1, ?_⟩
    rw [hs]; simp only [dumpUlpi, a1, he]; exact ⟨rfl, a2⟩
  have climb : ∀ a, a ≤ maxAddr → ∃ n, (s n).st = .readCmd ∧ (s n).addr = a := by
    intro a
    induction a with
    | zero => intro _; exact start
    | succ a ih =>
      intro ha
      obtain ⟨n, h1, h2⟩ := ih (by omega)
      obtain ⟨j, _, h3, h4⟩ := round n a h1 h2
      refine ⟨j + 1, ?_⟩
      rw [hs]
      simp only [dumpUlpi, h3]
      rw [if_neg (by omega)]
      exact ⟨rfl, by show ((s j).addr + 1) % 2 ^ 6 = _; rw [h4]; exact Nat.mod_eq_of_lt (by omega)⟩
  obtain ⟨n, h1, h2⟩ := climb maxAddr (Nat.le_refl _)
  obtain ⟨j, _, h3, h4⟩ := round n maxAddr h1 h2
  refine ⟨j, ?_⟩
  rw [(dumpRel_run hm i j).len]
  show dumpD maxAddr (s j) = _
  simp only [dumpD, h3, h4]

/-- A PHY that takes commands and answers for ever. -/
def dumpDemo (n : Nat) : DumpIn :=
  ⟨[false, false, true, true, true].getD (n % 5) false, n % 5 == 1, 0x20 + n / 5, true, true⟩

example : dumpDelivered dumpDemo ((dumpUlpi 2).wave dumpDemo) 60 = [0x20, 0x22, 0x24] := by decide +kernel

/-- This PHY meets the hypotheses of `C60_completes`. -/
example : ∃ n, (dumpDelivered dumpDemo ((dumpUlpi 2).wave dumpDemo) n).length = 3 := by
  apply C60_completes 2 (by decide) dumpDemo ⟨0, rfl⟩
  · intro n
    have h1 : (5 * n + 6) % 5 = 1 := by omega
    have h0 : (5 * n + 6 - 1) % 5 = 0 := by omega
    exact ⟨5 * n + 6, by omega, by simp [dumpDemo, h1], by simp [dumpDemo, h1], by simp [dumpDemo, h0]⟩
  · intro n
    have h1 : (5 * n + 8) % 5 = 3 := by omega
    have h0 : (5 * n + 8 - 1) % 5 = 2 := by omega
    exact ⟨5 * n + 8, by omega, by simp [dumpDemo, h1], by simp [dumpDemo, h0]⟩
  · intro n
    exact ⟨n + 1, by omega, rfl⟩

/-- An RX CMD that arrives between the command and the register value is delivered as the value: the command flag is not
looked at. -/
example :
    let i : Nat → DumpIn := fun n => [⟨false, false, 0, true, true⟩, ⟨false, true, 0, true, true⟩,
      ⟨true, false, 0, true, true⟩, ⟨true, false, 0x4d, true, true⟩].getD n ⟨false, false, 0, true, true⟩
    dumpDelivered i ((dumpUlpi 0).wave i) 20 = [0x4d] := by decide +kernel

/-- With a last address beyond the six address bits the dump goes round for ever: more than `maxAddr + 1` bytes are
delivered (here 66 for `maxAddr = 64`). -/
theorem C60_wide_address_refuted :
    (dumpDelivered dumpDemo ((dumpUlpi 64).wave dumpDemo) 700).length > 65 := by decide +kernel

end Lambdalib
