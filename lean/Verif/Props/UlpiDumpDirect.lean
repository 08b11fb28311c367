import Verif.Spec.UlpiDumpDirect
import Verif.Lemmas.CrossDomain
import Verif.Props.Ulpi
import Verif.Props.UlpiDump

/-! C118: the register dump as a whole, with a PHY. -/

namespace Lambdalib

/-- Dump and PHY: state of the dump, address, value, `dir` at the latest edge, `stp`, received byte; state of the PHY; bytes taken. -/
structure DumpPhyRel (maxAddr : Nat) (R : Nat → Nat) (st : DumpSt) (addr data : Nat) (x : XcvrS) (p : RegPhySt)
    (D : List Nat) : Prop where
  le : addr ≤ maxAddr
  stp : x.stp = false
  taken : D = (List.range (match st with | .addrInc | .done => addr + 1 | _ => addr)).map R
  start : st = .reset → addr = 0
  ended : st = .done → addr = maxAddr
  ack : p = .ack → st = .readCmd ∧ x.dirR = false
  val : st = .readVal →
    (p = .turn (R addr) ∧ x.sValid = false ∧ x.dirR = false) ∨ (p = .send (R addr) ∧ x.sValid = false ∧ x.dirR = true) ∨
    (x.sValid = true ∧ x.sData = R addr)
  out : st = .outVal → data = R addr

set_option maxHeartbeats 1000000 in
theorem dumpPhyRel_step {maxAddr : Nat} (hm : maxAddr < 64) {R : Nat → Nat} {s : DumpS} {p : RegPhySt} {D : List Nat}
    (h : DumpPhyRel maxAddr R s.st s.addr s.data s.x p D) (x : DumpIn) (hd : x.dir = p.pins.1) (hn : x.nxt = p.pins.2.1)
    (hi : x.dataI = p.pins.2.2) (w : RegPhyWish) :
    let o := (dumpUlpi maxAddr).out s x
    let s' := (dumpUlpi maxAddr).next s x
    DumpPhyRel maxAddr R s'.st s'.addr s'.data s'.x (p.step R w o.o) (D ++ (if o.valid && x.ready then [o.data] else [])) := by
  obtain ⟨st, addr, data, ⟨dirR, stp, sValid, sData, sCmd⟩⟩ := s
  obtain ⟨dir, nxt, dataI, porDone, ready⟩ := x
  obtain ⟨hle, hstp, htk, hst, hen, hack, hval, hout⟩ := h
  dsimp only at *
  subst hd hn hi hstp htk
  have ha : addr < 64 := by omega
  have hor : (0xc0 ||| addr) = 0xc0 + addr := by
    have : ∀ a, a < 64 → (0xc0 ||| a) = 0xc0 + a := by decide
    exact this addr ha
  have hq : (192 + addr) / 64 = 3 := by omega
  have hr : (192 + addr) % 64 = addr := by omega
  have hstep : ∀ w' o', p ≠ .ack → o' = 0 → p.step R w' o' ≠ .ack := by
    intro w' o' hp ho
    subst ho
    cases p <;> cases w' <;> simp [RegPhySt.step] at hp ⊢
  have hne : st ≠ .readCmd → p ≠ .ack := fun h1 h2 => h1 (hack h2).1
  cases st with
  | readCmd =>
    cases p with
    | ack =>
      obtain ⟨_, h1⟩ := hack rfl
      subst h1
      constructor <;> simp [dumpUlpi, dumpX, xcvr, RegPhySt.pins, RegPhySt.step, hor, hr, hle]
    | idle =>
      cases dirR <;> cases w <;> constructor <;>
        simp [dumpUlpi, dumpX, xcvr, RegPhySt.pins, RegPhySt.step, hor, hq, hle]
    | turn b => cases dirR <;> constructor <;> simp [dumpUlpi, dumpX, xcvr, RegPhySt.pins, RegPhySt.step, hle]
    | send b => cases dirR <;> cases w <;> constructor <;> simp [dumpUlpi, dumpX, xcvr, RegPhySt.pins, RegPhySt.step, hle]
  | reset =>
    have h0 := hst rfl
    subst h0
    have hp := hstep w 0 (hne (by simp)) rfl
    have e : ∀ q, (dumpUlpi maxAddr).out ⟨.reset, 0, data, ⟨dirR, false, sValid, sData, sCmd⟩⟩ q
      = ⟨!dirR && !q.dir, 0, false, false, data, false⟩ := by
      intro q; simp [dumpUlpi, dumpX, xcvr]
    rw [e]
    cases porDone <;> constructor <;> simp [dumpUlpi, dumpX, xcvr, hp]
  | readVal =>
    have hp := hstep w 0 (hne (by simp)) rfl
    have e : ∀ q, (dumpUlpi maxAddr).out ⟨.readVal, addr, data, ⟨dirR, false, sValid, sData, sCmd⟩⟩ q
      = ⟨!dirR && !q.dir, 0, false, false, data, false⟩ := by
      intro q; simp [dumpUlpi, dumpX, xcvr]
    rw [e]
    rcases hval rfl with ⟨rfl, rfl, rfl⟩ | ⟨rfl, rfl, rfl⟩ | ⟨rfl, rfl⟩
    · constructor <;> simp [dumpUlpi, dumpX, xcvr, RegPhySt.pins, RegPhySt.step, hle]
    · constructor <;> simp [dumpUlpi, dumpX, xcvr, RegPhySt.pins, hp, hle]
    · constructor <;> simp [dumpUlpi, dumpX, xcvr, hp, hle]
  | outVal =>
    have hp := hstep w 0 (hne (by simp)) rfl
    have h0 := hout rfl
    subst h0
    have e : ∀ q, (dumpUlpi maxAddr).out ⟨.outVal, addr, R addr, ⟨dirR, false, sValid, sData, sCmd⟩⟩ q
      = ⟨!dirR && !q.dir, 0, false, true, R addr, false⟩ := by
      intro q; simp [dumpUlpi, dumpX, xcvr]
    rw [e]
    cases ready <;> constructor <;> simp [dumpUlpi, dumpX, xcvr, hp, hle, List.range_succ]
  | addrInc =>
    have hp := hstep w 0 (hne (by simp)) rfl
    have e : ∀ q, (dumpUlpi maxAddr).out ⟨.addrInc, addr, data, ⟨dirR, false, sValid, sData, sCmd⟩⟩ q
      = ⟨!dirR && !q.dir, 0, false, false, data, false⟩ := by
      intro q; simp [dumpUlpi, dumpX, xcvr]
    rw [e]
    by_cases hm' : addr = maxAddr
    · constructor <;> simp [dumpUlpi, dumpX, xcvr, hp, hm']
    · have h1 : (addr + 1) % 64 = addr + 1 := by omega
      have h2 : addr + 1 ≤ maxAddr := by omega
      constructor <;> simp [dumpUlpi, dumpX, xcvr, hp, hm', h1, h2]
  | done =>
    have hp := hstep w 0 (hne (by simp)) rfl
    have e : ∀ q, (dumpUlpi maxAddr).out ⟨.done, addr, data, ⟨dirR, false, sValid, sData, sCmd⟩⟩ q
      = ⟨!dirR && !q.dir, 0, false, false, data, false⟩ := by
      intro q; simp [dumpUlpi, dumpX, xcvr]
    rw [e]
    have h0 := hen rfl
    constructor <;> simp [dumpUlpi, dumpX, xcvr, hp, hle, h0]

section
variable (c2 c4 maxAddr : Nat) (R : Nat → Nat) (e : Nat → DumpEnv)

theorem dumpWithPhy_rel (hm : maxAddr < 64) (n : Nat) :
    let s := (dumpWithPhy c2 c4 maxAddr R).st e n
    DumpPhyRel maxAddr R s.1.2.st s.1.2.addr s.1.2.data s.1.2.x s.2 (dumpTaken ((dumpWithPhy c2 c4 maxAddr R).wave e) n) := by
  induction n with
  | zero => constructor <;> simp [dumpWithPhy, dumpDirect, dumpUlpi, xcvr, dumpTaken]
  | succ n ih =>
    intro s
    have hs : s = (dumpWithPhy c2 c4 maxAddr R).next ((dumpWithPhy c2 c4 maxAddr R).st e n) (e n) := rfl
    have ht : dumpTaken ((dumpWithPhy c2 c4 maxAddr R).wave e) (n + 1) = dumpTaken ((dumpWithPhy c2 c4 maxAddr R).wave e) n ++
      (if (((dumpWithPhy c2 c4 maxAddr R).wave e n).2.2.valid && (e n).edgeUlpi) && (e n).ready
        then [((dumpWithPhy c2 c4 maxAddr R).wave e n).2.2.data] else []) := rfl
    rw [ht]
    rw [Circuit.wave]
    clear_value s
    subst hs
    generalize dumpTaken ((dumpWithPhy c2 c4 maxAddr R).wave e) n = D at *
    generalize (dumpWithPhy c2 c4 maxAddr R).st e n = s at *
    have k1 : ((dumpWithPhy c2 c4 maxAddr R).next s (e n)).1.2
      = if (e n).edgeUlpi then (dumpUlpi maxAddr).next s.1.2 (dumpDirectCore c2 c4 s.1 (s.2.drive (e n))) else s.1.2 := rfl
    have k2 : ((dumpWithPhy c2 c4 maxAddr R).next s (e n)).2
      = if (e n).edgeUlpi then s.2.step R (e n).wish
        ((dumpUlpi maxAddr).out s.1.2 (dumpDirectCore c2 c4 s.1 (s.2.drive (e n)))).o else s.2 := rfl
    have k3 : ((dumpWithPhy c2 c4 maxAddr R).out s (e n)).2.2
      = (dumpUlpi maxAddr).out s.1.2 (dumpDirectCore c2 c4 s.1 (s.2.drive (e n))) := rfl
    rw [k1, k2, k3]
    cases he : (e n).edgeUlpi with
    | false => simpa using ih
    | true =>
      have := dumpPhyRel_step hm ih (dumpDirectCore c2 c4 s.1 (s.2.drive (e n))) rfl rfl rfl (e n).wish
      simp only [if_true, Bool.and_true]
      exact this

/-- C118: whatever the two clocks, the PHY and the user do, the bytes taken are the values of the registers from 0 on, in order, each
once. -/
theorem C118_values (hm : maxAddr < 64) (n : Nat) :
    dumpTaken ((dumpWithPhy c2 c4 maxAddr R).wave e) n <+: (List.range (maxAddr + 1)).map R := by
  have h := dumpWithPhy_rel c2 c4 maxAddr R e hm n
  rw [h.taken]
  have hle := h.le
  generalize (dumpWithPhy c2 c4 maxAddr R).st e n = s at *
  refine List.IsPrefix.map R ?_
  have hp : ∀ k, k ≤ maxAddr + 1 → List.range k <+: List.range (maxAddr + 1) := by
    intro k hk
    obtain ⟨d, hd⟩ := Nat.exists_eq_add_of_le hk
    rw [hd, List.range_add]
    exact List.prefix_append _ _
  apply hp
  cases s.1.2.st <;> dsimp only <;> omega

theorem dumpDirect_por (i : Nat → DumpDirectIn) (n : Nat) :
    (ulpiPor c2 c4).st (fun _ => ()) (edgeCount (fun k => (i k).edgeSync) n) = ((dumpDirect c2 c4 maxAddr).st i n).1 := by
  induction n with
  | zero => rfl
  | succ n ih =>
    have key : ∀ s x, ((dumpDirect c2 c4 maxAddr).next s x).1 = if x.edgeSync then (ulpiPor c2 c4).next s.1 () else s.1 :=
      fun _ _ => rfl
    have e1 : edgeCount (fun k => (i k).edgeSync) (n + 1)
      = edgeCount (fun k => (i k).edgeSync) n + (if (i n).edgeSync then 1 else 0) := rfl
    rw [Circuit.st_succ, key, e1]
    cases (i n).edgeSync with
    | false => exact ih
    | true =>
      show (ulpiPor c2 c4).st _ (edgeCount (fun k => (i k).edgeSync) n + 1) = _
      rw [Circuit.st_succ, ih]; rfl

theorem dumpDirect_porOut (i : Nat → DumpDirectIn) (h2 : c2 < 2 ^ 30) (h4 : c4 < 2 ^ 30) (n : Nat) :
    ((ulpiPor c2 c4).out ((dumpDirect c2 c4 maxAddr).st i n).1 ()).1
      = decide (edgeCount (fun k => (i k).edgeSync) n < c2 + 1) ∧
    ((ulpiPor c2 c4).out ((dumpDirect c2 c4 maxAddr).st i n).1 ()).2
      = decide (c2 + 1 + (c4 + 1) ≤ edgeCount (fun k => (i k).edgeSync) n) := by
  have h := C57_sequence c2 c4 h2 h4 (fun _ => ()) (edgeCount (fun k => (i k).edgeSync) n)
  rw [Circuit.wave, dumpDirect_por c2 c4 maxAddr] at h
  exact h

/-- C118: whatever the pins and the clock of the PHY do, the reset pin is high until the user's clock has had `c2 + 1` edges, and until it
has had `c4 + 1` more the bus is idle and nothing is offered. -/
theorem C118_reset (i : Nat → DumpDirectIn) (h2 : c2 < 2 ^ 30) (h4 : c4 < 2 ^ 30) (n : Nat) :
    let o := (dumpDirect c2 c4 maxAddr).wave i
    (o n).1 = decide (edgeCount (fun k => (i k).edgeSync) n < c2 + 1) ∧
    (edgeCount (fun k => (i k).edgeSync) n < c2 + 1 + (c4 + 1) →
      (o n).2.o = 0 ∧ (o n).2.stp = false ∧ (o n).2.valid = false) := by
  intro o
  have hrst : ∀ n, edgeCount (fun k => (i k).edgeSync) n < c2 + 1 + (c4 + 1) →
      ((dumpDirect c2 c4 maxAddr).st i n).2.st = .reset ∧ ((dumpDirect c2 c4 maxAddr).st i n).2.x.stp = false := by
    intro n
    induction n with
    | zero => intro _; exact ⟨rfl, rfl⟩
    | succ n ih =>
      intro hn
      have hle := edgeCount_mono (fun k => (i k).edgeSync) (show n ≤ n + 1 by omega)
      have ih := ih (by omega)
      have hp := (dumpDirect_porOut c2 c4 maxAddr i h2 h4 n).2
      rw [decide_eq_false (by omega)] at hp
      have key : ((dumpDirect c2 c4 maxAddr).st i (n + 1)).2 = if (i n).edgeUlpi
        then (dumpUlpi maxAddr).next ((dumpDirect c2 c4 maxAddr).st i n).2 (dumpDirectCore c2 c4 ((dumpDirect c2 c4 maxAddr).st i n) (i n))
        else ((dumpDirect c2 c4 maxAddr).st i n).2 := rfl
      have hx : (dumpDirectCore c2 c4 ((dumpDirect c2 c4 maxAddr).st i n) (i n)).porDone = false := hp
      rw [key]
      generalize dumpDirectCore c2 c4 ((dumpDirect c2 c4 maxAddr).st i n) (i n) = x at *
      generalize ((dumpDirect c2 c4 maxAddr).st i n).2 = s at *
      split
      · simp [dumpUlpi, dumpX, xcvr, ih.1, ih.2, hx]
      · exact ih
  have hp := (dumpDirect_porOut c2 c4 maxAddr i h2 h4 n).1
  have e1 : (o n).1 = (((dumpDirect c2 c4 maxAddr).st i n).2.st == .reset &&
    ((ulpiPor c2 c4).out ((dumpDirect c2 c4 maxAddr).st i n).1 ()).1) := rfl
  have e2 : (o n).2 = (dumpUlpi maxAddr).out ((dumpDirect c2 c4 maxAddr).st i n).2
    (dumpDirectCore c2 c4 ((dumpDirect c2 c4 maxAddr).st i n) (i n)) := rfl
  rw [e1, e2, hp]
  refine ⟨?_, fun h => ?_⟩
  · by_cases h : edgeCount (fun k => (i k).edgeSync) n < c2 + 1
    · rw [(hrst n (by omega)).1]; rfl
    · rw [decide_eq_false h, Bool.and_false]
  · obtain ⟨a, b⟩ := hrst n h
    generalize dumpDirectCore c2 c4 ((dumpDirect c2 c4 maxAddr).st i n) (i n) = x at *
    generalize ((dumpDirect c2 c4 maxAddr).st i n).2 = s at *
    simp [dumpUlpi, dumpX, xcvr, a, b]

theorem dumpWithPhy_direct (n : Nat) : ((dumpWithPhy c2 c4 maxAddr R).st e n).1
    = (dumpDirect c2 c4 maxAddr).st (fun k => ((dumpWithPhy c2 c4 maxAddr R).wave e k).1) n := by
  induction n with
  | zero => rfl
  | succ n ih => rw [Circuit.st_succ, Circuit.st_succ, ← ih]; rfl

/-- C118: the dump completes: if both clocks run, the PHY acknowledges every command at some time and the user takes bytes again and again,
the values of all registers up to the last are taken. -/
theorem C118_completes (hm : maxAddr < 64) (h2 : c2 < 2 ^ 30) (h4 : c4 < 2 ^ 30)
    (hsync : Recurs (fun n => (e n).edgeSync = true)) (huser : Recurs (fun n => (e n).edgeUlpi = true ∧ (e n).ready = true))
    (hack : ∀ n, ((dumpWithPhy c2 c4 maxAddr R).wave e n).2.2.cmd = true →
      ∃ m, n ≤ m ∧ ((dumpWithPhy c2 c4 maxAddr R).wave e m).1.nxt = true ∧ (e m).edgeUlpi = true) :
    ∃ n, dumpTaken ((dumpWithPhy c2 c4 maxAddr R).wave e) n = (List.range (maxAddr + 1)).map R := by
  let S := fun n => ((dumpWithPhy c2 c4 maxAddr R).st e n).1.2
  let p := fun n => ((dumpWithPhy c2 c4 maxAddr R).st e n).2
  let X := fun n => dumpDirectCore c2 c4 ((dumpWithPhy c2 c4 maxAddr R).st e n).1 ((p n).drive (e n))
  have hrel := dumpWithPhy_rel c2 c4 maxAddr R e hm
  have hS : ∀ n, S (n + 1) = if (e n).edgeUlpi then (dumpUlpi maxAddr).next (S n) (X n) else S n := fun n => rfl
  have hp : ∀ n, (e n).edgeUlpi = false → p (n + 1) = p n := by
    intro n h
    have k2 : p (n + 1) = if (e n).edgeUlpi then (p n).step R (e n).wish ((dumpUlpi maxAddr).out (S n) (X n)).o else p n := rfl
    rw [k2, h]; rfl
  -- the state is kept until an edge
  have hold : ∀ n, ∃ m, n ≤ m ∧ (e m).edgeUlpi = true ∧ S m = S n ∧ p m = p n := by
    intro n
    obtain ⟨m, hm', he, _⟩ := huser n
    obtain ⟨d, rfl⟩ := Nat.exists_eq_add_of_le hm'
    obtain ⟨j, hj, hP, hev⟩ := eventually_leave (fun k => S k = S n ∧ p k = p n) (fun k => (e k).edgeUlpi = true) (by
      intro k hk hne
      have hne' : (e k).edgeUlpi = false := by simpa using hne
      rw [hS, hne', hp k hne']
      exact hk) d n ⟨rfl, rfl⟩ he
    exact ⟨j, hj, hev, hP⟩
  -- power-on reset
  have s1 : ∃ n, (S n).st = .readCmd ∧ (S n).addr = 0 := by
    obtain ⟨N, _, hN⟩ := edge_exists (fun k => (e k).edgeSync) hsync (c2 + 1 + (c4 + 1))
    obtain ⟨m, hNm, he, _⟩ := huser N
    by_cases hst : ∃ k, k ≤ m ∧ (S k).st ≠ .reset
    · -- the first instant out of reset
      have : ∀ k, (S k).st ≠ .reset → ∃ j, (S j).st = .readCmd ∧ (S j).addr = 0 := by
        intro k
        induction k with
        | zero => intro h; exact absurd rfl h
        | succ k ih =>
          intro h
          by_cases hk : (S k).st = .reset
          · refine ⟨k + 1, ?_⟩
            have ha := (hrel k).start hk
            rw [hS] at h ⊢
            change (S k).addr = 0 at ha
            generalize S k = s at *
            generalize X k = x at *
            cases hek : (e k).edgeUlpi with
            | false => rw [hek] at h; exact absurd hk h
            | true =>
              rw [hek] at h
              simp only [if_true] at h ⊢
              cases hd : x.porDone <;> simp [dumpUlpi, hk, hd, ha] at h ⊢
          · exact ih hk
      obtain ⟨k, _, hk⟩ := hst
      exact this k hk
    · have hk : (S m).st = .reset := Classical.byContradiction fun h => hst ⟨m, Nat.le_refl m, h⟩
      have ha := (hrel m).start hk
      have hd : (X m).porDone = true := by
        have := (dumpDirect_porOut c2 c4 maxAddr (fun k => ((dumpWithPhy c2 c4 maxAddr R).wave e k).1) h2 h4 m).2
        rw [← dumpWithPhy_direct] at this
        have hmono := edgeCount_mono (fun k => (e k).edgeSync) hNm
        refine Eq.trans this (decide_eq_true ?_)
        show c2 + 1 + (c4 + 1) ≤ edgeCount (fun k => (e k).edgeSync) m
        omega
      refine ⟨m + 1, ?_⟩
      rw [hS, if_pos he]
      change (S m).addr = 0 at ha
      generalize S m = s at *
      generalize X m = x at *
      simp [dumpUlpi, hk, hd, ha]
  -- one register
  have s2 : ∀ n a, (S n).st = .readCmd → (S n).addr = a → ∃ m, (S m).st = .readVal ∧ (S m).addr = a := by
    intro n a h1 h3
    obtain ⟨m, hm', hn, he⟩ := hack n (by
      show ((S n).st == .readCmd) = true
      rw [h1]; rfl)
    obtain ⟨d, rfl⟩ := Nat.exists_eq_add_of_le hm'
    obtain ⟨j, _, ⟨h5, h6⟩, h7, h8⟩ := eventually_leave (fun k => (S k).st = .readCmd ∧ (S k).addr = a)
      (fun k => (X k).nxt = true ∧ (e k).edgeUlpi = true) (by
      intro k hk hne
      rw [hS]
      generalize S k = s at *
      generalize X k = x at *
      cases he : (e k).edgeUlpi with
      | false => exact hk
      | true =>
        have hx : x.nxt = false := by
          cases hx : x.nxt with
          | false => rfl
          | true => exact absurd ⟨hx, he⟩ hne
        simp [dumpUlpi, dumpX, xcvr, hk.1, hk.2, hx]) d n ⟨h1, h3⟩ ⟨hn, he⟩
    refine ⟨j + 1, ?_⟩
    have hpa : p j = .ack := by
      have hn : (p j).pins.2.1 = true := h7
      cases hpj : p j <;> rw [hpj] at hn <;> first | rfl | exact nomatch hn
    have hd := ((hrel j).ack hpa).2
    have hs := (hrel j).stp
    change (S j).x.dirR = false at hd
    change (S j).x.stp = false at hs
    have hxd : (X j).dir = false := by
      show (p j).pins.1 = false
      rw [hpa]; rfl
    rw [hS, if_pos h8]
    generalize S j = s at *
    generalize X j = x at *
    simp [dumpUlpi, dumpX, xcvr, h5, h6, h7, hd, hs, hxd]
  have s3 : ∀ n a, (S n).st = .readVal → (S n).addr = a → (S n).x.sValid = true →
      ∃ m, (S m).st = .outVal ∧ (S m).addr = a := by
    intro n a h1 h3 h5
    obtain ⟨m, _, he, h6, _⟩ := hold n
    refine ⟨m + 1, ?_⟩
    rw [hS, if_pos he, h6]
    generalize S n = s at *
    generalize X m = x at *
    simp [dumpUlpi, xcvr, h1, h3, h5]
  have s4 : ∀ n a, (S n).st = .readVal → (S n).addr = a → (S n).x.sValid = false → (S n).x.dirR = true → (∃ b, p n = .send b) →
      ∃ m, (S m).st = .outVal ∧ (S m).addr = a := by
    intro n a h1 h3 h5 h7 h8
    obtain ⟨m, _, he, h6, h9⟩ := hold n
    obtain ⟨b, hb⟩ := h8
    have hxd : (X m).dir = true := by
      show (p m).pins.1 = true
      rw [h9, hb]; rfl
    apply s3 (m + 1) a <;>
    · rw [hS, if_pos he, h6]
      generalize S n = s at *
      generalize X m = x at *
      simp [dumpUlpi, xcvr, dumpX, h1, h3, h5, h7, hxd]
  have s5 : ∀ n a, (S n).st = .readVal → (S n).addr = a → ∃ m, (S m).st = .outVal ∧ (S m).addr = a := by
    intro n a h1 h3
    rcases (hrel n).val h1 with ⟨h5, h6, h7⟩ | ⟨h5, h6, h7⟩ | ⟨h5, _⟩
    · obtain ⟨m, _, he, h8, h9⟩ := hold n
      have h6' : (S n).x.sValid = false := h6
      have h7' : (S n).x.dirR = false := h7
      have hpm : p m = .turn (R (S n).addr) := by rw [h9]; exact h5
      have hxd : (X m).dir = true := by
        show (p m).pins.1 = true
        rw [hpm]; rfl
      have k2 : p (m + 1) = if (e m).edgeUlpi then (p m).step R (e m).wish ((dumpUlpi maxAddr).out (S m) (X m)).o else p m := rfl
      rw [if_pos he, hpm] at k2
      refine s4 (m + 1) a ?_ ?_ ?_ ?_ ⟨_, k2⟩ <;>
      · rw [hS, if_pos he, h8]
        clear k2
        generalize S n = s at *
        generalize X m = x at *
        simp [dumpUlpi, xcvr, dumpX, h1, h3, h6', h7', hxd]
    · exact s4 n a h1 h3 h6 h7 ⟨_, h5⟩
    · exact s3 n a h1 h3 h5
  have s6 : ∀ n a, (S n).st = .outVal → (S n).addr = a → ∃ m, (S m).st = .addrInc ∧ (S m).addr = a := by
    intro n a h1 h3
    obtain ⟨m, hm', he, hr⟩ := huser n
    obtain ⟨d, rfl⟩ := Nat.exists_eq_add_of_le hm'
    obtain ⟨j, _, ⟨h5, h6⟩, h7, h8⟩ := eventually_leave (fun k => (S k).st = .outVal ∧ (S k).addr = a)
      (fun k => (X k).ready = true ∧ (e k).edgeUlpi = true) (by
      intro k hk hne
      rw [hS]
      generalize S k = s at *
      generalize X k = x at *
      cases he : (e k).edgeUlpi with
      | false => exact hk
      | true =>
        have hx : x.ready = false := by
          cases hx : x.ready with
          | false => rfl
          | true => exact absurd ⟨hx, he⟩ hne
        simp [dumpUlpi, hk.1, hk.2, hx]) d n ⟨h1, h3⟩ ⟨hr, he⟩
    refine ⟨j + 1, ?_⟩
    rw [hS, if_pos h8]
    generalize S j = s at *
    generalize X j = x at *
    simp [dumpUlpi, h5, h6, h7]
  have s7 : ∀ k n a, k = maxAddr - a → (S n).st = .readCmd → (S n).addr = a → ∃ m, (S m).st = .done := by
    intro k
    induction k with
    | zero =>
      intro n a hk h1 h3
      obtain ⟨n1, a1, b1⟩ := s2 n a h1 h3
      obtain ⟨n2, a2, b2⟩ := s5 n1 a a1 b1
      obtain ⟨n3, a3, b3⟩ := s6 n2 a a2 b2
      obtain ⟨m, _, he, h6, _⟩ := hold n3
      have hle := (hrel n3).le
      change (S n3).addr ≤ maxAddr at hle
      have hmax : a = maxAddr := by omega
      refine ⟨m + 1, ?_⟩
      rw [hS, if_pos he, h6]
      generalize S n3 = s at *
      generalize X m = x at *
      simp [dumpUlpi, a3, b3, hmax]
    | succ k ih =>
      intro n a hk h1 h3
      obtain ⟨n1, a1, b1⟩ := s2 n a h1 h3
      obtain ⟨n2, a2, b2⟩ := s5 n1 a a1 b1
      obtain ⟨n3, a3, b3⟩ := s6 n2 a a2 b2
      obtain ⟨m, _, he, h6, _⟩ := hold n3
      have hmax : a ≠ maxAddr := by omega
      have hmod : (a + 1) % 64 = a + 1 := by omega
      apply ih (m + 1) (a + 1) (by omega) <;>
      · rw [hS, if_pos he, h6]
        generalize S n3 = s at *
        generalize X m = x at *
        simp [dumpUlpi, a3, b3, hmax, hmod]
  obtain ⟨n, h1, h3⟩ := s1
  obtain ⟨m, hd⟩ := s7 _ n 0 rfl h1 h3
  refine ⟨m, ?_⟩
  have ht := (hrel m).taken
  have he := (hrel m).ended hd
  change ((dumpWithPhy c2 c4 maxAddr R).st e m).1.2.st = .done at hd
  rw [hd, he] at ht
  exact ht

/-- C118: if both clocks run, the user takes bytes again and again, and the PHY is not busy with RX CMDs for ever, all values arrive. -/
theorem C118_all (hm : maxAddr < 64) (h2 : c2 < 2 ^ 30) (h4 : c4 < 2 ^ 30)
    (hsync : Recurs (fun n => (e n).edgeSync = true)) (huser : Recurs (fun n => (e n).edgeUlpi = true ∧ (e n).ready = true))
    (N : Nat) (hquiet : ∀ n, N ≤ n → (e n).wish = .take) :
    ∃ n, dumpTaken ((dumpWithPhy c2 c4 maxAddr R).wave e) n = (List.range (maxAddr + 1)).map R := by
  refine C118_completes c2 c4 maxAddr R e hm h2 h4 hsync huser ?_
  let S := fun n => ((dumpWithPhy c2 c4 maxAddr R).st e n).1.2
  let p := fun n => ((dumpWithPhy c2 c4 maxAddr R).st e n).2
  let X := fun n => dumpDirectCore c2 c4 ((dumpWithPhy c2 c4 maxAddr R).st e n).1 ((p n).drive (e n))
  have hrel := dumpWithPhy_rel c2 c4 maxAddr R e hm
  have hS : ∀ n, S (n + 1) = if (e n).edgeUlpi then (dumpUlpi maxAddr).next (S n) (X n) else S n := fun n => rfl
  have hp : ∀ n, p (n + 1) = if (e n).edgeUlpi then (p n).step R (e n).wish ((dumpUlpi maxAddr).out (S n) (X n)).o else p n :=
    fun n => rfl
  have hxd : ∀ n, (X n).dir = (p n).pins.1 := fun _ => rfl
  have hxn : ∀ n, (X n).nxt = (p n).pins.2.1 := fun _ => rfl
  intro n hcmd
  refine Classical.byContradiction fun hno => ?_
  have hno' : ∀ m, n ≤ m → (e m).edgeUlpi = true → (X m).nxt = false := by
    intro m h1 h3
    cases h : (X m).nxt with
    | false => rfl
    | true => exact absurd ⟨m, h1, h, h3⟩ hno
  have hread : ∀ d, (S (n + d)).st = .readCmd := by
    intro d
    induction d with
    | zero =>
      have : ((S n).st == .readCmd) = true := hcmd
      simpa using this
    | succ d ih =>
      rw [← Nat.add_assoc, hS]
      cases he : (e (n + d)).edgeUlpi with
      | false => exact ih
      | true =>
        have hx := hno' (n + d) (by omega) he
        generalize S (n + d) = s at *
        generalize X (n + d) = x at *
        simp [dumpUlpi, dumpX, xcvr, ih, hx]
  have hnoack : ∀ m, n ≤ m → p m ≠ .ack := by
    intro m h1 h3
    obtain ⟨k, h5, h6, _⟩ := huser m
    obtain ⟨d, rfl⟩ := Nat.exists_eq_add_of_le h5
    obtain ⟨j, hj, hP, hev⟩ := eventually_leave (fun k => p k = .ack) (fun k => (e k).edgeUlpi = true) (by
      intro k hk hne
      have hne' : (e k).edgeUlpi = false := by simpa using hne
      rw [hp, hne']; exact hk) d m h3 h6
    have hx := hno' j (by omega) hev
    rw [hxn, hP] at hx
    exact nomatch hx
  -- the state is kept until an edge
  have hold : ∀ m, ∃ k, m ≤ k ∧ (e k).edgeUlpi = true ∧ S k = S m ∧ p k = p m := by
    intro m
    obtain ⟨k, h5, he, _⟩ := huser m
    obtain ⟨d, rfl⟩ := Nat.exists_eq_add_of_le h5
    obtain ⟨j, hj, hP, hev⟩ := eventually_leave (fun k => S k = S m ∧ p k = p m) (fun k => (e k).edgeUlpi = true) (by
      intro k hk hne
      have hne' : (e k).edgeUlpi = false := by simpa using hne
      rw [hS, hp, hne']
      exact hk) d m ⟨rfl, rfl⟩ he
    exact ⟨j, hj, hev, hP⟩
  have hst : ∀ m, n ≤ m → (S m).st = .readCmd := by
    intro m h
    obtain ⟨d, rfl⟩ := Nat.exists_eq_add_of_le h
    exact hread d
  have hstp : ∀ m, (S m).x.stp = false := fun m => (hrel m).stp
  have hdir : ∀ m, n ≤ m → (e m).edgeUlpi = true → (S (m + 1)).x.dirR = (p m).pins.1 := by
    intro m h1 he
    rw [hS, if_pos he, ← hxd]
    have a := hst m h1
    have b := hno' m h1 he
    generalize S m = s at *
    generalize X m = x at *
    simp [dumpUlpi, dumpX, xcvr, a, b]
  -- the bus is free: the command is seen
  have free : ∀ m, n ≤ m → N ≤ m → p m = .idle → (S m).x.dirR = false → False := by
    intro m h1 hN h3 h5
    obtain ⟨k, hk, he, h6, h7⟩ := hold m
    refine hnoack (k + 1) (by omega) ?_
    have hd : (X k).dir = false := by rw [hxd, h7, h3]; rfl
    rw [hp, if_pos he, h7, h3, hquiet k (by omega), h6]
    have a := hst m h1
    have b := hstp m
    have c := (hrel m).le
    change (S m).addr ≤ maxAddr at c
    generalize S m = s at *
    generalize X k = x at *
    have hor : (192 ||| s.addr) / 64 = 3 := by
      have : ∀ a, a < 64 → (192 ||| a) / 64 = 3 := by decide
      exact this s.addr (by omega)
    simp [RegPhySt.step, dumpUlpi, dumpX, xcvr, a, b, h5, hd, hor]
  have idle : ∀ m, n ≤ m → N ≤ m → p m = .idle → False := by
    intro m h1 hN h3
    obtain ⟨k, hk, he, h6, h7⟩ := hold m
    have hd := hdir k (by omega) he
    rw [h7, h3] at hd
    have hpk := hp k
    rw [if_pos he, h7, h3, hquiet k (by omega)] at hpk
    have hna := hnoack (k + 1) (by omega)
    refine free (k + 1) (by omega) (by omega) ?_ hd
    rw [hpk] at hna ⊢
    unfold RegPhySt.step at hna ⊢
    dsimp only at hna ⊢
    split
    · rename_i h; rw [if_pos h] at hna; exact absurd rfl hna
    · rfl
  have send : ∀ m b, n ≤ m → N ≤ m → p m = .send b → False := by
    intro m b h1 hN h3
    obtain ⟨k, hk, he, h6, h7⟩ := hold m
    refine idle (k + 1) (by omega) (by omega) ?_
    rw [hp, if_pos he, h7, h3, hquiet k (by omega)]; rfl
  have hM : n ≤ max n N ∧ N ≤ max n N := by omega
  cases hpm : p (max n N) with
  | ack => exact hnoack _ hM.1 hpm
  | idle => exact idle _ hM.1 hM.2 hpm
  | send b => exact send _ b hM.1 hM.2 hpm
  | turn b =>
    obtain ⟨k, hk, he, h6, h7⟩ := hold (max n N)
    refine send (k + 1) b (by omega) (by omega) ?_
    rw [hp, if_pos he, h7, hpm]; rfl

end

/-- A PHY that sends an RX CMD now and then; `sync` has every third instant, `ulpi` every second. -/
def dumpPhyDemo (n : Nat) : DumpEnv :=
  ⟨n % 3 == 0, n % 2 == 0, if n % 14 == 0 then .rxCmd 0x4d else .take, n % 4 == 0⟩

example : dumpTaken ((dumpWithPhy 1 2 2 (fun a => 0x20 + a)).wave dumpPhyDemo) 150 = [0x20, 0x21, 0x22] := by decide +kernel

/-- Surroundings that meet the hypotheses of `C118_all`. -/
example : ∃ n, dumpTaken ((dumpWithPhy (ulpiC2 100000000) (ulpiC4 100000000) 0x3f (fun a => 3 * a)).wave
      (fun n => ⟨true, n % 2 == 0, if n < 50 then .rxCmd 0x4d else .take, true⟩)) n
    = (List.range 64).map (fun a => 3 * a) := by
  have h : ulpiC2 100000000 = 200 ∧ ulpiC4 100000000 = 400000 := by decide +kernel
  rw [h.1, h.2]
  refine C118_all _ _ _ _ _ (by decide) (by decide) (by decide) (fun n => ⟨n, Nat.le_refl n, rfl⟩)
    (fun n => ⟨2 * n, by omega, by simp, rfl⟩) 50 (fun n hn => ?_)
  simp only
  rw [if_neg (by omega)]

end Lambdalib
