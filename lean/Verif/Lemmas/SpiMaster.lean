import Verif.Lemmas.SpiSession
import Verif.Model.SpiMaster

/-! The SPI master and a device: lemmas. -/

namespace Lambdalib

section
variable (W nb div csDelay sw : Nat) (miso : Bool) (i : Nat → SpiLinkIn)

/-- A whole packet. -/
def isSpiPacket (c : List (Bool × Nat)) : Prop := ∃ q, q ≠ [] ∧ c = spiPacket q

/-- Words accepted `A`, pulses `E` and selections `S` so far. -/
def sessInv (A : List (Bool × Nat)) (E : List (Nat × Nat)) (S : List (List (Nat × Nat))) (prev : Bool) (csCnt : Nat)
    (str : SpiStrSt) : Prop :=
  ∃ (xs : List (List Nat × List (Nat × Nat))) (cp : List (Bool × Nat)) (cs : List (Nat × Nat)),
    (∀ x ∈ xs, x.1 ≠ [] ∧ x.2.map Prod.fst = spiSent W nb x.1) ∧
    A = (xs.map fun x => spiPacket x.1).flatten ++ cp ∧ E = (xs.map Prod.snd).flatten ++ cs ∧
    S = xs.map Prod.snd ++ (if prev then [] else [cs]) ∧ (prev = true → cp = [] ∧ cs = []) ∧
    (csCnt ≠ 0 → str ≠ .rx ∧ (prev = false → isSpiPacket cp)) ∧
    (csCnt = 0 → (str = .txRx → ∃ q : List Nat, cp = q.map fun d => (false, d)) ∧
      (str ≠ .txRx → prev = false ∧ isSpiPacket cp))

theorem sess_sent (xs : List (List Nat × List (Nat × Nat))) (h : ∀ x ∈ xs, x.1 ≠ [] ∧ x.2.map Prod.fst = spiSent W nb x.1) :
    (xs.map Prod.snd).flatten.map Prod.fst = spiSent W nb (((xs.map fun x => spiPacket x.1).flatten).map Prod.snd) := by
  induction xs with
  | nil => rfl
  | cons x xs ih =>
    rw [List.map_cons, List.map_cons, List.flatten_cons, List.flatten_cons, List.map_append, List.map_append, spiSent_append,
      ih fun y hy => h y (by simp [hy]), (h x (by simp)).2, spiPacket_snd]

/-- A cycle in which the chip is not selected. -/
theorem sess_high {A : List (Bool × Nat)} {E : List (Nat × Nat)} {S : List (List (Nat × Nat))} {prev : Bool} {csCnt : Nat}
    {str : SpiStrSt} (h : sessInv W nb A E S prev csCnt str) (hz : csCnt ≠ 0)
    (hd : E.map Prod.fst = spiSent W nb (A.map Prod.snd)) (csCnt' : Nat) (str' : SpiStrSt)
    (h1 : str' ≠ .rx) (h2 : csCnt' = 0 → str' = .txRx) : sessInv W nb A E S true csCnt' str' := by
  obtain ⟨xs, cp, cs, i1, i2, i3, i4, i5, i6, _⟩ := h
  obtain ⟨_, i6⟩ := i6 hz
  cases prev with
  | true =>
    obtain ⟨rfl, rfl⟩ := i5 rfl
    exact ⟨xs, [], [], i1, i2, i3, i4, fun _ => ⟨rfl, rfl⟩, fun _ => ⟨h1, fun h => nomatch h⟩, fun hc =>
      ⟨fun _ => ⟨[], rfl⟩, fun h => absurd (h2 hc) h⟩⟩
  | false =>
    obtain ⟨q, hq, rfl⟩ := i6 rfl
    have hs : cs.map Prod.fst = spiSent W nb q := by
      rw [i2, i3, List.map_append, List.map_append, spiSent_append, sess_sent W nb xs i1] at hd
      have := List.append_cancel_left hd
      rwa [spiPacket_snd] at this
    refine ⟨xs ++ [(q, cs)], [], [], ?_, by rw [i2]; simp, by rw [i3]; simp, by rw [i4]; simp, fun _ => ⟨rfl, rfl⟩,
      fun _ => ⟨h1, fun h => nomatch h⟩, fun hc => ⟨fun _ => ⟨[], rfl⟩, fun h => absurd (h2 hc) h⟩⟩
    intro x hx
    rcases List.mem_append.mp hx with hx | hx
    · exact i1 x hx
    · rw [List.mem_singleton.mp hx]
      exact ⟨hq, hs⟩

/-- A cycle in which the chip is selected. -/
theorem sess_low {A : List (Bool × Nat)} {E : List (Nat × Nat)} {S : List (List (Nat × Nat))} {prev : Bool} {str : SpiStrSt}
    (h : sessInv W nb A E S prev 0 str) (a : List (Bool × Nat)) (e : List (Nat × Nat)) (csCnt' : Nat) (str' : SpiStrSt)
    (S' : List (List (Nat × Nat)))
    (hS : S' = (if prev then S else S.dropLast) ++ [(if prev then [] else S.getLastD []) ++ e])
    (h1 : str = .idle → a = [] ∧ csCnt' ≠ 0 ∧ str' ≠ .rx)
    (h2 : str = .txRx → csCnt' = 0 ∧ ((a = [] ∧ str' = .txRx) ∨ (∃ d, a = [(false, d)] ∧ str' = .txRx) ∨ ∃ d, a = [(true, d)] ∧ str' = .rx))
    (h3 : str = .rx → a = [] ∧ csCnt' = 0 ∧ str' ≠ .txRx) :
    sessInv W nb (A ++ a) (E ++ e) S' false csCnt' str' := by
  obtain ⟨xs, cp, cs, i1, i2, i3, i4, i5, _, i7⟩ := h
  obtain ⟨i7, i8⟩ := i7 rfl
  have hS' : S' = xs.map Prod.snd ++ [cs ++ e] := by
    rw [hS, i4]
    cases prev
    · simp
    · obtain ⟨_, rfl⟩ := i5 rfl
      simp
  refine ⟨xs, cp ++ a, cs ++ e, i1, by rw [i2]; simp, by rw [i3]; simp, by rw [hS']; simp, nofun, ?_, ?_⟩
  · intro hz
    cases hs : str with
    | idle =>
      obtain ⟨rfl, _, h⟩ := h1 hs
      rw [List.append_nil]
      exact ⟨h, fun _ => (i8 (by rw [hs]; exact nofun)).2⟩
    | txRx => exact absurd (h2 hs).1 hz
    | rx => exact absurd (h3 hs).2.1 hz
  · intro hz
    cases hs : str with
    | idle => exact absurd hz (h1 hs).2.1
    | txRx =>
      obtain ⟨q, rfl⟩ := i7 hs
      obtain ⟨_, ⟨rfl, rfl⟩ | ⟨d, rfl, rfl⟩ | ⟨d, rfl, rfl⟩⟩ := h2 hs
      · exact ⟨fun _ => ⟨q, by simp⟩, fun h => absurd rfl h⟩
      · exact ⟨fun _ => ⟨q ++ [d], by simp⟩, fun h => absurd rfl h⟩
      · exact ⟨nofun, fun _ => ⟨rfl, q ++ [d], by simp, by rw [spiPacket_snoc]⟩⟩
    | rx =>
      obtain ⟨rfl, _, h⟩ := h3 hs
      rw [List.append_nil]
      exact ⟨fun h' => absurd h' h, fun _ => ⟨rfl, (i8 (by rw [hs]; exact nofun)).2⟩⟩

theorem link_csn (n : Nat) : linkCsN W nb div csDelay sw miso i n =
    !(((spiLink W nb div csDelay sw true miso).st i n).phy.csCnt == 0) := rfl

/-- No word is accepted while the chip is not selected. -/
theorem link_acc_high (n : Nat) (h : linkCsN W nb div csDelay sw miso i n = true) :
    linkAcc W nb div csDelay sw miso i (n + 1) = linkAcc W nb div csDelay sw miso i n := by
  have hr : ((spiLink W nb div csDelay sw true miso).wave i n).str.dReady = false := by
    cases hr : ((spiLink W nb div csDelay sw true miso).wave i n).str.dReady
    · rfl
    · have hr' : ((spiPhy W nb div csDelay).wave (linkPi W nb div csDelay sw miso i) n).ready = true := by
        rw [← link_pads]
        simp only [Circuit.wave, spiLink, spiStream, Bool.and_eq_true] at hr ⊢
        exact hr.1
      have := (C39_selected W nb div csDelay (linkPi W nb div csDelay sw miso i) n hr').1
      rw [← link_pads] at this
      exact absurd h (by rw [show linkCsN W nb div csDelay sw miso i n = false from this]; simp)
  rw [link_acc_succ, hr]
  simp

/-- The clock does not rise while the chip is not selected. -/
theorem link_no_stray (hc : SpiLinkCfg W nb sw) (n : Nat) (hcs : linkCsN W nb div csDelay sw miso i n = true) :
    edgeAt true (linkClk W nb div csDelay sw miso i) n = false := by
  have hd := link_deselected W nb div csDelay sw miso i hc n hcs
  rw [link_acc] at hd
  have hA : ∀ a ∈ (linkAcc W nb div csDelay sw miso i n).map (fun b => (b.1, (⟨b.2, W, nb, true⟩ : SpiWord))),
      ∃ d, a.2 = ⟨d, W, nb, true⟩ := by
    intro a ha
    obtain ⟨b, _, rfl⟩ := List.mem_map.mp ha
    exact ⟨b.2, rfl⟩
  cases hed : edgeAt true (linkClk W nb div csDelay sw miso i) n
  · rfl
  · exfalso
    have l1 := hd.snd_len W nb hA
    have l2 := congrArg List.length (link_pulses_succ W nb div csDelay sw miso i n)
    rw [hed] at l2
    have l0 : (linkPulses W nb div csDelay sw miso i n).length =
      (spiPulses W nb div csDelay (linkPi W nb div csDelay sw miso i) n).length := rfl
    simp only [if_true, List.length_append, List.length_singleton, l0, l1, List.length_map] at l2
    obtain ⟨A, e, cur, s1, s2, s3, _⟩ := link_spec W nb div csDelay sw miso i hc (n + 1)
    rw [link_acc_high W nb div csDelay sw miso i n hcs] at s1
    have sl := congrArg List.length s1
    simp only [List.length_append] at sl
    rw [l2] at s3
    rcases s2 with ⟨h, h'⟩ | ⟨h, h'⟩
    · rw [h, List.length_nil, Nat.add_zero] at sl
      rw [h', List.length_nil, sl] at s3
      omega
    · rw [h] at sl
      rw [sl, Nat.add_mul, Nat.one_mul] at s3
      omega

theorem link_T (hc : SpiLinkCfg W nb sw) : 0 < W / nb := Nat.div_pos (Nat.le_of_dvd hc.pos hc.dvd) hc.nb_pos

/-- When the chip is not selected, all words accepted have been sent. -/
theorem link_closed (hc : SpiLinkCfg W nb sw) (n : Nat) (h : linkCsN W nb div csDelay sw miso i n = true) :
    (linkPulses W nb div csDelay sw miso i n).map Prod.fst = spiSent W nb ((linkAcc W nb div csDelay sw miso i n).map Prod.snd) ∧
      (spiResults W nb div csDelay (linkPi W nb div csDelay sw miso i) n).map Prod.fst =
        (linkAcc W nb div csDelay sw miso i n).map Prod.fst ∧
      (spiResults W nb div csDelay (linkPi W nb div csDelay sw miso i) n).map (fun f => f.2 % 2 ^ W) =
        spiAnswer W nb ((linkPulses W nb div csDelay sw miso i n).map Prod.snd) :=
  (link_deselected W nb div csDelay sw miso i hc n h).closed (link_T W nb sw hc) _ (link_acc W nb div csDelay sw miso i n)

/-- The selections. -/
def linkSess (n : Nat) : List (List (Nat × Nat)) :=
  spiSessions (linkCsN W nb div csDelay sw miso i) (linkClk W nb div csDelay sw miso i)
    (fun k => (linkDq W nb div csDelay sw miso i k, (linkPi W nb div csDelay sw miso i k).dqI)) n

theorem link_sess_succ (n : Nat) : linkSess W nb div csDelay sw miso i (n + 1) =
    (if !linkCsN W nb div csDelay sw miso i n && edgeAt true (linkClk W nb div csDelay sw miso i) n then
      (spiSelect (!linkCsN W nb div csDelay sw miso i n && prevOf true (linkCsN W nb div csDelay sw miso i) n)
        (linkSess W nb div csDelay sw miso i n)).dropLast ++
      [(spiSelect (!linkCsN W nb div csDelay sw miso i n && prevOf true (linkCsN W nb div csDelay sw miso i) n)
        (linkSess W nb div csDelay sw miso i n)).getLastD [] ++
        [(linkDq W nb div csDelay sw miso i n, (linkPi W nb div csDelay sw miso i n).dqI)]]
    else spiSelect (!linkCsN W nb div csDelay sw miso i n && prevOf true (linkCsN W nb div csDelay sw miso i) n)
      (linkSess W nb div csDelay sw miso i n)) := rfl

theorem link_sess (hc : SpiLinkCfg W nb sw) (n : Nat) :
    sessInv W nb (linkAcc W nb div csDelay sw miso i n) (linkPulses W nb div csDelay sw miso i n)
      (linkSess W nb div csDelay sw miso i n) (prevOf true (linkCsN W nb div csDelay sw miso i) n)
      ((spiLink W nb div csDelay sw true miso).st i n).phy.csCnt ((spiLink W nb div csDelay sw true miso).st i n).str := by
  induction n with
  | zero => exact ⟨[], [], [], nofun, rfl, rfl, rfl, fun _ => ⟨rfl, rfl⟩, fun _ => ⟨nofun, nofun⟩, fun h => nomatch h⟩
  | succ n ih =>
    have hp : prevOf true (linkCsN W nb div csDelay sw miso i) (n + 1) = linkCsN W nb div csDelay sw miso i n := rfl
    have hst : ((spiLink W nb div csDelay sw true miso).st i (n + 1)).str =
        (spiStream W nb).next ((spiLink W nb div csDelay sw true miso).st i n).str (linkSi W nb div csDelay sw miso i n) := rfl
    have hcn : ((spiLink W nb div csDelay sw true miso).st i (n + 1)).phy.csCnt =
        (waitTimer (csDelay + 1)).next ((spiLink W nb div csDelay sw true miso).st i n).phy.csCnt
          (((spiLink W nb div csDelay sw true miso).st i n).str == .txRx || ((spiLink W nb div csDelay sw true miso).st i n).str == .rx) := rfl
    have hcs := link_csn W nb div csDelay sw miso i n
    rw [link_pulses_succ, hp, link_sess_succ, hst, hcn]
    simp only [spiSelect]
    cases hh : linkCsN W nb div csDelay sw miso i n
    · -- selected
      have hz : ((spiLink W nb div csDelay sw true miso).st i n).phy.csCnt = 0 := by
        rw [hh] at hcs
        simpa using hcs.symm
      have hacc : linkAcc W nb div csDelay sw miso i (n + 1) = linkAcc W nb div csDelay sw miso i n ++
        (if (linkSi W nb div csDelay sw miso i n).dValid && ((spiStream W nb).out ((spiLink W nb div csDelay sw true miso).st i n).str
          (linkSi W nb div csDelay sw miso i n)).dReady then
          [((linkSi W nb div csDelay sw miso i n).dLast, (linkSi W nb div csDelay sw miso i n).dData)] else []) := rfl
      rw [hacc]
      rw [hz] at ih ⊢
      refine sess_low W nb ih _ _ _ _ _ ?_ ?_ ?_ ?_
      · generalize linkSess W nb div csDelay sw miso i n = S at *
        have hne : prevOf true (linkCsN W nb div csDelay sw miso i) n = false → S ≠ [] := by
          intro hp
          obtain ⟨xs, cp, cs, _, _, _, i4, _⟩ := ih
          rw [i4, hp]
          simp
        cases hp : prevOf true (linkCsN W nb div csDelay sw miso i) n
        · have := hne hp
          cases edgeAt true (linkClk W nb div csDelay sw miso i) n
          · simp only [Bool.not_false, Bool.and_false, if_false, Bool.false_eq_true, List.append_nil]
            obtain ⟨l, x, rfl⟩ : ∃ l x, S = l ++ [x] := by
              rcases S.eq_nil_or_concat with h | ⟨l, x, h⟩
              · exact absurd h this
              · exact ⟨l, x, by rw [h, List.concat_eq_append]⟩
            simp
          · simp
        · cases edgeAt true (linkClk W nb div csDelay sw miso i) n <;> simp
      all_goals
        generalize ((spiLink W nb div csDelay sw true miso).st i n).str = str
        generalize linkSi W nb div csDelay sw miso i n = y
        obtain ⟨dv, dl, dd, dr, pr, pv, pl, pd⟩ := y
        rintro rfl
        simp only [spiStream, waitTimer]
      · cases dv <;> simp
      · cases dv <;> cases pr <;> cases dl <;> simp
      · cases pv <;> cases dr <;> cases pl <;> simp
    · -- not selected
      have hz : ((spiLink W nb div csDelay sw true miso).st i n).phy.csCnt ≠ 0 := by
        rw [hh] at hcs
        simpa using hcs.symm
      rw [link_no_stray W nb div csDelay sw miso i hc n hh, link_acc_high W nb div csDelay sw miso i n hh]
      simp only [Bool.not_true, Bool.false_and, Bool.false_eq_true, if_false, List.append_nil]
      have hnrx : ((spiLink W nb div csDelay sw true miso).st i n).str ≠ .rx := by
        obtain ⟨_, _, _, _, _, _, _, _, h, _⟩ := ih
        exact (h hz).1
      have hrd : (linkSi W nb div csDelay sw miso i n).pReady = false := by
        cases hr : (linkSi W nb div csDelay sw miso i n).pReady
        · rfl
        · have hr' : ((spiPhy W nb div csDelay).wave (linkPi W nb div csDelay sw miso i) n).ready = true := by
            rw [← link_pads]; exact hr
          have := (C39_selected W nb div csDelay (linkPi W nb div csDelay sw miso i) n hr').1
          rw [← link_pads] at this
          exact absurd hh (by rw [show linkCsN W nb div csDelay sw miso i n = false from this]; simp)
      refine sess_high W nb ih hz (link_closed W nb div csDelay sw miso i hc n hh).1 _ _ ?_ ?_
      all_goals
        generalize ((spiLink W nb div csDelay sw true miso).st i n).str = str at *
        generalize linkSi W nb div csDelay sw miso i n = y at *
        cases str <;> simp [spiStream, waitTimer, hrd] at hnrx ⊢
      cases y.dValid <;> simp

/-- Results are words. -/
theorem link_results_lt (n : Nat) : ∀ f ∈ spiResults W nb div csDelay (linkPi W nb div csDelay sw miso i) n, f.2 < 2 ^ W := by
  have h : ∀ n, ((spiPhy W nb div csDelay).st (linkPi W nb div csDelay sw miso i) n).srIn < 2 ^ W := by
    intro n
    refine (spiPhy W nb div csDelay).st_invariant (fun s => s.srIn < 2 ^ W) (Nat.two_pow_pos W) ?_ _ n
    intro s x hs
    simp only [spiPhy]
    split
    · exact Nat.mod_lt _ (Nat.two_pow_pos W)
    · exact hs
  induction n with
  | zero => nofun
  | succ n ih =>
    intro f hf
    have e1 : spiResults W nb div csDelay (linkPi W nb div csDelay sw miso i) (n + 1) =
      spiResults W nb div csDelay (linkPi W nb div csDelay sw miso i) n ++
      (if ((spiPhy W nb div csDelay).wave (linkPi W nb div csDelay sw miso i) n).fValid && true then
        [(((spiPhy W nb div csDelay).wave (linkPi W nb div csDelay sw miso i) n).fLast,
          ((spiPhy W nb div csDelay).wave (linkPi W nb div csDelay sw miso i) n).fData)] else []) := rfl
    rw [e1] at hf
    rcases List.mem_append.mp hf with hf | hf
    · exact ih f hf
    · split at hf
      · rw [List.mem_singleton.mp hf]
        exact h n
      · cases hf

/-- When the chip is not selected, all results have been taken. -/
theorem link_taken (hc : SpiLinkCfg W nb sw) (n : Nat) (h : linkCsN W nb div csDelay sw miso i n = true) :
    spiResults W nb div csDelay (linkPi W nb div csDelay sw miso i) n = linkPopped W nb div csDelay sw miso i n := by
  obtain ⟨o, h1, h2, _⟩ := link_inv W nb div csDelay sw miso i hc n
  rw [link_csn] at h
  rw [h2 (by simpa using h), List.append_nil] at h1
  have hf := link_fifo W nb div csDelay sw miso i hc n
  have hl := congrArg List.length (link_closed W nb div csDelay sw miso i hc n (by rw [link_csn]; exact h)).2.1
  have h1 := congrArg List.length h1
  have hf' := congrArg List.length hf
  simp only [List.length_map, List.length_append] at hl h1 hf'
  rw [hf, List.eq_nil_of_length_eq_zero (by omega : ((spiLink W nb div csDelay sw true miso).st i n).fifo.length = 0), List.append_nil]

/-- No word is accepted, and the clock does not rise, while the chip is not selected. -/
theorem link_high (hc : SpiLinkCfg W nb sw) (n : Nat) (h : linkCsN W nb div csDelay sw miso i n = true) :
    linkAcc W nb div csDelay sw miso i (n + 1) = linkAcc W nb div csDelay sw miso i n ∧
      linkPulses W nb div csDelay sw miso i (n + 1) = linkPulses W nb div csDelay sw miso i n ∧
      linkSess W nb div csDelay sw miso i (n + 1) = linkSess W nb div csDelay sw miso i n := by
  refine ⟨link_acc_high W nb div csDelay sw miso i n h, ?_, ?_⟩
  · rw [link_pulses_succ, link_no_stray W nb div csDelay sw miso i hc n h]
    simp
  · rw [link_sess_succ, h]
    rfl

/-- The state since the chip was last not selected. -/
def linkSince (n : Nat) : Prop :=
    ∃ m, m ≤ n ∧ linkCsN W nb div csDelay sw miso i m = true ∧ ∃ c cs,
      linkAcc W nb div csDelay sw miso i n = linkAcc W nb div csDelay sw miso i m ++ c ∧
      linkPulses W nb div csDelay sw miso i n = linkPulses W nb div csDelay sw miso i m ++ cs ∧
      linkSess W nb div csDelay sw miso i n = linkSess W nb div csDelay sw miso i m ++
        (if linkCsN W nb div csDelay sw miso i n || prevOf true (linkCsN W nb div csDelay sw miso i) n then [] else [cs]) ∧
      (prevOf true (linkCsN W nb div csDelay sw miso i) n = true → cs = []) ∧
      (linkCsN W nb div csDelay sw miso i n = true → m = n) ∧
      (linkCsN W nb div csDelay sw miso i n = false →
        (((spiLink W nb div csDelay sw true miso).st i n).str = .txRx → ∃ q : List Nat, c = q.map fun d => (false, d)) ∧
        (((spiLink W nb div csDelay sw true miso).st i n).str ≠ .txRx → isSpiPacket c))

theorem link_since (hc : SpiLinkCfg W nb sw) (n : Nat) : linkSince W nb div csDelay sw miso i n := by
  have base : ∀ n, linkCsN W nb div csDelay sw miso i n = true → linkSince W nb div csDelay sw miso i n := fun n h =>
    ⟨n, Nat.le_refl _, h, [], [], (List.append_nil _).symm, (List.append_nil _).symm, by rw [h]; simp, fun _ => rfl, fun _ => rfl,
      fun h' => by rw [h] at h'; cases h'⟩
  induction n with
  | zero => exact base 0 rfl
  | succ n ih =>
    cases hh' : linkCsN W nb div csDelay sw miso i (n + 1)
    case true => exact base (n + 1) hh'
    have hcs := link_csn W nb div csDelay sw miso i n
    have hcs' := link_csn W nb div csDelay sw miso i (n + 1)
    rw [hh'] at hcs'
    have hst : ((spiLink W nb div csDelay sw true miso).st i (n + 1)).str =
        (spiStream W nb).next ((spiLink W nb div csDelay sw true miso).st i n).str (linkSi W nb div csDelay sw miso i n) := rfl
    have hcn : ((spiLink W nb div csDelay sw true miso).st i (n + 1)).phy.csCnt =
        (waitTimer (csDelay + 1)).next ((spiLink W nb div csDelay sw true miso).st i n).phy.csCnt
          (((spiLink W nb div csDelay sw true miso).st i n).str == .txRx || ((spiLink W nb div csDelay sw true miso).st i n).str == .rx) := rfl
    have hz' : ((spiLink W nb div csDelay sw true miso).st i (n + 1)).phy.csCnt = 0 := by simpa using hcs'.symm
    rw [hcn] at hz'
    have hni : ((spiLink W nb div csDelay sw true miso).st i n).str ≠ .idle := by
      intro h
      rw [h] at hz'
      simp [waitTimer] at hz'
    cases hh : linkCsN W nb div csDelay sw miso i n
    · obtain ⟨m, hm, m1, c, cs, s1, s2, s3, s4, s5, s6⟩ := ih
      obtain ⟨s6, s7⟩ := s6 hh
      have hacc : linkAcc W nb div csDelay sw miso i (n + 1) = linkAcc W nb div csDelay sw miso i n ++
        (if (linkSi W nb div csDelay sw miso i n).dValid && ((spiStream W nb).out ((spiLink W nb div csDelay sw true miso).st i n).str
          (linkSi W nb div csDelay sw miso i n)).dReady then
          [((linkSi W nb div csDelay sw miso i n).dLast, (linkSi W nb div csDelay sw miso i n).dData)] else []) := rfl
      refine ⟨m, by omega, m1, c ++ _, cs ++ _, by rw [hacc, s1, List.append_assoc], by rw [link_pulses_succ, s2, List.append_assoc], ?_,
        fun h => ?_, fun h => absurd h (by rw [hh']; exact nofun), fun _ => ?_⟩
      · rw [link_sess_succ, hh', show prevOf true (linkCsN W nb div csDelay sw miso i) (n + 1) = linkCsN W nb div csDelay sw miso i n from rfl, hh, s3, hh]
        simp only [spiSelect]
        cases hp : prevOf true (linkCsN W nb div csDelay sw miso i) n
        · cases edgeAt true (linkClk W nb div csDelay sw miso i) n <;> simp
        · rw [s4 hp]
          cases edgeAt true (linkClk W nb div csDelay sw miso i) n <;> simp
      · replace h : linkCsN W nb div csDelay sw miso i n = true := h
        rw [hh] at h
        cases h
      · rw [hst]
        generalize ((spiLink W nb div csDelay sw true miso).st i n).str = str at *
        generalize linkSi W nb div csDelay sw miso i n = y
        obtain ⟨dv, dl, dd, dr, pr, pv, pl, pd⟩ := y
        cases str with
        | idle => exact absurd rfl hni
        | txRx =>
          obtain ⟨q, rfl⟩ := s6 rfl
          cases dv <;> cases pr <;> cases dl <;> simp [spiStream]
          · exact ⟨q ++ [dd], by simp⟩
          · exact ⟨q ++ [dd], by simp, by rw [spiPacket_snoc]⟩
        | rx =>
          have h := s7 nofun
          cases dv <;> cases pv <;> cases dr <;> cases pl <;> simpa [spiStream] using h
    · obtain ⟨a1, a2, a3⟩ := link_high W nb div csDelay sw miso i hc n hh
      have hz : ((spiLink W nb div csDelay sw true miso).st i n).phy.csCnt ≠ 0 := by
        rw [hh] at hcs
        simpa using hcs.symm
      refine ⟨n, by omega, hh, [], [], by rw [a1, List.append_nil], by rw [a2, List.append_nil], ?_, fun _ => rfl,
        fun h => absurd h (by rw [hh']; exact nofun), fun _ =>
        ⟨fun _ => ⟨[], rfl⟩, fun h => ?_⟩⟩
      · rw [a3, show prevOf true (linkCsN W nb div csDelay sw miso i) (n + 1) = linkCsN W nb div csDelay sw miso i n from rfl, hh]
        simp
      · exfalso
        have hnrx : ((spiLink W nb div csDelay sw true miso).st i n).str ≠ .rx := by
          obtain ⟨_, _, _, _, _, _, _, _, h, _⟩ := link_sess W nb div csDelay sw miso i hc n
          exact (h hz).1
        have hrd : (linkSi W nb div csDelay sw miso i n).pReady = false := by
          cases hr : (linkSi W nb div csDelay sw miso i n).pReady
          · rfl
          · have hr' : ((spiPhy W nb div csDelay).wave (linkPi W nb div csDelay sw miso i) n).ready = true := by
              rw [← link_pads]; exact hr
            have := (C39_selected W nb div csDelay (linkPi W nb div csDelay sw miso i) n hr').1
            rw [← link_pads] at this
            exact absurd hh (by rw [show linkCsN W nb div csDelay sw miso i n = false from this]; simp)
        rw [hst] at h
        generalize ((spiLink W nb div csDelay sw true miso).st i n).str = str at *
        cases str with
        | idle => exact hni rfl
        | txRx => simp [spiStream, hrd] at h
        | rx => exact hnrx rfl

/-! ### The end of a packet -/

theorem link_quiet_rx (s : SpiLinkS) (x : SpiLinkIn) (hq : linkQuiet s) (hs : s.str = .rx) :
    linkQuiet ((spiLink W nb div csDelay sw true miso).next s x) ∧
      ((spiLink W nb div csDelay sw true miso).next s x).fifo = (if x.avail && x.dReady then s.fifo.tail else s.fifo) := by
  obtain ⟨str, phy, fifo, slv⟩ := s
  obtain ⟨h1, h2, h3⟩ := hq
  simp only at h1 h2 h3 hs
  subst hs
  have hl : spiOutLoad div csDelay phy (spiLinkPhy W nb miso ⟨.rx, phy, fifo, slv⟩ x) = false := by
    simp [spiOutLoad, spiXfrEn, spiLinkPhy, spiStream]
  have hend : spiOutEnd div phy = false := by simp [spiOutEnd, spiOutShift, spiClkGen, spiPhyCk, h1]
  have hfv : (spiLinkPads W nb div csDelay miso ⟨.rx, phy, fifo, slv⟩ x).fValid = false := h3
  refine ⟨⟨?_, ?_, ?_⟩, ?_⟩
  · simp [spiLink, spiPhy, hl, hend, h1]
  · simp [spiLink, spiPhy, spiClkGen, spiPhyCk, h1]
  · simp [spiLink, spiPhy, spiInEnd, spiInShift, spiClkGen, h2]
  · simp only [spiLink, hfv]
    cases ha : x.avail <;> cases hd : x.dReady <;> cases fifo <;> simp [spiStream, spiLinkStr, ha, hd]

/-- With nothing going on in the master and the last result outstanding, there is a result in the FIFO. -/
theorem link_quiet_fifo (hc : SpiLinkCfg W nb sw) (m : Nat) (hq : linkQuiet ((spiLink W nb div csDelay sw true miso).st i m))
    (hs : ((spiLink W nb div csDelay sw true miso).st i m).str = .rx) :
    ((spiLink W nb div csDelay sw true miso).st i m).fifo ≠ [] := by
  intro hf
  obtain ⟨q1, q2, q3⟩ := hq
  obtain ⟨⟨_, A0, E0, hdone, hcase⟩, _⟩ := spi_inv W nb div csDelay (linkPi W nb div csDelay sw miso i) (link_ok div csDelay miso i hc) m
  rw [← link_phy] at hdone hcase
  rw [q3] at hdone
  simp only [Bool.false_eq_true, if_false, List.append_nil] at hdone
  have hA : spiAccepted W nb div csDelay (linkPi W nb div csDelay sw miso i) m = A0 := by
    rcases hcase with ⟨_, _, _, _, h, _⟩ | ⟨h1, _⟩ | ⟨h1, _⟩
    · exact h
    · rw [q1] at h1; cases h1
    · rw [q1] at h1; cases h1
  have hfl := hdone.flags
  rw [link_fifo W nb div csDelay sw miso i hc, ← hA, link_acc, hf] at hfl
  simp only [List.map_map, List.append_nil] at hfl
  obtain ⟨o, h1, h2⟩ := link_inv W nb div csDelay sw miso i hc m
  have : (linkAcc W nb div csDelay sw miso i m).map Prod.fst = (linkPopped W nb div csDelay sw miso i m).map Prod.fst := hfl.symm
  rw [this] at h1
  have ho : o = [] := by
    have := congrArg List.length h1
    simp at this
    exact this
  rw [hs, ho] at h2
  obtain ⟨o', h, _⟩ := h2.2
  simp at h

/-- After the last word of a packet, the chip is deselected. -/
theorem link_rx_ends (hc : SpiLinkCfg W nb sw) (hio : ∀ n, ∃ m, n ≤ m ∧ (i m).dReady = true ∧ (i m).avail = true) (n : Nat)
    (h : ((spiLink W nb div csDelay sw true miso).st i n).str = .rx) :
    ∃ m, n < m ∧ ((spiLink W nb div csDelay sw true miso).st i m).str = .idle ∧
      linkAcc W nb div csDelay sw miso i m = linkAcc W nb div csDelay sw miso i n := by
  apply Classical.byContradiction
  intro hno
  have hall : ∀ d, ((spiLink W nb div csDelay sw true miso).st i (n + d)).str = .rx ∧
      linkAcc W nb div csDelay sw miso i (n + d) = linkAcc W nb div csDelay sw miso i n := by
    intro d
    induction d with
    | zero => exact ⟨h, rfl⟩
    | succ d ih =>
      obtain ⟨h1, h2⟩ := ih
      have h3 : linkAcc W nb div csDelay sw miso i (n + d + 1) = linkAcc W nb div csDelay sw miso i n := by
        rw [link_acc_succ, h2]
        have : ((spiLink W nb div csDelay sw true miso).wave i (n + d)).str.dReady = false := by
          simp only [Circuit.wave]
          generalize (spiLink W nb div csDelay sw true miso).st i (n + d) = s at *
          simp [spiLink, spiStream, h1]
        rw [this]
        simp
      refine ⟨?_, h3⟩
      have h4 : ((spiLink W nb div csDelay sw true miso).st i (n + d + 1)).str = .rx ∨
          ((spiLink W nb div csDelay sw true miso).st i (n + d + 1)).str = .idle := by
        rw [Circuit.st_succ]
        generalize (spiLink W nb div csDelay sw true miso).st i (n + d) = s at *
        simp only [spiLink, spiStream, h1]
        split <;> simp
      rcases h4 with h4 | h4
      · exact h4
      · exact absurd ⟨n + d + 1, by omega, h4, h3⟩ hno
  have hrx : ∀ m, n ≤ m → ((spiLink W nb div csDelay sw true miso).st i m).str = .rx := fun m hm => by
    have := (hall (m - n)).1
    rwa [show n + (m - n) = m by omega] at this
  have hnr : ∀ m, n ≤ m → ((spiPhy W nb div csDelay).wave (linkPi W nb div csDelay sw miso i) m).ready = false := by
    intro m hm
    have h := hrx m hm
    rw [← link_pads]
    simp only [Circuit.wave]
    generalize (spiLink W nb div csDelay sw true miso).st i m = s at *
    simp [spiLink, spiLinkPads, spiPhy, spiOutLoad, spiXfrEn, spiLinkPhy, spiStream, h]
  obtain ⟨N, hN, hQ⟩ : ∃ N, n ≤ N ∧ linkQuiet ((spiLink W nb div csDelay sw true miso).st i N) := by
    obtain ⟨k, h | ⟨j, _, h⟩⟩ := spi_stops W nb div csDelay (linkPi W nb div csDelay sw miso i) (link_ok div csDelay miso i hc) n
    · refine ⟨n + k + 1, by omega, ?_⟩
      have hl := hnr (n + k) (by omega)
      have hpe : ((spiPhy W nb div csDelay).st (linkPi W nb div csDelay sw miso i) (n + k)).ck.pe = false := by
        obtain ⟨⟨_, _, _, _, hcase⟩, _⟩ := spi_inv W nb div csDelay (linkPi W nb div csDelay sw miso i) (link_ok div csDelay miso i hc) (n + k)
        rcases hcase with ⟨_, _, _, h4, _⟩ | ⟨h1, _⟩ | ⟨h1, _⟩
        · exact h4
        · rw [h] at h1; cases h1
        · rw [h] at h1; cases h1
      unfold linkQuiet
      rw [link_phy, Circuit.st_succ]
      simp only [Circuit.wave] at hl
      generalize (spiPhy W nb div csDelay).st (linkPi W nb div csDelay sw miso i) (n + k) = s at *
      have hl : spiOutLoad div csDelay s (linkPi W nb div csDelay sw miso i (n + k)) = false := hl
      have hend : spiOutEnd div s = false := by simp [spiOutEnd, spiOutShift, spiClkGen, spiPhyCk, h]
      refine ⟨?_, ?_, ?_⟩
      · simp [spiPhy, hl, hend, h]
      · simp [spiPhy, spiClkGen, spiPhyCk, h]
      · simp [spiPhy, spiInEnd, spiInShift, spiClkGen, hpe]
    · rw [hnr _ (by omega)] at h; cases h
  have hQall : ∀ d, linkQuiet ((spiLink W nb div csDelay sw true miso).st i (N + d)) := by
    intro d
    induction d with
    | zero => exact hQ
    | succ d ih =>
      rw [← Nat.add_assoc, Circuit.st_succ]
      exact (link_quiet_rx W nb div csDelay sw miso _ _ ih (hrx _ (by omega))).1
  have hq : ∀ m, N ≤ m → linkQuiet ((spiLink W nb div csDelay sw true miso).st i m) := fun m hm => by
    have := hQall (m - N)
    rwa [show N + (m - N) = m by omega] at this
  have hfifo : ∀ m, N ≤ m → ((spiLink W nb div csDelay sw true miso).st i (m + 1)).fifo =
      (if (i m).avail && (i m).dReady then ((spiLink W nb div csDelay sw true miso).st i m).fifo.tail
        else ((spiLink W nb div csDelay sw true miso).st i m).fifo) := fun m hm => by
    rw [Circuit.st_succ]
    exact (link_quiet_rx W nb div csDelay sw miso _ _ (hq m hm) (hrx m (by omega))).2
  have key : ∀ L m, N ≤ m → ((spiLink W nb div csDelay sw true miso).st i m).fifo.length = L → False := by
    intro L
    induction L with
    | zero =>
      intro m hm hf
      exact link_quiet_fifo W nb div csDelay sw miso i hc m (hq m hm) (hrx m (by omega)) (List.eq_nil_of_length_eq_zero hf)
    | succ L ih =>
      intro m hm hf
      obtain ⟨k, hk, hk1, hk2⟩ := hio m
      obtain ⟨j, hj, ⟨p1, p2⟩, p3, p4⟩ := eventually_leave
        (fun j => N ≤ j ∧ ((spiLink W nb div csDelay sw true miso).st i j).fifo.length = L + 1)
        (fun j => (i j).dReady = true ∧ (i j).avail = true) (by
          intro j ⟨a1, a2⟩ hne
          have hz : ((i j).avail && (i j).dReady) = false := by
            cases h1 : (i j).avail <;> cases h2 : (i j).dReady <;> simp_all
          refine ⟨by omega, ?_⟩
          rw [hfifo j a1, hz]
          exact a2) (k - m) m ⟨hm, hf⟩ (by rw [show m + (k - m) = k by omega]; exact ⟨hk1, hk2⟩)
      refine ih (j + 1) (by omega) ?_
      rw [hfifo j p1, p3, p4]
      simp [p2]
  exact key _ N (Nat.le_refl _) rfl

/-- If the last word accepted has `last`, there is a cycle with exactly these words accepted in which the chip is not selected. -/
theorem link_answered (hc : SpiLinkCfg W nb sw) (hio : ∀ n, ∃ m, n ≤ m ∧ (i m).dReady = true ∧ (i m).avail = true) (n : Nat)
    (A : List (Bool × Nat)) (d : Nat) (h : linkAcc W nb div csDelay sw miso i n = A ++ [(true, d)]) :
    ∃ m, linkCsN W nb div csDelay sw miso i m = true ∧ linkAcc W nb div csDelay sw miso i m = linkAcc W nb div csDelay sw miso i n := by
  have hidle : ∀ m, ((spiLink W nb div csDelay sw true miso).st i m).str = .idle →
      linkCsN W nb div csDelay sw miso i (m + 1) = true ∧
      linkAcc W nb div csDelay sw miso i (m + 1) = linkAcc W nb div csDelay sw miso i m := by
    intro m hm
    constructor
    · rw [link_csn, Circuit.st_succ]
      generalize (spiLink W nb div csDelay sw true miso).st i m = s at *
      simp [spiLink, spiPhy, waitTimer, spiLinkPhy, spiStream, hm]
    · rw [link_acc_succ]
      have : ((spiLink W nb div csDelay sw true miso).wave i m).str.dReady = false := by
        simp only [Circuit.wave]
        generalize (spiLink W nb div csDelay sw true miso).st i m = s at *
        simp [spiLink, spiStream, hm]
      rw [this]
      simp
  obtain ⟨m, _, hm, c, cs, s1, _, _, _, s5, s6⟩ := link_since W nb div csDelay sw miso i hc n
  cases hh : linkCsN W nb div csDelay sw miso i n
  · obtain ⟨s6, _⟩ := s6 hh
    cases hs : ((spiLink W nb div csDelay sw true miso).st i n).str with
    | idle => exact ⟨n + 1, (hidle n hs).1, (hidle n hs).2⟩
    | txRx =>
      obtain ⟨q, rfl⟩ := s6 hs
      rcases q.eq_nil_or_concat with rfl | ⟨q, e, rfl⟩
      · exact ⟨m, hm, by rw [s1]; simp⟩
      · rw [h, List.concat_eq_append, List.map_append, ← List.append_assoc] at s1
        have := (List.append_inj' s1 rfl).2
        simp at this
    | rx =>
      obtain ⟨k, _, k1, k2⟩ := link_rx_ends W nb div csDelay sw miso i hc hio n hs
      exact ⟨k + 1, (hidle k k1).1, by rw [(hidle k k1).2, k2]⟩
  · exact ⟨n, hh, rfl⟩

/-! ### The last clock pulse -/

/-- The clock is at rest, or the last pulse of a word has been high for more than `c` cycles. -/
def spiLate (c : Nat) (s : SpiPhyS) : Prop :=
  (s.running = false ∧ s.ck.clk = false) ∨ (s.running = true ∧ s.srOutCnt = 0 ∧ s.ck.clk = true ∧ c ≤ s.ck.cnt)

theorem spiLate.weaken {c d : Nat} {s : SpiPhyS} (h : spiLate c s) (hd : d ≤ c) : spiLate d s := by
  rcases h with h | ⟨h1, h2, h3, h4⟩
  · exact .inl h
  · exact .inr ⟨h1, h2, h3, by omega⟩

theorem spiLate.step {c : Nat} {s : SpiPhyS} (h : spiLate c s) (x : SpiPhyIn) (hcnt : s.ck.cnt ≤ div % 256)
    (hl : spiOutLoad div csDelay s x = false) : spiLate (c + 1) ((spiPhy W nb div csDelay).next s x) := by
  have hD : div % 2 ^ 8 = div % 256 := rfl
  rcases h with ⟨h1, h2⟩ | ⟨h1, h2, h3, h4⟩
  · left
    have hend : spiOutEnd div s = false := by simp [spiOutEnd, spiOutShift, spiClkGen, spiPhyCk, h1]
    constructor
    · simp [spiPhy, hl, hend, h1]
    · simp [spiPhy, spiClkGen, spiPhyCk, h1]
  · by_cases hlt : s.ck.cnt < div % 256
    · right
      have hsh : spiOutShift div s = false := by
        simp only [spiOutShift, spiClkGen, spiPhyCk, hD]
        have : (s.ck.cnt == div % 256) = false := by simp; omega
        rw [this]
        simp
      have hend : spiOutEnd div s = false := by simp [spiOutEnd, hsh]
      have hm : (s.ck.cnt + 1) % 2 ^ 8 = s.ck.cnt + 1 := by omega
      refine ⟨?_, ?_, ?_, ?_⟩
      · simp [spiPhy, hl, hend, h1]
      · simp [spiPhy, hl, hsh, h2]
      · simp only [spiPhy, spiClkGen, spiPhyCk, h1, if_true, hD, hlt, h3]
      · simp only [spiPhy, spiClkGen, spiPhyCk, h1, if_true, hD, hlt, hm]
        omega
    · left
      have he : s.ck.cnt = div % 256 := by omega
      have hend : spiOutEnd div s = true := by
        simp [spiOutEnd, spiOutShift, spiClkGen, spiPhyCk, h1, h2, h3, he]
      have hx : spiXfrEn csDelay s x = false := by simpa [spiOutLoad, hend] using hl
      constructor
      · simp [spiPhy, hl, hend, hx]
      · simp only [spiPhy, spiClkGen, spiPhyCk, h1, if_true, hD, hlt, if_false, h3]
        rfl

/-- With a result with `last` still to be taken, `SPIStream` waits for it. -/
theorem link_rx (hc : SpiLinkCfg W nb sw) (n : Nat) (r : List Bool)
    (h : (linkAcc W nb div csDelay sw miso i n).map Prod.fst = (linkPopped W nb div csDelay sw miso i n).map Prod.fst ++ r)
    (hr : true ∈ r) : ((spiLink W nb div csDelay sw true miso).st i n).str = .rx := by
  obtain ⟨o, h1, _, h2⟩ := link_inv W nb div csDelay sw miso i hc n
  rw [h] at h1
  have := List.append_cancel_left h1
  subst this
  cases hs : ((spiLink W nb div csDelay sw true miso).st i n).str with
  | idle => rw [hs] at h2; simp only at h2; rw [h2] at hr; cases hr
  | txRx => rw [hs] at h2; exact absurd hr h2
  | rx => rfl

theorem link_not_load (s : SpiLinkS) (x : SpiLinkIn) (h : s.str ≠ .txRx ∨ s.phy.csCnt ≠ 0) :
    spiOutLoad div csDelay s.phy (spiLinkPhy W nb miso s x) = false := by
  rcases h with h | h
  · have : (spiLinkPhy W nb miso s x).valid = false := by
      cases hs : s.str
      · simp [spiLinkPhy, spiStream, hs]
      · exact absurd hs h
      · simp [spiLinkPhy, spiStream, hs]
    simp [spiOutLoad, spiXfrEn, this]
  · have : (s.phy.csCnt == 0) = false := by simpa using h
    simp [spiOutLoad, spiXfrEn, waitTimer, this]

/-- How long the last clock pulse of a packet has been high. -/
def linkLate (s : SpiLinkS) : Prop :=
  (s.phy.fValid = true → s.phy.fLast = true → spiLate 1 s.phy) ∧ (true ∈ s.fifo.map Prod.fst → spiLate 2 s.phy) ∧
  (s.str = .idle → s.phy.csCnt = 0 → spiLate 3 s.phy) ∧ (s.phy.csCnt ≠ 0 → spiLate 4 s.phy)

theorem link_late (hc : SpiLinkCfg W nb sw) (n : Nat) : linkLate ((spiLink W nb div csDelay sw true miso).st i n) := by
  induction n with
  | zero => exact ⟨nofun, nofun, nofun, fun _ => .inl ⟨rfl, rfl⟩⟩
  | succ n ih =>
    obtain ⟨i1, i2, i3, i4⟩ := ih
    obtain ⟨⟨hcnt, A0, E0, hdone, hcase⟩, _⟩ := spi_inv W nb div csDelay (linkPi W nb div csDelay sw miso i)
      (link_ok div csDelay miso i hc) n
    rw [← link_phy] at hcnt hdone hcase
    have hfl := hdone.flags
    rw [link_fifo W nb div csDelay sw miso i hc] at hfl
    have hA : ∃ r, (spiAccepted W nb div csDelay (linkPi W nb div csDelay sw miso i) n).map Prod.fst = A0.map Prod.fst ++ r := by
      rcases hcase with ⟨_, _, _, _, h, _⟩ | ⟨_, _, h, _⟩ | ⟨_, last, w, m, e, _, h, _⟩
      · exact ⟨[], by rw [h]; simp⟩
      · exact ⟨[], by rw [h]; simp⟩
      · exact ⟨[last], by rw [h]; simp⟩
    have hacc : (spiAccepted W nb div csDelay (linkPi W nb div csDelay sw miso i) n).map Prod.fst =
        (linkAcc W nb div csDelay sw miso i n).map Prod.fst := by rw [link_acc, List.map_map]; rfl
    obtain ⟨r, hr⟩ := hA
    rw [hacc, ← hfl, List.map_append, List.map_append, List.append_assoc, List.append_assoc] at hr
    -- `last` outstanding
    have rx1 : true ∈ ((spiLink W nb div csDelay sw true miso).st i n).fifo.map Prod.fst →
        ((spiLink W nb div csDelay sw true miso).st i n).str = .rx := fun h =>
      link_rx W nb div csDelay sw miso i hc n _ hr (by simp only [List.mem_append]; exact .inl h)
    have rx2 : ((spiLink W nb div csDelay sw true miso).st i n).phy.fValid = true →
        ((spiLink W nb div csDelay sw true miso).st i n).phy.fLast = true →
        ((spiLink W nb div csDelay sw true miso).st i n).str = .rx := fun h h' =>
      link_rx W nb div csDelay sw miso i hc n _ hr (by rw [h, h']; simp)
    have rx3 : spiInEnd div ((spiLink W nb div csDelay sw true miso).st i n).phy = true →
        ((spiLink W nb div csDelay sw true miso).st i n).phy.lastR = true →
        ((spiLink W nb div csDelay sw true miso).st i n).str = .rx ∧ spiLate 0 ((spiLink W nb div csDelay sw true miso).st i n).phy := by
      intro h h'
      simp only [spiInEnd, spiInShift, spiClkGen, Bool.and_eq_true, beq_iff_eq] at h
      rcases hcase with ⟨_, _, _, hp, _⟩ | ⟨_, ht, _⟩ | ⟨hrun, last, w, m, e, hcur, h4, _⟩
      · rw [hp] at h; cases h.1
      · rw [ht.pe] at h; cases h.1
      · have hclk : ((spiLink W nb div csDelay sw true miso).st i n).phy.ck.clk = true := by
          cases hk : ((spiLink W nb div csDelay sw true miso).st i n).phy.ck.clk
          · have := (hcur.low hk).1; rw [h.1] at this; cases this
          · rfl
        have hl : last = true := by rw [← hcur.last, h']
        refine ⟨link_rx W nb div csDelay sw miso i hc n (((spiLink W nb div csDelay sw true miso).st i n).fifo.map Prod.fst ++
          ((if ((spiLink W nb div csDelay sw true miso).st i n).phy.fValid then
            [(((spiLink W nb div csDelay sw true miso).st i n).phy.fLast, ((spiLink W nb div csDelay sw true miso).st i n).phy.srIn)]
            else []).map Prod.fst ++ [true])) ?_ (by simp), .inr ⟨hrun, ?_, hclk, Nat.zero_le _⟩⟩
        · have := congrArg (List.map Prod.fst) h4
          rw [hacc, List.map_append, ← hfl, hl] at this
          rw [this]
          simp only [List.map_append, List.append_assoc, List.map_cons, List.map_nil]
        · rw [hcur.outCnt, ← (hcur.pe hclk h.1).2, ← hcur.inCnt]
          exact h.2
    rw [Circuit.st_succ]
    generalize (spiLink W nb div csDelay sw true miso).st i n = s at *
    have hstep : ∀ c, spiLate c s.phy → (s.str ≠ .txRx ∨ s.phy.csCnt ≠ 0) →
        spiLate (c + 1) ((spiLink W nb div csDelay sw true miso).next s (i n)).phy := fun c h h' =>
      h.step W nb div csDelay _ hcnt (link_not_load W nb div csDelay miso s (i n) h')
    refine ⟨?_, ?_, ?_, ?_⟩
    · intro h h'
      have h1 : spiInEnd div s.phy = true := h
      have h2 : (if spiInEnd div s.phy then s.phy.lastR else s.phy.fLast) = true := h'
      rw [h1, if_pos rfl] at h2
      obtain ⟨h3, h4⟩ := rx3 h1 h2
      exact hstep 0 h4 (.inl (by rw [h3]; exact nofun))
    · intro h
      have hn : ((spiLink W nb div csDelay sw true miso).next s (i n)).fifo =
        (if (spiLinkStr s (i n) (spiLinkPads W nb div csDelay miso s (i n)).ready).pValid && ((spiStream W nb).out s.str
          (spiLinkStr s (i n) (spiLinkPads W nb div csDelay miso s (i n)).ready)).pReady then s.fifo.tail else s.fifo) ++
        (if s.phy.fValid && decide (s.fifo.length < 8) then [(s.phy.fLast, s.phy.srIn)] else []) := rfl
      rw [hn, List.map_append] at h
      rcases List.mem_append.mp h with h | h
      · have h1 : true ∈ s.fifo.map Prod.fst := by
          split at h
          · rw [List.map_tail] at h
            exact List.mem_of_mem_tail h
          · exact h
        exact (hstep 2 (i2 h1) (.inl (by rw [rx1 h1]; exact nofun))).weaken (by omega)
      · split at h
        · rename_i hv
          simp only [Bool.and_eq_true] at hv
          have h1 : s.phy.fLast = true := by simpa using h
          exact hstep 1 (i1 hv.1 h1) (.inl (by rw [rx2 hv.1 h1]; exact nofun))
        · cases h
    · intro h h'
      cases hs : s.str with
      | idle =>
        exfalso
        simp [spiLink, spiPhy, waitTimer, spiLinkPhy, spiStream, hs] at h'
      | txRx =>
        exfalso
        simp only [spiLink, spiStream, hs] at h
        split at h <;> cases h
      | rx =>
        have h1 : true ∈ s.fifo.map Prod.fst := by
          simp only [spiLink, spiStream, spiLinkStr, hs] at h
          split at h
          · rename_i hv
            simp only [Bool.and_eq_true] at hv
            generalize s.fifo = q at hv
            cases q with
            | nil => simp at hv
            | cons a l => simp at hv; simp [hv.2]
          · cases h
        exact hstep 2 (i2 h1) (.inl (by rw [hs]; exact nofun))
    · intro h
      by_cases hz : s.phy.csCnt = 0
      · have hs : s.str = .idle := by
          cases hs : s.str with
          | idle => rfl
          | txRx => simp [spiLink, spiPhy, waitTimer, spiLinkPhy, spiStream, hs, hz] at h
          | rx => simp [spiLink, spiPhy, waitTimer, spiLinkPhy, spiStream, hs, hz] at h
        exact hstep 3 (i3 hs hz) (.inl (by rw [hs]; exact nofun))
      · exact (hstep 4 (i4 hz) (.inr hz)).weaken (by omega)

theorem link_release (hc : SpiLinkCfg W nb sw) (hd : div % 256 ≤ 3) (n : Nat) (h : linkCsN W nb div csDelay sw miso i n = true) :
    linkClk W nb div csDelay sw miso i n = false := by
  obtain ⟨_, _, _, i4⟩ := link_late W nb div csDelay sw miso i hc n
  rw [link_csn] at h
  obtain ⟨⟨hcnt, _⟩, _⟩ := spi_inv W nb div csDelay (linkPi W nb div csDelay sw miso i) (link_ok div csDelay miso i hc) n
  rw [← link_phy] at hcnt
  rcases i4 (by simpa using h) with h | ⟨_, _, _, h⟩
  · exact h.2
  · omega

end

end Lambdalib
