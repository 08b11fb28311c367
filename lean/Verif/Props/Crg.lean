import Verif.Model.Crg
import Verif.Props.PllInst

/-! The clock generator of the examples (C108). -/

namespace Lambdalib

section
variable {V O : Type} (k : PllKind V O)

/-- The calls made on the parameters. -/
def crgCalls (ulpi : Bool) : List PllCall := if ulpi then [] else [.add "usb" 12000000 0]

theorem crgPll_eq (ulpi : Bool) (r f : Rat) (s : Pll V O) (h : pllNew k "_ref" r "sync" f = .ok s)
    (hk : k.oMin ≤ 12000000 ∧ 12000000 ≤ k.oMax) (hm : k.maxOuts ≠ 0) :
    crgPll k ulpi r f = (pllRead k (pllRun k s (crgCalls ulpi))).map (fun x => (r.floor.toNat, x)) ∧
    pllAdds k s (crgCalls ulpi) = (if ulpi then [] else [("usb", 12000000, 0)]) := by
  have hs : s = ⟨"_ref", "sync", r.floor.toNat, f.floor.toNat, [], none⟩ := by
    unfold pllNew at h
    split at h
    · cases h
    · split at h
      · cases h
      · injection h with h; exact h.symm
  have hadd : pllAdd k s "usb" 12000000 0 =
      (.ok (), ⟨"_ref", "sync", r.floor.toNat, f.floor.toNat, [("usb", 12000000, 0)], none⟩) := by
    subst hs
    unfold pllAdd
    simp only [Option.isSome_none, Bool.false_eq_true, if_false, List.length_nil, List.map_nil, List.not_mem_nil,
      List.nil_append]
    rw [if_neg (not_not.mpr hk), if_neg (by norm_num), if_neg (fun h => hm h.symm)]
  unfold crgPll
  rw [h]
  cases ulpi with
  | true =>
    subst hs
    exact ⟨rfl, rfl⟩
  | false =>
    simp only [Bool.false_eq_true, if_false, hadd]
    constructor
    · simp only [crgCalls, Bool.false_eq_true, if_false, pllRun, pllCall, hadd, pllRead]
    · simp [crgCalls, pllAdds, pllOk, pllCall, hadd, Except.map]

end

/-! ### Clocks of the netlist -/

theorem crgNet_pad (P : CrgPrim) (ulpi rstPin : Bool) (pll : PrimDict) (f q : Rat) (hn : "_ref" ∉
    P.outs.filterMap (primDrives (dictGet pll))) :
    (crgNet ulpi rstPin pll).RunsAt P f "_ref" q ↔ q = f := by
  constructor
  · intro h
    cases h with
    | pad h => rfl
    | copy h r =>
      exfalso
      cases ulpi <;> cases rstPin <;> simp [crgNet] at h
    | pll hi r hk hd hq =>
      exact absurd (List.mem_filterMap.mpr ⟨_, hk, hd⟩) hn
  · rintro rfl
    exact .pad (by simp [crgNet])

theorem crgNet_pll (P : CrgPrim) (ulpi rstPin : Bool) (pll : PrimDict) (f q : Rat) (d : String)
    (hd : d = "sync" ∨ d = "usb") (hi : dictGet pll P.clkIn = some (.clock "_ref"))
    (hn : "_ref" ∉ P.outs.filterMap (primDrives (dictGet pll))) :
    (crgNet ulpi rstPin pll).RunsAt P f d q ↔
      ∃ pin ∈ P.outs, primDrives (dictGet pll) pin = some d ∧ P.freq (dictGet pll) f pin = some q := by
  constructor
  · intro h
    cases h with
    | pad h => exfalso; rcases hd with rfl | rfl <;> cases ulpi <;> cases rstPin <;> simp [crgNet] at h
    | copy h r => exfalso; rcases hd with rfl | rfl <;> cases ulpi <;> cases rstPin <;> simp [crgNet] at h
    | pll hi' r hk hd' hq =>
      have he : (crgNet ulpi rstPin pll).pll P.clkIn = dictGet pll P.clkIn := rfl
      rw [he, hi] at hi'
      injection hi' with hi'; injection hi' with hi'; subst hi'
      rw [crgNet_pad P ulpi rstPin pll _ _ hn] at r
      subst r
      exact ⟨_, hk, hd', hq⟩
  · rintro ⟨pin, hp, h1, h2⟩
    exact .pll hi ((crgNet_pad P ulpi rstPin pll f f hn).mpr rfl) hp h1 h2

theorem crgNet_io (P : CrgPrim) (rstPin : Bool) (pll : PrimDict) (f q : Rat)
    (hn : "usb_io" ∉ P.outs.filterMap (primDrives (dictGet pll))) :
    (crgNet false rstPin pll).RunsAt P f "usb_io" q ↔ (crgNet false rstPin pll).RunsAt P f "sync" q := by
  constructor
  · intro h
    cases h with
    | pad h => exfalso; cases rstPin <;> simp [crgNet] at h
    | copy h r =>
      rename_i e
      have : e = "sync" := by cases rstPin <;> simpa [crgNet] using h
      exact this ▸ r
    | pll hi r hk hd hq => exact absurd (List.mem_filterMap.mpr ⟨_, hk, hd⟩) hn
  · intro h
    exact .copy (by simp [crgNet]) h

/-- The signals driven, for a PLL that drives `sync`, and `usb` without ULPI. -/
theorem crgNet_driven (P : CrgPrim) (ulpi rstPin : Bool) (pll : PrimDict)
    (h : P.outs.filterMap (primDrives (dictGet pll)) = "sync" :: (if ulpi then [] else ["usb"])) :
    let c := crgNet ulpi rstPin pll
    (c.driven P).Nodup ∧ ∀ s, s ∈ c.driven P ↔ s ∈ c.signals ∧ ¬ (ulpi = true ∧ s = .clock "usb") := by
  dsimp only
  unfold CrgNet.driven
  rw [show (crgNet ulpi rstPin pll).pll = dictGet pll from rfl, h]
  cases ulpi <;> cases rstPin <;>
  · refine ⟨by simp [crgNet], ?_⟩
    intro s
    simp only [crgNet, CrgNet.signals]
    simp
    try grind

/-! ### Resets -/

theorem resetSync_st (a : Nat → Bool) (n : Nat) :
    resetSync.st a n = (decide (n = 0) || a (n - 1), decide (n ≤ 1) || a (n - 1) || a (n - 2)) := by
  induction n with
  | zero => rfl
  | succ n ih =>
    rw [Circuit.st_succ, ih]
    cases n with
    | zero => cases h : a 0 <;> simp [resetSync, h]
    | succ n => cases h : a (n + 1) <;> simp [resetSync, h]

theorem resetSync_wave (a : Nat → Bool) (n : Nat) :
    resetSync.wave a n = (decide (n ≤ 1) || a n || a (n - 1) || a (n - 2)) := by
  have := resetSync_st a n
  unfold Circuit.wave
  rw [this]
  cases a n <;> cases a (n - 1) <;> cases a (n - 2) <;> simp [resetSync]

/-- C108, resets, for either PLL: with or without ULPI and reset pad. `hold n` is "the PLL has no lock or the reset pad
is active" in cycle `n`. The `sync` domain is in reset in every cycle with `hold`, in the two cycles after, and in the
two first ones; without ULPI the two USB domains are in reset exactly as long as `hold`. -/
theorem C108_crg_reset (ulpi rstPin : Bool) (r f : Rat) (c : CrgNet)
    (hc : crgEcp ulpi rstPin r f = .ok c ∨ crgXil ulpi rstPin r f = .ok c) (env : Nat → CrgEnv)
    (rst : Nat → String → Bool) (hr : c.Run env rst) (n : Nat) :
    let hold := fun m => !(env m).locked || (rstPin && (env m).refRst)
    rst n "sync" = (decide (n ≤ 1) || hold n || hold (n - 1) || hold (n - 2)) ∧
    (ulpi = false → rst n "usb" = hold n ∧ rst n "usb_io" = hold n) ∧
    (ulpi = true → rst n "usb" = (env n).phyReset) ∧
    (rstPin = true → rst n "_ref" = (env n).refRst) := by
  obtain ⟨pll, rfl⟩ : ∃ pll, c = crgNet ulpi rstPin pll := by
    rcases hc with hc | hc
    · unfold crgEcp at hc
      split at hc <;> first | cases hc | skip
      exact ⟨_, rfl⟩
    · unfold crgXil at hc
      split at hc <;> first | cases hc | skip
      exact ⟨_, rfl⟩
  clear hc
  have href : rstPin = true → ∀ n, rst n "_ref" = (env n).refRst := by
    rintro rfl n
    exact hr.assign "_ref" .refRst (by cases ulpi <;> simp [crgNet]) n
  have harst : ∀ m, (crgArst rstPin).level (env m) (rst m) = (!(env m).locked || (rstPin && (env m).refRst)) := by
    intro m
    cases hp : rstPin with
    | false => simp [crgArst, CrgExpr.level]
    | true => simp [crgArst, CrgExpr.level, href hp m]
  dsimp only
  refine (⟨?_, ?_, ?_, fun h => href h n⟩ :
    rst n "sync" = (decide (n ≤ 1) || (!(env n).locked || (rstPin && (env n).refRst)) ||
      (!(env (n - 1)).locked || (rstPin && (env (n - 1)).refRst)) ||
      (!(env (n - 2)).locked || (rstPin && (env (n - 2)).refRst))) ∧
    (ulpi = false → rst n "usb" = (!(env n).locked || (rstPin && (env n).refRst)) ∧
      rst n "usb_io" = (!(env n).locked || (rstPin && (env n).refRst))) ∧
    (ulpi = true → rst n "usb" = (env n).phyReset) ∧
    (rstPin = true → rst n "_ref" = (env n).refRst))
  · rw [hr.sync (crgArst rstPin) "sync" (by simp [crgNet]) n, resetSync_wave]
    simp only [harst]
  · rintro rfl
    rw [hr.assign "usb" (crgArst rstPin) (by cases rstPin <;> simp [crgNet]) n,
      hr.assign "usb_io" (crgArst rstPin) (by cases rstPin <;> simp [crgNet]) n, harst]
    exact ⟨rfl, rfl⟩
  · rintro rfl
    exact hr.assign "usb" .phyReset (by cases rstPin <;> simp [crgNet]) n

/-! ### Clocks, ECP5 -/

/-- C108, clocks of the ECP5 version. Every accepted pair of frequencies gives a design in which each clock and reset of
its domains is driven exactly once and nothing else is (the `usb` clock with ULPI being left to the ULPI link); `sync`
runs at the legal PLL frequency closest to the one asked for; without ULPI `usb_io` runs at the same frequency, and
`usb` at the VCO frequency divided by a legal divider, at least 12 MHz and less than one divider step above it, and at
exactly 12 MHz if `sync` runs at 48 MHz. `f` is the actual frequency on the reference pad. Partial: that `usb_io` is at
48 MHz holds only if `sync` is, see `C108_usb_io_refuted`, and `usb` is at exactly 12 MHz only if that divides the VCO
frequency. -/
theorem C108_crg_ecp5_partial (ulpi rstPin : Bool) (refFreq syncFreq : Rat)
    (hr : 8000000 ≤ refFreq ∧ refFreq ≤ 400000000) (hs : 10000000 ≤ syncFreq ∧ syncFreq ≤ 400000000) :
    let I := refFreq.floor.toNat
    let F : Rat := syncFreq.floor
    ∃ c i b o, crgEcp ulpi rstPin refFreq syncFreq = .ok c ∧ EcpLegal I i b o ∧
      (∀ i' b' o', EcpLegal I i' b' o' → |ecpFreq I i b - F| ≤ |ecpFreq I i' b' - F|) ∧
      (c.driven ehxPrim).Nodup ∧
      (∀ s, s ∈ c.driven ehxPrim ↔ s ∈ c.signals ∧ ¬ (ulpi = true ∧ s = .clock "usb")) ∧
      c.pll "o_LOCK" = some .locked ∧ c.pll "i_RST" = some (if rstPin then .rst "_ref" else .const 0) ∧
      (∀ f q, c.RunsAt ehxPrim f "sync" q ↔ q = ecpFreq I i b * (f / I)) ∧
      (ulpi = false → (∀ f q, c.RunsAt ehxPrim f "usb_io" q ↔ q = ecpFreq I i b * (f / I)) ∧
        ∃ d : Nat, 1 ≤ d ∧ d ≤ 80 ∧
          (∀ f q, c.RunsAt ehxPrim f "usb" q ↔ q = ecpFreq I i b * o / d * (f / I)) ∧
          12000000 ≤ ecpFreq I i b * o / d ∧ ecpFreq I i b * o / d < 12000000 + 12000000 / d ∧
          (ecpFreq I i b = 48000000 → ecpFreq I i b * o / d = 12000000)) := by
  obtain ⟨s, hnew⟩ : ∃ s, pllNew ecp5 "_ref" refFreq "sync" syncFreq = .ok s := by
    unfold pllNew
    rw [if_neg (not_not.mpr (by simpa only [ecp5] using hr)), if_neg (not_not.mpr (by simpa only [ecp5] using hs))]
    exact ⟨_, rfl⟩
  obtain ⟨hpll, hadds⟩ := crgPll_eq ecp5 ulpi _ _ s hnew (by norm_num [ecp5]) (by norm_num [ecp5])
  obtain ⟨v, os, hread, hleg, hop, hbest⟩ := C50_ecp5 _ _ _ _ s hnew (crgCalls ulpi)
  obtain ⟨v1, p1, os1, hr1, hpin, -, hfreq, -, hclki, hlock, hrst, -⟩ :=
    C100_ecp5_partial _ _ _ _ s hnew (crgCalls ulpi) (!rstPin) false
  obtain ⟨v2, p2, os2, hr2, h75⟩ := C75_frequency_partial _ _ _ _ s hnew (crgCalls ulpi)
  obtain ⟨v3, p3, os3, hr3, -, hsl, -, -⟩ := C52_slots_ecp5 _ _ _ _ s hnew (crgCalls ulpi)
  rw [hread] at hr1 hr2 hr3
  simp only [Except.ok.injEq, Option.some.injEq, Prod.mk.injEq] at hr1 hr2 hr3
  obtain ⟨rfl, rfl, rfl⟩ := hr1
  obtain ⟨rfl, rfl, rfl⟩ := hr2
  obtain ⟨rfl, rfl, rfl⟩ := hr3
  rw [hread] at hpll
  have hcrg : crgEcp ulpi rstPin refFreq syncFreq = .ok (crgNet ulpi rstPin (ecpInst "_ref" refFreq.floor.toNat
      (!rstPin) false v ⟨"sync", v.op, v.opDiv, v.opDiv / 2, 0⟩ os)) := by
    unfold crgEcp; rw [hpll]; rfl
  rw [hadds] at hpin hsl
  dsimp only at hclki hlock hrst hpin hfreq h75
  generalize hg : ecpInst "_ref" refFreq.floor.toNat (!rstPin) false v ⟨"sync", v.op, v.opDiv, v.opDiv / 2, 0⟩ os = pll
    at hclki hlock hrst hpin hfreq hcrg
  have hbest' : ∀ i' b' o', EcpLegal refFreq.floor.toNat i' b' o' →
      |ecpFreq refFreq.floor.toNat v.iDiv v.fbDiv - (syncFreq.floor : Rat)| ≤
        |ecpFreq refFreq.floor.toNat i' b' - (syncFreq.floor : Rat)| := by
    intro i' b' o' h'
    rw [← hop]
    rcases hbest i' b' o' h' with h | ⟨h, -⟩
    · exact le_of_lt h
    · exact le_of_eq h
  refine ⟨_, v.iDiv, v.fbDiv, v.opDiv, hcrg, hleg, hbest', ?_⟩
  rw [← hop]
  have hrst' : dictGet pll "i_RST" = some (if rstPin then .rst "_ref" else .const 0) := by
    rw [hrst]; cases rstPin <;> rfl
  cases ulpi with
  | true =>
    simp only [if_true, List.map_nil, ehxPins, List.map_cons, padNone, List.length_cons, List.length_nil,
      List.cons_append, List.nil_append] at hpin hsl
    have hos : os = [] := by simpa using hsl
    subst hos
    simp only [ehxPins, List.map_cons, List.map_nil, padNone, List.length_cons, List.length_nil, List.cons_append,
      List.nil_append] at hfreq
    injection hpin with e0 e
    injection e with e1 e
    injection e with e2 e
    injection e with e3 e
    have hfm : ehxPrim.outs.filterMap (primDrives (dictGet pll)) = ["sync"] := by
      simp [ehxPrim, e0, e1, e2, e3]
    obtain ⟨hnd, hdr⟩ := crgNet_driven ehxPrim true rstPin pll (by rw [hfm]; rfl)
    refine ⟨hnd, hdr, hlock, hrst', ?_, by simp⟩
    intro f q
    rw [crgNet_pll ehxPrim true rstPin pll f q "sync" (.inl rfl) hclki (by rw [hfm]; decide)]
    have hf := hfreq f
    injection hf with f0 hf
    constructor
    · rintro ⟨pin, hp, hd, hq⟩
      simp only [ehxPrim, List.mem_cons, List.not_mem_nil, or_false] at hp
      rcases hp with rfl | rfl | rfl | rfl
      · have hq' : ehxFreq (dictGet pll) _ "p_CLKOP_ENABLE" "p_CLKOP_DIV" = some q := hq
        rw [f0] at hq'; injection hq' with hq'; exact hq'.symm
      · rw [e1] at hd; cases hd
      · rw [e2] at hd; cases hd
      · rw [e3] at hd; cases hd
    · rintro rfl
      exact ⟨"o_CLKOP", by simp [ehxPrim], e0, f0⟩
  | false =>
    simp only [Bool.false_eq_true, if_false, List.map_nil, ehxPins, List.map_cons, padNone, List.length_cons,
      List.length_nil, List.cons_append, List.nil_append] at hpin hsl
    obtain ⟨u, hos⟩ : ∃ u, os = [u] := by
      match os, hsl with
      | [], h => simp at h
      | [u], _ => exact ⟨u, rfl⟩
      | _ :: _ :: _, h => simp at h
    subst hos
    simp only [List.map_cons, List.map_nil, List.cons.injEq, Prod.mk.injEq, and_true] at hsl
    simp only [ehxPins, List.map_cons, List.map_nil, padNone, List.length_cons, List.length_nil, List.cons_append,
      List.nil_append] at hfreq
    injection hpin with e0 e
    injection e with e1 e
    injection e with e2 e
    injection e with e3 e
    have hfm : ehxPrim.outs.filterMap (primDrives (dictGet pll)) = ["sync", "usb"] := by
      simp [ehxPrim, e0, e1, e2, e3]
    obtain ⟨hnd, hdr⟩ := crgNet_driven ehxPrim false rstPin pll (by rw [hfm]; rfl)
    have hsync : ∀ f q, (crgNet false rstPin pll).RunsAt ehxPrim f "sync" q ↔
        q = v.op * (f / refFreq.floor.toNat) := by
      intro f q
      rw [crgNet_pll ehxPrim false rstPin pll f q "sync" (.inl rfl) hclki (by rw [hfm]; decide)]
      have hf := hfreq f
      injection hf with f0 hf
      constructor
      · rintro ⟨pin, hp, hd, hq⟩
        simp only [ehxPrim, List.mem_cons, List.not_mem_nil, or_false] at hp
        rcases hp with rfl | rfl | rfl | rfl
        · have hq' : ehxFreq (dictGet pll) _ "p_CLKOP_ENABLE" "p_CLKOP_DIV" = some q := hq
          rw [f0] at hq'; injection hq' with hq'; exact hq'.symm
        · rw [e1] at hd; injection hd with hd; exact absurd hd (by decide)
        · rw [e2] at hd; cases hd
        · rw [e3] at hd; cases hd
      · rintro rfl
        exact ⟨"o_CLKOP", by simp [ehxPrim], e0, f0⟩
    refine ⟨hnd, hdr, hlock, hrst', hsync, fun _ => ⟨?_, ?_⟩⟩
    · intro f q
      rw [crgNet_io ehxPrim rstPin pll f q (by rw [hfm]; decide)]
      exact hsync f q
    · obtain ⟨g1, g2, g3, g4, g5⟩ := h75 u (by simp)
      rw [hsl.2] at g3 g4 g5
      obtain ⟨d, hd⟩ : ∃ d : Nat, u.div = d := ⟨u.div.toNat, by omega⟩
      have hd' : (u.div : Rat) = (d : Rat) := by rw [hd]; simp
      rw [hd'] at g3 g4 g5
      simp only [Int.cast_natCast] at g3 g4 g5
      refine ⟨d, by omega, by omega, ?_, g3, by linarith, ?_⟩
      · intro f q
        rw [crgNet_pll ehxPrim false rstPin pll f q "usb" (.inr rfl) hclki (by rw [hfm]; decide)]
        have hf := hfreq f
        injection hf with f0 hf
        injection hf with f1 hf
        rw [hd'] at f1
        have hval : v.op * (f / refFreq.floor.toNat) * ((v.opDiv : Int) : Rat) / (d : Rat) =
            v.op * v.opDiv / d * (f / refFreq.floor.toNat) := by push_cast; ring
        rw [hval] at f1
        constructor
        · rintro ⟨pin, hp, hdd, hq⟩
          simp only [ehxPrim, List.mem_cons, List.not_mem_nil, or_false] at hp
          rcases hp with rfl | rfl | rfl | rfl
          · rw [e0] at hdd; injection hdd with hdd; exact absurd hdd (by decide)
          · have hq' : ehxFreq (dictGet pll) _ "p_CLKOS_ENABLE" "p_CLKOS_DIV" = some q := hq
            rw [f1] at hq'; injection hq' with hq'; exact hq'.symm
          · rw [e2] at hdd; cases hdd
          · rw [e3] at hdd; cases hdd
        · rintro rfl
          exact ⟨"o_CLKOS", by simp [ehxPrim], e1, f1⟩
      · intro h48
        refine g5 (4 * v.opDiv) ?_
        rw [h48]; push_cast; ring

/-! ### Clocks, Xilinx 7 series -/

/-- C108, clocks of the Xilinx version: as for the ECP5, but the divider of the `usb` clock is the quotient of VCO and
12 MHz, so that the clock runs at exactly 12 MHz if that is an integer up to 128, and otherwise the setting is illegal
and the clock does not run. -/
theorem C108_crg_xilinx_partial (ulpi rstPin : Bool) (refFreq syncFreq : Rat)
    (hr : 19000000 ≤ refFreq ∧ refFreq ≤ 800000000) (hs : 6250000 ≤ syncFreq ∧ syncFreq ≤ 800000000) :
    let I := refFreq.floor.toNat
    let F : Rat := syncFreq.floor
    ∃ c i m o, crgXil ulpi rstPin refFreq syncFreq = .ok c ∧ XilLegal I i m o ∧
      (∀ i' m' o', XilLegal I i' m' o' → |xilVco I i m / o - F| ≤ |xilVco I i' m' / o' - F|) ∧
      (c.driven pllePrim).Nodup ∧
      (∀ s, s ∈ c.driven pllePrim ↔ s ∈ c.signals ∧ ¬ (ulpi = true ∧ s = .clock "usb")) ∧
      c.pll "o_LOCKED" = some .locked ∧ c.pll "i_RST" = some (if rstPin then .rst "_ref" else .const 0) ∧
      (∀ f q, c.RunsAt pllePrim f "sync" q ↔ q = xilVco I i m / o * (f / I)) ∧
      (ulpi = false → (∀ f q, c.RunsAt pllePrim f "usb_io" q ↔ q = xilVco I i m / o * (f / I)) ∧
        ∀ f q, c.RunsAt pllePrim f "usb" q ↔
          (∃ d : Nat, 1 ≤ d ∧ d ≤ 128 ∧ xilVco I i m = 12000000 * d) ∧ q = 12000000 * (f / I)) := by
  obtain ⟨s, hnew⟩ : ∃ s, pllNew xilinx7 "_ref" refFreq "sync" syncFreq = .ok s := by
    unfold pllNew
    rw [if_neg (not_not.mpr (by simpa only [xilinx7] using hr)),
      if_neg (not_not.mpr (by simpa only [xilinx7] using hs))]
    exact ⟨_, rfl⟩
  obtain ⟨hpll, hadds⟩ := crgPll_eq xilinx7 ulpi _ _ s hnew (by norm_num [xilinx7]) (by norm_num [xilinx7])
  obtain ⟨v, os, hread, hleg, hop, hbest, hdiv, -⟩ := C51_xilinx_partial _ _ _ _ s hnew (crgCalls ulpi)
  obtain ⟨v1, p1, os1, hr1, hpin, -, hfreq, -, hclki, hlock, hrst, -⟩ :=
    C100_xilinx_partial _ _ _ _ s hnew (crgCalls ulpi) (!rstPin)
  obtain ⟨v3, p3, os3, hr3, -, hsl, -, -⟩ := C52_slots_xilinx _ _ _ _ s hnew (crgCalls ulpi)
  rw [hread] at hr1 hr3
  simp only [Except.ok.injEq, Option.some.injEq, Prod.mk.injEq] at hr1 hr3
  obtain ⟨rfl, rfl, rfl⟩ := hr1
  obtain ⟨rfl, rfl, rfl⟩ := hr3
  rw [hread] at hpll
  have hcrg : crgXil ulpi rstPin refFreq syncFreq = .ok (crgNet ulpi rstPin (xilInst "_ref" refFreq.floor.toNat
      (!rstPin) v ⟨"sync", v.out0, v.div0, 0⟩ os)) := by
    unfold crgXil; rw [hpll]; rfl
  rw [hadds] at hpin hsl
  dsimp only at hclki hlock hrst hpin hfreq
  generalize hg : xilInst "_ref" refFreq.floor.toNat (!rstPin) v ⟨"sync", v.out0, v.div0, 0⟩ os = pll
    at hclki hlock hrst hpin hfreq hcrg
  have hbest' : ∀ i' m' o', XilLegal refFreq.floor.toNat i' m' o' →
      |xilVco refFreq.floor.toNat v.divclk v.mult / v.div0 - (syncFreq.floor : Rat)| ≤
        |xilVco refFreq.floor.toNat i' m' / o' - (syncFreq.floor : Rat)| := by
    intro i' m' o' h'
    rw [← hop]
    rcases hbest i' m' o' h' with h | ⟨h, -⟩
    · exact le_of_lt h
    · exact le_of_eq h
  refine ⟨_, v.divclk, v.mult, v.div0, hcrg, hleg, hbest', ?_⟩
  rw [← hop]
  have hrst' : dictGet pll "i_RST" = some (if rstPin then .rst "_ref" else .const 0) := by
    rw [hrst]; cases rstPin <;> rfl
  cases ulpi with
  | true =>
    simp only [if_true, List.map_nil, pllePins, List.map_cons, padNone, List.length_cons, List.length_nil,
      List.cons_append, List.nil_append] at hpin hsl
    have hos : os = [] := by simpa using hsl
    subst hos
    simp only [pllePins, List.map_cons, List.map_nil, List.length_nil, List.cons_append, List.nil_append] at hfreq
    injection hpin with e0 e
    injection e with e1 e
    injection e with e2 e
    injection e with e3 e
    injection e with e4 e
    injection e with e5 e
    have hfm : pllePrim.outs.filterMap (primDrives (dictGet pll)) = ["sync"] := by
      simp [pllePrim, e0, e1, e2, e3, e4, e5]
    obtain ⟨hnd, hdr⟩ := crgNet_driven pllePrim true rstPin pll (by rw [hfm]; rfl)
    refine ⟨hnd, hdr, hlock, hrst', ?_, by simp⟩
    intro f q
    rw [crgNet_pll pllePrim true rstPin pll f q "sync" (.inl rfl) hclki (by rw [hfm]; decide)]
    have hf := hfreq f
    injection hf with f0 hf
    constructor
    · rintro ⟨pin, hp, hd, hq⟩
      simp only [pllePrim, List.mem_cons, List.not_mem_nil, or_false] at hp
      rcases hp with rfl | rfl | rfl | rfl | rfl | rfl
      · have hq' : plleFreq (dictGet pll) _ "p_CLKOUT0_DIVIDE" = some q := hq
        rw [f0] at hq'; injection hq' with hq'; exact hq'.symm
      · rw [e1] at hd; cases hd
      · rw [e2] at hd; cases hd
      · rw [e3] at hd; cases hd
      · rw [e4] at hd; cases hd
      · rw [e5] at hd; cases hd
    · rintro rfl
      exact ⟨"o_CLKOUT0", by simp [pllePrim], e0, f0⟩
  | false =>
    simp only [Bool.false_eq_true, if_false, List.map_nil, pllePins, List.map_cons, padNone, List.length_cons,
      List.length_nil, List.cons_append, List.nil_append] at hpin hsl
    obtain ⟨u, hos⟩ : ∃ u, os = [u] := by
      match os, hsl with
      | [], h => simp at h
      | [u], _ => exact ⟨u, rfl⟩
      | _ :: _ :: _, h => simp at h
    subst hos
    simp only [List.map_cons, List.map_nil, List.cons.injEq, Prod.mk.injEq, and_true] at hsl
    simp only [pllePins, List.map_cons, List.map_nil, List.length_cons, List.length_nil, List.cons_append,
      List.nil_append] at hfreq
    injection hpin with e0 e
    injection e with e1 e
    injection e with e2 e
    injection e with e3 e
    injection e with e4 e
    injection e with e5 e
    have hfm : pllePrim.outs.filterMap (primDrives (dictGet pll)) = ["sync", "usb"] := by
      simp [pllePrim, e0, e1, e2, e3, e4, e5]
    obtain ⟨hnd, hdr⟩ := crgNet_driven pllePrim false rstPin pll (by rw [hfm]; rfl)
    have hsync : ∀ f q, (crgNet false rstPin pll).RunsAt pllePrim f "sync" q ↔
        q = v.out0 * (f / refFreq.floor.toNat) := by
      intro f q
      rw [crgNet_pll pllePrim false rstPin pll f q "sync" (.inl rfl) hclki (by rw [hfm]; decide)]
      have hf := hfreq f
      injection hf with f0 hf
      constructor
      · rintro ⟨pin, hp, hd, hq⟩
        simp only [pllePrim, List.mem_cons, List.not_mem_nil, or_false] at hp
        rcases hp with rfl | rfl | rfl | rfl | rfl | rfl
        · have hq' : plleFreq (dictGet pll) _ "p_CLKOUT0_DIVIDE" = some q := hq
          rw [f0] at hq'; injection hq' with hq'; exact hq'.symm
        · rw [e1] at hd; injection hd with hd; exact absurd hd (by decide)
        · rw [e2] at hd; cases hd
        · rw [e3] at hd; cases hd
        · rw [e4] at hd; cases hd
        · rw [e5] at hd; cases hd
      · rintro rfl
        exact ⟨"o_CLKOUT0", by simp [pllePrim], e0, f0⟩
    refine ⟨hnd, hdr, hlock, hrst', hsync, fun _ => ⟨?_, ?_⟩⟩
    · intro f q
      rw [crgNet_io pllePrim rstPin pll f q (by rw [hfm]; decide)]
      exact hsync f q
    · have hu := hdiv u (by simp)
      rw [hsl.2] at hu
      have hlegal : primDivider u.div = true ↔
          ∃ d : Nat, 1 ≤ d ∧ d ≤ 128 ∧ xilVco refFreq.floor.toNat v.divclk v.mult = 12000000 * d := by
        rw [← hu]
        unfold primDivider
        simp only [Bool.and_eq_true, decide_eq_true_eq]
        constructor
        · rintro ⟨⟨h1, h2⟩, h3⟩
          have hz : ((u.div.num : Int) : Rat) = u.div := Rat.den_eq_one_iff _ |>.mp h1
          have hz1 : 1 ≤ u.div.num := by rw [← hz] at h2; exact_mod_cast h2
          have hz2 : u.div.num ≤ 128 := by rw [← hz] at h3; exact_mod_cast h3
          refine ⟨u.div.num.toNat, by omega, by omega, ?_⟩
          have : ((u.div.num.toNat : Nat) : Rat) = u.div := by
            rw [← hz]; exact_mod_cast Int.toNat_of_nonneg (by omega)
          rw [this]; ring
        · rintro ⟨d, h1, h2, h3⟩
          have : u.div = d := by linarith
          rw [this]
          exact ⟨⟨by simp, by exact_mod_cast h1⟩, by exact_mod_cast h2⟩
      intro f q
      rw [crgNet_pll pllePrim false rstPin pll f q "usb" (.inr rfl) hclki (by rw [hfm]; decide), ← hlegal]
      have hf := hfreq f
      injection hf with f0 hf
      injection hf with f1 hf
      rw [hsl.2] at f1
      constructor
      · rintro ⟨pin, hp, hdd, hq⟩
        simp only [pllePrim, List.mem_cons, List.not_mem_nil, or_false] at hp
        rcases hp with rfl | rfl | rfl | rfl | rfl | rfl
        · rw [e0] at hdd; injection hdd with hdd; exact absurd hdd (by decide)
        · have hq' : plleFreq (dictGet pll) _ "p_CLKOUT1_DIVIDE" = some q := hq
          rw [f1] at hq'
          by_cases hb : primDivider u.div = true
          · rw [if_pos hb] at hq'; injection hq' with hq'; exact ⟨hb, hq'.symm⟩
          · rw [if_neg hb] at hq'; cases hq'
        · rw [e2] at hdd; cases hdd
        · rw [e3] at hdd; cases hdd
        · rw [e4] at hdd; cases hdd
        · rw [e5] at hdd; cases hdd
      · rintro ⟨hb, rfl⟩
        rw [if_pos hb] at f1
        exact ⟨"o_CLKOUT1", by simp [pllePrim], e1, f1⟩

/-- C108 for `usb_io` fails at the clock frequency of the examples: without ULPI, from 100 MHz to 100 MHz, `usb_io` runs
at 100 MHz and not at 48 MHz. -/
theorem C108_usb_io_refuted : ∃ c, crgEcp false true 100000000 100000000 = .ok c ∧
    ∀ q, c.RunsAt ehxPrim 100000000 "usb_io" q ↔ q = 100000000 := by
  obtain ⟨c, i, b, o, hc, hleg, hbest, -, -, -, -, -, hio⟩ :=
    C108_crg_ecp5_partial false true ((100000000 : Nat) : Rat) ((100000000 : Nat) : Rat) (by norm_num) (by norm_num)
  refine ⟨c, by exact_mod_cast hc, ?_⟩
  replace hio := hio rfl
  simp only [floor_natCast, Int.toNat_natCast, Int.cast_natCast] at hbest hio
  have hl : EcpLegal 100000000 1 1 6 := by constructor <;> norm_num [ecpFreq]
  have h := hbest 1 1 6 hl
  have h0 : |ecpFreq 100000000 1 1 - ((100000000 : Nat) : Rat)| = 0 := by norm_num [ecpFreq]
  rw [h0] at h
  have h1 := abs_eq_zero.mp (le_antisymm h (abs_nonneg _))
  intro q
  rw [hio.1 100000000 q]
  have h2 : ecpFreq 100000000 i b = 100000000 := by push_cast at h1; linarith
  rw [h2]
  norm_num

/-- C108 for `usb` fails on Xilinx for some reference frequencies even at 48 MHz: from 24.75 MHz the only settings with
exactly 48 MHz have the VCO at 1584 MHz, which is not divided down to 12 MHz by a legal divider. -/
theorem C108_xilinx_usb_refuted : ∃ c, crgXil false true 24750000 48000000 = .ok c ∧
    (∀ q, c.RunsAt pllePrim 24750000 "sync" q ↔ q = 48000000) ∧ ∀ q, ¬ c.RunsAt pllePrim 24750000 "usb" q := by
  obtain ⟨c, i, m, o, hc, hleg, hbest, -, -, -, -, hsync, hio⟩ :=
    C108_crg_xilinx_partial false true ((24750000 : Nat) : Rat) ((48000000 : Nat) : Rat) (by norm_num) (by norm_num)
  refine ⟨c, by exact_mod_cast hc, ?_⟩
  replace hio := hio rfl
  simp only [floor_natCast, Int.toNat_natCast, Int.cast_natCast] at hbest hio hsync hleg
  have hl : XilLegal 24750000 1 64 33 := by constructor <;> norm_num [xilVco]
  have h := hbest 1 64 33 hl
  have h0 : |xilVco 24750000 1 64 / ((33 : Nat) : Rat) - ((48000000 : Nat) : Rat)| = 0 := by norm_num [xilVco]
  rw [h0] at h
  have h1 := abs_eq_zero.mp (le_antisymm h (abs_nonneg _))
  have ho : (0 : Rat) < o := by exact_mod_cast hleg.div0R.1
  have hi : (0 : Rat) < i := by exact_mod_cast hleg.divclkR.1
  have h2 : xilVco 24750000 i m = 48000000 * o := by
    have : xilVco 24750000 i m / o = 48000000 := by push_cast at h1; linarith
    rw [div_eq_iff (ne_of_gt ho)] at this; exact this
  constructor
  · intro q
    rw [hsync, h2, mul_div_assoc, div_self (ne_of_gt ho)]
    norm_num
  · intro q hq
    obtain ⟨⟨d, hd1, hd2, hd⟩, -⟩ := (hio.2 24750000 q).mp hq
    have e1 : 33 * m = 64 * o * i := by
      have : (24750000 : Rat) * m = 48000000 * o * i := by
        have := h2
        unfold xilVco at this
        rw [div_eq_iff (ne_of_gt hi)] at this
        exact_mod_cast this
      have h3 : (24750000 * m : Nat) = 48000000 * o * i := by exact_mod_cast this
      have : 48000000 * o * i = 48000000 * (o * i) := by ring
      have : 64 * o * i = 64 * (o * i) := by ring
      omega
    have hm := hleg.multR
    have e2 : m = 64 := by
      have : 64 * o * i = 64 * (o * i) := by ring
      generalize o * i = t at this
      omega
    subst e2
    have e3 : o * i = 33 := by
      have : 64 * o * i = 64 * (o * i) := by ring
      omega
    have e4 : d = 4 * o := by
      have : (48000000 : Rat) * o = 12000000 * d := by rw [← h2, hd]
      have : 48000000 * o = 12000000 * d := by exact_mod_cast this
      omega
    have hv := hleg.vco
    rw [h2] at hv
    have : 800000000 ≤ 48000000 * o := by exact_mod_cast hv.1
    have ho2 : 17 ≤ o := by omega
    have hi1 : i ≤ 1 := by
      by_contra hi2
      have := Nat.mul_le_mul ho2 (show 2 ≤ i by omega)
      omega
    have : o = 33 := by
      have : i = 0 ∨ i = 1 := by omega
      rcases this with rfl | rfl <;> omega
    omega

/-- Full speed USB from a 100 MHz reference with `sync` at 48 MHz: all clocks as intended. -/
example : ∃ c, crgEcp false true 100000000 48000000 = .ok c ∧
    (∀ q, c.RunsAt ehxPrim 100000000 "usb_io" q ↔ q = 48000000) ∧
    ∀ q, c.RunsAt ehxPrim 100000000 "usb" q ↔ q = 12000000 := by
  obtain ⟨c, i, b, o, hc, hleg, hbest, -, -, -, -, -, hio⟩ :=
    C108_crg_ecp5_partial false true ((100000000 : Nat) : Rat) ((48000000 : Nat) : Rat) (by norm_num) (by norm_num)
  refine ⟨c, by exact_mod_cast hc, ?_⟩
  replace hio := hio rfl
  simp only [floor_natCast, Int.toNat_natCast, Int.cast_natCast] at hbest hio
  have hl : EcpLegal 100000000 25 12 12 := by constructor <;> norm_num [ecpFreq]
  have h := hbest 25 12 12 hl
  have h0 : |ecpFreq 100000000 25 12 - ((48000000 : Nat) : Rat)| = 0 := by norm_num [ecpFreq]
  rw [h0] at h
  have h1 := abs_eq_zero.mp (le_antisymm h (abs_nonneg _))
  have h2 : ecpFreq 100000000 i b = 48000000 := by push_cast at h1; linarith
  obtain ⟨h3, d, -, -, h4, -, -, h5⟩ := hio
  constructor
  · intro q
    rw [h3 100000000 q, h2]; norm_num
  · intro q
    rw [h4 100000000 q, h5 h2]; norm_num

/-- Resets: a design with reset pad and without ULPI, the PLL locking in cycle 3, the pad active in cycle 10. -/
example : ∃ c, crgEcp false true 100000000 48000000 = .ok c ∧
    ∃ rst, c.Run (fun n => ⟨decide (n = 10), decide (3 ≤ n), false⟩) rst ∧
      (List.range 15).map (fun n => rst n "sync") =
        [true, true, true, true, true, false, false, false, false, false, true, true, true, false, false] ∧
      (List.range 15).map (fun n => rst n "usb") =
        [true, true, true, false, false, false, false, false, false, false, true, false, false, false, false] := by
  obtain ⟨c, i, b, o, hc, -⟩ :=
    C108_crg_ecp5_partial false true 100000000 48000000 (by norm_num) (by norm_num)
  refine ⟨c, hc, ?_⟩
  obtain ⟨pll, rfl⟩ : ∃ pll, c = crgNet false true pll := by
    unfold crgEcp at hc
    split at hc <;> first | cases hc | skip
    exact ⟨_, rfl⟩
  let hold : Nat → Bool := fun n => !decide (3 ≤ n) || decide (n = 10)
  refine ⟨fun n d => if d = "_ref" then decide (n = 10) else if d = "sync" then resetSync.wave hold n else hold n,
    ⟨?_, ?_⟩, by decide +kernel, by decide +kernel⟩
  · intro d e h n
    simp only [crgNet, crgArst] at h
    simp at h
    rcases h with ⟨rfl, rfl⟩ | ⟨rfl, rfl⟩ | ⟨rfl, rfl⟩ <;> simp [CrgExpr.level, hold]
  · intro e d h n
    simp only [crgNet, crgArst] at h
    simp at h
    obtain ⟨rfl, rfl⟩ := h
    simp [CrgExpr.level, hold]

end Lambdalib
