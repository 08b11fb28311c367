import Verif.Model.PllInst
import Verif.Props.Pll

/-! The PLL primitives as instantiated (C100). -/

namespace Lambdalib

/-- Clock outputs of EHXPLLL in order: port, enable, divider, coarse phase. -/
def ehxPins : List (String × String × String × String) :=
  [("o_CLKOP", "p_CLKOP_ENABLE", "p_CLKOP_DIV", "p_CLKOP_CPHASE"),
   ("o_CLKOS", "p_CLKOS_ENABLE", "p_CLKOS_DIV", "p_CLKOS_CPHASE"),
   ("o_CLKOS2", "p_CLKOS2_ENABLE", "p_CLKOS2_DIV", "p_CLKOS2_CPHASE"),
   ("o_CLKOS3", "p_CLKOS3_ENABLE", "p_CLKOS3_DIV", "p_CLKOS3_CPHASE")]

/-- Clock outputs of PLLE2_BASE in order: port, divider, phase. -/
def pllePins : List (String × String × String) :=
  [("o_CLKOUT0", "p_CLKOUT0_DIVIDE", "p_CLKOUT0_PHASE"), ("o_CLKOUT1", "p_CLKOUT1_DIVIDE", "p_CLKOUT1_PHASE"),
   ("o_CLKOUT2", "p_CLKOUT2_DIVIDE", "p_CLKOUT2_PHASE"), ("o_CLKOUT3", "p_CLKOUT3_DIVIDE", "p_CLKOUT3_PHASE"),
   ("o_CLKOUT4", "p_CLKOUT4_DIVIDE", "p_CLKOUT4_PHASE"), ("o_CLKOUT5", "p_CLKOUT5_DIVIDE", "p_CLKOUT5_PHASE")]

/-- A list padded with none to length `n`. -/
def padNone {α : Type} (n : Nat) (l : List α) : List (Option α) := l.map some ++ List.replicate (n - l.length) none

theorem dictGet_append (a b : PrimDict) (k : String) :
    dictGet (a ++ b) k = (dictGet b k).or (dictGet a k) := by
  induction a with
  | nil => simp [dictGet]
  | cons x a ih =>
    obtain ⟨c, v⟩ := x
    simp only [List.cons_append, dictGet, ih]
    cases dictGet b k <;> simp

theorem dictGet_mem {d : PrimDict} {k : String} {v : PrimVal} (h : dictGet d k = some v) : (k, v) ∈ d := by
  induction d with
  | nil => simp [dictGet] at h
  | cons x d ih =>
    obtain ⟨a, w⟩ := x
    simp only [dictGet] at h
    cases hd : dictGet d k with
    | some u => rw [hd] at h; injection h with h; subst h; exact List.mem_cons_of_mem _ (ih hd)
    | none =>
      rw [hd] at h
      simp only at h
      split at h
      · rename_i he; injection h with h; subst he h; exact List.mem_cons_self
      · cases h

set_option maxHeartbeats 1000000 in
/-- Any instance of EHXPLLL made by the code: what drives what. -/
theorem ecpInst_ports (iD : String) (iF : Nat) (rl fb : Bool) (v : EcpV) (p : EcpOut) (os : List EcpOut)
    (hl : os.length ≤ 3) :
    let get := dictGet (ecpInst iD iF rl fb v p os)
    ehxPins.map (fun k => primDrives get k.1) = padNone 4 (p.domain :: os.map EcpOut.domain) ∧
    ehxPins.map (fun k => primNum get k.2.2.1) = padNone 4 ((p.div : Rat) :: os.map (fun o => (o.div : Rat))) ∧
    ehxPins.map (fun k => primNum get k.2.2.2) = padNone 4 (p.cphase :: os.map EcpOut.cphase) ∧
    ehxPins.map (fun k => get k.2.1 == some (.str "ENABLED")) =
      (padNone 4 (p.div :: os.map EcpOut.div)).map Option.isSome ∧
    primNum get "p_CLKI_DIV" = some (v.iDiv : Rat) ∧ primNum get "p_CLKFB_DIV" = some (v.fbDiv : Rat) ∧
    get "i_CLKI" = some (.clock iD) ∧ get "o_LOCK" = some .locked ∧
    get "i_RST" = some (if rl then .const 0 else .rst iD) := by
  dsimp only
  match os, hl with
  | [], _ => cases rl <;> cases fb <;> simp [ecpInst, ecpSlot, ehxPins, dictGet, primDrives, primNum, padNone, List.replicate]
  | [a], _ => cases rl <;> cases fb <;> simp [ecpInst, ecpSlot, ehxPins, dictGet, primDrives, primNum, padNone, List.replicate]
  | [a, b], _ => cases rl <;> cases fb <;> simp [ecpInst, ecpSlot, ehxPins, dictGet, primDrives, primNum, padNone, List.replicate]
  | [a, b, c], _ => cases rl <;> cases fb <;> simp [ecpInst, ecpSlot, ehxPins, dictGet, primDrives, primNum, padNone, List.replicate]
  | _ :: _ :: _ :: _ :: _, hl => simp at hl

/-- The feedback is wired as the feedback path says. -/
theorem ecpInst_vco (iD : String) (iF : Nat) (rl fb : Bool) (v : EcpV) (p : EcpOut) (os : List EcpOut)
    (hl : os.length ≤ 3) (hi : primDivider (v.iDiv : Rat) = true) (hb : primDivider (v.fbDiv : Rat) = true)
    (ho : primDivider (p.div : Rat) = true) (f : Rat) :
    ehxVco (dictGet (ecpInst iD iF rl fb v p os)) f = some (f / v.iDiv * v.fbDiv * p.div) := by
  match os, hl with
  | [], _ => cases rl <;> cases fb <;> simp [ehxVco, primSameNet, ecpInst, ecpSlot, dictGet, primNum, hi, hb, ho]
  | [a], _ => cases rl <;> cases fb <;> simp [ehxVco, primSameNet, ecpInst, ecpSlot, dictGet, primNum, hi, hb, ho]
  | [a, b], _ => cases rl <;> cases fb <;> simp [ehxVco, primSameNet, ecpInst, ecpSlot, dictGet, primNum, hi, hb, ho]
  | [a, b, c], _ => cases rl <;> cases fb <;> simp [ehxVco, primSameNet, ecpInst, ecpSlot, dictGet, primNum, hi, hb, ho]
  | _ :: _ :: _ :: _ :: _, hl => simp at hl

/-- No other port carries a clock. -/
theorem ecpInst_clocks (iD : String) (iF : Nat) (rl fb : Bool) (v : EcpV) (p : EcpOut) (os : List EcpOut)
    (k d : String) (h : dictGet (ecpInst iD iF rl fb v p os) k = some (.clock d)) :
    k = "i_CLKI" ∨ k = "i_CLKFB" ∨ k ∈ ehxPins.map Prod.fst := by
  have hm := dictGet_mem h
  clear h
  have hs : ∀ n (o : Option EcpOut), (k, PrimVal.clock d) ∈ ecpSlot n o → k = "o_" ++ n := by
    intro n o ho
    cases o <;> simp [ecpSlot, pllMHz] at ho
    exact ho.1
  unfold ecpInst at hm
  simp only [List.mem_append] at hm
  rcases hm with (((((hm | hm) | hm) | hm) | hm) | hm) | hm
  · simp [pllMHz] at hm
    rcases hm with ⟨rfl, -⟩ | ⟨rfl, -⟩ <;> simp [ehxPins]
  · rw [hs _ _ hm]; simp [ehxPins]
  · rw [hs _ _ hm]; simp [ehxPins]
  · rw [hs _ _ hm]; simp [ehxPins]
  · cases rl <;> simp at hm
  · simp at hm
  · cases fb <;> simp at hm
    exact Or.inr (Or.inl hm.1)

theorem primDivider_int {z : Int} (h : 1 ≤ z ∧ z ≤ 128) : primDivider (z : Rat) = true := by
  simp only [primDivider, Bool.and_eq_true, decide_eq_true_eq]
  refine ⟨⟨Rat.den_intCast z, by exact_mod_cast h.1⟩, by exact_mod_cast h.2⟩

theorem ehxFreq_on {get : String → Option PrimVal} {f w d : Rat} {en dv : String} (hw : ehxVco get f = some w)
    (hd : primNum get dv = some d) (he : (get en == some (.str "ENABLED")) = true) (hp : primDivider d = true) :
    ehxFreq get f en dv = some (w / d) := by
  simp [ehxFreq, hw, hd, he, hp]

theorem ehxFreq_off {get : String → Option PrimVal} {f : Rat} {en dv : String} (hd : primNum get dv = none) :
    ehxFreq get f en dv = none := by
  unfold ehxFreq; rw [hd]; split <;> simp_all

/-- Frequencies on the outputs of any instance with legal dividers. -/
theorem ecpInst_freq (iD : String) (iF : Nat) (rl fb : Bool) (v : EcpV) (p : EcpOut) (os : List EcpOut)
    (hl : os.length ≤ 3) (hi : primDivider (v.iDiv : Rat) = true) (hb : primDivider (v.fbDiv : Rat) = true)
    (ho : primDivider (p.div : Rat) = true) (hs : ∀ o ∈ os, primDivider (o.div : Rat) = true) (f : Rat) :
    ehxPins.map (fun k => ehxFreq (dictGet (ecpInst iD iF rl fb v p os)) f k.2.1 k.2.2.1) =
      padNone 4 ((p :: os).map (fun o => f / v.iDiv * v.fbDiv * p.div / o.div)) := by
  have hw := ecpInst_vco iD iF rl fb v p os hl hi hb ho f
  obtain ⟨-, h2, -, h4, -⟩ := ecpInst_ports iD iF rl fb v p os hl
  generalize dictGet (ecpInst iD iF rl fb v p os) = get at *
  generalize f / v.iDiv * v.fbDiv * p.div = w at *
  match os, hl with
  | [], _ =>
    simp only [ehxPins, padNone, List.map_cons, List.map_nil, List.length_cons, List.length_nil, List.cons_append,
      List.nil_append, List.replicate, List.cons.injEq, Option.isSome] at h2 h4 ⊢
    exact ⟨ehxFreq_on hw h2.1 h4.1 ho, ehxFreq_off h2.2.1, ehxFreq_off h2.2.2.1, ehxFreq_off h2.2.2.2.1, trivial⟩
  | [a], _ =>
    simp only [ehxPins, padNone, List.map_cons, List.map_nil, List.length_cons, List.length_nil, List.cons_append,
      List.nil_append, List.replicate, List.cons.injEq, Option.isSome] at h2 h4 ⊢
    exact ⟨ehxFreq_on hw h2.1 h4.1 ho, ehxFreq_on hw h2.2.1 h4.2.1 (hs a (by simp)), ehxFreq_off h2.2.2.1,
      ehxFreq_off h2.2.2.2.1, trivial⟩
  | [a, b], _ =>
    simp only [ehxPins, padNone, List.map_cons, List.map_nil, List.length_cons, List.length_nil, List.cons_append,
      List.nil_append, List.replicate, List.cons.injEq, Option.isSome] at h2 h4 ⊢
    exact ⟨ehxFreq_on hw h2.1 h4.1 ho, ehxFreq_on hw h2.2.1 h4.2.1 (hs a (by simp)),
      ehxFreq_on hw h2.2.2.1 h4.2.2.1 (hs b (by simp)), ehxFreq_off h2.2.2.2.1, trivial⟩
  | [a, b, c], _ =>
    simp only [ehxPins, padNone, List.map_cons, List.map_nil, List.length_cons, List.length_nil, List.cons_append,
      List.nil_append, List.replicate, List.cons.injEq, Option.isSome] at h2 h4 ⊢
    exact ⟨ehxFreq_on hw h2.1 h4.1 ho, ehxFreq_on hw h2.2.1 h4.2.1 (hs a (by simp)),
      ehxFreq_on hw h2.2.2.1 h4.2.2.1 (hs b (by simp)), ehxFreq_on hw h2.2.2.2.1 h4.2.2.2.1 (hs c (by simp)), rfl⟩
  | _ :: _ :: _ :: _ :: _, hl => simp at hl

/-- C100 (partial), ECP5: whatever frequencies the constructor accepts and whatever calls were made before, the instance
of the primitive drives the requested domains in order (the primary one first, then those added), one output each, and
no other output is on or carries a clock. At every input frequency `f` the primary output runs at the reported frequency
times `f` over the nominal input frequency, and a secondary one at the VCO frequency over its divider; the phases are the
computed ones, `i_RST` follows the option. The driven domains are distinct exactly if no added domain is the primary one.
Missing: that condition is not checked, see `C100_domain_refuted`. -/
theorem C100_ecp5_partial (iDomain oDomain : String) (iFreq oFreq : Rat) (s : Pll EcpV EcpOut)
    (h : pllNew ecp5 iDomain iFreq oDomain oFreq = .ok s) (cs : List PllCall) (resetLess fbInternal : Bool) :
    let I := iFreq.floor.toNat
    let domains := oDomain :: (pllAdds ecp5 s cs).map Prod.fst
    ∃ v p os, pllRead ecp5 (pllRun ecp5 s cs) = .ok (some (v, p, os)) ∧
      let get := dictGet (ecpInst iDomain I resetLess fbInternal v p os)
      ehxPins.map (fun k => primDrives get k.1) = padNone 4 domains ∧
      (∀ k d, get k = some (.clock d) → k = "i_CLKI" ∨ k = "i_CLKFB" ∨ k ∈ ehxPins.map Prod.fst) ∧
      (∀ f, ehxPins.map (fun k => ehxFreq get f k.2.1 k.2.2.1) =
        padNone 4 (p.freq * (f / I) :: os.map (fun o => p.freq * (f / I) * p.div / o.div))) ∧
      ehxPins.map (fun k => primNum get k.2.2.2) = padNone 4 (p.cphase :: os.map EcpOut.cphase) ∧
      get "i_CLKI" = some (.clock iDomain) ∧ get "o_LOCK" = some .locked ∧
      get "i_RST" = some (if resetLess then .const 0 else .rst iDomain) ∧
      (domains.Nodup ↔ oDomain ∉ (pllAdds ecp5 s cs).map Prod.fst) := by
  intro I domains
  obtain ⟨v, p, os, hr, hpd, hos, hlen, hnd⟩ := C52_slots_ecp5 iDomain oDomain iFreq oFreq s h cs
  obtain ⟨v', os', hr', hleg, hop, -⟩ := C50_ecp5 iDomain oDomain iFreq oFreq s h cs
  obtain ⟨v'', p'', os'', hr'', hdv⟩ := C75_frequency_partial iDomain oDomain iFreq oFreq s h cs
  rw [hr] at hr' hr''
  simp only [Except.ok.injEq, Option.some.injEq, Prod.mk.injEq] at hr' hr''
  obtain ⟨rfl, rfl, rfl⟩ := hr'
  obtain ⟨-, rfl, rfl⟩ := hr''
  have hdom : os.map EcpOut.domain = (pllAdds ecp5 s cs).map Prod.fst := by
    have := congrArg (List.map Prod.fst) hos
    simpa [List.map_map, Function.comp_def] using this
  have hI : (I : Rat) ≠ 0 := by
    have := hleg.pfd.1
    intro hz
    have hz' : ((iFreq.floor.toNat : Nat) : Rat) = 0 := hz
    rw [hz'] at this; norm_num at this
  have hd : ∀ n : Nat, 1 ≤ n ∧ n ≤ 128 → primDivider (n : Rat) = true := by
    intro n hn
    have := primDivider_int (z := n) (by omega)
    simpa using this
  refine ⟨v, _, os, hr, ?_⟩
  obtain ⟨p1, -, p3, -, -, -, p5, p6, p7⟩ := ecpInst_ports iDomain I resetLess fbInternal v
    ⟨oDomain, v.op, v.opDiv, v.opDiv / 2, 0⟩ os hlen
  refine ⟨?_, ecpInst_clocks _ _ _ _ _ _ _, ?_, p3, p5, p6, p7, ?_⟩
  · rw [p1, hdom]
  · intro f
    rw [ecpInst_freq iDomain I resetLess fbInternal v _ os hlen (hd _ hleg.iDivR)
      (hd _ ⟨hleg.fbDivR.1, by have := hleg.fbDivR.2; omega⟩)
      (by have := hd _ hleg.opDivR; simpa using this)
      (fun o ho => primDivider_int ⟨(hdv o ho).1, by have := (hdv o ho).2.1; omega⟩) f]
    have hod : (v.opDiv : Rat) ≠ 0 := by exact_mod_cast (by have := hleg.opDivR; omega : v.opDiv ≠ 0)
    have hid : (v.iDiv : Rat) ≠ 0 := by exact_mod_cast (by have := hleg.iDivR; omega : v.iDiv ≠ 0)
    have key : f / v.iDiv * v.fbDiv = v.op * (f / I) := by
      rw [hop, ecpFreq]; field_simp; ring
    congr 1
    simp only [List.map_cons, key, Int.cast_natCast, List.cons.injEq, and_true]
    field_simp
  · rw [List.nodup_cons]
    constructor
    · exact fun h => h.1
    · exact fun h => ⟨h, hdom ▸ hnd⟩

/-- C100 fails: the primary domain is accepted again for a secondary output, and then two outputs, at 100 and at 50 MHz,
drive the same domain. -/
theorem C100_domain_refuted :
    ∃ s cs v p os, pllNew ecp5 "i" (100000000 : Nat) "o" (100000000 : Nat) = .ok s ∧
      pllRead ecp5 (pllRun ecp5 s cs) = .ok (some (v, p, os)) ∧
      let get := dictGet (ecpInst "i" 100000000 true false v p os)
      primDrives get "o_CLKOP" = some "o" ∧ primDrives get "o_CLKOS" = some "o" ∧
      ehxFreq get 100000000 "p_CLKOP_ENABLE" "p_CLKOP_DIV" = some 100000000 ∧
      ehxFreq get 100000000 "p_CLKOS_ENABLE" "p_CLKOS_DIV" = some 50000000 := by
  obtain ⟨s, hs⟩ := ecp_new_ok "i" "o" 100000000 100000000 (by norm_num) (by norm_num)
  have hl : EcpLegal 100000000 1 1 6 := by constructor <;> norm_num [ecpFreq]
  have hadd := (C52_add "i" "o" _ _ s hs [] (by simp) "o" 50000000 0).mpr
    (by refine ⟨?_, ?_, ?_, ?_⟩ <;> norm_num [ecp5, pllAdds])
  have ha : pllAdds ecp5 s [.add "o" 50000000 0] = [("o", 50000000, 0)] := by
    simp only [pllAdds, pllRun] at *; rw [if_pos hadd]; rfl
  obtain ⟨v, hr, hv⟩ := ecp_exact hs hl (by norm_num [ecpFreq]) (by norm_num) [.add "o" 50000000 0]
  obtain ⟨v', p, os, hr', h1, -, h3, -⟩ := C100_ecp5_partial "i" "o" _ _ s hs [.add "o" 50000000 0] true false
  rw [ha] at hr h1
  refine ⟨s, _, v', p, os, hs, hr', ?_⟩
  rw [hr] at hr'
  simp only [Except.ok.injEq, Option.some.injEq, Prod.mk.injEq] at hr'
  obtain ⟨rfl, rfl, rfl⟩ := hr'
  have hd : (ecpSecondary v ("o", 50000000, 0)).div = 12 := by
    simp only [ecpSecondary, hv]
    rw [Rat.floor_def]; decide +kernel
  have h3 := h3 100000000
  rw [floor_natCast, Int.toNat_natCast] at h1 h3
  dsimp only
  generalize dictGet (ecpInst "i" 100000000 true false v _ _) = get at *
  simp only [ehxPins, padNone, List.map_cons, List.map_nil, List.length_cons, List.length_nil, List.cons_append,
    List.nil_append, List.replicate, List.cons.injEq, hd] at h1 h3
  refine ⟨h1.1, h1.2.1, ?_, ?_⟩
  · rw [h3.1]; norm_num
  · rw [h3.2.1]; norm_num

set_option maxHeartbeats 1000000 in
/-- Any instance of PLLE2_BASE made by the code: what drives what. -/
theorem xilInst_ports (iD : String) (iF : Nat) (rl : Bool) (v : XilV) (p : XilOut) (os : List XilOut)
    (hl : os.length ≤ 5) (hi : primDivider (v.divclk : Rat) = true) (hm : primDivider (v.mult : Rat) = true) (f : Rat) :
    let get := dictGet (xilInst iD iF rl v p os)
    pllePins.map (fun k => primDrives get k.1) = padNone 6 (p.domain :: os.map XilOut.domain) ∧
    pllePins.map (fun k => primNum get k.2.1) = padNone 6 (p.div :: os.map XilOut.div) ∧
    pllePins.map (fun k => primNum get k.2.2) = padNone 6 (p.phase :: os.map XilOut.phase) ∧
    plleVco get f = some (f * v.mult / v.divclk) ∧
    get "i_CLKIN1" = some (.clock iD) ∧ get "o_LOCKED" = some .locked ∧
    get "i_RST" = some (if rl then .const 0 else .rst iD) := by
  dsimp only
  match os, hl with
  | [], _ => cases rl <;> simp [xilInst, xilSlot, pllePins, dictGet, primDrives, primNum, padNone, plleVco, primSameNet, hi, hm]
  | [a], _ => cases rl <;> simp [xilInst, xilSlot, pllePins, dictGet, primDrives, primNum, padNone, plleVco, primSameNet, hi, hm]
  | [a, b], _ => cases rl <;> simp [xilInst, xilSlot, pllePins, dictGet, primDrives, primNum, padNone, plleVco, primSameNet, hi, hm]
  | [a, b, c], _ => cases rl <;> simp [xilInst, xilSlot, pllePins, dictGet, primDrives, primNum, padNone, plleVco, primSameNet, hi, hm]
  | [a, b, c, d], _ => cases rl <;> simp [xilInst, xilSlot, pllePins, dictGet, primDrives, primNum, padNone, plleVco, primSameNet, hi, hm]
  | [a, b, c, d, e], _ => cases rl <;> simp [xilInst, xilSlot, pllePins, dictGet, primDrives, primNum, padNone, plleVco, primSameNet, hi, hm]
  | _ :: _ :: _ :: _ :: _ :: _ :: _, hl => simp at hl

theorem xilInst_clocks (iD : String) (iF : Nat) (rl : Bool) (v : XilV) (p : XilOut) (os : List XilOut)
    (k d : String) (h : dictGet (xilInst iD iF rl v p os) k = some (.clock d)) :
    k = "i_CLKIN1" ∨ k ∈ pllePins.map Prod.fst := by
  have hm := dictGet_mem h
  clear h
  have hs : ∀ n (o : Option XilOut), (k, PrimVal.clock d) ∈ xilSlot n o → k = "o_" ++ n := by
    intro n o ho
    cases o <;> simp [xilSlot] at ho
    exact ho.1
  unfold xilInst at hm
  simp only [List.mem_append] at hm
  rcases hm with (((((hm | hm) | hm) | hm) | hm) | hm) | hm
  · simp at hm
    rcases hm with ⟨rfl, -⟩ | ⟨rfl, -⟩ <;> simp [pllePins]
  · cases rl <;> simp at hm
  all_goals rw [hs _ _ hm]; simp [pllePins]

theorem plleFreq_eq {get : String → Option PrimVal} {f w d : Rat} {dv : String} (hw : plleVco get f = some w)
    (hd : primNum get dv = some d) : plleFreq get f dv = if primDivider d then some (w / d) else none := by
  simp [plleFreq, hw, hd]

theorem plleFreq_off {get : String → Option PrimVal} {f : Rat} {dv : String} (hd : primNum get dv = none) :
    plleFreq get f dv = none := by
  unfold plleFreq; rw [hd]; split <;> simp_all

theorem xilInst_freq (iD : String) (iF : Nat) (rl : Bool) (v : XilV) (p : XilOut) (os : List XilOut)
    (hl : os.length ≤ 5) (hi : primDivider (v.divclk : Rat) = true) (hm : primDivider (v.mult : Rat) = true) (f : Rat) :
    pllePins.map (fun k => plleFreq (dictGet (xilInst iD iF rl v p os)) f k.2.1) =
      (p :: os).map (fun o => if primDivider o.div then some (f * v.mult / v.divclk / o.div) else none) ++
        List.replicate (5 - os.length) none := by
  obtain ⟨-, h2, -, hw, -⟩ := xilInst_ports iD iF rl v p os hl hi hm f
  generalize dictGet (xilInst iD iF rl v p os) = get at *
  generalize f * v.mult / v.divclk = w at *
  match os, hl with
  | [], _ =>
    simp only [pllePins, padNone, List.map_cons, List.map_nil, List.length_cons, List.length_nil, List.cons_append,
      List.nil_append, List.replicate, List.cons.injEq] at h2 ⊢
    exact ⟨plleFreq_eq hw h2.1, plleFreq_off h2.2.1, plleFreq_off h2.2.2.1, plleFreq_off h2.2.2.2.1, plleFreq_off h2.2.2.2.2.1, plleFreq_off h2.2.2.2.2.2.1, trivial⟩
  | [a], _ =>
    simp only [pllePins, padNone, List.map_cons, List.map_nil, List.length_cons, List.length_nil, List.cons_append,
      List.nil_append, List.replicate, List.cons.injEq] at h2 ⊢
    exact ⟨plleFreq_eq hw h2.1, plleFreq_eq hw h2.2.1, plleFreq_off h2.2.2.1, plleFreq_off h2.2.2.2.1, plleFreq_off h2.2.2.2.2.1, plleFreq_off h2.2.2.2.2.2.1, trivial⟩
  | [a, b], _ =>
    simp only [pllePins, padNone, List.map_cons, List.map_nil, List.length_cons, List.length_nil, List.cons_append,
      List.nil_append, List.replicate, List.cons.injEq] at h2 ⊢
    exact ⟨plleFreq_eq hw h2.1, plleFreq_eq hw h2.2.1, plleFreq_eq hw h2.2.2.1, plleFreq_off h2.2.2.2.1, plleFreq_off h2.2.2.2.2.1, plleFreq_off h2.2.2.2.2.2.1, trivial⟩
  | [a, b, c], _ =>
    simp only [pllePins, padNone, List.map_cons, List.map_nil, List.length_cons, List.length_nil, List.cons_append,
      List.nil_append, List.replicate, List.cons.injEq] at h2 ⊢
    exact ⟨plleFreq_eq hw h2.1, plleFreq_eq hw h2.2.1, plleFreq_eq hw h2.2.2.1, plleFreq_eq hw h2.2.2.2.1, plleFreq_off h2.2.2.2.2.1, plleFreq_off h2.2.2.2.2.2.1, trivial⟩
  | [a, b, c, d], _ =>
    simp only [pllePins, padNone, List.map_cons, List.map_nil, List.length_cons, List.length_nil, List.cons_append,
      List.nil_append, List.replicate, List.cons.injEq] at h2 ⊢
    exact ⟨plleFreq_eq hw h2.1, plleFreq_eq hw h2.2.1, plleFreq_eq hw h2.2.2.1, plleFreq_eq hw h2.2.2.2.1, plleFreq_eq hw h2.2.2.2.2.1, plleFreq_off h2.2.2.2.2.2.1, trivial⟩
  | [a, b, c, d, e], _ =>
    simp only [pllePins, padNone, List.map_cons, List.map_nil, List.length_cons, List.length_nil, List.cons_append,
      List.nil_append, List.replicate, List.cons.injEq] at h2 ⊢
    exact ⟨plleFreq_eq hw h2.1, plleFreq_eq hw h2.2.1, plleFreq_eq hw h2.2.2.1, plleFreq_eq hw h2.2.2.2.1, plleFreq_eq hw h2.2.2.2.2.1, plleFreq_eq hw h2.2.2.2.2.2.1, rfl⟩
  | _ :: _ :: _ :: _ :: _ :: _ :: _, hl => simp at hl

/-- C100 (partial), Xilinx: as for the ECP5. A secondary output runs exactly at the requested frequency (times `f` over
the nominal input frequency) if its divider is an integer up to 128, otherwise the setting is illegal. Missing: that it
is, and that the domains are distinct. -/
theorem C100_xilinx_partial (iDomain oDomain : String) (iFreq oFreq : Rat) (s : Pll XilV XilOut)
    (h : pllNew xilinx7 iDomain iFreq oDomain oFreq = .ok s) (cs : List PllCall) (resetLess : Bool) :
    let I := iFreq.floor.toNat
    let domains := oDomain :: (pllAdds xilinx7 s cs).map Prod.fst
    ∃ v p os, pllRead xilinx7 (pllRun xilinx7 s cs) = .ok (some (v, p, os)) ∧
      let get := dictGet (xilInst iDomain I resetLess v p os)
      pllePins.map (fun k => primDrives get k.1) = padNone 6 domains ∧
      (∀ k d, get k = some (.clock d) → k = "i_CLKIN1" ∨ k ∈ pllePins.map Prod.fst) ∧
      (∀ f, pllePins.map (fun k => plleFreq get f k.2.1) =
        some (p.freq * (f / I)) ::
          os.map (fun o => if primDivider o.div then some (o.freq * (f / I)) else none) ++
          List.replicate (5 - os.length) none) ∧
      pllePins.map (fun k => primNum get k.2.2) = padNone 6 (p.phase :: os.map XilOut.phase) ∧
      get "i_CLKIN1" = some (.clock iDomain) ∧ get "o_LOCKED" = some .locked ∧
      get "i_RST" = some (if resetLess then .const 0 else .rst iDomain) ∧
      (domains.Nodup ↔ oDomain ∉ (pllAdds xilinx7 s cs).map Prod.fst) := by
  intro I domains
  obtain ⟨v, p, os, hr, hpd, hos, hlen, hnd⟩ := C52_slots_xilinx iDomain oDomain iFreq oFreq s h cs
  obtain ⟨v', os', hr', hleg, hout, -, hdv, -⟩ := C51_xilinx_partial iDomain oDomain iFreq oFreq s h cs
  rw [hr] at hr'
  simp only [Except.ok.injEq, Option.some.injEq, Prod.mk.injEq] at hr'
  obtain ⟨rfl, rfl, rfl⟩ := hr'
  have hdom : os.map XilOut.domain = (pllAdds xilinx7 s cs).map Prod.fst := by
    have := congrArg (List.map Prod.fst) hos
    simpa [List.map_map, Function.comp_def] using this
  have hI : (I : Rat) ≠ 0 := by
    have := hleg.vco.1
    intro hz
    have hz' : ((iFreq.floor.toNat : Nat) : Rat) = 0 := hz
    rw [xilVco, hz'] at this; norm_num at this
  have hd : ∀ n : Nat, 1 ≤ n ∧ n ≤ 128 → primDivider (n : Rat) = true := by
    intro n hn
    have := primDivider_int (z := n) (by omega)
    simpa using this
  have hi := hd v.divclk ⟨hleg.divclkR.1, by have := hleg.divclkR.2; omega⟩
  have hm := hd v.mult ⟨by have := hleg.multR.1; omega, by have := hleg.multR.2; omega⟩
  refine ⟨v, _, os, hr, ?_⟩
  obtain ⟨p1, -, p3, -, p5, p6, p7⟩ := xilInst_ports iDomain I resetLess v ⟨oDomain, v.out0, v.div0, 0⟩ os hlen hi hm 0
  refine ⟨?_, xilInst_clocks _ _ _ _ _ _, ?_, p3, p5, p6, p7, ?_⟩
  · rw [p1, hdom]
  · intro f
    rw [xilInst_freq iDomain I resetLess v _ os hlen hi hm f]
    have hod : (v.div0 : Rat) ≠ 0 := by exact_mod_cast (by have := hleg.div0R; omega : v.div0 ≠ 0)
    have hid : (v.divclk : Rat) ≠ 0 := by exact_mod_cast (by have := hleg.divclkR; omega : v.divclk ≠ 0)
    simp only [List.map_cons, hd _ hleg.div0R, if_true]
    congr 2
    · rw [hout, xilVco]
      show some (f * v.mult / v.divclk / v.div0) = some ((I : Rat) * v.mult / v.divclk / v.div0 * (f / I))
      congr 1; field_simp
    · apply List.map_congr_left
      intro o ho
      split
      · rename_i hp
        have ho0 : o.div ≠ 0 := by
          simp only [primDivider, Bool.and_eq_true, decide_eq_true_eq] at hp
          intro hz; rw [hz] at hp; norm_num at hp
        have e : o.div * o.freq = (I : Rat) * v.mult / v.divclk := hdv o ho
        congr 1
        have e2 : o.freq = (I : Rat) * v.mult / v.divclk / o.div := by rw [← e]; field_simp
        rw [e2]; field_simp
      · rfl
  · rw [List.nodup_cons]
    exact ⟨fun h => h.1, fun h => ⟨h, hdom ▸ hnd⟩⟩

/-- A frequency is noted in whole megahertz. -/
def PrimNotes (get : String → Option PrimVal) (k : String) (f : Rat) : Prop :=
  ∃ m : Int, get k = some (.num m) ∧ m * 1000000 ≤ f ∧ f < (m + 1) * 1000000

theorem pllMHz_notes (f : Rat) : ∃ m : Int, pllMHz f = .num m ∧ m * 1000000 ≤ f ∧ f < (m + 1) * 1000000 := by
  refine ⟨(f / 1000000).floor, rfl, ?_, ?_⟩
  · have := Rat.floor_le (f / 1000000)
    have := mul_le_mul_of_nonneg_right this (by norm_num : (0 : Rat) ≤ 1000000)
    rwa [div_mul_cancel₀ _ (by norm_num)] at this
  · have := Rat.lt_floor_add_one (f / 1000000)
    have := mul_lt_mul_of_pos_right this (by norm_num : (0 : Rat) < 1000000)
    rw [div_mul_cancel₀ _ (by norm_num)] at this
    exact_mod_cast this

set_option maxHeartbeats 1000000 in
theorem ecpInst_notes (iD : String) (iF : Nat) (rl fb : Bool) (v : EcpV) (p : EcpOut) (os : List EcpOut) (hl : os.length ≤ 3) :
    dictGet (ecpInst iD iF rl fb v p os) "a_FREQUENCY_PIN_CLKI" = some (pllMHz iF) ∧
    ["a_FREQUENCY_PIN_CLKOP", "a_FREQUENCY_PIN_CLKOS", "a_FREQUENCY_PIN_CLKOS2", "a_FREQUENCY_PIN_CLKOS3"].map
      (dictGet (ecpInst iD iF rl fb v p os)) = padNone 4 ((p :: os).map fun o => pllMHz o.freq) := by
  match os, hl with
  | [], _ => cases rl <;> cases fb <;> simp [ecpInst, ecpSlot, dictGet, padNone, List.replicate]
  | [a], _ => cases rl <;> cases fb <;> simp [ecpInst, ecpSlot, dictGet, padNone, List.replicate]
  | [a, b], _ => cases rl <;> cases fb <;> simp [ecpInst, ecpSlot, dictGet, padNone, List.replicate]
  | [a, b, c], _ => cases rl <;> cases fb <;> simp [ecpInst, ecpSlot, dictGet, padNone, List.replicate]
  | _ :: _ :: _ :: _ :: _, hl => simp at hl

/-- C100, ECP5: the frequencies noted on the instance, from which the place and route tool takes its timing constraints, are the input
frequency and those of the outputs, rounded down to megahertz. -/
theorem C100_ecp5_notes (iDomain oDomain : String) (iFreq oFreq : Rat) (s : Pll EcpV EcpOut)
    (h : pllNew ecp5 iDomain iFreq oDomain oFreq = .ok s) (cs : List PllCall) (resetLess fbInternal : Bool) :
    let I := iFreq.floor.toNat
    ∃ v p os, pllRead ecp5 (pllRun ecp5 s cs) = .ok (some (v, p, os)) ∧
      let get := dictGet (ecpInst iDomain I resetLess fbInternal v p os)
      PrimNotes get "a_FREQUENCY_PIN_CLKI" I ∧ PrimNotes get "a_FREQUENCY_PIN_CLKOP" p.freq ∧
      ∀ (i : Nat) (o : EcpOut) (k : String), os[i]? = some o → ["a_FREQUENCY_PIN_CLKOS", "a_FREQUENCY_PIN_CLKOS2", "a_FREQUENCY_PIN_CLKOS3"][i]? = some k →
        PrimNotes get k o.freq := by
  intro I
  obtain ⟨v, p, os, hr, hpd, hos, hlen, hnd⟩ := C52_slots_ecp5 iDomain oDomain iFreq oFreq s h cs
  refine ⟨v, p, os, hr, ?_⟩
  have key : ∀ k f, dictGet (ecpInst iDomain I resetLess fbInternal v p os) k = some (pllMHz f) →
      PrimNotes (dictGet (ecpInst iDomain I resetLess fbInternal v p os)) k f := by
    intro k f e
    obtain ⟨m, h1, h2⟩ := pllMHz_notes f
    exact ⟨m, by rw [e, h1], h2⟩
  obtain ⟨h1, h2⟩ := ecpInst_notes iDomain I resetLess fbInternal v p os hlen
  generalize dictGet (ecpInst iDomain I resetLess fbInternal v p os) = get at *
  refine ⟨key _ _ h1, key _ _ (by simp [padNone] at h2; exact h2.1), fun i o k ho hk => key _ _ ?_⟩
  have h3 := congrArg (fun l => l[i + 1]?) h2
  simp only [padNone, List.map_cons, List.cons_append, List.getElem?_cons_succ] at h3
  rw [← List.map_cons, ← List.map_cons, ← List.map_cons (f := get), List.getElem?_map, hk, List.getElem?_append_left (by
    have := (List.getElem?_eq_some_iff.mp ho).1
    simpa using this)] at h3
  simpa [ho] using h3

/-- C100, Xilinx: the input period given to the primitive, in nanoseconds, is that of the input frequency. -/
theorem C100_xilinx_period (iDomain oDomain : String) (iFreq oFreq : Rat) (s : Pll XilV XilOut)
    (h : pllNew xilinx7 iDomain iFreq oDomain oFreq = .ok s) (cs : List PllCall) (resetLess : Bool) :
    let I := iFreq.floor.toNat
    ∃ v p os t, pllRead xilinx7 (pllRun xilinx7 s cs) = .ok (some (v, p, os)) ∧
      dictGet (xilInst iDomain I resetLess v p os) "p_CLKIN1_PERIOD" = some (.num t) ∧ t * I = 1000000000 := by
  intro I
  obtain ⟨v, p, os, hr, hpd, hos, hlen, hnd⟩ := C52_slots_xilinx iDomain oDomain iFreq oFreq s h cs
  obtain ⟨v', os', hr', hleg, -⟩ := C51_xilinx_partial iDomain oDomain iFreq oFreq s h cs
  rw [hr] at hr'
  simp only [Except.ok.injEq, Option.some.injEq, Prod.mk.injEq] at hr'
  obtain ⟨rfl, rfl, rfl⟩ := hr'
  have hI : (I : Rat) ≠ 0 := by
    have := hleg.vco.1
    intro hz
    have hz' : ((iFreq.floor.toNat : Nat) : Rat) = 0 := hz
    rw [xilVco, hz'] at this; norm_num at this
  refine ⟨v, _, os, 1000000000 / I, hr, ?_, div_mul_cancel₀ _ hI⟩
  match os, hlen with
  | [], _ => cases resetLess <;> simp [xilInst, xilSlot, dictGet]
  | [a], _ => cases resetLess <;> simp [xilInst, xilSlot, dictGet]
  | [a, b], _ => cases resetLess <;> simp [xilInst, xilSlot, dictGet]
  | [a, b, c], _ => cases resetLess <;> simp [xilInst, xilSlot, dictGet]
  | [a, b, c, d], _ => cases resetLess <;> simp [xilInst, xilSlot, dictGet]
  | [a, b, c, d, e], _ => cases resetLess <;> simp [xilInst, xilSlot, dictGet]
  | _ :: _ :: _ :: _ :: _ :: _ :: _, hl => simp at hl

/-- A PLL from 100 to 100 MHz: 100 is noted for input and output, and the domains are driven. -/
example : ∃ s, pllNew ecp5 "i" (100000000 : Nat) "o" (100000000 : Nat) = .ok s ∧ ∃ v p os,
    let get := dictGet (ecpInst "i" 100000000 true false v p os)
    pllRead ecp5 (pllRun ecp5 s []) = .ok (some (v, p, os)) ∧ PrimNotes get "a_FREQUENCY_PIN_CLKI" 100000000 := by
  obtain ⟨s, hs⟩ := ecp_new_ok "i" "o" 100000000 100000000 (by norm_num) (by norm_num)
  obtain ⟨v, p, os, h1, h2, -⟩ := C100_ecp5_notes "i" "o" _ _ s hs [] true false
  rw [floor_natCast, Int.toNat_natCast] at h2
  exact ⟨s, hs, v, p, os, h1, by exact_mod_cast h2⟩

/-- A Xilinx PLL from 100 to 100 MHz: the outputs. -/
example : ∃ s, pllNew xilinx7 "i" (100000000 : Nat) "o" (100000000 : Nat) = .ok s ∧ ∃ v p os,
    let get := dictGet (xilInst "i" 100000000 false v p os)
    pllRead xilinx7 (pllRun xilinx7 s []) = .ok (some (v, p, os)) ∧
      pllePins.map (fun k => primDrives get k.1) = [some "o", none, none, none, none, none] ∧
      get "i_RST" = some (.rst "i") := by
  obtain ⟨s, hs⟩ := xil_new_ok "i" "o" 100000000 100000000 (by norm_num) (by norm_num)
  obtain ⟨v, p, os, h1, h2, -, -, -, -, -, h3, -⟩ := C100_xilinx_partial "i" "o" _ _ s hs [] false
  rw [floor_natCast, Int.toNat_natCast] at h2 h3
  exact ⟨s, hs, v, p, os, h1, h2, h3⟩

end Lambdalib
