import Verif.Props.I2cBus

/-! C37: `discover` with any device at the other end. -/

namespace Lambdalib

section
variable {σ : Type} (dev : PyDev σ)

/-- The device before probe `k`, probe `k` being the two bytes `2 * k`, 0 followed by a read of one byte. -/
def probeSt (s : σ) : Nat → σ
  | 0 => s
  | k + 1 => (dev.read 1 (dev.write [BitVec.ofNat 8 (2 * k), 0] (probeSt s k))).2

/-- The reply to probe `k`. -/
def probeReply (s : σ) (k : Nat) : List (BitVec 8) :=
  (dev.read 1 (dev.write [BitVec.ofNat 8 (2 * k), 0] (probeSt dev s k))).1

theorem probe_request (s : σ) (a : Nat) (ha : a < 128) : busRequest dev [(a : Int) * 2, 0] (probeSt dev s a) =
    (match probeReply dev s a with | [] => .error .indexError | b :: _ => .ok b, probeSt dev s (a + 1)) := by
  have hb : pyBytes [(a : Int) * 2, 0] = some [BitVec.ofNat 8 (2 * a), 0] := by
    rw [pyBytes_some]
    · have e : (a : Int) * 2 = ((2 * a : Nat) : Int) := by omega
      rw [e, List.map_cons, List.map_cons, BitVec.ofInt_natCast]
      rfl
    · intro v hv
      simp only [List.mem_cons, List.not_mem_nil, or_false] at hv
      omega
  rw [probeReply, probeSt, busRequest, hb]
  dsimp only
  cases (dev.read 1 (dev.write [BitVec.ofNat 8 (2 * a), 0] (probeSt dev s a))).1 <;> rfl

theorem discoverLoop_any (s : σ) (n : Nat) : ∀ a, a + n ≤ 128 →
    ((∀ k, a ≤ k → k < a + n → probeReply dev s k ≠ []) → discoverLoop dev n a (probeSt dev s a) =
      (.ok ((List.range' a n).filter (fun k => (probeReply dev s k).head? == some 0),
        (List.range' a n).flatMap (busMap fun k => (probeReply dev s k).head? == some 0)), probeSt dev s (a + n))) ∧
    (∀ k, a ≤ k → k < a + n → (∀ j, a ≤ j → j < k → probeReply dev s j ≠ []) → probeReply dev s k = [] →
      discoverLoop dev n a (probeSt dev s a) = (.error .indexError, probeSt dev s (k + 1))) := by
  induction n with
  | zero => exact fun a _ => ⟨fun _ => rfl, fun k h1 h2 => by omega⟩
  | succ n ih =>
    intro a ha
    obtain ⟨ih1, ih2⟩ := ih (a + 1) (by omega)
    have hreq := probe_request dev s a (by omega)
    refine ⟨fun h => ?_, fun k h1 h2 hj hk => ?_⟩
    · have h0 := h a (Nat.le_refl a) (by omega)
      rw [discoverLoop, hreq, List.range'_succ, List.filter_cons, List.flatMap_cons]
      cases hr : probeReply dev s a with
      | nil => exact absurd hr h0
      | cons b l =>
        simp only [pyBind]
        rw [ih1 fun k h1 h2 => h k (by omega) (by omega), show a + 1 + n = a + (n + 1) by omega]
        by_cases hb : b = 0
        · subst hb; simp [hr, busToks, busMap]
        · have hb' : ¬ b = 0#8 := hb
          simp [hr, hb', busToks, busMap]
    · rw [discoverLoop, hreq]
      by_cases e : k = a
      · subst e
        rw [hk]
        rfl
      · have h0 := hj a (Nat.le_refl a) (by omega)
        cases hr : probeReply dev s a with
        | nil => exact absurd hr h0
        | cons b l =>
          simp only [pyBind]
          rw [ih2 k (by omega) (by omega) (fun j h3 h4 => hj j (by omega) h4) hk]

/-- C37: with any device at the other end, `discover` sends one probe per address, in order, and fetches one byte after each; if all
replies come it returns exactly the addresses with reply zero and prints the map of them; at the first reply that does not come it stops
with `IndexError` and sends nothing more. -/
theorem C37_discover_any_device (s : σ) :
    ((∀ k < 128, probeReply dev s k ≠ []) → discover dev s =
      (.ok ((List.range 128).filter (fun k => (probeReply dev s k).head? == some 0),
        (List.range 128).flatMap (busMap fun k => (probeReply dev s k).head? == some 0)), probeSt dev s 128)) ∧
    (∀ k < 128, (∀ j < k, probeReply dev s j ≠ []) → probeReply dev s k = [] →
      discover dev s = (.error .indexError, probeSt dev s (k + 1))) := by
  obtain ⟨h1, h2⟩ := discoverLoop_any dev s 128 0 (by omega)
  rw [List.range_eq_range', discover]
  exact ⟨fun h => h1 fun k _ hk => h k (by omega),
    fun k hk hj he => h2 k (Nat.zero_le k) (by omega) (fun j _ h => hj j h) he⟩

end

/-! Concrete cases: a device that counts the bytes written and answers 0 to every third probe; and one that falls silent. -/

def probeDemo (quiet : Nat) : PyDev Nat :=
  ⟨fun b s => s + b.length, fun _ s => (if quiet < s then [] else [if s % 3 = 0 then 0 else 1], s)⟩

example : (∀ k < 128, probeReply (probeDemo 256) 0 k ≠ []) ∧
    ((List.range 128).filter fun k => (probeReply (probeDemo 256) 0 k).head? == some 0).take 3 = [2, 5, 8] := by decide +kernel

example : (∀ j < 4, probeReply (probeDemo 8) 0 j ≠ []) ∧ probeReply (probeDemo 8) 0 4 = [] ∧ probeSt (probeDemo 8) 0 5 = 10 := by
  decide +kernel

example : discover (probeDemo 8) 0 = (.error .indexError, 10) :=
  (C37_discover_any_device (probeDemo 8) 0).2 4 (by decide) (by decide +kernel) (by decide +kernel)

end Lambdalib
