import Verif.Model.UsbGeneric
import Verif.Props.UsbDevice
import Verif.Props.UsbEp

/-! Properties of `USBGenericDevice` (C113). -/

namespace Lambdalib

/-- Bytes with their `last` go through an adapter once and in order; at most `depth` are on the way. -/
def UsbLossless {σ : Type} (a : Circuit σ (SIn (BitVec 8)) (SOut (BitVec 8))) (depth : Nat) : Prop :=
  ∀ i n, ∃ q, (accepted a i n).map usbByte = (delivered a i n).map usbByte ++ q ∧ q.length ≤ depth

/-- C113: all four adapters of the library are so: those without FIFO at depth zero, those around a FIFO at its depth. -/
theorem C113_adapters {σ : Type} {depth : Nat} (f : Circuit σ (FifoIn (1 + (1 + 8))) (FifoOut (1 + (1 + 8)))) (hf : FifoContract f depth) :
    UsbLossless usbSyncAdapter 0 ∧ UsbLossless (usbAsyncOutAdapter f) depth ∧ UsbLossless (usbAsyncInAdapter f) depth :=
  ⟨fun i n => ⟨[], by rw [List.append_nil]; exact (C60_sync_adapter i n).symm, Nat.le_refl _⟩, C60_async_out_adapter f hf, C60_async_in_adapter f hf⟩

theorem usbEp_find (sizes : List (Nat × Nat)) (isIn : Bool) (k : Nat) (s : Nat × Nat) (hs : sizes[k]? = some s)
    (h0 : (if isIn then s.1 else s.2) ≠ 0) :
    usbEpOf sizes isIn k = some ⟨isIn, 1 + k, if isIn then s.1 else s.2, k⟩ ∧
    usbEpNum sizes isIn (1 + k) = some ⟨isIn, 1 + k, if isIn then s.1 else s.2, k⟩ := by
  have hm : (⟨isIn, 1 + k, if isIn then s.1 else s.2, k⟩ : UsbEp) ∈ usbEndpoints 0 sizes := by
    rw [usbEndpoints_mem]
    exact ⟨rfl, Nat.zero_le _, h0, s, hs, rfl⟩
  obtain ⟨_, hnum, huni⟩ := C56_endpoints sizes
  constructor
  · unfold usbEpOf
    cases h : (usbEndpoints 0 sizes).find? (fun e => e.isIn == isIn && e.stream == k) with
    | none =>
      rw [List.find?_eq_none] at h
      exact absurd (h _ hm) (by simp)
    | some e =>
      have h1 := List.mem_of_find?_eq_some h
      have h2 := List.find?_some h
      simp at h2
      exact congrArg some (huni e h1 _ hm h2.1 (by rw [hnum e h1, h2.2]; exact Nat.add_comm _ _))
  · unfold usbEpNum
    cases h : (usbEndpoints 0 sizes).find? (fun e => e.isIn == isIn && e.number == 1 + k) with
    | none =>
      rw [List.find?_eq_none] at h
      exact absurd (h _ hm) (by simp)
    | some e =>
      have h1 := List.mem_of_find?_eq_some h
      have h2 := List.find?_some h
      simp at h2
      exact congrArg some (huni e h1 _ hm h2.1 h2.2)

theorem usbEp_none (sizes : List (Nat × Nat)) (isIn : Bool) (k : Nat)
    (h0 : ∀ s, sizes[k]? = some s → (if isIn then s.1 else s.2) = 0) :
    usbEpOf sizes isIn k = none ∧ usbEpNum sizes isIn (1 + k) = none := by
  unfold usbEpOf usbEpNum
  simp only [List.find?_eq_none, usbEndpoints_mem]
  constructor
  · rintro e ⟨h1, _, h3, s, h4, h5⟩ h
    simp at h
    obtain ⟨rfl, rfl⟩ := h
    exact h3 (h5.trans (h0 s h4))
  · rintro e ⟨h1, _, h3, s, h4, h5⟩ h
    simp at h
    obtain ⟨rfl, h⟩ := h
    obtain rfl : e.stream = k := by omega
    exact h3 (h5.trans (h0 s h4))

section
variable {σ τ : Type} (ao : Circuit σ (SIn (BitVec 8)) (SOut (BitVec 8))) (ai : Circuit τ (SIn (BitVec 8)) (SOut (BitVec 8)))
  (sizes : List (Nat × Nat)) (i : Nat → UsbDevIn)

/-- Bytes that the host has sent to endpoint `j` and that were taken, with the ends of packets. -/
def usbHostSent (j n : Nat) : List (BitVec 8 × Bool) :=
  (transferred (fun t => ((i t).out j).1) (fun t => ((usbGeneric ao ai sizes).wave i t).outReady j) (fun t => ((i t).out j).2) n).map usbByte

/-- Bytes that the user has taken from `sources[k]`. -/
def usbUserGot (k n : Nat) : List (BitVec 8 × Bool) :=
  (transferred (fun t => (((usbGeneric ao ai sizes).wave i t).source k).1) (fun t => (i t).srcReady k)
    (fun t => (((usbGeneric ao ai sizes).wave i t).source k).2) n).map usbByte

/-- Bytes that the user has put into `sinks[k]`. -/
def usbUserSent (k n : Nat) : List (BitVec 8 × Bool) :=
  (transferred (fun t => ((i t).sink k).1) (fun t => ((usbGeneric ao ai sizes).wave i t).sinkReady k) (fun t => ((i t).sink k).2) n).map usbByte

/-- Bytes that luna's IN endpoint `j` has taken for the host. -/
def usbHostGot (j n : Nat) : List (BitVec 8 × Bool) :=
  (transferred (fun t => (((usbGeneric ao ai sizes).wave i t).inp j).1) (fun t => (i t).inReady j)
    (fun t => (((usbGeneric ao ai sizes).wave i t).inp j).2) n).map usbByte

theorem usbGeneric_st (e : UsbEp) (n : Nat) :
    ((usbGeneric ao ai sizes).st i n).1 e = ao.st (fun t => usbOutIn e (i t)) n ∧
    ((usbGeneric ao ai sizes).st i n).2 e = ai.st (fun t => usbInIn e (i t)) n := by
  induction n with
  | zero => exact ⟨rfl, rfl⟩
  | succ n ih =>
    simp only [Circuit.st_succ]
    rw [← ih.1, ← ih.2]
    exact ⟨rfl, rfl⟩

/-- The streams of an OUT endpoint are those of its adapter. -/
theorem usbGeneric_out (k : Nat) (s : Nat × Nat) (hs : sizes[k]? = some s) (h0 : s.2 ≠ 0) (n : Nat) :
    usbHostSent ao ai sizes i (k + 1) n = (accepted ao (fun t => usbOutIn ⟨false, 1 + k, s.2, k⟩ (i t)) n).map usbByte ∧
    usbUserGot ao ai sizes i k n = (delivered ao (fun t => usbOutIn ⟨false, 1 + k, s.2, k⟩ (i t)) n).map usbByte := by
  obtain ⟨h1, h2⟩ := usbEp_find sizes false k s hs h0
  constructor
  · unfold usbHostSent accepted
    rw [Nat.add_comm k 1]
    congr 1
    refine transferred_congr (fun t => rfl) (fun t => ?_) (fun t => rfl) n
    have := (usbGeneric_st ao ai sizes i ⟨false, 1 + k, s.2, k⟩ t).1
    simp only [Circuit.wave]
    rw [← this]
    simp only [usbGeneric, h2]
    rfl
  · unfold usbUserGot delivered
    congr 1
    refine transferred_congr (fun t => ?_) (fun t => rfl) (fun t => ?_) n
    all_goals
      have := (usbGeneric_st ao ai sizes i ⟨false, 1 + k, s.2, k⟩ t).1
      simp only [Circuit.wave]
      rw [← this]
      simp only [usbGeneric, usbSource, h1]
      rfl

/-- The streams of an IN endpoint are those of its adapter. -/
theorem usbGeneric_in (k : Nat) (s : Nat × Nat) (hs : sizes[k]? = some s) (h0 : s.1 ≠ 0) (n : Nat) :
    usbUserSent ao ai sizes i k n = (accepted ai (fun t => usbInIn ⟨true, 1 + k, s.1, k⟩ (i t)) n).map usbByte ∧
    usbHostGot ao ai sizes i (k + 1) n = (delivered ai (fun t => usbInIn ⟨true, 1 + k, s.1, k⟩ (i t)) n).map usbByte := by
  obtain ⟨h1, h2⟩ := usbEp_find sizes true k s hs h0
  constructor
  · unfold usbUserSent accepted
    congr 1
    refine transferred_congr (fun t => rfl) (fun t => ?_) (fun t => rfl) n
    have := (usbGeneric_st ao ai sizes i ⟨true, 1 + k, s.1, k⟩ t).2
    simp only [Circuit.wave]
    rw [← this]
    simp only [usbGeneric, usbSinkReady, h1]
    rfl
  · unfold usbHostGot delivered
    rw [Nat.add_comm k 1]
    congr 1
    refine transferred_congr (fun t => ?_) (fun t => rfl) (fun t => ?_) n
    all_goals
      have := (usbGeneric_st ao ai sizes i ⟨true, 1 + k, s.1, k⟩ t).2
      simp only [Circuit.wave]
      rw [← this]
      simp only [usbGeneric, h2]
      rfl

/-- **C113.** What the host sends to endpoint `k + 1` comes out at `sources[k]`, byte by byte with the ends of packets, once and in order;
at most the depth of the adapter is on the way, whatever happens at the other endpoints. -/
theorem C113_out {depth : Nat} (ho : UsbLossless ao depth) (k : Nat) (s : Nat × Nat) (hs : sizes[k]? = some s) (h0 : s.2 ≠ 0) (n : Nat) :
    ∃ q, usbHostSent ao ai sizes i (k + 1) n = usbUserGot ao ai sizes i k n ++ q ∧ q.length ≤ depth := by
  obtain ⟨q, hq, hl⟩ := ho (fun t => usbOutIn ⟨false, 1 + k, s.2, k⟩ (i t)) n
  obtain ⟨e1, e2⟩ := usbGeneric_out ao ai sizes i k s hs h0 n
  exact ⟨q, by rw [e1, e2, hq], hl⟩

/-- **C113.** What the user puts into `sinks[k]` gets to the IN endpoint `k + 1`, byte by byte with `last`, once and in order. -/
theorem C113_in {depth : Nat} (hi : UsbLossless ai depth) (k : Nat) (s : Nat × Nat) (hs : sizes[k]? = some s) (h0 : s.1 ≠ 0) (n : Nat) :
    ∃ q, usbUserSent ao ai sizes i k n = usbHostGot ao ai sizes i (k + 1) n ++ q ∧ q.length ≤ depth := by
  obtain ⟨q, hq, hl⟩ := hi (fun t => usbInIn ⟨true, 1 + k, s.1, k⟩ (i t)) n
  obtain ⟨e1, e2⟩ := usbGeneric_in ao ai sizes i k s hs h0 n
  exact ⟨q, by rw [e1, e2, hq], hl⟩

/-- **C113.** The activity bits are high exactly in the cycles in which a byte is put into `sinks[k]` or taken from `sources[k]`. -/
theorem C113_activity (k n : Nat) :
    (usbUserSent ao ai sizes i k (n + 1) ≠ usbUserSent ao ai sizes i k n ↔ ((usbGeneric ao ai sizes).wave i n).txActivity k = true) ∧
    (usbUserGot ao ai sizes i k (n + 1) ≠ usbUserGot ao ai sizes i k n ↔ ((usbGeneric ao ai sizes).wave i n).rxActivity k = true) := by
  have hlen : ∀ s : Nat × Nat, sizes[k]? = some s → decide (k < sizes.length) = true := by
    intro s hs
    rw [List.getElem?_eq_some_iff] at hs
    exact decide_eq_true hs.1
  have hadd : ∀ (l m : List (BitVec 8 × Bool)) (b : Bool) (x : BitVec 8 × Bool),
      m = l ++ (if b then [x] else []) → (m ≠ l ↔ b = true) := by
    rintro l m b x rfl
    cases b <;> simp
  constructor
  · have e : ((usbGeneric ao ai sizes).wave i n).txActivity k =
        (((i n).sink k).1 && ((usbGeneric ao ai sizes).wave i n).sinkReady k) := by
      cases hs : sizes[k]? with
      | none =>
        have h := (usbEp_none sizes true k (by rw [hs]; nofun)).1
        simp only [Circuit.wave, usbGeneric, usbSinkReady, h, Bool.and_false]
      | some s => simp only [Circuit.wave, usbGeneric, hlen s hs, Bool.true_and]
    rw [e]
    refine hadd _ _ _ (usbByte ((i n).sink k).2) ?_
    simp only [usbUserSent, transferred, List.map_append]
    split <;> rfl
  · have e : ((usbGeneric ao ai sizes).wave i n).rxActivity k =
        ((((usbGeneric ao ai sizes).wave i n).source k).1 && (i n).srcReady k) := by
      cases hs : sizes[k]? with
      | none =>
        have h := (usbEp_none sizes false k (by rw [hs]; nofun)).1
        simp only [Circuit.wave, usbGeneric, usbSource, h, Bool.false_and, Bool.and_false]
      | some s => simp only [Circuit.wave, usbGeneric, hlen s hs, Bool.true_and]
    rw [e]
    refine hadd _ _ _ (usbByte (((usbGeneric ao ai sizes).wave i n).source k).2) ?_
    simp only [usbUserGot, transferred, List.map_append]
    split <;> rfl

/-- C113: a direction of size zero is silent: nothing comes out at the source, nothing is ever taken from the sink. -/
theorem C113_unused (k n : Nat) (s : Nat × Nat) (hs : sizes[k]? = some s) :
    (s.2 = 0 → usbUserGot ao ai sizes i k n = [] ∧ usbHostSent ao ai sizes i (k + 1) n = []) ∧
    (s.1 = 0 → usbUserSent ao ai sizes i k n = [] ∧ usbHostGot ao ai sizes i (k + 1) n = []) := by
  have hf : ∀ (v r : Nat → Bool) (b : Nat → Beat (BitVec 8)), (∀ t, (v t && r t) = false) → (transferred v r b n).map usbByte = [] := by
    intro v r b h
    induction n with
    | zero => rfl
    | succ n ih => simp only [transferred, List.map_append, ih, h n]; rfl
  constructor
  · intro h0
    obtain ⟨h1, h2⟩ := usbEp_none sizes false k (by rw [hs]; rintro _ ⟨⟩; exact h0)
    refine ⟨hf _ _ _ fun t => ?_, hf _ _ _ fun t => ?_⟩
    · simp only [Circuit.wave, usbGeneric, usbSource, h1, Bool.false_and]
    · simp only [Nat.add_comm k 1, Circuit.wave, usbGeneric, h2, Bool.and_false]
  · intro h0
    obtain ⟨h1, h2⟩ := usbEp_none sizes true k (by rw [hs]; rintro _ ⟨⟩; exact h0)
    refine ⟨hf _ _ _ fun t => ?_, hf _ _ _ fun t => ?_⟩
    · simp only [Circuit.wave, usbGeneric, usbSinkReady, h1, Bool.and_false]
    · simp only [Nat.add_comm k 1, Circuit.wave, usbGeneric, h2, Bool.false_and]

end

/-! ### Attributes and request handlers -/

theorem nat_toString_inj (a b : Nat) (h : toString a = toString b) : a = b := by
  have h1 : (toString a).toList = (toString b).toList := by rw [h]
  simp only [toString, Nat.repr, String.toList_ofList] at h1
  have := congrArg (fun l => Nat.ofDigitChars 10 l 0) h1
  simpa using this

theorem sink_ne_source (a b : String) : "sink_" ++ a ≠ "source_" ++ b := by
  intro h
  have := congrArg (fun s => s.toList.take 2) h
  simp at this

theorem usbAttr_of_mem (pairs : Nat) (name : String) (a : UsbAttr) (h : (name, a) ∈ usbAttrs pairs) : usbGetAttr pairs name = some a := by
  have huni : ∀ b, (name, b) ∈ usbAttrs pairs → b = a := by
    intro b hb
    unfold usbAttrs at h hb
    split at h
    · rw [if_pos (by assumption)] at hb
      simp at h hb
      rcases h with ⟨rfl, rfl⟩ | ⟨rfl, rfl⟩ <;> simpa using hb
    · rw [if_neg (by assumption)] at hb
      simp only [List.mem_flatMap, List.mem_range, List.mem_cons, Prod.mk.injEq, List.not_mem_nil, or_false] at h hb
      obtain ⟨x, _, h⟩ := h
      obtain ⟨y, _, hb⟩ := hb
      rcases h with ⟨rfl, rfl⟩ | ⟨rfl, rfl⟩ <;> rcases hb with ⟨h1, rfl⟩ | ⟨h1, rfl⟩
      · rw [nat_toString_inj x y (by simpa using h1)]
      · exact absurd h1 (sink_ne_source _ _)
      · exact absurd h1.symm (sink_ne_source _ _)
      · rw [nat_toString_inj x y (by simpa using h1)]
  unfold usbGetAttr
  cases hf : (usbAttrs pairs).reverse.find? (fun a => a.1 == name) with
  | none =>
    rw [List.find?_eq_none] at hf
    exact absurd (hf (name, a) (List.mem_reverse.2 h)) (by simp)
  | some b =>
    have h1 := List.mem_reverse.1 (List.mem_of_find?_eq_some hf)
    have h2 := List.find?_some hf
    obtain ⟨n, b⟩ := b
    simp at h2
    subst h2
    exact congrArg some (huni b h1)

/-- **C113.** The streams by name: `sink` and `source` with one pair, else `sink_k` and `source_k` for every pair. -/
theorem C113_attributes (pairs k : Nat) (hk : k < pairs) (isSink : Bool) :
    usbGetAttr pairs ((if isSink then "sink" else "source") ++ if pairs = 1 then "" else "_" ++ toString k) = some ⟨isSink, k⟩ := by
  apply usbAttr_of_mem
  unfold usbAttrs
  by_cases h : pairs = 1
  · subst h
    obtain rfl : k = 0 := by omega
    cases isSink <;> decide
  · rw [if_neg (by simpa using h), if_neg h]
    simp only [List.mem_flatMap, List.mem_range]
    refine ⟨k, hk, ?_⟩
    cases isSink
    · simp only [Bool.false_eq_true, if_false]
      rw [← String.append_assoc]
      exact List.mem_cons_of_mem _ (List.mem_cons_self ..)
    · simp only [if_true]
      rw [← String.append_assoc]
      exact List.mem_cons_self ..

/-- **C113.** The control endpoint has the handlers of the user, in order, and after them one for the Microsoft descriptors if these are
asked for: for interface 0, or for the interfaces listed. -/
theorem C113_handlers (m : UsbMsft) (user : List Nat) :
    (usbHandlers m user).take user.length = user.map .user ∧
    (usbHandlers m user).drop user.length = match m with
      | .flag false => []
      | .flag true => [.msft [0]]
      | .list [] => []
      | .list (a :: l) => [.msft (a :: l)] := by
  have h : ∀ l, (user.map UsbHandler.user ++ l).take user.length = user.map .user ∧ (user.map UsbHandler.user ++ l).drop user.length = l := by
    intro l
    have := List.length_map (as := user) UsbHandler.user
    exact ⟨by rw [← this, List.take_left], by rw [← this, List.drop_left]⟩
  match m with
  | .flag false => have := h []; rw [List.append_nil] at this; exact this
  | .flag true => exact h [.msft [0]]
  | .list [] => have := h []; rw [List.append_nil] at this; exact this
  | .list (a :: l) => exact h [.msft (a :: l)]

/-! ### Examples -/

/-- Two pairs, the second with an OUT endpoint only: bytes for endpoints 1 and 2 at the same time. -/
def usbGenericDemo (t : Nat) : UsbDevIn :=
  { out := fun j => (t < 2, ⟨false, t == 1, BitVec.ofNat 8 (16 * j + t)⟩)
    inReady := fun _ => true
    sink := fun k => (t == 1, ⟨false, true, BitVec.ofNat 8 (0x80 + k)⟩)
    srcReady := fun _ => 3 ≤ t }

example :
    let ao := usbAsyncOutAdapter (queueFifo (1 + (1 + 8)) 8)
    let ai := usbAsyncInAdapter (queueFifo (1 + (1 + 8)) 8)
    let z := [(512, 512), (0, 64)]
    usbUserGot ao ai z usbGenericDemo 0 6 = [(0x10, false), (0x11, true)] ∧
    usbUserGot ao ai z usbGenericDemo 1 6 = [(0x20, false), (0x21, true)] ∧
    usbHostGot ao ai z usbGenericDemo 1 6 = [(0x80, true)] ∧
    usbUserSent ao ai z usbGenericDemo 1 6 = [] ∧
    ((usbGeneric ao ai z).wave usbGenericDemo 3).rxActivity 1 = true ∧ ((usbGeneric ao ai z).wave usbGenericDemo 2).rxActivity 1 = false := by
  decide +kernel

example : usbGetAttr 12 "sink_11" = some ⟨true, 11⟩ ∧ usbGetAttr 1 "source" = some ⟨false, 0⟩ ∧ usbGetAttr 2 "sink" = none := by decide +kernel

end Lambdalib
