import Verif.Spec.Layout
import Verif.Lemmas.List

/-! C07, C08, C63, C67: endpoint layouts, FIFO wrappers, converter stages. -/

namespace Lambdalib

theorem checkLayout_ok (l : Layout) (seen : List String) :
    checkLayout seen l = .ok () ↔
      l.topNames.Nodup ∧ ∀ n ∈ l.topNames, n ∉ seen ∧ n ∉ reservedNames := by
  have step : ∀ (n : String) (r : Layout) (seen : List String),
      (∀ seen, checkLayout seen r = .ok () ↔
        r.topNames.Nodup ∧ ∀ n ∈ r.topNames, n ∉ seen ∧ n ∉ reservedNames) →
      ((if n ∈ seen then Except.error (n ++ " already attributed in payload layout")
        else if n ∈ reservedNames then .error (n ++ " cannot be used in endpoint layout")
        else checkLayout (n :: seen) r) = .ok () ↔
      (n :: r.topNames).Nodup ∧ ∀ m ∈ n :: r.topNames, m ∉ seen ∧ m ∉ reservedNames) := by
    intro n r seen ih
    by_cases h1 : n ∈ seen
    · simp [h1]
    by_cases h2 : n ∈ reservedNames
    · simp [h1, h2]
    rw [if_neg h1, if_neg h2, ih]
    simp only [List.nodup_cons, List.mem_cons, not_or]
    constructor
    · rintro ⟨a, b⟩
      refine ⟨⟨fun h => (b n h).1.1 rfl, a⟩, ?_⟩
      rintro m (rfl | hm)
      · exact ⟨h1, h2⟩
      · exact ⟨(b m hm).1.2, (b m hm).2⟩
    · rintro ⟨⟨a1, a2⟩, b⟩
      refine ⟨a2, fun m hm => ⟨⟨?_, (b m (.inr hm)).1⟩, (b m (.inr hm)).2⟩⟩
      rintro rfl; exact a1 hm
  induction l generalizing seen with
  | nil => simp [checkLayout, Layout.topNames]
  | leaf n w r ih => exact step n r seen ih
  | sub n i r _ ih => exact step n r seen ih

/-- C07: an endpoint can be built exactly when the payload's field names are pairwise distinct and
none is a reserved stream name. -/
theorem C07_layout_accepts (l : Layout) :
    (∃ d, getFullLayout l = .ok d) ↔
      l.topNames.Nodup ∧ ∀ n ∈ l.topNames, n ∉ ["valid", "ready", "first", "last", "payload"] := by
  have h := checkLayout_ok l []
  simp only [List.not_mem_nil, not_false_eq_true, true_and] at h
  have h' : (∃ d, getFullLayout l = .ok d) ↔ checkLayout [] l = .ok () := by
    unfold getFullLayout
    cases hc : checkLayout [] l with
    | error e => simp [bind, Except.bind]
    | ok u => simp [bind, Except.bind, pure, Except.pure]
  rw [h', h]; rfl

theorem makeFanout_signals (l : Layout) :
    (makeFanout l).signals = l.signals.map fun p => (p.1, p.2, Dir.fanout) := by
  induction l with
  | nil => rfl
  | leaf n w r ih => simp [makeFanout, DLayout.signals, Layout.signals, ih]
  | sub n i r ih1 ih2 =>
    simp [makeFanout, DLayout.signals, Layout.signals, ih1, ih2, Function.comp_def]

/-- C07: an endpoint consists of the four one-bit control signals and the payload signals, in order
and with their widths. -/
theorem C07_layout_signals (l : Layout) (d : DLayout) (h : getFullLayout l = .ok d) :
    d.signals = [(["valid"], 1, .fanout), (["ready"], 1, .fanin), (["first"], 1, .fanout),
      (["last"], 1, .fanout)] ++ l.signals.map fun p => ("payload" :: p.1, p.2, .fanout) := by
  unfold getFullLayout at h
  cases hc : checkLayout [] l with
  | error e => rw [hc] at h; simp [bind, Except.bind] at h
  | ok u =>
    rw [hc] at h
    simp only [bind, Except.bind, pure, Except.pure, Except.ok.injEq] at h
    subst h
    simp [DLayout.signals, makeFanout_signals, Function.comp_def]

/-- C07: `ready` is the only signal flowing backwards. -/
theorem C07_layout_ready_only (l : Layout) (d : DLayout) (h : getFullLayout l = .ok d)
    (p : List String) (w : Nat) (hp : (p, w, Dir.fanin) ∈ d.signals) : p = ["ready"] ∧ w = 1 := by
  rw [C07_layout_signals l d h] at hp
  simp at hp
  exact hp

example : ∃ d, getFullLayout (.leaf "data" 8 (.sub "hdr" (.leaf "a" 1 .nil) .nil)) = .ok d := by
  rw [C07_layout_accepts]; decide
example : ¬ ∃ d, getFullLayout (.leaf "data" 8 (.leaf "data" 1 .nil)) = .ok d := by
  rw [C07_layout_accepts]; decide

/-- C67 (full claim, refuted): a payload field may be hidden by a Python attribute of the endpoint. -/
theorem C67_payload_reachable_refuted :
    ¬ ∀ (l : Layout) (d : DLayout), getFullLayout l = .ok d → ∀ n ∈ l.topNames,
      getAttr d n = .payloadField := by
  intro h
  have := h (.leaf "description" 8 .nil) _ rfl "description" (by decide)
  revert this; decide

/-- C67 (which fields are hidden): a payload may have fields of these three names, and none of them is reached. -/
theorem C67_hidden : ∀ n ∈ ["description", "bfm_send", "bfm_read"],
    ∃ d, getFullLayout (.leaf n 8 .nil) = .ok d ∧ getAttr d n = .pyAttr := by
  intro n hn
  simp only [List.mem_cons, List.not_mem_nil, or_false] at hn
  rcases hn with rfl | rfl | rfl <;> exact ⟨_, rfl, by decide⟩

theorem makeFanout_names (l : Layout) : (makeFanout l).names = l.topNames := by
  induction l with
  | nil => rfl
  | leaf n w r ih => simp [makeFanout, DLayout.names, Layout.topNames, ih]
  | sub n i r _ ih => simp [makeFanout, DLayout.names, Layout.topNames, ih]

/-- C67 (partial): every payload field whose name is not a Python attribute of the endpoint is
reached by attribute access; it is never shadowed by a stream signal. -/
theorem C67_payload_reachable_partial (l : Layout) (d : DLayout) (h : getFullLayout l = .ok d)
    (n : String) (hn : n ∈ l.topNames) (ha : n ∉ ["description", "bfm_send", "bfm_read"]) : getAttr d n = .payloadField := by
  replace ha : n ∉ endpointAttrs := ha
  have hres := ((C07_layout_accepts l).1 ⟨d, h⟩).2 n hn
  unfold getFullLayout at h
  cases hc : checkLayout [] l with
  | error e => rw [hc] at h; simp [bind, Except.bind] at h
  | ok u =>
    rw [hc] at h
    simp only [bind, Except.bind, pure, Except.pure, Except.ok.injEq] at h
    subst h
    simp only [getAttr, if_neg ha]
    rw [if_neg (by simpa [DLayout.names] using hres)]
    simp [DLayout.payload, makeFanout_names, hn]

/-! ### FIFO -/

/-- C08: packing a beat in a FIFO word and unpacking it is the identity. -/
theorem C08_fifo_pack_unpack {w : Nat} (b : Beat (BitVec w)) : unpackBeat (packBeat b) = b := by
  obtain ⟨f, l, p⟩ := b
  simp only [unpackBeat, packBeat, Beat.mk.injEq]
  refine ⟨?_, ?_, ?_⟩
  · rw [BitVec.getLsbD_append, if_pos (by omega), BitVec.getLsbD_append, if_neg (by omega)]
    simp
  · rw [BitVec.getLsbD_append, if_neg (by omega)]
    simp
  · ext k hk
    rw [BitVec.getElem_extractLsb', Nat.zero_add, BitVec.getLsbD_append, if_pos (by omega),
      BitVec.getLsbD_append, if_pos hk, BitVec.getLsbD_eq_getElem]

theorem fifoWrapper_st {σ : Type} {w : Nat}
    (f : Circuit σ (FifoIn (1 + (1 + w))) (FifoOut (1 + (1 + w)))) (i : Nat → SIn (BitVec w))
    (n : Nat) : (fifoWrapper f).st i n = f.st (fun k => fifoDrive (i k)) n := by
  induction n with
  | zero => rfl
  | succ n ih => rw [Circuit.st_succ, Circuit.st_succ, ih]; rfl

theorem fifoWrapper_wave {σ : Type} {w : Nat}
    (f : Circuit σ (FifoIn (1 + (1 + w))) (FifoOut (1 + (1 + w)))) (i : Nat → SIn (BitVec w))
    (n : Nat) : (fifoWrapper f).wave i n =
      ⟨(f.wave (fun k => fifoDrive (i k)) n).wRdy, (f.wave (fun k => fifoDrive (i k)) n).rRdy,
        unpackBeat (f.wave (fun k => fifoDrive (i k)) n).rData⟩ := by
  simp only [Circuit.wave, fifoWrapper_st]; rfl

/-- C08: around any FIFO satisfying the contract, whole beats come out in order and unchanged, at
most `depth` beats are stored, and the offered beat is the oldest stored one. -/
theorem C08_fifo_lossless {σ : Type} {w depth : Nat}
    (f : Circuit σ (FifoIn (1 + (1 + w))) (FifoOut (1 + (1 + w)))) (hf : FifoContract f depth)
    (i : Nat → SIn (BitVec w)) (n : Nat) :
    ∃ q, accepted (fifoWrapper f) i n = delivered (fifoWrapper f) i n ++ q ∧ q.length ≤ depth ∧
      (((fifoWrapper f).wave i n).valid = true →
        q.head? = some ((fifoWrapper f).wave i n).beat) := by
  obtain ⟨q, h1, h2, h3⟩ := hf.order (fun k => fifoDrive (i k)) n
  have hA : accepted (fifoWrapper f) i n
      = (fifoWritten f (fun k => fifoDrive (i k)) n).map unpackBeat := by
    clear h1 h2 h3
    induction n with
    | zero => rfl
    | succ n ih =>
      have e1 : accepted (fifoWrapper f) i (n + 1) = accepted (fifoWrapper f) i n ++
        (if (i n).valid && ((fifoWrapper f).wave i n).ready then [(i n).beat] else []) := rfl
      have e2 : fifoWritten f (fun k => fifoDrive (i k)) (n + 1) =
        fifoWritten f (fun k => fifoDrive (i k)) n ++
        (if (i n).valid && (f.wave (fun k => fifoDrive (i k)) n).wRdy
          then [packBeat (i n).beat] else []) := rfl
      rw [e1, e2, ih, List.map_append, fifoWrapper_wave]
      congr 1
      split <;> simp [C08_fifo_pack_unpack]
  have hD : delivered (fifoWrapper f) i n
      = (fifoRead f (fun k => fifoDrive (i k)) n).map unpackBeat := by
    clear h1 h2 h3 hA
    induction n with
    | zero => rfl
    | succ n ih =>
      have e1 : delivered (fifoWrapper f) i (n + 1) = delivered (fifoWrapper f) i n ++
        (if ((fifoWrapper f).wave i n).valid && (i n).ready
          then [((fifoWrapper f).wave i n).beat] else []) := rfl
      have e2 : fifoRead f (fun k => fifoDrive (i k)) (n + 1) =
        fifoRead f (fun k => fifoDrive (i k)) n ++
        (if (f.wave (fun k => fifoDrive (i k)) n).rRdy && (i n).ready
          then [(f.wave (fun k => fifoDrive (i k)) n).rData] else []) := rfl
      rw [e1, e2, ih, List.map_append, fifoWrapper_wave]
      congr 1
      split <;> simp
  refine ⟨q.map unpackBeat, ?_, by simpa using h2, ?_⟩
  · rw [hA, hD, h1, List.map_append]
  · intro hv
    rw [fifoWrapper_wave] at hv ⊢
    rw [List.head?_map, h3 hv]; rfl

/-- C08: a beat offered on the source stays offered, unchanged, until it is taken. -/
theorem C08_fifo_stable {σ : Type} {w depth : Nat}
    (f : Circuit σ (FifoIn (1 + (1 + w))) (FifoOut (1 + (1 + w)))) (hf : FifoContract f depth)
    (i : Nat → SIn (BitVec w)) : SourceStable (fifoWrapper f) i := by
  intro n hv hr
  beta_reduce at hv hr ⊢
  obtain ⟨q, h1, h2, h3⟩ := C08_fifo_lossless f hf i n
  obtain ⟨q', h1', h2', h3'⟩ := C08_fifo_lossless f hf i (n + 1)
  have hv' : ((fifoWrapper f).wave i (n + 1)).valid = true := by
    have := hf.stable (fun k => fifoDrive (i k)) n
    rw [fifoWrapper_wave] at hv ⊢
    exact this hv hr
  refine ⟨hv', ?_⟩
  have hh := h3 hv
  have hh' := h3' hv'
  have e1 : accepted (fifoWrapper f) i (n + 1) = accepted (fifoWrapper f) i n ++
    (if (i n).valid && ((fifoWrapper f).wave i n).ready then [(i n).beat] else []) := rfl
  have e2 : delivered (fifoWrapper f) i (n + 1) = delivered (fifoWrapper f) i n := by
    have : delivered (fifoWrapper f) i (n + 1) = delivered (fifoWrapper f) i n ++
        (if ((fifoWrapper f).wave i n).valid && (i n).ready
          then [((fifoWrapper f).wave i n).beat] else []) := rfl
    rw [this]
    have hr' : (i n).ready = false := hr
    simp [hr']
  rw [h1', e2] at e1
  rw [h1, List.append_assoc] at e1
  have hq := List.append_cancel_left e1
  rw [hq] at hh'
  cases q with
  | nil => cases hh
  | cons b q =>
    simp only [List.head?_cons, Option.some.injEq, List.cons_append] at hh hh'
    rw [← hh', hh]

/-- C08: the reference queue meets the contract (so the contract is satisfiable for any depth). -/
theorem C08_fifo_contract_inhabited (w depth : Nat) : FifoContract (queueFifo w depth) depth := by
  constructor
  · intro i n
    refine ⟨(queueFifo w depth).st i n, ?_⟩
    suffices h : fifoWritten (queueFifo w depth) i n =
        fifoRead (queueFifo w depth) i n ++ (queueFifo w depth).st i n ∧
        ((queueFifo w depth).st i n).length ≤ depth by
      refine ⟨h.1, h.2, ?_⟩
      intro hr
      simp only [Circuit.wave] at *
      generalize (queueFifo w depth).st i n = q at *
      cases q with
      | nil => simp [queueFifo] at hr
      | cons x q => simp [queueFifo]
    induction n with
    | zero => simp [fifoWritten, fifoRead, queueFifo]
    | succ n ih =>
      have e1 : fifoWritten (queueFifo w depth) i (n + 1) = fifoWritten (queueFifo w depth) i n ++
        (if (i n).wEn && decide (((queueFifo w depth).st i n).length < depth)
          then [(i n).wData] else []) := rfl
      have e2 : fifoRead (queueFifo w depth) i (n + 1) = fifoRead (queueFifo w depth) i n ++
        (if !((queueFifo w depth).st i n).isEmpty && (i n).rEn
          then [((queueFifo w depth).st i n).headD 0] else []) := rfl
      have e3 : (queueFifo w depth).st i (n + 1) =
        (if (i n).rEn then ((queueFifo w depth).st i n).tail else (queueFifo w depth).st i n) ++
        (if (i n).wEn && decide (((queueFifo w depth).st i n).length < depth)
          then [(i n).wData] else []) := rfl
      rw [e1, e2, e3, ih.1]
      have hlen := ih.2
      generalize (queueFifo w depth).st i n = q at *
      constructor
      · cases q with
        | nil => simp
        | cons x q => cases (i n).rEn <;> simp
      · rw [List.length_append]
        by_cases hw : ((i n).wEn && decide (q.length < depth)) = true
        · rw [if_pos hw]
          simp at hw
          split <;> simp <;> omega
        · rw [if_neg hw]
          split <;> simp <;> omega
  · intro i n hr hen
    have e3 : (queueFifo w depth).st i (n + 1) =
        (if (i n).rEn then ((queueFifo w depth).st i n).tail else (queueFifo w depth).st i n) ++
        (if (i n).wEn && decide (((queueFifo w depth).st i n).length < depth)
          then [(i n).wData] else []) := rfl
    have e4 : (!((queueFifo w depth).st i n).isEmpty) = true := hr
    change (!((queueFifo w depth).st i (n + 1)).isEmpty) = true
    rw [e3, hen]
    generalize (queueFifo w depth).st i n = q at *
    cases q with
    | nil => simp at e4
    | cons x q => simp

/-- C08: the effective depth. -/
theorem C08_fifo_depth (d : Nat) : fifoDepth d = max d 8 := by
  unfold fifoDepth; split <;> omega

example : delivered (fifoWrapper (queueFifo (1 + (1 + 8)) (fifoDepth 2)))
    (fun n => ⟨n < 2, ⟨n = 0, n = 1, BitVec.ofNat 8 (n + 5)⟩, 2 ≤ n⟩) 4
    = [⟨true, false, 5⟩, ⟨false, true, 6⟩] := by decide

/-! ### Converter stages -/

/-- C63 (full claim, refuted): with the width converter placed after the clock crossing, it is still
clocked by the input domain. -/
theorem C63_converter_domains_refuted :
    ¬ ∀ (a b : Nat) (cdFrom cdTo : String) (first : Bool),
      wellClocked cdFrom cdTo (converterStages a b cdFrom cdTo first) := by
  intro h
  have := h 8 32 "usb" "sync" false
  revert this; decide

/-- C63 (partial): the chain is correctly clocked when the width converter comes first, when there is
no crossing, or when there is no width change. Missing: width change after a crossing, where the claim
is false. -/
theorem C63_converter_domains_partial (a b : Nat) (cdFrom cdTo : String) (first : Bool)
    (h : first = true ∨ cdFrom = cdTo ∨ a = b) :
    wellClocked cdFrom cdTo (converterStages a b cdFrom cdTo first) := by
  unfold converterStages putWidth putCross
  by_cases h1 : cdFrom = cdTo <;> by_cases h2 : a = b <;> cases first <;>
    simp_all [wellClocked, Stage.inDomain, Stage.outDomain]

/-- C63 (partial): it fails exactly in the remaining case. -/
theorem C63_converter_domains_exact_partial (a b : Nat) (cdFrom cdTo : String) (first : Bool) :
    wellClocked cdFrom cdTo (converterStages a b cdFrom cdTo first) ↔
      first = true ∨ cdFrom = cdTo ∨ a = b := by
  refine ⟨fun h => ?_, C63_converter_domains_partial a b cdFrom cdTo first⟩
  unfold converterStages putWidth putCross at h
  by_cases h1 : cdFrom = cdTo <;> by_cases h2 : a = b <;> cases first <;>
    simp_all [wellClocked, Stage.inDomain, Stage.outDomain]

example : converterStages 8 32 "usb" "sync" true = [.width "usb", .cross "usb" "sync"] := by decide

end Lambdalib
