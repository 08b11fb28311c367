import Verif.Spec.ForkJoin
import Verif.Props.Stages
import Verif.Props.UsbEp

/-! C124: fork and join with `Splitter` and `Merger`. -/

namespace Lambdalib

section
variable (ls : List (List String)) {σ : Nat → Type} (c : ∀ k, Circuit (σ k) (SIn Fields) (SOut Fields)) (i : Nat → SIn Fields)

/-- The inputs of the parts. -/
def fjS (n : Nat) : SplitIn := forkSplitIn ls c ((forkJoin ls c).st i n) (i n)
def fjB (k n : Nat) : SIn Fields := forkMidIn ls c ((forkJoin ls c).st i n) (i n) k
def fjM (n : Nat) : MergeIn := forkMergeIn ls c ((forkJoin ls c).st i n) (i n)

theorem fj_st (n : Nat) : (forkJoin ls c).st i n =
    ((splitter ls).st (fjS ls c i) n, fun k => (c k).st (fjB ls c i k) n, (merger ls).st (fjM ls c i) n) := by
  induction n with
  | zero => rfl
  | succ n ih =>
    have h1 : (splitter ls).st (fjS ls c i) n = ((forkJoin ls c).st i n).1 := by rw [ih]
    have h2 : ∀ k, (c k).st (fjB ls c i k) n = ((forkJoin ls c).st i n).2.1 k := by intro k; rw [ih]
    have h3 : (merger ls).st (fjM ls c i) n = ((forkJoin ls c).st i n).2.2 := by rw [ih]
    rw [Circuit.st_succ, Circuit.st_succ, Circuit.st_succ, h1, h3]
    simp only [Circuit.st_succ, h2]
    rfl

theorem fj_wS (n : Nat) : (splitter ls).wave (fjS ls c i) n = (splitter ls).out ((forkJoin ls c).st i n).1 (fjS ls c i n) := by
  rw [fj_st]; rfl

theorem fj_wB (k n : Nat) : (c k).wave (fjB ls c i k) n = (c k).out (((forkJoin ls c).st i n).2.1 k) (fjB ls c i k n) := by
  rw [fj_st]; rfl

theorem fj_wM (n : Nat) : (merger ls).wave (fjM ls c i) n = (merger ls).out ((forkJoin ls c).st i n).2.2 (fjM ls c i n) := by
  rw [fj_st]; rfl

theorem fj_wave (n : Nat) : (forkJoin ls c).wave i n = ⟨((splitter ls).wave (fjS ls c i) n).ready,
    ((merger ls).wave (fjM ls c i) n).valid, ((merger ls).wave (fjM ls c i) n).beat⟩ := by
  rw [fj_wS, fj_wM]; rfl

theorem fj_accepted (n : Nat) : accepted (forkJoin ls c) i n = splitAccepted ls (fjS ls c i) n := by
  rw [accepted, splitAccepted]
  simp only [fj_wave]
  rfl

theorem fj_delivered (n : Nat) : delivered (forkJoin ls c) i n = mergeDelivered ls (fjM ls c i) n := by
  rw [delivered, mergeDelivered]
  simp only [fj_wave]
  rfl

theorem fj_shown (n : Nat) : shown (forkJoin ls c) i n = mergeOut ls (fjM ls c i) n := by
  rw [shown, mergeOut, fj_delivered, fj_wave]

/-- The beat of a source as a record. -/
def partFields (b : Beat (List (String × Nat))) : Beat Fields := ⟨b.first, b.last, fieldsOf b.payload⟩

theorem fj_branch_in (k n : Nat) : (fjB ls c i k n).valid = ((splitter ls).wave (fjS ls c i) n).valid k ∧
    (fjB ls c i k n).beat = partFields (((splitter ls).wave (fjS ls c i) n).beat k) ∧
    (fjB ls c i k n).ready = ((merger ls).wave (fjM ls c i) n).ready k ∧
    ((c k).wave (fjB ls c i k) n).ready = (fjS ls c i n).ready k := by
  rw [fj_wS, fj_wM, fj_wB]
  exact ⟨rfl, rfl, rfl, rfl⟩

theorem fj_branch_accepted (k n : Nat) :
    accepted (c k) (fjB ls c i k) n = (splitDelivered ls (fjS ls c i) k n).map partFields := by
  rw [splitDelivered, transferred_map, accepted]
  simp only [(fj_branch_in ls c i k _).1, (fj_branch_in ls c i k _).2.1, (fj_branch_in ls c i k _).2.2.2]

theorem fj_merge_in (k n : Nat) (h : Branch (c k)) : (fjM ls c i n).valid k = ((c k).wave (fjB ls c i k) n).valid ∧
    (fjM ls c i n).beat k = ((c k).wave (fjB ls c i k) n).beat := by
  rw [fj_wB]
  exact h.shows _ _ _ _ _

theorem fj_branch_delivered (k n : Nat) (h : Branch (c k)) :
    delivered (c k) (fjB ls c i k) n = mergeAccepted ls (fjM ls c i) k n := by
  rw [mergeAccepted, delivered]
  simp only [(fj_merge_in ls c i k _ h).1, (fj_merge_in ls c i k _ h).2, (fj_branch_in ls c i k _).2.2.1]

theorem fj_split_stable (hs : SinkStable (forkJoin ls c) i) : SplitStable ls (fjS ls c i) := by
  intro n hv hr
  refine hs n hv ?_
  beta_reduce
  rw [fj_wave]
  exact hr

theorem fj_branch_stable (hs : SinkStable (forkJoin ls c) i) (k : Nat) (hk : k < ls.length) : SinkStable (c k) (fjB ls c i k) := by
  intro n hv hr
  beta_reduce at hv hr ⊢
  rw [(fj_branch_in ls c i k n).1] at hv
  rw [(fj_branch_in ls c i k n).2.2.2] at hr
  have := C10_splitter_source_stable ls _ (fj_split_stable ls c i hs) k hk n hv hr
  rw [(fj_branch_in ls c i k _).1, (fj_branch_in ls c i k _).2.1, (fj_branch_in ls c i k _).2.1]
  exact ⟨this.1, congrArg partFields this.2⟩

theorem fj_merge_stable (hs : SinkStable (forkJoin ls c) i) (k : Nat) (hk : k < ls.length) (h : Branch (c k)) :
    Stable (fun n => (fjM ls c i n).valid k) (fun n => ((merger ls).wave (fjM ls c i) n).ready k) (fun n => (fjM ls c i n).beat k) := by
  have := h.stable _ (fj_branch_stable ls c i hs k hk)
  intro n hv hr
  beta_reduce at hv hr ⊢
  rw [(fj_merge_in ls c i k _ h).1] at hv ⊢
  rw [(fj_merge_in ls c i k _ h).2, (fj_merge_in ls c i k _ h).2]
  exact this n hv ((fj_branch_in ls c i k n).2.2.1.trans hr)

theorem lookup_fields (l : List String) (p : Fields) (f : String) (hf : f ∈ l) : fieldsOf (l.map fun g => (g, p g)) f = p f := by
  induction l with
  | nil => cases hf
  | cons g l ih =>
    rw [fieldsOf, List.map_cons, List.lookup_cons]
    by_cases h : f = g
    · subst h; simp
    · have h2 : (f == g) = false := by simpa using h
      rw [h2]
      exact ih ((List.mem_cons.1 hf).resolve_left h)

variable (hn : ls ≠ []) (hc : mergerCheck ls = .ok ()) (hb : ∀ k < ls.length, Branch (c k)) (hs : SinkStable (forkJoin ls c) i)

include hn hb hs in
/-- What a branch has given is the first part of its fields of what was presented. -/
theorem fj_branch_prefix (k n : Nat) (hk : k < ls.length) : mergeAccepted ls (fjM ls c i) k n <+:
    (presented (forkJoin ls c) i n).map (fun b => partFields (projBeat ls[k] b)) := by
  rw [← fj_branch_delivered ls c i k n (hb k hk)]
  obtain ⟨q, e⟩ := (hb k hk).order (fjB ls c i k) n
  have h1 : delivered (c k) (fjB ls c i k) n <+: accepted (c k) (fjB ls c i k) n := ⟨q, e.symm⟩
  refine h1.trans ?_
  have h2 := (split_inv ls hn _ (fj_split_stable ls c i hs) n).2 k hk
  rw [fj_branch_accepted, h2.2, presented, fj_accepted, List.map_append, List.map_append, List.map_map]
  refine (List.prefix_append_right_inj _).2 ?_
  cases hd : (splitter ls).st (fjS ls c i) n k with
  | false => exact List.nil_prefix
  | true =>
    have hv : (i n).valid = true := h2.1 hd
    rw [hv]
    exact ⟨[], rfl⟩

include hn hc hb hs in
/-- C124 (order): the beats delivered and on offer have the delimiters and fields of the first beats presented. -/
theorem C124_order (n : Nat) : ∃ x, x <+: presented (forkJoin ls c) i n ∧
    List.Forall₂ (SameIn ls.flatten) (shown (forkJoin ls c) i n) x := by
  rw [fj_shown]
  obtain ⟨hlen, hm⟩ := C11_merger_combines ls hn hc (fjM ls c i) n
  have hpos : 0 < ls.length := List.length_pos_iff.2 hn
  have hp := fun k hk => fj_branch_prefix ls c i hn hb hs k n hk
  have hle : (mergeOut ls (fjM ls c i) n).length ≤ (presented (forkJoin ls c) i n).length := by
    have := (hp 0 hpos).length_le
    rw [hlen 0 hpos, List.length_map] at this
    exact this
  have get : ∀ j (hj : j < ls.length) k (hk : k < (mergeOut ls (fjM ls c i) n).length),
      (mergeAccepted ls (fjM ls c i) j n)[k]? =
        some (partFields (projBeat ls[j] ((presented (forkJoin ls c) i n)[k]'(by omega)))) := by
    intro j hj k hk
    obtain ⟨t, ht⟩ := hp j hj
    have h1 : k < (mergeAccepted ls (fjM ls c i) j n).length := by rw [hlen j hj]; exact hk
    have h2 := congrArg (·[k]?) ht
    simp only [List.getElem?_append_left h1, List.getElem?_map] at h2
    rw [h2, List.getElem?_eq_getElem (by omega)]
    rfl
  refine ⟨(presented (forkJoin ls c) i n).take (mergeOut ls (fjM ls c i) n).length, List.take_prefix _ _, ?_⟩
  rw [List.forall₂_iff_get]
  refine ⟨by rw [List.length_take]; omega, fun k h1 h2 => ?_⟩
  obtain ⟨m1, m2, m3⟩ := hm k h1
  simp only [List.get_eq_getElem, List.getElem_take]
  refine ⟨?_, ?_, ?_⟩
  · rw [Bool.eq_iff_iff, m1]
    constructor
    · rintro ⟨j, hj, b, hb, hf⟩
      rw [get j hj k h1] at hb
      cases hb
      exact hf
    · intro hf
      exact ⟨0, hpos, _, get 0 hpos k h1, hf⟩
  · rw [Bool.eq_iff_iff, m2]
    constructor
    · rintro ⟨j, hj, b, hb, hf⟩
      rw [get j hj k h1] at hb
      cases hb
      exact hf
    · intro hf
      exact ⟨0, hpos, _, get 0 hpos k h1, hf⟩
  · intro f hf
    obtain ⟨l, hl, hfl⟩ := List.mem_flatten.1 hf
    obtain ⟨j, hj, rfl⟩ := List.getElem_of_mem hl
    obtain ⟨b, hb, e⟩ := m3 j hj
    rw [get j hj k h1] at hb
    cases hb
    rw [e f hfl]
    exact lookup_fields _ _ f hfl

theorem fj_merge_mono (k : Nat) {n m : Nat} (h : n ≤ m) :
    (mergeAccepted ls (fjM ls c i) k n).length ≤ (mergeAccepted ls (fjM ls c i) k m).length := transferred_mono _ _ _ h

include hn hc hb hs in
/-- Everything presented is taken from all branches at some time. -/
theorem fj_takes (hr : Recurs (fun k => (i k).ready = true)) (n L : Nat) (hL : L ≤ (presented (forkJoin ls c) i n).length) :
    ∃ m, n ≤ m ∧ ∀ k < ls.length, L ≤ (mergeAccepted ls (fjM ls c i) k m).length := by
  induction L with
  | zero => exact ⟨n, Nat.le_refl n, fun _ _ => Nat.zero_le _⟩
  | succ L ih =>
    obtain ⟨m, hm, hk⟩ := ih (by omega)
    have hpos : 0 < ls.length := List.length_pos_iff.2 hn
    refine Classical.byContradiction fun hno => ?_
    have same : ∀ t, m ≤ t → ∀ k < ls.length, (mergeAccepted ls (fjM ls c i) k t).length = L := by
      intro t ht k hkl
      have h1 := fj_merge_mono ls c i k ht
      have h2 := hk k hkl
      refine Nat.le_antisymm (Nat.le_of_not_lt fun h => hno ⟨t, by omega, fun k' hk' => ?_⟩) (by omega)
      have e := (C11_merger_combines ls hn hc (fjM ls c i) t).1
      rw [e k' hk', ← e k hkl]
      exact h
    have never : ∀ t, m ≤ t → ∀ k < ls.length, (fjM ls c i t).valid k = true → ((merger ls).wave (fjM ls c i) t).ready k = true →
        False := by
      intro t ht k hkl h1 h2
      have := transferred_grows (fun n => (fjM ls c i n).valid k) (fun n => ((merger ls).wave (fjM ls c i) n).ready k)
        (fun n => (fjM ls c i n).beat k) (Nat.le_refl t) h1 h2
      change (mergeAccepted ls (fjM ls c i) k t).length < (mergeAccepted ls (fjM ls c i) k (t + 1)).length at this
      rw [same t ht k hkl, same (t + 1) (by omega) k hkl] at this
      exact Nat.lt_irrefl _ this
    have come : ∀ k < ls.length, ∃ t, m ≤ t ∧ (fjM ls c i t).valid k = true := by
      intro k hkl
      refine Classical.byContradiction fun hnv => ?_
      have hB := hb k hkl
      have quiet : ∀ t, m ≤ t → ((c k).wave (fjB ls c i k) t).valid = false := by
        intro t ht
        rw [← (fj_merge_in ls c i k t hB).1]
        exact never_of_not hnv t ht
      have hbs := fj_branch_stable ls c i hs k hkl
      have ht : Takes (fun n => ((c k).wave (fjB ls c i k) n).valid) (fun n => (fjB ls c i k n).ready) := by
        refine takes_of (fun t h1 h2 => (hB.stable _ hbs t h1 h2).1) fun t hv => ?_
        have := hv (max t m) (by omega)
        rw [quiet (max t m) (by omega)] at this
        cases this
      have all : ∀ t, (accepted (c k) (fjB ls c i k) t).length ≤ L := by
        intro t
        obtain ⟨t2, h2⟩ := hB.delivers _ hbs ht t
        rw [fj_branch_delivered ls c i k t2 hB] at h2
        have h3 := fj_merge_mono ls c i k (Nat.le_max_left t2 m)
        have h4 := same (max t2 m) (by omega) k hkl
        omega
      have len : (accepted (c k) (fjB ls c i k) n).length = (accepted (forkJoin ls c) i n).length +
          (if (splitter ls).st (fjS ls c i) n k then 1 else 0) := by
        rw [fj_branch_accepted, List.length_map, ((split_inv ls hn _ (fj_split_stable ls c i hs) n).2 k hkl).2, fj_accepted,
          List.length_append, List.length_map]
        split <;> rfl
      have hn1 := all n
      rw [presented, List.length_append] at hL
      cases hv : (i n).valid with
      | false => rw [hv] at hL; simp at hL; omega
      | true =>
        rw [hv] at hL
        simp only [if_true, List.length_cons, List.length_nil] at hL
        have hd : (splitter ls).st (fjS ls c i) n k = false := by
          cases hd : (splitter ls).st (fjS ls c i) n k with
          | false => rfl
          | true => rw [hd] at len; simp at len; omega
        have hv2 : (fjB ls c i k n).valid = true := by
          rw [(fj_branch_in ls c i k n).1, Circuit.wave]
          change ((fjS ls c i n).valid && !(splitter ls).st (fjS ls c i) n k) = true
          rw [hd]
          exact (congrArg (· && true) hv)
        obtain ⟨t, ht1, ht2, ht3⟩ := hB.accepts _ hbs ht n hv2
        have := transferred_grows (fun n => (fjB ls c i k n).valid) (fun n => ((c k).wave (fjB ls c i k) n).ready)
          (fun n => (fjB ls c i k n).beat) ht1 ht2 ht3
        change (accepted (c k) (fjB ls c i k) n).length < (accepted (c k) (fjB ls c i k) (t + 1)).length at this
        have h5 := all (t + 1)
        omega
    obtain ⟨t, ht, h⟩ := C122_merger_accepts ls (fjM ls c i) (fun k hkl => fj_merge_stable ls c i hs k hkl (hb k hkl)) hr m come
    exact never t ht 0 hpos (h 0 hpos).1 (h 0 hpos).2

include hn hc hb hs in
/-- C124 (acceptance): with a receiver that is ready again and again every beat offered is accepted at some time, however different the
delays of the branches are. -/
theorem C124_accepts (hr : Recurs (fun k => (i k).ready = true)) :
    Takes (fun k => (i k).valid) (fun k => ((forkJoin ls c).wave i k).ready) := by
  refine takes_of (fun n h1 h2 => (hs n h1 h2).1) fun n hv => ?_
  refine Classical.byContradiction fun hno => ?_
  have never := never_of_not hno
  have const : ∀ m, n ≤ m → accepted (forkJoin ls c) i m = accepted (forkJoin ls c) i n := by
    intro m hm
    induction m, hm using Nat.le_induction with
    | base => rfl
    | succ m hm ih =>
      have e : accepted (forkJoin ls c) i (m + 1) = accepted (forkJoin ls c) i m ++
        (if (i m).valid && ((forkJoin ls c).wave i m).ready then [(i m).beat] else []) := rfl
      rw [e, ih, never m hm]
      simp
  obtain ⟨m, hm, hk⟩ := fj_takes ls c i hn hc hb hs hr n ((accepted (forkJoin ls c) i n).length + 1) (by
    rw [presented, List.length_append, hv n (Nat.le_refl n)]; simp)
  obtain ⟨⟨k, hkl, hd⟩, inv⟩ := split_inv ls hn _ (fj_split_stable ls c i hs) m
  have h1 := hk k hkl
  rw [← fj_branch_delivered ls c i k m (hb k hkl)] at h1
  obtain ⟨q, e⟩ := (hb k hkl).order (fjB ls c i k) m
  have h2 := congrArg List.length e
  rw [List.length_append, fj_branch_accepted, List.length_map, (inv k hkl).2, hd, List.length_append, List.length_map,
    ← fj_accepted, const m hm] at h2
  simp at h2
  omega

include hn hc hb hs in
/-- C124 (arrival): with a receiver that is ready again and again all beats accepted are delivered at some time. -/
theorem C124_arrives (hr : Recurs (fun k => (i k).ready = true)) (n : Nat) :
    ∃ m y, y <+: delivered (forkJoin ls c) i m ∧ List.Forall₂ (SameIn ls.flatten) y (accepted (forkJoin ls c) i n) := by
  have hpos : 0 < ls.length := List.length_pos_iff.2 hn
  obtain ⟨m1, _, h1⟩ := fj_takes ls c i hn hc hb hs hr n (accepted (forkJoin ls c) i n).length (by
    rw [presented, List.length_append]; omega)
  obtain ⟨m2, h2⟩ := C122_merger_delivers ls hn hc (fjM ls c i) hr m1 0 hpos
  rw [← fj_delivered] at h2
  have h3 := (delivered_mono (forkJoin ls c) i (Nat.le_max_left m2 n)).length_le
  have h4 := h1 0 hpos
  obtain ⟨x, ⟨t, ht⟩, hx⟩ := C124_order ls c i hn hc hb hs (max m2 n)
  obtain ⟨u, hu⟩ := accepted_mono (forkJoin ls c) i (Nat.le_max_right m2 n)
  refine ⟨max m2 n, (delivered (forkJoin ls c) i (max m2 n)).take (accepted (forkJoin ls c) i n).length, List.take_prefix _ _, ?_⟩
  have h5 := List.forall₂_take (accepted (forkJoin ls c) i n).length hx
  rw [shown, List.take_append_of_le_length (by omega)] at h5
  have h6 : x.take (accepted (forkJoin ls c) i n).length = accepted (forkJoin ls c) i n := by
    have hxl := hx.length_eq
    rw [shown, List.length_append] at hxl
    have := congrArg (List.take (accepted (forkJoin ls c) i n).length) ht
    rw [List.take_append_of_le_length (by omega), presented, ← hu, List.append_assoc, List.take_left] at this
    exact this
  rwa [h6] at h5

/-- C124 (stability): a beat on offer stays, unchanged, until it is taken. -/
theorem C124_stable : SourceStable (forkJoin ls c) i := by
  intro n hv hr
  beta_reduce at hv ⊢
  rw [fj_wave] at hv
  rw [fj_wave, fj_wave]
  exact C11_merger_stable ls (fjM ls c i) n hv hr

end

/-- From what a component contributes to a chain. -/
theorem branch_of_stage {σ α : Type} (c : Circuit σ (SIn α) (SOut α)) (h : StageGood c (fun x y => y = x)) (hsi : ShowIndep c)
    (ho : ∀ i n, ∃ q, accepted c i n = delivered c i n ++ q) : Branch c :=
  ⟨h.indep, hsi, ho, h.stable, h.accepts, fun i hs ht n => by
    obtain ⟨m, y, rfl, hy⟩ := h.delivers i hs ht n
    exact ⟨m, hy.length_le⟩⟩

theorem slice_cons {σ τ : Type} (c1 : Circuit σ (SIn Fields) (SOut Fields)) (c2 : Circuit τ (SIn Fields) (SOut Fields))
    (h1 : StageGood c1 (fun x y => y = x) ∧ ShowIndep c1) (h2 : StageGood c2 (fun x y => y = x) ∧ ShowIndep c2) :
    StageGood (chain c1 c2) (fun x y => y = x) ∧ ShowIndep (chain c1 c2) := by
  refine ⟨?_, ?_⟩
  · have := stage_chain c1 c2 h1.1 h2.1
    have e : (fun x y : List (Beat Fields) => ∃ z, z = x ∧ y = z) = fun x y => y = x := by
      funext x y
      simp
    rwa [e] at this
  · intro s v b r r'
    have g := h1.2 s.1 v b (c2.out s.2 ⟨false, zeroBeat, r⟩).ready (c2.out s.2 ⟨false, zeroBeat, r'⟩).ready
    change (c2.out s.2 ⟨_, _, r⟩).valid = (c2.out s.2 ⟨_, _, r'⟩).valid ∧ (c2.out s.2 ⟨_, _, r⟩).beat = (c2.out s.2 ⟨_, _, r'⟩).beat
    rw [g.1, g.2]
    exact h2.2 _ _ _ _ _

/-- Lines of register slices of any kind and length are such components. -/
theorem C124_slices (l : List Bool) : Branch (sliceLine l) := by
  have key : (StageGood (sliceLine l) (fun x y => y = x) ∧ ShowIndep (sliceLine l)) ∧ ∃ cap, StreamGood (sliceLine l) cap := by
    induction l with
    | nil => exact ⟨⟨stage_wire, fun _ _ _ _ _ => ⟨rfl, rfl⟩⟩, _, good_wire⟩
    | cons b l ih =>
      obtain ⟨h, cap, hg⟩ := ih
      cases b with
      | true => exact ⟨slice_cons _ _ ⟨stage_valid, fun _ _ _ _ _ => ⟨rfl, rfl⟩⟩ h, _, good_chain _ _ good_pipeValid hg⟩
      | false => exact ⟨slice_cons _ _ ⟨stage_ready, fun _ _ _ _ _ => ⟨rfl, rfl⟩⟩ h, _, good_chain _ _ good_pipeReady hg⟩
  obtain ⟨⟨h1, h2⟩, cap, hg⟩ := key
  exact branch_of_stage _ h1 h2 fun i n => (hg.order i n).imp fun _ h => h.1

/-! A concrete case. -/

/-- Two fields; one branch of wires, one of three slices. -/
def forkDemo := forkJoin [["a"], ["b"]] fun k => sliceLine (if k = 0 then [] else [true, false, true])

/-- The same beat on offer all the time, and a receiver that is ready in every second cycle. -/
def forkIn (k : Nat) : SIn Fields := ⟨true, ⟨true, false, fun f => if f = "a" then 3 else 5⟩, k % 2 == 1⟩

theorem fork_recurs : Recurs (fun k => (forkIn k).ready = true) := fun n => ⟨2 * n + 1, by omega, by simp [forkIn]⟩

theorem fork_sink : SinkStable forkDemo forkIn := fun _ _ _ => ⟨rfl, rfl⟩

theorem fork_branches : ∀ k < 2, Branch (sliceLine (if k = 0 then [] else [true, false, true])) := fun _ _ => C124_slices _

example : mergerCheck [["a"], ["b"]] = .ok () ∧ ((forkIn 0).beat.payload "a", (forkIn 0).beat.payload "b") = (3, 5) := by decide

/-- A first beat is accepted, and both fields arrive in one beat. -/
example : ∃ m, (forkDemo.wave forkIn m).ready = true ∧ ∃ m' a, a ∈ delivered forkDemo forkIn m' ∧ a.first = true ∧
    a.payload "a" = 3 ∧ a.payload "b" = 5 := by
  obtain ⟨m, _, _, hr⟩ := C124_accepts [["a"], ["b"]] _ forkIn (by decide) (by decide) fork_branches fork_sink fork_recurs 0 rfl
  refine ⟨m, hr, ?_⟩
  obtain ⟨m', y, hy, h0⟩ := C124_arrives [["a"], ["b"]] _ forkIn (by decide) (by decide) fork_branches fork_sink fork_recurs (m + 1)
  have h : List.Forall₂ (SameIn ["a", "b"]) y (accepted forkDemo forkIn (m + 1)) := h0
  have e : accepted forkDemo forkIn (m + 1) = accepted forkDemo forkIn m ++
    (if (forkIn m).valid && (forkDemo.wave forkIn m).ready then [(forkIn m).beat] else []) := rfl
  have hr2 : (forkDemo.wave forkIn m).ready = true := hr
  have hm : (forkIn m).beat ∈ accepted forkDemo forkIn (m + 1) := by
    rw [e, hr2]
    exact List.mem_append_right _ (List.mem_singleton.2 rfl)
  obtain ⟨k, hk, hg⟩ := List.getElem_of_mem hm
  have hl := h.length_eq
  have h2 := (List.forall₂_iff_get.1 h).2 k (hl ▸ hk) hk
  simp only [List.get_eq_getElem] at h2
  refine ⟨m', y[k]'(hl ▸ hk), hy.subset (List.getElem_mem _), ?_⟩
  obtain ⟨h3, _, h4⟩ := h2
  rw [hg] at h3 h4
  exact ⟨h3, h4 "a" (by decide), h4 "b" (by decide)⟩

end Lambdalib
