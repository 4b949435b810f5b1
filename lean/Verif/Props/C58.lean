import Verif.Balance.SopProof
import Verif.Props.C14
import Verif.Props.C16
import Verif.Props.C57

set_option autoImplicit false

/-!
# C58: SOP balancing keeps the functions of the outputs

The full claim — for every AIG, every cut size and cut limit that the enumeration accepts, minimised truth tables or not —
is false: a node all of whose cuts are skipped becomes the constant 0.  This happens with minimised truth tables
(`C58_violated_minimize`) and with `cut_limit` 2 (`C58_violated_limit`).  The theorem is for unminimised tables, limits of at
least 3 and networks without registers.
-/

namespace Verif.SopBalance
open Cuts Topo Aig RefDeref

theorem mapPis_spec : ∀ (ns : List Nat) (ss : List Sig) (m : ArrMap), ns.Nodup → ns.length = ss.length →
    ∃ m', mapPis ns ss m = some m' ∧ (∀ n, n ∉ ns → m' n = m n) ∧
      ∀ (k n : Nat) (s : Sig), ns[k]? = some n → ss[k]? = some s → m' n = ⟨s, 0⟩ := by
  intro ns
  induction ns with
  | nil => intro ss m _ _; exact ⟨m, rfl, fun _ _ => rfl, by simp⟩
  | cons n ns ih =>
    intro ss m hnd hl
    cases ss with
    | nil => simp at hl
    | cons s ss =>
      rw [List.nodup_cons] at hnd
      obtain ⟨m', e, h1, h2⟩ := ih ss (m.set n ⟨s, 0⟩) hnd.2 (by simpa using hl)
      refine ⟨m', e, ?_, ?_⟩
      · intro k hk
        rw [List.mem_cons, not_or] at hk
        rw [h1 k hk.2, ArrMap.set, if_neg hk.1]
      · intro k n' s' hk hs
        cases k with
        | zero =>
          simp only [List.getElem?_cons_zero, Option.some.injEq] at hk hs
          subst hk hs
          rw [h1 n hnd.1, ArrMap.set, if_pos rfl]
        | succ k => exact h2 k n' s' (by simpa using hk) (by simpa using hs)

/-- the network before the final cleanup -/
theorem balanceRaw_spec (sel : List Arr → Nat) (off : Nat → Option Nat) (hoff : ∀ n l, off n = some l → l ≤ n) {N : Aig}
    (hN : N.Built) (hpi : N.inputs.length = N.numPis) (hpo : N.outputs.length = N.numPos) {P : Params Unit}
    (hmin : P.minimize = false) (h2 : 2 ≤ P.cutSize) (hk : P.cutSize ≤ maxCutSize) (hl3 : 3 ≤ P.cutLimit)
    (hsf : SizeFirst P.lt) {st : CutNet Unit} (est : enumerate P N () = some st) (hsize : 135 * N.size ≤ 4294967295)
    (f : Nat) (hf : N.size ≤ f) : ∃ D, balanceRaw sel off P N f = some D ∧ Mapper.Preserves N D := by
  obtain ⟨h1, h2', h3, h4, h5, h6, _, h7, h8, h9, h10⟩ := cloneInputs_spec N.numPis Aig.empty .empty rfl
  have i0 : Aig.empty.inputs.length = 0 := rfl
  have i1 : Aig.empty.numPis = 0 := rfl
  have i2 : Aig.empty.outputs = [] := rfl
  have i3 : Aig.empty.numPos = 0 := rfl
  rw [i0] at h4 h10
  rw [i1] at h3
  rw [i2] at h5
  rw [i3] at h6
  have htake : N.inputs.take N.numPis = N.inputs := by rw [← hpi, List.take_length]
  have htako : N.outputs.take N.numPos = N.outputs := by rw [← hpo, List.take_length]
  obtain ⟨m, em, m1, m2⟩ := mapPis_spec N.inputs (cloneInputs N.numPis Aig.empty).2 (fun _ => ⟨⟨0, false⟩, 0⟩)
    hN.wf.inputsNodup (by rw [h2', hpi])
  have hout : ∀ f', N.size ≤ f' → ∀ o ∈ N.outputs, id o.index < f' := by
    intro f' hf' o ho
    have := hN.wf.outputs o ho
    simp only [Valid, size, id] at *
    omega
  obtain ⟨order, rest, eo, o1, o2, o3, o4⟩ := C15_topo N id (C15_built N hN) f (hout f hf)
  have hmem : ∀ n ∈ order, n < N.nodes.length := by
    intro n hn
    rcases (o4 n).1 hn with rfl | hn | ⟨o, ho, ht⟩
    · exact hN.wf.pos
    · obtain ⟨k, hk'⟩ := List.mem_iff_getElem?.1 hn
      obtain ⟨_, nd, hnd, _⟩ := hN.wf.input k n hk'
      exact lt_of_getElem? hnd
    · exact Tfi_lt hN.wf ht (hN.wf.outputs o ho)
  have hin : ∀ (done : List Nat) n rest', order = done ++ n :: rest' →
      (n = 0 ∨ n ∈ N.inputs) ∨ (∀ k, (k = 0 ∨ k ∈ N.inputs) → k ∈ done) := by
    intro done n rest' e
    rw [o1] at e
    by_cases hl : done.length < (0 :: N.inputs).length
    · left
      have : (0 :: N.inputs ++ rest)[done.length]? = some n := by rw [e]; simp
      rw [List.getElem?_append_left hl] at this
      have := List.mem_of_getElem? this
      simpa using this
    · right
      intro k hk'
      have hpre : (0 :: N.inputs) <+: done :=
        List.prefix_of_prefix_length_le (List.prefix_append _ rest) ⟨n :: rest', e.symm⟩ (by omega)
      exact hpre.subset (by simpa using hk')
  let good : (Nat → Bool) → (Nat → Bool) → Prop := fun v v' => ∃ x, N.Consistent x v ∧
    ∀ (k n : Nat), (cloneInputs N.numPis Aig.empty).1.inputs[k]? = some n → v' n = x k
  have hentry : ∀ n, (n = 0 ∨ n ∈ N.inputs) → Entry good (cloneInputs N.numPis Aig.empty).1 n (m n) := by
    intro n hn
    by_cases hni : n ∈ N.inputs
    · obtain ⟨k, hk'⟩ := List.mem_iff_getElem?.1 hni
      have hkl : k < (cloneInputs N.numPis Aig.empty).2.length := by rw [h2', ← hpi]; exact lt_of_getElem? hk'
      have hs := List.getElem?_eq_getElem hkl
      rw [m2 k n _ hk' hs]
      have hv := h9 _ (List.mem_of_getElem? hs)
      refine ⟨hv.1, Nat.zero_le _, ?_⟩
      rintro v v' ⟨x, hx, hx'⟩ _
      have h11 := h10 k _ hs
      rw [Nat.zero_add] at h11
      rw [Sig.val, hv.2, hx' k _ h11, hx.input k n hk', Bool.false_xor]
    · rw [m1 n hni]
      obtain rfl := hn.resolve_right hni
      refine ⟨h1.wf.pos, Nat.zero_le _, ?_⟩
      rintro v v' ⟨x, hx, _⟩ hv'
      rw [Sig.val, hv'.const, hx.models.const]; rfl
  obtain ⟨D, m', eb, hb⟩ := balanceNodes_spec sel off hoff hN hpi.symm hmin h2 hk hl3 hsf est hsize (good := good)
    (fun v v' ⟨x, hx, _⟩ => ⟨x, hx⟩) (D0 := (cloneInputs N.numPis Aig.empty).1) o3 hmem hin order []
    (cloneInputs N.numPis Aig.empty).1 m rfl
    ⟨.refl h1.wf, fun n => by
      by_cases hni : n ∈ N.inputs
      · exact (hentry n (Or.inr hni)).valid
      · rw [m1 n hni]; exact h1.wf.pos, by simp⟩ (fun n hn _ => hentry n hn)
  obtain ⟨c1, c2, c3, c4, c5, _, c7, _⟩ := cloneOutputs_spec ((N.outputs.take N.numPos).map m'.sig.img) D (hb.grown.built h1)
    (fun s hs => by
      rw [List.mem_map] at hs
      obtain ⟨t, _, rfl⟩ := hs
      exact img_valid (hb.valid _))
  refine ⟨cloneOutputs D ((N.outputs.take N.numPos).map m'.sig.img), ?_, c1, ?_, ?_, ?_, ?_, ?_⟩
  · unfold balanceRaw
    dsimp only
    rw [htake, em, est, eo]
    dsimp only
    rw [eb]
  · rw [c5, hb.grown.numPis, h3]; omega
  · rw [c4, hb.grown.inputs, h4, hpi]; omega
  · rw [c3, hb.grown.numPos, h6, List.length_map, htako, hpo]; omega
  · rw [c2, hb.grown.outputs, h5, List.nil_append, List.length_map, htako]
  · intro x v v' hc hc'
    rw [c2, hb.grown.outputs, h5, List.nil_append, List.map_map, htako]
    apply List.map_congr_left
    intro o ho
    have hent := hb.entry o.index ((o4 _).2 (Or.inr (Or.inr ⟨o, ho, .refl _⟩)))
    have hval := hent.val v v' ⟨x, hc, fun k n hk' => hc'.input k n (by rw [c4, hb.grown.inputs]; exact hk')⟩ (c7.models hc'.models)
    show (m'.sig.img o).val v' = o.val v
    rw [img_val]
    show Bool.xor ((m' o.index).f.val v') _ = _
    rw [hval, Sig.val, Bool.xor_comm]

/-- levels are at most indices -/
theorem copied_spec {N : Aig} (hN : N.Built) (only : Bool) (f : Nat) (hf : N.size ≤ f) :
    ∃ off, copied only N f = some off ∧ ∀ n l, off n = some l → l ≤ n := by
  unfold copied
  cases only with
  | false => exact ⟨_, rfl, fun _ _ h => by simp at h⟩
  | true =>
    obtain ⟨hr, hv⟩ := C16_built N hN false
    have hout : ∀ o ∈ N.outputs.take N.numPos, id o.index < f := by
      intro o ho
      have := hN.wf.outputs o (List.mem_of_mem_take ho)
      simp only [Valid, size, id] at *
      omega
    have hpath : ∀ n k, Path ⟨aigFanins N, fun n => n == 0 || N.isPi n, fun _ => 1, false⟩ n k → k ≤ n := by
      intro n k h
      induction h with
      | terminal => omega
      | source ht _ =>
        simp only [Bool.or_eq_false_iff, beq_eq_false_iff_ne, ne_eq] at ht
        show 1 ≤ _
        omega
      | step ht hfi _ ih =>
        have := hr _ ht _ hfi
        simp only [id] at this
        simp only [Bool.false_eq_true, false_and, if_false]
        omega
    obtain ⟨s, d, e, h1, h2, _⟩ := C16_levels _ id hr (N.outputs.take N.numPos) (visOf N) N.travId f hv hout
    refine ⟨fun n => some (s.lev n), by rw [if_pos rfl, depthView, e]; rfl, ?_⟩
    intro n l hl
    obtain rfl := Option.some.inj hl
    by_cases hn : ∃ g ∈ N.outputs.take N.numPos, Tfi (below ⟨aigFanins N, fun n => n == 0 || N.isPi n, fun _ => 1, false⟩) g.index n
    · exact hpath n _ (h1 n hn).1
    · rw [h2 n hn]; omega

theorem balance_spec (sel : List Arr → Nat) (off : Nat → Option Nat) (hoff : ∀ n l, off n = some l → l ≤ n) (N : Aig)
    (hN : N.Built) (hpi : N.inputs.length = N.numPis) (hpo : N.outputs.length = N.numPos) (hsize : 135 * N.size ≤ 4294967295)
    (cutSize cutLimit : Nat) (h2 : 2 ≤ cutSize) (hk : cutSize ≤ 7) (hl3 : 3 ≤ cutLimit)
    (hub : enumerate (sopParams cutSize cutLimit false) N () ≠ none) (f : Nat) (hf : N.size ≤ f) :
    ∃ D, balance sel off (sopParams cutSize cutLimit false) N f = some D ∧ Mapper.Preserves N D := by
  obtain ⟨st, est⟩ := Option.ne_none_iff_exists'.1 hub
  obtain ⟨D, e, hp⟩ := balanceRaw_spec sel off hoff hN hpi hpo rfl h2 hk hl3 sizeFirst_ltSize est hsize f hf
  obtain ⟨D', e', d1, d2, d3, d4, d5, d6⟩ := C14_built_partial D hp.built (by rw [hp.inputs, hpi, hp.numPis])
    (by rw [hp.outputs, hpo, hp.numPos]) D.size le_rfl
  refine ⟨D', by rw [balance, e]; exact e', d1, d2.trans hp.numPis, d3.trans hp.inputs, d4.trans hp.numPos, d5.trans hp.outputs, ?_⟩
  intro x v v' hc hc'
  obtain ⟨w, hw⟩ : ∃ w, D.Consistent x w := ⟨_, hp.built.wf.consistent_value x⟩
  rw [d6 x w v' hw hc', hp.val x v w hc hw]

/-- C58 for networks without registers, of at most 2^32 / 135 nodes, for unminimised truth tables, cut sizes 2 to 7 and cut
limits from 3, with and without `only_on_critical_path`: unless the cut enumeration runs into undefined behaviour, balancing
terminates and returns a network with the interface and the output functions of the given one — whichever element the
priority queues return (`sel`). -/
theorem C58_partial (sel : List Arr → Nat) (only : Bool) (N : Aig)
    (hN : N.Built) (hpi : N.inputs.length = N.numPis) (hpo : N.outputs.length = N.numPos) (hsize : 135 * N.size ≤ 4294967295)
    (cutSize cutLimit : Nat) (h2 : 2 ≤ cutSize) (hk : cutSize ≤ 7) (hl3 : 3 ≤ cutLimit)
    (hub : enumerate (sopParams cutSize cutLimit false) N () ≠ none) (f : Nat) (hf : N.size ≤ f) :
    ∃ D, sopBalancing sel only (sopParams cutSize cutLimit false) N f = some D ∧ Mapper.Preserves N D := by
  obtain ⟨off, e, hoff⟩ := copied_spec hN only f hf
  rw [sopBalancing, e]
  exact balance_spec sel off hoff N hN hpi hpo hsize cutSize cutLimit h2 hk hl3 hub f hf

/-- For cut sizes 2 and 3 and limits from 3 to 12 there is no undefined behaviour. -/
theorem C58_defined_partial (sel : List Arr → Nat) (only : Bool) (N : Aig)
    (hN : N.Built) (hpi : N.inputs.length = N.numPis) (hpo : N.outputs.length = N.numPos) (hsize : 135 * N.size ≤ 4294967295)
    (cutSize cutLimit : Nat) (h2 : 2 ≤ cutSize) (hk : cutSize ≤ 3) (hl3 : 3 ≤ cutLimit) (hl12 : cutLimit ≤ 12)
    (f : Nat) (hf : N.size ≤ f) :
    ∃ D, sopBalancing sel only (sopParams cutSize cutLimit false) N f = some D ∧ Mapper.Preserves N D := by
  obtain ⟨st, est⟩ := C21_defined (sopParams cutSize cutLimit false) N () hN hpi.symm
    ⟨by show 1 ≤ cutSize; omega, by show 2 * cutSize ≤ 7; omega, by show 2 ≤ cutLimit; omega, hl12⟩
  exact C58_partial sel only N hN hpi hpo hsize cutSize cutLimit h2 (by omega) hl3 (by rw [est]; simp) f hf

/-! ### a case -/

/-- `(x1 ∧ x2) ∧ ¬(¬x3 ∧ x4)` and the gate `x1 ∧ x2`, complemented -/
def small : Aig :=
  let N := Aig.empty.createPi.1.createPi.1.createPi.1.createPi.1
  let N := (N.createAnd ⟨1, false⟩ ⟨2, false⟩).1
  let N := (N.createAnd ⟨3, true⟩ ⟨4, false⟩).1
  let N := (N.createAnd ⟨5, false⟩ ⟨6, true⟩).1
  (N.createPo ⟨7, false⟩).createPo ⟨5, true⟩

theorem small_built : Built small := by
  refine Built.po (Built.po (Built.and (Built.and (Built.and
    (Built.pi (Built.pi (Built.pi (Built.pi .empty)))) ?_ ?_) ?_ ?_) ?_ ?_) ?_) ?_ <;> decide

example : ∃ D, sopBalancing lowest true (sopParams 3 12 false) small 8 = some D ∧ Mapper.Preserves small D :=
  C58_defined_partial lowest true small small_built (by decide) (by decide) (by decide)
    3 12 (by decide) (by decide) (by decide) (by decide) 8 (by decide)

/-- the same with cut size 4, where the cuts of node 7 have sums of two products -/
example : ∃ D, sopBalancing lowest false (sopParams 4 12 false) small 8 = some D ∧ Mapper.Preserves small D :=
  C58_partial lowest false small small_built (by decide) (by decide) (by decide)
    4 12 (by decide) (by decide) (by decide) (by decide +kernel) 8 (by decide)

example : (sopBalancing lowest false (sopParams 4 12 false) small 8).map (fun D => (D.size, D.outputs)) =
    some (8, [⟨7, false⟩, ⟨5, true⟩]) := by decide +kernel

/-! ### where the claim fails -/

/-- `x1 ∧ (x1 ∨ x2)` -/
def absorb : Aig :=
  let N := Aig.empty.createPi.1.createPi.1
  let N := (N.createAnd ⟨1, true⟩ ⟨2, true⟩).1
  let N := (N.createAnd ⟨1, false⟩ ⟨3, true⟩).1
  N.createPo ⟨4, false⟩

theorem absorb_built : Built absorb := by
  refine Built.po (Built.and (Built.and (Built.pi (Built.pi .empty)) ?_ ?_) ?_ ?_) ?_ <;> decide

/-- With minimised truth tables the only cut of the output `x1 ∧ (x1 ∨ x2) = x1` has the single leaf `x1` and is skipped: the
output becomes the constant 0. -/
theorem C58_violated_minimize : absorb.Built ∧ absorb.inputs.length = absorb.numPis ∧ absorb.outputs.length = absorb.numPos ∧
    ∃ D, sopBalancing lowest false (sopParams 4 12 true) absorb 5 = some D ∧ ¬ Mapper.Preserves absorb D := by
  refine ⟨absorb_built, by decide, by decide, ?_⟩
  obtain ⟨D, e, ho⟩ : ∃ D, sopBalancing lowest false (sopParams 4 12 true) absorb 5 = some D ∧ D.outputs = [⟨0, false⟩] := by
    have : (sopBalancing lowest false (sopParams 4 12 true) absorb 5).map (·.outputs) = some [⟨0, false⟩] := by decide +kernel
    exact Option.map_eq_some_iff.1 this
  refine ⟨D, e, fun hp => ?_⟩
  have h1 := absorb_built.wf.consistent_value (fun _ => true)
  have h2 := hp.built.wf.consistent_value (fun _ => true)
  have := hp.val _ _ _ h1 h2
  have i1 := h1.input 0 1 (by decide)
  have i2 := h1.input 1 2 (by decide)
  have g3 := h1.models.gate 3 ⟨1, true⟩ ⟨2, true⟩ ⟨by decide, by decide, _, by rfl, rfl, rfl, rfl⟩
  have g4 := h1.models.gate 4 ⟨1, false⟩ ⟨3, true⟩ ⟨by decide, by decide, _, by rfl, rfl, rfl, rfl⟩
  simp only [ho, show absorb.outputs = [⟨4, false⟩] by decide, List.map_cons, List.map_nil, Sig.val, h2.models.const, g4, g3, i1, i2] at this
  simp at this

/-- With `cut_limit` 2 the cuts of a gate with more than one are all dropped but the trivial one, which is skipped: here
`(x1 ∧ x2) ∧ ¬(¬x3 ∧ x4)` becomes the constant 0. -/
theorem C58_violated_limit : small.Built ∧ small.inputs.length = small.numPis ∧ small.outputs.length = small.numPos ∧
    ∃ D, sopBalancing lowest false (sopParams 4 2 false) small 8 = some D ∧ ¬ Mapper.Preserves small D := by
  refine ⟨small_built, by decide, by decide, ?_⟩
  obtain ⟨D, e, ho⟩ : ∃ D, sopBalancing lowest false (sopParams 4 2 false) small 8 = some D ∧
      D.outputs = [⟨0, false⟩, ⟨5, true⟩] := by
    have : (sopBalancing lowest false (sopParams 4 2 false) small 8).map (·.outputs) = some [⟨0, false⟩, ⟨5, true⟩] := by
      decide +kernel
    exact Option.map_eq_some_iff.1 this
  refine ⟨D, e, fun hp => ?_⟩
  have h1 := small_built.wf.consistent_value (fun _ => true)
  have h2 := hp.built.wf.consistent_value (fun _ => true)
  have := hp.val _ _ _ h1 h2
  have i1 := h1.input 0 1 (by decide)
  have i2 := h1.input 1 2 (by decide)
  have i3 := h1.input 2 3 (by decide)
  have g5 := h1.models.gate 5 ⟨1, false⟩ ⟨2, false⟩ ⟨by decide, by decide, _, by rfl, rfl, rfl, rfl⟩
  have g6 := h1.models.gate 6 ⟨3, true⟩ ⟨4, false⟩ ⟨by decide, by decide, _, by rfl, rfl, rfl, rfl⟩
  have g7 := h1.models.gate 7 ⟨5, false⟩ ⟨6, true⟩ ⟨by decide, by decide, _, by rfl, rfl, rfl, rfl⟩
  simp only [ho, show small.outputs = [⟨7, false⟩, ⟨5, true⟩] by decide, List.map_cons, Sig.val, h2.models.const, g7, g6, g5, i1, i2, i3] at this
  simp at this

end Verif.SopBalance
