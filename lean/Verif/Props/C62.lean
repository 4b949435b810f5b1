import Verif.Choice.ProverProof
import Verif.Props.C61

set_option autoImplicit false

/-!
# C62: the SAT prover proves equivalent and disproves different nodes
-/

namespace Verif.Choice.Prover
open Aig (WF Built)
open Cnf (Answer LitTrue Satisfies)

/-- The states the prover can be in: created for a network, the network extended by gates as long as there is room in `_sat_vars_map`,
any number of calls of `sat_prove`. -/
inductive Reach (pp : SatParams) (solve : Nat → List (List Nat) → List Nat → Answer) : Aig → Prover → Prop
  | init {F : Aig} {size : Nat} {P : Prover} : Built F → F.nodes.length ≤ size → Prover.init size = some P → Reach pp solve F P
  | and {F : Aig} {P : Prover} {a b : Sig} : Reach pp solve F P → F.Valid a → F.Valid b →
      (F.createAnd a b).1.nodes.length ≤ P.vars.length → Reach pp solve (F.createAnd a b).1 P
  | prove {F : Aig} {P P' : Prover} {r n k k' : Nat} {ans : Answer} : Reach pp solve F P → r < F.nodes.length → n < F.nodes.length →
      satProve pp F solve k P r n = some (P', k', ans) → Reach pp solve F P'

theorem Reach.ok {pp : SatParams} {solve : Nat → List (List Nat) → List Nat → Answer} (hs : Sound solve) {F : Aig} {P : Prover}
    (h : Reach pp solve F P) : Built F ∧ Ok pp.polarFlip F P [] := by
  induction h with
  | init hF hl e =>
      obtain ⟨P', e', h', -⟩ := init_spec (flip := pp.polarFlip) hF hl
      rw [e] at e'
      obtain rfl := Option.some.inj e'
      exact ⟨hF, h'⟩
  | and _ ha hb hl ih => exact ⟨.and ih.1 ha hb, ih.2.ext (Aig.createAnd_spec ih.1.wf ha hb).ext hl⟩
  | @prove F P P' r n k k' ans _ hr hn e ih =>
      rcases satProve_spec ih.1 hs k ih.2 hr hn with ⟨P2, k2, ans2, e2, h2⟩ | ⟨e2, -⟩
      · rw [e] at e2
        obtain ⟨rfl, -, -⟩ : P' = P2 ∧ k' = k2 ∧ ans = ans2 := by simpa using e2
        exact ⟨ih.1, h2.ok⟩
      · rw [e] at e2; cases e2

theorem Reach.spec {pp : SatParams} {solve : Nat → List (List Nat) → List Nat → Answer} (hs : Sound solve) {F : Aig} {P P' : Prover}
    (h : Reach pp solve F P) {r n k k' : Nat} {ans : Answer} (hr : r < F.nodes.length) (hn : n < F.nodes.length)
    (e : satProve pp F solve k P r n = some (P', k', ans)) : ProveSpec pp F solve P P' r n ans := by
  obtain ⟨hF, hO⟩ := h.ok hs
  rcases satProve_spec hF hs k hO hr hn with ⟨P2, k2, ans2, e2, h2⟩ | ⟨e2, -⟩
  · rw [e] at e2
    obtain ⟨rfl, -, rfl⟩ : P' = P2 ∧ k' = k2 ∧ ans = ans2 := by simpa using e2
    exact h2
  · rw [e] at e2; cases e2

/-- C62. In every reachable state, with any solver whose answers `unsat` are right: if `sat_prove` reports equivalence, the two nodes have the same
value up to their phases for all input values. -/
theorem C62_unsat {pp : SatParams} {solve : Nat → List (List Nat) → List Nat → Answer} (hs : Sound solve) {F : Aig} {P P' : Prover}
    (h : Reach pp solve F P) {r n k k' : Nat} (hr : r < F.nodes.length) (hn : n < F.nodes.length)
    (e : satProve pp F solve k P r n = some (P', k', .unsat)) {v : Nat → Bool} (hv : F.Models v) :
    Bool.xor (v r) (F.phaseOf r) = Bool.xor (v n) (F.phaseOf n) :=
  (h.spec hs hr hn e).unsat rfl v hv

theorem phase_input {F : Aig} (hF : Built F) {i : Nat} (hi : i ∈ F.inputs) : F.phaseOf i = false := by
  obtain ⟨z, hz, hz0⟩ := models_inputs hF.wf (fun _ => false)
  rw [models_zero hF hz hz0 i (hF.wf.inputs_lt hi).2, hz0 i hi]

/-- C62. If `sat_prove` reports a difference, there are input values that `get_var_value` reads from the solver, and they separate the two nodes:
whatever input values agree with the reported ones, the nodes differ. -/
theorem C62_sat {pp : SatParams} {solve : Nat → List (List Nat) → List Nat → Answer} (hs : Sound solve) (hR : Right solve) {F : Aig} {P P' : Prover}
    (h : Reach pp solve F P) {r n k k' : Nat} {model : Nat → Bool} (hr : r < F.nodes.length) (hn : n < F.nodes.length)
    (e : satProve pp F solve k P r n = some (P', k', .sat model)) (hsmall : P.vars.length < 1000) :
    (∀ i ∈ F.inputs, ∃ b, P'.varValue model i = some b) ∧
    (∃ v, F.Models v ∧ ∀ i ∈ F.inputs, P'.varValue model i = some (v i)) ∧
    ∀ v, F.Models v → (∀ i ∈ F.inputs, P'.varValue model i = some (v i)) →
      Bool.xor (v r) (F.phaseOf r) ≠ Bool.xor (v n) (F.phaseOf n) := by
  have hF := (h.ok hs).1
  have hp := h.spec hs hr hn e
  have hdef : ∀ i ∈ F.inputs, ∃ b, P'.varValue model i = some b := by
    intro i hi
    have hl := hp.ok.len
    have hil := (hF.wf.inputs_lt hi).2
    rw [varValue, List.getElem?_eq_getElem (by omega)]
    by_cases h0 : P'.vars[i] = 0
    · exact ⟨false, by simp [h0]⟩
    · have := satVars_le hp.ok (List.getElem?_eq_getElem (by omega)) h0
      have hk : 1000 ≤ P'.known := Nat.le_max_left _ _
      have hlen := hp.len
      exact ⟨model P'.vars[i], by dsimp only; rw [if_neg h0, if_pos (by omega)]⟩
  refine ⟨hdef, ?_, ?_⟩
  · obtain ⟨v, hv, hi⟩ := models_inputs hF.wf fun i => (P'.varValue model i).getD false
    refine ⟨v, hv, fun i hm => ?_⟩
    obtain ⟨b, hb⟩ := hdef i hm
    rw [hi i hm, hb, Option.getD_some]
  · intro v hv hi
    refine hp.sat hR model rfl v hv fun i hm hh u hu => ?_
    have := hi i hm
    obtain ⟨x, hx, hxi⟩ := hh
    rw [hu] at hxi
    obtain rfl := Option.some.inj hxi
    rw [varValue, hu] at this
    dsimp only at this
    rw [if_neg hx] at this
    rw [pol, phase_input hF hm]
    split at this
    · simpa using this
    · cases this

/-- C62. `sat_prove` is defined for every network of less than 1000 nodes. (Larger ones can lead to an assumption about an input variable that
the solver has not been told about.) -/
theorem C62_defined {pp : SatParams} {solve : Nat → List (List Nat) → List Nat → Answer} (hs : Sound solve) {F : Aig} {P : Prover}
    (h : Reach pp solve F P) {r n k : Nat} (hr : r < F.nodes.length) (hn : n < F.nodes.length) (hsmall : P.vars.length < 1000) :
    ∃ P' k' ans, satProve pp F solve k P r n = some (P', k', ans) ∧ P'.vars.length = P.vars.length ∧ Reach pp solve F P' := by
  obtain ⟨hF, hO⟩ := h.ok hs
  rcases satProve_spec hF hs k hO hr hn with ⟨P2, k2, ans2, e2, h2⟩ | ⟨_, hx⟩
  · exact ⟨P2, k2, ans2, e2, h2.len, .prove h hr hn e2⟩
  · omega

/-- C62. With a solver that never gives up and is right, the answer decides the equivalence. -/
theorem C62_decides {pp : SatParams} {solve : Nat → List (List Nat) → List Nat → Answer} (hs : Sound solve) (hR : Right solve) {F : Aig} {P P' : Prover}
    (h : Reach pp solve F P) {r n k k' : Nat} {ans : Answer} (hr : r < F.nodes.length) (hn : n < F.nodes.length)
    (e : satProve pp F solve k P r n = some (P', k', ans)) (ht : ans ≠ .timeout) (hsmall : P.vars.length < 1000) :
    ans = .unsat ↔ ∀ v, F.Models v → Bool.xor (v r) (F.phaseOf r) = Bool.xor (v n) (F.phaseOf n) := by
  constructor
  · rintro rfl v hv
    exact C62_unsat hs h hr hn e hv
  · intro hall
    cases ans with
    | unsat => rfl
    | timeout => exact absurd rfl ht
    | sat a =>
        obtain ⟨_, ⟨v, hv, hi⟩, hd⟩ := C62_sat hs hR h hr hn e hsmall
        exact absurd (hall v hv) (hd v hv hi)

theorem attempt_answer {flip : Bool} {solve : Nat → List (List Nat) → List Nat → Answer} (ht : ∀ k cs as, solve k cs as ≠ .timeout) {F : Aig}
    {P P' : Prover} {r n k : Nat} {cr cn : Bool} {ans : Answer} (e : attempt flip F solve k P r cr n cn = some (P', ans)) : ans ≠ .timeout := by
  rw [attempt] at e
  split at e
  · cases e
  · split at e
    · cases e
    · obtain ⟨-, rfl⟩ : _ ∧ Answer.unsat = ans := by simpa using e
      intro h; cases h
    · next a _ hk =>
      obtain ⟨-, rfl⟩ : _ ∧ a = ans := by simpa using e
      rw [ask] at hk
      split at hk
      · rw [← Option.some.inj hk]; exact ht _ _ _
      · cases hk

/-- a solver that never gives up lets the prover never give up -/
theorem satProve_answer {pp : SatParams} {solve : Nat → List (List Nat) → List Nat → Answer} (ht : ∀ k cs as, solve k cs as ≠ .timeout) {F : Aig}
    {P P' : Prover} {r n k k' : Nat} {ans : Answer} (e : satProve pp F solve k P r n = some (P', k', ans)) : ans ≠ .timeout := by
  rw [satProve] at e
  split at e
  · cases e
  · split at e
    · cases e
    · split at e
      · cases e
      · split at e
        · obtain ⟨-, -, rfl⟩ : _ ∧ _ ∧ Answer.unsat = ans := by simpa using e
          intro h; cases h
        · obtain ⟨q, hq, e'⟩ := Option.map_eq_some_iff.1 e
          obtain ⟨-, -, rfl⟩ : _ ∧ _ ∧ q.2 = ans := by simpa using e'
          exact attempt_answer ht (show _ = some (q.1, q.2) from hq)
      · next hq =>
        obtain ⟨-, -, rfl⟩ : _ ∧ _ ∧ _ = ans := by simpa using e
        exact attempt_answer ht hq

open Classical in
/-- a solver that is always right -/
noncomputable def perfect (_ : Nat) (cs : List (List Nat)) (as : List Nat) : Answer :=
  if h : ∃ a, Satisfies a cs ∧ ∀ l ∈ as, LitTrue a l then .sat h.choose else .unsat

theorem perfect_sound : Sound perfect := by
  intro k cs as h a ha hl
  unfold perfect at h
  split at h
  · cases h
  · next hx => exact hx ⟨a, ha, hl⟩

theorem perfect_right : Right perfect := by
  intro k cs as a h
  unfold perfect at h
  split at h
  · next hx =>
    obtain rfl := Answer.sat.inj h
    exact hx.choose_spec
  · cases h

theorem perfect_decides (k : Nat) (cs : List (List Nat)) (as : List Nat) : perfect k cs as ≠ .timeout := by
  unfold perfect
  split <;> (intro h; cases h)

/-- two equivalent gates: `ab` and `a(ab̄)'` -/
theorem simNet_equal (v : Nat → Bool) (hv : simNet.Models v) :
    Bool.xor (v 4) (simNet.phaseOf 4) = Bool.xor (v 6) (simNet.phaseOf 6) := by
  have h1 := hv.gate 4 ⟨1, false⟩ ⟨2, false⟩ ⟨by decide, by decide, _, rfl, by decide, by decide, by decide⟩
  have h2 := hv.gate 5 ⟨1, false⟩ ⟨2, true⟩ ⟨by decide, by decide, _, rfl, by decide, by decide, by decide⟩
  have h3 := hv.gate 6 ⟨1, false⟩ ⟨5, true⟩ ⟨by decide, by decide, _, rfl, by decide, by decide, by decide⟩
  have p4 : simNet.phaseOf 4 = false := by decide
  have p6 : simNet.phaseOf 6 = false := by decide
  simp only [Sig.val] at h1 h2 h3
  rw [p4, p6, h3, h2, h1]
  cases v 1 <;> cases v 2 <;> rfl

/-- they are proved equivalent in the state reached after another proof -/
example : ∃ P0 P1 k1 a1 P2 k2, Prover.init 8 = some P0 ∧ satProve ⟨10000, 200, true⟩ simNet perfect 0 P0 4 7 = some (P1, k1, a1) ∧
    satProve ⟨10000, 200, true⟩ simNet perfect k1 P1 4 6 = some (P2, k2, .unsat) := by
  have h0 : Reach ⟨10000, 200, true⟩ perfect simNet _ := .init simNet_built (size := 8) (by decide) rfl
  obtain ⟨P1, k1, a1, e1, l1, h1⟩ := C62_defined perfect_sound h0 (r := 4) (n := 7) (k := 0) (by decide) (by decide) (by decide)
  have hl : P1.vars.length < 1000 := by rw [l1]; decide
  obtain ⟨P2, k2, a2, e2, -, -⟩ := C62_defined perfect_sound h1 (r := 4) (n := 6) (k := k1) (by decide) (by decide) hl
  have := (C62_decides perfect_sound perfect_right h1 (by decide) (by decide) e2 (satProve_answer (perfect_decides) e2) hl).2 simNet_equal
  exact ⟨_, P1, k1, a1, P2, k2, rfl, e1, by rw [e2, this]⟩

/-- gates 4 and 6 of `simNet`: the clauses are those of the conjunctions `ab`, `a(ab̄)'`, `ab̄` -/
example : ∃ P P', Prover.init 8 = some P ∧ satProve ⟨10000, 200, true⟩ simNet (fun _ _ _ => .timeout) 0 P 4 6 = some (P', 1, .timeout) ∧
    P'.clauses = [[3], [6, 5], [8, 5], [7, 9, 4], [6, 11], [13, 11], [7, 12, 10], [6, 13], [9, 13], [7, 8, 12]] :=
  ⟨_, _, rfl, rfl, by decide +kernel⟩

end Verif.Choice.Prover
