import Verif.Cnf.CheckerProof
import Verif.Props.C59
import Mathlib.Tactic.FinCases

set_option autoImplicit false

/-!
# C74: the checker of mapped networks

Full statement: the checker of a mapped network returns true exactly if every LUT computes the function of its root, and it
always ends.

This is false in several ways: a timeout of the solver counts as success (`C74_violated_timeout`); with registers a wrong
LUT is accepted (`C74_violated_register`); a right LUT can be refused (`C74_violated_alarm`); and the check does not end
for a LUT that has itself as its only leaf (`C74_self_loops`), which `klut_mapping` can produce (`C74_violated_self`). Moreover the
check of an output says nothing about the LUTs below the one at the output (`C74_root_blind`, `C74_violated_po`). Proved:

* `C74_sound_partial`: without registers, and for a solver that always answers, all LUTs of an accepted mapping are right.
* `C74_network_partial`: the LUT network made of an accepted mapping is equivalent to the AIG.
* `C74_root_means_partial`: if the check of an output succeeds, then for every input at least one LUT below it has a right value;
  `C74_single_partial`: so a single wrong LUT is found.
* `C74_defined_partial`: the check ends without undefined behaviour if the leaves of each LUT are smaller than its root.
* `C74_accepts_partial`: LUTs that are right by their structure, through fanins and choices, are accepted.
-/

namespace Verif.Checker
open Cnf

/-! ### helper lemmas -/

theorem checkLuts_true {C : Choice} {M : Mapping} {R : Nat → Option Nat} {solve : List (List Nat) → Answer} {fuel : Nat} : ∀ (l : List Nat),
    checkLuts C M R solve fuel l = some true → ∀ n ∈ l, M.isCellRoot n = some true →
      ∃ x, isEqualCell C M R solve fuel n = some x ∧ x ≠ .different
  | [], _, _, h, _ => by cases h
  | k :: l, e, n, hn, hr => by
    rw [checkLuts] at e
    rcases List.mem_cons.1 hn with rfl | hn'
    · rw [hr] at e
      dsimp only at e
      split at e
      · cases e
      · cases e
      · rename_i x hx h
        exact ⟨x, h, hx⟩
    · split at e
      · cases e
      · exact checkLuts_true l e n hn' hr
      · split at e
        · cases e
        · cases e
        · exact checkLuts_true l e n hn' hr

theorem checkLuts_ok {C : Choice} {M : Mapping} {R : Nat → Option Nat} {solve : List (List Nat) → Answer} {fuel : Nat} : ∀ (l : List Nat),
    (∀ n ∈ l, ∃ b, M.isCellRoot n = some b ∧ (b = true → ∃ x, isEqualCell C M R solve fuel n = some x ∧ x ≠ .different)) →
    checkLuts C M R solve fuel l = some true
  | [], _ => rfl
  | n :: l, h => by
    have ih := checkLuts_ok l fun k hk => h k (List.mem_cons_of_mem _ hk)
    obtain ⟨b, h1, h2⟩ := h n (by simp)
    rw [checkLuts, h1]
    cases b with
    | false => exact ih
    | true =>
      obtain ⟨x, h3, h4⟩ := h2 rfl
      dsimp only
      rw [h3]
      cases x with
      | different => exact absurd rfl h4
      | equal => exact ih
      | timeout => exact ih

theorem checkLuts_defined {C : Choice} {M : Mapping} {R : Nat → Option Nat} {solve : List (List Nat) → Answer} {fuel : Nat} : ∀ (l : List Nat),
    (∀ n ∈ l, ∃ b, M.isCellRoot n = some b ∧ (b = true → ∃ x, isEqualCell C M R solve fuel n = some x)) →
    ∃ b, checkLuts C M R solve fuel l = some b
  | [], _ => ⟨true, rfl⟩
  | n :: l, h => by
    have ih := checkLuts_defined l fun k hk => h k (List.mem_cons_of_mem _ hk)
    obtain ⟨b, h1, h2⟩ := h n (by simp)
    rw [checkLuts, h1]
    cases b with
    | false => exact ih
    | true =>
      obtain ⟨x, h3⟩ := h2 rfl
      dsimp only
      rw [h3]
      cases x with
      | different => exact ⟨false, rfl⟩
      | equal => exact ih
      | timeout => exact ih

theorem checkPos_ok {C : Choice} {M : Mapping} {R : Nat → Option Nat} {solve : List (List Nat) → Answer} {fuel : Nat} : ∀ (l : List Sig),
    (∀ o ∈ l, (C.net.isPi o.index || o.index == 0) = true ∨ ∃ x, isEqualRoot C M R solve fuel o.index = some x ∧ x ≠ .different) →
    checkPos C M R solve fuel l = some true
  | [], _ => rfl
  | o :: l, h => by
    have ih := checkPos_ok l fun k hk => h k (List.mem_cons_of_mem _ hk)
    rw [checkPos]
    rcases h o (by simp) with h1 | ⟨x, h1, h2⟩
    · rw [if_pos h1]; exact ih
    · split
      · exact ih
      · rw [h1]
        cases x with
        | different => exact absurd rfl h2
        | equal => exact ih
        | timeout => exact ih

theorem checkPos_defined {C : Choice} {M : Mapping} {R : Nat → Option Nat} {solve : List (List Nat) → Answer} {fuel : Nat} : ∀ (l : List Sig),
    (∀ o ∈ l, ∃ x, isEqualRoot C M R solve fuel o.index = some x) → ∃ b, checkPos C M R solve fuel l = some b
  | [], _ => ⟨true, rfl⟩
  | o :: l, h => by
    have ih := checkPos_defined l fun k hk => h k (List.mem_cons_of_mem _ hk)
    rw [checkPos]
    obtain ⟨x, h1⟩ := h o (by simp)
    split
    · exact ih
    · rw [h1]
      cases x with
      | different => exact ⟨false, rfl⟩
      | equal => exact ih
      | timeout => exact ih

theorem run_true {C : Choice} {M : Mapping} {solve : List (List Nat) → Answer} {fuel : Nat} (e : run C M solve fuel = some true) :
    ∃ R, reprMap C = some R ∧ checkLuts C M R solve fuel C.net.gates = some true := by
  rw [run] at e
  split at e
  · cases e
  · rename_i R hR
    split at e
    · rename_i a b h1 h2
      rw [Option.some.injEq, Bool.and_eq_true] at e
      exact ⟨R, hR, by rw [h1, e.1]⟩
    · cases e

theorem verdict_correct {solve : List (List Nat) → Answer} (hs : Correct solve) {cs : List (List Nat)} (hu : ¬ ∃ a, Satisfies a cs) :
    verdict (solve cs) ≠ .different := by
  have := hs cs
  cases h : solve cs with
  | sat a => rw [h] at this; exact absurd ⟨a, this⟩ hu
  | unsat => simp [verdict]
  | timeout => simp [verdict]

/-! ### soundness -/

/-- All LUTs of an accepted mapping are right. Missing: registers, where it fails; a solver that gives up, where it fails; LUTs
without inputs, which are undefined behaviour. -/
theorem C74_sound_partial (C : Choice) (M : Mapping) (hN : C.net.Built) (hpi : C.net.inputs.length = C.net.numPis) (hO : C.Ordered)
    (hS : C.Sound) (hc : ∀ n, Cover.Root C.net M n → Cell M n) (solve : List (List Nat) → Answer) (hs : Correct solve) (hd : Decides solve)
    (fuel : Nat) (e : run C M solve fuel = some true) :
    ∀ n, Cover.Root C.net M n → ∃ cs f, M.cellFanins n = some cs ∧ M.cellFunction n = some f ∧
      ∀ v, C.net.Models v → v n = f.eval (Klut.args v cs) := by
  rintro n hr
  obtain ⟨R, eR, hl⟩ := run_true e
  obtain ⟨cs, f, h1, h2, h3, h4, h5, h6⟩ := hc n hr
  obtain ⟨x, hx, hne⟩ := checkLuts_true _ hl n ((hN.wf.mem_gates n).2 hr.1) hr.2
  obtain ⟨cls, e1, rfl⟩ := Option.map_eq_some_iff.1 hx
  refine ⟨cs, f, h1, h2, fun v hv => ?_⟩
  refine cell_sound hN hpi hv (fun k r h => reprMap_sound hO hS eR h v hv) e1 ?_ h2 h1 h3 h5 h4.symm
  have := hs cls
  cases ha : solve cls with
  | sat a => rw [ha] at hne; exact absurd rfl hne
  | unsat => rw [ha] at this; exact this
  | timeout => exact absurd ha (hd cls)

/-- The LUT network made of an accepted mapping is equivalent to the AIG. Missing: as above; and the checker does not look
whether the leaves of a LUT are roots of other LUTs and come before its root. -/
theorem C74_network_partial (C : Choice) (M : Mapping) (hN : C.net.Built) (hpi : C.net.inputs.length = C.net.numPis)
    (hpo : C.net.outputs.length = C.net.numPos) (hO : C.Ordered)
    (hS : C.Sound) (hc : ∀ n, Cover.Root C.net M n → Cell M n) (hm : ∀ n, n < C.net.nodes.length → ∃ b, M.isCellRoot n = some b)
    (ho : ∀ o ∈ C.net.outputs, Cover.Avail C.net M o.index)
    (hl : ∀ n, Cover.Root C.net M n → ∀ cs, M.cellFanins n = some cs → ∀ l ∈ cs, Cover.Avail C.net M l ∧ l < n)
    (solve : List (List Nat) → Answer) (hs : Correct solve) (hd : Decides solve)
    (fuel : Nat) (e : run C M solve fuel = some true) :
    ∃ r, Collapse.choiceToKlut C.net M = some r ∧ (r = none ↔ M.hasMapping = false ∧ 0 < C.net.numGates) ∧
      ∀ K, r = some K → Collapse.Equiv C.net K := by
  refine Collapse.C34_choice_to_klut_rising_partial C.net M hN ⟨hm, ho, fun n hr => ?_⟩
    (fun n cs hr hcs l h => (hl n hr cs hcs l h).2) hpi hpo
  obtain ⟨cs, f, h1, h2, h3⟩ := C74_sound_partial C M hN hpi hO hS hc solve hs hd fuel e n hr
  obtain ⟨cs', f', h1', h2', h4, h5, _⟩ := hc n hr
  obtain rfl := Option.some.inj (h1.symm.trans h1')
  obtain rfl := Option.some.inj (h2.symm.trans h2')
  exact ⟨cs, f, h1, h2, h4, h5, fun l h => (hl n hr cs h1 l h).1, h3⟩

/-- What the check of an output means: for every assignment of the inputs at least one of the LUTs met below the output has the value of its
root. Missing: as above. -/
theorem C74_root_means_partial (C : Choice) (M : Mapping) (hN : C.net.Built) (hpi : C.net.inputs.length = C.net.numPis) (hO : C.Ordered)
    (hS : C.Sound) (R : Nat → Option Nat) (eR : reprMap C = some R) (solve : List (List Nat) → Answer) (hs : Correct solve) (fuel o : Nat)
    (hc : ∀ m, Reach C.net M o m → (∃ a b, C.net.IsGate m a b) → Cell M m) (e : isEqualRoot C M R solve fuel o = some .equal) :
    ∀ v, C.net.Models v → ∃ m cs f, Reach C.net M o m ∧ (∃ a b, C.net.IsGate m a b) ∧ M.cellFanins m = some cs ∧ M.cellFunction m = some f ∧
      v m = f.eval (Klut.args v cs) := by
  intro v hv
  by_contra hno
  obtain ⟨T, e1, e2⟩ := Option.map_eq_some_iff.1 e
  obtain ⟨b0, g0, _⟩ := (recycle_good v).prepares (C.net.inputs.take C.net.numPis)
  obtain ⟨b, hb⟩ := rootLoop_good hN hpi hv (fun k r h => reprMap_sound hO hS eR h v hv) (o := o)
    (fun m hm hg => ⟨hc m hm hg, fun cs f h1 h2 h3 => hno ⟨m, cs, f, hm, hg, h1, h2, h3⟩⟩) fuel [o] g0
    (fun n hn => by rw [List.mem_singleton.1 hn]; exact .refl) e1
  have := hs T.clauses
  cases ha : solve T.clauses with
  | sat a => rw [ha] at e2; cases e2
  | unsat => rw [ha] at this; exact this ⟨b, hb.sat⟩
  | timeout => rw [ha] at e2; cases e2

theorem checkPos_true {C : Choice} {M : Mapping} {R : Nat → Option Nat} {solve : List (List Nat) → Answer} {fuel : Nat} : ∀ (l : List Sig),
    checkPos C M R solve fuel l = some true → ∀ o ∈ l, (C.net.isPi o.index || o.index == 0) = false →
      ∃ x, isEqualRoot C M R solve fuel o.index = some x ∧ x ≠ .different
  | [], _, _, h, _ => by cases h
  | k :: l, e, o, ho, hr => by
    rw [checkPos] at e
    rcases List.mem_cons.1 ho with rfl | ho'
    · rw [if_neg (by simp [hr])] at e
      split at e
      · cases e
      · cases e
      · rename_i x hx h
        exact ⟨x, h, hx⟩
    · split at e
      · exact checkPos_true l e o ho' hr
      · split at e
        · cases e
        · cases e
        · exact checkPos_true l e o ho' hr

/-- So the check of the outputs finds a wrong LUT if it is the only one at its output. Missing: as above. -/
theorem C74_single_partial (C : Choice) (M : Mapping) (hN : C.net.Built) (hpi : C.net.inputs.length = C.net.numPis) (hO : C.Ordered)
    (hS : C.Sound) (R : Nat → Option Nat) (eR : reprMap C = some R) (solve : List (List Nat) → Answer) (hs : Correct solve) (hd : Decides solve)
    (fuel : Nat) (e : checkPos C M R solve fuel (C.net.outputs.take C.net.numPos) = some true) (o : Sig)
    (ho : o ∈ C.net.outputs.take C.net.numPos) (hg : ∃ a b, C.net.IsGate o.index a b) (hc : Cell M o.index)
    (hl : ∀ cs, M.cellFanins o.index = some cs → ∀ l ∈ cs, l ∈ C.net.inputs) :
    ∃ cs f, M.cellFanins o.index = some cs ∧ M.cellFunction o.index = some f ∧ ∀ v, C.net.Models v → v o.index = f.eval (Klut.args v cs) := by
  obtain ⟨x, ex, hx⟩ := checkPos_true _ e o ho (by obtain ⟨a, b, hg⟩ := hg; exact (gate_kids hN hg).2.1)
  have hxe : x = .equal := by
    cases x with
    | equal => rfl
    | different => exact absurd rfl hx
    | timeout =>
      obtain ⟨T, _, e2⟩ := Option.map_eq_some_iff.1 ex
      cases ha : solve T.clauses with
      | sat a => rw [ha] at e2; cases e2
      | unsat => rw [ha] at e2; cases e2
      | timeout => exact absurd ha (hd _)
  subst hxe
  have hreach : ∀ m, Reach C.net M o.index m → (∃ a b, C.net.IsGate m a b) → m = o.index := by
    suffices H : ∀ m, Reach C.net M o.index m → m = o.index ∨ m ∈ C.net.inputs by
      rintro m hm ⟨a, b, hg⟩
      rcases H m hm with h | h
      exacts [h, absurd h hg.2.1]
    intro m hm
    induction hm with
    | refl => exact Or.inl rfl
    | step _ hgk hk hm ih =>
      rcases ih with rfl | h
      · exact Or.inr (hl _ hk _ hm)
      · obtain ⟨_, _, hgk⟩ := hgk
        exact absurd h hgk.2.1
  obtain ⟨cs, f, h1, h2, _⟩ := id hc
  refine ⟨cs, f, h1, h2, fun v hv => ?_⟩
  obtain ⟨m, cs', f', hm, hgm, h1', h2', h3⟩ := C74_root_means_partial C M hN hpi hO hS R eR solve hs fuel o.index
    (fun m hm hg => by rw [hreach m hm hg]; exact hc) ex v hv
  obtain rfl := hreach m hm hgm
  obtain rfl := Option.some.inj (h1.symm.trans h1')
  obtain rfl := Option.some.inj (h2.symm.trans h2')
  exact h3

/-! ### the check ends -/

theorem isEqualRoot_defined {C : Choice} {M : Mapping} (hN : C.net.Built) (hpi : C.net.inputs.length = C.net.numPis) (hO : C.Ordered)
    (hc : ∀ n, Cover.Root C.net M n → Cell M n)
    (hl : ∀ n, Cover.Root C.net M n → ∀ cs, M.cellFanins n = some cs → ∀ l ∈ cs, Cover.Avail C.net M l ∧ l < n)
    {R : Nat → Option Nat} {solve : List (List Nat) → Answer} {fuel o : Nat} (ho : Cover.Avail C.net M o) (hlt : o < C.net.nodes.length)
    (h1 : coneFuel C ≤ fuel) (h2 : 32 ^ C.net.nodes.length ≤ fuel) : ∃ x, isEqualRoot C M R solve fuel o = some x := by
  obtain ⟨T, e⟩ := rootLoop_defined (R := R) hN hO h1 hpi (fun n hr => ⟨hc n hr, hl n hr⟩) fuel [o]
    (prepares recycle (C.net.inputs.take C.net.numPis)) (by simpa using ho) (by
      have := Nat.pow_le_pow_right (n := 32) (by omega) (Nat.le_of_lt hlt)
      simp only [List.map_cons, List.map_nil, List.sum_cons, List.sum_nil]
      omega)
  rw [isEqualRoot, e]
  exact ⟨_, rfl⟩

/-- The check ends without undefined behaviour if the leaves of each LUT are smaller than its root. Missing: registers, LUTs without
inputs. The number of rounds is exponential in the depth of the network since nodes are not marked as visited. -/
theorem C74_defined_partial (C : Choice) (M : Mapping) (hN : C.net.Built) (hpi : C.net.inputs.length = C.net.numPis) (hO : C.Ordered)
    (hc : ∀ n, Cover.Root C.net M n → Cell M n) (hm : ∀ n, n < C.net.nodes.length → ∃ b, M.isCellRoot n = some b)
    (ho : ∀ o ∈ C.net.outputs, Cover.Avail C.net M o.index)
    (hl : ∀ n, Cover.Root C.net M n → ∀ cs, M.cellFanins n = some cs → ∀ l ∈ cs, Cover.Avail C.net M l ∧ l < n) :
    ∃ F, ∀ fuel, F ≤ fuel → ∀ solve, ∃ b, run C M solve fuel = some b := by
  refine ⟨max (coneFuel C) (32 ^ C.net.nodes.length), fun fuel hf solve => ?_⟩
  obtain ⟨R, eR⟩ := reprMap_defined hO
  obtain ⟨a, e1⟩ : ∃ a, checkLuts C M R solve fuel C.net.gates = some a := by
    refine checkLuts_defined _ fun n hn => ?_
    obtain ⟨x, y, hg⟩ := (hN.wf.mem_gates n).1 hn
    have hlt := (hN.wf.isGate_lt hg).2.2.2
    obtain ⟨b, hb⟩ := hm n hlt
    refine ⟨b, hb, fun h => ?_⟩
    subst h
    obtain ⟨cs, e⟩ := cellClauses_defined (R := R) hN hO (by omega : coneFuel C ≤ fuel) hlt (hc n ⟨⟨x, y, hg⟩, hb⟩)
    rw [isEqualCell, e]
    exact ⟨_, rfl⟩
  obtain ⟨b, e2⟩ : ∃ b, checkPos C M R solve fuel (C.net.outputs.take C.net.numPos) = some b := by
    refine checkPos_defined _ fun o h => ?_
    have h' := List.mem_of_mem_take h
    exact isEqualRoot_defined hN hpi hO hc hl (ho o h') (hN.wf.outputs o h') (by omega) (by omega)
  rw [run, eR]
  dsimp only
  rw [e1, e2]
  exact ⟨_, rfl⟩

/-! ### right LUTs are accepted -/

theorem structRight_cell {C : Choice} {M : Mapping} (hN : C.net.Built) (hO : C.Ordered) {R : Nat → Option Nat} (eR : reprMap C = some R) {n : Nat}
    (hc : Cell M n) (hr : StructRight C M n) {solve : List (List Nat) → Answer} (hs : Correct solve) {fuel : Nat} {x : Verdict}
    (e : isEqualCell C M R solve fuel n = some x) : x ≠ .different := by
  obtain ⟨cs, f, h1, h2, h3, h4, h5, _⟩ := hc
  obtain ⟨cs', f', h1', h2', hv⟩ := hr
  obtain rfl := Option.some.inj (h1.symm.trans h1')
  obtain rfl := Option.some.inj (h2.symm.trans h2')
  obtain ⟨cls, e1, rfl⟩ := Option.map_eq_some_iff.1 e
  exact verdict_correct hs (cell_complete hN hO eR e1 h2 h1 h3 h5 h4.symm hv)

/-- The check of an output says nothing about the LUTs below: it does not fail if only the LUT at the output is right by its structure. -/
theorem C74_root_blind (C : Choice) (M : Mapping) (hN : C.net.Built) (hO : C.Ordered) (R : Nat → Option Nat) (eR : reprMap C = some R) (n : Nat)
    (hg : ∃ a b, C.net.IsGate n a b) (hc : Cell M n) (hr : StructRight C M n) (solve : List (List Nat) → Answer) (hs : Correct solve)
    (fuel : Nat) (x : Verdict) (e : isEqualRoot C M R solve fuel n = some x) : x ≠ .different := by
  obtain ⟨cs, f, h1, h2, h3, h4, h5, _⟩ := hc
  obtain ⟨cs', f', h1', h2', hv⟩ := hr
  obtain rfl := Option.some.inj (h1.symm.trans h1')
  obtain rfl := Option.some.inj (h2.symm.trans h2')
  obtain ⟨T, e1, rfl⟩ := Option.map_eq_some_iff.1 e
  exact verdict_correct hs (root_complete hN hO eR (prepares_le _ recycle).next e1 hg h2 h1 h3 h5 h4.symm hv)

/-- LUTs that are right by their structure are accepted. Missing: LUTs that are right for other reasons, which can be refused; registers;
LUTs without inputs. -/
theorem C74_accepts_partial (C : Choice) (M : Mapping) (hN : C.net.Built) (hpi : C.net.inputs.length = C.net.numPis) (hO : C.Ordered)
    (hc : ∀ n, Cover.Root C.net M n → Cell M n) (hm : ∀ n, n < C.net.nodes.length → ∃ b, M.isCellRoot n = some b)
    (ho : ∀ o ∈ C.net.outputs, Cover.Avail C.net M o.index)
    (hl : ∀ n, Cover.Root C.net M n → ∀ cs, M.cellFanins n = some cs → ∀ l ∈ cs, Cover.Avail C.net M l ∧ l < n)
    (hr : ∀ n, Cover.Root C.net M n → StructRight C M n) :
    ∃ F, ∀ fuel, F ≤ fuel → ∀ solve, Correct solve → run C M solve fuel = some true := by
  refine ⟨max (coneFuel C) (32 ^ C.net.nodes.length), fun fuel hf solve hs => ?_⟩
  obtain ⟨R, eR⟩ := reprMap_defined hO
  have e1 : checkLuts C M R solve fuel C.net.gates = some true := by
    refine checkLuts_ok _ fun n hn => ?_
    obtain ⟨x, y, hg⟩ := (hN.wf.mem_gates n).1 hn
    have hlt := (hN.wf.isGate_lt hg).2.2.2
    obtain ⟨b, hb⟩ := hm n hlt
    refine ⟨b, hb, fun h => ?_⟩
    subst h
    have hroot : Cover.Root C.net M n := ⟨⟨x, y, hg⟩, hb⟩
    obtain ⟨cs, e⟩ := cellClauses_defined (R := R) hN hO (by omega : coneFuel C ≤ fuel) hlt (hc n hroot)
    have e' : isEqualCell C M R solve fuel n = some (verdict (solve cs)) := by rw [isEqualCell, e]; rfl
    exact ⟨_, e', structRight_cell hN hO eR (hc n hroot) (hr n hroot) hs e'⟩
  have e2 : checkPos C M R solve fuel (C.net.outputs.take C.net.numPos) = some true := by
    refine checkPos_ok _ fun o h => ?_
    have h' := List.mem_of_mem_take h
    have hlt := hN.wf.outputs o h'
    cases hp : (C.net.isPi o.index || o.index == 0) with
    | true => exact Or.inl rfl
    | false =>
      right
      obtain ⟨x, ex⟩ := isEqualRoot_defined (R := R) (solve := solve) (fuel := fuel) hN hpi hO hc hl (ho o h') hlt (by omega) (by omega)
      obtain ⟨a, b, _, hg⟩ := gate_of hN hpi hlt hp
      have hroot : Cover.Root C.net M o.index := by
        rcases ho o h' with h0 | hi | hr
        · exact absurd h0 hg.1
        · exact absurd hi hg.2.1
        · exact hr
      exact ⟨x, ex, C74_root_blind C M hN hO R eR _ hroot.1 (hc _ hroot) (hr _ hroot) solve hs fuel x ex⟩
  rw [run, eR]
  dsimp only
  rw [e1, e2]
  rfl

/-! ### an example with choices -/

/-- LUTs of `assocNet` (`C59`): node 7 by its choice, node 5, from nodes 3 and 4; node 4 from the inputs 1 and 2 -/
def assocMap : Mapping :=
  ((Mapping.init 8).run [.add 4 [1, 2], .setFunction 4 ⟨2, [false, false, false, true]⟩, .add 7 [3, 4],
    .setFunction 7 ⟨2, [false, false, false, true]⟩]).get (by decide +kernel)

theorem assocMap_root {n : Nat} (h : Cover.Root Mapper.assocNet.net assocMap n) : n = 4 ∨ n = 7 := by
  obtain ⟨⟨a, b, hg⟩, hr⟩ := h
  have hn : n < 8 := (Mapper.assocAig_built.wf.isGate_lt hg).2.2.2
  have : ∀ k < 8, assocMap.isCellRoot k = some true → k = 4 ∨ k = 7 := by decide +kernel
  exact this n hn hr

theorem assoc_gate4 : Mapper.assocNet.net.IsGate 4 (.mk 1 false) (.mk 2 false) := ⟨by decide, by decide, _, rfl, by decide, by decide⟩
theorem assoc_gate5 : Mapper.assocNet.net.IsGate 5 (.mk 3 false) (.mk 4 false) := ⟨by decide, by decide, _, rfl, by decide, by decide⟩
theorem assoc_gate7 : Mapper.assocNet.net.IsGate 7 (.mk 1 false) (.mk 6 false) := ⟨by decide, by decide, _, rfl, by decide, by decide⟩

theorem assoc_root4 : Cover.Root Mapper.assocNet.net assocMap 4 := ⟨⟨_, _, assoc_gate4⟩, by decide +kernel⟩
theorem assoc_root7 : Cover.Root Mapper.assocNet.net assocMap 7 := ⟨⟨_, _, assoc_gate7⟩, by decide +kernel⟩

theorem assoc_cell (n : Nat) (h : Cover.Root Mapper.assocNet.net assocMap n) : Cell assocMap n := by
  rcases assocMap_root h with rfl | rfl
  · exact ⟨[1, 2], ⟨2, [false, false, false, true]⟩, by decide +kernel, by decide +kernel, rfl, rfl, by decide, by simp⟩
  · exact ⟨[3, 4], ⟨2, [false, false, false, true]⟩, by decide +kernel, by decide +kernel, rfl, rfl, by decide, by simp⟩

theorem assoc_leaves (n : Nat) (h : Cover.Root Mapper.assocNet.net assocMap n) (cs : List Nat) (e : assocMap.cellFanins n = some cs) :
    ∀ l ∈ cs, Cover.Avail Mapper.assocNet.net assocMap l ∧ l < n := by
  rcases assocMap_root h with rfl | rfl
  · have : assocMap.cellFanins 4 = some [1, 2] := by decide +kernel
    obtain rfl := Option.some.inj (this.symm.trans e)
    intro l hl
    fin_cases hl
    · exact ⟨Or.inr (Or.inl (by decide)), by decide⟩
    · exact ⟨Or.inr (Or.inl (by decide)), by decide⟩
  · have : assocMap.cellFanins 7 = some [3, 4] := by decide +kernel
    obtain rfl := Option.some.inj (this.symm.trans e)
    intro l hl
    fin_cases hl
    · exact ⟨Or.inr (Or.inl (by decide)), by decide⟩
    · exact ⟨Or.inr (Or.inr assoc_root4), by decide⟩

theorem assoc_behind {g m : Nat} (h : Behind Mapper.assocNet g m) : g = 7 := by
  cases h with
  | next h => exact (Mapper.assocNet_eq h).1
  | more h _ => exact (Mapper.assocNet_eq h).1

theorem eval_and (w : Nat → Bool) (x y : Nat) : (⟨2, [false, false, false, true]⟩ : TT).eval (Klut.args w [x, y]) = (w x && w y) := by
  have h0 : Klut.args w [x, y] 0 = w x := rfl
  have h1 : Klut.args w [x, y] 1 = w y := rfl
  simp only [TT.eval, TT.pos, h0, h1]
  cases w x <;> cases w y <;> rfl

theorem assoc_struct (n : Nat) (h : Cover.Root Mapper.assocNet.net assocMap n) : StructRight Mapper.assocNet assocMap n := by
  rcases assocMap_root h with rfl | rfl
  · refine ⟨[1, 2], ⟨2, [false, false, false, true]⟩, by decide +kernel, by decide +kernel, fun w => ?_⟩
    rw [eval_and]
    have := Val.gate (C := Mapper.assocNet) (w := w) (leaves := [1, 2]) assoc_gate4 (.leaf (by simp)) (.leaf (by simp))
    simpa using this
  · refine ⟨[3, 4], ⟨2, [false, false, false, true]⟩, by decide +kernel, by decide +kernel, fun w => ?_⟩
    rw [eval_and]
    have h5 := Val.gate (C := Mapper.assocNet) (w := w) (leaves := [3, 4]) assoc_gate5 (.leaf (by simp)) (.leaf (by simp))
    have hc : ChoiceOf Mapper.assocNet 5 7 :=
      ⟨⟨_, _, assoc_gate5⟩, ⟨_, _, assoc_gate7⟩, by decide +kernel, .next (by decide), fun g _ _ hb => by rw [assoc_behind hb]⟩
    have := Val.choice hc h5
    have p7 : Mapper.assocNet.net.phaseOf 7 = false := by decide
    have p5 : Mapper.assocNet.net.phaseOf 5 = false := by decide
    rw [p7, p5] at this
    simpa using this

theorem assoc_marked : ∀ n, n < Mapper.assocNet.net.nodes.length → ∃ b, assocMap.isCellRoot n = some b := by
  intro n hn
  have : ∀ k < 8, (assocMap.isCellRoot k).isSome = true := by decide +kernel
  exact Option.isSome_iff_exists.1 (this n hn)

theorem assoc_outputs : ∀ o ∈ Mapper.assocNet.net.outputs, Cover.Avail Mapper.assocNet.net assocMap o.index := by
  intro o ho
  have : o = .mk 7 false ∨ o = .mk 4 false := by
    have h : Mapper.assocNet.net.outputs = [.mk 7 false, .mk 4 false] := by decide
    rw [h] at ho
    simpa using ho
  rcases this with rfl | rfl
  · exact Or.inr (Or.inr assoc_root7)
  · exact Or.inr (Or.inr assoc_root4)

/-- The LUT of node 7 uses its choice; the checker accepts the mapping. The hypotheses of all the theorems above are met. -/
example : ∃ F, ∀ fuel, F ≤ fuel → ∀ solve, Correct solve → run Mapper.assocNet assocMap solve fuel = some true :=
  C74_accepts_partial _ _ Mapper.assocAig_built (by decide) Mapper.assocNet_ordered assoc_cell assoc_marked assoc_outputs assoc_leaves
    assoc_struct

/-- a solver -/
noncomputable def ideal (cs : List (List Nat)) : Answer :=
  open Classical in if h : ∃ a, Satisfies a cs then .sat h.choose else .unsat

theorem ideal_correct : Correct ideal ∧ Decides ideal := by
  constructor
  · intro cs
    unfold ideal
    split
    · rename_i a h
      split at h
      · rename_i hx
        cases h
        exact hx.choose_spec
      · cases h
    · rename_i h
      split at h
      · cases h
      · assumption
    · trivial
  · intro cs
    unfold ideal
    split <;> simp

/-- so that its LUT network is equivalent to it -/
example : ∃ K, Collapse.choiceToKlut Mapper.assocNet.net assocMap = some (some K) ∧ Collapse.Equiv Mapper.assocNet.net K := by
  obtain ⟨F, hF⟩ := C74_accepts_partial _ _ Mapper.assocAig_built (by decide) Mapper.assocNet_ordered assoc_cell assoc_marked assoc_outputs
    assoc_leaves assoc_struct
  obtain ⟨r, er, hr, hK⟩ := C74_network_partial _ _ Mapper.assocAig_built (by decide) (by decide) Mapper.assocNet_ordered Mapper.assocNet_sound
    assoc_cell assoc_marked assoc_outputs assoc_leaves ideal ideal_correct.1 ideal_correct.2 F (hF F (Nat.le_refl _) ideal ideal_correct.1)
  cases r with
  | none =>
    have h : assocMap.hasMapping = true := by decide +kernel
    rw [(hr.1 rfl).1] at h
    cases h
  | some K => exact ⟨K, er, hK K rfl⟩

/-- the second output of it has a single LUT -/
example : ∃ R F, reprMap Mapper.assocNet = some R ∧
    checkPos Mapper.assocNet assocMap R ideal F (Mapper.assocNet.net.outputs.take Mapper.assocNet.net.numPos) = some true ∧
    (∃ x, isEqualRoot Mapper.assocNet assocMap R ideal F 4 = some x ∧ x ≠ .different) ∧
    ∃ cs f, assocMap.cellFanins 4 = some cs ∧ assocMap.cellFunction 4 = some f ∧
      ∀ v, Mapper.assocNet.net.Models v → v 4 = f.eval (Klut.args v cs) := by
  obtain ⟨F, hF⟩ := C74_accepts_partial _ _ Mapper.assocAig_built (by decide) Mapper.assocNet_ordered assoc_cell assoc_marked assoc_outputs
    assoc_leaves assoc_struct
  have e := hF F (Nat.le_refl _) ideal ideal_correct.1
  rw [run] at e
  split at e
  · cases e
  · rename_i R hR
    split at e
    · rename_i a b h1 h2
      rw [Option.some.injEq, Bool.and_eq_true] at e
      rw [e.2] at h2
      refine ⟨R, F, hR, h2, checkPos_true _ h2 (.mk 4 false) (by decide) (by decide), ?_⟩
      refine C74_single_partial _ _ Mapper.assocAig_built (by decide) Mapper.assocNet_ordered Mapper.assocNet_sound R hR ideal
        ideal_correct.1 ideal_correct.2 F h2 (.mk 4 false) (by decide) assoc_root4.1 (assoc_cell 4 assoc_root4) ?_
      intro cs h l hl
      have : assocMap.cellFanins 4 = some [1, 2] := by decide +kernel
      obtain rfl := Option.some.inj (this.symm.trans h)
      fin_cases hl <;> decide
    · cases e

/-! ### counterexamples -/

/-- A LUT whose only leaf is its root: the check of an output at it never ends. -/
theorem C74_self_loops (C : Choice) (M : Mapping) (R : Nat → Option Nat) (n : Nat) (hn : (C.net.isPi n || n == 0) = false)
    (hc : M.cellFanins n = some [n]) (solve : List (List Nat) → Answer) (fuel : Nat) : isEqualRoot C M R solve fuel n = none := by
  have : ∀ (fuel cf : Nat) (S : State), rootLoop C M R cf fuel [n] S = none := by
    intro fuel
    induction fuel with
    | zero => intro cf S; rfl
    | succ fuel ih =>
      intro cf S
      rw [rootLoop, if_neg (by simp [hn]), hc]
      split
      · rename_i f leaves _ h
        cases h
        split
        · rfl
        · split
          · rfl
          · exact ih cf _
      · rfl
  rw [isEqualRoot, this]
  rfl

/-- `klut_mapping` on a network with choices can give such a LUT (`C59_violated_self`), and the checker does not end on it. -/
theorem C74_violated_self : ∃ M, Mapper.klutMap {} Mapper.selfNet Mapper.H1 0 = some M ∧ Mapper.SelfCell Mapper.selfNet.net M 5 ∧
    ∀ solve fuel, run Mapper.selfNet M solve fuel = none := by
  obtain ⟨_, _, _, M, _, e, hs, _⟩ := Mapper.C59_violated_self
  refine ⟨M, e, hs, fun solve fuel => ?_⟩
  rw [run]
  split
  · rfl
  · rename_i R _
    have hp : checkPos Mapper.selfNet M R solve fuel (Mapper.selfNet.net.outputs.take Mapper.selfNet.net.numPos) = none := by
      have ho : Mapper.selfNet.net.outputs.take Mapper.selfNet.net.numPos = [.mk 5 false] := by decide
      rw [ho, checkPos, if_neg (by decide), C74_self_loops _ M R 5 (by decide) hs.2]
    rw [hp]
    split
    · rename_i h; cases h
    · rfl

/-- the network `(1 ∧ 2) ∧ ¬3` of `C35` without choices -/
def plain : Choice := Choice.init ToAig.coverAig 6

theorem plain_ordered : plain.Ordered := by
  refine ⟨by decide, fun n m h => ?_⟩
  simp only [plain, Choice.init, List.getElem?_replicate] at h
  split at h <;> cases h

/-- the LUT of node 5 is right; the one of node 4, which should be `x₁ ∧ x₂`, is `x₁ ∨ x₂` -/
def orMap : Mapping :=
  ((Mapping.init 6).run [.add 4 [1, 2], .setFunction 4 ⟨2, [false, true, true, true]⟩, .add 5 [3, 4],
    .setFunction 5 ⟨2, [false, false, true, false]⟩]).get (by decide +kernel)

theorem plain_gate5 : plain.net.IsGate 5 (.mk 3 true) (.mk 4 false) := ⟨by decide, by decide, _, rfl, by decide, by decide⟩

theorem or_struct : StructRight plain orMap 5 := by
  refine ⟨[3, 4], ⟨2, [false, false, true, false]⟩, by decide +kernel, by decide +kernel, fun w => ?_⟩
  have h5 := Val.gate (C := plain) (w := w) (leaves := [3, 4]) plain_gate5 (.leaf (by simp)) (.leaf (by simp))
  have h0 : Klut.args w [3, 4] 0 = w 3 := rfl
  have h1 : Klut.args w [3, 4] 1 = w 4 := rfl
  simp only [TT.eval, TT.pos, h0, h1]
  revert h5
  cases w 3 <;> cases w 4 <;> exact id

/-- The check of the outputs accepts a mapping with a wrong LUT, whatever the solver. -/
theorem C74_violated_po : (∀ solve, Correct solve → ∃ R, reprMap plain = some R ∧
      checkPos plain orMap R solve 200 (plain.net.outputs.take plain.net.numPos) = some true) ∧
    ∃ cs f v, orMap.cellFanins 4 = some cs ∧ orMap.cellFunction 4 = some f ∧ plain.net.Models v ∧ v 4 ≠ f.eval (Klut.args v cs) := by
  constructor
  · intro solve hs
    obtain ⟨R, eR⟩ := reprMap_defined plain_ordered
    refine ⟨R, eR, checkPos_ok _ fun o ho => Or.inr ?_⟩
    have h : plain.net.outputs.take plain.net.numPos = [.mk 5 true] := by decide
    rw [h, List.mem_singleton] at ho
    subst ho
    have hd : (match reprMap plain with
        | none => false
        | some R => (rootLoop plain orMap R 200 200 [5] (prepares recycle (plain.net.inputs.take plain.net.numPis))).isSome) = true := by
      decide +kernel
    rw [eR] at hd
    cases e : rootLoop plain orMap R 200 200 [5] (prepares recycle (plain.net.inputs.take plain.net.numPis)) with
    | none => simp [e] at hd
    | some T =>
      have e' : isEqualRoot plain orMap R solve 200 5 = some (verdict (solve T.clauses)) := by rw [isEqualRoot, e]; rfl
      refine ⟨_, e', C74_root_blind plain orMap ToAig.coverAig_built plain_ordered R eR 5 ⟨_, _, plain_gate5⟩ ?_ or_struct solve hs 200 _ e'⟩
      exact ⟨[3, 4], ⟨2, [false, false, true, false]⟩, by decide +kernel, by decide +kernel, rfl, rfl, by decide, by simp⟩
  · refine ⟨[1, 2], ⟨2, [false, true, true, true]⟩, fun n => n == 1, by decide +kernel, by decide +kernel, ⟨rfl, ?_⟩, by decide⟩
    rintro n a b hg
    have hn : n < 6 := (ToAig.coverAig_built.wf.isGate_lt hg).2.2.2
    obtain ⟨h0, h1, nd, hnd, hk, rfl, rfl⟩ := hg
    match n, hn with
    | 0, _ => exact absurd rfl h0
    | 1, _ | 2, _ | 3, _ => exact absurd (by decide) h1
    | 4, _ =>
      have : nd = _ := (Option.some.inj hnd).symm
      subst this
      decide
    | 5, _ =>
      have : nd = _ := (Option.some.inj hnd).symm
      subst this
      decide

/-- A solver that gives up is taken for one that has found no difference: the mapping with the wrong LUT is accepted. -/
theorem C74_violated_timeout : Correct (fun _ => .timeout) ∧ run plain orMap (fun _ => .timeout) 200 = some true :=
  ⟨fun _ => trivial, by decide +kernel⟩

/-- two register outputs, nodes 1 and 2; node 3 is their conjunction and the output -/
def regAig : Aig :=
  let n2 := Aig.empty.createRo.1.createRo.1
  let r3 := n2.createAnd (.mk 1 false) (.mk 2 false)
  r3.1.createPo (.mk 3 false)

theorem regAig_built : regAig.Built := by
  have h1 : Aig.Built Aig.empty.createRo.1.createRo.1 := .ro (.ro .empty)
  exact .po (.and (a := .mk 1 false) (b := .mk 2 false) h1 (by decide) (by decide)) (by decide)

/-- the LUT of node 3 is `x₁`, where it should be `x₁ ∧ x₂` -/
def regMap : Mapping :=
  ((Mapping.init 4).run [.add 3 [1, 2], .setFunction 3 ⟨2, [false, true, false, true]⟩]).get (by decide +kernel)

def regNet : Choice := Choice.init regAig 4

/-- With registers a wrong LUT is accepted by every solver that answers: a register output gets the clauses of a conjunction of the constant
node with itself, so that all register outputs are taken to be equal. -/
theorem C74_violated_register : regNet.net.Built ∧ regNet.Ordered ∧
    (∀ solve, Correct solve → Decides solve → ∃ R, reprMap regNet = some R ∧ isEqualCell regNet regMap R solve 50 3 = some .equal) ∧
    ∃ cs f v, regMap.cellFanins 3 = some cs ∧ regMap.cellFunction 3 = some f ∧ regNet.net.Models v ∧ v 3 ≠ f.eval (Klut.args v cs) := by
  have hO : regNet.Ordered := by
    refine ⟨by decide, fun n m h => ?_⟩
    simp only [regNet, Choice.init, List.getElem?_replicate] at h
    split at h <;> cases h
  refine ⟨regAig_built, hO, fun solve hs hd => ?_, ?_⟩
  · obtain ⟨R, eR⟩ := reprMap_defined hO
    have h : (reprMap regNet).bind (fun R => cellClauses regNet regMap R 50 3) = some
        [[5, 8], [4, 9], [12, 5], [12, 5], [13, 13, 4], [12, 7], [12, 7], [13, 13, 6], [4, 11], [6, 11], [5, 7, 10], [8, 10], [9, 11]] := by
      decide +kernel
    rw [eR, Option.bind_some] at h
    refine ⟨R, eR, ?_⟩
    rw [isEqualCell, h, Option.map_some]
    have hu : ¬ ∃ a, Satisfies a
        [[5, 8], [4, 9], [12, 5], [12, 5], [13, 13, 4], [12, 7], [12, 7], [13, 13, 6], [4, 11], [6, 11], [5, 7, 10], [8, 10], [9, 11]] := by
      rintro ⟨a, ha⟩
      simp only [Satisfies, List.forall_mem_cons, List.exists_mem_cons_iff, LitTrue, List.not_mem_nil, false_and, exists_false, or_false,
        Nat.reduceMod, Nat.reduceDiv] at ha
      revert ha
      cases a 2 <;> cases a 3 <;> cases a 4 <;> cases a 5 <;> cases a 6 <;> simp
    have := verdict_correct hs hu
    cases ha : solve _ with
    | sat a => rw [ha] at this; exact absurd rfl this
    | unsat => rfl
    | timeout => exact absurd ha (hd _)
  · refine ⟨[1, 2], ⟨2, [false, true, false, true]⟩, fun n => n == 1, by decide +kernel, by decide +kernel, ⟨rfl, ?_⟩, by decide⟩
    rintro n a b hg
    have hn : n < 4 := (regAig_built.wf.isGate_lt hg).2.2.2
    obtain ⟨h0, h1, nd, hnd, hk, rfl, rfl⟩ := hg
    match n, hn with
    | 0, _ => exact absurd rfl h0
    | 1, _ | 2, _ => exact absurd (by decide) h1
    | 3, _ =>
      have : nd = _ := (Option.some.inj hnd).symm
      subst this
      decide

/-- inputs 1 to 3; nodes 6 and 7 are `(x₁ ∧ x₂) ∧ x₃` and `(x₁ ∧ ¬x₂) ∧ x₃`, node 8 is `¬6 ∧ ¬7` and the output -/
def hideAig : Aig :=
  let n1 := Aig.empty.createPi.1.createPi.1.createPi.1
  let r4 := n1.createAnd (.mk 1 false) (.mk 2 false)
  let r5 := r4.1.createAnd (.mk 1 false) (.mk 2 true)
  let r6 := r5.1.createAnd (.mk 3 false) (.mk 4 false)
  let r7 := r6.1.createAnd (.mk 3 false) (.mk 5 false)
  let r8 := r7.1.createAnd (.mk 6 true) (.mk 7 true)
  r8.1.createPo (.mk 8 false)

def hideNet : Choice := Choice.init hideAig 9

/-- the LUT of node 8 is `6 ↔ 7`, which is right since 6 and 7 are never both true -/
def hideMap : Mapping :=
  ((Mapping.init 9).run [.add 8 [6, 7], .setFunction 8 ⟨2, [true, false, false, true]⟩]).get (by decide +kernel)

theorem hideAig_built : hideAig.Built := by
  have h1 : Aig.Built Aig.empty.createPi.1.createPi.1.createPi.1 := .pi (.pi (.pi .empty))
  have h4 := Aig.Built.and (a := .mk 1 false) (b := .mk 2 false) h1 (by decide) (by decide)
  have h5 := Aig.Built.and (a := .mk 1 false) (b := .mk 2 true) h4 (by decide) (by decide)
  have h6 := Aig.Built.and (a := .mk 3 false) (b := .mk 4 false) h5 (by decide) (by decide)
  have h7 := Aig.Built.and (a := .mk 3 false) (b := .mk 5 false) h6 (by decide) (by decide)
  have h8 := Aig.Built.and (a := .mk 6 true) (b := .mk 7 true) h7 (by decide) (by decide)
  exact .po h8 (by decide)

/-- A right LUT is refused by every solver that answers: the nodes below the leaves are left out. -/
theorem C74_violated_alarm : hideNet.net.Built ∧ hideNet.Ordered ∧
    (∀ solve, Correct solve → Decides solve → ∃ R, reprMap hideNet = some R ∧ isEqualCell hideNet hideMap R solve 50 8 = some .different) ∧
    ∃ cs f, hideMap.cellFanins 8 = some cs ∧ hideMap.cellFunction 8 = some f ∧
      ∀ v, hideNet.net.Models v → v 8 = f.eval (Klut.args v cs) := by
  have hO : hideNet.Ordered := by
    refine ⟨by decide, fun n m h => ?_⟩
    simp only [hideNet, Choice.init, List.getElem?_replicate] at h
    split at h <;> cases h
  refine ⟨hideAig_built, hO, fun solve hs hd => ?_, ?_⟩
  · obtain ⟨R, eR⟩ := reprMap_defined hO
    have h : (reprMap hideNet).bind (fun R => cellClauses hideNet hideMap R 50 8) = some
        [[4, 6, 8], [5, 7, 8], [5, 6, 9], [4, 7, 9], [12, 5], [14, 5], [13, 15, 4], [12, 7], [16, 7], [13, 17, 6], [5, 11],
          [7, 11], [4, 6, 10], [8, 10], [9, 11]] := by
      decide +kernel
    rw [eR, Option.bind_some] at h
    refine ⟨R, eR, ?_⟩
    rw [isEqualCell, h, Option.map_some]
    have hsat : Satisfies (fun k => k != 5)
        [[4, 6, 8], [5, 7, 8], [5, 6, 9], [4, 7, 9], [12, 5], [14, 5], [13, 15, 4], [12, 7], [16, 7], [13, 17, 6], [5, 11],
          [7, 11], [4, 6, 10], [8, 10], [9, 11]] := by
      simp [Satisfies, LitTrue]
    have := hs [[4, 6, 8], [5, 7, 8], [5, 6, 9], [4, 7, 9], [12, 5], [14, 5], [13, 15, 4], [12, 7], [16, 7], [13, 17, 6], [5, 11],
          [7, 11], [4, 6, 10], [8, 10], [9, 11]]
    cases ha : solve _ with
    | sat a => rfl
    | unsat => rw [ha] at this; exact absurd ⟨_, hsat⟩ this
    | timeout => exact absurd ha (hd _)
  · refine ⟨[6, 7], ⟨2, [true, false, false, true]⟩, by decide +kernel, by decide +kernel, fun v hv => ?_⟩
    have h4 := hv.gate 4 (.mk 1 false) (.mk 2 false) ⟨by decide, by decide, _, rfl, by decide, by decide⟩
    have h5 := hv.gate 5 (.mk 1 false) (.mk 2 true) ⟨by decide, by decide, _, rfl, by decide, by decide⟩
    have h6 := hv.gate 6 (.mk 3 false) (.mk 4 false) ⟨by decide, by decide, _, rfl, by decide, by decide⟩
    have h7 := hv.gate 7 (.mk 3 false) (.mk 5 false) ⟨by decide, by decide, _, rfl, by decide, by decide⟩
    have h8 := hv.gate 8 (.mk 6 true) (.mk 7 true) ⟨by decide, by decide, _, rfl, by decide, by decide⟩
    simp only [Sig.val] at h4 h5 h6 h7 h8
    have e0 : Klut.args v [6, 7] 0 = v 6 := rfl
    have e1 : Klut.args v [6, 7] 1 = v 7 := rfl
    simp only [TT.eval, TT.pos, e0, e1]
    rw [h8, h7, h6, h5, h4]
    cases v 1 <;> cases v 2 <;> cases v 3 <;> rfl

end Verif.Checker
