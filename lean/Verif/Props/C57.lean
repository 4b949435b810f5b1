import Verif.Props.C53
import Verif.Props.C35

set_option autoImplicit false

/-!
# C57: the shell command `lut_opt` keeps the functions of the current AIG

The full claim — for every AIG and all options the command stores an AIG with the same inputs, outputs and output
functions — is false: with registers (`C34_violated_registers`), and because the command dereferences an empty optional for
networks with gates none of which drives an output (`C57_violated`).
-/

namespace Verif.Mapper
open Cuts

variable {β : Type}

/-- `D` is a constructed network with the interface and the output functions of `N`. -/
structure Preserves (N D : Aig) : Prop where
  built : D.Built
  numPis : D.numPis = N.numPis
  inputs : D.inputs.length = N.inputs.length
  numPos : D.numPos = N.numPos
  outputs : D.outputs.length = N.outputs.length
  val : ∀ x v v', N.Consistent x v → D.Consistent x v' → D.outputs.map (·.val v') = N.outputs.map (·.val v)

/-- cut parameters of accepted options -/
theorem lutParams_ok {o : LutOptions} {p : Ps} (ho : o.params = some p) (hprio : o.prioritySize ≤ 11) :
    PsOk p.cut ∧ p.cut.cutSize = o.cutSize := by
  unfold LutOptions.params at ho
  split at ho
  · simp at ho
  split at ho
  · simp at ho
  split at ho
  · simp at ho
  split at ho
  · simp at ho
  rename_i h1 h2 _ _
  obtain rfl := Option.some.inj ho
  exact ⟨⟨by dsimp; omega, by dsimp; unfold maxCutSize; omega, by dsimp; omega, by dsimp; unfold maxCutNum; omega, rfl⟩, rfl⟩

/-- the conversion back to an AIG, for the LUT networks that the mapper makes -/
theorem convert_maps {N : Aig} (hpi : N.inputs.length = N.numPis) (hpo : N.outputs.length = N.numPos) {k : Nat} (hk : k ≤ 32)
    {K : Klut} (h : Maps N k K) : ∃ D, ToAig.convertKlut K = some D ∧ Preserves N D := by
  obtain ⟨he, hs⟩ := h
  obtain ⟨D, e, hb, a1, a2, a3, a4, hv⟩ := ToAig.C35_klut_partial K he.built (by rw [he.inputs, he.numPis, hpi])
    (by rw [he.outputs, he.numPos, hpo]) (by
      rintro n cs f ⟨_, _, nd, hnd, rfl, _⟩
      exact Nat.le_trans (hs n nd hnd) hk)
  refine ⟨D, e, hb, a1.trans he.numPis, a2.trans he.inputs, a3.trans he.numPos, a4.trans he.outputs, ?_⟩
  intro x v v' h1 h2
  obtain ⟨w, hw⟩ := he.built.wf.exists x
  rw [hv x w v' hw h2, he.val x v w h1 hw]

/-- C57 for AIGs without registers and priority sizes up to 11, for all heuristics: if the command does not run into
undefined behaviour, it refuses bad options and leaves the AIG alone, and otherwise stores an equivalent AIG. -/
theorem C57_partial (o : LutOptions) (hprio : o.prioritySize ≤ 11) (N : Aig) (hN : N.Built) (hpi : N.inputs.length = N.numPis)
    (hpo : N.outputs.length = N.numPos) (H : Nat → Nat → Heur β) (cost : β) (D : Aig)
    (e : lutOpt o N H cost = some D) : Preserves N D ∧ (o.params = none → D = N) := by
  unfold lutOpt at e
  cases ho : o.params with
  | none =>
    rw [ho] at e
    obtain rfl := Option.some.inj e
    exact ⟨⟨hN, rfl, rfl, rfl, rfl, fun x v v' h1 h2 => by
      apply List.map_congr_left
      intro s hs
      exact hN.wf.unique_val h2 h1 (hN.wf.outputs s hs)⟩, fun _ => rfl⟩
  | some p =>
    rw [ho] at e
    dsimp only at e
    obtain ⟨hp, hs⟩ := lutParams_ok ho hprio
    refine ⟨?_, by simp⟩
    cases em : klutMap p (Choice.init N N.nodes.length) H cost with
    | none => rw [em] at e; simp at e
    | some M =>
      rw [em] at e
      dsimp only at e
      have hg := C36_partial p N hN hpo.symm hp H cost M em
      obtain ⟨r', er, _, hK⟩ := Collapse.C34_choice_to_klut_partial N M hN hg.1 hpi hpo
      rw [er] at e
      cases r' with
      | none => simp at e
      | some K =>
        dsimp only at e
        have h2 := hp.size2
        have hsz := Collapse.C34_lut_size_partial N M hN hg.1.right hpi p.cut.cutSize (by omega)
          (fun n cs hr hc => (hg.2 n cs hr hc).2) K (Or.inl er)
        have h7 := hp.size7
        obtain ⟨D', e', h'⟩ := convert_maps hpi hpo (by unfold maxCutSize at h7; omega) ⟨hK K rfl, hsz⟩
        rw [e] at e'
        obtain rfl := Option.some.inj e'
        exact h'

/-- Exactly when the command is free of undefined behaviour, for cut sizes 2 and 3: if the AIG has a gate, some output
must be driven by one. -/
theorem C57_defined_partial (o : LutOptions) (hprio : o.prioritySize ≤ 11) (hsize : o.cutSize ≤ 3) (N : Aig) (hN : N.Built)
    (hpi : N.inputs.length = N.numPis) (hpo : N.outputs.length = N.numPos) (H : Nat → Nat → Heur β) (cost : β) :
    lutOpt o N H cost ≠ none ↔
      (o.params ≠ none → 0 < N.numGates → ∃ s ∈ N.outputs, ∃ a b, N.IsGate s.index a b) := by
  unfold lutOpt
  cases ho : o.params with
  | none => simp
  | some p =>
    dsimp only
    obtain ⟨hp, hs⟩ := lutParams_ok ho hprio
    obtain ⟨M, em⟩ := C36_defined_partial p N hN hpo.symm hp (by omega) H cost
    rw [em]
    dsimp only
    have hg := C36_partial p N hN hpo.symm hp H cost M em
    obtain ⟨r', er, hr, hK⟩ := Collapse.C34_choice_to_klut_partial N M hN hg.1 hpi hpo
    rw [er]
    have key := hasMapping_iff p N hN hpo hp H cost M em
    cases r' with
    | none =>
      have := hr.1 rfl
      rw [← key]
      simp [this.1, this.2]
    | some K =>
      have : ¬ (M.hasMapping = false ∧ 0 < N.numGates) := fun h => by simpa using hr.2 h
      have h2 := hp.size2
      have hsz := Collapse.C34_lut_size_partial N M hN hg.1.right hpi p.cut.cutSize (by omega)
        (fun n cs hr hc => (hg.2 n cs hr hc).2) K (Or.inl er)
      obtain ⟨D', e', h'⟩ := convert_maps hpi hpo (by omega) ⟨hK K rfl, hsz⟩
      dsimp only
      rw [e']
      simp only [ne_eq, reduceCtorEq, not_false_eq_true, true_iff, forall_const]
      intro hn
      rw [← key]
      cases hm : M.hasMapping with
      | true => rfl
      | false => exact absurd ⟨hm, hn⟩ this

/-- the default options with cut size 3 on `and3` of `C36` meet the hypotheses, and there is no undefined behaviour -/
example : ∃ D, lutOpt { cutSize := 3 } and3 H1 0 = some D ∧ Preserves and3 D := by
  have h := (C57_defined_partial { cutSize := 3 } (by decide) (by decide) and3 and3_built (by decide) (by decide) H1 0).2
    (fun _ _ => ⟨.mk 5 false, by decide, .mk 3 false, .mk 4 false, by decide, by decide, _, rfl, by decide, by decide⟩)
  obtain ⟨D, e⟩ := Option.ne_none_iff_exists'.1 h
  exact ⟨D, e, (C57_partial { cutSize := 3 } (by decide) and3 and3_built (by decide) (by decide) H1 0 D e).1⟩

/-- With the default options the command dereferences an empty optional on `dangling`, whatever the heuristics. -/
theorem C57_violated (H : Nat → Nat → Heur β) (cost : β) : lutOpt {} dangling H cost = none := by
  obtain ⟨p, ho⟩ := Option.ne_none_iff_exists'.1 (show (LutOptions.params {}) ≠ none by decide)
  obtain ⟨hp, _⟩ := lutParams_ok ho (by decide)
  unfold lutOpt
  rw [ho]
  dsimp only
  cases em : klutMap p (Choice.init dangling dangling.nodes.length) H cost with
  | none => rfl
  | some M =>
    have hg := C36_partial p dangling dangling_built (by decide) hp H cost M em
    obtain ⟨r', er, hr, _⟩ := Collapse.C34_choice_to_klut_partial dangling M dangling_built hg.1 (by decide) (by decide)
    have hno : M.hasMapping = false := by
      rw [← Bool.not_eq_true, hasMapping_iff p dangling dangling_built (by decide) hp H cost M em]
      rintro ⟨s, hs, a, b, _, hi, _⟩
      exact hi ((by decide : ∀ s ∈ dangling.outputs, s.index ∈ dangling.inputs) s hs)
    have : r' = none := hr.2 ⟨hno, by decide⟩
    subst this
    dsimp only
    rw [er]

end Verif.Mapper
