import Verif.Mapping.Command
import Verif.Props.C36

set_option autoImplicit false

/-!
# C53: the shell command `map_fpga` stores an equivalent LUT network

The full claim — for every AIG and all accepted options the stored LUT network has the inputs, outputs and output
functions of the AIG, and LUTs of at most `cut_size` inputs — is false: with registers (`C36_violated_registers`,
`C34_violated_registers`) and, because the command dereferences an empty optional, for networks with gates none of
which drives an output (`C53_violated`).
-/

namespace Verif.Mapper
open Cuts

variable {β : Type}

/-- `K` is a correct result for `N`: equivalent, with LUTs of at most `k` inputs. -/
def Maps (N : Aig) (k : Nat) (K : Klut) : Prop :=
  Collapse.Equiv N K ∧ ∀ (n : Nat) nd, K.nodes[n]? = some nd → nd.children.length ≤ k

/-- cut parameters of accepted options -/
theorem params_ok {o : Options} {p : Ps} (ho : o.params = some p) (hprio : o.prioritySize ≤ 11) :
    PsOk p.cut ∧ p.cut.cutSize = o.cutSize := by
  unfold Options.params at ho
  split at ho
  · simp at ho
  split at ho
  · simp at ho
  split at ho
  · simp at ho
  split at ho
  · simp at ho
  split at ho
  · simp at ho
  rename_i h1 h2 _ _ _
  obtain rfl := Option.some.inj ho
  exact ⟨⟨by dsimp; omega, by dsimp; unfold maxCutSize; omega, by dsimp; omega, by dsimp; unfold maxCutNum; omega, rfl⟩, rfl⟩

/-- a cell exists if and only if an output is driven by a gate -/
theorem hasMapping_iff (p : Ps) (N : Aig) (hN : N.Built) (hpo : N.outputs.length = N.numPos) (hp : PsOk p.cut)
    (H : Nat → Nat → Heur β) (cost : β) (M : Mapping) (em : klutMap p (Choice.init N N.nodes.length) H cost = some M) :
    M.hasMapping = true ↔ ∃ s ∈ N.outputs, ∃ a b, N.IsGate s.index a b := by
  obtain ⟨hg, hh, hneed⟩ := klutMap_spec p N hN hpo.symm hp H cost M em
  constructor
  · intro hm
    obtain ⟨n, hroot⟩ := hh.1 hm
    obtain ⟨s, hs, t⟩ := hneed n hroot
    refine ⟨s, hs, ?_⟩
    by_cases hne : s.index = n
    · rw [hne]; exact hroot.1
    · have hlt := hN.wf.outputs s hs
      cases t with
      | refl => exact absurd rfl hne
      | step hk _ =>
        by_cases h0 : s.index = 0
        · rw [h0] at hk; simp [RefDeref.aigKids] at hk
        · cases hci : N.isCi s.index with
          | true => simp [RefDeref.aigKids, hci] at hk
          | false =>
            obtain ⟨nd, _, h⟩ := gate_of hN hlt h0 hci
            exact ⟨_, _, h⟩
  · rintro ⟨s, hs, a, b, hgate⟩
    rcases hg.1.output s hs with h0 | h0 | h0
    · exact absurd h0 hgate.1
    · exact absurd h0 hgate.2.1
    · exact hh.2 ⟨_, h0⟩

/-- C53 for AIGs without registers and priority sizes up to 11, for all heuristics: if the command does not run into
undefined behaviour, it refuses bad options, and otherwise stores a correct LUT network. -/
theorem C53_partial (o : Options) (hprio : o.prioritySize ≤ 11) (N : Aig) (hN : N.Built) (hpi : N.inputs.length = N.numPis)
    (hpo : N.outputs.length = N.numPos) (H : Nat → Nat → Heur β) (cost : β) (r : Option Klut)
    (e : mapFpga o N H cost = some r) :
    (r = none ↔ o.params = none) ∧ ∀ K, r = some K → Maps N o.cutSize K := by
  unfold mapFpga at e
  cases ho : o.params with
  | none =>
    rw [ho] at e
    obtain rfl := Option.some.inj e
    simp
  | some p =>
    rw [ho] at e
    dsimp only at e
    obtain ⟨hp, hs⟩ := params_ok ho hprio
    cases em : klutMap p (Choice.init N N.nodes.length) H cost with
    | none => rw [em] at e; simp at e
    | some M =>
      rw [em] at e
      dsimp only at e
      have hg := C36_partial p N hN hpo.symm hp H cost M em
      obtain ⟨r', er, _, hK⟩ := Collapse.C34_choice_to_klut_partial N M hN hg.1 hpi hpo
      rw [er] at e
      cases r' with
      | none => simp at e
      | some K =>
        obtain rfl := Option.some.inj e
        refine ⟨by simp, ?_⟩
        intro K' hK'
        obtain rfl := Option.some.inj hK'
        refine ⟨hK _ rfl, ?_⟩
        have h2 := hp.size2
        refine Collapse.C34_lut_size_partial N M hN hg.1.right hpi o.cutSize (by omega) (fun n cs hr hc => ?_) _ (Or.inl er)
        rw [← hs]
        exact (hg.2 n cs hr hc).2

/-- Exactly when the command is free of undefined behaviour, for cut sizes 2 and 3: if the AIG has a gate, some output
must be driven by one. -/
theorem C53_defined_partial (o : Options) (hprio : o.prioritySize ≤ 11) (hsize : o.cutSize ≤ 3) (N : Aig) (hN : N.Built)
    (hpi : N.inputs.length = N.numPis) (hpo : N.outputs.length = N.numPos) (H : Nat → Nat → Heur β) (cost : β) :
    mapFpga o N H cost ≠ none ↔
      (o.params ≠ none → 0 < N.numGates → ∃ s ∈ N.outputs, ∃ a b, N.IsGate s.index a b) := by
  unfold mapFpga
  cases ho : o.params with
  | none => simp
  | some p =>
    dsimp only
    obtain ⟨hp, hs⟩ := params_ok ho hprio
    obtain ⟨M, em⟩ := C36_defined_partial p N hN hpo.symm hp (by omega) H cost
    rw [em]
    dsimp only
    have hg := C36_partial p N hN hpo.symm hp H cost M em
    obtain ⟨r', er, hr, hK⟩ := Collapse.C34_choice_to_klut_partial N M hN hg.1 hpi hpo
    rw [er]
    have key := hasMapping_iff p N hN hpo hp H cost M em
    cases r' with
    | none =>
      have := hr.1 rfl
      rw [← key]
      simp [this.1, this.2]
    | some K =>
      have : ¬ (M.hasMapping = false ∧ 0 < N.numGates) := fun h => by simpa using hr.2 h
      simp only [ne_eq, reduceCtorEq, not_false_eq_true, true_iff, forall_const]
      intro hn
      rw [← key]
      cases hm : M.hasMapping with
      | true => rfl
      | false => exact absurd ⟨hm, hn⟩ this

/-- the default options with cut size 3 on `and3` of `C36` meet the hypotheses, and there is no undefined behaviour -/
example : ∃ K, mapFpga { cutSize := 3 } and3 H1 0 = some (some K) ∧ Maps and3 3 K := by
  have h := (C53_defined_partial { cutSize := 3 } (by decide) (by decide) and3 and3_built (by decide) (by decide) H1 0).2
    (fun _ _ => ⟨.mk 5 false, by decide, .mk 3 false, .mk 4 false, by decide, by decide, _, rfl, by decide, by decide⟩)
  obtain ⟨r, e⟩ := Option.ne_none_iff_exists'.1 h
  obtain ⟨h1, h2⟩ := C53_partial { cutSize := 3 } (by decide) and3 and3_built (by decide) (by decide) H1 0 r e
  cases r with
  | none => exact absurd (h1.1 rfl) (by decide)
  | some K => exact ⟨K, e, h2 K rfl⟩

/-- a gate that drives nothing beside an output driven by an input -/
def dangling : Aig :=
  let n1 := Aig.empty.createPi.1.createPi.1
  let r2 := n1.createAnd (.mk 1 false) (.mk 2 false)
  r2.1.createPo (.mk 1 false)

theorem dangling_built : dangling.Built := by
  have h1 : Aig.Built Aig.empty.createPi.1.createPi.1 := .pi (.pi .empty)
  have h2 := Aig.Built.and (a := .mk 1 false) (b := .mk 2 false) h1 (by decide) (by decide)
  exact .po h2 (by decide)

/-- Whenever there are gates but none drives an output, the command runs into undefined behaviour, for all accepted
options (priority size at most 11) and heuristics. -/
theorem C53_undefined (o : Options) (hprio : o.prioritySize ≤ 11) (hok : o.params ≠ none) (N : Aig) (hN : N.Built)
    (hpi : N.inputs.length = N.numPis) (hpo : N.outputs.length = N.numPos) (H : Nat → Nat → Heur β) (cost : β)
    (hgates : 0 < N.numGates) (hout : ∀ s ∈ N.outputs, ¬ ∃ a b, N.IsGate s.index a b) : mapFpga o N H cost = none := by
  obtain ⟨p, ho⟩ := Option.ne_none_iff_exists'.1 hok
  obtain ⟨hp, _⟩ := params_ok ho hprio
  unfold mapFpga
  rw [ho]
  dsimp only
  cases em : klutMap p (Choice.init N N.nodes.length) H cost with
  | none => rfl
  | some M =>
    have hg := C36_partial p N hN hpo.symm hp H cost M em
    obtain ⟨r', er, hr, _⟩ := Collapse.C34_choice_to_klut_partial N M hN hg.1 hpi hpo
    have hno : M.hasMapping = false := by
      rw [← Bool.not_eq_true, hasMapping_iff p N hN hpo hp H cost M em]
      rintro ⟨s, hs, h⟩
      exact hout s hs h
    have : r' = none := hr.2 ⟨hno, hgates⟩
    subst this
    dsimp only
    rw [er]

/-- With the default options the command dereferences an empty optional on `dangling`, whatever the heuristics. -/
theorem C53_violated (H : Nat → Nat → Heur β) (cost : β) : mapFpga {} dangling H cost = none :=
  C53_undefined {} (by decide) (by decide) dangling dangling_built (by decide) (by decide) H cost (by decide) (by
    rintro s hs ⟨a, b, _, hi, _⟩
    exact hi ((by decide : ∀ s ∈ dangling.outputs, s.index ∈ dangling.inputs) s hs))

/-- In this run the mapper itself succeeds: the undefined behaviour is the dereference. -/
example : (klutMap {} (Choice.init dangling 4) H1 0).bind (Collapse.choiceToKlut dangling) = some none := by
  decide +kernel

end Verif.Mapper
