import Verif.Mapping.Params

set_option autoImplicit false

/-!
# C38: mapping parameters are honoured

The full claim, `∀ p, Honoured p`, is false (`C38_violated`, `C38_violated_shell`): `init_parameters`
overwrites most of the user's settings.  What does hold is `C38_partial`, and `C38_exact` says precisely
which settings are honoured.
-/

namespace Verif.Mapper

/-- number of area flow rounds of a run -/
def flowRounds (l : List Round) : Nat := (l.filter fun r => r.mode = 1).length
/-- number of exact area rounds of a run -/
def areaRounds (l : List Round) : Nat := (l.filter fun r => r.mode = 2).length

/-- the user settings that no part of the algorithm is meant to change during a run -/
def sameSettings (p q : Ps) : Prop :=
  q.cut = p.cut ∧ q.bPreprocess = p.bPreprocess ∧ q.bEdge = p.bEdge ∧ q.bPower = p.bPower ∧
  q.bZeroGain = p.bZeroGain ∧ q.uFlowIters = p.uFlowIters ∧ q.uAreaIters = p.uAreaIters ∧
  q.bUseLutLib = p.bUseLutLib ∧ q.iDelayTraget = p.iDelayTraget ∧ q.andDelay = p.andDelay ∧
  q.andArea = p.andArea ∧ q.epsilon = p.epsilon ∧ q.bDebug = p.bDebug ∧ q.verbose = p.verbose

instance (p q : Ps) : Decidable (sameSettings p q) := by unfold sameSettings; infer_instance

/-- The claim for one parameter setting: as many area flow and exact area rounds as requested, every
round with the user's settings, and preprocessing (three delay/area rounds) exactly if requested and
area mode is not. -/
def Honoured (p : Ps) : Prop :=
  flowRounds (run p) = p.uFlowIters.toNat ∧ areaRounds (run p) = p.uAreaIters.toNat ∧
  (∀ r ∈ run p, sameSettings p r.ps) ∧
  ((run p).any (·.preprocess) = (p.bPreprocess && !p.bArea)) ∧
  (p.bArea = true → ∀ r ∈ run p, r.ps.eSortMode = .area)

/-- the six rounds actually performed, whatever the user asks for -/
theorem run_eq (p : Ps) : run p =
    let q := initParameters p
    [⟨0, true, true, { q with eCutMode := .flow, eSortMode := .delay }⟩,
     ⟨0, true, false, { q with eCutMode := .flow, eSortMode := .delay2, bFancy := true }⟩,
     ⟨0, true, false, { q with eCutMode := .flow, eSortMode := .area, bArea := true }⟩,
     ⟨1, false, false, { q with eCutMode := .flow, eSortMode := .area }⟩,
     ⟨2, false, false, { q with eCutMode := .area, eSortMode := .area }⟩,
     ⟨2, false, false, { q with eCutMode := .area, eSortMode := .area }⟩] := by
  rfl

/-- C38, the part that holds: for all user settings, every round uses the user's cut parameters, zero
gain switch and unit costs.  Missing: all other settings, see `C38_violated`. -/
theorem C38_partial (p : Ps) : ∀ r ∈ run p, r.ps.cut = p.cut ∧ r.ps.bZeroGain = p.bZeroGain ∧
    r.ps.andDelay = p.andDelay ∧ r.ps.andArea = p.andArea ∧ r.ps.bDebug = p.bDebug := by
  intro r hr
  rw [run_eq] at hr
  simp only [List.mem_cons, List.not_mem_nil, or_false] at hr
  rcases hr with rfl | rfl | rfl | rfl | rfl | rfl <;> simp [initParameters]

/-- C38, exactly which requests are honoured: those that agree with the built-in values. In particular
the iteration counts are honoured only if they are 1 and 2. -/
theorem C38_exact (p : Ps) : Honoured p ↔
    p.bPreprocess = true ∧ p.bArea = false ∧ p.bEdge = true ∧ p.bPower = false ∧
    p.uFlowIters = 1 ∧ p.uAreaIters = 2 ∧ p.bUseLutLib = false ∧ p.iDelayTraget = -1 ∧
    p.epsilon = 5 ∧ p.verbose = false := by
  unfold Honoured
  rw [run_eq]
  have e1 : ∀ b : BitVec 8, 1 = b.toNat ↔ b = 1 := by
    intro b; constructor
    · intro h; apply BitVec.eq_of_toNat_eq; rw [← h]; rfl
    · rintro rfl; rfl
  have e2 : ∀ b : BitVec 8, 2 = b.toNat ↔ b = 2 := by
    intro b; constructor
    · intro h; apply BitVec.eq_of_toNat_eq; rw [← h]; rfl
    · rintro rfl; rfl
  simp [flowRounds, areaRounds, sameSettings, initParameters, e1, e2]
  constructor
  · rintro ⟨h1, h2, ⟨_, h3, h4, _, _, h5, h6, h7, h8⟩, h9, h10⟩
    exact ⟨h9, h10, h3, h4, h1, h2, h5, h6.symm, h7.symm, h8⟩
  · rintro ⟨h1, h2, h3, h4, h5, h6, h7, h8, h9, h10⟩
    exact ⟨h5, h6, ⟨h1, h3, h4, h5.symm, h6.symm, h7, h8.symm, h9.symm, h10⟩, h1, h2⟩

/-- C38 is violated: two area flow iterations requested, one performed. -/
theorem C38_violated : ¬ ∀ p, Honoured p := by
  intro h
  have := (C38_exact { uFlowIters := 2 }).1 (h _)
  revert this; decide

/-- The same through the shell: `map_fpga -G 2 -L 3` is accepted, yet one area flow round and two exact
area rounds are performed. -/
theorem C38_violated_shell : ∃ p, ({ flowIter := 2, areaIter := 3 } : Options).params = some p ∧
    p.uFlowIters.toNat = 2 ∧ p.uAreaIters.toNat = 3 ∧
    flowRounds (run p) = 1 ∧ areaRounds (run p) = 2 := ⟨_, rfl, by decide⟩

/-- C38 for the shell, the part that holds: whatever options are accepted, all rounds use the requested
cut size and priority size, and these are in the documented ranges. -/
theorem C38_shell_partial (o : Options) (p : Ps) (h : o.params = some p) :
    (2 ≤ o.cutSize ∧ o.cutSize ≤ 6) ∧ (6 ≤ o.prioritySize ∧ o.prioritySize ≤ 20) ∧
    ∀ r ∈ run p, r.ps.cut.cutSize = o.cutSize ∧ r.ps.cut.cutLimit = o.prioritySize := by
  unfold Options.params at h
  by_cases h1 : o.prioritySize < 6 ∨ 20 < o.prioritySize
  · rw [if_pos h1] at h; cases h
  by_cases h2 : o.cutSize < 2 ∨ 6 < o.cutSize
  · rw [if_neg h1, if_pos h2] at h; cases h
  by_cases h3 : o.type ≠ 0 ∧ o.type ≠ 1
  · rw [if_neg h1, if_neg h2, if_pos h3] at h; cases h
  by_cases h4 : o.flowIter < 1 ∨ 2 < o.flowIter
  · rw [if_neg h1, if_neg h2, if_neg h3, if_pos h4] at h; cases h
  by_cases h5 : o.areaIter < 1 ∨ 3 < o.areaIter
  · rw [if_neg h1, if_neg h2, if_neg h3, if_neg h4, if_pos h5] at h; cases h
  rw [if_neg h1, if_neg h2, if_neg h3, if_neg h4, if_neg h5] at h
  cases h
  refine ⟨by omega, by omega, fun r hr => ?_⟩
  rw [(C38_partial _ r hr).1]
  exact ⟨rfl, rfl⟩

/-- the defaults are honoured, so `C38_exact` is not vacuous -/
example : Honoured {} := (C38_exact _).2 (by decide)

example : (run { cut := { cutSize := 4 } }).length = 6 := by decide

/-- accepted options with non-default cut parameters -/
example : (({ cutSize := 4, prioritySize := 8 } : Options).params).isSome = true := by decide

end Verif.Mapper
