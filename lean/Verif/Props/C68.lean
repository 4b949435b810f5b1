import Verif.Props.C67

set_option autoImplicit false

/-!
# C68: `generate_pattern` of the circuit validator

Full statement: `generate_pattern( f, value, block_patterns, num_patterns )` returns at most `num_patterns` different patterns, none of which is blocked,
and each makes `f` equal to `value`; if it returns fewer, then there are no others; and if `block_patterns` and the result are both empty, `f` is
constant (the comment at circuit_validator.hpp 290-297).

`C68_patterns_partial` proves this for every solver whose answers are right, unless the last answer was a timeout; `C68_complete` for solvers
that never give up. With a timeout the last two claims fail (`C68_violated_timeout`), with `num_patterns = 0` the last one (`C68_violated_zero`).
-/

namespace Verif.Validator
open Aig (Built)

/-- All patterns that are left, or `num` of them; `last` is the last answer of the solver. -/
theorem C68_patterns_partial {E : Env} (hE : Right E) {N : Aig} {S : State} (h : Reach E N S) {root : Nat} (hr : root < N.nodes.length) (value : Bool)
    {blocked : List (List Bool)} (hb : ∀ p ∈ blocked, p.length = N.numPis) (num : Nat) :
    ∃ S' ps last, generatePattern E N root value blocked num S = some (S', ps, last) ∧ Reach E N S' ∧
      ps.Nodup ∧ ps.length ≤ num ∧
      (∀ p ∈ ps, p ∉ blocked ∧ ∃ v, N.Models v ∧ (N.inputs.take N.numPis).map v = p ∧ v root = value) ∧
      (ps.length < num → last ≠ none → ∀ v, N.Models v → v root = value → (N.inputs.take N.numPis).map v ∈ blocked ++ ps) := by
  obtain ⟨S', ps, last, e, _, hf, h1, h2, h3⟩ := generate_inv hE (reach_inv hE h).2 hr value hb num
  refine ⟨S', ps, last, e, .generate root value blocked num h hr hb e, hf.nodup, h1, fun p hp => ⟨hf.fresh p hp, hf.hit p hp⟩, fun hlt hl => ?_⟩
  match last, hl, h2, h3 with
  | some true, _, _, h3 => exact h3 rfl
  | some false, _, h2, _ => exact absurd (h2 rfl) (by omega)

theorem generateLoop_decides {E : Env} (hE : ∀ k cs as, E.solve k cs as ≠ .timeout) {N : Aig} {as : List Nat} : ∀ (k : Nat) (acc : List (List Bool))
    (last : Option Bool) (S S' : State) (ps : List (List Bool)) (r : Option Bool), last ≠ none → generateLoop E N as k acc last S = some (S', ps, r) → r ≠ none := by
  intro k
  induction k with
  | zero =>
    intro acc last S S' ps r hl e
    rw [generateLoop] at e
    simp only [Option.some.injEq, Prod.mk.injEq] at e
    rw [← e.2.2]; exact hl
  | succ k ih =>
    intro acc last S S' ps r hl e
    rw [generateLoop] at e
    split at e
    · cases e
    · split at e
      · cases e
      · exact ih _ _ _ _ _ _ (by simp) e
    · rename_i hs
      simp only [Option.some.injEq, Prod.mk.injEq] at e
      rw [← e.2.2]
      exact solveWith_decides hE hs

/-- If the solver never gives up: fewer patterns than asked for means that there are no others; in particular, no pattern at all means that the node
is constant. -/
theorem C68_complete {E : Env} (hE : Right E) (ht : ∀ k cs as, E.solve k cs as ≠ .timeout) {N : Aig} {S : State} (h : Reach E N S) {root : Nat}
    (hr : root < N.nodes.length) (value : Bool) {blocked : List (List Bool)} (hb : ∀ p ∈ blocked, p.length = N.numPis) {num : Nat} (hn : 0 < num) :
    ∃ S' ps last, generatePattern E N root value blocked num S = some (S', ps, last) ∧
      (ps.length < num → ∀ v, N.Models v → v root = value → (N.inputs.take N.numPis).map v ∈ blocked ++ ps) ∧
      (blocked = [] → ps = [] → ∀ v, N.Models v → v root = !value) := by
  obtain ⟨S', ps, last, e, _, _, _, _, h3⟩ := C68_patterns_partial hE h hr value hb num
  have hl : last ≠ none := by
    unfold generatePattern at e
    split at e
    · cases e
    · split at e
      · cases e
      · split at e
        · cases e
        · split at e
          · cases e
          · rename_i S2 r hg
            obtain ⟨T, eT⟩ := finish_answer e
            simp only [Option.some.injEq, Prod.mk.injEq] at eT
            obtain ⟨_, rfl⟩ := eT
            exact generateLoop_decides ht _ _ _ _ _ _ _ (by simp) hg
  refine ⟨S', ps, last, e, fun hlt => h3 hlt hl, fun h1 h2 v hv => ?_⟩
  subst h1 h2
  by_contra hne
  have := h3 hn hl v hv (by cases h : v root <;> cases value <;> simp_all)
  simp at this

/-- gate 5 of `net` is `1 ∧ ¬ (1 ∧ 2)`: it is 0 for `00`, `01` and `11`; with `00` blocked the other two are found, and then nothing more -/
example : ((init net).bind fun S => generatePattern env net 5 false [[false, false]] 5 S).map (fun p => p.2) =
    some ([[true, true], [false, true]], some true) := by decide +kernel
example : ((init net).bind fun S => generatePattern env net 5 false [[false, false]] 1 S).map (fun p => p.2.1.length) = some 1 := by decide +kernel
example : ∃ S, Reach env net S := by
  obtain ⟨S, e, _⟩ := init_spec net_built
  exact ⟨S, .init net_built e⟩

/-- a solver that always gives up -/
def lazyEnv : Env := ⟨true, 1, fun _ _ _ => .timeout, fun _ cs => cs.length⟩

theorem lazy_right : Right lazyEnv := fun _ _ _ => trivial

/-- The comment fails if the solver gives up: no pattern blocked and none returned, but the gate is not constant. -/
theorem C68_violated_timeout :
    ((init net).bind fun S => generatePattern lazyEnv net 4 true [] 1 S).map (fun p => p.2.1) = some [] ∧ ∃ v, net.Models v ∧ v 4 = true := by
  refine ⟨by decide +kernel, ?_⟩
  have hv := net_built.wf.consistent_value fun _ => true
  have h1 := hv.input 0 1 (by decide +kernel)
  have h2 := hv.input 1 2 (by decide +kernel)
  refine ⟨_, hv.models, ?_⟩
  rw [hv.models.gate 4 ⟨1, false⟩ ⟨2, false⟩ ⟨by omega, by decide +kernel, ⟨_, rfl, by decide +kernel, by decide +kernel, by decide +kernel⟩⟩]
  simp [Sig.val, h1, h2]

/-- It fails as well if no pattern is asked for. -/
theorem C68_violated_zero :
    ((init net).bind fun S => generatePattern env net 1 true [] 0 S).map (fun p => p.2.1) = some [] ∧ ∃ v, net.Models v ∧ v 1 = true := by
  refine ⟨by decide +kernel, ?_⟩
  have hv := net_built.wf.consistent_value fun _ => true
  exact ⟨_, hv.models, hv.input 0 1 (by decide +kernel)⟩

end Verif.Validator
