import Verif.Props.C63

set_option autoImplicit false

/-!
# C64: counterexamples separate what they have to separate, and only that

The second half is false: `resimulate_other_rec` computes values from marks of earlier counterexamples, and nodes that are equivalent are separated
(`C64_violated`).
-/

namespace Verif.Choice
open Aig (WF Built)
open Prover (Right)

/-- the state before the gate `n` is handled -/
def Before (N : Aig) (E : Env) (pre : List Nat) (n : Nat) (post : List Nat) (S : Sweep) : Prop :=
  N.gates = pre ++ n :: post ∧ (sweepStart N E).bind (sweepGates N E pre) = some S

theorem Before.spec {N : Aig} (hN : N.Phased) {E : Env} (hw : 0 < E.nwords) (hs : Prover.Sound E.solve) {pre post : List Nat} {n : Nat} {S : Sweep}
    (h : Before N E pre n post S) : Swept N E S (n :: post).length ∧ Done N E pre S := by
  obtain ⟨hg, e⟩ := h
  obtain ⟨S0, e0, h0, d0⟩ := sweepStart_spec hN hw
  rw [e0, Option.bind_some] at e
  obtain ⟨h1, h2, _⟩ := sweepGates_run hN hs pre [] (n :: post) S0 S (by rw [hg]; rfl) (by rw [← hg]; exact h0) d0 e
  exact ⟨h1, by simpa using h2⟩

/-- C64, what holds: with a sound and right solver that never gives up, for every network of less than 1000 nodes, every gate `n` and its representative
`r` at its turn. If they have the same value up to their phases for all input values, `r` is recorded for `n`. Otherwise nothing is recorded for `n`, and
the counterexample separates the two in the candidate classes. Classes are only ever split. Missing: that only nodes with different values are separated,
which fails. -/
theorem C64_partial (N : Aig) (hN : N.Built) (E : Env) (hw : 0 < E.nwords) (hs : Prover.Sound E.solve) (hR : Right E.solve)
    (ht : ∀ k cs as, E.solve k cs as ≠ .timeout) (hlt : N.nodes.length < 1000) (pre post : List Nat) (n : Nat) (S : Sweep)
    (hb : Before N E pre n post S) (r : Nat) (hr : S.cls.reprs[n]? = some r) :
    ∃ S', sweepGate N E S n = some S' ∧
      (∀ a b : Nat, S'.cls.reprs[a]? = S'.cls.reprs[b]? → S.cls.reprs[a]? = S.cls.reprs[b]?) ∧
      (∀ m : Nat, m ≠ n → S'.repr[m]? = S.repr[m]?) ∧
      (r = n → S'.repr[n]? = some n) ∧
      (r ≠ n → (∀ v, N.Models v → Bool.xor (v n) (N.phaseOf n) = Bool.xor (v r) (N.phaseOf r)) → S'.repr[n]? = some r) ∧
      (r ≠ n → ¬ (∀ v, N.Models v → Bool.xor (v n) (N.phaseOf n) = Bool.xor (v r) (N.phaseOf r)) →
        S'.repr[n]? = some n ∧ S'.cls.reprs[n]? ≠ S'.cls.reprs[r]?) := by
  obtain ⟨h, d⟩ := hb.spec hN.phased hw hs
  have hg := hb.1
  obtain ⟨a, b, g⟩ := (hN.wf.mem_gates n).1 (by rw [hg]; simp)
  obtain ⟨l1, l2, l3, l4⟩ := hN.wf.isGate_lt g
  rcases sweepGate_spec hN.phased hs h g with ⟨S', e, _, hf⟩ | ⟨_, hb⟩
  · obtain ⟨x, hx⟩ := d.below hN.wf hg hR ht hlt l4 (m := a.index) (by omega)
    obtain ⟨y, hy⟩ := d.below hN.wf hg hR ht hlt l4 (m := b.index) (by omega)
    have hrn := (h.cls.repr hr).1
    obtain ⟨-, q1, q2⟩ := hf.decided hR ht hlt x y hx hy r hr fun hne => d.below hN.wf hg hR ht hlt l4 (by omega)
    have hid : S.repr[n]? = some n := d.ident n l4 (by
      intro hm
      have hp : N.gates.Nodup := (List.Pairwise.filter _ List.pairwise_lt_range).imp fun h => Nat.ne_of_lt h
      rw [hg] at hp
      exact (List.nodup_append.1 hp).2.2 n hm n List.mem_cons_self rfl)
    refine ⟨S', e, hf.finer, hf.repr, fun h => (q1 h).trans hid, fun h he => ?_, fun h he => ?_⟩
    · rcases q2 h with ⟨_, q⟩ | ⟨q, _⟩
      · exact q
      · exact absurd he q
    · rcases q2 h with ⟨q, _⟩ | ⟨_, q, q'⟩
      · exact absurd q he
      · exact ⟨q.trans hid, q'⟩
  · omega

/-- C64. For all solvers, also those that give up or return wrong models: the classes are only ever split, and a representative once recorded is not
changed. -/
theorem C64_monotone (N : Aig) (hN : N.Built) (E : Env) (hw : 0 < E.nwords) (hs : Prover.Sound E.solve) (pre post : List Nat) (n : Nat) (S S' : Sweep)
    (hb : Before N E pre n post S) (e : manSweep N E = some S') :
    (∀ a b : Nat, S'.cls.reprs[a]? = S'.cls.reprs[b]? → S.cls.reprs[a]? = S.cls.reprs[b]?) ∧
    ∀ m : Nat, m ∈ pre → S'.repr[m]? = S.repr[m]? := by
  obtain ⟨h, d⟩ := hb.spec hN.phased hw hs
  obtain ⟨hg, eb⟩ := hb
  obtain ⟨S0, e0, h0, d0⟩ := sweepStart_spec hN.phased hw
  rw [e0, Option.bind_some] at eb
  have split : ∀ (l1 l2 : List Nat) (T : Sweep), sweepGates N E (l1 ++ l2) T = (sweepGates N E l1 T).bind (sweepGates N E l2) := by
    intro l1 l2
    induction l1 with
    | nil => intro T; rfl
    | cons c l1 ih =>
        intro T
        rw [List.cons_append, sweepGates, sweepGates]
        cases sweepGate N E T c with
        | none => rfl
        | some T' => exact ih T'
  rw [manSweep, e0, Option.bind_some, hg, split, eb, Option.bind_some] at e
  obtain ⟨_, _, q1, q2⟩ := sweepGates_run hN.phased hs (n :: post) pre [] S S' (by rw [hg]; simp) (by simpa using h) d e
  refine ⟨q1, fun m hm => q2 m fun hm' => ?_⟩
  have hp : N.gates.Nodup := (List.Pairwise.filter _ List.pairwise_lt_range).imp fun h => Nat.ne_of_lt h
  rw [hg] at hp
  exact (List.nodup_append.1 hp).2.2 m hm m hm' rfl

/-! ### Example and counterexample -/

/-- In `simNet` the hypotheses are met at gate 6, whose representative is 4. -/
example : ∃ S S' : Sweep, Before simNet runEnv [4, 5] 6 [7] S ∧ S.cls.reprs[6]? = some 4 ∧ sweepGate simNet runEnv S 6 = some S' ∧
    S'.repr[6]? = some 4 := by
  have h : ((sweepStart simNet runEnv).bind (sweepGates simNet runEnv [4, 5])).map (fun S => S.cls.reprs[6]?) = some (some 4) := by decide +kernel
  cases e : (sweepStart simNet runEnv).bind (sweepGates simNet runEnv [4, 5]) with
  | none => rw [e] at h; cases h
  | some S =>
      rw [e] at h
      have hr : S.cls.reprs[6]? = some 4 := by simpa using h
      have hb : Before simNet runEnv [4, 5] 6 [7] S := ⟨by decide, e⟩
      obtain ⟨S', e', -, -, -, h1, -⟩ := C64_partial simNet simNet_built runEnv (by decide) Prover.search_sound Prover.search_right Prover.search_decides
        (by decide) [4, 5] [7] 6 S hb 4 hr
      exact ⟨S, S', hb, hr, e', h1 (by decide) fun v hv => (Prover.simNet_equal v hv).symm⟩

/-- inputs -/
def wideInputs : Nat → Aig → Aig
  | 0, N => N
  | k + 1, N => wideInputs k N.createPi.1

/-- conjunction of the signal and `k` inputs from `i` on -/
def wideAnd : Nat → Nat → Aig × Sig → Aig × Sig
  | _, 0, q => q
  | i, k + 1, q => wideAnd (i + 1) k (q.1.createAnd q.2 ⟨i, false⟩)

/-- `n = x₁ ∧ … ∧ x₁₂`, `y = x₁₃ ∧ ¬x₁₄`, `p = n ∧ ¬y`, `q = ¬y ∧ p`, the output -/
def wideNet : Aig :=
  let c := wideAnd 2 11 (wideInputs 14 Aig.empty, ⟨1, false⟩)
  let y := c.1.createAnd ⟨13, false⟩ ⟨14, true⟩
  let p := y.1.createAnd c.2 y.2.not
  let q := p.1.createAnd y.2.not p.2
  q.1.createPo q.2

theorem wideNet_built : Built wideNet := by
  have h1 : ∀ (k : Nat) (N : Aig), Built N → Built (wideInputs k N) := by
    intro k
    induction k with
    | zero => exact fun N h => h
    | succ k ih => exact fun N h => ih _ (.pi h)
  have h2 : ∀ (k i : Nat) (q : Aig × Sig), Built q.1 → q.1.Valid q.2 → i + k ≤ q.1.nodes.length → Built (wideAnd i k q).1 ∧ (wideAnd i k q).1.Valid (wideAnd i k q).2 := by
    intro k
    induction k with
    | zero => exact fun i q h hv _ => ⟨h, hv⟩
    | succ k ih =>
        intro i q h hv hl
        have hi : q.1.Valid ⟨i, false⟩ := show i < q.1.nodes.length by omega
        have sp := Aig.createAnd_spec h.wf hv hi
        exact ih (i + 1) _ (.and h hv hi) sp.valid (by have := sp.ext.len; omega)
  obtain ⟨h3, h4⟩ := h2 11 2 (wideInputs 14 Aig.empty, ⟨1, false⟩) (h1 14 _ .empty) (show 1 < _ by decide +kernel) (by decide +kernel)
  refine .po (.and (.and (.and h3 ?_ ?_) ?_ ?_) ?_ ?_) ?_ <;> (unfold Aig.Valid; decide +kernel)

/-- gates 27 and 28 are equivalent -/
theorem wideNet_equal (v : Nat → Bool) (hv : wideNet.Models v) : v 28 = v 27 := by
  have h1 := hv.gate 28 ⟨26, true⟩ ⟨27, false⟩ ⟨by decide, by decide +kernel, _, rfl, by decide +kernel, by decide +kernel, by decide +kernel⟩
  have h2 := hv.gate 27 ⟨25, false⟩ ⟨26, true⟩ ⟨by decide, by decide +kernel, _, rfl, by decide +kernel, by decide +kernel, by decide +kernel⟩
  simp only [Sig.val] at h1 h2
  rw [h1, h2]
  cases v 25 <;> cases v 26 <;> rfl

/-- With the parameters and the random numbers of the program and a solver that is always right: gates 27 and 28 are candidates at first, and both
are 1 or both are 0 for all input values. A counterexample for another pair separates them, and the equivalence is not found. -/
theorem C64_violated : wideNet.Built ∧ (∀ v, wideNet.Models v → v 28 = v 27) ∧ wideNet.phaseOf 28 = wideNet.phaseOf 27 ∧
    (computeClasses wideNet runEnv.nwords runEnv.rand).map (fun q => (q.1.reprs[27]?, q.1.reprs[28]?)) = some (some 0, some 0) ∧
    (manSweep wideNet runEnv).map (fun S => (S.cls.reprs[27]?, S.cls.reprs[28]?, S.repr[28]?)) = some (some 27, some 28, some 28) :=
  ⟨wideNet_built, wideNet_equal, by decide +kernel, by decide +kernel, by decide +kernel⟩

end Verif.Choice
