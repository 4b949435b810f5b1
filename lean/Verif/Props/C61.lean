import Verif.Choice.ClassesProof
import Verif.Choice.Sweep
import Verif.Choice.DeriveProof

set_option autoImplicit false

/-!
# C61: the candidate classes are exactly the agreement on the simulated patterns
-/

namespace Verif.Choice
open Aig (WF Built)

theorem starts_mem (M : Nat) : ∀ (k c d : Nat), d ∈ starts M k c ↔ ∃ t, t < k ∧ d = c + t * M
  | 0, c, d => by simp [starts]
  | k + 1, c, d => by
      rw [starts, List.mem_cons, starts_mem M k (c + M) d]
      constructor
      · rintro (rfl | ⟨t, h1, h2⟩)
        · exact ⟨0, by omega, by omega⟩
        · exact ⟨t + 1, by omega, by rw [h2, Nat.add_mul, Nat.one_mul]; omega⟩
      · rintro ⟨t, h1, h2⟩
        cases t with
        | zero => left; omega
        | succ t => right; exact ⟨t, by omega, by rw [h2, Nat.add_mul, Nat.one_mul]; omega⟩

/-- C61. For every constructed network, every positive number of words and all random numbers, `compute_equiv_classes` ends. The class of a node is the list of
all nodes with this representative in ascending order; a representative is not larger than the members of its class and represents
itself. Two nodes are in the same class exactly if their values agree, up to the phases, on all patterns of the eight simulations. -/
theorem C61_classes {N : Aig} (hN : Built N) {nwords : Nat} (hw : 0 < nwords) (rand : Nat → Nat) :
    ∃ K c, computeClasses N nwords rand = some (K, c) ∧ K.reprs.length = N.nodes.length ∧ K.id2class.length = N.nodes.length ∧
      (∀ r < N.nodes.length, K.id2class[r]? = some ((List.range N.nodes.length).filter fun n => K.reprs[n]? == some r)) ∧
      (∀ n r : Nat, K.reprs[n]? = some r → r ≤ n ∧ K.reprs[r]? = some r) ∧
      ∀ a < N.nodes.length, ∀ b < N.nodes.length,
        (K.reprs[a]? = K.reprs[b]? ↔ ∀ t < 8, SamePatterns N nwords rand (t * (N.inputs.length * nwords)) a b) := by
  obtain ⟨K, c, e, h, hx⟩ := computeClasses_spec hN.wf hw rand
  refine ⟨K, c, e, h.lenr, h.len, ?_, fun n r hr => h.repr hr, ?_⟩
  · intro r hr
    obtain ⟨l, hl⟩ := h.get hr
    rw [hl]
    have hs2 : ((List.range N.nodes.length).filter fun n => K.reprs[n]? == some r).Pairwise (· < ·) :=
      List.Pairwise.filter _ List.pairwise_lt_range
    have hs1 := h.sorted r l hl
    refine congrArg some (List.Perm.eq_of_pairwise (fun a b _ _ h1 h2 => by omega) hs1 hs2 ?_)
    refine (List.perm_ext_iff_of_nodup (hs1.imp (fun h => by omega)) (hs2.imp (fun h => by omega))).2 fun n => ?_
    rw [h.mem r l hl n, List.mem_filter, List.mem_range, beq_iff_eq]
    exact ⟨fun hn => ⟨h.lt hn, hn⟩, And.right⟩
  · intro a ha b hb
    rw [hx a b ha hb]
    constructor
    · intro hh t ht
      exact hh _ ((starts_mem _ _ _ _).2 ⟨t, ht, by omega⟩)
    · intro hh d hd
      obtain ⟨t, ht, rfl⟩ := (starts_mem _ _ _ _).1 hd
      rw [Nat.zero_add]
      exact hh t ht

/-- C61. Simulation never separates nodes that have the same function up to complementation. -/
theorem C61_equivalent {N : Aig} (hN : Built N) {nwords : Nat} (hw : 0 < nwords) (rand : Nat → Nat) {a b : Nat} (ha : a < N.nodes.length)
    (hb : b < N.nodes.length) {p : Bool} (hab : ∀ v, N.Models v → v a = Bool.xor p (v b)) :
    ∃ K c, computeClasses N nwords rand = some (K, c) ∧ K.reprs[a]? = K.reprs[b]? := by
  obtain ⟨K, c, e, _, _, _, _, h⟩ := C61_classes hN hw rand
  refine ⟨K, c, e, (h a ha b hb).2 fun t _ i _ j _ v hv _ => ?_⟩
  exact phase_of_const hN ha hb (c := p) (fun w hw => by rw [hab w hw]; cases p <;> cases w b <;> rfl) v hv

/-- C61, the random numbers of the program: they are below 2³¹, so the patterns in the upper half of every word are the all-zero
pattern: 32 of 64 simulated patterns never distinguish any nodes. -/
theorem C61_half (nwords c k i j : Nat) (hj : 32 ≤ j) : pattern minstd nwords c k i j = false := by
  have hlt : ∀ q, minstd q < 2 ^ 31 := by
    intro q
    cases q with
    | zero => decide
    | succ q =>
        rw [minstd]
        have := Nat.mod_lt (16807 * minstd q) (show 0 < 2147483647 by decide)
        omega
  have ht : ∀ q e, 31 ≤ e → (minstd q).testBit e = false := fun q e he =>
    Nat.testBit_lt_two_pow (Nat.lt_of_lt_of_le (hlt q) (Nat.pow_le_pow_right (by decide) he))
  unfold pattern
  split
  · rw [ht _ _ (by omega)]; simp
  · exact ht _ _ (by omega)

/-- Gate 4 is `ab`, gate 5 is `ab̄`, gate 6 is `a(ab̄)'` and so equal to gate 4, gate 7 is `abc̄`. -/
def simNet : Aig :=
  let N := Aig.empty.createPi.1.createPi.1.createPi.1
  let N := (N.createAnd ⟨1, false⟩ ⟨2, false⟩).1
  let N := (N.createAnd ⟨1, false⟩ ⟨2, true⟩).1
  let N := (N.createAnd ⟨1, false⟩ ⟨5, true⟩).1
  let N := (N.createAnd ⟨4, false⟩ ⟨3, true⟩).1
  N.createPo ⟨6, false⟩

theorem simNet_built : Built simNet := by
  refine .po (.and (.and (.and (.and (.pi (.pi (.pi .empty))) ?_ ?_) ?_ ?_) ?_ ?_) ?_ ?_) ?_ <;> (unfold Aig.Valid; decide)

set_option maxRecDepth 4000 in
/-- the classes with the program's random numbers: `a(a!b)'` is in the class of `ab`, all others are alone -/
example : (computeClasses simNet 1 minstd).map (·.1.reprs) = some [0, 1, 2, 3, 4, 5, 4, 7] := by decide +kernel

/-- two gates with the same function and their common class -/
example : ∃ K c, computeClasses simNet 8 minstd = some (K, c) ∧ K.reprs[6]? = K.reprs[4]? :=
  C61_equivalent simNet_built (by decide) minstd (a := 6) (b := 4) (by decide) (by decide) (p := false) (by
    intro v hv
    have h1 := hv.gate 4 ⟨1, false⟩ ⟨2, false⟩ ⟨by decide, by decide, _, rfl, by decide, by decide, by decide⟩
    have h2 := hv.gate 5 ⟨1, false⟩ ⟨2, true⟩ ⟨by decide, by decide, _, rfl, by decide, by decide, by decide⟩
    have h3 := hv.gate 6 ⟨1, false⟩ ⟨5, true⟩ ⟨by decide, by decide, _, rfl, by decide, by decide, by decide⟩
    simp only [Sig.val] at h1 h2 h3
    rw [h3, h2, h1]
    cases v 1 <;> cases v 2 <;> rfl)

end Verif.Choice
