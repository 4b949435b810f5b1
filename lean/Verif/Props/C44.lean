import Verif.Props.C42
import Verif.Props.C43

set_option autoImplicit false

/-!
# C44: equivalence checking
-/

namespace Verif.Cnf

/-- A SAT solver that gives no wrong answers. -/
def Correct (solve : List (List Nat) → Nat → Answer) : Prop :=
  ∀ cs l, match solve cs l with
    | .sat a => Satisfies a cs ∧ LitTrue a l
    | .unsat => ¬ ∃ a, Satisfies a cs ∧ LitTrue a l
    | .timeout => True

theorem le_foldr_max {l : List Nat} {k : Nat} (h : k ∈ l) : k ≤ l.foldr max 0 := by
  induction l with
  | nil => cases h
  | cons a l ih =>
    simp only [List.foldr_cons]
    rcases List.mem_cons.1 h with rfl | h
    · exact le_max_left _ _
    · exact le_trans (ih h) (le_max_right _ _)

theorem lt_nvars {cs : List (List Nat)} {c : List Nat} {l : Nat} (hc : c ∈ cs) (hl : l ∈ c) : l / 2 < nvars cs := by
  have h1 : l / 2 + 1 ≤ (c.map fun l => l / 2 + 1).foldr max 0 :=
    le_foldr_max (List.mem_map.2 ⟨l, hl, rfl⟩)
  have h2 : (c.map fun l => l / 2 + 1).foldr max 0 ≤ nvars cs :=
    le_foldr_max (List.mem_map.2 ⟨c, hc, rfl⟩)
  omega

theorem gatesClauses_mem {N : Aig} {m : Nat → Nat} : ∀ (l : List Nat) (cs : List (List Nat)),
    gatesClauses N m l = some cs → ∀ n ∈ l, ∃ c ∈ cs, m n ∈ c := by
  intro l
  induction l with
  | nil => intro _ _ n hn; cases hn
  | cons k l ih =>
    intro cs e n hn
    rw [gatesClauses] at e
    split at e
    · rename_i c cs' h1 h2
      cases e
      rcases List.mem_cons.1 hn with rfl | hn
      · rw [gateClauses] at h1
        split at h1
        · cases h1
        · cases h1
          exact ⟨_, List.mem_append_left _ (by simp [onAnd]; exact Or.inr (Or.inr rfl)), by simp⟩
      · obtain ⟨c', hc', hm⟩ := ih cs' h2 n hn
        exact ⟨c', List.mem_append_right _ hc', hm⟩
    · cases e

/-- C44 for a single-output network `M` (the miter): with a correct solver the verdict "equivalent" means
that the output is 0 under every assignment, and the verdict "different" comes with an assignment of all
inputs under which the output is 1. -/
theorem C44_sound (M : Aig) (hM : Aig.Built M) (hpi : M.inputs.length = M.numPis) (hpo : M.outputs.length = M.numPos)
    (out : Sig) (hout : M.outputs = [out]) (solve : List (List Nat) → Nat → Answer) (hs : Correct solve) :
    match equivalenceChecking M solve with
    | .equivalent => ∀ x v, M.Consistent x v → out.val v = false
    | .different cex => cex.length = M.numPis ∧
        ∀ x v, (∀ (k : Nat) (b : Bool), cex[k]? = some b → x k = b) → M.Consistent x v → out.val v = true
    | .undecided => ∃ cs l, (solve cs l matches .timeout)
    | .ub => True := by
  obtain ⟨cs, outs, var, e, henc, h1, h2⟩ := C43_exact M hM hpi hpo
  obtain ⟨cs', outs', e', h3⟩ := C43_outputs M hM hpi hpo [true]
  rw [e] at e'; cases e'
  rw [hout] at h2 h3
  obtain ⟨l, rfl⟩ : ∃ l, outs = [l] := by
    have := congrArg List.length (h2 fun _ => false)
    rw [List.length_map, List.length_map] at this
    exact List.length_eq_one_iff.1 this
  simp only [List.map_cons, List.map_nil, List.cons.injEq, and_true, decide_eq_true_eq] at h2 h3
  rw [equivalenceChecking, e]
  dsimp only
  by_cases hub : nvars cs ≤ l / 2
  · rw [if_pos hub]; trivial
  · rw [if_neg hub]
    have hl := hs cs l
    cases hans : solve cs l with
    | timeout => exact ⟨cs, l, by rw [hans]⟩
    | unsat =>
      rw [hans] at hl
      dsimp only at hl ⊢
      intro x v hc
      cases hv : out.val v with
      | false => rfl
      | true =>
        exact absurd (h3.2 ⟨x, v, hc, hv⟩) hl
    | sat a =>
      rw [hans] at hl
      dsimp only at hl ⊢
      by_cases hub2 : 0 < M.numPis ∧ nvars cs ≤ M.numPis
      · rw [if_pos hub2]; trivial
      · rw [if_neg hub2]
        refine ⟨by simp, ?_⟩
        intro x v hx hc
        have hc' := (h1 a).1 hl.1
        have hval : out.val (fun n => a (var n)) = true := by
          rw [← h2]; exact decide_eq_true hl.2
        rw [← hval]
        -- the two valuations agree on the inputs
        have hxa : M.Consistent x (fun n => a (var n)) := by
          refine ⟨hc'.models, ?_⟩
          intro k n hk
          have hkl : k < M.numPis := by have := Aig.lt_of_getElem? hk; omega
          rw [hc'.input k n hk, hx k (a (k + 1)) (by simp [hkl])]
        exact hM.wf.unique_val hc hxa (hM.wf.outputs out (by simp [hout]))

/-- The verdict is defined whenever the miter has a gate or no inputs. -/
theorem C44_defined (M : Aig) (hM : Aig.Built M) (hpi : M.inputs.length = M.numPis)
    (hpo : M.outputs.length = M.numPos) (h1 : M.outputs ≠ []) (hg : 0 < M.numGates ∨ M.numPis = 0)
    (solve : List (List Nat) → Nat → Answer) : equivalenceChecking M solve ≠ .ub := by
  have hw := hM.wf
  obtain ⟨var, henc, hlit⟩ := encoding hM hpi
  obtain ⟨cs, e, hcs⟩ := gatesClauses_spec (N := M) (m := nodeLiterals M) M.gates (fun n hn => by
    obtain ⟨a, b, g⟩ := (hw.mem_gates n).1 hn
    exact (hw.isGate_lt g).2.2.2)
  have hmem := gatesClauses_mem M.gates cs e
  have e' : generateCnf M (nodeLiterals M) = some ([litNot (nodeLiterals M 0)] :: cs,
      (M.outputs.take M.numPos).map (sigLit (nodeLiterals M))) := by rw [generateCnf, e]
  obtain ⟨hl0, _, hl2⟩ := nodeLiterals_spec hM hpi
  have hm : ∀ v, makeLit v / 2 = v := by intro v; simp [makeLit]
  have hm' : ∀ v c, makeLit v c / 2 = v := by intro v c; cases c <;> simp [makeLit]; omega
  generalize hC : [litNot (nodeLiterals M 0)] :: cs = C at e'
  have hz : 0 < nvars C := by
    rw [← hC]
    exact lt_of_le_of_lt (Nat.zero_le _) (lt_nvars (c := [litNot (nodeLiterals M 0)]) (List.mem_cons_self) (List.mem_singleton.2 rfl))
  have hgate : ∀ k n : Nat, M.gates[k]? = some n → M.numPis + 1 + k < nvars C := by
    intro k n hk
    obtain ⟨c, hc, hn⟩ := hmem n (List.mem_of_getElem? hk)
    rw [hl2 k n hk] at hn
    have := lt_nvars (cs := C) (by rw [← hC]; exact List.mem_cons_of_mem _ hc) hn
    rwa [hm] at this
  have hbig : M.numPis = 0 ∨ M.numPis + 1 < nvars C := by
    rcases hg with hg | hg
    · right
      rw [Aig.gates_length hw] at hg
      exact hgate 0 _ (List.getElem?_eq_getElem hg)
    · exact Or.inl hg
  have hvar : ∀ n, n < M.size → var n < nvars C := by
    intro n hn
    rcases node_cases hM hn with rfl | ⟨k, hk⟩ | ⟨k, hk⟩
    · rw [henc.const]; exact hz
    · rw [henc.input k n hk]
      have := Aig.lt_of_getElem? hk
      omega
    · have q1 := hl2 k n hk
      rw [hlit n hn] at q1
      have q2 := congrArg (· / 2) q1
      simp only [hm] at q2
      rw [q2]; exact hgate k n hk
  rw [equivalenceChecking, e', List.take_of_length_le (by omega)]
  cases ho : M.outputs with
  | nil => exact absurd ho h1
  | cons o l =>
    rw [List.map_cons]
    dsimp only
    have hov : M.Valid o := hw.outputs o (by simp [ho])
    rw [if_neg, ]
    · split
      · simp
      · simp
      · rw [if_neg (by omega)]; simp
    · rw [sigLit_eq o (hlit o.index hov), hm']
      have := hvar o.index hov
      omega

/-- C44 for two networks: build the miter, check it with a correct solver.  The answer "equivalent" is
given only if the networks agree under all assignments, "different" only with an assignment on which they
disagree, and one of these answers is given unless the solver gives up — provided the miter keeps at
least one gate or there are no inputs (missing part: see `C44_violated`). -/
theorem C44_verdict_partial (N1 N2 : Aig) (h1 : Aig.Built N1) (h2 : Aig.Built N2)
    (hi1 : N1.inputs.length = N1.numPis) (hi2 : N2.inputs.length = N2.numPis)
    (ho1 : N1.outputs.length = N1.numPos) (ho2 : N2.outputs.length = N2.numPos)
    (hpi : N1.numPis = N2.numPis) (hpo : N1.numPos = N2.numPos) (f : Nat) (hf1 : N1.size ≤ f) (hf2 : N2.size ≤ f)
    (solve : List (List Nat) → Nat → Answer) (hs : Correct solve) :
    ∃ M, Aig.miter N1 N2 f = some (some M) ∧
      (0 < M.numGates ∨ M.numPis = 0 → equivalenceChecking M solve ≠ .ub) ∧
      match equivalenceChecking M solve with
      | .equivalent => ∀ x v1 v2, N1.Consistent x v1 → N2.Consistent x v2 →
          N1.outputs.map (·.val v1) = N2.outputs.map (·.val v2)
      | .different cex => cex.length = N1.numPis ∧ ∀ x v1 v2, (∀ (k : Nat) (b : Bool), cex[k]? = some b → x k = b) →
          N1.Consistent x v1 → N2.Consistent x v2 → N1.outputs.map (·.val v1) ≠ N2.outputs.map (·.val v2)
      | .undecided => ∃ cs l, (solve cs l matches .timeout)
      | .ub => True := by
  obtain ⟨M, out, e, hB, hin, hnp, hout, hno, hM⟩ := Aig.C42_built N1 N2 h1 h2 hi1 hi2 ho1 ho2 hpi hpo f hf1 hf2
  have hlen : M.outputs.length = M.numPos := by rw [hout, hno]; rfl
  refine ⟨M, e, fun hg => C44_defined M hB (by omega) hlen (by rw [hout]; simp) hg solve, ?_⟩
  have := C44_sound M hB (by omega) hlen out hout solve hs
  have hex : ∀ x v1 v2, N1.Consistent x v1 → N2.Consistent x v2 → ∃ v, M.Consistent x v := fun x _ _ _ _ =>
    ⟨_, hB.wf.consistent_value x⟩
  cases hv : equivalenceChecking M solve with
  | ub => trivial
  | undecided => rw [hv] at this; exact this
  | equivalent =>
    rw [hv] at this
    intro x v1 v2 hv1 hv2
    obtain ⟨v, hc⟩ := hex x v1 v2 hv1 hv2
    have q := hM x v v1 v2 hc hv1 hv2
    have q2 : out.val v = false := this x v hc
    by_contra hne
    rw [q.2 hne] at q2; cases q2
  | different cex =>
    rw [hv] at this
    refine ⟨this.1.trans hnp, ?_⟩
    intro x v1 v2 hx hv1 hv2
    obtain ⟨v, hc⟩ := hex x v1 v2 hv1 hv2
    exact (hM x v v1 v2 hc hv1 hv2).1 (this.2 x v hx hc)

/-! ### the missing part -/

/-- one input, output = the input -/
def wire : Aig := (Aig.empty.createPi.1).createPo ⟨1, false⟩
/-- one input, output = constant 0 -/
def zero : Aig := (Aig.empty.createPi.1).createPo ⟨0, false⟩

theorem wire_built : Aig.Built wire := .po (.pi .empty) (by decide)
theorem zero_built : Aig.Built zero := .po (.pi .empty) (by decide)

/-- C44 is violated: the miter of `x` and `0` simplifies to the wire `x`.  It has no gate, so the solver is
asked about a variable it was never told about, whatever the solver does. -/
theorem C44_violated : ∃ N1 N2 M, Aig.Built N1 ∧ Aig.Built N2 ∧ N1.inputs.length = N1.numPis ∧
    N2.inputs.length = N2.numPis ∧ Aig.miter N1 N2 9 = some (some M) ∧
    ∀ solve, equivalenceChecking M solve = .ub :=
  ⟨wire, zero, wire, wire_built, zero_built, by decide, by decide,
    Aig.miter_single (by decide) (by decide) (D := Aig.empty.createPi.1) (by decide), fun solve => by
    have : generateCnf wire (nodeLiterals wire) = some ([[1]], [2]) := by decide
    rw [equivalenceChecking, this]; rfl⟩

/-! ### examples -/

open Classical in
/-- a correct solver exists -/
noncomputable def bruteForce (cs : List (List Nat)) (l : Nat) : Answer :=
  if h : ∃ a, Satisfies a cs ∧ LitTrue a l then .sat h.choose else .unsat

theorem bruteForce_correct : Correct bruteForce := by
  intro cs l
  unfold bruteForce
  by_cases h : ∃ a, Satisfies a cs ∧ LitTrue a l
  · rw [dif_pos h]; exact h.choose_spec
  · rw [dif_neg h]; exact h

/-- two inputs, output = 1 ∧ 2 -/
def conj : Aig := ((Aig.empty.createPi.1.createPi.1).createAnd ⟨1, false⟩ ⟨2, false⟩).1.createPo ⟨3, false⟩

theorem conj_built : Aig.Built conj :=
  .po (.and (.pi (.pi .empty)) (by decide) (by decide)) (by decide)

/-- the miter of two different networks over two inputs keeps gates, so the verdict is defined -/
example : ∃ M, Aig.miter conj Aig.demo 9 = some (some M) ∧ equivalenceChecking M bruteForce ≠ .ub := by
  obtain ⟨M, e, h, _⟩ := C44_verdict_partial conj Aig.demo conj_built Aig.demo_built (by decide) (by decide)
    (by decide) (by decide) (by decide) (by decide) 9 (by decide) (by decide) bruteForce bruteForce_correct
  refine ⟨M, e, h (Or.inl ?_)⟩
  have hx : ∃ D x, Aig.miterXors conj Aig.demo 9 = some (D, [x]) ∧ D.numGates = 5 := ⟨_, _, by rfl, by decide⟩
  obtain ⟨D, x, hx, hD⟩ := hx
  rw [Aig.miter_single (by decide) (by decide) hx] at e
  cases e
  show 0 < D.numGates
  omega

end Verif.Cnf
