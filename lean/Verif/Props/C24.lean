import Verif.Sop.Cubes

set_option autoImplicit false

/-!
# C24: SOP factoring preserves the function
-/

namespace Verif.Sop
open Aig (GateSpec Built Models)

/-- values of the leaf signals as an assignment of the variables of the truth table (specification) -/
def leafAssign (leaves : List Sig) (v : Nat → Bool) (i : Nat) : Bool :=
  match leaves[i]? with
  | some s => s.val v
  | none => false

/-- C24 for the operator `sop_factoring::operator()`: for every truth table over at most 31 variables, every network and
all leaf signals in it, factoring ends (every large enough recursion depth suffices) and the returned signal computes
the function of the leaves in every valuation of the resulting network. The network is only extended; inputs and
outputs stay. -/
theorem C24_operator (t : TT) (ht : t.WF) (hn : t.n ≤ 31) (N : Aig) (hN : Built N) (leaves : List Sig)
    (hl : leaves.length = t.n) (hv : ∀ s ∈ leaves, N.Valid s) :
    ∃ depth, ∀ fuel, depth ≤ fuel → ∃ N' f, factor N t leaves fuel = some (N', f) ∧ Built N' ∧ N'.Valid f ∧
      Aig.Ext N N' ∧ N'.inputs = N.inputs ∧ N'.outputs = N.outputs ∧
      ∀ v, N'.Models v → f.val v = t.eval (leafAssign leaves v) := by
  suffices h : ∃ depth, ∀ fuel, depth ≤ fuel → ∃ r, factor N t leaves fuel = some r ∧
      GateSpec N (fun v => t.eval (leafAssign leaves v)) r by
    obtain ⟨depth, h⟩ := h
    refine ⟨depth, fun fuel hf => ?_⟩
    obtain ⟨r, e, s⟩ := h fuel hf
    exact ⟨r.1, r.2, e, s.built hN, s.valid, s.ext, s.inputs, s.outputs, s.val⟩
  unfold factor
  by_cases c0 : t.isConst0 = true
  · refine ⟨0, fun fuel _ => ?_⟩
    rw [if_pos c0]
    exact ⟨_, rfl, (Aig.const_spec hN.wf false).mono fun v _ => ((TT.isConst0_iff ht).1 c0 _).symm⟩
  simp only [if_neg c0]
  by_cases c1 : t.not.isConst0 = true
  · refine ⟨0, fun fuel _ => ?_⟩
    rw [if_pos c1]
    refine ⟨_, rfl, (Aig.const_spec hN.wf true).mono fun v _ => ?_⟩
    have := (TT.isConst0_iff (TT.wf_not t)).1 c1 (leafAssign leaves v)
    rw [TT.eval_not] at this
    simpa using this.symm
  simp only [if_neg c1]
  obtain ⟨cs, neg, e, hg, hval⟩ := getIsop_spec ht hn
    (by obtain ⟨x, hx⟩ := ne_const (TT.wf_not t) c1; exact ⟨x, by rw [TT.eval_not] at hx; simpa using hx⟩) (ne_const ht c0)
  refine ⟨lits (ofCubes cs t.n) + 66, fun fuel hf => ?_⟩
  obtain ⟨r, e2, s⟩ := genFactor_spec (T := wfTheory) (ch := leaves) (n := 2 * t.n) (by omega) (by omega) fuel N _ hN.wf hv hg hf
  rw [e]
  dsimp only
  rw [e2]
  refine ⟨_, rfl, ?_⟩
  have hx := s.xorb neg
  have e3 : (if neg = true then r.2.not else r.2) = r.2.xorb neg := by cases neg <;> simp [Sig.xorb, Sig.not]
  rw [e3]
  refine hx.mono fun v _ => ?_
  rw [Bool.xor_comm, hval]; rfl

/-- C24 for the factoring procedure itself: all sums of products over at most 31 variables in which no product is empty
or contains another one -/
theorem C24_sop (numVars : Nat) (hn : numVars ≤ 31) (s : Terms) (hne : s ≠ []) (hnd : s.Nodup)
    (hanti : ∀ a ∈ s, ∀ b ∈ s, (∀ l, a.getLsbD l = true → b.getLsbD l = true) → a = b) (hpos : ∀ c ∈ s, c ≠ 0#64)
    (hvars : ∀ c ∈ s, ∀ l, 2 * numVars ≤ l → c.getLsbD l = false) (N : Aig) (hN : Built N) (leaves : List Sig)
    (hl : leaves.length = numVars) (hv : ∀ s ∈ leaves, N.Valid s) :
    ∃ depth, ∀ fuel, depth ≤ fuel → ∃ N' f, genFactor leaves (2 * numVars) fuel N s = some (N', f) ∧ Built N' ∧
      N'.Valid f ∧ N'.inputs = N.inputs ∧ N'.outputs = N.outputs ∧
      ∀ v, N'.Models v → f.val v = val (leafAssign leaves v) s := by
  refine ⟨lits s + 66, fun fuel hf => ?_⟩
  obtain ⟨r, e, sp⟩ := genFactor_spec (T := wfTheory) (ch := leaves) (n := 2 * numVars) (by omega) (by omega) fuel N s hN.wf hv
    ⟨⟨hnd, hanti⟩, hne, hpos, hvars⟩ hf
  exact ⟨r.1, r.2, e, sp.built hN, sp.valid, sp.inputs, sp.outputs, sp.val⟩

theorem genAnd_empty (ch : List Sig) (f : Nat) : ∀ (N : Aig) (e : Nat), genAnd ch 0#64 f N 0 e = none := by
  induction f with
  | zero => intro N e; rfl
  | succ f ih =>
    intro N e
    have : litsIn 0#64 0 e = [] := by
      rw [litsIn, List.filter_eq_nil_iff]
      intro l _
      simp [hasLit]
    rw [genAnd, this]
    dsimp only [List.length_nil]
    rw [List.getElem?_nil]
    dsimp only
    rw [ih]

/-- The condition on containment is needed: on `a + a b` the procedure divides by `a`, keeps the quotient `1 + b` and
recurses forever on the empty product, whatever the network and the leaves. (Covers passed by the operator contain no
such sums, C24_operator.) -/
theorem C24_limit (fuel : Nat) (N : Aig) (leaves : List Sig) : genFactor leaves 4 fuel N [0b10#64, 0b1010#64] = none := by
  have e1 : goodDivisor [0b10#64, 0b1010#64] 4 = some ([0b10#64, 0b1010#64], some [0#64, 0b1000#64]) := by decide +kernel
  have e2 : divide [0b10#64, 0b1010#64] [0#64, 0b1000#64] = ([0b10#64, 0b1010#64], [0b10#64], []) := by decide +kernel
  have e3 : bestLit [0b10#64, 0b1010#64] 0b10#64 4 = some 0b10#64 := by decide +kernel
  have e4 : divideByCube [0b10#64, 0b1010#64] 0b10#64 = ([0#64, 0b1000#64], []) := by decide +kernel
  have e5 : goodDivisor [0#64, 0b1000#64] 4 = some ([0#64, 0b1000#64], none) := by decide +kernel
  have h1 : ∀ f N, genAndOr leaves 4 f N [0#64, 0b1000#64] = none := by
    intro f N
    match f with
    | 0 => rfl
    | 1 => rfl
    | f + 2 =>
      rw [genAndOr]
      swap
      · intro d h; simp at h
      rw [show [0#64, 0b1000#64].take ([0#64, 0b1000#64].length / 2) = [0#64] from rfl, genAndOr, genAnd_empty]
  have h2 : ∀ f N, genFactor leaves 4 f N [0#64, 0b1000#64] = none := by
    intro f N
    cases f with
    | zero => rfl
    | succ f => rw [genFactor, e5]; dsimp only; rw [h1]
  cases fuel with
  | zero => rfl
  | succ f =>
    rw [genFactor, e1]
    dsimp only
    rw [e2]
    dsimp only
    unfold litFactor
    rw [e3]
    dsimp only
    rw [e4]
    dsimp only
    cases genAnd leaves 0b10#64 f N 0 4 with
    | none => rfl
    | some r => dsimp only; rw [h2]

/-! ### Examples -/

/-- three primary inputs -/
def net3 : Aig := ((Aig.empty.createPi.1).createPi.1).createPi.1

theorem net3_built : Built net3 := .pi (.pi (.pi .empty))

/-- majority of three variables -/
def maj3 : TT := ⟨3, [false, false, false, true, false, true, true, true]⟩

/-- four new gates -/
example : (factor net3 maj3 [⟨1, false⟩, ⟨2, false⟩, ⟨3, false⟩] 100).map (fun r => (r.1.nodes.length, r.2)) =
    some (8, ⟨7, true⟩) := by decide +kernel

/-- the hypotheses of C24_operator hold for the majority function with one negated leaf -/
example : maj3.WF ∧ maj3.n ≤ 31 ∧ Built net3 ∧ [(⟨1, false⟩ : Sig), ⟨2, true⟩, ⟨3, false⟩].length = maj3.n ∧
    ∀ s ∈ [(⟨1, false⟩ : Sig), ⟨2, true⟩, ⟨3, false⟩], net3.Valid s :=
  ⟨rfl, by decide, net3_built, rfl, by simp [Aig.Valid, net3, Aig.createPi, Aig.empty]⟩

/-- `a c + a d + b c + b d + e` -/
def sum5 : Terms := [0b100010#64, 0b10000010#64, 0b101000#64, 0b10001000#64, 0b1000000000#64]

/-- no product of it is empty or contained in another one, as C24_sop requires -/
example : sum5.Nodup ∧ (sum5.all fun c => c != 0#64) = true ∧
    (sum5.all fun a => sum5.all fun b => a &&& ~~~b != 0#64 || a == b) = true := by decide +kernel

end Verif.Sop
