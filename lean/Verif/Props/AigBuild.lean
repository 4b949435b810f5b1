import Verif.Aig.Gates

set_option autoImplicit false

/-!
# C02 - C09: the construction API

Every theorem quantifies over all networks `N` with `Built N`, i.e. over all finite histories of
construction calls, over all signals existing in `N`, and over all input assignments `x`.
`N.Consistent x v` (see `Verif/Aig/Spec.lean`) says that `v` gives the node values of `N` under `x`.
-/

namespace Verif.Aig

/-- A small network used as witness in the examples: two inputs, one AND gate, one complemented
output. -/
def demo : Aig :=
  let N := Aig.empty.createPi.1
  let N := N.createPi.1
  let N := (N.createAnd ⟨1, true⟩ ⟨2, false⟩).1
  N.createPo ⟨3, true⟩

theorem demo_built : Built demo := by
  refine Built.po (Built.and (Built.pi (Built.pi Built.empty)) ?_ ?_) ?_ <;> simp [Valid] <;> decide

/-- The meaning of a constructed network is well defined: under every input assignment there is a
valuation of the nodes, and any two valuations agree on all nodes. -/
theorem C02_meaning (N : Aig) (hN : Built N) (x : Nat → Bool) :
    ∃ v, N.Consistent x v ∧ ∀ w, N.Consistent x w → ∀ s, N.Valid s → s.val w = s.val v :=
  ⟨N.value x, hN.wf.consistent_value x, fun _ hw _ hs =>
    hN.wf.unique_val hw (hN.wf.consistent_value x) hs⟩

/-- C02: `create_and` returns a signal with the value of the conjunction, in a network that is again a
constructed one, and keeps the values of all existing signals. -/
theorem C02_create_and (N : Aig) (hN : Built N) (a b : Sig) (ha : N.Valid a) (hb : N.Valid b)
    (x : Nat → Bool) (v v' : Nat → Bool) (hv : N.Consistent x v)
    (hv' : (N.createAnd a b).1.Consistent x v') :
    Built (N.createAnd a b).1 ∧ (N.createAnd a b).1.Valid (N.createAnd a b).2 ∧
    (N.createAnd a b).2.val v' = (a.val v && b.val v) ∧
    ∀ s, N.Valid s → (N.createAnd a b).1.Valid s ∧ s.val v' = s.val v := by
  have sp := createAnd_spec hN.wf ha hb
  have hc := sp.ext.consistent hv'
  refine ⟨sp.built hN, sp.valid, ?_, ?_⟩
  · rw [sp.val v' hv'.models, hN.wf.unique_val hc hv ha, hN.wf.unique_val hc hv hb]
  · exact fun s hs => ⟨sp.ext.valid hs, hN.wf.unique_val hc hv hs⟩

/-- C02 for inputs and outputs: creating them keeps all values, a new input takes the next position. -/
theorem C02_create_io (N : Aig) (hN : Built N) (f : Sig) (r : Int) (x v v' : Nat → Bool)
    (hv : N.Consistent x v) (s : Sig) (hs : N.Valid s) :
    (N.createPi.1.Consistent x v' → s.val v' = s.val v ∧ N.createPi.2.val v' = x N.inputs.length) ∧
    (N.createRo.1.Consistent x v' → s.val v' = s.val v ∧ N.createRo.2.val v' = x N.inputs.length) ∧
    ((N.createPo f).Consistent x v' → s.val v' = s.val v ∧ (N.createPo f).outputs = N.outputs ++ [f]) ∧
    ((N.createRi f r).Consistent x v' →
      s.val v' = s.val v ∧ (N.createRi f r).outputs = N.outputs ++ [f]) := by
  refine ⟨fun h => ⟨hN.wf.unique_val ((ext_createPi N).consistent h) hv hs, ?_⟩,
    fun h => ⟨hN.wf.unique_val ((ext_createRo N).consistent h) hv hs, ?_⟩,
    fun h => ⟨hN.wf.unique_val ((ext_createPo N f).consistent h) hv hs, rfl⟩,
    fun h => ⟨hN.wf.unique_val ((ext_createRi N f r).consistent h) hv hs, rfl⟩⟩
  · have := h.input N.inputs.length N.nodes.length (by simp [createPi])
    simp [createPi, Sig.val, this]
  · have := h.input N.inputs.length N.nodes.length (by simp [createRo])
    simp [createRo, Sig.val, this]

/-- The hypotheses of `C02_create_and` are met: conjunction of the complemented gate and input 2 in
the witness network, under the assignment "only input 1 is true". -/
example : ∃ v v', demo.Consistent (fun k => k == 1) v ∧
    (demo.createAnd ⟨3, true⟩ ⟨2, false⟩).1.Consistent (fun k => k == 1) v' ∧
    (demo.createAnd ⟨3, true⟩ ⟨2, false⟩).2.val v' = ((⟨3, true⟩ : Sig).val v && (⟨2, false⟩ : Sig).val v) :=
  have hb := Built.and demo_built (a := ⟨3, true⟩) (b := ⟨2, false⟩) (by decide) (by decide)
  ⟨_, _, demo_built.wf.consistent_value _, hb.wf.consistent_value _,
    (C02_create_and demo demo_built ⟨3, true⟩ ⟨2, false⟩ (by decide) (by decide) _ _ _
      (demo_built.wf.consistent_value _) (hb.wf.consistent_value _)).2.2.1⟩

/-- Shape of the statements of C03: the constructor call `r` on `N` gives a constructed network, an
existing signal, keeps all old values and the result has value `f`. -/
def Computes (N : Aig) (r : Aig × Sig) (f : (Sig → Bool) → Bool) : Prop :=
  Built r.1 ∧ r.1.Valid r.2 ∧ ∀ x v v', N.Consistent x v → r.1.Consistent x v' →
    r.2.val v' = f (fun s => s.val v) ∧ ∀ s, N.Valid s → s.val v' = s.val v

theorem GateSpec.computes {N : Aig} (hN : Built N) {r} {f : (Sig → Bool) → Bool}
    (h : GateSpec N (fun v => f (fun s => s.val v)) r)
    (hf : ∀ v w : Nat → Bool, (∀ s, N.Valid s → s.val v = s.val w) →
      f (fun s => s.val v) = f (fun s => s.val w)) : Computes N r f := by
  refine ⟨h.built hN, h.valid, fun x v v' hv hv' => ?_⟩
  have hc := h.ext.consistent hv'
  have ho : ∀ s, N.Valid s → s.val v' = s.val v := fun s hs => hN.wf.unique_val hc hv hs
  exact ⟨(h.val v' hv'.models).trans (hf _ _ ho), ho⟩

/-- C03: the binary constructors compute their named functions. -/
theorem C03_binary (N : Aig) (hN : Built N) (a b : Sig) (ha : N.Valid a) (hb : N.Valid b) :
    Computes N (N.createNand a b) (fun e => !(e a && e b)) ∧
    Computes N (N.createOr a b) (fun e => e a || e b) ∧
    Computes N (N.createNor a b) (fun e => !(e a || e b)) ∧
    Computes N (N.createLt a b) (fun e => !e a && e b) ∧
    Computes N (N.createLe a b) (fun e => !e a || e b) ∧
    Computes N (N.createXor a b) (fun e => e a != e b) ∧
    Computes N (N.createXnor a b) (fun e => e a == e b) := by
  have h := hN.wf
  refine ⟨GateSpec.computes hN (createNand_spec h ha hb) ?_,
    GateSpec.computes hN (createOr_spec h ha hb) ?_,
    GateSpec.computes hN (createNor_spec h ha hb) ?_,
    GateSpec.computes hN (createLt_spec h ha hb) ?_,
    GateSpec.computes hN (createLe_spec h ha hb) ?_,
    GateSpec.computes hN ((createXor_spec h ha hb).mono ?_) ?_,
    GateSpec.computes hN ((createXnor_spec h ha hb).mono ?_) ?_⟩ <;> intro v
  any_goals (intro w e; simp only [e a ha, e b hb])
  all_goals (intro _; beta_reduce; cases a.val v <;> cases b.val v <;> rfl)

/-- C03: the ternary constructors compute if-then-else, majority and 3-input exclusive or. -/
theorem C03_ternary (N : Aig) (hN : Built N) (a b c : Sig) (ha : N.Valid a) (hb : N.Valid b)
    (hc : N.Valid c) :
    Computes N (N.createIte a b c) (fun e => if e a then e b else e c) ∧
    Computes N (N.createMaj a b c)
      (fun e => decide (2 ≤ (e a).toNat + (e b).toNat + (e c).toNat)) ∧
    Computes N (N.createXor3 a b c)
      (fun e => decide (((e a).toNat + (e b).toNat + (e c).toNat) % 2 = 1)) := by
  have h := hN.wf
  refine ⟨GateSpec.computes hN (createIte_spec h ha hb hc) ?_,
    GateSpec.computes hN ((createMaj_spec h ha hb hc).mono ?_) ?_,
    GateSpec.computes hN ((createXor3_spec h ha hb hc).mono ?_) ?_⟩ <;> intro v
  any_goals (intro w e; simp only [e a ha, e b hb, e c hc])
  all_goals (intro _; beta_reduce; cases a.val v <;> cases b.val v <;> cases c.val v <;> rfl)

theorem foldr_and (e : Sig → Bool) (fs : List Sig) :
    fs.foldr (fun s acc => e s && acc) true = fs.all e := by
  induction fs with
  | nil => rfl
  | cons s l ih => simp [ih]

theorem foldr_or (e : Sig → Bool) (fs : List Sig) :
    fs.foldr (fun s acc => e s || acc) false = fs.any e := by
  induction fs with
  | nil => rfl
  | cons s l ih => simp [ih]

theorem foldr_xor (e : Sig → Bool) (fs : List Sig) :
    fs.foldr (fun s acc => Bool.xor (e s) acc) false = decide (fs.countP e % 2 = 1) := by
  induction fs with
  | nil => rfl
  | cons s l ih =>
    rw [List.foldr_cons, ih, List.countP_cons]
    cases e s
    · simp
    · simp only [if_true, Bool.true_xor]
      rcases Nat.mod_two_eq_zero_or_one (l.countP e) with h | h <;> simp [h, Nat.add_mod]

/-- C03: the n-ary constructors compute the conjunction, disjunction and parity of all arguments, for
argument lists of every length (including the empty list). -/
theorem C03_nary (N : Aig) (hN : Built N) (fs : List Sig) (hfs : ∀ s ∈ fs, N.Valid s) :
    Computes N (N.createNaryAnd fs) (fun e => fs.all e) ∧
    Computes N (N.createNaryOr fs) (fun e => fs.any e) ∧
    Computes N (N.createNaryXor fs) (fun e => decide (fs.countP e % 2 = 1)) := by
  have h := hN.wf
  have sa := treeReduce_spec createAnd (· && ·) true Bool.and_assoc (by simp) (by simp)
    (fun h _ _ ha hb => createAnd_spec h ha hb) fs.length fs le_rfl h hfs
  have so := treeReduce_spec createOr (· || ·) false Bool.or_assoc (by simp) (by simp)
    (fun h _ _ ha hb => createOr_spec h ha hb) fs.length fs le_rfl h hfs
  have sx := treeReduce_spec createXor Bool.xor false Bool.xor_assoc (by simp) (by simp)
    (fun h _ _ ha hb => createXor_spec h ha hb) fs.length fs le_rfl h hfs
  refine ⟨GateSpec.computes hN (sa.mono ?_) ?_, GateSpec.computes hN (so.mono ?_) ?_,
    GateSpec.computes hN (sx.mono ?_) ?_⟩
  · exact fun v _ => foldr_and _ fs
  · intro v w e
    rw [Bool.eq_iff_iff, List.all_eq_true, List.all_eq_true]
    exact forall₂_congr fun s hs => by rw [e s (hfs s hs)]
  · exact fun v _ => foldr_or _ fs
  · intro v w e
    rw [Bool.eq_iff_iff, List.any_eq_true, List.any_eq_true]
    exact exists_congr fun s => and_congr_right fun hs => by rw [e s (hfs s hs)]
  · exact fun v _ => foldr_xor _ fs
  · intro v w e
    have : fs.countP (fun s => s.val v) = fs.countP (fun s => s.val w) :=
      List.countP_congr fun s hs => by rw [e s (hfs s hs)]
    simp only [this]

example : Computes demo (demo.createNaryOr [⟨1, false⟩, ⟨2, true⟩, ⟨3, true⟩, ⟨1, false⟩])
    (fun e => [⟨1, false⟩, ⟨2, true⟩, ⟨3, true⟩, ⟨1, false⟩].any e) :=
  (C03_nary demo demo_built _ (by decide)).2.1

end Verif.Aig
