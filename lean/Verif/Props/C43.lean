import Verif.Cnf.Basic
import Verif.Props.AigInv

set_option autoImplicit false

/-!
# C43: the CNF of a network is exact
-/

namespace Verif.Cnf

/-! ### specification -/

/-- the assignment makes the literal true -/
def LitTrue (a : Nat → Bool) (l : Nat) : Prop := a (l / 2) = (l % 2 == 0)

instance (a : Nat → Bool) (l : Nat) : Decidable (LitTrue a l) := inferInstanceAs (Decidable (_ = _))

/-- every clause has a true literal -/
def Satisfies (a : Nat → Bool) (cs : List (List Nat)) : Prop := ∀ c ∈ cs, ∃ l ∈ c, LitTrue a l

/-! ### literals -/

theorem litTrue_not (a : Nat → Bool) (l : Nat) : LitTrue a (litNot l) ↔ ¬ LitTrue a l := by
  unfold LitTrue litNot
  split
  · rename_i h
    have h1 : (l + 1) / 2 = l / 2 := by omega
    have h2 : (l + 1) % 2 = 1 := by omega
    rw [h1, h2, h]; cases a (l / 2) <;> simp
  · rename_i h
    have h0 : l % 2 = 1 := by omega
    have h1 : (l - 1) / 2 = l / 2 := by omega
    have h2 : (l - 1) % 2 = 0 := by omega
    rw [h1, h2, h0]; cases a (l / 2) <;> simp

theorem litTrue_cond (a : Nat → Bool) (l : Nat) (c : Bool) :
    LitTrue a (litNotCond l c) ↔ (LitTrue a l ↔ c = false) := by
  cases c <;> simp [litNotCond, litTrue_not]

theorem satisfies_cons (a : Nat → Bool) (c : List Nat) (cs : List (List Nat)) :
    Satisfies a (c :: cs) ↔ (∃ l ∈ c, LitTrue a l) ∧ Satisfies a cs := by simp [Satisfies]

theorem satisfies_append (a : Nat → Bool) (cs ds : List (List Nat)) :
    Satisfies a (cs ++ ds) ↔ Satisfies a cs ∧ Satisfies a ds := by
  simp only [Satisfies, List.mem_append]
  constructor
  · intro h; exact ⟨fun c hc => h c (Or.inl hc), fun c hc => h c (Or.inr hc)⟩
  · rintro ⟨h1, h2⟩ c (hc | hc); exacts [h1 c hc, h2 c hc]

/-- C43, gate clauses: under every assignment the clauses of a gate hold exactly when the output literal
has the value of the function of the input literals. -/
theorem C43_gates (s : Nat → Bool) (a b c d : Nat) :
    (Satisfies s (onAnd d a b) ↔ (LitTrue s d ↔ LitTrue s a ∧ LitTrue s b)) ∧
    (Satisfies s (onOr d a b) ↔ (LitTrue s d ↔ LitTrue s a ∨ LitTrue s b)) ∧
    (Satisfies s (onXor d a b) ↔ (LitTrue s d ↔ Xor (LitTrue s a) (LitTrue s b))) ∧
    (Satisfies s (onMaj d a b c) ↔ (LitTrue s d ↔ (LitTrue s a ∧ LitTrue s b) ∨ (LitTrue s a ∧ LitTrue s c) ∨
      (LitTrue s b ∧ LitTrue s c))) ∧
    (Satisfies s (onXor3 d a b c) ↔ (LitTrue s d ↔ Xor (Xor (LitTrue s a) (LitTrue s b)) (LitTrue s c))) ∧
    (Satisfies s (onIte d a b c) ↔ (LitTrue s d ↔ (LitTrue s a ∧ LitTrue s b) ∨ (¬ LitTrue s a ∧ LitTrue s c))) := by
  simp only [onAnd, onOr, onXor, onMaj, onXor3, onIte, Satisfies, List.mem_cons, List.not_mem_nil, or_false,
    forall_eq_or_imp, forall_eq, exists_eq_or_imp, exists_eq_left, litTrue_not, Xor]
  by_cases h1 : LitTrue s a <;> by_cases h2 : LitTrue s b <;> by_cases h3 : LitTrue s c <;>
    by_cases h4 : LitTrue s d <;> simp [h1, h2, h3, h4]

/-! ### numbering -/

theorem numberNodes_not_mem : ∀ (l : List Nat) (var : Nat) (m : Nat → Nat) (n : Nat), n ∉ l →
    numberNodes l var m n = m n := by
  intro l
  induction l with
  | nil => intros; rfl
  | cons k l ih =>
    intro var m n hn
    simp only [List.mem_cons, not_or] at hn
    rw [numberNodes, ih _ _ _ hn.2]; simp [hn.1]

theorem numberNodes_get : ∀ (l : List Nat) (var : Nat) (m : Nat → Nat), l.Nodup → ∀ (k n : Nat), l[k]? = some n →
    numberNodes l var m n = makeLit (var + k) := by
  intro l
  induction l with
  | nil => intro _ _ _ k n h; simp at h
  | cons a l ih =>
    intro var m hnd k n hk
    rw [List.nodup_cons] at hnd
    rw [numberNodes]
    cases k with
    | zero =>
      simp only [List.getElem?_cons_zero, Option.some.injEq] at hk
      subst hk
      rw [numberNodes_not_mem _ _ _ _ hnd.1]; simp
    | succ k =>
      rw [ih _ _ hnd.2 k n (by simpa using hk)]
      congr 1; omega

variable {N : Aig}

theorem gates_nodup (N : Aig) : N.gates.Nodup := List.Nodup.filter _ List.nodup_range

theorem WFgates_pairwise (N : Aig) : N.gates.Pairwise (· < ·) := List.Pairwise.filter _ List.pairwise_lt_range

/-- the variables of the default literal map -/
theorem nodeLiterals_spec (hN : Aig.Built N) (hpi : N.inputs.length = N.numPis) :
    nodeLiterals N 0 = 0 ∧ (∀ k n : Nat, N.inputs[k]? = some n → nodeLiterals N n = makeLit (k + 1)) ∧
    (∀ k n : Nat, N.gates[k]? = some n → nodeLiterals N n = makeLit (N.numPis + 1 + k)) := by
  have hw := hN.wf
  have hg : ∀ n ∈ N.gates, n ≠ 0 ∧ n ∉ N.inputs := by
    intro n hn
    obtain ⟨a, b, h⟩ := (hw.mem_gates n).1 hn
    exact ⟨h.1, h.2.1⟩
  have h0 : 0 ∉ N.inputs := fun h => by have := (hw.inputs_lt h).1; omega
  have ht : N.inputs.take N.numPis = N.inputs := List.take_of_length_le (by omega)
  refine ⟨?_, ?_, ?_⟩
  · rw [nodeLiterals, nodeLiteralsFrom, ht, numberNodes_not_mem _ _ _ _ (fun h => (hg 0 h).1 rfl),
      numberNodes_not_mem _ _ _ _ h0]
  · intro k n hk
    rw [nodeLiterals, nodeLiteralsFrom, ht, numberNodes_not_mem _ _ _ _ (fun h => (hg n h).2 (List.mem_of_getElem? hk)),
      numberNodes_get _ _ _ hw.inputsNodup k n hk]
    congr 1; omega
  · intro k n hk
    rw [nodeLiterals, nodeLiteralsFrom, numberNodes_get _ _ _ (gates_nodup N) k n hk]

theorem gatesClauses_spec {m : Nat → Nat} : ∀ (l : List Nat), (∀ n ∈ l, n < N.nodes.length) →
    ∃ cs, gatesClauses N m l = some cs ∧ ∀ s, Satisfies s cs ↔
      ∀ n ∈ l, ∀ nd, N.nodes[n]? = some nd → Satisfies s (onAnd (m n) (sigLit m nd.c0) (sigLit m nd.c1)) := by
  intro l
  induction l with
  | nil => intro _; exact ⟨[], rfl, by simp [Satisfies]⟩
  | cons n l ih =>
    intro hl
    obtain ⟨cs, e, h⟩ := ih fun k hk => hl k (by simp [hk])
    obtain ⟨nd, hnd⟩ : ∃ nd, N.nodes[n]? = some nd := ⟨_, List.getElem?_eq_getElem (hl n (by simp))⟩
    refine ⟨_, by rw [gatesClauses, gateClauses, hnd, e], ?_⟩
    intro s
    rw [satisfies_append, h s]
    simp only [List.mem_cons, forall_eq_or_imp]
    constructor
    · rintro ⟨h1, h2⟩
      exact ⟨fun nd' h' => by rw [hnd, Option.some.injEq] at h'; subst h'; exact h1, h2⟩
    · rintro ⟨h1, h2⟩; exact ⟨h1 nd hnd, h2⟩

/-- The encoding of the node values: node `n` has its own variable `var n`, variable 0 for the constant and
variable `k + 1` for input `k`. -/
structure Encoding (N : Aig) (var : Nat → Nat) : Prop where
  const : var 0 = 0
  input : ∀ k n : Nat, N.inputs[k]? = some n → var n = k + 1
  inj : ∀ m n, m < N.size → n < N.size → var m = var n → m = n
  bound : ∀ n, n < N.size → var n < N.size

theorem litTrue_makeLit (a : Nat → Bool) (v : Nat) (c : Bool) : LitTrue a (makeLit v c) ↔ a v = !c := by
  cases c
  · simp [LitTrue, makeLit]
  · have h1 : (2 * v + 1) / 2 = v := by omega
    have h2 : (2 * v + 1) % 2 = 1 := by omega
    simp [LitTrue, makeLit, h1, h2]

theorem sigLit_eq {m : Nat → Nat} {var : Nat → Nat} (s : Sig) (h : m s.index = makeLit (var s.index)) :
    sigLit m s = makeLit (var s.index) s.compl := by
  rw [sigLit, h]
  cases hc : s.compl
  · rfl
  · have h2 : 2 * var s.index % 2 = 0 := by omega
    simp [litNotCond, litNot, makeLit]

theorem node_cases (hN : Aig.Built N) {n : Nat} (hn : n < N.size) :
    n = 0 ∨ (∃ k : Nat, N.inputs[k]? = some n) ∨ ∃ k : Nat, N.gates[k]? = some n := by
  by_cases h0 : n = 0
  · exact Or.inl h0
  by_cases hi : n ∈ N.inputs
  · exact Or.inr (Or.inl (List.getElem?_of_mem hi))
  · refine Or.inr (Or.inr (List.getElem?_of_mem ((hN.wf.mem_gates n).2 ?_)))
    obtain ⟨nd, hnd⟩ : ∃ nd, N.nodes[n]? = some nd := ⟨_, List.getElem?_eq_getElem hn⟩
    exact ⟨_, _, h0, hi, nd, hnd, (hN.wf.gate n nd hnd h0 hi).2.2.2, rfl, rfl⟩

theorem encoding (hN : Aig.Built N) (hpi : N.inputs.length = N.numPis) :
    ∃ var, Encoding N var ∧ ∀ n, n < N.size → nodeLiterals N n = makeLit (var n) := by
  obtain ⟨h0, h1, h2⟩ := nodeLiterals_spec hN hpi
  have hm : ∀ v, makeLit v / 2 = v := by intro v; simp [makeLit]
  have hsz := (Aig.C08_sizes N hN)
  have e0 : nodeLiterals N 0 / 2 = 0 := by rw [h0]
  have e1 : ∀ k n : Nat, N.inputs[k]? = some n → nodeLiterals N n / 2 = k + 1 := by
    intro k n hk; rw [h1 k n hk, hm]
  have e2 : ∀ k n : Nat, N.gates[k]? = some n → nodeLiterals N n / 2 = N.numPis + 1 + k := by
    intro k n hk; rw [h2 k n hk, hm]
  refine ⟨fun n => nodeLiterals N n / 2, ⟨e0, e1, ?_, ?_⟩, ?_⟩
  · intro m n hm hn he
    rcases node_cases hN hm with rfl | ⟨k, hk⟩ | ⟨k, hk⟩ <;> rcases node_cases hN hn with rfl | ⟨j, hj⟩ | ⟨j, hj⟩
    · rfl
    · rw [e0, e1 _ _ hj] at he; omega
    · rw [e0, e2 _ _ hj] at he; omega
    · rw [e0, e1 _ _ hk] at he; omega
    · rw [e1 _ _ hk, e1 _ _ hj] at he
      have : k = j := by omega
      subst this; rw [hk] at hj; exact Option.some.inj hj
    · rw [e1 _ _ hk, e2 _ _ hj] at he; have := Aig.lt_of_getElem? hk; omega
    · rw [e0, e2 _ _ hk] at he; omega
    · rw [e2 _ _ hk, e1 _ _ hj] at he; have := Aig.lt_of_getElem? hj; omega
    · rw [e2 _ _ hk, e2 _ _ hj] at he
      have : k = j := by omega
      subst this; rw [hk] at hj; exact Option.some.inj hj
  · intro n hn
    rcases node_cases hN hn with rfl | ⟨k, hk⟩ | ⟨k, hk⟩
    · rw [e0]; omega
    · rw [e1 _ _ hk]; have := Aig.lt_of_getElem? hk; omega
    · rw [e2 _ _ hk]; have := Aig.lt_of_getElem? hk; omega
  · intro n hn
    rcases node_cases hN hn with rfl | ⟨k, hk⟩ | ⟨k, hk⟩
    · show _ = makeLit (nodeLiterals N 0 / 2); rw [h0]; rfl
    · show _ = makeLit (nodeLiterals N n / 2); rw [e1 _ _ hk, h1 _ _ hk]
    · show _ = makeLit (nodeLiterals N n / 2); rw [e2 _ _ hk, h2 _ _ hk]

/-- C43.  The clauses generated for a network have a variable of their own for every node, and they are
satisfied by an assignment `a` of the variables exactly when `a` gives the constant, the inputs and the
gates the node values under the input assignment contained in `a`.  The output literals are those of the
output signals. -/
theorem C43_exact (N : Aig) (hN : Aig.Built N) (hpi : N.inputs.length = N.numPis)
    (hpo : N.outputs.length = N.numPos) :
    ∃ cs outs var, generateCnf N (nodeLiterals N) = some (cs, outs) ∧ Encoding N var ∧
      (∀ a, Satisfies a cs ↔ N.Consistent (fun k => a (k + 1)) (fun n => a (var n))) ∧
      ∀ a, outs.map (fun l => decide (LitTrue a l)) = N.outputs.map (·.val (fun n => a (var n))) := by
  obtain ⟨var, henc, hlit⟩ := encoding hN hpi
  have hw := hN.wf
  obtain ⟨cs, e, hcs⟩ := gatesClauses_spec (N := N) (m := nodeLiterals N) N.gates (fun n hn => by
    obtain ⟨a, b, g⟩ := (hw.mem_gates n).1 hn
    exact (hw.isGate_lt g).2.2.2)
  have hsig : ∀ s, N.Valid s → ∀ a, LitTrue a (sigLit (nodeLiterals N) s) ↔ s.val (fun n => a (var n)) = true := by
    intro s hs a
    rw [sigLit_eq s (hlit s.index hs), litTrue_makeLit]
    simp only [Sig.val]
    cases s.compl <;> cases a (var s.index) <;> simp
  refine ⟨_, _, var, by rw [generateCnf, e], henc, ?_, ?_⟩
  · intro a
    rw [satisfies_cons, hcs a]
    have hconst : (∃ l ∈ [litNot (nodeLiterals N 0)], LitTrue a l) ↔ a (var 0) = false := by
      simp only [List.mem_singleton, exists_eq_left, litTrue_not]
      rw [hlit 0 hw.pos, litTrue_makeLit]; simp
    rw [hconst]
    have hgate : ∀ n a' b', N.IsGate n a' b' → ∀ s, Satisfies s (onAnd (nodeLiterals N n) (sigLit (nodeLiterals N) a') (sigLit (nodeLiterals N) b')) ↔
        s (var n) = (a'.val (fun n => s (var n)) && b'.val (fun n => s (var n))) := by
      intro n a' b' g s
      have hl := hw.isGate_lt g
      rw [(C43_gates s _ _ 0 _).1, hsig a' (by simp only [Aig.Valid]; omega), hsig b' (by simp only [Aig.Valid]; omega),
        hlit n hl.2.2.2, litTrue_makeLit]
      cases s (var n) <;> simp
    constructor
    · rintro ⟨h0, h1⟩
      refine ⟨⟨h0, ?_⟩, ?_⟩
      · intro n a' b' g
        have hm := (hw.mem_gates n).2 ⟨a', b', g⟩
        have := (hgate n a' b' g a)
        obtain ⟨_, _, nd, hnd, _, rfl, rfl⟩ := g
        exact this.1 (h1 n hm nd hnd)
      · intro k n hk; rw [henc.input k n hk]
    · intro hc
      refine ⟨hc.models.const, ?_⟩
      intro n hn nd hnd
      obtain ⟨a', b', g⟩ := (hw.mem_gates n).1 hn
      have h1 := (hgate n a' b' g a).2 (hc.models.gate n a' b' g)
      obtain ⟨_, _, nd', hnd', _, rfl, rfl⟩ := g
      rw [hnd, Option.some.injEq] at hnd'; subst hnd'
      exact h1
  · intro a
    rw [List.take_of_length_le (by omega), List.map_map]
    apply List.map_congr_left
    intro o ho
    have := hsig o (hw.outputs o ho) a
    simp only [Function.comp]
    rw [Bool.eq_iff_iff, decide_eq_true_iff, this]

/-- C43: hence the clauses together with any required output values are satisfiable exactly when some input
assignment produces these outputs. -/
theorem C43_outputs (N : Aig) (hN : Aig.Built N) (hpi : N.inputs.length = N.numPis)
    (hpo : N.outputs.length = N.numPos) (want : List Bool) :
    ∃ cs outs, generateCnf N (nodeLiterals N) = some (cs, outs) ∧
      ((∃ a, Satisfies a cs ∧ outs.map (fun l => decide (LitTrue a l)) = want) ↔
        ∃ x v, N.Consistent x v ∧ N.outputs.map (·.val v) = want) := by
  obtain ⟨cs, outs, var, e, henc, h1, h2⟩ := C43_exact N hN hpi hpo
  refine ⟨cs, outs, e, ?_, ?_⟩
  · rintro ⟨a, hs, hw⟩
    exact ⟨_, _, (h1 a).1 hs, by rw [← h2]; exact hw⟩
  · rintro ⟨x, v, hc, hv⟩
    classical
    -- read the assignment off the valuation
    let a : Nat → Bool := fun y => if h : ∃ n, n < N.size ∧ var n = y then v h.choose else false
    have ha : ∀ n, n < N.size → a (var n) = v n := by
      intro n hn
      have hex : ∃ k, k < N.size ∧ var k = var n := ⟨n, hn, rfl⟩
      have : a (var n) = v hex.choose := by simp only [a]; rw [dif_pos hex]
      rw [this, henc.inj _ _ hex.choose_spec.1 hn hex.choose_spec.2]
    have hval : ∀ s, N.Valid s → s.val (fun n => a (var n)) = s.val v := by
      intro s hs; simp only [Sig.val]; rw [ha _ hs]
    have hcons : N.Consistent (fun k => a (k + 1)) (fun n => a (var n)) := by
      refine ⟨⟨?_, ?_⟩, ?_⟩
      · show a (var 0) = false
        rw [ha 0 hN.wf.pos]; exact hc.models.const
      · intro n s t g
        have hl := hN.wf.isGate_lt g
        rw [hval s (by simp only [Aig.Valid]; omega), hval t (by simp only [Aig.Valid]; omega)]
        show a (var n) = _
        rw [ha n hl.2.2.2]; exact hc.models.gate n s t g
      · intro k n hk
        show a (var n) = _
        rw [henc.input k n hk]
    refine ⟨a, (h1 a).2 hcons, ?_⟩
    rw [h2, ← hv]
    exact List.map_congr_left fun o ho => hval o (hN.wf.outputs o ho)

/-! ### examples -/

example : generateCnf Aig.demo (nodeLiterals Aig.demo) =
    some ([[1], [3, 7], [4, 7], [2, 5, 6]], [7]) := by decide

example : ∃ cs outs, generateCnf Aig.demo (nodeLiterals Aig.demo) = some (cs, outs) ∧
    ((∃ a, Satisfies a cs ∧ outs.map (fun l => decide (LitTrue a l)) = [true]) ↔
      ∃ x v, Aig.demo.Consistent x v ∧ Aig.demo.outputs.map (·.val v) = [true]) :=
  C43_outputs Aig.demo Aig.demo_built (by decide) (by decide) [true]

end Verif.Cnf
