import Verif.Aig.SubstProof
import Verif.Props.AigInv

set_option autoImplicit false

/-!
# C11, C12: substitution
-/

namespace Verif.Aig

/-- Networks that a client can reach with construction and `substitute_node` calls. -/
inductive Reach : Aig → Prop
  | empty : Reach Aig.empty
  | pi {N} : Reach N → Reach N.createPi.1
  | ro {N} : Reach N → Reach N.createRo.1
  | po {N f} : Reach N → N.Valid f → Reach (N.createPo f)
  | ri {N f r} : Reach N → N.Valid f → Reach (N.createRi f r)
  | and {N a b} : Reach N → N.Valid a → N.Valid b → Reach (N.createAnd a b).1
  | subst {N M f old new} : Reach N → substituteNode f N old new = some M → Reach M

theorem Built.reach {N : Aig} (h : Built N) : Reach N := by
  induction h with
  | empty => exact .empty
  | pi _ ih => exact .pi ih
  | ro _ ih => exact .ro ih
  | po _ hf ih => exact .po ih hf
  | ri _ hf ih => exact .ri ih hf
  | and _ ha hb ih => exact .and ih ha hb

theorem isCi_lt {N : Aig} {i : Nat} (h : N.isCi i = true) : i < N.nodes.length := by
  unfold isCi at h
  cases hn : N.nodes[i]? with
  | none => rw [hn] at h; cases h
  | some nd => exact lt_of_getElem? hn

/-- adding a node at the end and changing counters keeps `SWF` -/
theorem SWF.extend {N M : Aig} (w : SWF N)
    (hk : ∀ i, i < N.nodes.length → (M.nodes[i]?).map (fun nd : Node => (nd.c0, nd.c1)) =
      (N.nodes[i]?).map (fun nd : Node => (nd.c0, nd.c1)))
    (hl : N.nodes.length ≤ M.nodes.length)
    (hi : ∀ i ∈ M.inputs, i ∈ N.inputs ∨ (i = N.nodes.length ∧ M.isCi i = true))
    (ht : ∀ t ∈ M.table, t ∈ N.table ∧ (t ∈ M.inputs → t ∈ N.inputs) ∨ (t ≠ 0 ∧ t ∉ M.inputs))
    (htl : ∀ t ∈ M.table, t < M.nodes.length) : SWF M where
  pos := by have := w.pos; omega
  inputCi i h := by
    rcases hi i h with h | ⟨_, h⟩
    · have hc := w.inputCi i h
      have := hk i (isCi_lt hc)
      unfold isCi at hc ⊢
      cases hm : M.nodes[i]? <;> cases hn : N.nodes[i]? <;> simp_all
    · exact h
  table t h := by
    rcases ht t h with ⟨h, h2⟩ | h
    · exact ⟨(w.table t h).1, fun hc => (w.table t h).2 (h2 hc)⟩
    · exact h
  tableLt := htl

theorem addAnd_kids (N : Aig) (c d : Sig) (i : Nat) (hi : i < N.nodes.length) :
    ((N.addAnd c d).1.nodes[i]?).map (fun nd : Node => (nd.c0, nd.c1)) =
      (N.nodes[i]?).map (fun nd : Node => (nd.c0, nd.c1)) := by
  obtain ⟨ph, e⟩ := addAnd_eq N c d
  rw [e, incFo_get, incFo_get]
  simp only [pushAnd, List.getElem?_append_left hi]
  cases N.nodes[i]? with
  | none => rfl
  | some nd => simp; split <;> split <;> simp

theorem Reach.swf {N : Aig} (h : Reach N) : SWF N := by
  induction h with
  | empty => exact ⟨by decide, by simp [Aig.empty], by simp [Aig.empty], by simp [Aig.empty]⟩
  | @pi N _ w =>
    refine w.extend ?_ (by simp [createPi]) ?_ ?_ ?_
    · intro i hi; simp only [createPi, List.getElem?_append_left hi]
    · intro i hi
      simp only [createPi, List.mem_append, List.mem_singleton] at hi
      rcases hi with hi | rfl
      · exact Or.inl hi
      · exact Or.inr ⟨rfl, by simp [isCi, createPi]⟩
    · intro t ht
      refine Or.inl ⟨ht, fun hi => ?_⟩
      simp only [createPi, List.mem_append, List.mem_singleton] at hi
      rcases hi with hi | rfl
      · exact hi
      · have := w.tableLt _ ht; omega
    · intro t ht; have := w.tableLt t ht; simp [createPi]; omega
  | @ro N _ w =>
    refine w.extend ?_ (by simp [createRo]) ?_ ?_ ?_
    · intro i hi; simp only [createRo, List.getElem?_append_left hi]
    · intro i hi
      simp only [createRo, List.mem_append, List.mem_singleton] at hi
      rcases hi with hi | rfl
      · exact Or.inl hi
      · exact Or.inr ⟨rfl, by simp [isCi, createRo]⟩
    · intro t ht
      refine Or.inl ⟨ht, fun hi => ?_⟩
      simp only [createRo, List.mem_append, List.mem_singleton] at hi
      rcases hi with hi | rfl
      · exact hi
      · have := w.tableLt _ ht; omega
    · intro t ht; have := w.tableLt t ht; simp [createRo]; omega
  | @po N f _ _ w =>
    have := (same_modify N f.index (fun nd => { nd with fo := nd.fo + 1 }) (fun _ => ⟨rfl, rfl⟩)).swf w
    exact ⟨this.pos, this.inputCi, this.table, this.tableLt⟩
  | @ri N f r _ _ w =>
    have := (same_modify N f.index (fun nd => { nd with fo := nd.fo + 1 }) (fun _ => ⟨rfl, rfl⟩)).swf w
    exact ⟨this.pos, this.inputCi, this.table, this.tableLt⟩
  | @and N a b _ ha hb w =>
    rcases createAnd_cases N a b with e | ⟨c, d, ho, h1, h2, h3, h4, e⟩
    · rw [e]; exact w
    rw [e]
    have htab : (N.addAnd c d).1.table = N.nodes.length :: N.table := rfl
    have hinp : (N.addAnd c d).1.inputs = N.inputs := rfl
    refine w.extend (addAnd_kids N c d) (by simp) (by rw [hinp]; exact fun i h => Or.inl h) ?_ ?_
    · intro t ht
      rw [htab] at ht
      rw [hinp]
      rcases List.mem_cons.1 ht with rfl | ht
      · refine Or.inr ⟨by have := w.pos; omega, fun hi => ?_⟩
        have := isCi_lt (w.inputCi _ hi); omega
      · exact Or.inl ⟨ht, id⟩
    · intro t ht
      rw [htab] at ht
      rcases List.mem_cons.1 ht with rfl | ht
      · simp
      · have := w.tableLt t ht; simp; omega
  | @subst N M f old new _ hs w => exact substLoop_swf f N _ M w hs

theorem Built.modelsAll {N : Aig} (h : Built N) {v : Nat → Bool} (m : N.Models v) : ModelsAll N v := by
  refine ⟨m.const, fun n nd h0 hi hn => ?_⟩
  exact m.gate n _ _ ⟨h0, hi, nd, hn, (h.wf.gate n nd hn h0 hi).2.2.2, rfl, rfl⟩

/-- C11 (partial).  Whatever construction and substitution calls came before: if `old` and `new` have the
same value in a valuation `v` of the network, then `v` is also a valuation of the network after
`substitute_node(old, new)`, the inputs are the same nodes, and every output has the same value.

Missing for the full claim C11: here the defining equations of nodes marked dead count as well, and
acyclicity of the result is not proved, so that `v` is a valuation of the result, but maybe not the only
one.  The full claim is false for the code, see `C11_violated`. -/
theorem C11_substitute_partial (N M : Aig) (hN : Reach N) (f old : Nat) (new : Sig)
    (h : substituteNode f N old new = some M) (v : Nat → Bool) (hv : ModelsAll N v)
    (heq : v old = new.val v) :
    ModelsAll M v ∧ M.inputs = N.inputs ∧ M.outputs.map (·.val v) = N.outputs.map (·.val v) := by
  have k := substituteNode_keeps hN.swf hv heq h
  exact ⟨k.models, k.inputs, k.outputs⟩

/-! ### the witness for C11 and C12 -/

/-- Inputs a, c, d; z = a or c, y = a or d; found = a and z, old = found and y, top = old and z; output
top.  All of found, old, top equal a. -/
def bad0 : Aig := (((Aig.empty.createPi).1.createPi).1.createPi).1
def bad1 : Aig := (bad0.createAnd ⟨1, true⟩ ⟨2, true⟩).1
def bad2 : Aig := (bad1.createAnd ⟨1, true⟩ ⟨3, true⟩).1
def bad3 : Aig := (bad2.createAnd ⟨1, false⟩ ⟨4, true⟩).1
def bad4 : Aig := (bad3.createAnd ⟨5, true⟩ ⟨6, false⟩).1
def bad5 : Aig := (bad4.createAnd ⟨4, true⟩ ⟨7, false⟩).1
def bad : Aig := bad5.createPo ⟨8, false⟩

theorem bad_built : Built bad :=
  .po (.and (.and (.and (.and (.and (.pi (.pi (.pi .empty))) (by decide) (by decide)) (by decide)
    (by decide)) (by decide) (by decide)) (by decide) (by decide)) (by decide) (by decide)) (by decide)

theorem isGate_get {N : Aig} {n : Nat} {nd : Node} (hn : N.nodes[n]? = some nd) (h0 : n ≠ 0)
    (hi : n ∉ N.inputs) (hd : nd.dead = false) : N.IsGate n nd.c0 nd.c1 := ⟨h0, hi, nd, hn, hd, rfl, rfl⟩

/-- node 7 and input 1 of `bad` have the same value in every valuation -/
theorem bad_equiv (v : Nat → Bool) (hv : bad.Models v) : v 7 = (Sig.mk 1 false).val v := by
  have g4 := hv.gate 4 ⟨1, true⟩ ⟨2, true⟩ ⟨by decide, by decide, _, rfl, rfl, rfl, rfl⟩
  have g5 := hv.gate 5 ⟨1, true⟩ ⟨3, true⟩ ⟨by decide, by decide, _, rfl, rfl, rfl, rfl⟩
  have g6 := hv.gate 6 ⟨1, false⟩ ⟨4, true⟩ ⟨by decide, by decide, _, rfl, rfl, rfl, rfl⟩
  have g7 := hv.gate 7 ⟨5, true⟩ ⟨6, false⟩ ⟨by decide, by decide, _, rfl, rfl, rfl, rfl⟩
  simp only [Sig.val] at *
  rw [g7, g6, g5, g4]
  cases v 1 <;> cases v 2 <;> cases v 3 <;> rfl

/-- `bad` after `substitute_node(7, 1)` -/
def badAfter : Aig := ((substituteNode 10 bad 7 ⟨1, false⟩).getD Aig.empty)

theorem badAfter_eq : substituteNode 10 bad 7 ⟨1, false⟩ = some badAfter := by decide

/-- C11 is violated: replacing a node by an equivalent signal that is an input (so it depends on no
gate) makes the output refer to a node that has been taken out; in the resulting network no live gate
fixes the value of the output, so the output function is lost. -/
theorem C11_violated : ∃ (N M : Aig) (old : Nat) (new : Sig) (o : Sig), Built N ∧
    (∀ v, N.Models v → v old = new.val v) ∧ new.index ∈ N.inputs ∧
    substituteNode 10 N old new = some M ∧ M.outputs = [o] ∧ M.isDead o.index = true ∧
    (∀ x, ∃ v w, M.Consistent x v ∧ M.Consistent x w ∧ o.val v ≠ o.val w) := by
  refine ⟨bad, badAfter, 7, ⟨1, false⟩, ⟨6, false⟩, bad_built, bad_equiv, by decide, badAfter_eq,
    by decide, by decide, ?_⟩
  have nogate : ∀ n a b, ¬ badAfter.IsGate n a b := by
    rintro n a b ⟨h0, h1, nd, hn, hd, _, _⟩
    have hlt : n < 9 := lt_of_getElem? hn
    have hin : badAfter.inputs = [1, 2, 3] := by decide
    rw [hin] at h1
    have hdead : ∀ k, 4 ≤ k → k < 9 → badAfter.isDead k = true := by
      intro k h1 h2
      have : k = 4 ∨ k = 5 ∨ k = 6 ∨ k = 7 ∨ k = 8 := by omega
      rcases this with rfl | rfl | rfl | rfl | rfl <;> decide
    have h4 : 4 ≤ n := by simp at h1; omega
    have := hdead n h4 hlt
    simp [isDead, hn, hd] at this
  have hin : badAfter.inputs = [1, 2, 3] := by decide
  intro x
  refine ⟨fun n => if n = 0 ∨ n = 6 then false else x (n - 1),
    fun n => if n = 0 then false else if n = 6 then true else x (n - 1), ?_, ?_, ?_⟩
  · refine ⟨⟨by simp, fun n a b g => absurd g (nogate n a b)⟩, ?_⟩
    intro k n hk
    rw [hin] at hk
    match k, hk with
    | 0, hk => cases hk; simp
    | 1, hk => cases hk; simp
    | 2, hk => cases hk; simp
    | k + 3, hk => simp at hk
  · refine ⟨⟨by simp, fun n a b g => absurd g (nogate n a b)⟩, ?_⟩
    intro k n hk
    rw [hin] at hk
    match k, hk with
    | 0, hk => cases hk; simp
    | 1, hk => cases hk; simp
    | 2, hk => cases hk; simp
    | k + 3, hk => simp at hk
  · simp [Sig.val]

/-- The hypotheses of `C11_substitute_partial` are met on the same network. -/
example (v : Nat → Bool) (hv : bad.Models v) : ModelsAll badAfter v ∧
    badAfter.inputs = bad.inputs ∧ badAfter.outputs.map (·.val v) = bad.outputs.map (·.val v) :=
  C11_substitute_partial bad badAfter bad_built.reach 10 7 ⟨1, false⟩ badAfter_eq v
    (bad_built.modelsAll hv) (bad_equiv v hv)

/-! ### C12 -/

/-- what C12 asks of a network: every output, every fanin of a live gate and every entry of the hash
table refers to an existing node that is not dead -/
structure NoDead (N : Aig) : Prop where
  outputs : ∀ s ∈ N.outputs, N.Valid s ∧ N.isDead s.index = false
  fanins : ∀ n a b, N.IsGate n a b → N.Valid a ∧ N.isDead a.index = false ∧
    N.Valid b ∧ N.isDead b.index = false
  returned : ∀ a b, N.Valid a → N.Valid b → N.isDead a.index = false → N.isDead b.index = false →
    (N.createAnd a b).1.isDead (N.createAnd a b).2.index = false

theorem Built.notDead {N : Aig} (h : Built N) (n : Nat) : N.isDead n = false := by
  unfold isDead
  cases hn : N.nodes[n]? with
  | none => rfl
  | some nd =>
    by_cases h0 : n = 0
    · subst h0
      exact (h.wf.node0 nd hn).2
    by_cases hi : n ∈ N.inputs
    · obtain ⟨k, hk⟩ := List.getElem?_of_mem hi
      obtain ⟨_, nd', hn', _, _, hd⟩ := h.wf.input k n hk
      rw [hn] at hn'; cases hn'; exact hd
    · exact (h.wf.gate n nd hn h0 hi).2.2.2

/-- C12 (partial): holds as long as the network is only constructed.  Missing: sequences that contain
substitutions; for these the claim is false, see `C12_violated` and `C11_violated`. -/
theorem C12_construct_partial (N : Aig) (hN : Built N) : NoDead N := by
  refine ⟨fun s hs => ⟨hN.wf.outputs s hs, hN.notDead _⟩, fun n a b g => ?_, fun a b ha hb _ _ => ?_⟩
  · have := hN.wf.isGate_lt g
    exact ⟨show a.index < _ by omega, hN.notDead _, show b.index < _ by omega, hN.notDead _⟩
  · exact (Built.and hN ha hb).notDead _

example : NoDead bad := C12_construct_partial bad bad_built

/-- Inputs a, c; b = a or c; old = a and b; top = old and b; output top. -/
def dup0 : Aig := ((Aig.empty.createPi).1.createPi).1
def dup1 : Aig := (dup0.createAnd ⟨1, true⟩ ⟨2, true⟩).1
def dup2 : Aig := (dup1.createAnd ⟨1, false⟩ ⟨3, true⟩).1
def dup3 : Aig := (dup2.createAnd ⟨3, true⟩ ⟨4, false⟩).1
def dup : Aig := dup3.createPo ⟨5, false⟩

theorem dup_built : Built dup :=
  .po (.and (.and (.and (.pi (.pi .empty)) (by decide) (by decide)) (by decide)
    (by decide)) (by decide) (by decide)) (by decide)

/-- `dup` after `substitute_node(4, 1)` -/
def dupAfter : Aig := ((substituteNode 10 dup 4 ⟨1, false⟩).getD Aig.empty)

theorem dupAfter_eq : substituteNode 10 dup 4 ⟨1, false⟩ = some dupAfter := by decide

/-- C12 is violated: after one substitution of a node by an equivalent input, `create_and` on two live
signals returns the node that was just removed (the hash table lost the live gate instead). -/
theorem C12_violated : Built dup ∧ (∀ v, dup.Models v → v 4 = (Sig.mk 1 false).val v) ∧
    substituteNode 10 dup 4 ⟨1, false⟩ = some dupAfter ∧
    dupAfter.isDead 1 = false ∧ dupAfter.isDead 3 = false ∧
    dupAfter.createAnd ⟨1, false⟩ ⟨3, true⟩ = (dupAfter, ⟨4, false⟩) ∧ dupAfter.isDead 4 = true ∧
    ¬ NoDead dupAfter := by
  have h1 : dupAfter.createAnd ⟨1, false⟩ ⟨3, true⟩ = (dupAfter, ⟨4, false⟩) := by decide
  have h2 : dupAfter.isDead 4 = true := by decide
  refine ⟨dup_built, ?_, dupAfter_eq, by decide, by decide, h1, h2, ?_⟩
  · intro v hv
    have g3 := hv.gate 3 ⟨1, true⟩ ⟨2, true⟩ ⟨by decide, by decide, _, rfl, rfl, rfl, rfl⟩
    have g4 := hv.gate 4 ⟨1, false⟩ ⟨3, true⟩ ⟨by decide, by decide, _, rfl, rfl, rfl, rfl⟩
    simp only [Sig.val] at *
    rw [g4, g3]
    cases v 1 <;> cases v 2 <;> rfl
  · intro h
    have := h.returned ⟨1, false⟩ ⟨3, true⟩ (by decide) (by decide) (by decide) (by decide)
    rw [h1] at this
    rw [h2] at this
    cases this

end Verif.Aig
