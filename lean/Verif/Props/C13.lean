import Verif.RefDeref.Cone
import Verif.Props.AigInv
import Mathlib.Tactic.IntervalCases

set_option autoImplicit false

/-!
# C13: probing the fanout-free cone of a node leaves no trace and measures it
-/

namespace Verif.RefDeref

/-- C13, first part.  In every network whose fanin relation (below the terminal nodes) is acyclic, for
every node and all 32-bit counter values: dereferencing terminates, referencing afterwards terminates,
restores every counter, and both report the same cost.  `r` is any rank decreasing along fanins and
`f` any bound on the recursion depth above the rank of the node. -/
theorem C13_deref_ref (p : Param) (r : Nat → Nat) (ha : Acyclic p r) (f n : Nat) (hf : r n < f) (v : Vals) :
    ∃ w c, deref p f n v = some (w, c) ∧ ref p f n w = some (v, c) := by
  obtain ⟨⟨w, c⟩, h1⟩ := deref_total ha f n v hf
  obtain ⟨⟨v', c'⟩, h2⟩ := ref_total ha f n w hf
  obtain ⟨d, r1, e1⟩ := deref_un f n v w c h1
  obtain ⟨d', r2, e2⟩ := ref_run f n w v' c' h2
  obtain ⟨rfl, rfl⟩ := (r1.run ha).det r2
  exact ⟨w, c, h1, by rw [h2, e1, e2]⟩

/-- C13, first part in the other direction (`refed_size`). -/
theorem C13_ref_deref (p : Param) (r : Nat → Nat) (ha : Acyclic p r) (f n : Nat) (hf : r n < f) (v : Vals) :
    ∃ w c, ref p f n v = some (w, c) ∧ deref p f n w = some (v, c) := by
  obtain ⟨⟨w, c⟩, h1⟩ := ref_total ha f n v hf
  obtain ⟨⟨v', c'⟩, h2⟩ := deref_total ha f n w hf
  obtain ⟨d, r1, e1⟩ := ref_run f n v w c h1
  obtain ⟨d', r2, e2⟩ := deref_un f n w v' c' h2
  obtain ⟨rfl, rfl⟩ := r2.undo ha r1
  exact ⟨w, c, h1, by rw [h2, e1, e2]⟩

/-- `derefed_size` and `refed_size` return the cost and leave all counters as they were. -/
theorem C13_sizes (p : Param) (r : Nat → Nat) (ha : Acyclic p r) (f n : Nat) (hf : r n < f) (v : Vals) :
    (∃ w c, deref p f n v = some (w, c) ∧ derefedSize p f n v = some (v, c)) ∧
    (∃ w c, ref p f n v = some (w, c) ∧ refedSize p f n v = some (v, c)) := by
  obtain ⟨w, c, h1, h2⟩ := C13_deref_ref p r ha f n hf v
  obtain ⟨w', c', h3, h4⟩ := C13_ref_deref p r ha f n hf v
  exact ⟨⟨w, c, h1, by simp [derefedSize, h1, h2]⟩, ⟨w', c', h3, by simp [refedSize, h3, h4]⟩⟩

/-- number of fanin edges from node `g` to node `m`; terminal nodes have none -/
def edges (p : Param) (g m : Nat) : Nat := if p.term g then 0 else (p.kids g).count m

/-- C13, second part.  Let the counters cover the fanin edges of all nodes (they may also count outputs
and other uses).  After dereferencing `n`, let `X` be `n` together with the nodes whose counter went
from positive to zero.  Then the reported cost is the total cost of the non-terminal nodes of `X`, and
each counter lost exactly the edges coming from `X`. -/
theorem C13_cone (p : Param) (r : Nat → Nat) (ha : Acyclic p r) (nodes : Finset Nat)
    (hcl : ∀ g ∈ nodes, p.term g = false → ∀ m ∈ p.kids g, m ∈ nodes) (n : Nat) (hn : n ∈ nodes)
    (v w : Vals) (hv : ∀ m, ∑ g ∈ nodes, edges p g m ≤ (v m).toNat) (f c : Nat)
    (h : deref p f n v = some (w, c)) :
    let X := nodes.filter fun g => g = n ∨ (v g ≠ 0 ∧ w g = 0)
    c = (∑ g ∈ X, if p.term g then 0 else p.cost g) ∧
      ∀ m, (v m).toNat = (w m).toNat + ∑ g ∈ X, edges p g m := by
  intro X
  have hb : ∀ g m, edges p g m = (body p g).count m := by
    intro g m; unfold edges body; split <;> simp
  have hbc : ∀ g, (if p.term g then 0 else p.cost g) = bcost p g := fun g => rfl
  simp only [hb, hbc] at hv ⊢
  obtain ⟨c', h1, e1⟩ := deref_un f n v w c h
  have hcl' : ∀ g ∈ nodes, ∀ m ∈ body p g, m ∈ nodes := by
    intro g hg m hm
    unfold body at hm
    cases ht : p.term g with
    | true => simp [ht] at hm
    | false => simp [ht] at hm; exact hcl g hg ht m hm
  -- only nodes of smaller rank than `n` are touched
  have hnb : ∀ m ∈ body p n, m ∈ (nodes.filter fun m => r m < r n) := fun m hm => by
    rw [Finset.mem_filter]; exact ⟨hcl' n hn m hm, body_rank ha hm⟩
  obtain ⟨F, f1, _, _, f4, f5, f6⟩ := h1.cone (nodes.filter fun m => r m < r n) []
    (nodes.filter fun m => r m < r n) (by
      intro m
      have h2 := hv m
      rw [← Finset.add_sum_erase nodes _ hn] at h2
      have h3 : ∑ g ∈ nodes.filter (fun m => r m < r n), (body p g).count m ≤
          ∑ g ∈ nodes.erase n, (body p g).count m := by
        apply Finset.sum_le_sum_of_subset
        intro x hx
        rw [Finset.mem_filter] at hx
        refine Finset.mem_erase.2 ⟨?_, hx.1⟩
        rintro rfl
        exact absurd hx.2 (lt_irrefl _)
      simp only [List.count_nil]; omega)
    (fun g hg m hm => by
      rw [Finset.mem_filter] at hg ⊢
      have := body_rank ha hm
      exact ⟨hcl' g hg.1 m hm, by omega⟩)
    (fun m hm hm' => absurd hm hm') hnb
  have hnF : n ∉ F := fun h => absurd (Finset.mem_filter.1 (f1 h)).2 (lt_irrefl _)
  have hX : X = insert n F := by
    ext g
    simp only [X, Finset.mem_filter, Finset.mem_insert, f6]
    constructor
    · rintro ⟨_, h⟩; exact h
    · rintro (rfl | h)
      · exact ⟨hn, Or.inl rfl⟩
      · exact ⟨(Finset.mem_filter.1 (f1 ((f6 g).2 h))).1, Or.inr h⟩
  rw [hX]
  refine ⟨by rw [Finset.sum_insert hnF, e1, f4], fun m => ?_⟩
  rw [Finset.sum_insert hnF]
  have := f5 m
  omega

/-- The removed set is the maximum fanout-free cone: if the counters are exact (`outs m` outside uses
plus the fanin edges), a node `m` has no uses left exactly when it has no outside use and all the nodes
it feeds are removed. -/
theorem C13_mffc (p : Param) (r : Nat → Nat) (ha : Acyclic p r) (nodes : Finset Nat)
    (hcl : ∀ g ∈ nodes, p.term g = false → ∀ m ∈ p.kids g, m ∈ nodes) (n : Nat) (hn : n ∈ nodes)
    (v w : Vals) (outs : Nat → Nat) (hv : ∀ m, (v m).toNat = outs m + ∑ g ∈ nodes, edges p g m)
    (f c : Nat) (h : deref p f n v = some (w, c)) (m : Nat) :
    w m = 0 ↔ outs m = 0 ∧ ∀ g ∈ nodes, edges p g m ≠ 0 → (g = n ∨ (v g ≠ 0 ∧ w g = 0)) := by
  obtain ⟨_, h2⟩ := C13_cone p r ha nodes hcl n hn v w (fun m => by rw [hv m]; omega) f c h
  have h3 := h2 m
  rw [hv m, ← Finset.sum_filter_add_sum_filter_not nodes (fun g => g = n ∨ (v g ≠ 0 ∧ w g = 0))] at h3
  have h4 : w m = 0 ↔ (w m).toNat = 0 := ⟨fun h => by rw [h]; rfl, fun h =>
    BitVec.eq_of_toNat_eq (by simpa using h)⟩
  rw [h4]
  have h5 : (w m).toNat = outs m +
      ∑ g ∈ nodes.filter (fun g => ¬ (g = n ∨ (v g ≠ 0 ∧ w g = 0))), edges p g m := by omega
  rw [h5, Nat.add_eq_zero_iff, Finset.sum_eq_zero_iff]
  apply and_congr_right
  intro _
  constructor
  · intro h g hg he
    by_contra hc
    exact he (h g (Finset.mem_filter.2 ⟨hg, hc⟩))
  · intro h g hg
    rw [Finset.mem_filter] at hg
    by_contra he
    exact hg.2 (h g hg.1 he)

/-- Constructed AIGs are acyclic with the node index as rank, so the theorems apply to
`deref_node_recursive` / `ref_node_recursive` on every node. -/
theorem C13_aig_acyclic (N : Aig) (hN : Aig.Built N) : Acyclic (aigParam N) id := by
  intro n hn m hm
  simp only [aigParam, aigKids] at hm hn
  split at hm
  · simp at hm
  · rename_i hc
    simp only [not_or] at hc
    split at hm
    · rename_i nd hnd
      have hin : n ∉ N.inputs := by
        intro hi
        obtain ⟨k, hk⟩ := List.getElem?_of_mem hi
        obtain ⟨_, nd', hnd', h1, h2⟩ := hN.wf.input k n hk
        apply hc.2
        simp [Aig.isCi, hnd', h1, h2]
      have hg : N.IsGate n nd.c0 nd.c1 := ⟨hc.1, hin, nd, hnd, (hN.wf.gate n nd hnd hc.1 hin).2.2.2, rfl, rfl⟩
      have := hN.wf.isGate_lt hg
      simp only [List.mem_cons, List.not_mem_nil, or_false] at hm
      simp only [id]
      rcases hm with rfl | rfl <;> omega
    · simp at hm

/-- Counters as `rewrite`/`refactor` initialise them (value := fanout_size) on the demo network:
the cone of its gate (node 3, inputs 1 and 2) has size 1. -/
example : (deref (aigParam Aig.demo) 4 3 (fun n => BitVec.ofNat 32 (Aig.demo.fanoutSize n))).map (·.2) =
    some 1 := by decide

/-- A cone with sharing: node 5 = AND(3,4), 4 = AND(3,2), 3 = AND(1,2). All three gates disappear. -/
def shared : Param := ⟨fun n => if n = 5 then [3, 4] else if n = 4 then [2, 3] else if n = 3 then [1, 2] else [],
  fun n => decide (n ≤ 2), fun _ => 1⟩

/-- exact counters of `shared`, one output on node 5 -/
def sharedVals : Vals := fun n => if n = 1 then 1 else if n = 2 then 2 else if n = 3 then 2 else
  if n = 4 then 1 else if n = 5 then 1 else 0

theorem shared_acyclic : Acyclic shared id := by
  intro n hn m hm
  simp only [shared] at hn hm
  simp only [id]
  split at hm <;> [skip; split at hm <;> [skip; split at hm]] <;>
    (simp at hm; try omega)

example : (deref shared 6 5 sharedVals).map (·.2) = some 3 := by decide

/-- `shared` meets the hypotheses of `C13_mffc`. -/
example : ∀ m, (sharedVals m).toNat = (if m = 5 then 1 else 0) + ∑ g ∈ Finset.range 6, edges shared g m := by
  intro m
  have h0 : ∀ g, g ≤ 2 → edges shared g m = 0 := by
    intro g hg; simp [edges, shared, hg]
  by_cases h : m ≤ 5
  · interval_cases m <;> decide
  · have hs : sharedVals m = 0 := by
      simp only [sharedVals]
      rw [if_neg (by omega), if_neg (by omega), if_neg (by omega), if_neg (by omega), if_neg (by omega)]
    have he : ∀ g ∈ Finset.range 6, edges shared g m = 0 := by
      intro g hg
      rw [Finset.mem_range] at hg
      interval_cases g <;> simp [edges, shared, List.count_cons] <;> omega
    rw [hs, Finset.sum_eq_zero he, if_neg (by omega)]
    rfl

end Verif.RefDeref
