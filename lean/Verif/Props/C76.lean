import Verif.Klut.SubstProof
import Mathlib.Order.WellFounded
import Mathlib.Tactic.Push

set_option autoImplicit false

/-!
# C76: `substitute_node` of a LUT network makes all readers of one node read another one

Full statement: for all nodes `old` and `new` of a LUT network, after `substitute_node( old, new )` nothing reads `old`, all readers
of `old` read `new`, fan-out counts are right, the network is still acyclic with fanins before their readers, and if the two
nodes are equivalent no output changes.  This fails if `old` is below `new` (`C76_violated_cycle`), if `old` is `new`
(`C76_violated_same`), and the order of the nodes is lost (`C76_violated_order`).
-/

namespace Verif.Klut

/-- node `m` is node `n` or below it -/
inductive Below (N : Klut) : Nat → Nat → Prop
  | refl (n) : Below N n n
  | step {n cs f c m} : N.IsLut n cs f → c ∈ cs → Below N c m → Below N n m

/-- `u` gives every node the value of its function, except that node `old` has the value `b` -/
structure Forced (N : Klut) (old : Nat) (b : Bool) (x u : Nat → Bool) : Prop where
  forced : u old = b
  const0 : 0 ≠ old → u 0 = false
  const1 : 1 ≠ old → u 1 = true
  input : ∀ k n, N.inputs[k]? = some n → n ≠ old → u n = x k
  lut : ∀ n cs f, N.IsLut n cs f → n ≠ old → u n = f.eval (args u cs)

/-- LUTs keep their functions; their fanins and the outputs are the same, with `new` for `old`; nothing else changes. -/
theorem C76_structure (N : Klut) (old new : Nat) :
    (∀ n cs f, (N.substituteNode old new).IsLut n cs f ↔
      ∃ cs0, N.IsLut n cs0 f ∧ cs.length = cs0.length ∧
        ∀ (j c : Nat), cs0[j]? = some c → cs[j]? = some (if c = old then new else c)) ∧
    (N.substituteNode old new).outputs.length = N.outputs.length ∧
    (∀ (k o : Nat), N.outputs[k]? = some o → (N.substituteNode old new).outputs[k]? = some (if o = old then new else o)) ∧
    (N.substituteNode old new).inputs = N.inputs ∧ (N.substituteNode old new).numPis = N.numPis ∧
    (N.substituteNode old new).numPos = N.numPos ∧ (N.substituteNode old new).latches = N.latches ∧
    (N.substituteNode old new).nodes.length = N.nodes.length := by
  refine ⟨fun n cs f => ?_, by simp [substituteNode, replaceIn], fun k o ho => by simp [substituteNode, replaceIn, ho],
    rfl, rfl, rfl, rfl, subst_length N old new⟩
  rw [subst_isLut]
  constructor
  · rintro ⟨cs0, h, rfl⟩
    exact ⟨cs0, h, by simp [replaceIn], fun j c hc => by simp [replaceIn, hc]⟩
  · rintro ⟨cs0, h, hl, hg⟩
    refine ⟨cs0, h, ?_⟩
    apply List.ext_getElem?
    intro j
    cases hj : cs0[j]? with
    | none =>
      rw [List.getElem?_eq_none_iff] at hj
      rw [List.getElem?_eq_none (by omega), List.getElem?_eq_none (by simp [replaceIn]; omega)]
    | some c => rw [hg j c hj]; simp [replaceIn, hj]

/-- Nothing reads the old node any more, and all fan-out counts are right. -/
theorem C76_fanout_partial {N : Klut} (hN : Built N) {old new : Nat} (h : old ≠ new) :
    (∀ n cs f, (N.substituteNode old new).IsLut n cs f → old ∉ cs) ∧ old ∉ (N.substituteNode old new).outputs ∧
    ∀ n nd, (N.substituteNode old new).nodes[n]? = some nd →
      nd.fo = ((N.substituteNode old new).nodes.map fun k => k.children.count n).sum +
        (N.substituteNode old new).outputs.count n := by
  have key : ∀ l : List Nat, old ∉ replaceIn old new l := by
    intro l hm
    obtain ⟨c, _, hc⟩ := List.mem_map.1 hm
    split at hc
    · exact h hc.symm
    · rename_i hne; exact hne hc
  refine ⟨?_, key _, fun n nd hnd => subst_fanout hN.wf h n nd hnd⟩
  intro n cs f hl
  obtain ⟨cs0, _, rfl⟩ := (subst_isLut N old new n cs f).1 hl
  exact key _

theorem args_replaceIn {u w : Nat → Bool} {old new : Nat} {cs : List Nat} (h : ∀ c ∈ cs, u c = w (if c = old then new else c)) :
    args w (replaceIn old new cs) = args u cs := by
  funext j
  unfold args replaceIn
  rw [List.getElem?_map]
  cases hj : cs[j]? with
  | none => rfl
  | some c => exact (h c (List.mem_of_getElem? hj)).symm

/-- nodes that are not above the old one keep their values -/
theorem Forced.eq_of_not_above {N : Klut} (hN : WF N) {old : Nat} {b : Bool} {x u v : Nat → Bool} (hv : Consistent N x v)
    (hu : Forced N old b x u) : ∀ n, n < N.nodes.length → ¬ Below N n old → u n = v n := by
  intro n
  induction n using Nat.strong_induction_on with
  | _ n ih =>
    intro hn hb
    have hne : n ≠ old := by rintro rfl; exact hb (Below.refl _)
    by_cases h0 : n = 0
    · subst h0; rw [hu.const0 hne, hv.const0]
    by_cases h1 : n = 1
    · subst h1; rw [hu.const1 hne, hv.const1]
    by_cases hi : n ∈ N.inputs
    · obtain ⟨k, hk⟩ := List.mem_iff_getElem?.1 hi
      rw [hu.input k n hk hne, hv.input k n hk]
    · obtain ⟨nd, hnd⟩ : ∃ nd, N.nodes[n]? = some nd := ⟨_, List.getElem?_eq_getElem hn⟩
      obtain ⟨_, g2, f, g3, _⟩ := hN.gate n nd hnd (by omega) hi
      have hl : N.IsLut n nd.children f := ⟨by omega, hi, nd, hnd, rfl, g3⟩
      rw [hu.lut _ _ _ hl hne, hv.lut _ _ _ hl]
      congr 1
      apply args_congr
      intro c hc
      have := g2 c hc
      exact ih c this (by omega) fun hbc => hb (Below.step hl hc hbc)

/-- a valuation of the new network, seen as one of the old network -/
theorem forced_of_subst {N : Klut} {old new : Nat} (hnew : ¬ Below N new old) (hN : WF N)
    (hlt : new < N.nodes.length) {x v w : Nat → Bool} (hv : Consistent N x v) (hw : Consistent (N.substituteNode old new) x w) :
    Forced N old (v new) x (fun n => if n = old then v new else w n) ∧ w new = v new := by
  have hne : new ≠ old := by rintro rfl; exact hnew (Below.refl _)
  have low : ∀ n, n < N.nodes.length → ¬ Below N n old → w n = v n := by
    intro n
    induction n using Nat.strong_induction_on with
    | _ n ih =>
      intro hn hb
      by_cases h0 : n = 0
      · subst h0; rw [hw.const0, hv.const0]
      by_cases h1 : n = 1
      · subst h1; rw [hw.const1, hv.const1]
      by_cases hi : n ∈ N.inputs
      · obtain ⟨k, hk⟩ := List.mem_iff_getElem?.1 hi
        rw [hw.input k n hk, hv.input k n hk]
      · obtain ⟨nd, hnd⟩ : ∃ nd, N.nodes[n]? = some nd := ⟨_, List.getElem?_eq_getElem hn⟩
        obtain ⟨_, g2, f, g3, _⟩ := hN.gate n nd hnd (by omega) hi
        have hl : N.IsLut n nd.children f := ⟨by omega, hi, nd, hnd, rfl, g3⟩
        rw [hw.lut n _ f ((subst_isLut N old new n _ f).2 ⟨_, hl, rfl⟩), hv.lut _ _ _ hl]
        congr 1
        apply args_replaceIn
        intro c hc
        have := g2 c hc
        have hbc : ¬ Below N c old := fun hbc => hb (Below.step hl hc hbc)
        rw [if_neg (by rintro rfl; exact hbc (Below.refl _))]
        exact (ih c this (by omega) hbc).symm
  have hwn := low new hlt hnew
  refine ⟨⟨by simp, fun h => ?_, fun h => ?_, fun k n hk hn => ?_, fun n cs f hl hn => ?_⟩, hwn⟩
  · simp only [if_neg h]; exact hw.const0
  · simp only [if_neg h]; exact hw.const1
  · simp only [if_neg hn]; exact hw.input k n hk
  · simp only [if_neg hn]
    rw [hw.lut n _ f ((subst_isLut N old new n _ f).2 ⟨_, hl, rfl⟩)]
    congr 1
    apply args_replaceIn
    intro c _
    by_cases hc : c = old
    · subst hc; simp [hwn]
    · simp [hc]

theorem Forced.unique {N : Klut} (hN : WF N) {old : Nat} {b : Bool} {x u u' : Nat → Bool} (hu : Forced N old b x u)
    (hu' : Forced N old b x u') : ∀ n, n < N.nodes.length → u n = u' n := by
  intro n
  induction n using Nat.strong_induction_on with
  | _ n ih =>
    intro hn
    by_cases ho : n = old
    · subst ho; rw [hu.forced, hu'.forced]
    by_cases h0 : n = 0
    · subst h0; rw [hu.const0 ho, hu'.const0 ho]
    by_cases h1 : n = 1
    · subst h1; rw [hu.const1 ho, hu'.const1 ho]
    by_cases hi : n ∈ N.inputs
    · obtain ⟨k, hk⟩ := List.mem_iff_getElem?.1 hi
      rw [hu.input k n hk ho, hu'.input k n hk ho]
    · obtain ⟨nd, hnd⟩ : ∃ nd, N.nodes[n]? = some nd := ⟨_, List.getElem?_eq_getElem hn⟩
      obtain ⟨_, g2, f, g3, _⟩ := hN.gate n nd hnd (by omega) hi
      have hl : N.IsLut n nd.children f := ⟨by omega, hi, nd, hnd, rfl, g3⟩
      rw [hu.lut _ _ _ hl ho, hu'.lut _ _ _ hl ho]
      congr 1
      apply args_congr
      intro c hc
      have := g2 c hc
      exact ih c this (by omega)

/-- What the new network computes: every node but the old one has the value that it had if the old node had the value of
the new one. -/
theorem C76_meaning_partial {N : Klut} (hN : Built N) {old new : Nat} (hlt : new < N.nodes.length)
    (hnew : ¬ Below N new old) {x v w u : Nat → Bool} (hv : Consistent N x v)
    (hw : Consistent (N.substituteNode old new) x w) (hu : Forced N old (v new) x u) :
    ∀ n, n < N.nodes.length → n ≠ old → w n = u n := by
  intro n hn ho
  have := (forced_of_subst hnew hN.wf hlt hv hw).1.unique hN.wf hu n hn
  simpa only [if_neg ho] using this

/-- If the two nodes have the same function then all nodes and all outputs keep their functions. -/
theorem C76_function_partial {N : Klut} (hN : Built N) {old new : Nat} (hlt : new < N.nodes.length)
    (hnew : ¬ Below N new old) (heq : ∀ x v, Consistent N x v → v old = v new) {x v w : Nat → Bool}
    (hv : Consistent N x v) (hw : Consistent (N.substituteNode old new) x w) :
    (∀ n, n < N.nodes.length → n ≠ old → w n = v n) ∧
    ∀ (k o o' : Nat), N.outputs[k]? = some o → (N.substituteNode old new).outputs[k]? = some o' → w o' = v o := by
  have hu : Forced N old (v new) x v :=
    ⟨heq x v hv, fun _ => hv.const0, fun _ => hv.const1, fun k n hk _ => hv.input k n hk, fun n cs f hl _ => hv.lut n cs f hl⟩
  have key := C76_meaning_partial hN hlt hnew hv hw hu
  refine ⟨key, ?_⟩
  intro k o o' ho ho'
  have h1 : (N.substituteNode old new).outputs[k]? = some (if o = old then new else o) := by
    simp [substituteNode, replaceIn, ho]
  rw [h1] at ho'
  obtain rfl := Option.some.inj ho'
  by_cases e : o = old
  · subst e
    rw [if_pos rfl, key new hlt (by rintro rfl; exact hnew (Below.refl _)), heq x v hv]
  · rw [if_neg e]
    exact key o (hN.wf.outputs o (List.mem_of_getElem? ho)) e

theorem Below.trans {N : Klut} {a b c : Nat} (h : Below N a b) (h' : Below N b c) : Below N a c := by
  induction h with
  | refl _ => exact h'
  | step hl hc _ ih => exact Below.step hl hc (ih h')

/-- a network whose fanins decrease in some rank has a valuation for all inputs -/
theorem exists_of_rank {N : Klut} (hi : ∀ n ∈ N.inputs, 2 ≤ n) (hnd : N.inputs.Nodup) {r : Nat → Nat}
    (hr : ∀ n cs f, N.IsLut n cs f → ∀ c ∈ cs, r c < r n) (x : Nat → Bool) : ∃ v, Consistent N x v := by
  classical
  let F : (n : Nat) → ((m : Nat) → r m < r n → Bool) → Bool := fun n rec =>
    if h : ∃ cs f, N.IsLut n cs f then
      h.choose_spec.choose.eval fun j => match h.choose[j]? with
        | some c => if hc : r c < r n then rec c hc else false
        | none => false
    else if n ∈ N.inputs then x (N.inputs.idxOf n) else n == 1
  let v : Nat → Bool := (measure r).wf.fix F
  have hv : ∀ n, v n = F n fun m _ => v m := fun n => WellFounded.fix_eq _ _ _
  have nolut : ∀ n, (n < 2 ∨ n ∈ N.inputs) → ¬ ∃ cs f, N.IsLut n cs f := by
    rintro n h ⟨cs, f, hl⟩
    rcases h with h | h
    · have := hl.1; omega
    · exact hl.2.1 h
  refine ⟨v, ?_, ?_, ?_, ?_⟩
  · rw [hv]; simp only [F]
    rw [dif_neg (nolut 0 (by omega)), if_neg (fun h => by have := hi 0 h; omega)]; rfl
  · rw [hv]; simp only [F]
    rw [dif_neg (nolut 1 (by omega)), if_neg (fun h => by have := hi 1 h; omega)]; rfl
  · intro k n hk
    have hm := List.mem_of_getElem? hk
    rw [hv]; simp only [F]
    rw [dif_neg (nolut n (Or.inr hm)), if_pos hm]
    congr 1
    obtain ⟨hlt, rfl⟩ := List.getElem?_eq_some_iff.1 hk
    exact hnd.idxOf_getElem k hlt
  · intro n cs f hl
    have he : ∃ cs f, N.IsLut n cs f := ⟨cs, f, hl⟩
    rw [hv]; simp only [F]
    rw [dif_pos he]
    obtain ⟨h1, h2⟩ := he.choose_spec.choose_spec.unique hl
    rw [h2]
    congr 1
    funext j
    unfold args
    rw [h1]
    cases hj : cs[j]? with
    | none => rfl
    | some c => dsimp only; rw [dif_pos (hr n cs f hl c (List.mem_of_getElem? hj))]

/-- If the old node is not below the new one, the result is acyclic, and every input assignment has exactly one valuation. -/
theorem C76_acyclic_partial {N : Klut} (hN : Built N) {old new : Nat} (hlt : new < N.nodes.length)
    (hnew : ¬ Below N new old) :
    (∃ r : Nat → Nat, ∀ n cs f, (N.substituteNode old new).IsLut n cs f → ∀ c ∈ cs, r c < r n) ∧
    ∀ x, ∃ w, Consistent (N.substituteNode old new) x w ∧
      ∀ w', Consistent (N.substituteNode old new) x w' → ∀ n, n < N.nodes.length → n ≠ old → w' n = w n := by
  classical
  have hr : ∀ n cs f, (N.substituteNode old new).IsLut n cs f → ∀ c ∈ cs,
      (if Below N c old then N.nodes.length + c else c) < if Below N n old then N.nodes.length + n else n := by
    intro n cs f hl c hc
    obtain ⟨cs0, hl0, rfl⟩ := (subst_isLut N old new n cs f).1 hl
    obtain ⟨c0, hc0, rfl⟩ := List.mem_map.1 hc
    have hlow := (hN.wf.lut hl0).2.2.1 c0 hc0
    have hnl := (hN.wf.lut hl0).1
    by_cases e : c0 = old
    · subst e
      have hb : Below N n c0 := Below.step hl0 hc0 (Below.refl _)
      simp only [if_pos, if_neg hnew, if_pos hb]
      omega
    · simp only [if_neg e]
      by_cases hb : Below N c0 old
      · have hb' : Below N n old := Below.step hl0 hc0 hb
        simp only [if_pos hb, if_pos hb']; omega
      · simp only [if_neg hb]
        split <;> omega
  refine ⟨⟨_, hr⟩, fun x => ?_⟩
  obtain ⟨w, hw⟩ := exists_of_rank (N := N.substituteNode old new) (fun n hn => (hN.wf.inputs n hn).1) hN.wf.inputsNodup hr x
  refine ⟨w, hw, fun w' hw' n hn ho => ?_⟩
  obtain ⟨v, hv⟩ := hN.wf.exists x
  have h1 := (forced_of_subst hnew hN.wf hlt hv hw).1
  have h2 := (forced_of_subst hnew hN.wf hlt hv hw').1
  have := h2.unique hN.wf h1 n hn
  simpa only [if_neg ho] using this

/-! ### a network that meets the hypotheses -/

/-- inputs 2, 3; LUT 4 = 2 and 3; LUT 5 = not 4; LUT 6 = 2 and 3 again; LUT 7 = 5 or 6; outputs 6 and 7 -/
def exSubst : Klut :=
  (((((Klut.empty.createPi.1.createPi.1.createAnd 2 3).1.createNot 4).1.createAnd 2 3).1.createOr 5 6).1.createPo 6).createPo 7

theorem exSubst_built : Built exSubst := by
  unfold exSubst
  refine Built.po (Built.po (Built.or (Built.and (Built.not (Built.and Built.empty.pi.pi ?_ ?_) ?_) ?_ ?_) ?_ ?_) ?_) ?_ <;>
    decide +kernel

theorem below_le {N : Klut} (hN : Built N) {n m : Nat} (h : Below N n m) : m ≤ n := by
  induction h with
  | refl n => exact Nat.le_refl _
  | step hl hc _ ih => have := (hN.wf.lut hl).2.2.1 _ hc; omega

example : ¬ Below exSubst 4 6 := fun h => by have := below_le exSubst_built h; omega

example : ∀ x v, Consistent exSubst x v → v 6 = v 4 := by
  intro x v hv
  have h4 : exSubst.IsLut 4 [2, 3] (ofWord 2 0x8) :=
    ⟨by omega, by decide +kernel, ⟨[2, 3], 4, 1, 0#32⟩, by decide +kernel, rfl, by decide +kernel⟩
  have h6 : exSubst.IsLut 6 [2, 3] (ofWord 2 0x8) :=
    ⟨by omega, by decide +kernel, ⟨[2, 3], 4, 2, 0#32⟩, by decide +kernel, rfl, by decide +kernel⟩
  rw [hv.lut _ _ _ h4, hv.lut _ _ _ h6]

example : (exSubst.substituteNode 6 4).nodes.map (fun nd => (nd.children, nd.fo)) =
    [([], 0), ([], 0), ([], 2), ([], 2), ([2, 3], 3), ([4], 1), ([2, 3], 0), ([5, 4], 1)] ∧
    (exSubst.substituteNode 6 4).outputs = [4, 7] := by decide +kernel

/-! ### where the full statement fails -/

/-- If the old node is below the new one, the new node becomes its own fanin: replacing LUT 4 by its inverter 5 leaves a
network without any valuation. -/
theorem C76_violated_cycle : ∃ N old new, Built N ∧ old < N.nodes.length ∧ new < N.nodes.length ∧ old ≠ new ∧
    (N.substituteNode old new).IsLut new [new] (ofWord 1 1) ∧ ∀ x w, ¬ Consistent (N.substituteNode old new) x w := by
  have hl : (exSubst.substituteNode 4 5).IsLut 5 [5] (ofWord 1 1) :=
    ⟨by omega, by decide +kernel, ⟨[5], 3, 2, 0#32⟩, by decide +kernel, rfl, by decide +kernel⟩
  refine ⟨exSubst, 4, 5, exSubst_built, by decide +kernel, by decide +kernel, by omega, hl, ?_⟩
  intro x w hw
  have := hw.lut _ _ _ hl
  rw [ofWord, TT.eval_ofFn] at this
  revert this
  cases h : w 5 <;> simp [TT.pos, args, h]
  decide

/-- Replacing a node by itself sets its fan-out count to 0 although it is still read. -/
theorem C76_violated_same : ∃ N old nd, Built N ∧ (N.substituteNode old old).nodes[old]? = some nd ∧ nd.fo = 0 ∧
    (N.substituteNode old old).outputs.count old = 1 :=
  ⟨exSubst, 6, ⟨[2, 3], 4, 0, 0#32⟩, exSubst_built, by decide +kernel, rfl, by decide +kernel⟩

/-- The order of the nodes is no longer topological: after replacing LUT 4 by its copy 6, LUT 5 reads LUT 6. -/
theorem C76_violated_order : ∃ N old new, Built N ∧ ¬ Below N new old ∧ (∀ x v, Consistent N x v → v old = v new) ∧
    (N.substituteNode old new).IsLut 5 [6] (ofWord 1 1) := by
  have h4 : exSubst.IsLut 4 [2, 3] (ofWord 2 0x8) :=
    ⟨by omega, by decide +kernel, ⟨[2, 3], 4, 1, 0#32⟩, by decide +kernel, rfl, by decide +kernel⟩
  have h6 : exSubst.IsLut 6 [2, 3] (ofWord 2 0x8) :=
    ⟨by omega, by decide +kernel, ⟨[2, 3], 4, 2, 0#32⟩, by decide +kernel, rfl, by decide +kernel⟩
  refine ⟨exSubst, 4, 6, exSubst_built, ?_, ?_,
    ⟨by omega, by decide +kernel, ⟨[6], 3, 1, 0#32⟩, by decide +kernel, rfl, by decide +kernel⟩⟩
  · intro h
    cases h with
    | step hl hc hb =>
      obtain ⟨rfl, _⟩ := hl.unique h6
      have := below_le exSubst_built hb
      simp at hc; omega
  · intro x v hv
    rw [hv.lut _ _ _ h4, hv.lut _ _ _ h6]

end Verif.Klut
