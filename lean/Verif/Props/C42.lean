import Verif.Aig.Miter
import Verif.Props.C14

set_option autoImplicit false

/-!
# C42: the miter of two networks
-/

namespace Verif.Aig

theorem xorOutputs_spec : ∀ (l1 l2 : List Sig) (D : Aig), l1.length = l2.length → WF D →
    (∀ s ∈ l1, D.Valid s) → (∀ s ∈ l2, D.Valid s) →
    ∃ D' xs, xorOutputs l1 l2 D = some (D', xs) ∧ Grown D D' ∧ (∀ s ∈ xs, D'.Valid s) ∧
      ∀ v, D'.Models v → xs.map (·.val v) = List.zipWith (fun a b => Bool.xor (a.val v) (b.val v)) l1 l2 := by
  intro l1
  induction l1 with
  | nil => intro l2 D _ h _ _; exact ⟨D, [], rfl, .refl h, by simp, by simp⟩
  | cons o1 l1 ih =>
    intro l2 D hl h h1 h2
    cases l2 with
    | nil => simp at hl
    | cons o2 l2 =>
      have hs := createXor_spec h (h1 o1 (by simp)) (h2 o2 (by simp))
      obtain ⟨D', xs, e, g, hv, hval⟩ := ih l2 (D.createXor o1 o2).1 (by simpa using hl) hs.wf
        (fun s hs' => hs.ext.valid (h1 s (by simp [hs']))) (fun s hs' => hs.ext.valid (h2 s (by simp [hs'])))
      refine ⟨D', (D.createXor o1 o2).2 :: xs, by simp [xorOutputs, e], hs.grown.trans g, ?_, ?_⟩
      · intro s hs'
        rcases List.mem_cons.1 hs' with rfl | h
        · exact g.ext.valid hs.valid
        · exact hv s h
      · intro v hm
        simp only [List.map_cons, List.zipWith_cons_cons, hval v hm]
        rw [hs.val v (g.ext.models hm)]

theorem foldr_or_true (v : Nat → Bool) : ∀ xs : List Sig, xs.foldr (fun s acc => s.val v || acc) false = true ↔
    true ∈ xs.map (·.val v) := by
  intro xs
  induction xs with
  | nil => simp
  | cons s xs ih =>
    simp only [List.foldr_cons, Bool.or_eq_true, List.map_cons, List.mem_cons, ih]
    constructor <;> rintro (h | h) <;> simp [h]

/-- C42, first part: networks with different interfaces have no miter. -/
theorem C42_mismatch (N1 N2 : Aig) (f : Nat) (h : N1.numPis ≠ N2.numPis ∨ N1.numPos ≠ N2.numPos) :
    miter N1 N2 f = some none := by
  rw [miter, if_pos h]

/-- the statement needs only that the traversals of the two networks come back -/
theorem miter_core (N1 N2 : Aig) (h1 : Source N1) (h2 : Source N2)
    (hi1 : N1.inputs.length = N1.numPis) (hi2 : N2.inputs.length = N2.numPis)
    (ho1 : N1.outputs.length = N1.numPos) (ho2 : N2.outputs.length = N2.numPos)
    (hpi : N1.numPis = N2.numPis) (hpo : N1.numPos = N2.numPos) (f : Nat) {order1 order2 : List Nat}
    (hf1 : Topo.topoView N1 f = some order1) (hf2 : Topo.topoView N2 f = some order2) :
    ∃ M out, miter N1 N2 f = some (some M) ∧ Built M ∧ M.inputs.length = N1.numPis ∧ M.numPis = N1.numPis ∧
      M.outputs = [out] ∧ M.numPos = 1 ∧
      ∀ x v v1 v2, M.Consistent x v → LiveModels N1 v1 → (∀ (k n : Nat), N1.inputs[k]? = some n → v1 n = x k) →
        LiveModels N2 v2 → (∀ (k n : Nat), N2.inputs[k]? = some n → v2 n = x k) →
        (out.val v = true ↔ ∃ (k : Nat) (a b : Sig), N1.outputs[k]? = some a ∧ N2.outputs[k]? = some b ∧
          a.val v1 ≠ b.val v2) := by
  obtain ⟨c1, c2, c3, c4, c5, c6, ct, c7, c8, c9, c10⟩ := cloneInputs_spec N1.numPis Aig.empty .empty rfl
  have i0 : Aig.empty.inputs.length = 0 := rfl
  have i1 : Aig.empty.numPis = 0 := rfl
  have i2 : Aig.empty.outputs = [] := rfl
  have i3 : Aig.empty.numPos = 0 := rfl
  rw [i0] at c4 c10
  rw [i1] at c3
  rw [i2] at c5
  rw [i3] at c6
  obtain ⟨D1, m1, e1, g1, hv1, hm1⟩ := cleanupImpl_core (D0 := (cloneInputs N1.numPis Aig.empty).1) h1 c1.wf c2
    (by omega) (fun s hs => (c9 s hs).1) hf1
  obtain ⟨D2, m2, e2, g2, hv2, hm2⟩ := cleanupImpl_core (D0 := D1) h2 g1.wf (c2.trans hpi) (by omega)
    (fun s hs => g1.ext.valid (c9 s hs).1) hf2
  obtain ⟨D3, xs, e3, g3, hv3, hx⟩ := xorOutputs_spec (N1.outputs.map m1.img) (N2.outputs.map m2.img) D2
    (by simp [ho1, ho2, hpo]) g2.wf
    (fun s hs => by obtain ⟨t, _, rfl⟩ := List.mem_map.1 hs; exact g2.ext.valid (img_valid (hv1 _)))
    (fun s hs => by obtain ⟨t, _, rfl⟩ := List.mem_map.1 hs; exact img_valid (hv2 _))
  have hor := treeReduce_spec createOr (· || ·) false Bool.or_assoc Bool.or_false Bool.false_or
    (fun h _ _ ha hb => createOr_spec h ha hb) xs.length xs le_rfl g3.wf hv3
  have hB : Built (createNaryOr D3 xs).1 := hor.built (g3.built (g2.built (g1.built c1)))
  have g := ((g1.trans g2).trans g3).trans hor.grown
  refine ⟨(createNaryOr D3 xs).1.createPo (createNaryOr D3 xs).2, (createNaryOr D3 xs).2, ?_,
    .po hB hor.valid, ?_, ?_, ?_, ?_, ?_⟩
  · simp only [miter, miterXors, if_neg (show ¬ (N1.numPis ≠ N2.numPis ∨ N1.numPos ≠ N2.numPos) by omega), cleanupInto, e1, e2,
      List.take_of_length_le (show N1.outputs.length ≤ N1.numPos by omega),
      List.take_of_length_le (show N2.outputs.length ≤ N2.numPos by omega), e3]
  · exact (congrArg List.length g.inputs).trans (by rw [c4]; omega)
  · exact g.numPis.trans (by rw [c3]; omega)
  · exact (congrArg (· ++ [(createNaryOr D3 xs).2]) (g.outputs.trans c5)).trans rfl
  · exact (congrArg (· + 1) (g.numPos.trans c6)).trans rfl
  · intro x v v1 v2 hv hl1 hin1 hl2 hin2
    have hvM := (ext_createPo _ _).models hv.models
    have hleaf : ∀ (k : Nat) (s : Sig), (cloneInputs N1.numPis Aig.empty).2[k]? = some s → s.val v = x k := by
      intro k s hs
      have q1 := c10 k s hs
      rw [Nat.zero_add] at q1
      have q2 := hv.input k s.index ((congrArg (·[k]?) g.inputs).trans q1)
      have q3 := (c9 s (List.mem_of_getElem? hs)).2
      simp [Sig.val, q3, q2]
    have q1 : ∀ o ∈ N1.outputs, (m1.img o).val v = o.val v1 := hm1 v1 v hl1
      (((g2.trans g3).trans hor.grown).ext.models hvM)
      (fun k n s hk hs => by rw [hin1 k n hk, hleaf k s hs])
      (fun k n hk hle => by have := lt_of_getElem? hk; omega)
    have q2 : ∀ o ∈ N2.outputs, (m2.img o).val v = o.val v2 := hm2 v2 v hl2
      ((g3.trans hor.grown).ext.models hvM)
      (fun k n s hk hs => by rw [hin2 k n hk, hleaf k s hs])
      (fun k n hk hle => by have := lt_of_getElem? hk; omega)
    have q3 := hor.val v hvM
    have q4 := hx v (hor.ext.models hvM)
    change (treeReduce createOr (Sig.const false) D3 xs).2.val v = true ↔ _
    rw [q3, foldr_or_true, q4, List.mem_iff_getElem?]
    constructor
    · rintro ⟨k, hk⟩
      rw [List.getElem?_zipWith, List.getElem?_map, List.getElem?_map] at hk
      cases ha : N1.outputs[k]? with
      | none => simp [ha] at hk
      | some a =>
        cases hb : N2.outputs[k]? with
        | none => simp [ha, hb] at hk
        | some b =>
          simp only [ha, hb, Option.map_some, Option.some.injEq] at hk
          rw [q1 a (List.mem_of_getElem? ha), q2 b (List.mem_of_getElem? hb)] at hk
          exact ⟨k, a, b, ha, hb, by simpa using hk⟩
    · rintro ⟨k, a, b, ha, hb, hne⟩
      refine ⟨k, ?_⟩
      rw [List.getElem?_zipWith, List.getElem?_map, List.getElem?_map, ha, hb]
      simp only [Option.map_some, Option.some.injEq]
      rw [q1 a (List.mem_of_getElem? ha), q2 b (List.mem_of_getElem? hb)]
      simpa using hne

/-- C42 for any two acyclic networks without registers (in any index order, with or without dead nodes):
if the interfaces agree, the miter exists, is a constructed network with the same number of inputs and one
output, and its output is 1 under exactly those assignments `x` on which some pair of outputs differs. -/
theorem C42_miter (N1 N2 : Aig) (r1 r2 : Nat → Nat) (h1 : Readable N1 r1) (h2 : Readable N2 r2)
    (hi1 : N1.inputs.length = N1.numPis) (hi2 : N2.inputs.length = N2.numPis)
    (ho1 : N1.outputs.length = N1.numPos) (ho2 : N2.outputs.length = N2.numPos)
    (hpi : N1.numPis = N2.numPis) (hpo : N1.numPos = N2.numPos) (f : Nat)
    (hf1 : ∀ o ∈ N1.outputs, r1 o.index < f) (hf2 : ∀ o ∈ N2.outputs, r2 o.index < f) :
    ∃ M out, miter N1 N2 f = some (some M) ∧ Built M ∧ M.inputs.length = N1.numPis ∧ M.numPis = N1.numPis ∧
      M.outputs = [out] ∧ M.numPos = 1 ∧
      ∀ x v v1 v2, M.Consistent x v → LiveModels N1 v1 → (∀ (k n : Nat), N1.inputs[k]? = some n → v1 n = x k) →
        LiveModels N2 v2 → (∀ (k n : Nat), N2.inputs[k]? = some n → v2 n = x k) →
        (out.val v = true ↔ ∃ (k : Nat) (a b : Sig), N1.outputs[k]? = some a ∧ N2.outputs[k]? = some b ∧
          a.val v1 ≠ b.val v2) := by
  obtain ⟨_, _, e1, _⟩ := Topo.C15_topo N1 r1 h1.trav f hf1
  obtain ⟨_, _, e2, _⟩ := Topo.C15_topo N2 r2 h2.trav f hf2
  exact miter_core N1 N2 h1.source h2.source hi1 hi2 ho1 ho2 hpi hpo f e1 e2

/-- C42 for constructed networks: the miter output is constant 0 exactly when the networks are equivalent. -/
theorem C42_built (N1 N2 : Aig) (h1 : Built N1) (h2 : Built N2)
    (hi1 : N1.inputs.length = N1.numPis) (hi2 : N2.inputs.length = N2.numPis)
    (ho1 : N1.outputs.length = N1.numPos) (ho2 : N2.outputs.length = N2.numPos)
    (hpi : N1.numPis = N2.numPis) (hpo : N1.numPos = N2.numPos) (f : Nat) (hf1 : N1.size ≤ f) (hf2 : N2.size ≤ f) :
    ∃ M out, miter N1 N2 f = some (some M) ∧ Built M ∧ M.inputs.length = N1.numPis ∧ M.numPis = N1.numPis ∧
      M.outputs = [out] ∧ M.numPos = 1 ∧
      ∀ x v v1 v2, M.Consistent x v → N1.Consistent x v1 → N2.Consistent x v2 →
        (out.val v = true ↔ N1.outputs.map (·.val v1) ≠ N2.outputs.map (·.val v2)) := by
  obtain ⟨M, out, e, m1, m2, m3, m4, m5, hM⟩ := C42_miter N1 N2 id id h1.readable h2.readable hi1 hi2 ho1 ho2 hpi hpo f
    (fun o ho => by have := h1.wf.outputs o ho; simp only [Valid, size, id] at *; omega)
    (fun o ho => by have := h2.wf.outputs o ho; simp only [Valid, size, id] at *; omega)
  refine ⟨M, out, e, m1, m2, m3, m4, m5, ?_⟩
  intro x v v1 v2 hv hv1 hv2
  rw [hM x v v1 v2 hv (hv1.models.live h1.wf) hv1.input (hv2.models.live h2.wf) hv2.input]
  constructor
  · rintro ⟨k, a, b, ha, hb, hne⟩ he
    have := congrArg (·[k]?) he
    simp only [List.getElem?_map, ha, hb, Option.map_some, Option.some.injEq] at this
    exact hne this
  · intro hne
    by_contra hno
    apply hne
    apply List.ext_getElem?
    intro k
    rw [List.getElem?_map, List.getElem?_map]
    by_cases hk : k < N1.outputs.length
    · obtain ⟨a, ha⟩ : ∃ a, N1.outputs[k]? = some a := ⟨_, List.getElem?_eq_getElem hk⟩
      obtain ⟨b, hb⟩ : ∃ b, N2.outputs[k]? = some b := ⟨_, List.getElem?_eq_getElem (by omega)⟩
      rw [ha, hb]
      simp only [Option.map_some, Option.some.injEq]
      by_contra hc
      exact hno ⟨k, a, b, ha, hb, hc⟩
    · rw [List.getElem?_eq_none (by omega), List.getElem?_eq_none (by omega)]; rfl

/-- with one output no OR is needed -/
theorem miter_single {N1 N2 : Aig} {f : Nat} {D : Aig} {x : Sig} (h1 : N1.numPis = N2.numPis)
    (h2 : N1.numPos = N2.numPos) (e : miterXors N1 N2 f = some (D, [x])) :
    miter N1 N2 f = some (some (D.createPo x)) := by
  rw [miter, if_neg (by simp [h1, h2]), e]
  simp only [createNaryOr]
  rw [treeReduce]

/-! ### examples -/

/-- the hypotheses are met by two different networks over the same two inputs -/
example : ∃ M out, miter dangling demo 9 = some (some M) ∧ M.outputs = [out] ∧ Built M := by
  obtain ⟨M, out, e, h, _, _, ho, _⟩ := C42_built dangling demo dangling_built demo_built (by decide) (by decide)
    (by decide) (by decide) (by decide) (by decide) 9 (by decide) (by decide)
  exact ⟨M, out, e, ho, h⟩

example : miter demo Aig.empty 9 = some none := C42_mismatch _ _ _ (by decide)

end Verif.Aig
