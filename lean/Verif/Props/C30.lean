import Verif.Klut.Inv

set_option autoImplicit false

/-!
# C30: LUT network gates compute their function
# C51: bookkeeping of LUT networks
-/

namespace Verif.Klut

/-- `r` is `N` with (at most) one more node; it has the signal `s`, whose value is `F` of the node values;
all other nodes keep their values and the interface is unchanged. -/
structure Adds (N : Klut) (r : Klut × Nat) (F : (Nat → Bool) → Bool) : Prop where
  built : Built r.1
  valid : r.2 < r.1.nodes.length
  inputs : r.1.inputs = N.inputs
  outputs : r.1.outputs = N.outputs
  value : ∀ x v, Consistent r.1 x v → v r.2 = F v
  old : ∀ x v, Consistent r.1 x v → Consistent N x v
  new : ∀ x v, Consistent N x v → ∃ w, Consistent r.1 x w ∧ ∀ n, n < N.nodes.length → w n = v n

theorem createLit_isLut (N : Klut) (cs : List Nat) (lit : Nat) (f : TT) (h2 : 2 ≤ N.nodes.length)
    (hi : N.nodes.length ∉ N.inputs) (hl : N.cache.lookup lit = some f) :
    (N.createLit cs lit).1.IsLut N.nodes.length cs f :=
  ⟨h2, hi, _, createLit_get_new N cs lit, rfl, hl⟩

theorem createLit_old (N : Klut) (cs : List Nat) (lit : Nat) {n : Nat} {ds : List Nat} {g : TT} (h : N.IsLut n ds g) :
    (N.createLit cs lit).1.IsLut n ds g := by
  obtain ⟨h2, hni, nd, hnd, rfl, hg⟩ := h
  refine ⟨h2, hni, { nd with fo := nd.fo + cs.count n }, ?_, ?_, ?_⟩
  · rw [createLit_get_lt _ _ _ _ (lt_of_get hnd), hnd]; rfl
  · rfl
  · exact hg

theorem createLit_adds {N M : Klut} (hN : WF N) (cs : List Nat) (lit : Nat) (f : TT)
    (hB : Built (M.createLit cs lit).1) (hn : M.nodes = N.nodes) (hi : M.inputs = N.inputs) (ho : M.outputs = N.outputs)
    (hc : ∀ l u, N.cache.lookup l = some u → M.cache.lookup l = some u) (hl : M.cache.lookup lit = some f) :
    Adds N (M.createLit cs lit) (fun v => f.eval (args v cs)) := by
  have hold : ∀ x v, Consistent (M.createLit cs lit).1 x v → Consistent N x v := by
    intro x v hv
    refine ⟨hv.const0, hv.const1, ?_, ?_⟩
    · intro k n hk
      apply hv.input k n
      show M.inputs[k]? = some n
      rw [hi]; exact hk
    · rintro n ds g ⟨h2, hni, nd, hnd, hd, hg⟩
      apply hv.lut
      apply createLit_old
      exact ⟨h2, by rw [hi]; exact hni, nd, by rw [hn]; exact hnd, hd, hc _ _ hg⟩
  refine ⟨hB, ?_, hi, ho, ?_, hold, ?_⟩
  · rw [createLit_length]; exact Nat.lt_succ_self _
  · intro x v hv
    apply hv.lut
    apply createLit_isLut
    · rw [hn]; exact hN.len
    · rw [hn, hi]; intro hm; have := hN.inputs _ hm; omega
    · exact hl
  · intro x v hv
    obtain ⟨w, hw⟩ := hB.wf.exists x
    exact ⟨w, hw, fun n hlt => hN.unique (hold x w hw) hv n hlt⟩

/-- C30, `create_node` with any table: the new signal has the value of the table on the values of the
children (also without children), nothing else changes. -/
theorem C30_create_node {N : Klut} (hN : Built N) (cs : List Nat) (f : TT) (hc : ∀ c ∈ cs, c < N.nodes.length)
    (hf : f.WF) (hn : f.n = cs.length) : Adds N (N.createNode cs f) (fun v => f.eval (args v cs)) := by
  have hB : Built (N.createNode cs f).1 := .node hN hc hf hn
  rw [createNode] at hB ⊢
  by_cases h0 : cs.length = 0
  · rw [if_pos h0] at hB ⊢
    refine ⟨hN, ?_, rfl, rfl, ?_, fun _ _ h => h, fun x v hv => ⟨v, hv, fun _ _ => rfl⟩⟩
    · have := hN.wf.len
      unfold getConstant
      dsimp only
      split <;> omega
    · intro x v hv
      obtain ⟨n, bits⟩ := f
      simp only at hn
      subst hn
      rw [h0] at hf ⊢
      obtain ⟨b, rfl⟩ := List.length_eq_one_iff.1 (hf : bits.length = 1)
      cases b
      · exact hv.const0
      · exact hv.const1
  · rw [if_neg h0] at hB ⊢
    obtain ⟨c1, c2, c3, _⟩ := TTCache.insert_spec N.cache hN.wf.cache f hf
    exact createLit_adds hN.wf cs _ f hB rfl rfl rfl c3 c2

theorem word_eval (n w : Nat) (x : Nat → Bool) : (ofWord n w).eval x = w.testBit (TT.pos x n) := TT.eval_ofFn _ _ _

/-- C30, `create_not` -/
theorem C30_not {N : Klut} (hN : Built N) (a : Nat) (ha : a < N.nodes.length) :
    Adds N (N.createNot a) (fun v => !v a) := by
  have := createLit_adds (M := N) hN.wf [a] 3 _ (.not hN ha) rfl rfl rfl (fun _ _ h => h) (hN.wf.tables _ _ lit_not)
  have e : (fun v => (ofWord 1 1).eval (args v [a])) = fun v => !v a := by
    funext v
    rw [word_eval]
    have : ∀ x : Bool, Nat.testBit 1 (0 + if x then 2 ^ 0 else 0) = !x := by decide
    exact this _
  rw [e] at this
  exact this

/-- the two-input gates -/
theorem two_args (w : Nat) (a b : Nat) (F : Bool → Bool → Bool)
    (h : ∀ x y : Bool, w.testBit ((0 + if x then 2 ^ 0 else 0) + if y then 2 ^ 1 else 0) = F x y) :
    (fun v => (ofWord 2 w).eval (args v [a, b])) = fun v => F (v a) (v b) := by
  funext v
  rw [word_eval]
  exact h _ _

/-- the three-input gates -/
theorem three_args (w : Nat) (a b c : Nat) (F : Bool → Bool → Bool → Bool)
    (h : ∀ x y z : Bool, w.testBit (((0 + if x then 2 ^ 0 else 0) + if y then 2 ^ 1 else 0) + if z then 2 ^ 2 else 0) = F x y z) :
    (fun v => (ofWord 3 w).eval (args v [a, b, c])) = fun v => F (v a) (v b) (v c) := by
  funext v
  rw [word_eval]
  exact h _ _ _

/-- C30, the two-input gates -/
theorem C30_binary {N : Klut} (hN : Built N) (a b : Nat) (ha : a < N.nodes.length) (hb : b < N.nodes.length) :
    Adds N (N.createAnd a b) (fun v => v a && v b) ∧ Adds N (N.createOr a b) (fun v => v a || v b) ∧
    Adds N (N.createLt a b) (fun v => !v a && v b) ∧ Adds N (N.createLe a b) (fun v => !v a || v b) ∧
    Adds N (N.createXor a b) (fun v => Bool.xor (v a) (v b)) := by
  refine ⟨?_, ?_, ?_, ?_, ?_⟩
  · have := createLit_adds (M := N) hN.wf [a, b] 4 _ (.and hN ha hb) rfl rfl rfl (fun _ _ h => h) (hN.wf.tables _ _ lit_and)
    rw [two_args 8 a b (fun x y => x && y) (by decide)] at this
    exact this
  · have := createLit_adds (M := N) hN.wf [a, b] 6 _ (.or hN ha hb) rfl rfl rfl (fun _ _ h => h) (hN.wf.tables _ _ lit_or)
    rw [two_args 0xe a b (fun x y => x || y) (by decide)] at this
    exact this
  · have := createLit_adds (M := N) hN.wf [a, b] 8 _ (.lt hN ha hb) rfl rfl rfl (fun _ _ h => h) (hN.wf.tables _ _ lit_lt)
    rw [two_args 4 a b (fun x y => !x && y) (by decide)] at this
    exact this
  · have := createLit_adds (M := N) hN.wf [a, b] 11 _ (.le hN ha hb) rfl rfl rfl (fun _ _ h => h) (hN.wf.tables _ _ lit_le)
    rw [two_args 0xd a b (fun x y => !x || y) (by decide)] at this
    exact this
  · have := createLit_adds (M := N) hN.wf [a, b] 12 _ (.xor hN ha hb) rfl rfl rfl (fun _ _ h => h) (hN.wf.tables _ _ lit_xor)
    rw [two_args 6 a b (fun x y => Bool.xor x y) (by decide)] at this
    exact this

/-- C30, the three-input gates -/
theorem C30_ternary {N : Klut} (hN : Built N) (a b c : Nat) (ha : a < N.nodes.length) (hb : b < N.nodes.length)
    (hc : c < N.nodes.length) :
    Adds N (N.createMaj a b c) (fun v => (v a && v b) || (v a && v c) || (v b && v c)) ∧
    Adds N (N.createIte a b c) (fun v => if v a then v b else v c) ∧
    Adds N (N.createXor3 a b c) (fun v => Bool.xor (Bool.xor (v a) (v b)) (v c)) := by
  refine ⟨?_, ?_, ?_⟩
  · have := createLit_adds (M := N) hN.wf [a, b, c] 14 _ (.maj hN ha hb hc) rfl rfl rfl (fun _ _ h => h) (hN.wf.tables _ _ lit_maj)
    rw [three_args 0xe8 a b c (fun x y z => (x && y) || (x && z) || (y && z)) (by decide)] at this
    exact this
  · have := createLit_adds (M := N) hN.wf [a, b, c] 16 _ (.ite hN ha hb hc) rfl rfl rfl (fun _ _ h => h) (hN.wf.tables _ _ lit_ite)
    rw [three_args 0xd8 a b c (fun x y z => if x then y else z) (by decide)] at this
    exact this
  · have := createLit_adds (M := N) hN.wf [a, b, c] 18 _ (.xor3 hN ha hb hc) rfl rfl rfl (fun _ _ h => h) (hN.wf.tables _ _ lit_xor3)
    rw [three_args 0x96 a b c (fun x y z => Bool.xor (Bool.xor x y) z) (by decide)] at this
    exact this

/-- C30, constants: without children the table decides between the two constant nodes -/
theorem C30_constant {N : Klut} (b : Bool) (x v : Nat → Bool) (hv : Consistent N x v) : v (getConstant b) = b := by
  cases b
  · exact hv.const0
  · exact hv.const1

/-- every constructed network has exactly one valuation for every input assignment -/
theorem C30_values {N : Klut} (hN : Built N) (x : Nat → Bool) : ∃ v, Consistent N x v ∧
    ∀ w, Consistent N x w → ∀ n, n < N.nodes.length → w n = v n := by
  obtain ⟨v, hv⟩ := hN.wf.exists x
  exact ⟨v, hv, fun w hw => hN.wf.unique hw hv⟩

/-- two inputs, an inverter, a LUT `a & !b | c` and an output -/
def sample : Klut :=
  let r1 := Klut.empty.createPi
  let r2 := r1.1.createPi
  let r3 := r2.1.createNot r1.2
  let r4 := r3.1.createNode [r1.2, r3.2, r2.2] ⟨3, [false, true, false, false, true, true, true, true]⟩
  r4.1.createPo r4.2

theorem sample_built : Built sample := by
  have h1 : Built Klut.empty.createPi.1 := .pi .empty
  have h2 : Built Klut.empty.createPi.1.createPi.1 := .pi h1
  have h3 : Built (Klut.empty.createPi.1.createPi.1.createNot 2).1 := .not h2 (by decide)
  refine .po (.node h3 ?_ (by unfold TT.WF; decide) rfl) ?_
  · decide
  · decide +kernel

example : sample.gates = [4, 5] ∧ sample.outputs = [5] ∧ sample.nodeFunction 4 = some (ofWord 1 1) := by decide +kernel

/-- C51: fan-out counts are exact, `num_gates` counts the nodes visited by `foreach_gate`, fanins precede
their LUT, a LUT has as many fanins as its function has variables, and the inputs are exactly the nodes marked as
such. -/
theorem C51_bookkeeping {N : Klut} (hN : Built N) :
    (∀ n nd, N.nodes[n]? = some nd → nd.fo = (N.nodes.map fun k => k.children.count n).sum + N.outputs.count n) ∧
    (∀ n, n ∈ N.gates ↔ ∃ cs f, N.IsLut n cs f) ∧
    N.numGates = N.gates.length ∧
    (∀ n cs f, N.IsLut n cs f → (∀ c ∈ cs, c < n) ∧ f.n = cs.length ∧ N.fanins n = some cs ∧ N.nodeFunction n = some f) ∧
    (∀ n, n < N.nodes.length → (N.isCi n = true ↔ n ∈ N.inputs)) := by
  have h := hN.wf
  have hci : ∀ n, n < N.nodes.length → (N.isCi n = true ↔ n ∈ N.inputs) := by
    intro n hn
    obtain ⟨nd, hnd⟩ : ∃ nd, N.nodes[n]? = some nd := ⟨_, List.getElem?_eq_getElem hn⟩
    rw [isCi, hnd, ← h.flags n nd hnd]
    simp
  have hg : ∀ n, n ∈ N.gates ↔ n < N.nodes.length ∧ 2 ≤ n ∧ n ∉ N.inputs := by
    intro n
    rw [gates, List.mem_filter, List.mem_range]
    constructor
    · rintro ⟨h1, h2⟩
      rw [Bool.and_eq_true, decide_eq_true_iff, Bool.not_eq_true'] at h2
      exact ⟨h1, h2.1, fun hm => by rw [(hci n h1).2 hm] at h2; simp at h2⟩
    · rintro ⟨h1, h2, h3⟩
      refine ⟨h1, ?_⟩
      rw [Bool.and_eq_true, decide_eq_true_iff, Bool.not_eq_true']
      refine ⟨h2, ?_⟩
      rw [← Bool.not_eq_true]
      exact fun hc => h3 ((hci n h1).1 hc)
  refine ⟨h.fanout, ?_, ?_, ?_, hci⟩
  · intro n
    rw [hg]
    constructor
    · rintro ⟨h1, h2, h3⟩
      obtain ⟨nd, hnd⟩ : ∃ nd, N.nodes[n]? = some nd := ⟨_, List.getElem?_eq_getElem h1⟩
      obtain ⟨_, _, f, g3, _⟩ := h.gate n nd hnd h2 h3
      exact ⟨nd.children, f, h2, h3, nd, hnd, rfl, g3⟩
    · rintro ⟨cs, f, hl⟩
      exact ⟨(h.lut hl).1, hl.1, hl.2.1⟩
  · have hp : List.Perm (List.range N.nodes.length) ([0, 1] ++ N.inputs ++ N.gates) := by
      rw [List.perm_ext_iff_of_nodup List.nodup_range]
      · intro n
        simp only [List.mem_range, List.mem_append, List.mem_cons, List.not_mem_nil, or_false, hg]
        constructor
        · intro hn
          by_cases hi : n ∈ N.inputs
          · exact Or.inl (Or.inr hi)
          · by_cases h2 : 2 ≤ n
            · exact Or.inr ⟨hn, h2, hi⟩
            · left; left; omega
        · have := h.len
          rintro ((hn | hn) | hn)
          · omega
          · exact (h.inputs n hn).2
          · exact hn.1
      · rw [List.nodup_append, List.nodup_append]
        refine ⟨⟨by decide, h.inputsNodup, ?_⟩, List.Pairwise.filter _ List.nodup_range, ?_⟩
        · intro a ha b hb
          have := h.inputs b hb
          simp only [List.mem_cons, List.not_mem_nil, or_false] at ha
          omega
        · intro a ha b hb
          rw [hg] at hb
          rintro rfl
          simp only [List.mem_append, List.mem_cons, List.not_mem_nil, or_false] at ha
          rcases ha with ha | ha
          · omega
          · exact hb.2.2 ha
    have := hp.length_eq
    simp only [List.length_range, List.length_append, List.length_cons, List.length_nil] at this
    rw [numGates]
    omega
  · intro n cs f hl
    obtain ⟨l1, l2, l3, l4, l5⟩ := h.lut hl
    obtain ⟨h2, hni, nd, hnd, rfl, hf⟩ := hl
    refine ⟨l3, l5, ?_, ?_⟩
    · rw [fanins, if_neg, hnd]
      · rfl
      · rintro (e | e)
        · omega
        · exact hni ((hci n l1).1 e)
    · rw [nodeFunction, hnd]; exact hf

example : sample.numGates = 2 ∧ (sample.nodes.map (·.fo)) = [0, 0, 2, 1, 1, 1] := by decide +kernel

end Verif.Klut
