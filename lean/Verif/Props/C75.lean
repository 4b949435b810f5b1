import Verif.Klut.CleanupLutsProof

set_option autoImplicit false

/-!
# C75: `cleanup_luts` copies a LUT network without changing its outputs, and simplifies its LUTs

Full statement: for every LUT network the result has the same inputs, outputs, registers and functions, contains only LUTs
that some output depends on, and every LUT depends on every one of its fanins, none of which is constant.  The code drops
registers and reads a register output as constant 0 (`C75_violated_register`), and it keeps LUTs that are no longer read
(`C75_violated_dangling`), so the theorems below are about networks without registers and about the structure of the LUTs.
-/

namespace Verif.Klut

/-- no LUT has more than `k` fanins -/
def FaninBound (N : Klut) (k : Nat) : Prop := ∀ n cs f, N.IsLut n cs f → cs.length ≤ k

/-- no path through LUTs to an output has more than `d` LUTs -/
def DepthBound (N : Klut) (d : Nat) : Prop :=
  ∃ ℓ : Nat → Nat, (∀ n cs f, N.IsLut n cs f → ∀ c ∈ cs, ℓ c < ℓ n) ∧ ∀ o ∈ N.outputs, ℓ o ≤ d

/-- The function of every output is kept, with the inputs and outputs in the same order. -/
theorem C75_function_partial {N : Klut} (hN : Built N) (hpi : N.numPis = N.inputs.length) {vis : Nat → Nat}
    {travId fuel : Nat} (hvis : ∀ n, vis n ≤ travId) (hfuel : N.nodes.length ≤ fuel) :
    ∃ D, cleanupLuts N vis travId fuel = some D ∧ Built D ∧ D.inputs.length = N.inputs.length ∧ D.numPis = N.numPis ∧
      D.outputs.length = min N.numPos N.outputs.length ∧ D.numPos = D.outputs.length ∧ D.latches = [] ∧
      ∀ x v w, Consistent N x v → Consistent D x w →
        ∀ (k o o' : Nat), N.outputs[k]? = some o → D.outputs[k]? = some o' → w o' = v o := by
  obtain ⟨D0, D, m, order, _, hc, d1, d2, d3, d4, d5, _, _, hout, e⟩ := cleanupLuts_spec hN.wf hpi hvis hfuel
  obtain ⟨p1, p2, p3, p4, p5, p6, p7, p8⟩ := cloneOutputs_spec ((N.outputs.take N.numPos).map m) D hc.built (by
    intro o ho
    obtain ⟨o, _, rfl⟩ := List.mem_map.1 ho
    exact hc.valid o)
  refine ⟨_, e, p1, by rw [p2, hc.inputs, d1, hpi], by rw [p5, hc.numPis, d3], ?_, ?_, by rw [p7, hc.latches, d5], ?_⟩
  · rw [p3, hc.outputs, d2]; simp
  · rw [p6, p3, hc.outputs, hc.numPos, d2, d4]; simp
  · intro x v w hv hw k o o' ho ho'
    have hw' : Consistent D x w :=
      ⟨hw.const0, hw.const1, by rw [← p2]; exact hw.input, fun n cs f hl => hw.lut n cs f ((p8 n cs f).2 hl)⟩
    rw [p3, hc.outputs, d2, List.nil_append, List.getElem?_map, List.getElem?_take] at ho'
    split at ho'
    · rw [ho] at ho'
      obtain rfl := Option.some.inj ho'
      exact hc.val x v w hv hw' o (hout o (List.mem_of_getElem? ho))
    · simp at ho'

/-- Every LUT of the result depends on every one of its fanins, none of them is constant, and a LUT with one fanin is an
inverter. -/
theorem C75_tidy_partial {N D : Klut} (hN : Built N) (hpi : N.numPis = N.inputs.length) {vis : Nat → Nat}
    {travId fuel : Nat} (hvis : ∀ n, vis n ≤ travId) (hfuel : N.nodes.length ≤ fuel)
    (h : cleanupLuts N vis travId fuel = some D) {n : Nat} {cs : List Nat} {f : TT} (hl : D.IsLut n cs f) :
    cs ≠ [] ∧ f.n = cs.length ∧ (∀ c ∈ cs, c ≠ getConstant false ∧ c ≠ getConstant true) ∧
    (∀ j, j < cs.length → ∃ x y : Nat → Bool, (∀ k, k ≠ j → x k = y k) ∧ f.eval x ≠ f.eval y) ∧
    (cs.length = 1 → ∀ x, f.eval x = !x 0) := by
  obtain ⟨D0, D', m, order, _, hc, _, _, _, _, _, _, _, _, e⟩ := cleanupLuts_spec hN.wf hpi hvis hfuel
  rw [h] at e
  obtain rfl := Option.some.inj e
  obtain ⟨p1, _, _, _, _, _, _, p8⟩ := cloneOutputs_spec ((N.outputs.take N.numPos).map m) D' hc.built (by
    intro o ho
    obtain ⟨o, _, rfl⟩ := List.mem_map.1 ho
    exact hc.valid o)
  have ht := hc.tidy n cs f ((p8 n cs f).1 hl)
  refine ⟨ht.pos, (p1.wf.lut hl).2.2.2.2, ?_, ht.used, ht.single⟩
  intro c hcm
  have := ht.nonconst c hcm
  simp [getConstant]; omega

/-- The result has no more LUTs, no larger LUTs and no longer paths than the source. -/
theorem C75_cost_partial {N D : Klut} (hN : Built N) (hpi : N.numPis = N.inputs.length) {vis : Nat → Nat}
    {travId fuel : Nat} (hvis : ∀ n, vis n ≤ travId) (hfuel : N.nodes.length ≤ fuel)
    (h : cleanupLuts N vis travId fuel = some D) :
    D.numGates ≤ N.numGates ∧ (∀ k, FaninBound N k → FaninBound D k) ∧ ∀ d, DepthBound N d → DepthBound D d := by
  obtain ⟨D0, D', m, order, _, hc, d1, d2, d3, d4, d5, hlen, _, hout, e⟩ := cleanupLuts_spec hN.wf hpi hvis hfuel
  rw [h] at e
  obtain rfl := Option.some.inj e
  obtain ⟨p1, p2, p3, p4, _, _, _, p8⟩ := cloneOutputs_spec ((N.outputs.take N.numPos).map m) D' hc.built (by
    intro o ho
    obtain ⟨o, _, rfl⟩ := List.mem_map.1 ho
    exact hc.valid o)
  refine ⟨?_, ?_, ?_⟩
  · rw [numGates, numGates, p2, p4, hc.inputs, d1, hpi]; omega
  · intro k hk n cs f hl
    exact hc.size k hk n cs f ((p8 n cs f).1 hl)
  · rintro d ⟨ℓ, h1, h2⟩
    obtain ⟨ℓ', g1, g2⟩ := hc.level ℓ h1
    refine ⟨ℓ', fun n cs f hl => g1 n cs f ((p8 n cs f).1 hl), ?_⟩
    intro o' ho'
    rw [p3, hc.outputs, d2, List.nil_append] at ho'
    obtain ⟨o, ho, rfl⟩ := List.mem_map.1 ho'
    have ho2 := List.mem_of_mem_take ho
    have := g2 o (hout o ho2)
    have := h2 o ho2
    omega

/-- node `n` is an output or a fanin of a LUT that is live -/
inductive Live (N : Klut) : Nat → Prop
  | out {o} : o ∈ N.outputs → Live N o
  | fanin {n cs f c} : Live N n → N.IsLut n cs f → c ∈ cs → Live N c

/-- LUTs that no output reaches are not copied: the result has at most as many LUTs as the source has live ones. -/
theorem C75_live_partial {N D : Klut} (hN : Built N) (hpi : N.numPis = N.inputs.length) {vis : Nat → Nat}
    {travId fuel : Nat} (hvis : ∀ n, vis n ≤ travId) (hfuel : N.nodes.length ≤ fuel)
    (h : cleanupLuts N vis travId fuel = some D) (L : List Nat) (hL : ∀ n cs f, Live N n → N.IsLut n cs f → n ∈ L) :
    D.numGates ≤ L.length := by
  obtain ⟨D0, D', m, order, _, hc, d1, d2, d3, d4, d5, _, ⟨rest, r1, r2, r3⟩, hout, e⟩ := cleanupLuts_spec hN.wf hpi hvis hfuel
  rw [h] at e
  obtain rfl := Option.some.inj e
  obtain ⟨p1, p2, p3, p4, _, _, _, p8⟩ := cloneOutputs_spec ((N.outputs.take N.numPos).map m) D' hc.built (by
    intro o ho
    obtain ⟨o, _, rfl⟩ := List.mem_map.1 ho
    exact hc.valid o)
  have live : ∀ o n, Topo.Tfi N.topoFanins o n → Live N o → Live N n := by
    intro o n ht
    induction ht with
    | refl n => exact id
    | @step n k m hk _ ih =>
      intro hn
      refine ih ?_
      by_cases hg : n < 2 ∨ n ∈ N.inputs
      · rw [topoFanins_of_not hN.wf hg] at hk; simp at hk
      · push Not at hg
        have hlt : n < N.nodes.length := by
          by_contra hge
          have hnone : N.nodes[n]? = none := List.getElem?_eq_none (by omega)
          have hci : ¬ (n = 0 ∨ N.isCi n = true) := by
            rw [hN.wf.isCi]; rintro (e | e)
            · omega
            · exact hg.2 e
          rw [topoFanins, fanins, if_neg hci, hnone] at hk
          simp at hk
        obtain ⟨fs, t, hl, hf, _⟩ := hN.wf.isLut hg.1 hlt hg.2
        rw [topoFanins, hf] at hk
        exact hn.fanin hl hk
  have hsub : rest ⊆ L := by
    intro n hn
    obtain ⟨a1, a2, a3, o, ho, ht⟩ := r3 n hn
    obtain ⟨fs, t, hl, _⟩ := hN.wf.isLut a1 a2 a3
    exact hL n fs t (live o n ht (Live.out ho)) hl
  have := (r1.subperm hsub).length_le
  rw [numGates, p2, p4, hc.inputs, d1]; omega

/-! ### a network that meets the hypotheses -/

/-- inputs 2, 3; LUT 4 = 2 and 3; LUT 5 = constant 1 xor 3; LUT 6 = a buffer of 4; LUT 7 = 5 or 6; LUT 8 = 4 xor constant 0 with
an unused fanin 3; outputs 7, 8 and 4; LUT 9 is read by nobody -/
def exClean : Klut :=
  (((((((((Klut.empty.createPi.1.createPi.1.createAnd 2 3).1.createXor 1 3).1.createNode [4] ⟨1, [false, true]⟩).1.createOr 5 6).1.createNode
    [4, 3, 0] ⟨3, [false, true, false, true, true, false, true, false]⟩).1.createAnd 7 8).1.createPo 7).createPo 8).createPo 4)

theorem exClean_built : Built exClean := by
  unfold exClean
  refine Built.po (Built.po (Built.po (Built.and (Built.node (Built.or (Built.node (Built.xor (Built.and
    Built.empty.pi.pi ?_ ?_) ?_ ?_) ?_ ?_ ?_) ?_ ?_) ?_ ?_ ?_) ?_ ?_) ?_) ?_) ?_ <;> decide +kernel

example : exClean.numPis = exClean.inputs.length := by decide +kernel

/-- what a client sees of a network -/
structure Face where
  luts : List (List Nat × Option TT)
  outputs : List Nat
deriving DecidableEq

/-- the LUTs and the outputs of a network -/
def face (N : Klut) : Face := ⟨N.gates.map fun n => ((N.nodes[n]?.map (·.children)).toList.flatten, N.nodeFunction n), N.outputs⟩

example : (cleanupLuts exClean (fun _ => 0) 0 10).map face = some
    ⟨[([3], some ⟨1, [true, false]⟩), ([2, 3], some ⟨2, [false, false, false, true]⟩),
      ([4, 5], some ⟨2, [false, true, true, true]⟩)], [6, 5, 5]⟩ := by decide +kernel

example : exClean.numGates = 6 ∧ (cleanupLuts exClean (fun _ => 0) 0 10).map numGates = some 3 := by decide +kernel

/-! ### where the full statement fails -/

/-- input 2, register output 3, LUT 4 = 2 and 3, output 4, register input 2 -/
def exReg : Klut := (((Klut.empty.createPi.1.createRo.1.createAnd 2 3).1.createPo 4).createRi 2 0)

theorem exReg_built : Built exReg := by
  unfold exReg
  refine Built.ri (Built.po (Built.and Built.empty.pi.ro ?_ ?_) ?_) ?_ <;> decide +kernel

/-- With a register the output becomes constant 0, and the register is gone: the network computes `a and q`, the result
computes 0. -/
theorem C75_violated_register : ∃ N D, Built N ∧ cleanupLuts N (fun _ => 0) 0 10 = some D ∧ N.inputs.length = 2 ∧
    D.inputs.length = 1 ∧ N.latches = [0] ∧ D.latches = [] ∧ N.outputs[0]? = some 4 ∧ D.outputs = [0] ∧
    (∃ v, Consistent N (fun _ => true) v ∧ v 4 = true) ∧ ∀ x w, Consistent D x w → w 0 = false := by
  obtain ⟨v, hv⟩ := exReg_built.wf.exists (fun _ => true)
  refine ⟨exReg, (cleanupLuts exReg (fun _ => 0) 0 10).get (by decide +kernel), exReg_built, by simp, by decide +kernel,
    by decide +kernel, by decide +kernel, by decide +kernel, by decide +kernel, by decide +kernel, ⟨v, hv, ?_⟩,
    fun x w hw => hw.const0⟩
  have hl : exReg.IsLut 4 [2, 3] (ofWord 2 0x8) :=
    ⟨by omega, by decide +kernel, ⟨[2, 3], 4, 1, 0#32⟩, by decide +kernel, rfl, by decide +kernel⟩
  rw [hv.lut _ _ _ hl]
  have h2 : v 2 = true := hv.input 0 2 (by decide +kernel)
  have h3 : v 3 = true := hv.input 1 3 (by decide +kernel)
  rw [ofWord, TT.eval_ofFn]
  simp [TT.pos, args, h2, h3]
  decide

/-- inputs 2, 3; LUT 4 = 2 and 3; LUT 5 has the fanins 4 and 2 but returns 2; output 5 -/
def exDangling : Klut :=
  ((Klut.empty.createPi.1.createPi.1.createAnd 2 3).1.createNode [4, 2] ⟨2, [false, false, true, true]⟩).1.createPo 5

theorem exDangling_built : Built exDangling := by
  unfold exDangling
  refine Built.po (Built.node (Built.and Built.empty.pi.pi ?_ ?_) ?_ ?_ ?_) ?_ <;> decide +kernel

/-- The result can contain a LUT that nothing reads; a second call removes it. -/
theorem C75_violated_dangling : ∃ N D E, Built N ∧ cleanupLuts N (fun _ => 0) 0 10 = some D ∧
    cleanupLuts D (fun _ => 0) 0 10 = some E ∧ D.outputs = [2] ∧ D.IsLut 4 [2, 3] (ofWord 2 0x8) ∧
    (∀ n cs f, D.IsLut n cs f → 4 ∉ cs) ∧ E.outputs = [2] ∧ E.numGates = 0 := by
  refine ⟨exDangling, (cleanupLuts exDangling (fun _ => 0) 0 10).get (by decide +kernel),
    (cleanupLuts ((cleanupLuts exDangling (fun _ => 0) 0 10).get (by decide +kernel)) (fun _ => 0) 0 10).get
      (by decide +kernel), exDangling_built, by simp, by simp, by decide +kernel,
    ⟨by omega, by decide +kernel, ⟨[2, 3], 4, 0, 0#32⟩, by decide +kernel, rfl, by decide +kernel⟩, ?_, by decide +kernel,
    by decide +kernel⟩
  rintro n cs f ⟨_, _, nd, hnd, rfl, _⟩ hm
  have hall : ((cleanupLuts exDangling (fun _ => 0) 0 10).get (by decide +kernel)).nodes.all
      (fun nd => decide (4 ∉ nd.children)) = true := by decide +kernel
  rw [List.all_eq_true] at hall
  have := hall nd (List.mem_of_getElem? hnd)
  simp at this
  exact this hm

/-- A LUT may keep the same fanin twice: `a xor a` stays a LUT although it is constant. -/
theorem C75_violated_constant : ∃ N D, Built N ∧ cleanupLuts N (fun _ => 0) 0 10 = some D ∧ D.outputs = [3] ∧
    D.IsLut 3 [2, 2] (ofWord 2 0x6) ∧ ∀ x w, Consistent D x w → w 3 = false := by
  have hb : Built ((Klut.empty.createPi.1.createXor 2 2).1.createPo 3) := by
    refine Built.po (Built.xor Built.empty.pi ?_ ?_) ?_ <;> decide +kernel
  have hl : ((cleanupLuts ((Klut.empty.createPi.1.createXor 2 2).1.createPo 3) (fun _ => 0) 0 10).get
      (by decide +kernel)).IsLut 3 [2, 2] (ofWord 2 0x6) :=
    ⟨by omega, by decide +kernel, ⟨[2, 2], 12, 1, 0#32⟩, by decide +kernel, rfl, by decide +kernel⟩
  refine ⟨_, _, hb, (Option.some_get (by decide +kernel)).symm, by decide +kernel, hl, ?_⟩
  intro x w hw
  rw [hw.lut _ _ _ hl, ofWord, TT.eval_ofFn]
  cases h : w 2 <;> (simp [TT.pos, args, h]; try decide)

end Verif.Klut
