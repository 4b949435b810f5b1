import Verif.Aig.Sim
import Verif.Props.C11

set_option autoImplicit false

/-!
# C45: simulation computes the output functions
-/

namespace Verif.Aig

variable {α : Type}

/-- `h` interprets simulation values as Booleans and respects all operations; `good` is the set of values
that simulation produces -/
structure Interp (S : SimOps α) (good : α → Prop) (h : α → Bool) : Prop where
  constant : ∀ b, good (S.constant b) ∧ h (S.constant b) = b
  pi : ∀ i, good (S.pi i)
  neg : ∀ a, good a → good (S.neg a) ∧ h (S.neg a) = !h a
  conj : ∀ a b, good a → good b → good (S.conj a b) ∧ h (S.conj a b) = (h a && h b)

theorem Interp.computeGate {S : SimOps α} {good : α → Prop} {h : α → Bool} (I : Interp S good h)
    {v : Nat → Bool} {c0 c1 : Sig} {a b : α} (ga : good a) (gb : good b) (ha : h a = v c0.index)
    (hb : h b = v c1.index) : good (computeGate S c0 c1 a b) ∧
      h (computeGate S c0 c1 a b) = (c0.val v && c1.val v) := by
  have key : ∀ (c : Sig) (a : α), good a → h a = v c.index →
      good (if c.compl then S.neg a else a) ∧ h (if c.compl then S.neg a else a) = c.val v := by
    intro c a ga ha
    cases hc : c.compl
    · simp [ga, ha, Sig.val, hc]
    · have := I.neg a ga
      simp [this, ha, Sig.val, hc]
  have k0 := key c0 a ga ha
  have k1 := key c1 b gb hb
  have := I.conj _ _ k0.1 k1.1
  exact ⟨this.1, by rw [Aig.computeGate, this.2, k0.2, k1.2]⟩

/-- the values of all nodes below `k` are right -/
def RightBelow (good : α → Prop) (h : α → Bool) (v : Nat → Bool) (vals : List α) (P : Nat → Prop) : Prop :=
  ∀ n, P n → ∃ a, vals[n]? = some a ∧ good a ∧ h a = v n

theorem simPis_spec {S : SimOps α} {good : α → Prop} {h : α → Bool} (I : Interp S good h)
    {v : Nat → Bool} : ∀ (l : List Nat) (i : Nat) (vals : List α) (P : Nat → Prop),
    RightBelow good h v vals P → l.Nodup → (∀ n ∈ l, ¬ P n ∧ n < vals.length) →
    (∀ k n, l[k]? = some n → v n = h (S.pi (i + k))) →
    (simPis S l i vals).length = vals.length ∧
      RightBelow good h v (simPis S l i vals) (fun n => P n ∨ n ∈ l) := by
  intro l
  induction l with
  | nil =>
    intro i vals P hr _ _ _
    exact ⟨rfl, fun n hn => hr n (by simpa using hn)⟩
  | cons m l ih =>
    intro i vals P hr hnd hl hv
    rw [List.nodup_cons] at hnd
    obtain ⟨h1, h2⟩ := ih (i + 1) (vals.set m (S.pi i)) (fun n => P n ∨ n = m) (by
        rintro n (hn | rfl)
        · have hne : m ≠ n := by rintro rfl; exact (hl m (by simp)).1 hn
          obtain ⟨a, e, ga, ha⟩ := hr n hn
          exact ⟨a, by rw [List.getElem?_set_ne hne, e], ga, ha⟩
        · refine ⟨S.pi i, ?_, I.pi i, ?_⟩
          · rw [List.getElem?_set_self (hl n (by simp)).2]
          · have := hv 0 n rfl
            simpa using this.symm) hnd.2 (by
        intro n hn
        refine ⟨?_, by simpa using (hl n (by simp [hn])).2⟩
        rintro (h | rfl)
        · exact (hl n (by simp [hn])).1 h
        · exact hnd.1 hn) (by
        intro k n hk
        have := hv (k + 1) n (by simpa using hk)
        rw [show i + 1 + k = i + (k + 1) by omega]; exact this)
    refine ⟨by rw [simPis, h1]; simp, fun n hn => ?_⟩
    rw [simPis]
    apply h2
    simp only [List.mem_cons] at hn
    tauto

theorem simGates_spec {S : SimOps α} {good : α → Prop} {h : α → Bool} (I : Interp S good h)
    {N : Aig} (hN : Built N) {v : Nat → Bool} (m : N.Models v) : ∀ (l : List Nat) (vals : List α),
    l.Pairwise (· < ·) → (∀ n ∈ l, ∃ a b, N.IsGate n a b) → vals.length = N.nodes.length →
    RightBelow good h v vals (fun n => n < N.nodes.length ∧ ¬ (∃ g ∈ l, g ≤ n ∧ ∃ a b, N.IsGate n a b)) →
    (∀ g, (∃ a b, N.IsGate g a b) → (∃ g' ∈ l, g' ≤ g) → g ∈ l) →
    ∃ r, simGates S N l vals = some r ∧ RightBelow good h v r (fun n => n < N.nodes.length) := by
  intro l
  induction l with
  | nil =>
    intro vals _ _ _ hr _
    exact ⟨vals, rfl, fun n hn => hr n ⟨hn, by simp⟩⟩
  | cons g l ih =>
    intro vals hp hl hlen hr hcl
    obtain ⟨a, b, hg⟩ := hl g (by simp)
    have hlt := hN.wf.isGate_lt hg
    obtain ⟨h0, hin, nd, hnd, hd, rfl, rfl⟩ := hg
    have below : ∀ n, n < g → ∃ a, vals[n]? = some a ∧ good a ∧ h a = v n := by
      intro n hn
      refine hr n ⟨by omega, ?_⟩
      rintro ⟨g', hg', hle, _⟩
      rcases List.mem_cons.1 hg' with rfl | hg'
      · omega
      · have := (List.pairwise_cons.1 hp).1 g' hg'; omega
    obtain ⟨a1, e1, ga1, ha1⟩ := below nd.c0.index (by omega)
    obtain ⟨a2, e2, ga2, ha2⟩ := below nd.c1.index (by omega)
    have hc := I.computeGate (v := v) ga1 ga2 ha1 ha2
    have hstep : simGate S N vals g = some (vals.set g (computeGate S nd.c0 nd.c1 a1 a2)) := by
      simp [simGate, hnd, e1, e2]
    rw [simGates, hstep]
    have hgv := m.gate g nd.c0 nd.c1 ⟨h0, hin, nd, hnd, hd, rfl, rfl⟩
    apply ih _ (List.pairwise_cons.1 hp).2 (fun n hn => hl n (by simp [hn])) (by simpa using hlen)
    · rintro n ⟨hn, hng⟩
      by_cases e : g = n
      · subst e
        refine ⟨_, List.getElem?_set_self (by omega), hc.1, ?_⟩
        rw [hc.2, ← hgv]
      · rw [List.getElem?_set_ne e]
        refine hr n ⟨hn, ?_⟩
        rintro ⟨g', hg', hle, hgn⟩
        have hnm := hcl n hgn ⟨g', hg', hle⟩
        rcases List.mem_cons.1 hnm with rfl | hnm
        · exact e rfl
        · exact hng ⟨n, hnm, le_refl _, hgn⟩
    · intro k hk hex
      obtain ⟨g', hg', hle⟩ := hex
      have := hcl k hk ⟨g', by simp [hg'], hle⟩
      rcases List.mem_cons.1 this with rfl | h
      · have := (List.pairwise_cons.1 hp).1 g' hg'; omega
      · exact h

theorem simOuts_spec {S : SimOps α} {good : α → Prop} {h : α → Bool} (I : Interp S good h)
    {v : Nat → Bool} {vals : List α} {k : Nat} (hr : RightBelow good h v vals (fun n => n < k)) :
    ∀ (l : List Sig), (∀ s ∈ l, s.index < k) → ∃ r, simOuts S vals l = some r ∧
      (∀ a ∈ r, good a) ∧ r.map h = l.map (·.val v) := by
  intro l
  induction l with
  | nil => intro _; exact ⟨[], rfl, by simp, rfl⟩
  | cons f l ih =>
    intro hl
    obtain ⟨r, e, gr, hr'⟩ := ih (fun s hs => hl s (by simp [hs]))
    obtain ⟨a, ea, ga, ha⟩ := hr f.index (hl f (by simp))
    refine ⟨(if f.compl then S.neg a else a) :: r, by simp [simOuts, ea, e], ?_, ?_⟩
    · intro x hx
      rcases List.mem_cons.1 hx with rfl | hx
      · split
        · exact (I.neg a ga).1
        · exact ga
      · exact gr x hx
    · simp only [List.map_cons, hr']
      congr 1
      cases hc : f.compl
      · simp [ha, Sig.val, hc]
      · simp [(I.neg a ga).2, ha, Sig.val, hc]

theorem simulateNodes_spec {S : SimOps α} {good : α → Prop} {h : α → Bool} (I : Interp S good h)
    {N : Aig} (hN : Built N) (hpi : N.inputs.length ≤ N.numPis) {v : Nat → Bool}
    (hv : N.Consistent (fun k => h (S.pi k)) v) :
    ∃ r, simulateNodes S N = some r ∧ RightBelow good h v r (fun n => n < N.nodes.length) := by
  have hw := hN.wf
  have hpos := hw.pos
  have hlen : ((List.replicate N.size S.dflt).set 0 (S.constant false)).length = N.nodes.length := by
    simp [size]
  have htake : N.inputs.take N.numPis = N.inputs := List.take_of_length_le hpi
  have hin : ∀ n ∈ N.inputs, n ≠ 0 ∧ n < N.nodes.length := by
    intro n hn
    obtain ⟨k, hk⟩ := List.getElem?_of_mem hn
    obtain ⟨h0, nd, hnd, _⟩ := hw.input k n hk
    exact ⟨Nat.pos_iff_ne_zero.1 h0, lt_of_getElem? hnd⟩
  obtain ⟨l1, r1⟩ := simPis_spec (v := v) I N.inputs 0
    ((List.replicate N.size S.dflt).set 0 (S.constant false)) (fun n => n = 0) (by
      rintro n rfl
      refine ⟨S.constant false, List.getElem?_set_self (by simp [size]; exact hpos), (I.constant false).1, ?_⟩
      rw [(I.constant false).2, hv.models.const]) hw.inputsNodup
      (fun n hn => ⟨(hin n hn).1, by rw [hlen]; exact (hin n hn).2⟩)
      (fun k n hk => by simpa using hv.input k n hk)
  obtain ⟨r, er, hr⟩ := simGates_spec I hN hv.models N.gates _ (C06_topological N hN).2.2
    (fun n hn => (hw.mem_gates n).1 hn) (l1.trans hlen) (by
      rintro n ⟨hn, hng⟩
      apply r1
      by_contra hc
      simp only [not_or] at hc
      obtain ⟨nd, hnd⟩ : ∃ nd, N.nodes[n]? = some nd := ⟨_, List.getElem?_eq_getElem hn⟩
      have hg : N.IsGate n nd.c0 nd.c1 :=
        ⟨hc.1, hc.2, nd, hnd, (hw.gate n nd hnd hc.1 hc.2).2.2.2, rfl, rfl⟩
      exact hng ⟨n, (hw.mem_gates n).2 ⟨_, _, hg⟩, le_refl _, _, _, hg⟩)
    (fun g hg _ => (hw.mem_gates g).2 hg)
  refine ⟨r, ?_, hr⟩
  simp only [simulateNodes, htake]
  exact er

theorem simulate_spec {S : SimOps α} {good : α → Prop} {h : α → Bool} (I : Interp S good h)
    {N : Aig} (hN : Built N) (hpi : N.inputs.length ≤ N.numPis) {v : Nat → Bool}
    (hv : N.Consistent (fun k => h (S.pi k)) v) :
    ∃ r, simulate S N = some r ∧ (∀ a ∈ r, good a) ∧
      r.map h = (N.outputs.take N.numPos).map (·.val v) := by
  obtain ⟨r, er, hr⟩ := simulateNodes_spec I hN hpi hv
  obtain ⟨o, eo, go, ho⟩ := simOuts_spec I hr (N.outputs.take N.numPos)
    (fun s hs => hN.wf.outputs s (List.mem_of_mem_take hs))
  refine ⟨o, ?_, go, ho⟩
  simp only [simulate]
  rw [er]
  exact eo

theorem simPis_length {S : SimOps α} : ∀ (l : List Nat) (i : Nat) (vals : List α),
    (simPis S l i vals).length = vals.length := by
  intro l
  induction l with
  | nil => intro i vals; rfl
  | cons n l ih => intro i vals; rw [simPis, ih, List.length_set]

theorem simGates_length {S : SimOps α} {N : Aig} : ∀ (l : List Nat) (vals r : List α),
    simGates S N l vals = some r → r.length = vals.length := by
  intro l
  induction l with
  | nil => intro vals r h; obtain rfl := Option.some.inj h; rfl
  | cons n l ih =>
    intro vals r h
    rw [simGates] at h
    split at h
    · simp at h
    · rename_i v1 hv
      rw [ih _ _ h]
      unfold simGate at hv
      split at hv
      · simp at hv
      · split at hv
        · obtain rfl := Option.some.inj hv
          simp
        · simp at hv

theorem simulateNodes_length {S : SimOps α} {N : Aig} {r : List α} (h : simulateNodes S N = some r) :
    r.length = N.nodes.length := by
  rw [simulateNodes] at h
  rw [simGates_length _ _ _ h, simPis_length]
  simp [size]

/-- C45, Boolean simulation: for a combinational constructed network (every combinational input is a
primary input), `simulate<bool>` returns the values of the outputs under the given assignment. -/
theorem C45_bool (N : Aig) (hN : Built N) (hpi : N.inputs.length = N.numPis) (x v : Nat → Bool)
    (hv : N.Consistent x v) :
    simulate (boolSim x) N = some ((N.outputs.take N.numPos).map (·.val v)) := by
  have I : Interp (boolSim x) (fun _ => True) id := by
    constructor <;> simp [boolSim]
  obtain ⟨r, e, _, hr⟩ := simulate_spec I hN (le_of_eq hpi) (v := v) hv
  rw [e, ← hr]; simp

/-- C45, truth table simulation: with as many variables as inputs, every output table has one bit per
assignment, and the bit at the position encoding an assignment is the output's value under it. -/
theorem C45_tt (N : Aig) (hN : Built N) (hpi : N.inputs.length = N.numPis) :
    ∃ r : List TT, simulate (ttSim N.numPis) N = some r ∧ r.length = (N.outputs.take N.numPos).length ∧
      ∀ x v, N.Consistent x v → ∀ (i : Nat) (t : TT) (s : Sig), r[i]? = some t → N.outputs[i]? = some s →
        t.n = N.numPis ∧ t.WF ∧ t.eval x = s.val v := by
  -- one interpretation per bit position
  have I : ∀ p, p < 2 ^ N.numPis → Interp (ttSim N.numPis) (fun t => t.n = N.numPis ∧ t.WF)
      (fun t => t.get p) := by
    intro p hp
    constructor
    · intro b; exact ⟨⟨rfl, TT.wf_ofFn _ _⟩, TT.get_const b hp⟩
    · intro i; exact ⟨rfl, TT.wf_ofFn _ _⟩
    · intro a ga; exact ⟨⟨ga.1, TT.wf_ofFn _ _⟩, TT.get_not (by rw [ga.1]; exact hp)⟩
    · intro a b ga gb; exact ⟨⟨ga.1, TT.wf_ofFn _ _⟩, TT.get_and (by rw [ga.1]; exact hp)⟩
  have h0 : 0 < 2 ^ N.numPis := Nat.two_pow_pos _
  obtain ⟨r, e, gr, hr⟩ := simulate_spec (I 0 h0) hN (le_of_eq hpi) (hN.wf.consistent_value _)
  refine ⟨r, e, by have := congrArg List.length hr; simpa using this, ?_⟩
  intro x v hv i t s ht hs
  have hp := TT.pos_lt x N.numPis
  have hcons : N.Consistent (fun k => ((ttSim N.numPis).pi k).get (TT.pos x N.numPis)) v := by
    refine ⟨hv.models, fun k n hk => ?_⟩
    have hk' : k < N.numPis := by rw [← hpi]; exact lt_of_getElem? hk
    rw [hv.input k n hk]
    simp only [ttSim]
    rw [TT.get_nthVar k hp, TT.testBit_pos x _ k hk']
  obtain ⟨r', e', _, hr'⟩ := simulate_spec (I _ hp) hN (le_of_eq hpi) hcons
  rw [e] at e'; cases e'
  have hg := gr t (List.mem_of_getElem? ht)
  refine ⟨hg.1, hg.2, ?_⟩
  have hi : i < (N.outputs.take N.numPos).length := by
    have h1 := congrArg List.length hr'
    simp only [List.length_map] at h1
    rw [← h1]; exact lt_of_getElem? ht
  have h2 := congrArg (fun l => l[i]?) hr'
  simp only [List.getElem?_map, ht, Option.map_some] at h2
  have h3 : (N.outputs.take N.numPos)[i]? = some s := by
    rw [List.getElem?_take]
    rw [List.length_take] at hi
    rw [if_pos (by omega)]; exact hs
  rw [h3] at h2
  simp only [Option.map_some, Option.some.injEq] at h2
  rw [TT.eval, hg.1]; exact h2

/-- The demo network (output `!(!a & b)`) meets the hypotheses of both theorems. -/
example : Built demo ∧ demo.inputs.length = demo.numPis := ⟨demo_built, by decide⟩

example : simulate (ttSim 2) demo = some [⟨2, [true, true, false, true]⟩] := by decide

/-- Registers are not simulated: a register output reads the default value, whatever its state, and with
truth tables the default value does not even have the right number of bits. -/
theorem C45_register_outputs_ignored :
    ∃ N, Built N ∧ N.inputs.length ≠ N.numPis ∧
      simulate (boolSim fun _ => true) N = some [false] ∧
      simulate (ttSim 1) N = some [⟨0, []⟩] := by
  refine ⟨((((Aig.empty.createPi).1.createRo).1.createPo ⟨2, false⟩).createRi ⟨1, false⟩ 0),
    .ri (.po (.ro (.pi .empty)) (by decide)) (by decide), by decide, by decide, by decide⟩

/-- The observable effect of `C11_violated`: simulation of the network after the substitution returns
0 where the original returned 1. -/
theorem C11_violated_simulation :
    simulate (boolSim fun _ => true) bad = some [true] ∧
    simulate (boolSim fun _ => true) badAfter = some [false] := by decide

end Verif.Aig
