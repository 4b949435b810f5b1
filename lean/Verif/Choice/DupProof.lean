import Mathlib.Data.Finset.Card
import Verif.Choice.Derive
import Verif.Choice.Spec
import Verif.Choice.MiterProof
import Verif.Props.C39
import Verif.Props.AigInv
import Verif.Aig.CleanupProof

set_option autoImplicit false

/-!
# `man_dup_dfs`
-/

namespace Verif.Choice
open Relation
open Aig (WF Ext Built order)

theorem cloneInputs_plain : ∀ (k : Nat) (D : Aig), D.numPis = D.inputs.length →
    (Aig.cloneInputs k D).1.inputs = D.inputs ++ List.range' D.nodes.length k ∧
    (Aig.cloneInputs k D).1.nodes.length = D.nodes.length + k ∧
    (Aig.cloneInputs k D).1.numPis = (Aig.cloneInputs k D).1.inputs.length ∧
    (Aig.cloneInputs k D).1.outputs = D.outputs ∧ (Aig.cloneInputs k D).1.numPos = D.numPos ∧
    (Built D → Built (Aig.cloneInputs k D).1)
  | 0, D, h => by simp [Aig.cloneInputs, h]
  | k + 1, D, h => by
      have e1 : D.createPi.1.inputs = D.inputs ++ [D.nodes.length] := by simp [Aig.createPi]
      have e2 : D.createPi.1.nodes.length = D.nodes.length + 1 := by simp [Aig.createPi]
      have e3 : D.createPi.1.numPis = D.numPis + 1 := by simp [Aig.createPi]
      obtain ⟨h1, h2, h3, h4, h5, h6⟩ := cloneInputs_plain k D.createPi.1 (by rw [e1, e3, h]; simp)
      refine ⟨?_, ?_, h3, by rw [Aig.cloneInputs]; exact h4, by rw [Aig.cloneInputs]; exact h5, fun hb => h6 (.pi hb)⟩
      · rw [Aig.cloneInputs]; dsimp only
        rw [h1, e1, e2, List.range'_succ]; simp
      · rw [Aig.cloneInputs]; dsimp only
        rw [h2, e2]; omega

/-- entries of the start of `old2new` -/
theorem startMap : ∀ (l : List Nat) (m : SMap), (∀ i ∈ l, i < m.length) →
    (l.foldl (fun m i => m.set i (some (Sig.mk i false))) m).length = m.length ∧
    ∀ n, (l.foldl (fun m i => m.set i (some (Sig.mk i false))) m)[n]? =
      if n ∈ l then some (some ⟨n, false⟩) else m[n]?
  | [], m, _ => by simp
  | i :: l, m, h => by
      obtain ⟨h1, h2⟩ := startMap l (m.set i (some ⟨i, false⟩)) (by
        intro j hj; rw [List.length_set]; exact h j (List.mem_cons_of_mem _ hj))
      rw [List.foldl_cons]
      refine ⟨by rw [h1, List.length_set], fun n => ?_⟩
      rw [h2]
      have hi := h i List.mem_cons_self
      by_cases hn : n ∈ l
      · rw [if_pos hn, if_pos (List.mem_cons_of_mem _ hn)]
      · rw [if_neg hn, List.getElem?_set]
        by_cases hin : i = n
        · subst hin
          rw [if_pos rfl, if_pos hi, if_pos List.mem_cons_self]
        · rw [if_neg hin, if_neg]
          simp only [List.mem_cons, not_or]
          exact ⟨fun e => hin e.symm, hn⟩

/-- the inputs come before all gates -/
def InputsFirst (N : Aig) : Prop := N.inputs = List.range' 1 N.inputs.length

theorem InputsFirst.mem {N : Aig} (h : InputsFirst N) {n : Nat} : n ∈ N.inputs ↔ 1 ≤ n ∧ n ≤ N.inputs.length := by
  conv_lhs => rw [h]
  exact ChoiceMiter.mem_inputs

structure StartSpec (N : Aig) (st : Choice × SMap) : Prop where
  built : st.1.net.Built
  inputs : st.1.net.inputs = N.inputs
  numPis : st.1.net.numPis = N.inputs.length
  outputs : st.1.net.outputs = []
  numPos : st.1.net.numPos = 0
  nodes : st.1.net.nodes.length = N.inputs.length + 1
  equivs : st.1.equivs = List.replicate N.nodes.length none
  reprs : st.1.reprs = List.range N.nodes.length
  mlen : st.2.length = N.nodes.length
  low : ∀ n, n ≤ N.inputs.length → st.2[n]? = some (some ⟨n, false⟩)
  high : ∀ n, N.inputs.length < n → n < N.nodes.length → st.2[n]? = some none

theorem start_spec {N : Aig} (hN : WF N) (hi : InputsFirst N) : StartSpec N (start N) := by
  obtain ⟨h1, h2, h3, h4, h5, h6⟩ := cloneInputs_plain N.inputs.length Aig.empty rfl
  have hlt : ∀ i ∈ N.inputs, i < ((List.replicate N.nodes.length (none : Option Sig)).set 0 (some ⟨0, false⟩)).length := by
    intro i h; rw [List.length_set, List.length_replicate]; exact (hN.inputs_lt h).2
  obtain ⟨m1, m2⟩ := startMap N.inputs _ hlt
  have e0 : (Aig.cloneInputs N.inputs.length Aig.empty).1.inputs = N.inputs := by
    rw [h1]; conv_rhs => rw [hi]
    rfl
  have hpos := hN.pos
  refine ⟨h6 .empty, e0, ?_, h4, h5, ?_, rfl, rfl, ?_, ?_, ?_⟩
  · simp only [start]; rw [h3, e0]
  · simp only [start]; rw [h2]; simp [Aig.empty]; omega
  · simp only [start]; rw [m1]; simp
  · intro n hn
    simp only [start]
    rw [m2]
    by_cases h0 : n = 0
    · subst h0
      rw [if_neg]
      · rw [List.getElem?_set_self (by simpa using hpos)]
      · rw [hi.mem]; omega
    · rw [if_pos]; rw [hi.mem]; omega
  · intro n h7 h8
    simp only [start]
    rw [m2, if_neg, List.getElem?_set, if_neg (by omega), List.getElem?_replicate, if_pos h8]
    rw [hi.mem]; omega

/-! ### The invariant of the copy -/

/-- `D` with `m` is a copy of a part of `T` that is closed under fanins and links -/
structure Copy (T : Choice) (D : Choice) (m : SMap) : Prop where
  built : D.net.Built
  inputs : D.net.inputs = T.net.inputs
  numPis : D.net.numPis = T.net.inputs.length
  elen : D.equivs.length = T.net.nodes.length
  mlen : m.length = T.net.nodes.length
  low : ∀ n : Nat, n ≤ T.net.inputs.length → m[n]? = some (some ⟨n, false⟩)
  pos : ∀ (n : Nat) (s : Sig), m[n]? = some (some s) → s.compl = false ∧ s.index < D.net.nodes.length
  inj : ∀ (n n' : Nat) (s s' : Sig), m[n]? = some (some s) → m[n']? = some (some s') → s.index = s'.index → n = n'
  surj : ∀ j, j < D.net.nodes.length → ∃ n : Nat, m[n]? = some (some ⟨j, false⟩)
  gate : ∀ (n : Nat) (s a b : Sig), m[n]? = some (some s) → T.net.IsGate n a b → ∃ ia ib : Nat,
    m[a.index]? = some (some ⟨ia, false⟩) ∧ m[b.index]? = some (some ⟨ib, false⟩) ∧
    D.net.IsGate s.index (order ⟨ia, a.compl⟩ ⟨ib, b.compl⟩).1 (order ⟨ia, a.compl⟩ ⟨ib, b.compl⟩).2
  links : ∀ j i : Nat, D.equivs[j]? = some (some i) → ∃ n k : Nat, T.Gate n ∧ T.equivs[n]? = some (some k) ∧
    m[n]? = some (some ⟨j, false⟩) ∧ m[k]? = some (some ⟨i, false⟩) ∧ 0 < i ∧ i < j
  kept : ∀ (n k : Nat) (s : Sig), T.Gate n → T.equivs[n]? = some (some k) → m[n]? = some (some s) →
    ∃ i : Nat, m[k]? = some (some ⟨i, false⟩) ∧ D.equivs[s.index]? = some (some i)

theorem Copy.wf {T D : Choice} {m : SMap} (h : Copy T D m) : WF D.net := h.built.wf

theorem surj_le {L : Nat} {m : SMap} (h : ∀ j : Nat, j < L → ∃ n : Nat, m[n]? = some (some (Sig.mk j false))) : L ≤ m.length := by
  classical
  have hf : ∀ j, ∃ n : Nat, j < L → m[n]? = some (some (Sig.mk j false)) := fun j => by
    by_cases hj : j < L
    · obtain ⟨n, hn⟩ := h j hj; exact ⟨n, fun _ => hn⟩
    · exact ⟨0, fun hc => absurd hc hj⟩
  choose f hf using hf
  have := Finset.card_le_card_of_injOn (s := Finset.range L) (t := Finset.range m.length) f
    (by
      intro j hj
      have := hf j (Finset.mem_range.1 (Finset.mem_coe.1 hj))
      exact Finset.mem_coe.2 (Finset.mem_range.2 (List.getElem?_eq_some_iff.1 this).1))
    (by
      intro i hi j hj e
      have h1 := hf i (Finset.mem_range.1 (Finset.mem_coe.1 hi))
      have h2 := hf j (Finset.mem_range.1 (Finset.mem_coe.1 hj))
      rw [e, h2] at h1
      simpa using h1.symm)
  simpa using this

theorem order_swap {a b c d : Sig} (h : order a b = order c d) : (a = c ∧ b = d) ∨ (a = d ∧ b = c) := by
  rcases Aig.order_cases a b with ⟨e, _⟩ | ⟨e, _⟩ <;> rcases Aig.order_cases c d with ⟨e', _⟩ | ⟨e', _⟩ <;>
    rw [e, e'] at h <;> obtain ⟨rfl, rfl⟩ := Prod.mk.inj h <;> simp

/-- a node that has no copy yet gets a fresh one -/
theorem Copy.fresh {T D : Choice} {m : SMap} (hT : WF T.net) (hi : InputsFirst T.net) (h : Copy T D m) {n ia ib : Nat} {a b : Sig} (g : T.net.IsGate n a b)
    (hn : m[n]? = some none) (ha : m[a.index]? = some (some ⟨ia, false⟩)) (hb : m[b.index]? = some (some ⟨ib, false⟩)) :
    (D.net.createAnd ⟨ia, a.compl⟩ ⟨ib, b.compl⟩).2 = ⟨D.net.nodes.length, false⟩ ∧
    (D.net.createAnd ⟨ia, a.compl⟩ ⟨ib, b.compl⟩).1.nodes.length = D.net.nodes.length + 1 ∧
    Ext D.net (D.net.createAnd ⟨ia, a.compl⟩ ⟨ib, b.compl⟩).1 ∧
    (D.net.createAnd ⟨ia, a.compl⟩ ⟨ib, b.compl⟩).1.Built ∧
    (D.net.createAnd ⟨ia, a.compl⟩ ⟨ib, b.compl⟩).1.IsGate D.net.nodes.length (order ⟨ia, a.compl⟩ ⟨ib, b.compl⟩).1 (order ⟨ia, a.compl⟩ ⟨ib, b.compl⟩).2 := by
  obtain ⟨l1, l2, l3, l4⟩ := hT.isGate_lt g
  have m0 := h.low 0 (Nat.zero_le _)
  have ia0 : ia ≠ 0 := fun e => by
    have := h.inj _ _ _ _ ha m0 e; omega
  have ib0 : ib ≠ 0 := fun e => by
    have := h.inj _ _ _ _ hb m0 e; omega
  have iab : ia ≠ ib := fun e => by
    have := h.inj _ _ _ _ ha hb e; omega
  have va : D.net.Valid ⟨ia, a.compl⟩ := (h.pos _ _ ha).2
  have vb : D.net.Valid ⟨ib, b.compl⟩ := (h.pos _ _ hb).2
  have hs := Aig.createAnd_spec h.wf va vb
  have hbuilt := hs.built h.built
  rcases Aig.createAnd_cases D.net ⟨ia, a.compl⟩ ⟨ib, b.compl⟩ with hc | ⟨c, d, ho, _, _, _, _, hc⟩
  · exfalso
    obtain ⟨t, e, gt, _⟩ := ChoiceMiter.createAnd_gate h.wf (a := ⟨ia, a.compl⟩) (b := ⟨ib, b.compl⟩) iab ia0 ib0
    rw [hc] at gt
    obtain ⟨q1, q2, q3, q4⟩ := h.wf.isGate_lt gt
    obtain ⟨n', hn'⟩ := h.surj t q4
    have hn'l : n' < T.net.nodes.length := by rw [← h.mlen]; exact (List.getElem?_eq_some_iff.1 hn').1
    have hlow : ¬ n' ≤ T.net.inputs.length := by
      intro hle
      have e1 := h.low n' hle
      rw [hn'] at e1
      obtain rfl : t = n' := by simpa using e1
      have := gt.2.1
      rw [h.inputs, hi.mem] at this
      omega
    have hnot : n' ∉ T.net.inputs := by rw [hi.mem]; omega
    have g' := hT.isGate_of (n := n') (by omega) hnot (List.getElem?_eq_getElem hn'l)
    generalize T.net.nodes[n'].c0 = a' at g'
    generalize T.net.nodes[n'].c1 = b' at g'
    obtain ⟨ja, jb, hja, hjb, gt'⟩ := h.gate n' _ a' b' hn' g'
    obtain ⟨l1', l2', l3', l4'⟩ := hT.isGate_lt g'
    obtain ⟨e1, e2⟩ := gt.same gt'
    have heq : order ⟨ia, a.compl⟩ ⟨ib, b.compl⟩ = order ⟨ja, a'.compl⟩ ⟨jb, b'.compl⟩ := Prod.ext e1 e2
    rcases order_swap heq with ⟨x, y⟩ | ⟨x, y⟩
    · obtain ⟨x1, x2⟩ := Sig.mk.inj x
      obtain ⟨y1, y2⟩ := Sig.mk.inj y
      have ea : a = a' := by
        have := h.inj _ _ _ _ ha hja x1
        cases a; cases a'; simp only at this x2; subst this; subst x2; rfl
      have eb : b = b' := by
        have := h.inj _ _ _ _ hb hjb y1
        cases b; cases b'; simp only at this y2; subst this; subst y2; rfl
      subst ea; subst eb
      have := hT.uniq n n' a b g g'
      subst this
      rw [hn] at hn'; cases hn'
    · obtain ⟨x1, x2⟩ := Sig.mk.inj x
      obtain ⟨y1, y2⟩ := Sig.mk.inj y
      have ea := h.inj _ _ _ _ ha hjb x1
      have eb := h.inj _ _ _ _ hb hja y1
      omega
  · have e1 : (D.net.createAnd ⟨ia, a.compl⟩ ⟨ib, b.compl⟩).2 = ⟨D.net.nodes.length, false⟩ := by rw [hc]; rfl
    refine ⟨e1, ?_, hs.ext, hbuilt, ?_⟩
    · rw [hc]; exact Aig.addAnd_length _ _ _
    · rw [hc, ho]
      exact (Aig.addAnd_isGate h.wf _ _ _ _ _).2 (Or.inr ⟨rfl, rfl, rfl⟩)

/-- what a step keeps -/
structure Grew (st st' : Choice × SMap) : Prop where
  map : ∀ (n : Nat) (s : Sig), st.2[n]? = some (some s) → st'.2[n]? = some (some s)
  outputs : st'.1.net.outputs = st.1.net.outputs
  numPos : st'.1.net.numPos = st.1.net.numPos

theorem Grew.refl (st : Choice × SMap) : Grew st st := ⟨fun _ _ h => h, rfl, rfl⟩

theorem Grew.trans {a b c : Choice × SMap} (h : Grew a b) (h' : Grew b c) : Grew a c :=
  ⟨fun n s e => h'.map n s (h.map n s e), h'.outputs.trans h.outputs, h'.numPos.trans h.numPos⟩

theorem look_eq {m : SMap} {a : Sig} {i : Nat} (h : m[a.index]? = some (some ⟨i, false⟩)) : look m a = some ⟨i, a.compl⟩ := by
  simp [look, h, Sig.xorb]

theorem dupNode_spec {T D : Choice} {m : SMap} (hT : Inv T) (hi : InputsFirst T.net) (h : Copy T D m) {n ia ib : Nat} {a b : Sig}
    (g : T.net.IsGate n a b) (hn : m[n]? = some none) (ha : m[a.index]? = some (some ⟨ia, false⟩))
    (hb : m[b.index]? = some (some ⟨ib, false⟩)) {ne : Option Sig} {e : Option Nat} (he : T.equivs[n]? = some e)
    (hne : ∀ k, e = some k → ∃ i, ne = some ⟨i, false⟩ ∧ m[k]? = some (some ⟨i, false⟩)) (hno : e = none → ne = none) :
    ∃ D', dupNode n a b ne (D, m) = some ((D', m.set n (some ⟨D.net.nodes.length, false⟩)), ⟨D.net.nodes.length, false⟩) ∧
      Copy T D' (m.set n (some ⟨D.net.nodes.length, false⟩)) ∧ Grew (D, m) (D', m.set n (some ⟨D.net.nodes.length, false⟩)) := by
  obtain ⟨f1, f2, f3, f4, f5⟩ := h.fresh hT.wf hi g hn ha hb
  have hnl : n < m.length := (List.getElem?_eq_some_iff.1 hn).1
  have hget : ∀ x : Nat, (m.set n (some ⟨D.net.nodes.length, false⟩))[x]? =
      if n = x then some (some ⟨D.net.nodes.length, false⟩) else m[x]? := by
    intro x
    by_cases hx : n = x
    · subst hx; rw [List.getElem?_set_self hnl, if_pos rfl]
    · rw [List.getElem?_set, if_neg hx, if_neg hx]
  have hold : ∀ (x : Nat) (s : Sig), m[x]? = some (some s) → (m.set n (some ⟨D.net.nodes.length, false⟩))[x]? = some (some s) := by
    intro x s hx
    rw [hget, if_neg]
    · exact hx
    · rintro rfl; rw [hn] at hx; cases hx
  have hsurj : ∀ j, j < D.net.nodes.length + 1 → ∃ x : Nat, (m.set n (some ⟨D.net.nodes.length, false⟩))[x]? = some (some ⟨j, false⟩) := by
    intro j hj
    by_cases hjl : j < D.net.nodes.length
    · obtain ⟨x, hx⟩ := h.surj j hjl
      exact ⟨x, hold _ _ hx⟩
    · obtain rfl : j = D.net.nodes.length := by omega
      exact ⟨n, by rw [hget, if_pos rfl]⟩
  have hle := surj_le hsurj
  rw [List.length_set, h.mlen] at hle
  have va : ia < D.net.nodes.length := (h.pos _ _ ha).2
  have vb : ib < D.net.nodes.length := (h.pos _ _ hb).2
  have hs := Aig.createAnd_spec h.wf (a := ⟨ia, a.compl⟩) (b := ⟨ib, b.compl⟩) va vb
  have hlow : ¬ n ≤ T.net.inputs.length := by
    intro hle; rw [h.low n hle] at hn; cases hn
  have hall : ∀ D' : Choice, D'.net = (D.net.createAnd ⟨ia, a.compl⟩ ⟨ib, b.compl⟩).1 → D'.equivs.length = D.equivs.length →
      (∀ j, j ≠ D.net.nodes.length → D'.equivs[j]? = D.equivs[j]?) →
      (∀ i, D'.equivs[D.net.nodes.length]? = some (some i) → ∃ k, e = some k ∧ m[k]? = some (some ⟨i, false⟩)) →
      (∀ k, e = some k → ∃ i, m[k]? = some (some ⟨i, false⟩) ∧ D'.equivs[D.net.nodes.length]? = some (some i)) →
      Copy T D' (m.set n (some ⟨D.net.nodes.length, false⟩)) ∧ Grew (D, m) (D', m.set n (some ⟨D.net.nodes.length, false⟩)) := by
    intro D' hD1 hD2 hD3 hD4 hD5
    refine ⟨⟨by rw [hD1]; exact f4, by rw [hD1, hs.inputs, h.inputs], by rw [hD1, hs.numPis, h.numPis], by rw [hD2, h.elen],
      by rw [List.length_set, h.mlen], ?_, ?_, ?_, ?_, ?_, ?_, ?_⟩, ⟨hold, by simp only [hD1, hs.outputs], by simp only [hD1, hs.numPos]⟩⟩
    · intro x hx
      exact hold _ _ (h.low x hx)
    · intro x s hx
      rw [hget] at hx
      rw [hD1, f2]
      split at hx
      · obtain rfl : _ = s := by simpa using hx
        exact ⟨rfl, Nat.lt_succ_self _⟩
      · have := h.pos x s hx
        exact ⟨this.1, by omega⟩
    · intro x y s t hx hy hst
      rw [hget] at hx hy
      split at hx <;> split at hy
      · omega
      · obtain rfl : _ = s := by simpa using hx
        have := (h.pos _ _ hy).2
        simp only at hst; omega
      · obtain rfl : _ = t := by simpa using hy
        have := (h.pos _ _ hx).2
        simp only at hst; omega
      · exact h.inj _ _ _ _ hx hy hst
    · rw [hD1, f2]; exact hsurj
    · intro x s c d hx gx
      rw [hget] at hx
      split at hx
      · next hnx =>
        subst hnx
        obtain rfl : _ = s := by simpa using hx
        obtain ⟨rfl, rfl⟩ := g.same gx
        refine ⟨ia, ib, hold _ _ ha, hold _ _ hb, ?_⟩
        rw [hD1]; exact f5
      · obtain ⟨ic, id, h1, h2, h3⟩ := h.gate x s c d hx gx
        refine ⟨ic, id, hold _ _ h1, hold _ _ h2, ?_⟩
        rw [hD1]; exact f3.isGate h3
    · intro j i hj
      by_cases hjn : j = D.net.nodes.length
      · subst hjn
        obtain ⟨k, hk, hmk⟩ := hD4 i hj
        rw [hk] at he
        obtain ⟨c, d, gk⟩ := (hT.gates n k he).2
        have hk0 := gk.1
        refine ⟨n, k, ⟨a, b, g⟩, he, by rw [hget, if_pos rfl], hold _ _ hmk, ?_, (h.pos _ _ hmk).2⟩
        by_contra hc
        exact hk0 (h.inj _ _ _ _ hmk (h.low 0 (Nat.zero_le _)) (by simp only; omega))
      · rw [hD3 j hjn] at hj
        obtain ⟨x, k, h1, h2, h3, h4, h5⟩ := h.links j i hj
        exact ⟨x, k, h1, h2, hold _ _ h3, hold _ _ h4, h5⟩
    · intro x k s gx hxk hx
      rw [hget] at hx
      split at hx
      · next hnx =>
        subst hnx
        obtain rfl : _ = s := by simpa using hx
        rw [he] at hxk
        obtain ⟨i, h1, h2⟩ := hD5 k (Option.some.inj hxk)
        exact ⟨i, hold _ _ h1, h2⟩
      · obtain ⟨i, h1, h2⟩ := h.kept x k s gx hxk hx
        refine ⟨i, hold _ _ h1, ?_⟩
        rw [hD3]
        · exact h2
        · have := (h.pos _ _ hx).2; omega
  have hnew : ∀ i, D.equivs[D.net.nodes.length]? ≠ some (some i) := by
    intro i hc
    obtain ⟨x, k, _, _, h3, _⟩ := h.links _ _ hc
    have := (h.pos _ _ h3).2
    simp at this
  unfold dupNode
  rw [look_eq ha, look_eq hb]
  dsimp only
  rw [if_pos ⟨va, vb⟩, f1]
  cases e with
  | none =>
      rw [hno rfl]
      exact ⟨_, rfl, hall _ rfl rfl (fun _ _ => rfl) (fun i hc => absurd hc (hnew i)) (fun _ hc => by cases hc)⟩
  | some k =>
      obtain ⟨i, rfl, hk⟩ := hne k rfl
      dsimp only
      have hil := (h.pos _ _ hk).2
      simp only at hil
      rw [if_pos hil, if_pos (by rw [h.elen]; omega)]
      refine ⟨_, rfl, hall _ rfl (by simp) ?_ ?_ ?_⟩
      · intro j hj
        simp only
        rw [List.getElem?_set, if_neg (Ne.symm hj)]
      · intro i' hi'
        simp only at hi'
        rw [List.getElem?_set_self (by rw [h.elen]; omega)] at hi'
        obtain rfl : i = i' := by simpa using hi'
        exact ⟨k, rfl, hk⟩
      · intro k' hk'
        obtain rfl := Option.some.inj hk'
        exact ⟨i, hk, by simp only; rw [List.getElem?_set_self (by rw [h.elen]; omega)]⟩

/-- `man_dup_dfs_rec`: it returns, and copies the node and all it depends on -/
theorem dupRec_spec {T : Choice} (hT : Inv T) (hi : InputsFirst T.net) : ∀ (fuel n : Nat) (st : Choice × SMap) (seen : List Nat),
    Copy T st.1 st.2 → n < T.net.nodes.length → seen.Nodup → (∀ x ∈ seen, x < T.net.nodes.length ∧ TransGen T.GSucc x n) →
    T.net.nodes.length < seen.length + fuel →
    ∃ st' s, dupRec T fuel n st = some (st', s) ∧ Copy T st'.1 st'.2 ∧ Grew st st' ∧ st'.2[n]? = some (some s) ∧
      ∀ (x : Nat) (t : Sig), st'.2[x]? = some (some t) → st.2[x]? = some (some t) ∨ ReflTransGen T.GSucc n x := by
  intro fuel
  induction fuel with
  | zero =>
      intro n st seen _ _ hnd hs hf
      have := nodup_bound hnd (fun x hx => (hs x hx).1)
      omega
  | succ fuel ih =>
      intro n st seen hC hn hnd hs hf
      obtain ⟨o, ho⟩ : ∃ o, st.2[n]? = some o := ⟨_, List.getElem?_eq_getElem (by rw [hC.mlen]; exact hn)⟩
      rw [dupRec, ho]
      cases o with
      | some s => exact ⟨st, s, rfl, hC, Grew.refl _, ho, fun x t h => Or.inl h⟩
      | none =>
          have hlow : ¬ n ≤ T.net.inputs.length := fun hle => by
            rw [hC.low n hle] at ho; cases ho
          have hg := hT.wf.isGate_of (n := n) (by omega) (by rw [hi.mem]; omega) (List.getElem?_eq_getElem hn)
          have hkids : T.net.kids n = some (T.net.nodes[n].c0, T.net.nodes[n].c1) := by
            rw [Aig.kids, List.getElem?_eq_getElem hn]; rfl
          rw [hkids]
          generalize T.net.nodes[n].c0 = a at hg
          generalize T.net.nodes[n].c1 = b at hg
          have gn : T.Gate n := ⟨a, b, hg⟩
          have hnew : n ∉ seen := fun hc => hT.acyclic n (hs n hc).2
          obtain ⟨l1, l2, l3, l4⟩ := hT.wf.isGate_lt hg
          have hnd' : (n :: seen).Nodup := List.nodup_cons.2 ⟨hnew, hnd⟩
          have hseen : ∀ m, T.GSucc n m → ∀ x ∈ n :: seen, x < T.net.nodes.length ∧ TransGen T.GSucc x m := by
            intro m hm x hx
            rcases List.mem_cons.1 hx with rfl | hx
            · exact ⟨hn, TransGen.single hm⟩
            · exact ⟨(hs x hx).1, TransGen.tail (hs x hx).2 hm⟩
          have hf' : T.net.nodes.length < (n :: seen).length + fuel := by rw [List.length_cons]; omega
          have sa : T.GSucc n a.index := ⟨gn, Or.inl ⟨a, b, hg, Or.inl rfl⟩⟩
          have sb : T.GSucc n b.index := ⟨gn, Or.inl ⟨a, b, hg, Or.inr rfl⟩⟩
          have hnel : n < T.equivs.length := Nat.lt_of_lt_of_le hn hT.len
          have he : T.equivs[n]? = some T.equivs[n] := List.getElem?_eq_getElem hnel
          rw [he]
          generalize T.equivs[n] = e at he
          dsimp only
          -- the next node of the class
          have step1 : ∃ st1 ne, dupEquiv (dupRec T fuel) e st = some (st1, ne) ∧ Copy T st1.1 st1.2 ∧ Grew st st1 ∧
              (∀ k, e = some k → ∃ i, ne = some ⟨i, false⟩ ∧ st1.2[k]? = some (some ⟨i, false⟩)) ∧ (e = none → ne = none) ∧
              ∀ (x : Nat) (t : Sig), st1.2[x]? = some (some t) → st.2[x]? = some (some t) ∨ TransGen T.GSucc n x := by
            cases e with
            | none => exact ⟨st, none, rfl, hC, Grew.refl _, (fun _ h => by cases h), fun _ => rfl, fun x t h => Or.inl h⟩
            | some k =>
                have sk : T.GSucc n k := ⟨gn, Or.inr he⟩
                obtain ⟨st1, s, e1, c1, g1, m1, f1⟩ := ih k st (n :: seen) hC (hT.gate_lt (hT.gates n k he).2) hnd' (hseen k sk) hf'
                refine ⟨st1, some s, by simp [dupEquiv, e1], c1, g1, ?_, (fun h => by cases h), ?_⟩
                · intro k' hk'
                  obtain rfl := Option.some.inj hk'
                  have hc := (c1.pos _ _ m1).1
                  cases s with | mk i c =>
                  simp only at hc
                  subst hc
                  exact ⟨i, rfl, m1⟩
                · intro x t hx
                  exact (f1 x t hx).imp_right fun h => TransGen.head' sk h
          obtain ⟨st1, ne, e1, c1, g1, hne, hno, f1⟩ := step1
          obtain ⟨st2, s2, e2, c2, g2, m2, f2⟩ := ih a.index st1 (n :: seen) c1 (by omega) hnd' (hseen _ sa) hf'
          obtain ⟨st3, s3, e3, c3, g3, m3, f3⟩ := ih b.index st2 (n :: seen) c2 (by omega) hnd' (hseen _ sb) hf'
          rw [e1]; dsimp only [Option.bind_some]
          rw [e2]; dsimp only [Option.bind_some]
          rw [e3]; dsimp only [Option.bind_some]
          have hfr : ∀ (x : Nat) (t : Sig), st3.2[x]? = some (some t) → st.2[x]? = some (some t) ∨ TransGen T.GSucc n x := by
            intro x t hx
            rcases f3 x t hx with h | h
            · rcases f2 x t h with h | h
              · exact f1 x t h
              · exact Or.inr (TransGen.head' sa h)
            · exact Or.inr (TransGen.head' sb h)
          have hn3 : st3.2[n]? = some none := by
            obtain ⟨o, ho'⟩ : ∃ o, st3.2[n]? = some o := ⟨_, List.getElem?_eq_getElem (by rw [c3.mlen]; exact hn)⟩
            cases o with
            | none => exact ho'
            | some t =>
                rcases hfr n t ho' with h | h
                · rw [ho] at h; cases h
                · exact absurd h (hT.acyclic n)
          have m2' := g3.map _ _ m2
          have p2 := (c3.pos _ _ m2').1
          have p3 := (c3.pos _ _ m3).1
          cases s2 with | mk ia ca =>
          cases s3 with | mk ib cb =>
          simp only at p2 p3
          subst p2; subst p3
          obtain ⟨D', hd, hc, hg'⟩ := dupNode_spec hT hi (D := st3.1) (m := st3.2) c3 hg hn3 m2' m3 he (ne := ne)
            (by
              intro k hk
              obtain ⟨i, h1, h2⟩ := hne k hk
              exact ⟨i, h1, g3.map _ _ (g2.map _ _ h2)⟩) hno
          have hnl : n < st3.2.length := by rw [c3.mlen]; exact hn
          refine ⟨_, _, hd, hc, (g1.trans (g2.trans (g3.trans hg'))), ?_, ?_⟩
          · exact List.getElem?_set_self hnl
          · intro x t hx
            simp only at hx
            rw [List.getElem?_set] at hx
            split at hx
            · next h => subst h; exact Or.inr ReflTransGen.refl
            · exact (hfr x t hx).imp_right fun h => h.to_reflTransGen

/-! ### The outputs -/

theorem Copy.createPo {T D : Choice} {m : SMap} (h : Copy T D m) {s : Sig} (hs : D.net.Valid s) :
    Copy T { D with net := D.net.createPo s } m := by
  have hl : (D.net.createPo s).nodes.length = D.net.nodes.length := by simp [Aig.createPo, Aig.incFo]
  refine ⟨.po h.built hs, h.inputs, h.numPis, h.elen, h.mlen, h.low, ?_, h.inj, ?_, ?_, h.links, h.kept⟩
  · intro n t ht
    refine ⟨(h.pos n t ht).1, ?_⟩
    simp only [hl]; exact (h.pos n t ht).2
  · simp only [hl]; exact h.surj
  · intro n t a b ht g
    obtain ⟨ia, ib, h1, h2, h3⟩ := h.gate n t a b ht g
    exact ⟨ia, ib, h1, h2, (Aig.ext_createPo D.net s).isGate h3⟩

theorem dupOutputs_spec {T : Choice} (hT : Inv T) (hi : InputsFirst T.net) : ∀ (l : List Sig) (st : Choice × SMap),
    Copy T st.1 st.2 → (∀ o ∈ l, T.net.Valid o) →
    ∃ D m outs, dupOutputs T l st = some D ∧ Copy T D m ∧ (∀ (n : Nat) (s : Sig), st.2[n]? = some (some s) → m[n]? = some (some s)) ∧
      D.net.outputs = st.1.net.outputs ++ outs ∧ D.net.numPos = st.1.net.numPos + l.length ∧
      List.Forall₂ (fun o s => ∃ j, m[o.index]? = some (some ⟨j, false⟩) ∧ s = ⟨j, o.compl⟩) l outs ∧
      ∀ (x : Nat) (t : Sig), m[x]? = some (some t) → st.2[x]? = some (some t) ∨ ∃ o ∈ l, ReflTransGen T.GSucc o.index x
  | [], st, hC, _ => ⟨st.1, st.2, [], rfl, hC, fun _ _ h => h, by simp, by simp, .nil, fun _ _ h => Or.inl h⟩
  | o :: l, st, hC, hv => by
      obtain ⟨st1, s, e1, c1, g1, m1, f1⟩ := dupRec_spec hT hi (T.net.nodes.length + 1) o.index st [] hC (hv o List.mem_cons_self)
        List.nodup_nil (by simp) (by simp)
      have hp := c1.pos _ _ m1
      cases s with | mk j c =>
      simp only at hp
      obtain ⟨rfl, hj⟩ := hp
      obtain ⟨D, m, outs, e2, c2, k2, o2, p2, a2, f2⟩ := dupOutputs_spec hT hi l ({ st1.1 with net := st1.1.net.createPo ⟨j, o.compl⟩ }, st1.2)
        (c1.createPo hj) (fun o' ho' => hv o' (List.mem_cons_of_mem _ ho'))
      refine ⟨D, m, ⟨j, o.compl⟩ :: outs, ?_, c2, fun n s h => k2 n s (g1.map n s h), ?_, ?_, ?_, ?_⟩
      · rw [dupOutputs, e1]; dsimp only; rw [look_eq m1]; exact e2
      · rw [o2]; simp [Aig.createPo, Aig.incFo, g1.outputs]
      · rw [p2]; simp [Aig.createPo, Aig.incFo, g1.numPos]; omega
      · exact .cons ⟨j, k2 _ _ m1, rfl⟩ a2
      · intro x t hx
        rcases f2 x t hx with h | ⟨o', h1, h2⟩
        · rcases f1 x t h with h | h
          · exact Or.inl h
          · exact Or.inr ⟨o, List.mem_cons_self, h⟩
        · exact Or.inr ⟨o', List.mem_cons_of_mem _ h1, h2⟩

theorem start_copy {T : Choice} (hT : Inv T) (hi : InputsFirst T.net) : Copy T (start T.net).1 (start T.net).2 := by
  have h := start_spec hT.wf hi
  have hk : T.net.inputs.length < T.net.nodes.length := by
    by_cases h0 : T.net.inputs.length = 0
    · rw [h0]; exact hT.wf.pos
    · exact (hT.wf.inputs_lt (n := T.net.inputs.length) (by rw [hi.mem]; omega)).2
  have hmap : ∀ (n : Nat) (s : Sig), (start T.net).2[n]? = some (some s) → n ≤ T.net.inputs.length ∧ s = ⟨n, false⟩ := by
    intro n s hs
    by_cases hn : n ≤ T.net.inputs.length
    · rw [h.low n hn] at hs
      exact ⟨hn, by simpa using hs.symm⟩
    · have hl := (List.getElem?_eq_some_iff.1 hs).1
      rw [h.mlen] at hl
      rw [h.high n (by omega) hl] at hs; cases hs
  have hng : ∀ n, n ≤ T.net.inputs.length → ¬ T.Gate n := by
    rintro n hn ⟨a, b, g⟩
    exact g.2.1 (hi.mem.2 ⟨by have := g.1; omega, hn⟩)
  refine ⟨h.built, h.inputs, h.numPis, by rw [h.equivs]; simp, h.mlen, h.low, ?_, ?_, ?_, ?_, ?_, ?_⟩
  · intro n s hs
    obtain ⟨h1, rfl⟩ := hmap n s hs
    rw [h.nodes]
    exact ⟨rfl, by simp only; omega⟩
  · intro n n' s s' hs hs' e
    obtain ⟨_, rfl⟩ := hmap n s hs
    obtain ⟨_, rfl⟩ := hmap n' s' hs'
    exact e
  · intro j hj
    rw [h.nodes] at hj
    exact ⟨j, h.low j (by omega)⟩
  · intro n s a b hs g
    exact absurd ⟨a, b, g⟩ (hng n (hmap n s hs).1)
  · intro j i hj
    rw [h.equivs, List.getElem?_replicate] at hj
    split at hj <;> simp at hj
  · intro n k s g _ hs
    exact absurd g (hng n (hmap n s hs).1)

theorem manDup_spec {T : Choice} (hT : Inv T) (hi : InputsFirst T.net) :
    ∃ D m, manDup T = some D ∧ Copy T D m ∧ D.net.numPos = T.net.outputs.length ∧
      List.Forall₂ (fun o s => ∃ j, m[o.index]? = some (some ⟨j, false⟩) ∧ s = ⟨j, o.compl⟩) T.net.outputs D.net.outputs ∧
      ∀ (x : Nat) (t : Sig), m[x]? = some (some t) → x ≤ T.net.inputs.length ∨ ∃ o ∈ T.net.outputs, ReflTransGen T.GSucc o.index x := by
  have h := start_spec hT.wf hi
  obtain ⟨D, m, outs, e, c, _, o, p, a, f⟩ := dupOutputs_spec hT hi T.net.outputs (start T.net) (start_copy hT hi) hT.wf.outputs
  rw [h.outputs, List.nil_append] at o
  subst o
  refine ⟨D, m, e, c, by rw [p, h.numPos]; omega, a, ?_⟩
  intro x t hx
  refine (f x t hx).imp_left fun hs => ?_
  by_contra hc
  have hl := (List.getElem?_eq_some_iff.1 hs).1
  rw [h.mlen] at hl
  rw [h.high x (by omega) hl] at hs; cases hs

/-! ### Meaning -/

theorem Copy.value {T D : Choice} {m : SMap} (hT : WF T.net) (hi : InputsFirst T.net) (h : Copy T D m) {v w : Nat → Bool}
    (hv : T.net.Models v) (hw : D.net.Models w) (hx : ∀ i ∈ T.net.inputs, v i = w i) :
    ∀ (n : Nat) (s : Sig), m[n]? = some (some s) → w s.index = v n := by
  intro n
  induction n using Nat.strong_induction_on with
  | _ n ih =>
    intro s hs
    by_cases hn : n ≤ T.net.inputs.length
    · rw [h.low n hn] at hs
      obtain rfl : _ = s := by simpa using hs
      by_cases h0 : n = 0
      · subst h0; rw [hv.const, hw.const]
      · exact (hx n (hi.mem.2 ⟨by omega, hn⟩)).symm
    · have hl : n < T.net.nodes.length := by rw [← h.mlen]; exact (List.getElem?_eq_some_iff.1 hs).1
      have g := hT.isGate_of (n := n) (by omega) (by rw [hi.mem]; omega) (List.getElem?_eq_getElem hl)
      generalize T.net.nodes[n].c0 = a at g
      generalize T.net.nodes[n].c1 = b at g
      obtain ⟨ia, ib, h1, h2, h3⟩ := h.gate n s a b hs g
      obtain ⟨l1, l2, l3, l4⟩ := hT.isGate_lt g
      have ea := ih a.index (by omega) _ h1
      have eb := ih b.index (by omega) _ h2
      rw [hv.gate n a b g, hw.gate _ _ _ h3]
      simp only at ea eb
      rcases Aig.order_cases ⟨ia, a.compl⟩ ⟨ib, b.compl⟩ with ⟨e, _⟩ | ⟨e, _⟩ <;> rw [e] <;>
        simp only [Sig.val, ea, eb]
      rw [Bool.and_comm]

theorem models_inputs {N : Aig} (hN : WF N) (x : Nat → Bool) : ∃ v, N.Models v ∧ ∀ i ∈ N.inputs, v i = x i := by
  have h := hN.consistent_value (fun k => match N.inputs[k]? with | some i => x i | none => false)
  refine ⟨_, h.models, fun i hi => ?_⟩
  obtain ⟨k, hk⟩ := List.getElem?_of_mem hi
  rw [h.input k i hk]; simp only [hk]

theorem models_zero {N : Aig} (hN : Built N) {v : Nat → Bool} (hv : N.Models v) (h0 : ∀ i ∈ N.inputs, v i = false) :
    ∀ n, n < N.nodes.length → N.phaseOf n = v n :=
  Aig.C09_phase N hN v ⟨hv, fun k i hk => h0 i (List.mem_of_getElem? hk)⟩

theorem Copy.phase {T D : Choice} {m : SMap} (hT : Built T.net) (hi : InputsFirst T.net) (h : Copy T D m) {n : Nat} {s : Sig}
    (hs : m[n]? = some (some s)) : D.net.phaseOf s.index = T.net.phaseOf n := by
  obtain ⟨v, hv, hv0⟩ := models_inputs hT.wf (fun _ => false)
  obtain ⟨w, hw, hw0⟩ := models_inputs h.wf (fun _ => false)
  rw [models_zero hT hv hv0 n (by rw [← h.mlen]; exact (List.getElem?_eq_some_iff.1 hs).1),
    models_zero h.built hw hw0 _ (h.pos _ _ hs).2]
  refine h.value hT.wf hi hv hw ?_ n s hs
  intro i hi'
  rw [hv0 i hi', hw0 i (by rw [h.inputs]; exact hi')]

theorem Copy.ordered {T D : Choice} {m : SMap} (h : Copy T D m) : D.Ordered := by
  refine ⟨?_, ?_⟩
  · rw [h.elen, ← h.mlen]; exact surj_le h.surj
  · intro j i hj
    obtain ⟨_, _, _, _, _, _, h1, h2⟩ := h.links j i hj
    exact ⟨h1, h2⟩

theorem Copy.sound {T D : Choice} {m : SMap} (hT : Built T.net) (hi : InputsFirst T.net) (h : Copy T D m) (hS : T.Sound) : D.Sound := by
  intro j i hj w hw
  obtain ⟨n, k, g, hl, hn, hk, _, _⟩ := h.links j i hj
  obtain ⟨v, hv, hx⟩ := models_inputs hT.wf w
  have e1 := h.value hT.wf hi hv hw hx n _ hn
  have e2 := h.value hT.wf hi hv hw hx k _ hk
  have p1 := h.phase hT hi hn
  have p2 := h.phase hT hi hk
  simp only at e1 e2 p1 p2
  rw [e1, e2, p1, p2]
  exact hS n k hl v hv

end Verif.Choice
