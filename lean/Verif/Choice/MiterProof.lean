import Verif.Choice.Miter
import Verif.Aig.CleanupProof
import Verif.Props.C14

set_option autoImplicit false

/-!
# The choice miter (helper lemmas)
-/

namespace Verif.ChoiceMiter
open Aig (IsGate Built WF Ext order)
open RefDeref (aigKids)
open Topo (Tfi)

/-- every network extends the empty one -/
theorem ext_empty {N : Aig} (h : Built N) : Ext Aig.empty N := by
  induction h with
  | empty => exact Ext.refl _
  | pi h ih => exact ih.trans (Aig.ext_createPi _)
  | ro h ih => exact ih.trans (Aig.ext_createRo _)
  | po _ hf ih => exact ih.trans (Aig.ext_createPo _ _)
  | ri _ hf ih => exact ih.trans (Aig.ext_createRi _ _ _)
  | and h ha hb ih => exact ih.trans (Aig.createAnd_spec h.wf ha hb).ext

theorem isPi_zero {N : Aig} (h : Built N) (hk : 0 < N.numPis) : N.isPi 0 = true := by
  obtain ⟨nd, hnd, e0, e1, _⟩ := (ext_empty h).kids 0 { c0 := ⟨0, false⟩, c1 := ⟨0, false⟩ } rfl
  simp only at e0 e1
  simp [Aig.isPi, hnd, e0, e1, Sig.data, hk]

/-- `create_and` on two different nodes other than the constant gives a gate with exactly these fanins -/
theorem createAnd_gate {N : Aig} (h : WF N) {a b : Sig} (hab : a.index ≠ b.index) (ha : a.index ≠ 0) (hb : b.index ≠ 0) :
    ∃ t, (N.createAnd a b).2 = ⟨t, false⟩ ∧ (N.createAnd a b).1.IsGate t (order a b).1 (order a b).2 ∧
      ((N.createAnd a b).1 = N ∨ t = N.nodes.length) := by
  have hne : (order a b).1.index ≠ (order a b).2.index := by
    unfold order; split <;> simp <;> omega
  have h0 : (order a b).1.index ≠ 0 := by unfold order; split <;> simpa
  unfold Aig.createAnd
  dsimp only
  rw [if_neg hne, if_neg h0]
  cases hf : N.hashFind (order a b).1 (order a b).2 with
  | some t => exact ⟨t, rfl, h.hashFind_some hf, Or.inl rfl⟩
  | none => exact ⟨N.nodes.length, rfl, (Aig.addAnd_isGate h _ _ _ _ _).2 (Or.inr ⟨rfl, rfl, rfl⟩), Or.inr rfl⟩

/-- the hypotheses on a merged network: built, no registers, inputs created before everything else -/
structure Good (k : Nat) (A : Aig) : Prop where
  built : Built A
  inputs : A.inputs = List.range' 1 k
  numPis : A.numPis = k

theorem mem_inputs {k n : Nat} : n ∈ List.range' 1 k ↔ 1 ≤ n ∧ n ≤ k := by
  rw [List.mem_range'_1]; omega

/-- the nodes of a good network -/
theorem Good.cases {k : Nat} (hk : 0 < k) {A : Aig} (h : Good k A) {n : Nat} (hn : n < A.nodes.length) :
    (A.isPi n = true ∧ (n = 0 ∨ (1 ≤ n ∧ n ≤ k))) ∨ (A.isPi n = false ∧ k < n ∧ ∃ nd, A.nodes[n]? = some nd ∧ A.IsGate n nd.c0 nd.c1) := by
  obtain ⟨nd, hnd⟩ : ∃ nd, A.nodes[n]? = some nd := ⟨_, List.getElem?_eq_getElem hn⟩
  by_cases h0 : n = 0
  · subst h0
    exact Or.inl ⟨isPi_zero h.built (by rw [h.numPis]; exact hk), Or.inl rfl⟩
  · by_cases hi : n ∈ A.inputs
    · refine Or.inl ⟨?_, Or.inr (by rw [h.inputs] at hi; exact mem_inputs.1 hi)⟩
      obtain ⟨j, hj⟩ := List.getElem?_of_mem hi
      obtain ⟨_, nd', hnd', e0, e1, _⟩ := h.built.wf.input j n hj
      have hlt := Aig.lt_of_getElem? hj
      rw [h.inputs, List.length_range'] at hlt
      simp only [Aig.isPi, hnd', e0, e1, beq_self_eq_true, Bool.true_and, decide_eq_true_iff, Sig.data_ofData]
      rw [h.numPis]; exact hlt
    · have hg := h.built.wf.isGate_of h0 hi hnd
      refine Or.inr ⟨?_, ?_, nd, hnd, hg⟩
      · have := hg.not_ci h.built.wf
        simp only [Aig.isCi, Aig.isPi, hnd] at this ⊢
        rw [this]; rfl
      · rw [h.inputs, mem_inputs] at hi
        omega

/-- what the id map of a network means: mapped gates have mapped fanins and their image is the gate of the images -/
structure RecOk (k : Nat) (D A : Aig) (m : IdMap) (vis : Nat → Bool) : Prop where
  pi : ∀ i, 1 ≤ i → i ≤ k → m i = some i
  kind : ∀ n t, m n = some t → (n = 0 ∧ t = 0) ∨ (1 ≤ n ∧ n ≤ k ∧ t = n) ∨
    ∃ a b ta tb, A.IsGate n a b ∧ m a.index = some ta ∧ m b.index = some tb ∧
      D.IsGate t (order ⟨ta, a.compl⟩ ⟨tb, b.compl⟩).1 (order ⟨ta, a.compl⟩ ⟨tb, b.compl⟩).2
  visited : ∀ n, vis n = true → ∃ t, m n = some t
  gate : ∀ n a b t, A.IsGate n a b → m n = some t → vis n = true
  inj : ∀ n n' t, m n = some t → m n' = some t → n = n'

theorem RecOk.mono {k : Nat} {D D' A : Aig} {m : IdMap} {vis : Nat → Bool} (h : RecOk k D A m vis) (e : Ext D D') :
    RecOk k D' A m vis := by
  refine ⟨h.pi, fun n t hn => ?_, h.visited, h.gate, h.inj⟩
  rcases h.kind n t hn with h | h | ⟨a, b, ta, tb, h1, h2, h3, h4⟩
  · exact Or.inl h
  · exact Or.inr (Or.inl h)
  · exact Or.inr (Or.inr ⟨a, b, ta, tb, h1, h2, h3, e.isGate h4⟩)

/-- images exist in the miter -/
theorem RecOk.lt {k : Nat} {D A : Aig} {m : IdMap} {vis : Nat → Bool} (h : RecOk k D A m vis) (hD : WF D)
    (hin : D.inputs = List.range' 1 k) {n t : Nat} (hn : m n = some t) : t < D.nodes.length := by
  rcases h.kind n t hn with ⟨_, rfl⟩ | ⟨h1, h2, rfl⟩ | ⟨a, b, ta, tb, _, _, _, g⟩
  · exact hD.pos
  · have : t ∈ D.inputs := by rw [hin, mem_inputs]; exact ⟨h1, h2⟩
    obtain ⟨j, hj⟩ := List.getElem?_of_mem this
    obtain ⟨_, nd, hnd, _⟩ := hD.input j t hj
    exact Aig.lt_of_getElem? hnd
  · exact (hD.isGate_lt g).2.2.2

/-- only the constant is mapped to the constant -/
theorem RecOk.zero {k : Nat} {D A : Aig} {m : IdMap} {vis : Nat → Bool} (h : RecOk k D A m vis) {n : Nat}
    (hn : m n = some 0) : n = 0 := by
  rcases h.kind n 0 hn with ⟨h, _⟩ | ⟨h1, _, h2⟩ | ⟨a, b, ta, tb, _, _, _, g⟩
  · exact h
  · omega
  · exact absurd rfl g.1

/-- the image has the value of the node -/
theorem RecOk.val {k : Nat} {D A : Aig} {m : IdMap} {vis : Nat → Bool} (h : RecOk k D A m vis) (hA : Good k A)
    (hin : D.inputs = List.range' 1 k) {x v w : Nat → Bool} (hv : A.Consistent x v) (hw : D.Consistent x w) :
    ∀ n t, m n = some t → v n = w t := by
  intro n
  induction n using Nat.strong_induction_on with
  | _ n ih =>
    intro t hn
    rcases h.kind n t hn with ⟨rfl, rfl⟩ | ⟨h1, h2, rfl⟩ | ⟨a, b, ta, tb, hg, ha, hb, g⟩
    · rw [hv.models.const, hw.models.const]
    · have hget : (List.range' 1 k)[t - 1]? = some t := by
        rw [List.getElem?_range' (by omega)]
        congr 1; omega
      rw [hv.input (t - 1) t (by rw [hA.inputs]; exact hget), hw.input (t - 1) t (by rw [hin]; exact hget)]
    · obtain ⟨l1, l2, l3, _⟩ := hA.built.wf.isGate_lt hg
      have va := ih a.index (by omega) ta ha
      have vb := ih b.index l3 tb hb
      rw [hv.models.gate n a b hg, hw.models.gate t _ _ g]
      unfold order
      split <;> simp [Sig.val, va, vb, Bool.and_comm]

/-- everything below a mapped node, except the constant, is mapped -/
theorem RecOk.tfi {k : Nat} {D A : Aig} {m : IdMap} {vis : Nat → Bool} (h : RecOk k D A m vis) (hA : Good k A)
    {n l : Nat} (ht : Tfi (aigKids A) n l) : ∀ t, m n = some t → l = 0 ∨ ∃ t', m l = some t' := by
  induction ht with
  | refl n => intro t hn; exact Or.inr ⟨t, hn⟩
  | step hk _ ih =>
    rename_i n j l _
    intro t hn
    rcases h.kind n t hn with ⟨rfl, _⟩ | ⟨h1, h2, _⟩ | ⟨a, b, ta, tb, hg, ha, hb, _⟩
    · simp [aigKids] at hk
    · exfalso
      have hi : n ∈ A.inputs := by rw [hA.inputs, mem_inputs]; exact ⟨h1, h2⟩
      obtain ⟨i, hi⟩ := List.getElem?_of_mem hi
      obtain ⟨_, nd, hnd, e0, e1, _⟩ := hA.built.wf.input i n hi
      simp [aigKids, Aig.isCi, hnd, e0, e1] at hk
    · obtain ⟨h0, hi, nd, hnd, hd, rfl, rfl⟩ := hg
      rw [Aig.aigKids_gate h0 (Aig.IsGate.not_ci (N := A) hA.built.wf ⟨h0, hi, nd, hnd, hd, rfl, rfl⟩) hnd] at hk
      simp only [List.mem_cons, List.not_mem_nil, or_false] at hk
      rcases hk with rfl | rfl
      · exact ih ta ha
      · exact ih tb hb

theorem insert_same (m : IdMap) {n u : Nat} (h : m n = some u) (t : Nat) : m.insert n t = m := by
  funext j
  unfold IdMap.insert
  split
  · rename_i e; subst e; rw [h]; rfl
  · rfl

theorem insert_new (m : IdMap) {n : Nat} (h : m n = none) (t j : Nat) : m.insert n t j = if j = n then some t else m j := by
  unfold IdMap.insert
  rw [h]; rfl

theorem insert_keep (m : IdMap) (n t : Nat) {j u : Nat} (h : m j = some u) : m.insert n t j = some u := by
  unfold IdMap.insert
  split
  · rename_i e; subst e; rw [h]; rfl
  · exact h

/-- the two orders of a pair -/
theorem order_eq {a b c d : Sig} (h1 : (order a b).1 = (order c d).1) (h2 : (order a b).2 = (order c d).2) :
    (a = c ∧ b = d) ∨ (a = d ∧ b = c) := by
  unfold order at h1 h2
  split at h1 <;> split at h1 <;> simp_all

/-- a new gate in the id map -/
theorem RecOk.add {k : Nat} {D A : Aig} {m : IdMap} {vis : Nat → Bool} (h : RecOk k D A m vis) (hA : Good k A) (hD : WF D)
    (hin : D.inputs = List.range' 1 k) {n : Nat} {a b : Sig} (hg : A.IsGate n a b) (hkn : k < n) (hn : m n = none) {ta tb : Nat}
    (ha : m a.index = some ta) (hb : m b.index = some tb) :
    RecOk k (D.createAnd ⟨ta, a.compl⟩ ⟨tb, b.compl⟩).1 A
      (m.insert n (D.createAnd ⟨ta, a.compl⟩ ⟨tb, b.compl⟩).2.index) (fun j => if j = n then true else vis j) := by
  obtain ⟨l1, l2, l3, _⟩ := hA.built.wf.isGate_lt hg
  have hta : ta ≠ 0 := fun e => by subst e; have := h.zero ha; omega
  have htb : tb ≠ 0 := fun e => by subst e; have := h.zero hb; omega
  have hne : ta ≠ tb := fun e => by subst e; have := h.inj _ _ _ ha hb; omega
  obtain ⟨t, et, gt, hfresh⟩ := createAnd_gate hD (a := ⟨ta, a.compl⟩) (b := ⟨tb, b.compl⟩) hne hta htb
  have hext := (Aig.createAnd_spec hD (a := ⟨ta, a.compl⟩) (b := ⟨tb, b.compl⟩) (h.lt hD hin ha) (h.lt hD hin hb)).ext
  have hin' := (Aig.createAnd_spec hD (a := ⟨ta, a.compl⟩) (b := ⟨tb, b.compl⟩) (h.lt hD hin ha) (h.lt hD hin hb)).inputs
  have hh := h.mono hext
  rw [et]
  have hkeep : ∀ {j u}, m j = some u → m.insert n t j = some u := fun h => insert_keep m n t h
  have hnew : ∀ n', m n' = some t → False := by
    intro n' hn'
    rcases hfresh with e | e
    · rcases hh.kind n' t hn' with ⟨_, rfl⟩ | ⟨h1, h2, rfl⟩ | ⟨a', b', ta', tb', hg', ha', hb', g'⟩
      · exact gt.1 rfl
      · exact gt.2.1 (by rw [hin', hin, mem_inputs]; exact ⟨h1, h2⟩)
      · obtain ⟨_, _, nd, hnd, _, e1, e2⟩ := gt
        obtain ⟨_, _, nd', hnd', _, e3, e4⟩ := g'
        rw [hnd] at hnd'
        obtain rfl := Option.some.inj hnd'
        have hA' := hA.built.wf.isGate_lt hg'
        rcases order_eq (e1.symm.trans e3) (e2.symm.trans e4) with ⟨p, q⟩ | ⟨p, q⟩
        · simp only [Sig.mk.injEq] at p q
          have pa : a = a' := by
            have := h.inj _ _ _ ha (by rw [p.1]; exact ha')
            cases a; cases a'; simp_all
          have pb : b = b' := by
            have := h.inj _ _ _ hb (by rw [q.1]; exact hb')
            cases b; cases b'; simp_all
          subst pa; subst pb
          have := hA.built.wf.uniq n n' _ _ hg hg'
          subst this
          rw [hn] at hn'; simp at hn'
        · simp only [Sig.mk.injEq] at p q
          have pa := h.inj _ _ _ ha (by rw [p.1]; exact hb')
          have pb := h.inj _ _ _ hb (by rw [q.1]; exact ha')
          omega
    · have := h.lt hD hin hn'
      omega
  refine ⟨?_, ?_, ?_, ?_, ?_⟩
  · intro i h1 h2
    exact hkeep (h.pi i h1 h2)
  · intro n' t' e
    dsimp only at e
    rw [insert_new m hn] at e
    split at e
    · rename_i en
      obtain rfl := Option.some.inj e
      subst en
      exact Or.inr (Or.inr ⟨a, b, ta, tb, hg, hkeep ha, hkeep hb, gt⟩)
    · rcases hh.kind n' t' e with h | h | ⟨a', b', ta', tb', h1, h2, h3, h4⟩
      · exact Or.inl h
      · exact Or.inr (Or.inl h)
      · exact Or.inr (Or.inr ⟨a', b', ta', tb', h1, hkeep h2, hkeep h3, h4⟩)
  · intro j hj
    split at hj
    · rename_i e
      subst e
      exact ⟨t, by dsimp only; rw [insert_new m hn, if_pos rfl]⟩
    · obtain ⟨u, hu⟩ := h.visited j hj
      exact ⟨u, hkeep hu⟩
  · intro j c d u hgj e
    dsimp only at e ⊢
    rw [insert_new m hn] at e
    split
    · rfl
    · rename_i hne
      rw [if_neg hne] at e
      exact h.gate j c d u hgj e
  · intro j j' u e e'
    dsimp only at e e'
    rw [insert_new m hn] at e e'
    split at e <;> split at e'
    · omega
    · obtain rfl := Option.some.inj e
      exact absurd e' (fun h => hnew _ h)
    · obtain rfl := Option.some.inj e'
      exact absurd e (fun h => hnew _ h)
    · exact h.inj _ _ _ e e'

theorem Grown.trans {A B C : Aig} (h : Aig.Grown A B) (h' : Aig.Grown B C) : Aig.Grown A C :=
  ⟨h'.wf, h.ext.trans h'.ext, h'.inputs.trans h.inputs, h'.outputs.trans h.outputs, h'.numPis.trans h.numPis,
    h'.numPos.trans h.numPos, h'.latches.trans h.latches, fun x => h'.built (h.built x)⟩

theorem Grown.refl {A : Aig} (h : WF A) : Aig.Grown A A := ⟨h, Ext.refl _, rfl, rfl, rfl, rfl, rfl, id⟩

/-- the traversal ends, keeps the meaning of the id map and maps the node it starts from -/
theorem dfs_spec {k : Nat} (hk : 0 < k) {A : Aig} (hA : Good k A) : ∀ (f n : Nat) (s : St), n < f → n < A.nodes.length →
    Built s.net → s.net.inputs = List.range' 1 k → RecOk k s.net A s.map s.vis →
    ∃ s', dfsPo A f n s = some s' ∧ Aig.Grown s.net s'.net ∧ RecOk k s'.net A s'.map s'.vis ∧
      (∀ j t, s.map j = some t → s'.map j = some t) ∧ (n ≠ 0 → ∃ t, s'.map n = some t) := by
  intro f
  induction f with
  | zero => intro n s h; omega
  | succ f ih =>
    intro n s hf hn hB hin hok
    rw [dfsPo]
    rcases hA.cases hk hn with ⟨hpi, hc⟩ | ⟨hpi, hkn, nd, hnd, hg⟩
    · rw [if_pos hpi]
      refine ⟨s, rfl, Grown.refl hB.wf, hok, fun _ _ h => h, fun h0 => ?_⟩
      rcases hc with h | ⟨h1, h2⟩
      · exact absurd h h0
      · exact ⟨n, hok.pi n h1 h2⟩
    · rw [if_neg (by rw [hpi]; simp)]
      by_cases hv : s.vis n = true
      · rw [if_pos hv]
        exact ⟨s, rfl, Grown.refl hB.wf, hok, fun _ _ h => h, fun _ => hok.visited n hv⟩
      · rw [if_neg hv, hnd]
        dsimp only
        obtain ⟨l1, l2, l3, _⟩ := hA.built.wf.isGate_lt hg
        obtain ⟨s1, e1, g1, r1, k1, m1⟩ := ih nd.c0.index s (by omega) (by omega) hB hin hok
        rw [e1]
        dsimp only
        obtain ⟨s2, e2, g2, r2, k2, m2⟩ := ih nd.c1.index s1 (by omega) (by omega) (g1.built hB) (g1.inputs.trans hin) r1
        rw [e2]
        dsimp only
        obtain ⟨ta, ha⟩ := m1 (by omega)
        have ha := k2 _ _ ha
        obtain ⟨tb, hb⟩ := m2 (by omega)
        have hg12 := Grown.trans g1 g2
        have hin2 : s2.net.inputs = List.range' 1 k := hg12.inputs.trans hin
        have hspec := Aig.createAnd_spec hg12.wf (a := ⟨ta, nd.c0.compl⟩) (b := ⟨tb, nd.c1.compl⟩)
          (r2.lt hg12.wf hin2 ha) (r2.lt hg12.wf hin2 hb)
        rw [createNode, hnd]
        dsimp only
        rw [ha, hb]
        dsimp only
        refine ⟨_, rfl, Grown.trans hg12 hspec.grown, ?_, ?_, ?_⟩
        · cases hm : s2.map n with
          | some u =>
            rw [insert_same _ hm]
            have := r2.mono hspec.ext
            refine ⟨this.pi, this.kind, fun j hj => ?_, fun j c d t h1 h2 => ?_, this.inj⟩
            · dsimp only at hj
              split at hj
              · rename_i e; subst e; exact ⟨u, hm⟩
              · exact this.visited j hj
            · dsimp only
              split
              · rfl
              · exact this.gate j c d t h1 h2
          | none => exact r2.add hA hg12.wf hin2 hg hkn hm ha hb
        · intro j t hj
          exact insert_keep _ _ _ (k2 _ _ (k1 _ _ hj))
        · intro _
          cases hm : s2.map n with
          | some u => exact ⟨u, insert_keep _ _ _ hm⟩
          | none => exact ⟨_, by dsimp only; rw [insert_new _ hm, if_pos rfl]⟩

/-! ### outputs -/

/-- the id map after `id_map[0]` -/
theorem RecOk.addZero {k : Nat} {D A : Aig} {m : IdMap} {vis : Nat → Bool} (h : RecOk k D A m vis) : RecOk k D A (m.insert 0 0) vis := by
  cases hm : m 0 with
  | some u => rw [insert_same _ hm]; exact h
  | none =>
    have hz : ∀ n, m n = some 0 → False := fun n hn => by
      have := h.zero hn; subst this; rw [hm] at hn; simp at hn
    refine ⟨fun i h1 h2 => insert_keep _ _ _ (h.pi i h1 h2), fun n t e => ?_, fun n hn => ?_, fun n a b t hg e => ?_, fun n n' t e e' => ?_⟩
    · rw [insert_new _ hm] at e
      split at e
      · exact Or.inl ⟨by assumption, (Option.some.inj e).symm⟩
      · rcases h.kind n t e with h | h | ⟨a, b, ta, tb, h1, h2, h3, h4⟩
        · exact Or.inl h
        · exact Or.inr (Or.inl h)
        · exact Or.inr (Or.inr ⟨a, b, ta, tb, h1, insert_keep _ _ _ h2, insert_keep _ _ _ h3, h4⟩)
    · obtain ⟨t, ht⟩ := h.visited n hn
      exact ⟨t, insert_keep _ _ _ ht⟩
    · rw [insert_new _ hm, if_neg hg.1] at e
      exact h.gate n a b t hg e
    · rw [insert_new _ hm] at e e'
      split at e <;> split at e'
      · omega
      · obtain rfl := Option.some.inj e; exact absurd e' (fun h => hz _ h)
      · obtain rfl := Option.some.inj e'; exact absurd e (fun h => hz _ h)
      · exact h.inj _ _ _ e e'

/-- a network, its id map and the miter -/
def RecGood (k : Nat) (D : Aig) (r : Rec) : Prop := Good k r.aig ∧ RecOk k D r.aig r.map r.vis

/-- the same network with a larger id map -/
def RecLe (r r' : Rec) : Prop := r'.aig = r.aig ∧ ∀ n t, r.map n = some t → r'.map n = some t

/-- `s` is the image of output `i` -/
def OutAt (i : Nat) (r : Rec) (s : Sig) : Prop := ∃ o t, r.aig.outputs[i]? = some o ∧ r.map o.index = some t ∧ s = ⟨t, o.compl⟩

theorem OutAt.mono {i : Nat} {r r' : Rec} {s : Sig} (h : OutAt i r s) (hl : RecLe r r') : OutAt i r' s := by
  obtain ⟨o, t, h1, h2, h3⟩ := h
  exact ⟨o, t, by rw [hl.1]; exact h1, hl.2 _ _ h2, h3⟩

/-- the miter under construction -/
structure Mit (k : Nat) (D : Aig) : Prop where
  built : Built D
  inputs : D.inputs = List.range' 1 k
  numPis : D.numPis = k
  numPos : D.numPos = D.outputs.length

theorem poOne_spec {k : Nat} (hk : 0 < k) {D : Aig} (hD : Mit k D) {r : Rec} (hr : RecGood k D r) {fuel i : Nat}
    (hf : r.aig.nodes.length ≤ fuel) (hi : i < r.aig.outputs.length) :
    ∃ r' D' s, poOne fuel i r D = some (r', D') ∧ RecGood k D' r' ∧ RecLe r r' ∧ Mit k D' ∧ Ext D D' ∧
      D'.outputs = D.outputs ++ [s] ∧ OutAt i r' s := by
  obtain ⟨o, ho⟩ : ∃ o, r.aig.outputs[i]? = some o := ⟨_, List.getElem?_eq_getElem hi⟩
  have hval := hr.1.built.wf.outputs o (List.mem_of_getElem? ho)
  simp only [Aig.Valid] at hval
  obtain ⟨s, e, g, ok, keep, hm⟩ := dfs_spec hk hr.1 fuel o.index ⟨D, r.map, r.vis⟩ (by omega) hval hD.built hD.inputs hr.2
  rw [poOne, ho]
  dsimp only
  rw [e]
  dsimp only
  have hin : s.net.inputs = List.range' 1 k := g.inputs.trans hD.inputs
  -- the entry of the output
  obtain ⟨t, ht, ok', htm⟩ : ∃ t, (s.map o.index).getD 0 = t ∧ RecOk k s.net r.aig (s.map.insert o.index 0) s.vis ∧
      s.map.insert o.index 0 o.index = some t := by
    by_cases h0 : o.index = 0
    · rw [h0]
      refine ⟨_, rfl, ok.addZero, ?_⟩
      simp [IdMap.insert]
    · obtain ⟨t, ht⟩ := hm h0
      exact ⟨t, by rw [ht]; rfl, by rw [insert_same _ ht]; exact ok, insert_keep _ _ _ ht⟩
  have htl := ok'.lt g.wf hin htm
  have hext := Aig.ext_createPo s.net ⟨(s.map o.index).getD 0, o.compl⟩
  refine ⟨_, _, ⟨(s.map o.index).getD 0, o.compl⟩, rfl, ⟨hr.1, ok'.mono hext⟩, ⟨rfl, fun n t hn => insert_keep _ _ _ (keep n t hn)⟩,
    ⟨.po (g.built hD.built) (by rw [ht]; exact htl), hin, g.numPis.trans hD.numPis, ?_⟩, g.ext.trans hext, ?_, ⟨o, t, ho, htm, by rw [ht]⟩⟩
  · have h1 : s.net.numPos = D.numPos := g.numPos
    have h2 : s.net.outputs = D.outputs := g.outputs
    simp only [Aig.createPo, Aig.incFo_numPos, Aig.incFo_outputs, List.length_append, List.length_singleton]
    rw [h1, h2, hD.numPos]
  · have h2 : s.net.outputs = D.outputs := g.outputs
    simp only [Aig.createPo, Aig.incFo_outputs]
    rw [h2]

theorem RecGood.mono {k : Nat} {D D' : Aig} {r : Rec} (h : RecGood k D r) (e : Ext D D') : RecGood k D' r := ⟨h.1, h.2.mono e⟩

theorem poRow_spec {k : Nat} (hk : 0 < k) {fuel i : Nat} : ∀ (l : List Rec) (D : Aig), Mit k D → (∀ r ∈ l, RecGood k D r) →
    (∀ r ∈ l, r.aig.nodes.length ≤ fuel ∧ i < r.aig.outputs.length) →
    ∃ l' D' outs, poRow fuel i l D = some (l', D') ∧ (∀ r ∈ l', RecGood k D' r) ∧ List.Forall₂ RecLe l l' ∧ Mit k D' ∧ Ext D D' ∧
      D'.outputs = D.outputs ++ outs ∧ List.Forall₂ (OutAt i) l' outs := by
  intro l
  induction l with
  | nil => intro D hD _ _; exact ⟨[], D, [], rfl, by simp, .nil, hD, Ext.refl _, by simp, .nil⟩
  | cons r l ih =>
    intro D hD hr hl
    obtain ⟨r', D1, s, e1, g1, le1, m1, x1, o1, a1⟩ := poOne_spec hk hD (hr r (by simp)) (hl r (by simp)).1 (hl r (by simp)).2
    obtain ⟨l', D', outs, e2, g2, le2, m2, x2, o2, a2⟩ := ih D1 m1 (fun q hq => (hr q (by simp [hq])).mono x1) (fun q hq => hl q (by simp [hq]))
    refine ⟨r' :: l', D', s :: outs, by rw [poRow, e1]; dsimp only; rw [e2], ?_, .cons le1 le2, m2, x1.trans x2, ?_, .cons a1 a2⟩
    · intro q hq
      rcases List.mem_cons.1 hq with rfl | hq
      · exact g1.mono x2
      · exact g2 q hq
    · rw [o2, o1]; simp

theorem keep_append (s : Nat) : ∀ (l l2 : List Sig) (c : Nat), keep s c (l ++ l2) = keep s c l ++ keep s (c + l.length) l2 := by
  intro l
  induction l with
  | nil => intro l2 c; simp [keep]
  | cons o l ih =>
    intro l2 c
    rw [List.cons_append, keep, keep, ih, List.length_cons, show c + 1 + l.length = c + (l.length + 1) by omega]
    split <;> simp

theorem keep_length (s : Nat) : ∀ (l : List Sig) (c : Nat), (keep s c l).length ≤ l.length := by
  intro l
  induction l with
  | nil => intro c; simp [keep]
  | cons o l ih =>
    intro c
    rw [keep]
    split
    · exact Nat.le_trans (ih _) (Nat.le_succ _)
    · rw [List.length_cons, List.length_cons]
      exact Nat.succ_le_succ (ih _)

theorem forall2_get {α β : Type} {R : α → β → Prop} {l : List α} {m : List β} (h : List.Forall₂ R l m) :
    ∀ (i : Nat) {a : α} {b : β}, l[i]? = some a → m[i]? = some b → R a b := by
  induction h with
  | nil => intro i a b h; simp at h
  | cons h0 _ ih =>
    intro i a b ha hb
    cases i with
    | zero =>
      rw [List.getElem?_cons_zero] at ha hb
      cases ha; cases hb
      exact h0
    | succ i => exact ih i (by simpa using ha) (by simpa using hb)

theorem keep_none (s : Nat) : ∀ (l : List Sig) (c : Nat), 0 < c % s → c % s + l.length ≤ s → keep s c l = [] := by
  intro l
  induction l with
  | nil => intro c _ _; rfl
  | cons o l ih =>
    intro c h1 h2
    rw [List.length_cons] at h2
    rw [keep, if_pos (by omega)]
    cases l with
    | nil => rfl
    | cons o' l =>
      rw [List.length_cons] at h2
      have : (c + 1) % s = c % s + 1 := by
        rw [Nat.add_mod, Nat.mod_eq_of_lt (a := 1) (by omega), Nat.mod_eq_of_lt (by omega)]
      exact ih (c + 1) (by omega) (by rw [this, List.length_cons]; omega)

/-- of a row of outputs only the first is kept -/
theorem keep_row {s c : Nat} (hc : c % s = 0) {o : Sig} {l : List Sig} (hl : l.length + 1 = s) : keep s c (o :: l) = [o] := by
  rw [keep, if_neg (by omega)]
  cases l with
  | nil => rfl
  | cons o' l =>
    rw [List.length_cons] at hl
    have : (c + 1) % s = 1 := by
      rw [Nat.add_mod, hc, Nat.zero_add, Nat.mod_mod, Nat.mod_eq_of_lt (by omega)]
    rw [keep_none s _ (c + 1) (by omega) (by rw [this, List.length_cons]; omega)]

theorem RecLe.refl (r : Rec) : RecLe r r := ⟨rfl, fun _ _ h => h⟩

theorem RecLe.trans {a b c : Rec} (h : RecLe a b) (h' : RecLe b c) : RecLe a c :=
  ⟨h'.1.trans h.1, fun n t hn => h'.2 n t (h.2 n t hn)⟩

theorem forall2_trans : ∀ {a b c : List Rec}, List.Forall₂ RecLe a b → List.Forall₂ RecLe b c → List.Forall₂ RecLe a c := by
  intro a
  induction a with
  | nil => intro b c h h'; cases h; cases h'; exact .nil
  | cons x a ih =>
    intro b c h h'
    cases h with
    | cons h1 h2 => cases h' with
      | cons h3 h4 => exact .cons (h1.trans h3) (ih h2 h4)

theorem forall2_mem {α γ : Type} {R : α → γ → Prop} {a : List α} {b : List γ} (h : List.Forall₂ R a b) :
    ∀ y ∈ b, ∃ x ∈ a, R x y := by
  induction h with
  | nil => simp
  | cons h1 _ ih =>
    intro y hy
    rcases List.mem_cons.1 hy with rfl | hy
    · exact ⟨_, by simp, h1⟩
    · obtain ⟨x, hx, hr⟩ := ih y hy
      exact ⟨x, by simp [hx], hr⟩

/-- every output of every network gets an image; the first network's images are the kept outputs -/
theorem poRows_spec {k : Nat} (hk : 0 < k) {fuel : Nat} : ∀ (is : List Nat) (r0 : Rec) (l : List Rec) (D : Aig), Mit k D →
    (∀ r ∈ r0 :: l, RecGood k D r) → (∀ r ∈ r0 :: l, r.aig.nodes.length ≤ fuel ∧ ∀ i ∈ is, i < r.aig.outputs.length) →
    D.outputs.length % (l.length + 1) = 0 →
    ∃ r0' l' D' K, poRows fuel is (r0 :: l) D = some (r0' :: l', D') ∧ (∀ r ∈ r0' :: l', RecGood k D' r) ∧
      List.Forall₂ RecLe (r0 :: l) (r0' :: l') ∧ Mit k D' ∧ Ext D D' ∧
      keep (l.length + 1) 0 D'.outputs = keep (l.length + 1) 0 D.outputs ++ K ∧ List.Forall₂ (fun i s => OutAt i r0' s) is K ∧
      ∀ r ∈ r0' :: l', ∀ i ∈ is, ∃ s, OutAt i r s := by
  intro is
  induction is with
  | nil =>
    intro r0 l D hD hr hl hlen
    refine ⟨r0, l, D, [], rfl, hr, ?_, hD, Ext.refl _, by simp, .nil, by simp⟩
    exact List.forall₂_same.2 fun r _ => RecLe.refl r
  | cons i is ih =>
    intro r0 l D hD hr hl hlen
    obtain ⟨l1, D1, outs, e1, g1, le1, m1, x1, o1, a1⟩ := poRow_spec hk (fuel := fuel) (i := i) (r0 :: l) D hD hr
      (fun r h => ⟨(hl r h).1, (hl r h).2 i (by simp)⟩)
    cases le1 with
    | @cons _ q0 _ q h0 h1 =>
      cases a1 with
      | @cons _ s0 _ ss a0 as =>
        have hlq : q.length = l.length := h1.length_eq.symm
        have hls : ss.length = l.length := by rw [← as.length_eq, hlq]
        have hkeep : keep (l.length + 1) 0 D1.outputs = keep (l.length + 1) 0 D.outputs ++ [s0] := by
          rw [o1, keep_append, Nat.zero_add, keep_row hlen (by omega)]
        obtain ⟨r0', l', D', K, e2, g2, le2, m2, x2, k2, f2, all2⟩ := ih q0 q D1 m1 g1 (by
            intro r hrr
            obtain ⟨x, hx, hle⟩ := forall2_mem (List.Forall₂.cons h0 h1) r hrr
            rw [hle.1]
            exact ⟨(hl x hx).1, fun j hj => (hl x hx).2 j (by simp [hj])⟩)
          (by rw [o1, hlq, List.length_append, List.length_cons, hls, Nat.add_mod, hlen]; simp)
        rw [hlq, hkeep] at k2
        refine ⟨r0', l', D', s0 :: K, by rw [poRows, e1]; exact e2, g2, forall2_trans (.cons h0 h1) le2, m2, x1.trans x2, by rw [k2]; simp, ?_, ?_⟩
        · cases le2 with
          | cons b0 _ => exact .cons (a0.mono b0) f2
        · intro r hrr j hj
          rcases List.mem_cons.1 hj with rfl | hj
          · obtain ⟨x, hx, hle⟩ := forall2_mem le2 r hrr
            have : ∃ s, OutAt j x s := by
              rcases List.mem_cons.1 hx with rfl | hx
              · exact ⟨_, a0⟩
              · obtain ⟨s, hs, hh⟩ := forall2_mem as.flip x hx
                exact ⟨s, hh⟩
            obtain ⟨s, hs⟩ := this
            exact ⟨s, hs.mono hle⟩
          · exact all2 r hrr j hj

theorem makePis_spec : ∀ (k j : Nat) (D : Aig), Built D → D.nodes.length = j + 1 → D.inputs = List.range' 1 j → D.numPis = j →
    D.outputs = [] → D.numPos = 0 →
    Mit (j + k) (makePis k D) ∧ (makePis k D).outputs = [] := by
  intro k
  induction k with
  | zero => intro j D h1 h2 h3 h4 h5 h6; exact ⟨⟨h1, h3, h4, by rw [makePis, h5, h6]; rfl⟩, h5⟩
  | succ k ih =>
    intro j D h1 h2 h3 h4 h5 h6
    have := ih (j + 1) D.createPi.1 (.pi h1) (by simp [Aig.createPi, h2]) (by
      simp only [Aig.createPi, h3, h2]
      rw [List.range'_concat]; simp [Nat.add_comm]) (by simp [Aig.createPi, h4]) (by simp [Aig.createPi, h5]) (by simp [Aig.createPi, h6])
    rw [show j + 1 + k = j + (k + 1) by omega] at this
    exact this

/-- the id maps at the start -/
theorem init_ok {k : Nat} {D A : Aig} (hA : Good k A) :
    RecOk k D A (fun n => if 1 ≤ n ∧ n ≤ k then some n else none) (fun _ => false) := by
  refine ⟨fun i h1 h2 => if_pos ⟨h1, h2⟩, fun n t e => ?_, by simp, fun n a b t hg e => ?_, fun n n' t e e' => ?_⟩
  · split at e
    · rename_i h
      exact Or.inr (Or.inl ⟨h.1, h.2, (Option.some.inj e).symm⟩)
    · simp at e
  · split at e
    · rename_i h
      exact absurd (by rw [hA.inputs, mem_inputs]; exact h) hg.2.1
    · simp at e
  · split at e <;> split at e' <;> simp_all

end Verif.ChoiceMiter
