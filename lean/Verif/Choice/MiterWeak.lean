import Verif.Props.C41

set_option autoImplicit false

/-!
# The choice miter of one good network and any others (helper lemmas)

Only the first network needs to be constructed by the interface. Whatever the others are, in particular if they have been changed in place,
the miter is well-formed and has the outputs of the first network whenever the merging comes back.
-/

namespace Verif.ChoiceMiter
open Aig (IsGate Built WF Ext)

/-- all entries of the id map are nodes of the miter -/
def Within (D : Aig) (m : IdMap) : Prop := ∀ n t, m n = some t → t < D.nodes.length

theorem Within.mono {D D' : Aig} {m : IdMap} (h : Within D m) (e : Ext D D') : Within D' m :=
  fun n t hn => Nat.lt_of_lt_of_le (h n t hn) e.len

theorem Within.insert {D : Aig} {m : IdMap} (h : Within D m) {n t : Nat} (ht : t < D.nodes.length) : Within D (m.insert n t) := by
  intro j u hj
  unfold IdMap.insert at hj
  split at hj
  · obtain rfl := Option.some.inj hj
    cases hm : m n with
    | none => exact ht
    | some w => exact h n w hm
  · exact h j u hj

theorem dfs_weak (A : Aig) : ∀ (f n : Nat) (s s' : St), dfsPo A f n s = some s' → WF s.net → Within s.net s.map →
    Aig.Grown s.net s'.net ∧ Within s'.net s'.map := by
  intro f
  induction f with
  | zero => intro n s s' h; cases h
  | succ f ih =>
    intro n s s' e hw hm
    rw [dfsPo] at e
    split at e
    · obtain rfl := Option.some.inj e; exact ⟨Grown.refl hw, hm⟩
    split at e
    · obtain rfl := Option.some.inj e; exact ⟨Grown.refl hw, hm⟩
    split at e
    · cases e
    rename_i nd hnd
    split at e
    · cases e
    rename_i s1 e1
    split at e
    · cases e
    rename_i s2 e2
    obtain ⟨g1, m1⟩ := ih _ _ _ e1 hw hm
    obtain ⟨g2, m2⟩ := ih _ _ _ e2 g1.wf m1
    split at e
    · cases e
    rename_i s3 e3
    obtain rfl := Option.some.inj e
    rw [createNode, hnd] at e3
    dsimp only at e3
    split at e3
    · rename_i i0 i1 h0 h1
      obtain rfl := Option.some.inj e3
      have hs := Aig.createAnd_spec g2.wf (a := ⟨i0, nd.c0.compl⟩) (b := ⟨i1, nd.c1.compl⟩) (m2 _ _ h0) (m2 _ _ h1)
      exact ⟨Grown.trans (Grown.trans g1 g2) hs.grown, (m2.mono hs.ext).insert hs.valid⟩
    · cases e3

theorem poOne_weak {k : Nat} {D : Aig} (hD : Mit k D) {r : Rec} (hr : Within D r.map) {fuel i : Nat} {r' : Rec} {D' : Aig}
    (e : poOne fuel i r D = some (r', D')) :
    Within D' r'.map ∧ Mit k D' ∧ Ext D D' ∧ ∃ s, D'.outputs = D.outputs ++ [s] := by
  rw [poOne] at e
  split at e
  · cases e
  rename_i o ho
  split at e
  · cases e
  rename_i s es
  obtain ⟨g, hm⟩ := dfs_weak r.aig fuel _ _ _ es hD.built.wf hr
  rw [Option.some.injEq, Prod.mk.injEq] at e
  obtain ⟨rfl, rfl⟩ := e
  have hlt : (s.map o.index).getD 0 < s.net.nodes.length := by
    cases h : s.map o.index with
    | none => exact g.wf.pos
    | some t => exact hm _ _ h
  have hext := Aig.ext_createPo s.net ⟨(s.map o.index).getD 0, o.compl⟩
  have h2 : s.net.outputs = D.outputs := g.outputs
  refine ⟨(hm.insert g.wf.pos).mono hext, ⟨.po (g.built hD.built) hlt, g.inputs.trans hD.inputs, g.numPis.trans hD.numPis, ?_⟩,
    g.ext.trans hext, ⟨(s.map o.index).getD 0, o.compl⟩, ?_⟩
  · have h1 : s.net.numPos = D.numPos := g.numPos
    simp only [Aig.createPo, Aig.incFo_numPos, Aig.incFo_outputs, List.length_append, List.length_singleton]
    rw [h1, h2, hD.numPos]
  · simp only [Aig.createPo, Aig.incFo_outputs]
    rw [h2]

theorem poRow_weak {k : Nat} {fuel i : Nat} : ∀ (l : List Rec) (D : Aig) (l' : List Rec) (D' : Aig), Mit k D →
    (∀ r ∈ l, Within D r.map) → poRow fuel i l D = some (l', D') →
    (∀ r ∈ l', Within D' r.map) ∧ l'.length = l.length ∧ Mit k D' ∧ Ext D D' ∧
      ∃ outs, D'.outputs = D.outputs ++ outs ∧ outs.length = l.length := by
  intro l
  induction l with
  | nil =>
    intro D l' D' hD _ e
    rw [poRow, Option.some.injEq, Prod.mk.injEq] at e
    obtain ⟨rfl, rfl⟩ := e
    exact ⟨by simp, rfl, hD, Ext.refl _, [], by simp, rfl⟩
  | cons r l ih =>
    intro D l' D' hD hr e
    rw [poRow] at e
    split at e
    · cases e
    rename_i r1 D1 e1
    split at e
    · cases e
    rename_i l2 D2 e2
    rw [Option.some.injEq, Prod.mk.injEq] at e
    obtain ⟨rfl, rfl⟩ := e
    obtain ⟨w1, m1, x1, s, o1⟩ := poOne_weak hD (hr r (by simp)) e1
    obtain ⟨w2, n2, m2, x2, outs, o2, q2⟩ := ih D1 l2 D2 m1 (fun q hq => (hr q (by simp [hq])).mono x1) e2
    refine ⟨?_, by simp [n2], m2, x1.trans x2, s :: outs, by rw [o2, o1]; simp, by simp [q2]⟩
    intro q hq
    rcases List.mem_cons.1 hq with rfl | hq
    · exact w1.mono x2
    · exact w2 q hq

/-- the kept outputs are those of the first network, whatever the others are -/
theorem poRows_weak {k : Nat} (hk : 0 < k) {fuel : Nat} : ∀ (is : List Nat) (r0 : Rec) (l : List Rec) (D : Aig) (q : List Rec) (D' : Aig), Mit k D →
    RecGood k D r0 → (∀ r ∈ l, Within D r.map) → (r0.aig.nodes.length ≤ fuel ∧ ∀ i ∈ is, i < r0.aig.outputs.length) →
    D.outputs.length % (l.length + 1) = 0 → poRows fuel is (r0 :: l) D = some (q, D') →
    ∃ r0' l' K, q = r0' :: l' ∧ RecGood k D' r0' ∧ RecLe r0 r0' ∧ Mit k D' ∧ Ext D D' ∧
      keep (l.length + 1) 0 D'.outputs = keep (l.length + 1) 0 D.outputs ++ K ∧ List.Forall₂ (fun i s => OutAt i r0' s) is K := by
  intro is
  induction is with
  | nil =>
    intro r0 l D q D' hD hr hl hb hlen e
    rw [poRows, Option.some.injEq, Prod.mk.injEq] at e
    obtain ⟨rfl, rfl⟩ := e
    exact ⟨r0, l, [], rfl, hr, RecLe.refl r0, hD, Ext.refl _, by simp, .nil⟩
  | cons i is ih =>
    intro r0 l D q D' hD hr hl hb hlen e
    obtain ⟨r1, D1, s0, e1, g1, le1, m1, x1, o1, a1⟩ := poOne_spec hk hD hr hb.1 (hb.2 i (by simp))
    rw [poRows] at e
    split at e
    · cases e
    rename_i l2 D2 e2
    rw [poRow, e1] at e2
    dsimp only at e2
    split at e2
    · cases e2
    rename_i l3 D3 e3
    rw [Option.some.injEq, Prod.mk.injEq] at e2
    obtain ⟨rfl, rfl⟩ := e2
    obtain ⟨w3, n3, m3, x3, outs, o3, q3⟩ := poRow_weak l D1 l3 D3 m1 (fun r h => (hl r h).mono x1) e3
    have hout : D3.outputs = D.outputs ++ (s0 :: outs) := by rw [o3, o1]; simp
    have hkeep : keep (l.length + 1) 0 D3.outputs = keep (l.length + 1) 0 D.outputs ++ [s0] := by
      rw [hout, keep_append, Nat.zero_add, keep_row hlen (by omega)]
    obtain ⟨r0', l', K, rfl, g4, le4, m4, x4, k4, f4⟩ := ih r1 l3 D3 q D' m3 (g1.mono x3) w3
      ⟨by rw [le1.1]; exact hb.1, fun j hj => by rw [le1.1]; exact hb.2 j (by simp [hj])⟩
      (by rw [hout, n3, List.length_append, List.length_cons, q3, Nat.add_mod, hlen]; simp) e
    rw [n3, hkeep] at k4
    exact ⟨r0', l', s0 :: K, rfl, g4, le1.trans le4, m4, x1.trans (x3.trans x4), by rw [k4]; simp, .cons (a1.mono le4) f4⟩

/-- The outputs of the miter are those of the first network, whatever the other networks are. -/
theorem merge_weak {k : Nat} (hk : 0 < k) {A : Aig} (hA : Good k A) (hpo : A.outputs.length = A.numPos) (l : List Aig) {fuel : Nat}
    (hf : A.nodes.length ≤ fuel) {D : Aig} (e : merge fuel (A :: l) = some D) :
    D.Phased ∧ D.inputs = List.range' 1 k ∧ D.numPis = k ∧ D.outputs.length = A.outputs.length ∧ D.numPos = A.numPos ∧
      ∀ x v w, A.Consistent x v → D.Consistent x w → D.outputs.map (·.val w) = A.outputs.map (·.val v) := by
  cases l with
  | nil =>
    rw [merge] at e
    obtain rfl := Option.some.inj e
    refine ⟨hA.built.phased, hA.inputs, hA.numPis, rfl, rfl, fun x v w hv hw => ?_⟩
    apply List.map_congr_left
    intro s hs
    exact hA.built.wf.unique_val hw hv (hA.built.wf.outputs s hs)
  | cons B rest =>
    obtain ⟨hM, hMo⟩ := makePis_spec k 0 Aig.empty .empty rfl rfl rfl rfl rfl
    rw [Nat.zero_add] at hM
    have hpis : A.numPis = k := hA.numPis
    rw [merge, hpis, List.map_cons] at e
    dsimp only at e
    split at e
    · cases e
    rename_i q Q eq
    obtain rfl := Option.some.inj e
    obtain ⟨r0', l', K, rfl, g, le, m, x, hkeep, hK⟩ := poRows_weak hk _ _ _ _ _ _ hM ⟨hA, init_ok hA⟩ (by
        intro r hr n t hn
        obtain ⟨N, hN, rfl⟩ := List.mem_map.1 hr
        dsimp only at hn
        split at hn
        · rename_i h
          obtain rfl := Option.some.inj hn
          have : n ∈ (makePis k Aig.empty).inputs := by rw [hM.inputs, mem_inputs]; exact h
          obtain ⟨j, hj⟩ := List.getElem?_of_mem this
          obtain ⟨_, nd, hnd, _⟩ := hM.built.wf.input j n hj
          exact Aig.lt_of_getElem? hnd
        · cases hn)
      ⟨hf, fun i hi => by show i < A.outputs.length; rw [hpo]; exact List.mem_range.1 hi⟩ (by rw [hMo]; simp) eq
    rw [hMo, List.length_map] at hkeep
    have hkeep' : keep (A :: B :: rest).length 0 Q.outputs = K := by rw [List.length_cons, hkeep]; simp [keep]
    have hKlen : K.length = A.outputs.length := by rw [← hK.length_eq, List.length_range, hpo]
    rw [hkeep']
    refine ⟨m.built.phased.outputs fun s hs => m.built.wf.outputs s (by rw [← hkeep'] at hs; exact keep_mem _ _ _ hs), m.inputs, m.numPis, hKlen, ?_, ?_⟩
    · show Q.numPos - (Q.outputs.length - K.length) = A.numPos
      have hle : K.length ≤ Q.outputs.length := by rw [← hkeep']; exact keep_length _ _ _
      rw [m.numPos, hKlen, hpo] at *
      omega
    · intro x v w hv hw
      have hw' : Q.Consistent x w := ⟨⟨hw.models.const, fun n a b h => hw.models.gate n a b h⟩, hw.input⟩
      show K.map _ = _
      apply List.ext_getElem?
      intro i
      rw [List.getElem?_map, List.getElem?_map]
      rcases Nat.lt_or_ge i K.length with hi | hi
      · obtain ⟨s, hs⟩ : ∃ s, K[i]? = some s := ⟨_, List.getElem?_eq_getElem hi⟩
        have hri : (List.range A.numPos)[i]? = some i := by
          rw [List.getElem?_range]
          rw [hKlen, hpo] at hi
          exact hi
        obtain ⟨o, t, h1, h2, rfl⟩ := forall2_get hK i hri hs
        have hr : r0'.aig = A := le.1
        rw [hr] at h1
        have := g.2.val g.1 m.inputs (by rw [hr]; exact hv) hw' _ _ h2
        rw [hs, h1]
        simp [Sig.val, this]
      · rw [List.getElem?_eq_none hi, List.getElem?_eq_none (by omega)]
        rfl

end Verif.ChoiceMiter
