import Verif.Sim.Partial
import Verif.Aig.Spec
import Verif.Aig.Inv
import Verif.Props.AigInv

set_option autoImplicit false

/-!
# Simulation with partial truth tables: proofs

`row v n l` is the table of the values of node `n` under the first `l` patterns.
-/

namespace Verif.PSim

open Verif Verif.Aig

/-- the values of node `n` under the first `l` patterns; `v p` is the valuation of the nodes under pattern
`p` -/
def row (v : Nat → Nat → Bool) (n l : Nat) : Tab := (List.range l).map fun p => v p n

@[simp] theorem row_length (v : Nat → Nat → Bool) (n l : Nat) : (row v n l).length = l := by simp [row]

theorem row_get {v : Nat → Nat → Bool} {n l p : Nat} (h : p < l) : (row v n l)[p]? = some (v p n) := by
  simp [row, h]

theorem row_none {v : Nat → Nat → Bool} {n l p : Nat} (h : l ≤ p) : (row v n l)[p]? = none := by
  simp [row, h]

/-- Every value of the map is the row of its node for a number of patterns that reaches the last block. -/
def Kept (N : Aig) (v : Nat → Nat → Bool) (L : Nat) (m : Map) : Prop :=
  ∀ (n : Nat) (t : Tab), n < N.nodes.length → m n = some t → ∃ l, t = row v n l ∧ lastStart L ≤ l ∧ l ≤ L

/-- The constant node and the inputs have their values for all patterns. -/
def Ready (N : Aig) (v : Nat → Nat → Bool) (L : Nat) (m : Map) : Prop :=
  m 0 = some (row v 0 L) ∧ ∀ n ∈ N.inputs, m n = some (row v n L)

/-- what a step does: a value stays, or it becomes the row for all patterns -/
def Upd (v : Nat → Nat → Bool) (L : Nat) (m m' : Map) : Prop :=
  ∀ n, m' n = m n ∨ m' n = some (row v n L)

theorem Upd.refl {v : Nat → Nat → Bool} {L : Nat} (m : Map) : Upd v L m m := fun _ => Or.inl rfl

theorem Upd.trans {v : Nat → Nat → Bool} {L : Nat} {m m' m'' : Map} (h : Upd v L m m')
    (h' : Upd v L m' m'') : Upd v L m m'' := by
  intro n
  rcases h' n with e | e
  · rw [e]; exact h n
  · exact Or.inr e

theorem Upd.full {v : Nat → Nat → Bool} {L : Nat} {m m' : Map} (h : Upd v L m m') {n : Nat}
    (e : m n = some (row v n L)) : m' n = some (row v n L) := by
  rcases h n with e' | e'
  · rw [e', e]
  · exact e'

theorem Upd.known {v : Nat → Nat → Bool} {L : Nat} {m m' : Map} (h : Upd v L m m') {n : Nat}
    (e : ∃ t, m n = some t) : ∃ t, m' n = some t := by
  rcases h n with e' | e'
  · rw [e']; exact e
  · exact ⟨_, e'⟩

theorem Upd.ready {N : Aig} {v : Nat → Nat → Bool} {L : Nat} {m m' : Map}
    (h : Upd v L m m') (hr : Ready N v L m) : Ready N v L m' :=
  ⟨h.full hr.1, fun n hn => h.full (hr.2 n hn)⟩

theorem Upd.kept {N : Aig} {v : Nat → Nat → Bool} {L : Nat} {m m' : Map}
    (h : Upd v L m m') (hk : Kept N v L m) (hL : lastStart L ≤ L) : Kept N v L m' := by
  intro n t hn ht
  rcases h n with e | e
  · exact hk n t hn (by rw [← e]; exact ht)
  · rw [e] at ht; cases ht; exact ⟨L, rfl, hL, Nat.le_refl _⟩

theorem lastStart_lt {L : Nat} (h : 0 < L) : lastStart L < L := by unfold lastStart; omega

theorem lastStart_mono {a b : Nat} (h : a ≤ b) : lastStart a ≤ lastStart b := by unfold lastStart; omega

theorem computeAll_row {v : Nat → Nat → Bool} {n L : Nat} {a b : Sig}
    (h : ∀ p < L, v p n = (a.val (v p) && b.val (v p))) :
    computeAll a b (row v a.index L) (row v b.index L) = some (row v n L) := by
  unfold computeAll
  rw [if_pos (by simp)]
  congr 1
  apply List.ext_getElem (by simp)
  intro p h1 h2
  simp only [row_length] at h2
  simp [row, h p h2, Sig.val, Bool.xor_comm]

theorem lastBit_row {v : Nat → Nat → Bool} {n L j : Nat} (h : lastStart L + j < L) :
    lastBit (row v n L) j = v (lastStart L + j) n := by
  unfold lastBit
  rw [row_length, row_get h]

theorem computeLast_row {v : Nat → Nat → Bool} {n L l : Nat} {a b : Sig} (hL : 0 < L)
    (h : ∀ p < L, v p n = (a.val (v p) && b.val (v p))) (hl : lastStart L ≤ l) (hl' : l ≤ L) :
    computeLast a b (row v n l) (row v a.index L) (row v b.index L) = some (row v n L) := by
  have hs := lastStart_lt hL
  unfold computeLast
  rw [if_neg (by simp; omega)]
  simp only [row_length]
  congr 1
  apply List.ext_getElem (by simp [resize]; omega)
  intro p h1 h2
  simp only [row_length] at h2
  by_cases hp : p < lastStart L
  · rw [List.getElem_append_left (by simp [resize]; omega)]
    rw [List.getElem_take]
    simp only [resize]
    rw [List.getElem_append_left (by simp; omega)]
    simp [row]
  · rw [List.getElem_append_right (by simp [resize]; omega)]
    have e : (List.take (lastStart L) (resize (row v n l) L)).length = lastStart L := by
      simp [resize]; omega
    simp only [e, List.getElem_map, List.getElem_range]
    rw [lastBit_row (by omega), lastBit_row (by omega)]
    have e2 : lastStart L + (p - lastStart L) = p := by omega
    rw [e2]
    simp [row, h p h2, Sig.val, Bool.xor_comm]

theorem get_eq {m : Map} {n : Nat} {t : Tab} (h : m n = some t) : get m n = t := by simp [get, h]

theorem set_same (m : Map) (n : Nat) (t : Tab) : set m n t n = some t := by simp [set]

theorem set_other (m : Map) {n k : Nat} (t : Tab) (h : k ≠ n) : set m n t k = m k := by simp [set, h]

theorem upd_set {v : Nat → Nat → Bool} {L : Nat} (m : Map) (n : Nat) :
    Upd v L m (set m n (row v n L)) := by
  intro k
  by_cases e : k = n
  · subst e; exact Or.inr (set_same _ _ _)
  · exact Or.inl (set_other _ _ e)

theorem row_inj {v : Nat → Nat → Bool} {n l L : Nat} (h : (row v n l).length = L) : row v n l = row v n L := by
  rw [row_length] at h; rw [h]

theorem cone_spec {N : Aig} {v : Nat → Nat → Bool} {L : Nat} (hw : WF N) (hL : 0 < L)
    (hv : ∀ p < L, N.Models (v p)) : ∀ (fuel : Nat) (fresh : Bool) (n : Nat) (m : Map), n < fuel →
    (∃ a b, N.IsGate n a b) → Kept N v L m → Ready N v L m → (fresh = false → ∃ t, m n = some t) →
    ∃ m', cone N L fuel fresh n m = some m' ∧ Upd v L m m' ∧ m' n = some (row v n L)
  | 0, _, n, _, h, _, _, _, _ => absurd h (by omega)
  | fuel + 1, fresh, n, m, hf, hg, hk, hr, ht => by
    obtain ⟨a, b, g⟩ := hg
    have hlt := hw.isGate_lt g
    have hmem := (hw.mem_gates n).2 ⟨a, b, g⟩
    have hls := Nat.le_of_lt (lastStart_lt hL)
    have hgv : ∀ p < L, v p n = (a.val (v p) && b.val (v p)) := fun p hp => (hv p hp).gate n a b g
    obtain ⟨h0, h1, nd, hn, hd, rfl, rfl⟩ := g
    simp only [gates, List.mem_filter, Bool.and_eq_true, Bool.not_eq_true'] at hmem
    -- visiting a fanin
    have vis : ∀ (k : Nat) (m : Map), k < n → Kept N v L m → Ready N v L m →
        ∃ m', visit (cone N L fuel) L k m = some m' ∧
          Upd v L m m' ∧ m' k = some (row v k L) := by
      intro k m hkn hk hr
      unfold visit
      by_cases hfull : m k = some (row v k L)
      · refine ⟨m, ?_, Upd.refl m, hfull⟩
        rw [hfull]; simp
      have hkg : ∃ a b, N.IsGate k a b := by
        obtain ⟨ndk, hnk⟩ : ∃ ndk, N.nodes[k]? = some ndk := ⟨_, List.getElem?_eq_getElem (by omega)⟩
        have k0 : k ≠ 0 := fun e => hfull (by rw [e]; exact hr.1)
        have ki : k ∉ N.inputs := fun e => hfull (hr.2 k e)
        exact ⟨_, _, k0, ki, ndk, hnk, (hw.gate k ndk hnk k0 ki).2.2.2, rfl, rfl⟩
      cases hmk : m k with
      | none =>
        exact cone_spec hw hL hv fuel true k m (by omega) hkg hk hr (by simp)
      | some t =>
        obtain ⟨l, rfl, hl1, hl2⟩ := hk k t (by omega) hmk
        have hne : (row v k l).length ≠ L := by
          intro e; exact hfull (by rw [hmk, row_inj e])
        dsimp only
        rw [if_pos hne]
        exact cone_spec hw hL hv fuel false k m (by omega) hkg hk hr (fun _ => ⟨_, hmk⟩)
    obtain ⟨m1, e1, g1, v1⟩ := vis nd.c0.index m (by omega) hk hr
    obtain ⟨m2, e2, g2, v2⟩ := vis nd.c1.index m1 (by omega) (g1.kept hk hls) (g1.ready hr)
    have hci : (n == 0 || N.isCi n) = false := by
      have := hmem.2
      simp [h0, this.1.2]
    refine ⟨PSim.set m2 n (row v n L), ?_, (g1.trans g2).trans (upd_set m2 n), set_same _ _ _⟩
    unfold cone
    simp only [hn, hci]
    rw [if_neg (by simp), e1]
    dsimp only
    rw [v1]
    dsimp only
    rw [e2]
    dsimp only
    rw [v2]
    dsimp only
    cases fresh with
    | true => simp [computeAll_row hgv]
    | false =>
      obtain ⟨t, htn⟩ := ht rfl
      obtain ⟨t', e'⟩ := (g1.trans g2).known ⟨t, htn⟩
      obtain ⟨l, rfl, hl1, hl2⟩ := (g1.trans g2).kept hk hls n t' hlt.2.2.2 e'
      rw [get_eq e']
      simp [computeLast_row hL hgv hl1 hl2]

/-- a node that is neither the constant nor an input is a gate -/
theorem isGate_of_not_input {N : Aig} (hw : WF N) {k : Nat} (hk : k < N.nodes.length) (k0 : k ≠ 0)
    (ki : k ∉ N.inputs) : ∃ a b, N.IsGate k a b := by
  obtain ⟨ndk, hnk⟩ : ∃ ndk, N.nodes[k]? = some ndk := ⟨_, List.getElem?_eq_getElem hk⟩
  exact ⟨_, _, k0, ki, ndk, hnk, (hw.gate k ndk hnk k0 ki).2.2.2, rfl, rfl⟩

theorem visitNode_spec {N : Aig} {v : Nat → Nat → Bool} {L : Nat} (hw : WF N) (hL : 0 < L)
    (hv : ∀ p < L, N.Models (v p)) {n : Nat} {m : Map} (hn : n < N.nodes.length) (hk : Kept N v L m)
    (hr : Ready N v L m) :
    ∃ m', visitNode N L n m = some m' ∧ Upd v L m m' ∧ m' n = some (row v n L) := by
  unfold visitNode visit
  by_cases hfull : m n = some (row v n L)
  · refine ⟨m, ?_, Upd.refl m, hfull⟩
    rw [hfull]; simp
  have hg := isGate_of_not_input hw hn (fun e => hfull (by rw [e]; exact hr.1)) (fun e => hfull (hr.2 n e))
  cases hmk : m n with
  | none => exact cone_spec hw hL hv _ true n m (by omega) hg hk hr (by simp)
  | some t =>
    obtain ⟨l, rfl, hl1, hl2⟩ := hk n t hn hmk
    have hne : (row v n l).length ≠ L := by
      intro e; exact hfull (by rw [hmk, row_inj e])
    dsimp only
    rw [if_pos hne]
    exact cone_spec hw hL hv _ false n m (by omega) hg hk hr (fun _ => ⟨_, hmk⟩)

theorem setPis_spec {S : Simulator} : ∀ (l : List Nat) (i : Nat) (m : Map), l.Nodup →
    (∀ (j n : Nat), l[j]? = some n → ∃ t, S.patterns[i + j]? = some t) →
    ∃ m', setPis S l i m = some m' ∧ (∀ k, k ∉ l → m' k = m k) ∧
      ∀ (j n : Nat), l[j]? = some n → m' n = S.patterns[i + j]?
  | [], i, m, _, _ => ⟨m, rfl, fun _ _ => rfl, by simp⟩
  | n :: l, i, m, hd, hp => by
    obtain ⟨t, ht⟩ := hp 0 n rfl
    rw [List.nodup_cons] at hd
    obtain ⟨m', e, h1, h2⟩ := setPis_spec l (i + 1) (set m n t) hd.2 (fun j k hj => by
      have := hp (j + 1) k (by simpa using hj)
      rwa [show i + (j + 1) = i + 1 + j by omega] at this)
    refine ⟨m', ?_, ?_, ?_⟩
    · unfold setPis
      rw [Nat.add_zero] at ht
      rw [ht]; exact e
    · intro k hk
      rw [List.mem_cons, not_or] at hk
      rw [h1 k hk.2, set_other _ _ hk.1]
    · intro j k hj
      cases j with
      | zero =>
        simp only [List.getElem?_cons_zero, Option.some.injEq] at hj
        subst hj
        rw [h1 n hd.1, set_same, ← ht]
      | succ j =>
        rw [List.getElem?_cons_succ] at hj
        rw [h2 j k hj, show i + (j + 1) = i + 1 + j by omega]

theorem updateConstPi_spec {N : Aig} {S : Simulator} {v : Nat → Nat → Bool} (hw : WF N)
    (hp : N.numPis = N.inputs.length) (h0 : ∀ p < S.bits, v p 0 = false)
    (hs : ∀ (k n : Nat), N.inputs[k]? = some n → S.patterns[k]? = some (row v n S.bits)) (m : Map) :
    ∃ m', updateConstPi N S m = some m' ∧ Ready N v S.bits m' ∧
      ∀ k, k ≠ 0 → k ∉ N.inputs → m' k = m k := by
  unfold updateConstPi
  rw [hp, List.take_length]
  obtain ⟨m', e, h1, h2⟩ := setPis_spec (S := S) N.inputs 0 (set m 0 (List.replicate S.bits false))
    hw.inputsNodup (fun j n hj => ⟨_, by rw [Nat.zero_add]; exact hs j n hj⟩)
  refine ⟨m', e, ⟨?_, ?_⟩, ?_⟩
  · rw [h1 0 (fun h => absurd (hw.inputs_lt h).1 (by omega)), set_same]
    congr 1
    apply List.ext_getElem (by simp)
    intro p h1 h2
    simp only [row_length] at h2
    simp [row, h0 p h2]
  · intro n hn
    obtain ⟨k, hk⟩ := List.getElem?_of_mem hn
    rw [h2 k n hk, Nat.zero_add, hs k n hk]
  · intro k hk0 hki
    rw [h1 k hki, set_other _ _ hk0]

theorem kept_update {N : Aig} {v : Nat → Nat → Bool} {L : Nat} {m m' : Map}
    (hr : Ready N v L m') (hL : lastStart L ≤ L)
    (hk : ∀ (n : Nat) (t : Tab), n < N.nodes.length → n ≠ 0 → n ∉ N.inputs → m n = some t →
      ∃ l, t = row v n l ∧ lastStart L ≤ l ∧ l ≤ L)
    (he : ∀ k, k ≠ 0 → k ∉ N.inputs → m' k = m k) : Kept N v L m' := by
  intro n t hn ht
  by_cases h0 : n = 0
  · subst h0; rw [hr.1] at ht; cases ht; exact ⟨L, rfl, hL, Nat.le_refl _⟩
  by_cases hi : n ∈ N.inputs
  · rw [hr.2 n hi] at ht; cases ht; exact ⟨L, rfl, hL, Nat.le_refl _⟩
  exact hk n t hn h0 hi (by rw [← he n h0 hi]; exact ht)

theorem simWhole_spec {N : Aig} {v : Nat → Nat → Bool} {L : Nat} (hw : WF N) (hL : 0 < L)
    (hv : ∀ p < L, N.Models (v p)) : ∀ (l : List Nat) (m : Map), (∀ n ∈ l, ∃ a b, N.IsGate n a b) →
    Ready N v L m →
    (∀ (n : Nat) (t : Tab), n < N.nodes.length → m n = some t → t = row v n L) →
    ∃ m', simWhole N L l m = some m' ∧ Upd v L m m' ∧ ∀ n ∈ l, m' n = some (row v n L)
  | [], m, _, _, _ => ⟨m, rfl, Upd.refl m, by simp⟩
  | n :: l, m, hg, hr, hfull => by
    have hls := Nat.le_of_lt (lastStart_lt hL)
    obtain ⟨a, b, g⟩ := hg n (by simp)
    have hlt := hw.isGate_lt g
    have hk : Kept N v L m := fun k t hk ht => ⟨L, hfull k t hk ht, hls, Nat.le_refl _⟩
    unfold simWhole
    cases hmn : m n with
    | some t =>
      obtain ⟨m', e, u, h⟩ := simWhole_spec hw hL hv l m (fun k hk => hg k (by simp [hk])) hr hfull
      refine ⟨m', e, u, fun k hk => ?_⟩
      rcases List.mem_cons.1 hk with rfl | hk
      · exact u.full (by rw [hmn, hfull k t hlt.2.2.2 hmn])
      · exact h k hk
    | none =>
      obtain ⟨m1, e1, u1, f1⟩ := cone_spec hw hL hv (n + 1) true n m (by omega) ⟨a, b, g⟩ hk hr (by simp)
      obtain ⟨m', e, u, h⟩ := simWhole_spec hw hL hv l m1 (fun k hk => hg k (by simp [hk])) (u1.ready hr)
        (fun k t hkl ht => by
          rcases u1 k with e | e
          · exact hfull k t hkl (by rw [← e]; exact ht)
          · rw [e] at ht; cases ht; rfl)
      refine ⟨m', by rw [e1]; exact e, u1.trans u, fun k hk => ?_⟩
      rcases List.mem_cons.1 hk with rfl | hk
      · exact u.full f1
      · exact h k hk

theorem set_eq {m : Map} {n : Nat} {t : Tab} (h : m n = some t) : set m n t = m := by
  funext k
  by_cases e : k = n
  · subst e; rw [set_same, h]
  · rw [set_other _ _ e]

theorem simLast_spec {N : Aig} {v : Nat → Nat → Bool} {L : Nat} (hw : WF N) (hL : 0 < L)
    (hv : ∀ p < L, N.Models (v p)) : ∀ (l : List Nat) (m : Map), (∀ n ∈ l, ∃ a b, N.IsGate n a b) →
    Ready N v L m → Kept N v L m → (∀ n ∈ l, ∃ t, m n = some t) →
    ∃ m', simLast N L l m = some m' ∧ Upd v L m m' ∧ ∀ n ∈ l, m' n = some (row v n L)
  | [], m, _, _, _, _ => ⟨m, rfl, Upd.refl m, by simp⟩
  | n :: l, m, hg, hr, hk, hall => by
    have hls := Nat.le_of_lt (lastStart_lt hL)
    obtain ⟨a, b, g⟩ := hg n (by simp)
    have hlt := hw.isGate_lt g
    obtain ⟨t, ht⟩ := hall n (by simp)
    obtain ⟨len, rfl, hl1, hl2⟩ := hk n t hlt.2.2.2 ht
    unfold simLast
    simp only [get_eq ht, set_eq ht]
    by_cases hne : (row v n len).length ≠ L
    · rw [if_pos hne]
      obtain ⟨m1, e1, u1, f1⟩ := cone_spec hw hL hv (n + 1) false n m (by omega) ⟨a, b, g⟩ hk hr
        (fun _ => ⟨_, ht⟩)
      obtain ⟨m', e, u, h⟩ := simLast_spec hw hL hv l m1 (fun k hk => hg k (by simp [hk])) (u1.ready hr)
        (u1.kept hk hls) (fun k hk => u1.known (hall k (by simp [hk])))
      refine ⟨m', by rw [e1]; exact e, u1.trans u, fun k hk => ?_⟩
      rcases List.mem_cons.1 hk with rfl | hk
      · exact u.full f1
      · exact h k hk
    · rw [if_neg hne]
      push Not at hne
      obtain ⟨m', e, u, h⟩ := simLast_spec hw hL hv l m (fun k hk => hg k (by simp [hk])) hr hk
        (fun k hk => hall k (by simp [hk]))
      refine ⟨m', e, u, fun k hk => ?_⟩
      rcases List.mem_cons.1 hk with rfl | hk
      · exact u.full (by rw [ht, row_inj hne])
      · exact h k hk

end Verif.PSim
