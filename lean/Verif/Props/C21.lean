import Verif.Cut.EnumProof

set_option autoImplicit false

/-!
# C21: enumerated cuts are cuts and carry the right function
-/

namespace Verif.Cuts

variable {β : Type}

/-- state of the loops over pairs of fanin cuts -/
structure LoopInv (P : Params β) (N : Aig) (n : Nat) (cache0 : TTCache) (st : TTCache × CutSet (FData β)) : Prop where
  cache : st.1.Inv
  mono : ∀ l u, cache0.lookup l = some u → st.1.lookup l = some u
  set : st.2.Inv maxCutNum
  ok : ∀ c ∈ st.2.view, CutOk P N st.1 n c

/-- A step of the merge loop keeps the invariant; the invariant may be stated for parameters `Q` with minimisation,
which leaves out the separation. -/
theorem mergeStep_spec_of {P Q : Params β} (hQs : Q.cutSize = P.cutSize) (hQm : Q.minimize = false → P.minimize = false) {N : Aig} (hN : N.Built) {n : Nat} {a b : Sig} (hg : N.IsGate n a b) {cache0 : TTCache}
    {st : TTCache × CutSet (FData β)} (h : LoopInv Q N n cache0 st) (hk : P.cutSize ≤ maxCutSize) {c1 c2 : Cut (FData β)}
    (h1 : CutOk Q N st.1 a.index c1) (h2 : CutOk Q N st.1 b.index c2) :
    (mergeStep P N n st c1 c2 = none ∧ c1.merge maxCutSize c2 c1 P.cutSize = .overflow) ∨
    ∃ st', mergeStep P N n st c1 c2 = some st' ∧ LoopInv Q N n cache0 st' ∧
      (∀ l u, st.1.lookup l = some u → st'.1.lookup l = some u) := by
  have hlt := hN.wf.isGate_lt hg
  have hm := C19_merge_partial maxCutSize P.cutSize hk c1 c2 c1 h1.wf h2.wf
  rw [mergeStep]
  cases hr : c1.merge maxCutSize c2 c1 P.cutSize with
  | overflow => exact Or.inl ⟨rfl, rfl⟩
  | tooLarge => exact Or.inr ⟨st, rfl, h, fun _ _ h => h⟩
  | ok r =>
    rw [hr] at hm
    obtain ⟨m1, m2, m3, m4, m5⟩ := hm
    right
    dsimp only
    by_cases hd : st.2.isDominated r = true
    · rw [if_pos hd]; exact ⟨st, rfl, h, fun _ _ h => h⟩
    · rw [if_neg hd]
      obtain ⟨cache', r', e, k1, k2, k3, k4, k5, k6, k7⟩ := computeTruth_spec h.cache hg P.minimize h1.wf h2.wf m2 m3 h1.table h2.table
      rw [e]
      dsimp only
      obtain ⟨s', e', s1, s2⟩ := insert_mem (maxCuts := maxCutNum) (by decide) P.lt
        (c := { r' with data := { r'.data with cost := P.cost n r' } }) h.set
      rw [e']
      refine ⟨_, rfl, ⟨k1, fun l u hl => k2 l u (h.mono l u hl), s1, ?_⟩, k2⟩
      intro c hc
      rcases s2 c hc with rfl | hc
      · refine ⟨⟨k3.sorted, rfl⟩, ?_, ?_, k6, ?_⟩
        · intro x hx
          rcases (m3 x).1 (k4 x hx) with hx | hx
          · have := h1.leaf x hx; omega
          · have := h2.leaf x hx; omega
        · show r'.leaves.length ≤ _
          rw [hQs]
          have := le_max_left P.cutSize 1
          omega
        · intro hmin
          show Separated N r'.leaves n
          rw [k7 (hQm hmin)]
          exact .gate hg ((h1.sep hmin).mono fun x hx => (m3 x).2 (Or.inl hx)) ((h2.sep hmin).mono fun x hx => (m3 x).2 (Or.inr hx))
      · exact (h.ok c hc).mono k2

theorem mergeLoop_spec_of {P Q : Params β} (hQs : Q.cutSize = P.cutSize) (hQm : Q.minimize = false → P.minimize = false) {N : Aig} (hN : N.Built) {n : Nat} {a b : Sig} (hg : N.IsGate n a b) {cache0 : TTCache}
    (hk : P.cutSize ≤ maxCutSize) : ∀ (ps : List (Cut (FData β) × Cut (FData β))) (st : TTCache × CutSet (FData β)),
    LoopInv Q N n cache0 st → (∀ p ∈ ps, CutOk Q N st.1 a.index p.1 ∧ CutOk Q N st.1 b.index p.2) →
    (mergeLoop P N n st ps = none ∧ ∃ p ∈ ps, p.1.merge maxCutSize p.2 p.1 P.cutSize = .overflow) ∨
    ∃ st', mergeLoop P N n st ps = some st' ∧ LoopInv Q N n cache0 st' := by
  intro ps
  induction ps with
  | nil => intro st h _; exact Or.inr ⟨st, rfl, h⟩
  | cons p ps ih =>
    intro st h hp
    obtain ⟨c1, c2⟩ := p
    rw [mergeLoop]
    rcases mergeStep_spec_of hQs hQm hN hg h hk (hp (c1, c2) (by simp)).1 (hp (c1, c2) (by simp)).2 with ⟨e, ho⟩ | ⟨st', e, h', hmono⟩
    · rw [e]; exact Or.inl ⟨rfl, _, by simp, ho⟩
    · rw [e]
      dsimp only
      rcases ih st' h' (fun q hq => ⟨(hp q (by simp [hq])).1.mono hmono, (hp q (by simp [hq])).2.mono hmono⟩) with ⟨e', q, hq, ho⟩ | h''
      · exact Or.inl ⟨e', q, by simp [hq], ho⟩
      · exact Or.inr h''

theorem mergeLoop_spec {P : Params β} {N : Aig} (hN : N.Built) {n : Nat} {a b : Sig} (hg : N.IsGate n a b) {cache0 : TTCache}
    (hk : P.cutSize ≤ maxCutSize) :
    ∀ (ps : List (Cut (FData β) × Cut (FData β))) (st : TTCache × CutSet (FData β)),
    LoopInv P N n cache0 st → (∀ p ∈ ps, CutOk P N st.1 a.index p.1 ∧ CutOk P N st.1 b.index p.2) →
    (mergeLoop P N n st ps = none ∧ ∃ p ∈ ps, p.1.merge maxCutSize p.2 p.1 P.cutSize = .overflow) ∨
    ∃ st', mergeLoop P N n st ps = some st' ∧ LoopInv P N n cache0 st' :=
  mergeLoop_spec_of rfl id hN hg hk

/-- the table of `func_id` 2 -/
theorem unit_ok {P : Params β} {N : Aig} {cache : TTCache} (hc : cache.lookup 2 = some (TT.nthVar 1 0)) (n : Nat) (d : FData β)
    (hd : d.func = 2) : CutOk P N cache n ⟨[n], signature [n], d⟩ := by
  refine ⟨⟨by simp [Sorted], rfl⟩, by simp, by simp, ⟨TT.nthVar 1 0, by rw [hd]; exact hc, rfl, ?_⟩, fun _ => .leaf (by simp)⟩
  intro v _
  rw [TT.eval_nthVar (by omega)]
  rfl

theorem limitArg_eq {L : Nat} (h : 1 ≤ L) : limitArg L = L - 1 := by
  rw [limitArg, if_neg (by omega)]

theorem finish_spec {P : Params β} {N : Aig} {cache : TTCache} (hc : cache.lookup 2 = some (TT.nthVar 1 0)) {n : Nat}
    {s : CutSet (FData β)} (h : s.Inv maxCutNum) (hok : ∀ c ∈ s.view, CutOk P N cache n c) :
    (∀ s', finish P n s = some s' → s'.Inv maxCutNum ∧ ∀ c ∈ s'.view, CutOk P N cache n c) ∧
    (2 ≤ P.cutLimit → P.cutLimit ≤ maxCutNum → finish P n s ≠ none) := by
  rw [finish]
  cases hl : s.limit (limitArg P.cutLimit) with
  | none =>
    refine ⟨fun s' h => by simp at h, fun h2 h12 _ => ?_⟩
    rw [limitArg_eq (by omega), CutSet.limit] at hl
    by_cases hgt : s.len > P.cutLimit - 1
    · rw [if_pos hgt, if_neg (by omega)] at hl; simp at hl
    · rw [if_neg hgt] at hl; simp at hl
  | some s1 =>
    obtain ⟨l1, l2, l3, l4, l5, l6⟩ := limit_spec h hl
    dsimp only
    have hlen : s1.ptrs.length = maxCutNum := l1.length
    have h0 : 0 < s1.ptrs.length := by rw [hlen]; decide
    rw [List.getElem?_eq_getElem h0]
    dsimp only
    by_cases hc1 : s1.len > 1 ∨ (s1.store s1.ptrs[0]).leaves.length > 1
    · rw [if_pos hc1]
      by_cases hroom : s1.len < maxCutNum
      · obtain ⟨s2, d, e, a1, a2, a3⟩ := addCut_spec [n] (fun d : FData β => { d with func := 2 }) l1 hroom
        rw [CutSet.addFixed, e]
        refine ⟨?_, fun _ _ h => by simp at h⟩
        intro s' he
        obtain rfl := Option.some.inj he
        refine ⟨a1, ?_⟩
        intro c hcm
        rw [a2, List.mem_append, List.mem_singleton] at hcm
        rcases hcm with hcm | rfl
        · exact hok c (l2 c hcm)
        · exact unit_ok hc n _ rfl
      · have hnone : s1.addFixed [n] 2 = none := by
          rw [CutSet.addFixed, CutSet.addCut, List.getElem?_eq_none (by omega)]
        rw [hnone]
        refine ⟨fun s' h => by simp at h, fun h2 h12 _ => ?_⟩
        rw [limitArg_eq (by omega)] at l5 l4
        rcases Nat.lt_or_ge (P.cutLimit - 1) s.len with hx | hx
        · have := l5 hx; omega
        · omega
    · rw [if_neg hc1]
      refine ⟨?_, fun _ _ h => by simp at h⟩
      intro s' he
      obtain rfl := Option.some.inj he
      exact ⟨l1, fun c hcm => hok c (l2 c hcm)⟩

/-- state after the nodes below `m` -/
structure EnumInv (P : Params β) (N : Aig) (m : Nat) (st : CutNet β) : Prop where
  len : st.sets.length = N.nodes.length
  cache : st.cache.Inv
  zero : st.cache.lookup 0 = some (TT.const 0 false)
  unit : st.cache.lookup 2 = some (TT.nthVar 1 0)
  inv : ∀ (n : Nat) (s : CutSet (FData β)), st.sets[n]? = some s → s.Inv maxCutNum
  done : ∀ (n : Nat) (s : CutSet (FData β)), n < m → st.sets[n]? = some s → ∀ c ∈ s.view, CutOk P N st.cache n c
  todo : ∀ (n : Nat) (s : CutSet (FData β)), m ≤ n → st.sets[n]? = some s → s.view = [] ∧ s.len = 0

theorem EnumInv.step {P : Params β} {N : Aig} {m : Nat} {st : CutNet β} (h : EnumInv P N m st) {s : CutSet (FData β)}
    {cache : TTCache} (h1 : cache.Inv) (h2 : ∀ l u, st.cache.lookup l = some u → cache.lookup l = some u)
    (h3 : s.Inv maxCutNum) (h4 : ∀ c ∈ s.view, CutOk P N cache m c) : EnumInv P N (m + 1) ⟨st.sets.set m s, cache⟩ := by
  have hget : ∀ (n : Nat) (s' : CutSet (FData β)), (st.sets.set m s)[n]? = some s' → (n = m ∧ s' = s) ∨ (n ≠ m ∧ st.sets[n]? = some s') := by
    intro n s' hs
    rw [List.getElem?_set] at hs
    by_cases hnm : m = n
    · rw [if_pos hnm] at hs
      split at hs
      · exact Or.inl ⟨hnm.symm, (Option.some.inj hs).symm⟩
      · simp at hs
    · rw [if_neg hnm] at hs; exact Or.inr ⟨fun e => hnm e.symm, hs⟩
  refine ⟨by simpa using h.len, h1, h2 _ _ h.zero, h2 _ _ h.unit, ?_, ?_, ?_⟩
  · intro n s' hs
    rcases hget n s' hs with ⟨_, rfl⟩ | ⟨_, hs⟩
    · exact h3
    · exact h.inv n s' hs
  · intro n s' hn hs c hc
    rcases hget n s' hs with ⟨rfl, rfl⟩ | ⟨hnm, hs⟩
    · exact h4 c hc
    · exact (h.done n s' (by omega) hs c hc).mono h2
  · intro n s' hn hs
    rcases hget n s' hs with ⟨rfl, _⟩ | ⟨_, hs⟩
    · omega
    · exact h.todo n s' (by omega) hs

/-- Parameters for which the enumeration cannot leave its arrays: cut size at most 3 and between 2 and 12 cuts. -/
def Safe (P : Params β) : Prop := 1 ≤ P.cutSize ∧ 2 * P.cutSize ≤ maxCutSize ∧ 2 ≤ P.cutLimit ∧ P.cutLimit ≤ maxCutNum

theorem enumNode_spec {P : Params β} {N : Aig} (hN : N.Built) (hreg : N.numPis = N.inputs.length) (hk : P.cutSize ≤ maxCutSize)
    {m : Nat} (hm : m < N.nodes.length) {st : CutNet β} (h : EnumInv P N m st) :
    (∀ st', enumNode P N st m = some st' → EnumInv P N (m + 1) st') ∧ (Safe P → enumNode P N st m ≠ none) := by
  have hml : m < st.sets.length := by rw [h.len]; exact hm
  have hsm : st.sets[m]? = some st.sets[m] := List.getElem?_eq_getElem hml
  have hinv := h.inv m _ hsm
  have htodo := h.todo m _ le_rfl hsm
  have hfix : ∀ l f, (∀ d : FData β, d.func = f → CutOk P N st.cache m ⟨l, signature l, d⟩) →
      ∃ s', (st.sets[m]).addFixed l f = some s' ∧ EnumInv P N (m + 1) { st with sets := st.sets.set m s' } := by
    intro l f hok
    obtain ⟨s', d, e, a1, a2, _⟩ := addCut_spec l (fun d : FData β => { d with func := f }) hinv (by rw [htodo.2]; decide)
    refine ⟨s', e, h.step h.cache (fun _ _ h => h) a1 ?_⟩
    intro c hc
    rw [a2, htodo.1, List.nil_append, List.mem_singleton] at hc
    rw [hc]; exact hok _ rfl
  rw [enumNode]
  by_cases h0 : m = 0
  · rw [if_pos h0, hsm]
    dsimp only
    obtain ⟨s', e, hs'⟩ := hfix [] 0 (by
      intro d hd
      refine ⟨⟨by simp [Sorted], rfl⟩, by simp, by simp, ⟨TT.const 0 false, by rw [hd]; exact h.zero, rfl, ?_⟩, fun _ => by rw [h0]; exact .const⟩
      intro v hv
      rw [TT.eval_const, h0, hv.const])
    rw [e]
    exact ⟨fun st' he => by obtain rfl := Option.some.inj he; exact hs', fun _ h => by simp at h⟩
  · rw [if_neg h0]
    by_cases hpi : N.isPi m = true
    · rw [if_pos hpi, hsm]
      dsimp only
      obtain ⟨s', e, hs'⟩ := hfix [m] 2 fun d hd => unit_ok h.unit m d hd
      rw [e]
      exact ⟨fun st' he => by obtain rfl := Option.some.inj he; exact hs', fun _ h => by simp at h⟩
    · rw [if_neg hpi]
      have hnin : m ∉ N.inputs := by
        intro hin
        obtain ⟨k, hk'⟩ := List.mem_iff_getElem?.1 hin
        obtain ⟨_, nd, hnd, e1, e2, _⟩ := hN.wf.input k m hk'
        apply hpi
        have hlt := Aig.lt_of_getElem? hk'
        simp [Aig.isPi, hnd, e1, e2, hreg, hlt]
      obtain ⟨nd, hnd⟩ : ∃ nd, N.nodes[m]? = some nd := ⟨_, List.getElem?_eq_getElem hm⟩
      have hgw := hN.wf.gate m nd hnd h0 hnin
      have hg : N.IsGate m nd.c0 nd.c1 := ⟨h0, hnin, nd, hnd, hgw.2.2.2, rfl, rfl⟩
      have l0 : nd.c0.index < st.sets.length := by rw [h.len]; omega
      have l1 : nd.c1.index < st.sets.length := by rw [h.len]; omega
      rw [mergeCuts, hnd]
      dsimp only
      rw [List.getElem?_eq_getElem l0, List.getElem?_eq_getElem l1, hsm]
      dsimp only
      have hpairs : ∀ p ∈ pairs (st.sets[nd.c0.index]).view (st.sets[nd.c1.index]).view,
          CutOk P N st.cache nd.c0.index p.1 ∧ CutOk P N st.cache nd.c1.index p.2 := by
        intro p hp
        obtain ⟨c1, hc1, hp⟩ := List.mem_flatMap.1 hp
        obtain ⟨c2, hc2, rfl⟩ := List.mem_map.1 hp
        exact ⟨h.done _ _ (by omega) (List.getElem?_eq_getElem l0) _ hc1, h.done _ _ (by omega) (List.getElem?_eq_getElem l1) _ hc2⟩
      obtain ⟨ci, cv⟩ : ((st.sets[m]).clear maxCutNum).Inv maxCutNum ∧ ((st.sets[m]).clear maxCutNum).view = [] :=
        ⟨⟨List.Perm.refl _, Nat.zero_le _⟩, by simp [CutSet.view, CutSet.clear]⟩
      have hloop := mergeLoop_spec hN hg hk (cache0 := st.cache) (pairs (st.sets[nd.c0.index]).view (st.sets[nd.c1.index]).view)
        (st.cache, (st.sets[m]).clear maxCutNum) ⟨h.cache, fun _ _ h => h, ci, by intro c hc; rw [cv] at hc; simp at hc⟩ hpairs
      rcases hloop with ⟨e, p, hp, ho⟩ | ⟨⟨cache, r⟩, e, hli⟩
      · rw [e]
        refine ⟨fun st' h => by simp at h, fun hs => ?_⟩
        exfalso
        obtain ⟨p1, p2⟩ := hpairs p hp
        have := (C19_small maxCutSize P.cutSize hs.2.1 p.1 p.2 p.1 p1.wf p2.wf (by have := p1.size; have := hs.1; omega)
          (by have := p2.size; have := hs.1; omega)).1
        exact this ho
      · rw [e]
        dsimp only
        obtain ⟨f1, f2⟩ := finish_spec (P := P) (N := N) (n := m) (hli.mono _ _ h.unit) hli.set hli.ok
        cases hf : finish P m r with
        | none => exact ⟨fun st' h => by simp at h, fun hs => absurd hf (f2 hs.2.2.1 hs.2.2.2)⟩
        | some r' =>
          dsimp only
          obtain ⟨g1, g2⟩ := f1 r' hf
          exact ⟨fun st' he => by obtain rfl := Option.some.inj he; exact h.step hli.cache hli.mono g1 g2, fun _ h => by simp at h⟩

theorem enumNodes_spec {P : Params β} {N : Aig} (hN : N.Built) (hreg : N.numPis = N.inputs.length) (hk : P.cutSize ≤ maxCutSize) :
    ∀ (k m : Nat) (st : CutNet β), m + k = N.nodes.length → EnumInv P N m st →
    (∀ st', enumNodes P N st (List.range' m k) = some st' → EnumInv P N N.nodes.length st') ∧
    (Safe P → enumNodes P N st (List.range' m k) ≠ none) := by
  intro k
  induction k with
  | zero =>
    intro m st hmk h
    rw [List.range'_zero, enumNodes]
    obtain rfl : m = N.nodes.length := by omega
    exact ⟨fun st' he => by obtain rfl := Option.some.inj he; exact h, fun _ h => by simp at h⟩
  | succ k ih =>
    intro m st hmk h
    rw [List.range'_succ, enumNodes]
    obtain ⟨h1, h2⟩ := enumNode_spec hN hreg hk (by omega) h
    cases he : enumNode P N st m with
    | none => exact ⟨fun st' h => by simp at h, fun hs => absurd he (h2 hs)⟩
    | some st1 => exact ih (m + 1) st1 (by omega) (h1 st1 he)

/-- the enumeration visits all nodes in index order, from a state without cuts -/
theorem enumerate_eq {P : Params β} {N : Aig} (cost0 : β) (hN : N.Built) :
    enumerate P N cost0 = enumNodes P N (CutNet.init cost0 N.size) (List.range' 0 N.nodes.length) ∧
    EnumInv P N 0 (CutNet.init cost0 N.size) := by
  have hlive : ((List.range N.size).filter fun n => !N.isDead n) = List.range' 0 N.nodes.length := by
    rw [← List.range_eq_range', Aig.size]
    apply List.filter_eq_self.2
    intro n hn
    rw [List.mem_range] at hn
    obtain ⟨nd, hnd⟩ : ∃ nd, N.nodes[n]? = some nd := ⟨_, List.getElem?_eq_getElem hn⟩
    have hd : nd.dead = false := by
      by_cases h0 : n = 0
      · subst h0; exact (hN.wf.node0 nd hnd).2
      · by_cases hin : n ∈ N.inputs
        · obtain ⟨k, hk'⟩ := List.mem_iff_getElem?.1 hin
          obtain ⟨_, nd', hnd', _, _, hd⟩ := hN.wf.input k n hk'
          rw [hnd] at hnd'; obtain rfl := Option.some.inj hnd'; exact hd
        · exact (hN.wf.gate n nd hnd h0 hin).2.2.2
    simp [Aig.isDead, hnd, hd]
  refine ⟨by rw [enumerate, hlive], ?_⟩
  have i1 := TTCache.insert_spec TTCache.empty TTCache.inv_empty (TT.const 0 false) (TT.wf_const _ _)
  have i2 := TTCache.insert_spec _ i1.1 (TT.nthVar 1 0) (TT.wf_nthVar _ _)
  have hrep : ∀ (n : Nat) (s : CutSet (FData β)), (List.replicate N.size (CutSet.init cost0))[n]? = some s → s = CutSet.init cost0 := by
    intro n s hs
    exact (List.mem_replicate.1 (List.mem_of_getElem? hs)).2
  refine ⟨by simp [CutNet.init, Aig.size], i2.1, ?_, ?_, ?_, fun n s hn => by omega, ?_⟩
  · exact i2.2.2.1 0 _ (by decide)
  · have : (((TTCache.empty.insert (TT.const 0 false)).1.insert (TT.nthVar 1 0)).1).lookup 2 = some (TT.nthVar 1 0) := by decide
    exact this
  · intro n s hs
    rw [hrep n s hs]
    exact ⟨List.Perm.refl _, Nat.zero_le _⟩
  · intro n s _ hs
    rw [hrep n s hs]
    exact ⟨by simp [CutSet.view, CutSet.init, CutSet.clear], rfl⟩

theorem enum_main {P : Params β} {N : Aig} (cost0 : β) (hN : N.Built) (hreg : N.numPis = N.inputs.length) (hk : P.cutSize ≤ maxCutSize) :
    (∀ st, enumerate P N cost0 = some st → EnumInv P N N.nodes.length st) ∧ (Safe P → enumerate P N cost0 ≠ none) := by
  obtain ⟨e, h⟩ := enumerate_eq (P := P) cost0 hN
  rw [e]
  exact enumNodes_spec hN hreg hk N.nodes.length 0 _ (by omega) h

/-- C21 (missing: networks with registers, see `C21_violated_registers`; absence of the array overruns, see
`C19_violated` and `C21_violated_limit`).  Whenever cut enumeration with any cost function and any comparison
finishes without leaving its arrays, every cut of every node has sorted leaves that are not above the node, at
most `cut_size` of them, and its table gives the value of the node from the values of the leaves for every
valuation of the network. -/
theorem C21_function_partial (P : Params β) (N : Aig) (cost0 : β) (hN : N.Built) (hreg : N.numPis = N.inputs.length)
    (hk : P.cutSize ≤ maxCutSize) (st : CutNet β) (h : enumerate P N cost0 = some st) :
    ∀ n, n < N.nodes.length → ∃ s, st.sets[n]? = some s ∧ ∀ c ∈ s.view, Sorted c.leaves ∧ (∀ x ∈ c.leaves, x ≤ n) ∧
      c.leaves.length ≤ max P.cutSize 1 ∧
      ∃ t, st.cache.lookup c.data.func = some t ∧ t.n = c.leaves.length ∧
        ∀ x v, N.Consistent x v → v n = t.eval (leafVal c.leaves v) := by
  have hi := (enum_main cost0 hN hreg hk).1 st h
  intro n hn
  have hl : n < st.sets.length := by rw [hi.len]; exact hn
  refine ⟨_, List.getElem?_eq_getElem hl, ?_⟩
  intro c hc
  have hok := hi.done n _ hn (List.getElem?_eq_getElem hl) c hc
  obtain ⟨t, t1, t2, t3⟩ := hok.table
  exact ⟨hok.wf.sorted, hok.leaf, hok.size, t, t1, t2, fun x v hv => t3 v hv.models⟩

/-- C21: without truth table minimisation the leaves separate the node from the inputs. -/
theorem C21_cut (P : Params β) (N : Aig) (cost0 : β) (hN : N.Built) (hreg : N.numPis = N.inputs.length)
    (hk : P.cutSize ≤ maxCutSize) (hmin : P.minimize = false) (st : CutNet β) (h : enumerate P N cost0 = some st)
    (n : Nat) (s : CutSet (FData β)) (hs : st.sets[n]? = some s) (c : Cut (FData β)) (hc : c ∈ s.view) : Separated N c.leaves n := by
  have hi := (enum_main cost0 hN hreg hk).1 st h
  have hn : n < N.nodes.length := by rw [← hi.len]; exact (List.getElem?_eq_some_iff.1 hs).1
  exact (hi.done n s hn hs c hc).sep hmin

/-- C21: with at most 3 leaves and between 2 and 12 cuts the enumeration never leaves its arrays. -/
theorem C21_defined (P : Params β) (N : Aig) (cost0 : β) (hN : N.Built) (hreg : N.numPis = N.inputs.length) (hP : Safe P) :
    ∃ st, enumerate P N cost0 = some st := by
  have := (enum_main cost0 hN hreg (by have := hP.2.1; omega)).2 hP
  cases h : enumerate P N cost0 with
  | none => exact absurd h this
  | some st => exact ⟨st, rfl⟩

/-- C21, cut limits above 12 (the default is 25) write outside the array: if a node has 12 cuts, the unit cut is
written behind the last slot. -/
theorem C21_violated_limit (P : Params β) (hL : 12 < P.cutLimit) (n : Nat) (s : CutSet (FData β))
    (h : s.Inv maxCutNum) (hfull : s.view.length = 12) : finish P n s = none := by
  rw [CutSet.view_length h] at hfull
  rw [finish, limitArg_eq (by omega), CutSet.limit, if_neg (by omega)]
  dsimp only
  have hlen := h.length
  have h0 : 0 < s.ptrs.length := by rw [hlen]; decide
  rw [List.getElem?_eq_getElem h0]
  dsimp only
  rw [if_pos (Or.inl (by omega)), CutSet.addFixed, CutSet.addCut, List.getElem?_eq_none (by rw [hlen, hfull]; decide)]

/-! ### concrete cases -/

/-- three inputs, `(x & y) & !z` and `x & !z` (a small network with reconvergence) -/
def exNet : Aig := ((((Aig.empty.createPi.1.createPi.1.createPi.1).createAnd ⟨1, false⟩ ⟨2, false⟩).1.createAnd ⟨1, false⟩ ⟨3, true⟩).1.createAnd
  ⟨4, false⟩ ⟨5, false⟩).1.createPo ⟨6, false⟩

theorem exNet_built : exNet.Built := by
  refine .po (.and (.and (.and (.pi (.pi (.pi .empty))) ?_ ?_) ?_ ?_) ?_ ?_) ?_ <;> decide

/-- cut size 3, no costs, comparison by size -/
def exParams : Params Unit := ⟨3, 10, false, ltSize, fun _ _ => ()⟩

example : (enumerate exParams exNet ()).map (fun st => st.sets.map fun s => s.view.map (·.leaves)) =
    some [[[]], [[1]], [[2]], [[3]], [[1, 2], [4]], [[1, 3], [5]], [[4, 5], [1, 3, 4], [1, 2, 5], [1, 2, 3], [6]]] := by
  decide +kernel

example : Safe exParams ∧ exNet.numPis = exNet.inputs.length := by unfold Safe; decide

/-- one input and one register output -/
def regNet : Aig := Aig.empty.createPi.1.createRo.1

/-- C21 is violated for networks with registers: the register output is treated as a gate whose fanins are read
off its input number.  In `regNet` it gets a cut without leaves and the constant true as function. -/
theorem C21_violated_registers : regNet.Built ∧ ∃ st s c t, enumerate exParams regNet () = some st ∧ st.sets[2]? = some s ∧
    c ∈ s.view ∧ c.leaves = [] ∧ st.cache.lookup c.data.func = some t ∧ t = TT.const 0 true ∧
    ∃ v, regNet.Models v ∧ v 2 ≠ t.eval (leafVal c.leaves v) := by
  refine ⟨.ro (.pi .empty), _, _, ⟨[], 0, ⟨1, ()⟩⟩, _, rfl, rfl, by decide, rfl, rfl, by decide, fun _ => false, ?_, by decide⟩
  refine ⟨rfl, ?_⟩
  rintro n a b ⟨h0, hin, nd, hnd, _⟩
  have hl := Aig.lt_of_getElem? hnd
  have h3 : n < 3 := hl
  have : n = 1 ∨ n = 2 := by omega
  rcases this with rfl | rfl
  · exact absurd (by decide) hin
  · exact absurd (by decide) hin

end Verif.Cuts
