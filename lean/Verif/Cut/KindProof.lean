import Verif.Mapping.MapProof

set_option autoImplicit false

/-!
# Which cuts the enumeration keeps (helper lemmas)

Without truth table minimisation every node keeps its unit cut, and every gate a cut with at least two leaves.
-/

namespace Verif.Cuts
open RefDeref (aigKids)
open Topo (Tfi)

variable {β : Type}

/-- `finish` with a limit of at least 3 -/
theorem finish_kind {P : Params β} {n : Nat} {s s' : CutSet (FData β)} (h : s.Inv maxCutNum) (hne : s.view ≠ [])
    (hl3 : 3 ≤ P.cutLimit) (h2 : ∀ c ∈ s.view, 2 ≤ c.leaves.length) (e : finish P n s = some s') :
    ∃ l d, s'.view = l ++ [⟨[n], signature [n], d⟩] ∧ d.func = 2 ∧ l ≠ [] ∧ (∀ c ∈ l, c ∈ s.view) ∧ s.view.head? = l.head? := by
  rw [finish] at e
  cases hl : s.limit (limitArg P.cutLimit) with
  | none => rw [hl] at e; simp at e
  | some s1 =>
    obtain ⟨l1, l2, l3, l4, l5, l6⟩ := limit_spec h hl
    rw [hl] at e
    dsimp only at e
    rw [limitArg_eq (by omega)] at l5 hl
    have hlen0 : s.len ≠ 0 := by
      intro h0; apply hne; rw [CutSet.view, h0]; simp
    have hs1 : s1.len ≠ 0 := by
      rcases Nat.lt_or_ge (P.cutLimit - 1) s.len with hx | hx
      · have := l5 hx; omega
      · rw [CutSet.limit, if_neg (by omega)] at hl
        obtain rfl := Option.some.inj hl
        exact hlen0
    have hlen : s1.ptrs.length = maxCutNum := l1.length
    have h0 : 0 < s1.ptrs.length := by rw [hlen]; decide
    rw [List.getElem?_eq_getElem h0] at e
    dsimp only at e
    have hfirst : s1.store s1.ptrs[0] ∈ s1.view := by
      rw [CutSet.view]
      apply List.mem_map_of_mem
      rw [List.mem_take_iff_getElem]
      exact ⟨0, by omega, rfl⟩
    have h2' := h2 _ (l2 _ hfirst)
    rw [if_pos (Or.inr (by omega))] at e
    by_cases hroom : s1.len < maxCutNum
    · obtain ⟨s2, d, ea, a1, a2, a3⟩ := addCut_spec [n] (fun d : FData β => { d with func := 2 }) l1 hroom
      rw [CutSet.addFixed, ea] at e
      obtain rfl := Option.some.inj e
      refine ⟨s1.view, _, a2, rfl, fun he => by rw [he] at hfirst; simp at hfirst, l2, ?_⟩
      rw [CutSet.limit] at hl
      split at hl
      · split at hl
        · simp at hl
        · obtain rfl := Option.some.inj hl
          rw [CutSet.view, CutSet.view, List.head?_map, List.head?_map, List.head?_take, List.head?_take, if_neg hlen0, if_neg hs1]
      · obtain rfl := Option.some.inj hl
        rfl
    · rw [CutSet.addFixed, CutSet.addCut, List.getElem?_eq_none (by omega)] at e
      simp at e

/-- the cuts of node `n`: the unit cut, and otherwise cuts with at least two leaves strictly below `n` in its cone -/
structure Kind (N : Aig) (cache : TTCache) (n : Nat) (s : CutSet (FData β)) : Prop where
  kind : ∀ c ∈ s.view, c.leaves = [n] ∨ (2 ≤ c.leaves.length ∧ ∀ x ∈ c.leaves, x < n)
  tfi : ∀ c ∈ s.view, ∀ x ∈ c.leaves, Tfi (aigKids N) n x
  last : ∃ l d, s.view = l ++ [⟨[n], signature [n], d⟩] ∧ d.func = 2 ∧ ∀ c ∈ l, 2 ≤ c.leaves.length ∧ ∀ x ∈ c.leaves, x < n
  direct : ∀ a b, N.IsGate n a b → ∃ c ∈ s.view, c.leaves = [a.index, b.index] ∧
    ∃ t, cache.lookup c.data.func = some t ∧ t.isConst0 = false

theorem Kind.mono {N : Aig} {cache cache' : TTCache} {n : Nat} {s : CutSet (FData β)} (h : Kind N cache n s)
    (hc : ∀ l u, cache.lookup l = some u → cache'.lookup l = some u) : Kind N cache' n s :=
  ⟨h.kind, h.tfi, h.last, fun a b hg => by
    obtain ⟨c, h1, h2, t, h3, h4⟩ := h.direct a b hg
    exact ⟨c, h1, h2, t, hc _ _ h3, h4⟩⟩

/-- a comparison under which a cut is not better than a cut with fewer or equally many leaves -/
def SizeFirst (lt : Cut (FData β) → Cut (FData β) → Bool) : Prop := ∀ e c, c.leaves.length ≤ e.leaves.length → lt e c = false

theorem sizeFirst_ltSize : SizeFirst (ltSize : Cut (FData β) → Cut (FData β) → Bool) := by
  intro e c h
  rw [ltSize, decide_eq_false_iff_not]
  omega

theorem lowerBoundGo_zero (lt : Cut (FData β) → Cut (FData β) → Bool) (l : List (Cut (FData β))) (c : Cut (FData β))
    (h : ∀ e ∈ l, lt e c = false) : ∀ (fuel first n i : Nat), lowerBoundGo lt l c fuel first n = some i → i = first := by
  intro fuel
  induction fuel with
  | zero =>
    intro first n i e
    cases n with
    | zero => rw [lowerBoundGo] at e; exact (Option.some.inj e).symm
    | succ n => rw [lowerBoundGo] at e; simp at e
  | succ fuel ih =>
    intro first n i e
    cases n with
    | zero => rw [lowerBoundGo] at e; exact (Option.some.inj e).symm
    | succ n =>
      rw [lowerBoundGo] at e
      split at e
      · simp at e
      · rename_i m hm
        rw [if_neg (by rw [h m (List.mem_of_getElem? hm)]; simp)] at e
        exact ih first _ i e

/-- a cut at least as small as all others is put in front -/
theorem insert_front {lt : Cut (FData β) → Cut (FData β) → Bool} (hlt : SizeFirst lt) {s s' : CutSet (FData β)} {c : Cut (FData β)}
    (h : s.Inv maxCutNum) (hs : ∀ e ∈ s.view, c.leaves.length ≤ e.leaves.length) (e : s.insert maxCutNum lt c = some s') :
    s'.view.head? = some (stored c) := by
  obtain ⟨s'', i, h1, h2, h3, h4, h5⟩ := insert_view maxCutNum lt s c h (by decide)
  rw [e] at h1
  obtain rfl := Option.some.inj h1
  have hi : i = 0 := by
    rw [lowerBound] at h3
    exact lowerBoundGo_zero lt _ c (fun x hx => hlt x c (hs x (List.mem_filter.1 hx).1)) _ _ _ _ h3
  subst hi
  rcases h5 with ⟨_, h, _⟩ | ⟨_, _, hv⟩ | ⟨_, hv⟩
  · exact absurd h (by decide)
  · rw [hv]; simp
  · rw [hv]; simp

/-- the table of the cut made of the two fanins -/
theorem direct_table {N : Aig} {cache : TTCache} (hc : cache.Inv) (hu : cache.lookup 2 = some (TT.nthVar 1 0)) {n : Nat} {a b : Sig} (hg : N.IsGate n a b) (hab : a.index < b.index)
    {c1 c2 r : Cut (FData β)} (h1 : c1.leaves = [a.index]) (h2 : c2.leaves = [b.index]) (f1 : c1.data.func = 2) (f2 : c2.data.func = 2)
    (hr : r.leaves = [a.index, b.index]) {cache' : TTCache} {r' : Cut (FData β)}
    (e : computeTruth N false cache n c1 c2 r = some (cache', r')) :
    r'.leaves = [a.index, b.index] ∧ ∃ t, cache'.lookup r'.data.func = some t ∧ t.isConst0 = false := by
  obtain ⟨_, _, nd, hnd, _, rfl, rfl⟩ := hg
  have s1 : support [nd.c0.index] [nd.c0.index, nd.c1.index] = [0] := by simp [support, supportFrom, List.findIdx_cons]
  have s2 : support [nd.c1.index] [nd.c0.index, nd.c1.index] = [1] := by
    have : (nd.c0.index == nd.c1.index) = false := by simp; omega
    simp [support, supportFrom, List.findIdx_cons, this]
  rw [computeTruth, childTable, childTable, f1, f2, hu, hnd, h1, h2, hr, s1, s2] at e
  simp only [Bool.false_eq_true, false_and, if_false, Option.some.injEq, Prod.mk.injEq] at e
  obtain ⟨e1, e2⟩ := e
  rw [← e1, ← e2]
  refine ⟨rfl, _, (TTCache.insert_spec cache hc _ (TT.wf_and _ _)).2.1, ?_⟩
  simp only [List.length_cons, List.length_nil, Nat.zero_add, Nat.reduceAdd]
  generalize nd.c0.compl = p
  generalize nd.c1.compl = q
  revert p q
  decide

theorem mergeLoop_append {P : Params β} {N : Aig} {n : Nat} : ∀ (ps : List (Cut (FData β) × Cut (FData β)))
    (st : TTCache × CutSet (FData β)) (p : Cut (FData β) × Cut (FData β)), mergeLoop P N n st (ps ++ [p]) =
      match mergeLoop P N n st ps with
      | none => none
      | some st' => mergeStep P N n st' p.1 p.2 := by
  intro ps
  induction ps with
  | nil =>
    intro st p
    obtain ⟨c1, c2⟩ := p
    show mergeLoop P N n st [(c1, c2)] = mergeStep P N n st c1 c2
    rw [mergeLoop]
    cases mergeStep P N n st c1 c2 <;> rfl
  | cons q ps ih =>
    intro st p
    obtain ⟨c1, c2⟩ := q
    rw [List.cons_append, mergeLoop, mergeLoop]
    cases mergeStep P N n st c1 c2 with
    | none => rfl
    | some st' => exact ih st' p

theorem pairs_last {γ : Type} (l0 l1 : List γ) (u0 u1 : γ) : pairs (l0 ++ [u0]) (l1 ++ [u1]) =
    (l0.flatMap (fun c1 => (l1 ++ [u1]).map fun c2 => (c1, c2)) ++ l1.map fun c2 => (u0, c2)) ++ [(u0, u1)] := by
  simp [pairs]

theorem mergeCuts_kind {P : Params β} {N : Aig} (hN : N.Built) (hmin : P.minimize = false) (h2 : 2 ≤ P.cutSize)
    (hk : P.cutSize ≤ maxCutSize) (hl3 : 3 ≤ P.cutLimit) (hsf : SizeFirst P.lt) {n : Nat} {a b : Sig} (hg : N.IsGate n a b) {st st' : CutNet β}
    (hi : EnumInv P N n st) {s0 s1 : CutSet (FData β)} (g0 : st.sets[a.index]? = some s0) (g1 : st.sets[b.index]? = some s1)
    (k0 : Kind N st.cache a.index s0) (k1 : Kind N st.cache b.index s1) (e : mergeCuts P N st n = some st') :
    ∃ s', st'.sets = st.sets.set n s' ∧ (∀ l u, st.cache.lookup l = some u → st'.cache.lookup l = some u) ∧ Kind N st'.cache n s' := by
  have hlt := hN.wf.isGate_lt hg
  have kk := Mapper.aigKids_of_gate hN hg
  obtain ⟨hn0, hnin, nd, hnd, hdead, rfl, rfl⟩ := id hg
  rw [mergeCuts, hnd] at e
  dsimp only at e
  rw [g0, g1] at e
  cases gs : st.sets[n]? with
  | none => rw [gs] at e; simp at e
  | some s =>
    rw [gs] at e
    dsimp only at e
    cases hml : mergeLoop P N n (st.cache, s.clear maxCutNum) (pairs s0.view s1.view) with
    | none => rw [hml] at e; simp at e
    | some q =>
      obtain ⟨cache, r⟩ := q
      rw [hml] at e
      dsimp only at e
      obtain ⟨ci, cv⟩ : (s.clear maxCutNum).Inv maxCutNum ∧ (s.clear maxCutNum).view = [] :=
        ⟨⟨List.Perm.refl _, Nat.zero_le _⟩, by simp [CutSet.view, CutSet.clear]⟩
      have hpairs : ∀ q ∈ pairs s0.view s1.view, q.1 ∈ s0.view ∧ q.2 ∈ s1.view := by
        intro q hq
        obtain ⟨c1, hc1, hq⟩ := List.mem_flatMap.1 hq
        obtain ⟨c2, hc2, rfl⟩ := List.mem_map.1 hq
        exact ⟨hc1, hc2⟩
      have ok0 := fun c hc => hi.done _ _ (by omega) g0 c hc
      have ok1 := fun c hc => hi.done _ _ (by omega) g1 c hc
      have hloop := mergeLoop_spec hN hg (P := P) hk (cache0 := st.cache) (pairs s0.view s1.view)
        (st.cache, s.clear maxCutNum) ⟨hi.cache, fun _ _ h => h, ci, by intro c hc; rw [cv] at hc; simp at hc⟩
        (fun q hq => ⟨ok0 _ (hpairs q hq).1, ok1 _ (hpairs q hq).2⟩)
      rw [hml] at hloop
      obtain ⟨st3, e3, hli⟩ : ∃ st', some (cache, r) = some st' ∧ LoopInv P N n st.cache st' := by
        rcases hloop with ⟨e, _⟩ | h
        · simp at e
        · exact h
      obtain rfl := Option.some.inj e3
      obtain ⟨n1, n2, n3⟩ := Mapper.mergeLoop_new (P := P) (N := N) (n := n) hmin hk (pairs s0.view s1.view) _ _ ci
        (fun q hq => ⟨(ok0 _ (hpairs q hq).1).wf, (ok1 _ (hpairs q hq).2).wf⟩) hml
      obtain ⟨l0, d0, v0, fd0, q0⟩ := k0.last
      obtain ⟨l1, d1, v1, fd1, q1⟩ := k1.last
      have hne : r.view ≠ [] := by
        apply n3
        refine ⟨(⟨[nd.c0.index], signature [nd.c0.index], d0⟩, ⟨[nd.c1.index], signature [nd.c1.index], d1⟩),
          List.mem_flatMap.2 ⟨_, by rw [v0]; exact List.mem_append_right _ (List.mem_singleton_self _),
            List.mem_map.2 ⟨_, by rw [v1]; exact List.mem_append_right _ (List.mem_singleton_self _), rfl⟩⟩, ?_⟩
        exact Nat.le_trans Mapper.unionCard_pair h2
      have hview : ∀ c ∈ r.view, (∀ x ∈ c.leaves, Tfi (aigKids N) n x) ∧ 2 ≤ c.leaves.length ∧ ∀ x ∈ c.leaves, x < n := by
        intro c hc
        rcases n1 c hc with hc' | ⟨q, hq, hx, hlen⟩
        · rw [cv] at hc'; simp at hc'
        · obtain ⟨q1, q2⟩ := hpairs q hq
          have hcwf := (hli.ok c hc).wf
          have hnd : c.leaves.Nodup := hcwf.sorted.imp (fun h => Nat.ne_of_lt h)
          have hge : ∀ l : List Nat, l.Nodup → (∀ x ∈ l, x ∈ c.leaves) → l.length ≤ c.leaves.length :=
            fun l hl hs => (hl.subperm hs).length_le
          refine ⟨?_, ?_, ?_⟩
          · intro x hxx
            rcases (hx x).1 hxx with hxx | hxx
            · exact .step kk.1 (k0.tfi _ q1 x hxx)
            · exact .step kk.2 (k1.tfi _ q2 x hxx)
          · rcases k0.kind _ q1 with e0 | ⟨g0, _⟩
            · rcases k1.kind _ q2 with e1 | ⟨g1, _⟩
              · refine hge [nd.c0.index, nd.c1.index] ?_ ?_
                · simp only [List.nodup_cons, List.mem_singleton, List.not_mem_nil, not_false_eq_true, List.nodup_nil, and_true]
                  omega
                · intro x hxx
                  rw [hx, e0, e1]
                  simp only [List.mem_cons, List.not_mem_nil, or_false] at hxx ⊢
                  exact hxx
              · exact Nat.le_trans g1 (hge _ ((ok1 _ q2).wf.sorted.imp (fun h => Nat.ne_of_lt h)) fun x hxx => (hx x).2 (Or.inr hxx))
            · exact Nat.le_trans g0 (hge _ ((ok0 _ q1).wf.sorted.imp (fun h => Nat.ne_of_lt h)) fun x hxx => (hx x).2 (Or.inl hxx))
          · intro x hxx
            rcases (hx x).1 hxx with hxx | hxx
            · have := (ok0 _ q1).leaf x hxx; omega
            · have := (ok1 _ q2).leaf x hxx; omega
      have hdirect : ∃ c, r.view.head? = some c ∧ c.leaves = [nd.c0.index, nd.c1.index] ∧
          ∃ t, cache.lookup c.data.func = some t ∧ t.isConst0 = false := by
        rw [v0, v1, pairs_last, mergeLoop_append] at hml
        cases hm1 : mergeLoop P N n (st.cache, s.clear maxCutNum) (l0.flatMap (fun c1 => (l1 ++ [(⟨[nd.c1.index], signature [nd.c1.index], d1⟩ : Cut (FData β))]).map fun c2 => (c1, c2)) ++
            l1.map fun c2 => (⟨[nd.c0.index], signature [nd.c0.index], d0⟩, c2)) with
        | none => rw [hm1] at hml; simp at hml
        | some q' =>
          obtain ⟨cache1, r1⟩ := q'
          rw [hm1] at hml
          dsimp only at hml
          have hsub : ∀ q ∈ l0.flatMap (fun c1 => (l1 ++ [(⟨[nd.c1.index], signature [nd.c1.index], d1⟩ : Cut (FData β))]).map fun c2 => (c1, c2)) ++
              l1.map (fun c2 => ((⟨[nd.c0.index], signature [nd.c0.index], d0⟩ : Cut (FData β)), c2)),
              q.1 ∈ s0.view ∧ q.2 ∈ s1.view ∧ (q.1 ∈ l0 ∨ (q.1.leaves = [nd.c0.index] ∧ q.2 ∈ l1)) := by
            intro q hq
            rw [v0, v1]
            rcases List.mem_append.1 hq with hq | hq
            · obtain ⟨c1, hc1, hq⟩ := List.mem_flatMap.1 hq
              obtain ⟨c2, hc2, rfl⟩ := List.mem_map.1 hq
              exact ⟨List.mem_append_left _ hc1, hc2, Or.inl hc1⟩
            · obtain ⟨c2, hc2, rfl⟩ := List.mem_map.1 hq
              exact ⟨by simp, List.mem_append_left _ hc2, Or.inr ⟨rfl, hc2⟩⟩
          have hloop1 := mergeLoop_spec hN hg (P := P) hk (cache0 := st.cache) _
            (st.cache, s.clear maxCutNum) ⟨hi.cache, fun _ _ h => h, ci, by intro c hc; rw [cv] at hc; simp at hc⟩
            (fun q hq => ⟨ok0 _ (hsub q hq).1, ok1 _ (hsub q hq).2.1⟩)
          rw [hm1] at hloop1
          obtain ⟨st4, e4, hl1⟩ : ∃ st', some (cache1, r1) = some st' ∧ LoopInv P N n st.cache st' := by
            rcases hloop1 with ⟨e, _⟩ | h
            · simp at e
            · exact h
          obtain rfl := Option.some.inj e4
          obtain ⟨o1, _, _⟩ := Mapper.mergeLoop_new (P := P) (N := N) (n := n) hmin hk _ _ _ ci
            (fun q hq => ⟨(ok0 _ (hsub q hq).1).wf, (ok1 _ (hsub q hq).2.1).wf⟩) hm1
          have hw0 : (⟨[nd.c0.index], signature [nd.c0.index], d0⟩ : Cut (FData β)).WF := ⟨by simp [Sorted], rfl⟩
          have hw1 : (⟨[nd.c1.index], signature [nd.c1.index], d1⟩ : Cut (FData β)).WF := ⟨by simp [Sorted], rfl⟩
          have hno : ∀ c ∈ r1.view, 2 ≤ c.leaves.length ∧ ¬ ∀ x ∈ c.leaves, x = nd.c0.index ∨ x = nd.c1.index := by
            intro c hc
            have hcwf := (hl1.ok c hc).wf
            rcases o1 c hc with hc' | ⟨q, hq, hx, hlen⟩
            · rw [cv] at hc'; simp at hc'
            · obtain ⟨w0, w1, w2⟩ := hsub q hq
              have hpick : ∀ l : List Nat, Sorted l → 2 ≤ l.length → ∃ x y, x ∈ l ∧ y ∈ l ∧ x < y := by
                intro l hs hl
                match l, hl with
                | x :: y :: l, _ =>
                  exact ⟨x, y, by simp, by simp, (List.pairwise_cons.1 hs).1 y (by simp)⟩
              have hge : ∀ l : List Nat, l.Nodup → (∀ x ∈ l, x ∈ c.leaves) → l.length ≤ c.leaves.length :=
                fun l hl hs => (hl.subperm hs).length_le
              rcases w2 with w2 | ⟨w2, w3⟩
              · obtain ⟨a1, a2⟩ := q0 _ w2
                refine ⟨Nat.le_trans a1 (hge _ ((ok0 _ w0).wf.sorted.imp (fun h => Nat.ne_of_lt h)) fun x hxx => (hx x).2 (Or.inl hxx)), ?_⟩
                intro hall
                obtain ⟨x, y, h1, h2, h3⟩ := hpick _ (ok0 _ w0).wf.sorted a1
                have b1 := a2 x h1
                have := hall x ((hx x).2 (Or.inl h1))
                omega
              · obtain ⟨a1, a2⟩ := q1 _ w3
                refine ⟨Nat.le_trans a1 (hge _ ((ok1 _ w1).wf.sorted.imp (fun h => Nat.ne_of_lt h)) fun x hxx => (hx x).2 (Or.inr hxx)), ?_⟩
                intro hall
                obtain ⟨x, y, h1, h2, h3⟩ := hpick _ (ok1 _ w1).wf.sorted a1
                have b1 := a2 x h1
                have b2 := a2 y h2
                have c1 := hall x ((hx x).2 (Or.inr h1))
                have c2 := hall y ((hx y).2 (Or.inr h2))
                omega
          have hmg := C19_merge_partial maxCutSize P.cutSize hk _ _ ⟨[nd.c0.index], signature [nd.c0.index], d0⟩ hw0 hw1
          have huc : unionCard [nd.c0.index] [nd.c1.index] ≤ P.cutSize := Nat.le_trans Mapper.unionCard_pair h2
          rw [mergeStep] at hml
          cases hr : Cut.merge maxCutSize (⟨[nd.c0.index], signature [nd.c0.index], d0⟩ : Cut (FData β))
              ⟨[nd.c1.index], signature [nd.c1.index], d1⟩ ⟨[nd.c0.index], signature [nd.c0.index], d0⟩ P.cutSize with
          | overflow => rw [hr] at hml; simp at hml
          | tooLarge => rw [hr] at hmg; dsimp only at hmg; omega
          | ok rr =>
            rw [hr] at hml hmg
            obtain ⟨_, m2, m3, _, _⟩ := hmg
            dsimp only at hml m3
            have hrl : rr.leaves = [nd.c0.index, nd.c1.index] := by
              have hs2 : ([nd.c0.index, nd.c1.index]).Pairwise (· < ·) := by simp; omega
              have hperm : rr.leaves.Perm [nd.c0.index, nd.c1.index] := by
                rw [List.perm_ext_iff_of_nodup (m2.sorted.imp (fun h => Nat.ne_of_lt h)) (hs2.imp (fun h => Nat.ne_of_lt h))]
                intro x; rw [m3]; simp
              exact hperm.eq_of_pairwise (fun a b _ _ h1 h2 => by omega) m2.sorted hs2
            have hnd' : r1.isDominated rr = false := by
              rw [CutSet.isDominated, List.any_eq_false]
              intro c hc hdom
              rw [C18_dominates _ _ (hl1.ok c hc).wf m2] at hdom
              refine (hno c hc).2 fun x hx => ?_
              have := hdom x hx
              rw [hrl] at this
              simpa using this
            rw [if_neg (by rw [hnd']; simp)] at hml
            cases hct : computeTruth N P.minimize cache1 n ⟨[nd.c0.index], signature [nd.c0.index], d0⟩
                ⟨[nd.c1.index], signature [nd.c1.index], d1⟩ rr with
            | none => rw [hct] at hml; simp at hml
            | some q2 =>
              obtain ⟨cache2, r2⟩ := q2
              rw [hct] at hml
              dsimp only at hml
              rw [hmin] at hct
              obtain ⟨t1, t2⟩ := direct_table hl1.cache (hl1.mono _ _ hi.unit) hg (by omega) rfl rfl fd0 fd1 hrl hct
              cases hin : r1.insert maxCutNum P.lt { r2 with data := { r2.data with cost := P.cost n r2 } } with
              | none => rw [hin] at hml; simp at hml
              | some s2 =>
                rw [hin] at hml
                simp only [Option.some.injEq, Prod.mk.injEq] at hml
                obtain ⟨rfl, rfl⟩ := hml
                refine ⟨_, insert_front hsf hl1.set (fun c hc => ?_) hin, t1, t2⟩
                show r2.leaves.length ≤ _
                rw [t1]
                exact (hno c hc).1
      cases hf : finish P n r with
      | none => rw [hf] at e; simp at e
      | some r' =>
        rw [hf] at e
        obtain rfl := Option.some.inj e
        obtain ⟨l, d, f2, f3, f4, f5, f6⟩ := finish_kind hli.set hne hl3 (fun c hc => (hview c hc).2.1) hf
        refine ⟨r', rfl, hli.mono, ?_, ?_, ⟨l, d, f2, f3, fun c hc => (hview c (f5 c hc)).2⟩, ?_⟩
        · intro c hc
          rw [f2, List.mem_append, List.mem_singleton] at hc
          rcases hc with hc | rfl
          · exact Or.inr (hview c (f5 c hc)).2
          · exact Or.inl rfl
        · intro c hc
          rw [f2, List.mem_append, List.mem_singleton] at hc
          rcases hc with hc | rfl
          · exact (hview c (f5 c hc)).1
          · intro x hx
            rw [List.mem_singleton.1 hx]; exact .refl _
        · intro a' b' hg'
          obtain ⟨rfl, rfl⟩ : a' = nd.c0 ∧ b' = nd.c1 := by
            obtain ⟨_, _, nd', hnd', _, ra, rb⟩ := hg'
            rw [hnd] at hnd'; obtain rfl := Option.some.inj hnd'; exact ⟨ra.symm, rb.symm⟩
          obtain ⟨c, hc1, hc2, hc3⟩ := hdirect
          obtain ⟨y, l', rfl⟩ := List.exists_cons_of_ne_nil f4
          rw [hc1, List.head?_cons] at f6
          obtain rfl := Option.some.inj f6
          exact ⟨c, by rw [f2]; simp, hc2, hc3⟩

theorem enumNode_kind {P : Params β} {N : Aig} (hN : N.Built) (hreg : N.numPis = N.inputs.length) (hmin : P.minimize = false)
    (h2 : 2 ≤ P.cutSize) (hk : P.cutSize ≤ maxCutSize) (hl3 : 3 ≤ P.cutLimit) (hsf : SizeFirst P.lt) {m : Nat} (hm : m < N.nodes.length)
    {st st' : CutNet β} (h : EnumInv P N m st)
    (hd : ∀ (n : Nat) s, n < m → n ≠ 0 → st.sets[n]? = some s → Kind N st.cache n s) (e : enumNode P N st m = some st') :
    ∀ (n : Nat) s, n < m + 1 → n ≠ 0 → st'.sets[n]? = some s → Kind N st'.cache n s := by
  have hml : m < st.sets.length := by rw [h.len]; exact hm
  have hsm : st.sets[m]? = some st.sets[m] := List.getElem?_eq_getElem hml
  have hkey : ∀ s', st'.sets = st.sets.set m s' → (∀ l u, st.cache.lookup l = some u → st'.cache.lookup l = some u) → (m ≠ 0 → Kind N st'.cache m s') →
      ∀ (n : Nat) s, n < m + 1 → n ≠ 0 → st'.sets[n]? = some s → Kind N st'.cache n s := by
    intro s' he hmo hs' n s hn hn0 hs
    rw [he, List.getElem?_set] at hs
    by_cases hnm : m = n
    · rw [if_pos hnm, if_pos (by omega)] at hs
      obtain rfl := Option.some.inj hs
      subst hnm; exact hs' hn0
    · rw [if_neg hnm] at hs; exact (hd n s (by omega) hn0 hs).mono hmo
  rw [enumNode] at e
  by_cases h0 : m = 0
  · rw [if_pos h0, hsm] at e
    dsimp only at e
    split at e
    · simp at e
    · obtain rfl := Option.some.inj e
      exact hkey _ rfl (fun _ _ h => h) (fun h => absurd h0 h)
  · rw [if_neg h0] at e
    by_cases hpi : N.isPi m = true
    · rw [if_pos hpi, hsm] at e
      dsimp only at e
      obtain ⟨s', d, ea, a1, a2, _⟩ := addCut_spec [m] (fun d : FData β => { d with func := 2 }) (h.inv m _ hsm)
        (by rw [(h.todo m _ le_rfl hsm).2]; decide)
      rw [CutSet.addFixed, ea] at e
      obtain rfl := Option.some.inj e
      refine hkey _ rfl (fun _ _ h => h) fun _ => ?_
      rw [(h.todo m _ le_rfl hsm).1, List.nil_append] at a2
      refine ⟨?_, ?_, ⟨[], _, a2, rfl, by simp⟩, ?_⟩
      · intro c hc; rw [a2, List.mem_singleton] at hc; rw [hc]; exact Or.inl rfl
      · intro c hc; rw [a2, List.mem_singleton] at hc; rw [hc]
        intro x hx; rw [List.mem_singleton.1 hx]; exact .refl _
      · intro a b hg
        exfalso
        have := hg.not_ci hN.wf
        obtain ⟨_, hnin, nd, hnd, _⟩ := hg
        simp only [Aig.isPi, hnd, Aig.isCi] at hpi this
        simp only [Bool.and_eq_true, beq_iff_eq, decide_eq_true_eq] at hpi
        simp [hpi.1] at this
    · rw [if_neg hpi] at e
      have hnin : m ∉ N.inputs := by
        intro hin
        obtain ⟨k, hk'⟩ := List.mem_iff_getElem?.1 hin
        obtain ⟨_, nd, hnd, e1, e2, _⟩ := hN.wf.input k m hk'
        apply hpi
        have hlt := Aig.lt_of_getElem? hk'
        simp [Aig.isPi, hnd, e1, e2, hreg, hlt]
      obtain ⟨nd, hnd⟩ : ∃ nd, N.nodes[m]? = some nd := ⟨_, List.getElem?_eq_getElem hm⟩
      have hgw := hN.wf.gate m nd hnd h0 hnin
      have hg : N.IsGate m nd.c0 nd.c1 := ⟨h0, hnin, nd, hnd, hgw.2.2.2, rfl, rfl⟩
      have hlt := hN.wf.isGate_lt hg
      have l0 : nd.c0.index < st.sets.length := by rw [h.len]; omega
      have l1 : nd.c1.index < st.sets.length := by rw [h.len]; omega
      obtain ⟨s', es, hmo, hs'⟩ := mergeCuts_kind hN hmin h2 hk hl3 hsf hg h (List.getElem?_eq_getElem l0) (List.getElem?_eq_getElem l1)
        (hd _ _ (by omega) (by omega) (List.getElem?_eq_getElem l0)) (hd _ _ (by omega) (by omega) (List.getElem?_eq_getElem l1)) e
      exact hkey s' es hmo fun _ => hs'

/-- the cut sets after the enumeration -/
theorem enumerate_kind {P : Params β} {N : Aig} (cost0 : β) (hN : N.Built) (hreg : N.numPis = N.inputs.length)
    (hmin : P.minimize = false) (h2 : 2 ≤ P.cutSize) (hk : P.cutSize ≤ maxCutSize) (hl3 : 3 ≤ P.cutLimit) (hsf : SizeFirst P.lt) {st : CutNet β}
    (e : enumerate P N cost0 = some st) : ∀ (n : Nat) s, n ≠ 0 → st.sets[n]? = some s → Kind N st.cache n s := by
  have hfin := (enum_main cost0 hN hreg hk).1 st e
  obtain ⟨e', h0⟩ := enumerate_eq (P := P) cost0 hN
  rw [e'] at e
  have key : ∀ (k m : Nat) (st0 : CutNet β), m + k = N.nodes.length → EnumInv P N m st0 →
      (∀ (n : Nat) s, n < m → n ≠ 0 → st0.sets[n]? = some s → Kind N st0.cache n s) →
      enumNodes P N st0 (List.range' m k) = some st → ∀ (n : Nat) s, n ≠ 0 → st.sets[n]? = some s → Kind N st.cache n s := by
    intro k
    induction k with
    | zero =>
      intro m st0 hmk hi hd e n s hn hs
      rw [List.range'_zero, enumNodes] at e
      obtain rfl := Option.some.inj e
      exact hd n s (by have := Aig.lt_of_getElem? hs; rw [hi.len] at this; omega) hn hs
    | succ k ih =>
      intro m st0 hmk hi hd e
      rw [List.range'_succ, enumNodes] at e
      cases he : enumNode P N st0 m with
      | none => rw [he] at e; simp at e
      | some st1 =>
        rw [he] at e
        exact ih (m + 1) st1 (by omega) ((enumNode_spec hN hreg hk (by omega) hi).1 st1 he)
          (enumNode_kind hN hreg hmin h2 hk hl3 hsf (by omega) hi hd he) e
  exact key N.nodes.length 0 _ (by omega) h0 (by omega) e

end Verif.Cuts
