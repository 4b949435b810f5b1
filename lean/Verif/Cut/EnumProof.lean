import Verif.Cut.Enum
import Verif.Cut.SetProof
import Verif.Props.C22
import Verif.Props.AigInv

set_option autoImplicit false

/-!
# Cut enumeration: helper lemmas for C21
-/

namespace Verif.Cuts

variable {α β : Type}

/-- value of the `i`-th leaf -/
def leafVal (l : List Nat) (v : Nat → Bool) (i : Nat) : Bool :=
  match l[i]? with
  | some x => v x
  | none => false

/-! ### support -/

theorem findIdx_spec {l : List Nat} {x : Nat} (h : x ∈ l) : l[l.findIdx (· == x)]? = some x := by
  have hl : l.findIdx (· == x) < l.length := List.findIdx_lt_length_of_exists ⟨x, h, by simp⟩
  rw [List.getElem?_eq_getElem hl]
  have := List.findIdx_getElem (w := hl)
  simpa using this

theorem sorted_mem_drop {L : List Nat} (hL : Sorted L) {i x y : Nat} (hx : L[i]? = some x) (hy : y ∈ L) (hxy : x < y) :
    y ∈ L.drop (i + 1) := by
  obtain ⟨j, hj⟩ := List.mem_iff_getElem?.1 hy
  obtain ⟨hil, rfl⟩ := List.getElem?_eq_some_iff.1 hx
  obtain ⟨hjl, rfl⟩ := List.getElem?_eq_some_iff.1 hj
  have hij : i < j := by
    by_contra hc
    rcases Nat.lt_or_ge j i with h | h
    · have := List.pairwise_iff_getElem.1 hL j i hjl hil h; omega
    · obtain rfl : i = j := by omega
      omega
  rw [List.mem_iff_getElem?]
  exact ⟨j - (i + 1), by rw [List.getElem?_drop, show i + 1 + (j - (i + 1)) = j by omega, List.getElem?_eq_getElem hjl]⟩

theorem drop_succ_subset {L : List Nat} {i y : Nat} (h : y ∈ L.drop (i + 1)) : y ∈ L.drop i := by
  obtain ⟨k, hk⟩ := List.mem_iff_getElem?.1 h
  rw [List.getElem?_drop] at hk
  rw [List.mem_iff_getElem?]
  exact ⟨k + 1, by rw [List.getElem?_drop, show i + (k + 1) = i + 1 + k by omega]; exact hk⟩

theorem supportFrom_spec {L : List Nat} (hL : Sorted L) : ∀ (sub : List Nat) (off : Nat), Sorted sub →
    (∀ x ∈ sub, x ∈ L.drop off) →
    (supportFrom sub (L.drop off) off).length = sub.length ∧
    (supportFrom sub (L.drop off) off).Pairwise (· < ·) ∧
    (∀ s ∈ supportFrom sub (L.drop off) off, off ≤ s ∧ s < L.length) ∧
    (∀ (k s : Nat), (supportFrom sub (L.drop off) off)[k]? = some s → sub[k]? = L[s]?) := by
  intro sub
  induction sub with
  | nil => intro off _ _; simp [supportFrom]
  | cons x sub ih =>
    intro off hs hsub
    have hs' := List.pairwise_cons.1 hs
    have hx := findIdx_spec (hsub x (by simp))
    rw [supportFrom]
    generalize (L.drop off).findIdx (· == x) = d at *
    rw [List.getElem?_drop] at hx
    rw [List.drop_drop]
    have hin : ∀ y ∈ sub, y ∈ L.drop (off + d + 1) := by
      intro y hy
      have hyL : y ∈ L := List.mem_of_mem_drop (hsub y (by simp [hy]))
      exact sorted_mem_drop hL hx hyL (hs'.1 y hy)
    obtain ⟨h1, h2, h3, h4⟩ := ih (off + d) hs'.2 (fun y hy => drop_succ_subset (hin y hy))
    have hlt := (List.getElem?_eq_some_iff.1 hx).1
    refine ⟨by simp [h1], ?_, ?_, ?_⟩
    · refine List.pairwise_cons.2 ⟨?_, h2⟩
      intro s hs2
      have h5 := h3 s hs2
      rcases Nat.lt_or_ge (off + d) s with h | h
      · exact h
      · exfalso
        obtain rfl : s = off + d := by omega
        obtain ⟨k, hk⟩ := List.mem_iff_getElem?.1 hs2
        have h6 := h4 k _ hk
        rw [hx] at h6
        have := hs'.1 x (List.mem_of_getElem? h6)
        omega
    · intro s hs2
      rcases List.mem_cons.1 hs2 with rfl | hs2
      · exact ⟨by omega, hlt⟩
      · have := h3 s hs2; omega
    · intro k s hk
      cases k with
      | zero =>
        simp only [List.getElem?_cons_zero, Option.some.injEq] at hk
        subst hk
        simp [hx]
      | succ k =>
        rw [List.getElem?_cons_succ] at hk ⊢
        exact h4 k s hk

theorem expand_leaves {t : TT} {sub sup : List Nat} (hsub : Sorted sub) (hsup : Sorted sup) (hin : ∀ x ∈ sub, x ∈ sup)
    (hn : t.n = sub.length) (v : Nat → Bool) :
    ((t.extendTo sup.length).expand (support sub sup)).eval (leafVal sup v) = t.eval (leafVal sub v) := by
  obtain ⟨h1, h2, h3, h4⟩ := supportFrom_spec hsup sub 0 hsub (by simpa using hin)
  rw [List.drop_zero] at h1 h2 h3 h4
  have hnd : sub.Nodup := hsub.imp (fun h => Nat.ne_of_lt h)
  have hle : sub.length ≤ sup.length := (hnd.subperm hin).length_le
  rw [TT.eval_expand (y := leafVal sub v)]
  · exact TT.eval_extendTo (by omega) _
  · exact h2
  · intro s hs; exact (h3 s hs).2
  · rw [support, h1]; exact hle
  · intro u w huw
    rw [TT.eval_extendTo (by omega), TT.eval_extendTo (by omega)]
    apply TT.eval_congr
    intro k hk
    apply huw
    rw [support, h1]; omega
  · intro k s hk
    have := h4 k s hk
    rw [leafVal, leafVal, this]

/-! ### functions of cuts -/

/-- The stored table gives the value of node `n` from the values of the leaves. -/
def RightTable (N : Aig) (cache : TTCache) (n : Nat) (c : Cut (FData β)) : Prop :=
  ∃ t, cache.lookup c.data.func = some t ∧ t.n = c.leaves.length ∧
    ∀ v, N.Models v → v n = t.eval (leafVal c.leaves v)

/-- Every path from `n` towards the inputs meets a node of `L` or ends in the constant. -/
inductive Separated (N : Aig) (L : List Nat) : Nat → Prop
  | leaf {n : Nat} : n ∈ L → Separated N L n
  | const : Separated N L 0
  | gate {n : Nat} {a b : Sig} : N.IsGate n a b → Separated N L a.index → Separated N L b.index → Separated N L n

theorem Separated.mono {N : Aig} {L L' : List Nat} {n : Nat} (h : Separated N L n) (hL : ∀ x ∈ L, x ∈ L') : Separated N L' n := by
  induction h with
  | leaf h => exact .leaf (hL _ h)
  | const => exact .const
  | gate hg _ _ ih1 ih2 => exact .gate hg ih1 ih2

/-- what holds for every stored cut of node `n` -/
structure CutOk (P : Params β) (N : Aig) (cache : TTCache) (n : Nat) (c : Cut (FData β)) : Prop where
  wf : c.WF
  leaf : ∀ x ∈ c.leaves, x ≤ n
  size : c.leaves.length ≤ max P.cutSize 1
  table : RightTable N cache n c
  sep : P.minimize = false → Separated N c.leaves n

theorem RightTable.mono {N : Aig} {cache cache' : TTCache} {n : Nat} {c : Cut (FData β)} (h : RightTable N cache n c)
    (hc : ∀ l u, cache.lookup l = some u → cache'.lookup l = some u) : RightTable N cache' n c := by
  obtain ⟨t, h1, h2⟩ := h
  exact ⟨t, hc _ _ h1, h2⟩

theorem CutOk.mono {P : Params β} {N : Aig} {cache cache' : TTCache} {n : Nat} {c : Cut (FData β)} (h : CutOk P N cache n c)
    (hc : ∀ l u, cache.lookup l = some u → cache'.lookup l = some u) : CutOk P N cache' n c :=
  ⟨h.wf, h.leaf, h.size, h.table.mono hc, h.sep⟩

theorem pick_spec {leaves : List Nat} : ∀ (is l : List Nat), pick leaves is = some l →
    l.length = is.length ∧ ∀ (k i : Nat), is[k]? = some i → l[k]? = leaves[i]? := by
  intro is
  induction is with
  | nil => intro l h; simp [pick] at h; subst h; simp
  | cons i is ih =>
    intro l h
    rw [pick] at h
    cases hi : leaves[i]? with
    | none => rw [hi] at h; simp at h
    | some x =>
      cases hp : pick leaves is with
      | none => rw [hi, hp] at h; simp at h
      | some xs =>
        rw [hi, hp] at h
        simp only [Option.some.injEq] at h
        subst h
        obtain ⟨h1, h2⟩ := ih xs hp
        refine ⟨by simp [h1], ?_⟩
        intro k j hk
        cases k with
        | zero => simp at hk; subst hk; simp [hi]
        | succ k => simp at hk ⊢; exact h2 k j hk

theorem pick_some {leaves : List Nat} : ∀ (is : List Nat), (∀ i ∈ is, i < leaves.length) → ∃ l, pick leaves is = some l := by
  intro is
  induction is with
  | nil => intro _; exact ⟨[], rfl⟩
  | cons i is ih =>
    intro h
    obtain ⟨l, hl⟩ := ih fun j hj => h j (by simp [hj])
    rw [pick, List.getElem?_eq_getElem (h i (by simp)), hl]
    exact ⟨_, rfl⟩

theorem pick_sorted {leaves is l : List Nat} (hs : Sorted leaves) (hi : is.Pairwise (· < ·)) (h : pick leaves is = some l) :
    Sorted l := by
  obtain ⟨h1, h2⟩ := pick_spec is l h
  refine List.pairwise_iff_getElem.2 ?_
  intro a b ha hb hab
  have ea := h2 a is[a] (List.getElem?_eq_getElem (by omega))
  have eb := h2 b is[b] (List.getElem?_eq_getElem (by omega))
  rw [List.getElem?_eq_getElem ha] at ea
  rw [List.getElem?_eq_getElem hb] at eb
  obtain ⟨la, ea⟩ := List.getElem?_eq_some_iff.1 ea.symm
  obtain ⟨lb, eb⟩ := List.getElem?_eq_some_iff.1 eb.symm
  rw [← ea, ← eb]
  exact List.pairwise_iff_getElem.1 hs _ _ la lb (List.pairwise_iff_getElem.1 hi a b (by omega) (by omega) hab)

theorem childTable_spec {N : Aig} {cache : TTCache} {m : Nat} {c res : Cut (FData β)} (hc : c.WF) (hr : Sorted res.leaves)
    (hin : ∀ x ∈ c.leaves, x ∈ res.leaves) (ht : RightTable N cache m c) :
    ∃ t, childTable cache c res = some t ∧ t.n = res.leaves.length ∧
      ∀ v, N.Models v → t.eval (leafVal res.leaves v) = v m := by
  obtain ⟨t, h1, h2, h3⟩ := ht
  refine ⟨_, by rw [childTable, h1], by simp, ?_⟩
  intro v hv
  rw [expand_leaves hc.sorted hr hin h2, ← h3 v hv]

/-- `compute_truth_table` gives the right table, and the leaves are among the leaves of the merged cut. -/
theorem computeTruth_spec {N : Aig} {cache : TTCache} (hcache : cache.Inv) {n : Nat} {a b : Sig} (hg : N.IsGate n a b)
    (minimize : Bool) {c1 c2 res : Cut (FData β)} (h1 : c1.WF) (h2 : c2.WF) (hr : res.WF)
    (hin : ∀ x, x ∈ res.leaves ↔ x ∈ c1.leaves ∨ x ∈ c2.leaves)
    (ht1 : RightTable N cache a.index c1) (ht2 : RightTable N cache b.index c2) :
    ∃ cache' r', computeTruth N minimize cache n c1 c2 res = some (cache', r') ∧ cache'.Inv ∧
      (∀ l u, cache.lookup l = some u → cache'.lookup l = some u) ∧ r'.WF ∧ (∀ x ∈ r'.leaves, x ∈ res.leaves) ∧
      r'.leaves.length ≤ res.leaves.length ∧ RightTable N cache' n r' ∧ (minimize = false → r'.leaves = res.leaves) := by
  obtain ⟨t1, e1, n1, v1⟩ := childTable_spec h1 hr.sorted (fun x hx => (hin x).2 (Or.inl hx)) ht1
  obtain ⟨t2, e2, n2, v2⟩ := childTable_spec h2 hr.sorted (fun x hx => (hin x).2 (Or.inr hx)) ht2
  obtain ⟨_, _, nd, hnd, _, rfl, rfl⟩ := id hg
  rw [computeTruth, e1, e2, hnd]
  dsimp only
  have hnt : ((if nd.c0.compl = true then t1.not else t1).and (if nd.c1.compl = true then t2.not else t2)).n = res.leaves.length := by
    rw [TT.n_and]; split <;> simp [n1]
  have hwt : ((if nd.c0.compl = true then t1.not else t1).and (if nd.c1.compl = true then t2.not else t2)).WF := TT.wf_and _ _
  have hev : ∀ v, N.Models v →
      ((if nd.c0.compl = true then t1.not else t1).and (if nd.c1.compl = true then t2.not else t2)).eval (leafVal res.leaves v) = v n := by
    intro v hv
    rw [TT.eval_and (by split <;> split <;> simp [n1, n2]), hv.gate n _ _ hg, Sig.val, Sig.val, ← v1 v hv, ← v2 v hv]
    cases nd.c0.compl <;> cases nd.c1.compl <;> simp
  generalize ((if nd.c0.compl = true then t1.not else t1).and (if nd.c1.compl = true then t2.not else t2)) = tt at *
  obtain ⟨m1, m2, m3, m4, m5⟩ := TT.minBase_spec tt
  by_cases hm : minimize = true ∧ tt.minBase.2.length ≠ res.leaves.length
  · rw [if_pos hm]
    obtain ⟨l, hl⟩ := pick_some (leaves := res.leaves) tt.minBase.2 (fun i hi => by rw [← hnt]; exact m4 i hi)
    obtain ⟨p1, p2⟩ := pick_spec _ _ hl
    rw [hl]
    dsimp only
    obtain ⟨i1, i2, i3, _⟩ := TTCache.insert_spec cache hcache (tt.minBase.1.shrinkTo tt.minBase.2.length) (TT.wf_ofFn _ _)
    refine ⟨_, _, rfl, i1, i3, ⟨pick_sorted hr.sorted m3 hl, rfl⟩, ?_, ?_, ?_, ?_⟩
    · intro x hx
      obtain ⟨k, hk⟩ := List.mem_iff_getElem?.1 hx
      have hkl : k < tt.minBase.2.length := by rw [← p1]; exact (List.getElem?_eq_some_iff.1 hk).1
      have := p2 k _ (List.getElem?_eq_getElem hkl)
      rw [show (res.setLeaves l).leaves = l from rfl] at hk
      rw [hk] at this
      exact List.mem_of_getElem? this.symm
    · show l.length ≤ _
      rw [p1, ← hnt]; exact m2
    · refine ⟨_, i2, by rw [TT.n_shrinkTo]; exact p1.symm, ?_⟩
      intro v hv
      show v n = TT.eval _ (leafVal l v)
      rw [TT.eval_shrinkTo (by rw [m1]; exact m2), m5 (leafVal res.leaves v), hev v hv]
      intro j s hj
      rw [if_pos (List.getElem?_eq_some_iff.1 hj).1, leafVal, leafVal, p2 j s hj]
    · intro hf; rw [hm.1] at hf; simp at hf
  · rw [if_neg hm]
    by_cases hmin : minimize = true
    · rw [if_pos hmin]
      have hlen : tt.minBase.2.length = res.leaves.length := by tauto
      have hwm : tt.minBase.1.WF := by
        have hloop : ∀ (is : List Nat) (t : TT) (sup : List Nat), t.WF → (TT.minBaseLoop is t sup).1.WF := by
          intro is
          induction is with
          | nil => intro t sup h; exact h
          | cons i is ih =>
            intro t sup h
            rw [TT.minBaseLoop]
            split
            · apply ih; split
              · exact TT.wf_ofFn _ _
              · exact h
            · exact ih _ _ h
        exact hloop _ _ _ hwt
      obtain ⟨i1, i2, i3, _⟩ := TTCache.insert_spec cache hcache tt.minBase.1 hwm
      refine ⟨_, _, rfl, i1, i3, ⟨hr.sorted, hr.sig⟩, fun x hx => hx, le_rfl, ⟨_, i2, by rw [m1, hnt], ?_⟩, fun _ => rfl⟩
      intro v hv
      show v n = TT.eval _ (leafVal res.leaves v)
      rw [m5 (leafVal res.leaves v), hev v hv]
      -- the support is all variables
      intro j s hj
      have hall : tt.minBase.2 = List.range tt.n := by
        apply eq_of_subset_of_length m3 List.pairwise_lt_range
        · rw [hlen, List.length_range, hnt]
        · intro x hx; exact List.mem_range.2 (m4 x hx)
      rw [hall] at hj
      obtain ⟨hj1, hj2⟩ := List.getElem?_eq_some_iff.1 hj
      rw [List.getElem_range] at hj2
      rw [hj2]
    · rw [if_neg hmin]
      obtain ⟨i1, i2, i3, _⟩ := TTCache.insert_spec cache hcache tt hwt
      refine ⟨_, _, rfl, i1, i3, ⟨hr.sorted, hr.sig⟩, fun x hx => hx, le_rfl, ⟨_, i2, hnt, ?_⟩, fun _ => rfl⟩
      intro v hv
      exact (hev v hv).symm

/-! ### cut sets -/

theorem insert_mem {maxCuts : Nat} (hpos : 0 < maxCuts) (lt : Cut α → Cut α → Bool) {s : CutSet α} {c : Cut α}
    (h : s.Inv maxCuts) : ∃ s', s.insert maxCuts lt c = some s' ∧ s'.Inv maxCuts ∧
      ∀ x ∈ s'.view, x = stored c ∨ x ∈ s.view := by
  obtain ⟨s', i, h1, h2, h3, h4, h5⟩ := insert_view maxCuts lt s c h hpos
  refine ⟨s', h1, h2, ?_⟩
  have hsub : ∀ x ∈ s.view.filter (fun o => !c.dominates o), x ∈ s.view := fun x hx => (List.mem_filter.1 hx).1
  intro x hx
  rcases h5 with ⟨_, _, hv⟩ | ⟨ha, hb, hv⟩ | ⟨ha, hv⟩
  · rw [hv] at hx; exact Or.inr (hsub x hx)
  · rw [hv, List.mem_insertIdx (by rw [List.length_dropLast]; omega)] at hx
    rcases hx with rfl | hx
    · exact Or.inl rfl
    · exact Or.inr (hsub x ((List.dropLast_sublist _).subset hx))
  · rw [hv, List.mem_insertIdx h4] at hx
    rcases hx with rfl | hx
    · exact Or.inl rfl
    · exact Or.inr (hsub x hx)

theorem addCut_spec {maxCuts : Nat} {s : CutSet α} (l : List Nat) (f : α → α) (h : s.Inv maxCuts) (hl : s.len < maxCuts) :
    ∃ s' d, s.addCut l f = some s' ∧ s'.Inv maxCuts ∧ s'.view = s.view ++ [⟨l, signature l, f d⟩] ∧ s'.len = s.len + 1 := by
  have hlt : s.len < s.ptrs.length := by rw [h.length]; exact hl
  rw [CutSet.addCut, List.getElem?_eq_getElem hlt]
  refine ⟨_, (s.store s.ptrs[s.len]).data, rfl, ⟨h.perm, hl⟩, ?_, rfl⟩
  rw [CutSet.view, CutSet.view]
  dsimp only
  rw [List.take_succ_eq_append_getElem hlt, List.map_append, List.map_singleton, if_pos rfl]
  congr 1
  apply List.map_congr_left
  intro q hq
  rw [if_neg]
  rintro rfl
  have hn := h.nodup
  rw [← List.take_append_drop (s.len + 1) s.ptrs, List.take_succ_eq_append_getElem hlt] at hn
  have hn2 := (List.nodup_append.1 hn).1
  exact (List.nodup_append.1 hn2).2.2 _ hq _ (by simp) rfl

theorem limit_spec {maxCuts : Nat} {s s' : CutSet α} {k : Nat} (h : s.Inv maxCuts) (hl : s.limit k = some s') :
    s'.Inv maxCuts ∧ (∀ x ∈ s'.view, x ∈ s.view) ∧ s'.len ≤ s.len ∧ s'.len ≤ max k s.len ∧ (k < s.len → s'.len = k - 1) ∧ s'.ptrs = s.ptrs := by
  rw [CutSet.limit] at hl
  by_cases hk : s.len > k
  · rw [if_pos hk] at hl
    by_cases h0 : k = 0
    · rw [if_pos h0] at hl; simp at hl
    · rw [if_neg h0] at hl
      obtain rfl := Option.some.inj hl
      refine ⟨⟨h.perm, by have := h.len; show k - 1 ≤ _; omega⟩, ?_, by show k - 1 ≤ _; omega, by show k - 1 ≤ _; omega, fun _ => rfl, rfl⟩
      intro x hx
      rw [CutSet.view] at hx ⊢
      refine List.map_subset _ ?_ hx
      exact List.take_subset_take_left _ (by show k - 1 ≤ _; omega)
  · rw [if_neg hk] at hl
    obtain rfl := Option.some.inj hl
    exact ⟨h, fun _ h => h, le_rfl, le_max_right _ _, fun h => by omega, rfl⟩

end Verif.Cuts
