import Verif.Cut.SetProof

set_option autoImplicit false

/-!
# C20: cut sets
-/

namespace Verif.Cuts

variable {α : Type}

/-- every leaf of `a` is a leaf of `b` -/
def Covers (a b : Cut α) : Prop := ∀ x ∈ a.leaves, x ∈ b.leaves

instance (a b : Cut α) : Decidable (Covers a b) := inferInstanceAs (Decidable (∀ x ∈ a.leaves, x ∈ b.leaves))

/-- no cut dominates another -/
def Irredundant (l : List (Cut α)) : Prop := l.Pairwise fun a b => ¬ Covers a b ∧ ¬ Covers b a

instance (l : List (Cut α)) : Decidable (Irredundant l) := inferInstanceAs (Decidable (l.Pairwise _))

theorem pairwise_insertIdx {β : Type} {R : β → β → Prop} {l : List β} {c : β} {i : Nat} (hi : i ≤ l.length)
    (h : l.Pairwise R) (h1 : ∀ (j : Nat) (x : β), l[j]? = some x → j < i → R x c)
    (h2 : ∀ (j : Nat) (x : β), l[j]? = some x → i ≤ j → R c x) : (l.insertIdx i c).Pairwise R := by
  induction l generalizing i with
  | nil => obtain rfl : i = 0 := by simpa using hi
           simp
  | cons a l ih =>
    have h' := List.pairwise_cons.1 h
    cases i with
    | zero =>
      rw [List.insertIdx_zero]
      refine List.pairwise_cons.2 ⟨?_, h⟩
      intro x hx
      obtain ⟨j, hj⟩ := List.mem_iff_getElem?.1 hx
      exact h2 j x hj (by omega)
    | succ i =>
      rw [List.insertIdx_succ_cons]
      have hi' : i ≤ l.length := by simpa using hi
      refine List.pairwise_cons.2 ⟨?_, ih hi' h'.2 ?_ ?_⟩
      · intro x hx
        rcases (List.mem_insertIdx hi').1 hx with rfl | hx
        · exact h1 0 a (by simp) (by omega)
        · exact h'.1 x hx
      · intro j x hx hj; exact h1 (j + 1) x (by simpa using hx) (by omega)
      · intro j x hx hj; exact h2 (j + 1) x (by simpa using hx) (by omega)

/-- what holds for the visible list between operations -/
structure Good (maxCuts : Nat) (l : List (Cut α)) : Prop where
  wf : ∀ c ∈ l, c.WF
  irr : Irredundant l
  le : l.length ≤ maxCuts

/-- One guarded insertion (`offer`), with everything that happens to the visible list. -/
theorem offer_step (maxCuts : Nat) (hpos : 0 < maxCuts) (lt : Cut α → Cut α → Bool) (s : CutSet α) (c : Cut α)
    (hc : c.WF) (h : s.Inv maxCuts) (hg : Good maxCuts s.view) :
    ∃ s', s.offer maxCuts lt c = some s' ∧ s'.Inv maxCuts ∧ Good maxCuts s'.view ∧
      (∀ x ∈ s'.view, x = c ∨ x ∈ s.view) ∧
      s'.view.length ≤ s.view.length + 1 ∧
      (s.view.length < maxCuts → ∀ x, x = c ∨ x ∈ s.view → ∃ y ∈ s'.view, Covers y x) ∧
      (StrictWeak lt → BestFirst lt s.view → BestFirst lt s'.view ∧
        ∀ x, x = c ∨ x ∈ s.view → (∃ y ∈ s'.view, Covers y x) ∨
          (s'.view.length = maxCuts ∧ ∀ y ∈ s'.view, lt x y = false)) := by
  rw [CutSet.offer]
  by_cases hd : s.isDominated c = true
  · rw [if_pos hd]
    obtain ⟨o, ho, hoc⟩ := List.any_eq_true.1 hd
    have hcov : Covers o c := (C18_dominates o c (hg.wf o ho) hc).1 hoc
    have hkeep : ∀ x, x = c ∨ x ∈ s.view → ∃ y ∈ s.view, Covers y x := by
      rintro x (rfl | hx)
      · exact ⟨o, ho, hcov⟩
      · exact ⟨x, hx, fun _ h => h⟩
    exact ⟨s, rfl, h, hg, fun x hx => Or.inr hx, by omega, fun _ => hkeep,
      fun _ hb => ⟨hb, fun x hx => Or.inl (hkeep x hx)⟩⟩
  · rw [if_neg hd]
    have hnd : ∀ o ∈ s.view, ¬ Covers o c := by
      intro o ho hoc
      exact hd (List.any_eq_true.2 ⟨o, ho, (C18_dominates o c (hg.wf o ho) hc).2 hoc⟩)
    obtain ⟨s', i, h1, h2, h3, h4, h5⟩ := insert_view maxCuts lt s c h hpos
    rw [stored_eq hc] at h5
    generalize hkd : (s.view.filter fun o => !c.dominates o) = kept at *
    have hkm : ∀ x, x ∈ kept ↔ x ∈ s.view ∧ ¬ Covers c x := by
      intro x
      rw [← hkd, List.mem_filter]
      constructor
      · rintro ⟨hx, hcx⟩
        refine ⟨hx, fun hcov => ?_⟩
        rw [(C18_dominates c x hc (hg.wf x hx)).2 hcov] at hcx
        simp at hcx
      · rintro ⟨hx, hcx⟩
        refine ⟨hx, ?_⟩
        cases hb : c.dominates x with
        | false => rfl
        | true => exact absurd ((C18_dominates c x hc (hg.wf x hx)).1 hb) hcx
    have hsub : kept.Sublist s.view := by rw [← hkd]; exact List.filter_sublist
    have hkirr : Irredundant kept := hg.irr.sublist hsub
    have hirrc : ∀ x ∈ kept, ¬ Covers x c ∧ ¬ Covers c x := fun x hx => ⟨hnd x ((hkm x).1 hx).1, ((hkm x).1 hx).2⟩
    have hkl : kept.length ≤ s.view.length := hsub.length_le
    have hins : ∀ A : List (Cut α), A.Sublist kept → i ≤ A.length → Irredundant (A.insertIdx i c) := by
      intro A hA hiA
      refine pairwise_insertIdx hiA (hkirr.sublist hA) ?_ ?_
      · intro j x hx _; exact hirrc x (hA.subset (List.mem_of_getElem? hx))
      · intro j x hx _; have := hirrc x (hA.subset (List.mem_of_getElem? hx)); exact ⟨this.2, this.1⟩
    refine ⟨s', h1, h2, ?_⟩
    rcases h5 with ⟨ha, hb, hv⟩ | ⟨ha, hb, hv⟩ | ⟨ha, hv⟩
    · -- full, the new cut is last
      rw [hv]
      refine ⟨⟨fun x hx => hg.wf x (hsub.subset hx), hkirr, by omega⟩, fun x hx => Or.inr (hsub.subset hx), by omega,
        fun hlt => by omega, ?_⟩
      intro hsw hbf
      have hkbf : BestFirst lt kept := hbf.sublist hsub
      have hlb := lowerBound_spec lt hsw kept c hkbf i h3
      refine ⟨hkbf, ?_⟩
      rintro x (rfl | hx)
      · right
        refine ⟨ha, ?_⟩
        intro y hy
        obtain ⟨j, hj⟩ := List.mem_iff_getElem?.1 hy
        have hjl := (List.getElem?_eq_some_iff.1 hj).1
        exact hsw.asymm _ _ (hlb.1 j y hj (by omega))
      · left
        have hlen : kept.length = s.view.length := by have := hg.le; omega
        have heq : kept = s.view := hsub.eq_of_length hlen
        exact ⟨x, by rw [heq]; exact hx, fun _ h => h⟩
    · -- full, the last cut goes
      have hdl : kept.dropLast.Sublist kept := List.dropLast_sublist _
      have hdll : kept.dropLast.length = kept.length - 1 := List.length_dropLast
      have hm : ∀ x, x ∈ kept.dropLast.insertIdx i c ↔ x = c ∨ x ∈ kept.dropLast :=
        fun x => List.mem_insertIdx (by omega)
      have hil : (kept.dropLast.insertIdx i c).length = maxCuts := by
        rw [List.length_insertIdx_of_le_length (by omega)]; omega
      rw [hv]
      refine ⟨⟨?_, hins _ hdl (by omega), by omega⟩, ?_, by omega, fun hlt => by omega, ?_⟩
      · intro x hx
        rcases (hm x).1 hx with rfl | hx
        · exact hc
        · exact hg.wf x (hsub.subset (hdl.subset hx))
      · intro x hx
        rcases (hm x).1 hx with rfl | hx
        · exact Or.inl rfl
        · exact Or.inr (hsub.subset (hdl.subset hx))
      · intro hsw hbf
        have hkbf : BestFirst lt kept := hbf.sublist hsub
        have hlb := lowerBound_spec lt hsw kept c hkbf i h3
        have hget : ∀ (j : Nat) (x : Cut α), kept.dropLast[j]? = some x → kept[j]? = some x := by
          intro j x hx
          obtain ⟨hl, rfl⟩ := List.getElem?_eq_some_iff.1 hx
          rw [List.getElem_dropLast, List.getElem?_eq_getElem]
        refine ⟨pairwise_insertIdx (by omega) (hkbf.sublist hdl) ?_ ?_, ?_⟩
        · intro j x hx hj; exact hsw.asymm _ _ (hlb.1 j x (hget j x hx) hj)
        · intro j x hx hj; exact hlb.2 j x (hget j x hx) hj
        · rintro x (rfl | hx)
          · exact Or.inl ⟨x, (hm x).2 (Or.inl rfl), fun _ h => h⟩
          · have hlen : kept.length = s.view.length := by have := hg.le; omega
            have heq : kept = s.view := hsub.eq_of_length hlen
            rw [← heq] at hx
            have hne : kept ≠ [] := List.ne_nil_of_mem hx
            rw [← List.dropLast_append_getLast hne, List.mem_append, List.mem_singleton] at hx
            rcases hx with hx | hx
            · exact Or.inl ⟨x, (hm x).2 (Or.inr hx), fun _ h => h⟩
            · right
              refine ⟨hil, ?_⟩
              intro y hy
              have hxl : kept[kept.length - 1]? = some x := by
                rw [hx, ← List.getLast?_eq_getElem?, List.getLast?_eq_some_getLast hne]
              rcases (hm y).1 hy with rfl | hy
              · exact hlb.2 _ x hxl (by omega)
              · have hp : BestFirst lt (kept.dropLast ++ [kept.getLast hne]) := by
                  rw [List.dropLast_append_getLast hne]; exact hkbf
                have := (List.pairwise_append.1 hp).2.2 y hy (kept.getLast hne) (by simp)
                rw [hx]; exact this
    · -- room
      have hm : ∀ x, x ∈ kept.insertIdx i c ↔ x = c ∨ x ∈ kept := fun x => List.mem_insertIdx h4
      have hil : (kept.insertIdx i c).length = kept.length + 1 := List.length_insertIdx_of_le_length h4 _
      have hkeep : ∀ x, x = c ∨ x ∈ s.view → ∃ y ∈ kept.insertIdx i c, Covers y x := by
        rintro x (rfl | hx)
        · exact ⟨x, (hm x).2 (Or.inl rfl), fun _ h => h⟩
        · by_cases hcx : Covers c x
          · exact ⟨c, (hm c).2 (Or.inl rfl), hcx⟩
          · exact ⟨x, (hm x).2 (Or.inr ((hkm x).2 ⟨hx, hcx⟩)), fun _ h => h⟩
      rw [hv]
      refine ⟨⟨?_, hins _ (List.Sublist.refl _) h4, by omega⟩, ?_, by omega, fun _ => hkeep, ?_⟩
      · intro x hx
        rcases (hm x).1 hx with rfl | hx
        · exact hc
        · exact hg.wf x (hsub.subset hx)
      · intro x hx
        rcases (hm x).1 hx with rfl | hx
        · exact Or.inl rfl
        · exact Or.inr (hsub.subset hx)
      · intro hsw hbf
        have hkbf : BestFirst lt kept := hbf.sublist hsub
        have hlb := lowerBound_spec lt hsw kept c hkbf i h3
        refine ⟨pairwise_insertIdx h4 hkbf ?_ ?_, fun x hx => Or.inl (hkeep x hx)⟩
        · intro j x hx hj; exact hsw.asymm _ _ (hlb.1 j x hx hj)
        · intro j x hx hj; exact hlb.2 j x hx hj

theorem offers_inv (maxCuts : Nat) (hpos : 0 < maxCuts) (lt : Cut α → Cut α → Bool) :
    ∀ (cs : List (Cut α)) (s : CutSet α), (∀ c ∈ cs, c.WF) → s.Inv maxCuts → Good maxCuts s.view →
    ∃ s', s.offers maxCuts lt cs = some s' ∧ s'.Inv maxCuts ∧ Good maxCuts s'.view ∧
      (∀ x ∈ s'.view, x ∈ cs ∨ x ∈ s.view) ∧
      (s.view.length + cs.length ≤ maxCuts → ∀ x, x ∈ cs ∨ x ∈ s.view → ∃ y ∈ s'.view, Covers y x) ∧
      (StrictWeak lt → BestFirst lt s.view → BestFirst lt s'.view) := by
  intro cs
  induction cs with
  | nil =>
    intro s _ h hg
    refine ⟨s, rfl, h, hg, fun x hx => Or.inr hx, ?_, fun _ hb => hb⟩
    rintro _ x (hx | hx)
    · simp at hx
    · exact ⟨x, hx, fun _ h => h⟩
  | cons c cs ih =>
    intro s hcs h hg
    obtain ⟨s1, h1, h2, h3, h4, h5, h6, h7⟩ := offer_step maxCuts hpos lt s c (hcs c (by simp)) h hg
    obtain ⟨s2, g1, g2, g3, g4, g5, g6⟩ := ih s1 (fun x hx => hcs x (by simp [hx])) h2 h3
    refine ⟨s2, by rw [CutSet.offers, h1]; exact g1, g2, g3, ?_, ?_, fun hsw hb => g6 hsw (h7 hsw hb).1⟩
    · intro x hx
      rcases g4 x hx with hx | hx
      · exact Or.inl (by simp [hx])
      · rcases h4 x hx with rfl | hx
        · exact Or.inl (by simp)
        · exact Or.inr hx
    · intro hle x hx
      rw [List.length_cons] at hle
      have hcov : ∀ z, z ∈ cs ∨ z ∈ s1.view → ∃ y ∈ s2.view, Covers y z := g5 (by omega)
      have hstep : x = c ∨ x ∈ s.view → ∃ y ∈ s2.view, Covers y x := by
        intro hx
        obtain ⟨y, hy, hyx⟩ := h6 (by omega) x hx
        obtain ⟨z, hz, hzy⟩ := hcov y (Or.inr hy)
        exact ⟨z, hz, fun w hw => hyx w (hzy w hw)⟩
      rcases hx with hx | hx
      · rcases List.mem_cons.1 hx with rfl | hx
        · exact hstep (Or.inl rfl)
        · exact hcov x (Or.inl hx)
      · exact hstep (Or.inr hx)

theorem clear_inv (maxCuts : Nat) (s : CutSet α) : (s.clear maxCuts).Inv maxCuts ∧ (s.clear maxCuts).view = [] :=
  ⟨⟨List.Perm.refl _, Nat.zero_le _⟩, by simp [CutSet.view, CutSet.clear]⟩

/-- C20 for guarded insertions (missing: bare `insert`, `limit`, comparison operators with a tolerance;
see the counterexamples below).  Start with a cleared set, offer any sequence of well formed cuts: no
operation reads or writes outside the arrays, no cut in the set dominates another, there are at most
`MaxCuts` cuts, they all come from the sequence, the order is best first if the comparison is a strict weak
order, and as long as no more than `MaxCuts` cuts were offered every offered cut is covered. -/
theorem C20_offers_partial (maxCuts : Nat) (hpos : 0 < maxCuts) (lt : Cut α → Cut α → Bool) (s0 : CutSet α)
    (cs : List (Cut α)) (hcs : ∀ c ∈ cs, c.WF) :
    ∃ s, (s0.clear maxCuts).offers maxCuts lt cs = some s ∧
      Irredundant s.view ∧ s.view.length ≤ maxCuts ∧ (∀ c ∈ s.view, c ∈ cs) ∧
      (StrictWeak lt → BestFirst lt s.view) ∧
      (cs.length ≤ maxCuts → ∀ c ∈ cs, ∃ y ∈ s.view, Covers y c) := by
  obtain ⟨hi, hv⟩ := clear_inv maxCuts s0
  obtain ⟨s, h1, _, h3, h4, h5, h6⟩ := offers_inv maxCuts hpos lt cs (s0.clear maxCuts) hcs hi
    (by rw [hv]; exact ⟨by simp, List.Pairwise.nil, by simp⟩)
  rw [hv] at h4 h5 h6
  refine ⟨s, h1, h3.irr, h3.le, ?_, fun hsw => h6 hsw List.Pairwise.nil, ?_⟩
  · intro c hc
    rcases h4 c hc with h | h
    · exact h
    · simp at h
  · intro hl c hc
    exact h5 (by simpa using hl) c (Or.inl hc)

/-- C20, eviction: what one guarded insertion loses is covered by what it keeps, or the set is full and
the lost cut is no better than any cut that is kept. -/
theorem C20_eviction (maxCuts : Nat) (hpos : 0 < maxCuts) (lt : Cut α → Cut α → Bool) (hlt : StrictWeak lt)
    (s0 : CutSet α) (cs : List (Cut α)) (c : Cut α) (hcs : ∀ x ∈ cs, x.WF) (hc : c.WF) :
    ∃ s s', (s0.clear maxCuts).offers maxCuts lt cs = some s ∧ s.offer maxCuts lt c = some s' ∧
      ∀ x, x = c ∨ x ∈ s.view → (∃ y ∈ s'.view, Covers y x) ∨
        (s'.view.length = maxCuts ∧ ∀ y ∈ s'.view, lt x y = false) := by
  obtain ⟨hi, hv⟩ := clear_inv maxCuts s0
  obtain ⟨s, h1, h2, h3, _, _, h6⟩ := offers_inv maxCuts hpos lt cs (s0.clear maxCuts) hcs hi
    (by rw [hv]; exact ⟨by simp, List.Pairwise.nil, by simp⟩)
  obtain ⟨s', g1, _, _, _, _, _, g7⟩ := offer_step maxCuts hpos lt s c hc h2 h3
  exact ⟨s, s', h1, g1, (g7 hlt (h6 hlt (by rw [hv]; exact List.Pairwise.nil))).2⟩

/-- the comparison by size is a strict weak order -/
theorem ltSize_strictWeak : StrictWeak (ltSize (α := α)) := by
  constructor
  · intro a b h; simp [ltSize] at h ⊢; omega
  · intro a b c h1 h2; simp [ltSize] at h1 h2 ⊢; omega

/-! ### concrete cases and counterexamples -/

/-- a cut with right signature -/
def mk (l : List Nat) : Cut Unit := ⟨l, signature l, ()⟩

/-- an arbitrary initial memory -/
def blank : CutSet Unit := ⟨fun _ => mk [], [], 0⟩

example : ((blank.clear 3).offers 3 ltSize [mk [1, 2, 3], mk [4, 5], mk [1, 2], mk [1, 2, 9], mk [7], mk [5, 6],
    mk [8, 9]]).map CutSet.view = some [mk [7], mk [8, 9], mk [5, 6]] := by decide

/-- `update_best`: the chosen cut comes first, the others keep their order, no cut is lost or doubled, and the set
stays irredundant. -/
theorem C20_update_best (maxCuts : Nat) (s : CutSet α) (i : Nat) (c : Cut α) (h : s.Inv maxCuts) (hc : s.view[i]? = some c) :
    ∃ s', s.updateBest i = some s' ∧ s'.Inv maxCuts ∧ s'.view = c :: s.view.eraseIdx i ∧
      (Irredundant s.view → Irredundant s'.view) := by
  rw [CutSet.view, List.getElem?_map, Option.map_eq_some_iff] at hc
  obtain ⟨p, hp, rfl⟩ := hc
  rw [List.getElem?_take] at hp
  split at hp
  · rename_i hi
    rw [CutSet.updateBest, hp]
    have hil := (List.getElem?_eq_some_iff.1 hp).1
    have hpe := (List.getElem?_eq_some_iff.1 hp).2
    have hperm : (p :: s.ptrs.eraseIdx i).Perm s.ptrs := by
      have := List.getElem_cons_eraseIdx_perm hil
      rwa [hpe] at this
    have hv : CutSet.view { s with ptrs := p :: s.ptrs.eraseIdx i } = s.store p :: s.view.eraseIdx i := by
      rw [CutSet.view, CutSet.view]
      dsimp only
      rw [List.eraseIdx_map]
      cases hl : s.len with
      | zero => omega
      | succ k =>
        rw [List.take_succ_cons, List.map_cons]
        congr 2
        rw [hl] at hi
        rw [List.eraseIdx_eq_take_drop_succ, List.eraseIdx_eq_take_drop_succ, List.take_append, List.take_take, List.take_take,
          List.length_take, List.drop_take, show min k i = i by omega, show min i (k + 1) = i by omega,
          show min i s.ptrs.length = i by omega, show k + 1 - (i + 1) = k - i by omega]
    refine ⟨_, rfl, ⟨hperm.trans h.perm, h.len⟩, hv, ?_⟩
    intro hirr
    rw [hv]
    have hvi : i < s.view.length := by
      rw [CutSet.view_length h]; exact hi
    have hve : s.view[i] = s.store p := by
      have : s.view[i]? = some (s.store p) := by
        rw [CutSet.view, List.getElem?_map, List.getElem?_take, if_pos hi, hp]; rfl
      exact (List.getElem?_eq_some_iff.1 this).2
    have hperm2 := List.getElem_cons_eraseIdx_perm hvi
    rw [hve] at hperm2
    exact (hperm2.pairwise_iff (fun h => ⟨h.2, h.1⟩)).2 hirr
  · simp at hp

example : ((((blank.clear 12).offers 12 ltSize [mk [1, 2], mk [3, 4], mk [5, 6]]).bind fun s => s.updateBest 1).map
    CutSet.view) = some [mk [3, 4], mk [5, 6], mk [1, 2]] := by decide

/-- C20 is violated by a bare `insert` (as in klut_mapping.hpp 408): inserting `{1,2}` and then `{1,2,3}`
leaves both. -/
theorem C20_violated_insert : ∃ s : CutSet Unit,
    (((blank.clear 12).insert 12 ltSize (mk [1, 2])).bind fun s => s.insert 12 ltSize (mk [1, 2, 3])) = some s ∧
    ¬ Irredundant s.view := by
  refine ⟨_, rfl, ?_⟩
  decide

/-- C20 is violated by `limit`: it keeps `k - 1` cuts of a set with more than `k` cuts. -/
theorem C20_violated_limit (s : CutSet α) (maxCuts k : Nat) (h : s.Inv maxCuts) (hk : k < s.view.length) :
    (k = 0 ∧ s.limit k = none) ∨ (0 < k ∧ ∃ s', s.limit k = some s' ∧ s'.view.length = k - 1) := by
  have hl := CutSet.view_length h
  rw [CutSet.limit, if_pos (by omega)]
  by_cases h0 : k = 0
  · rw [if_pos h0]; exact Or.inl ⟨h0, rfl⟩
  · rw [if_neg h0]
    refine Or.inr ⟨by omega, _, rfl, ?_⟩
    rw [CutSet.view, List.length_map, List.length_take, h.length]
    dsimp only
    have := h.len
    omega

/-- a set with three cuts, limited to two, has one -/
example : ((((blank.clear 12).offers 12 ltSize [mk [1, 2], mk [3, 4], mk [5, 6]]).bind fun s => s.limit 2).map fun s =>
    s.view.length) = some 1 := by decide

/-- a cut with area `a` (in thousandths) and one leaf of its own -/
def mkA (leaf : Nat) (a : Int) : Cut CostData := ⟨[leaf], signature [leaf], ⟨0, a, 0, 0, 0⟩⟩

/-- an arbitrary initial memory -/
def blankA : CutSet CostData := ⟨fun _ => mkA 0 0, [], 0⟩

/-- C20 is violated by the comparison with tolerance: guarded insertion of four cuts with areas 0, 0.003,
0.005 and 0.007 puts the worst one in front of one that is better by more than the tolerance. -/
theorem C20_violated_order : ∃ s : CutSet CostData,
    (blankA.clear 12).offers 12 ltArea [mkA 1 0, mkA 2 3, mkA 3 5, mkA 4 7] = some s ∧
    s.view = [mkA 4 7, mkA 3 5, mkA 2 3, mkA 1 0] ∧ ltArea (mkA 1 0) (mkA 4 7) = true := by
  refine ⟨_, rfl, ?_, ?_⟩ <;> decide

/-- C20 is violated by `remove` followed by `insert`: the slot of the last cut is used twice. -/
theorem C20_violated_remove : ∃ s : CutSet Unit,
    ((((blank.clear 12).offers 12 ltSize [mk [1, 2], mk [3, 4], mk [5, 6]]).bind fun s => s.remove 0).bind fun s =>
      s.offer 12 ltSize (mk [7, 8, 9])) = some s ∧ ¬ Irredundant s.view := by
  refine ⟨_, rfl, ?_⟩
  decide

end Verif.Cuts
