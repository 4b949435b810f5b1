import Verif.Cut.Set
import Verif.Props.C18
import Mathlib.Data.List.Basic
import Mathlib.Data.List.InsertIdx
import Mathlib.Data.List.Perm.Basic

set_option autoImplicit false

/-!
# Cut sets: helper lemmas for C20
-/

namespace Verif.Cuts

variable {α : Type}

/-! ### binary search -/

theorem lowerBoundGo_some (lt : Cut α → Cut α → Bool) (l : List (Cut α)) (c : Cut α) :
    ∀ fuel first n, n ≤ fuel → first + n ≤ l.length →
      ∃ i, lowerBoundGo lt l c fuel first n = some i ∧ first ≤ i ∧ i ≤ first + n := by
  intro fuel
  induction fuel with
  | zero =>
    intro first n h _
    obtain rfl : n = 0 := by omega
    exact ⟨first, by rw [lowerBoundGo], le_rfl, le_rfl⟩
  | succ fuel ih =>
    intro first n h hl
    cases n with
    | zero => exact ⟨first, by rw [lowerBoundGo], le_rfl, le_rfl⟩
    | succ n =>
      rw [lowerBoundGo]
      have hlt : first + (n + 1) / 2 < l.length := by omega
      rw [List.getElem?_eq_getElem hlt]
      dsimp only
      by_cases hc : lt l[first + (n + 1) / 2] c = true
      · rw [if_pos hc]
        obtain ⟨i, h1, h2, h3⟩ := ih (first + (n + 1) / 2 + 1) (n + 1 - (n + 1) / 2 - 1) (by omega) (by omega)
        exact ⟨i, h1, by omega, by omega⟩
      · rw [if_neg hc]
        obtain ⟨i, h1, h2, h3⟩ := ih first ((n + 1) / 2) (by omega) (by omega)
        exact ⟨i, h1, by omega, by omega⟩

theorem lowerBound_some (lt : Cut α → Cut α → Bool) (l : List (Cut α)) (c : Cut α) :
    ∃ i, lowerBound lt l c = some i ∧ i ≤ l.length := by
  obtain ⟨i, h1, _, h3⟩ := lowerBoundGo_some lt l c l.length 0 l.length le_rfl (by omega)
  exact ⟨i, h1, by omega⟩

/-- a strict weak order -/
structure StrictWeak (lt : Cut α → Cut α → Bool) : Prop where
  asymm : ∀ a b, lt a b = true → lt b a = false
  negTrans : ∀ a b c, lt a b = false → lt b c = false → lt a c = false

/-- best first: no later cut is better than an earlier one -/
def BestFirst (lt : Cut α → Cut α → Bool) (l : List (Cut α)) : Prop := l.Pairwise fun a b => lt b a = false

theorem lowerBoundGo_spec (lt : Cut α → Cut α → Bool) (hlt : StrictWeak lt) (l : List (Cut α)) (c : Cut α)
    (hs : BestFirst lt l) :
    ∀ fuel first n i, lowerBoundGo lt l c fuel first n = some i → n ≤ fuel → first + n ≤ l.length →
      (∀ (j : Nat) (x : Cut α), l[j]? = some x → j < first → lt x c = true) →
      (∀ (j : Nat) (x : Cut α), l[j]? = some x → first + n ≤ j → lt x c = false) →
      (∀ (j : Nat) (x : Cut α), l[j]? = some x → j < i → lt x c = true) ∧
      (∀ (j : Nat) (x : Cut α), l[j]? = some x → i ≤ j → lt x c = false) := by
  have hpw := List.pairwise_iff_getElem.1 hs
  intro fuel
  induction fuel with
  | zero =>
    intro first n i h hn _ h1 h2
    obtain rfl : n = 0 := by omega
    rw [lowerBoundGo] at h
    obtain rfl : first = i := by simpa using h
    exact ⟨h1, h2⟩
  | succ fuel ih =>
    intro first n i h hn hl h1 h2
    cases n with
    | zero =>
      rw [lowerBoundGo] at h
      obtain rfl : first = i := by simpa using h
      exact ⟨h1, h2⟩
    | succ n =>
      rw [lowerBoundGo] at h
      have hm : first + (n + 1) / 2 < l.length := by omega
      rw [List.getElem?_eq_getElem hm] at h
      dsimp only at h
      by_cases hc : lt l[first + (n + 1) / 2] c = true
      · rw [if_pos hc] at h
        refine ih _ _ _ h (by omega) (by omega) ?_ (fun j x hx hj => h2 j x hx (by omega))
        intro j x hx hj
        by_cases hjm : j = first + (n + 1) / 2
        · subst hjm
          rw [List.getElem?_eq_getElem hm] at hx
          obtain rfl := Option.some.inj hx
          exact hc
        · obtain ⟨hjl, rfl⟩ := List.getElem?_eq_some_iff.1 hx
          have := hpw j (first + (n + 1) / 2) hjl hm (by omega)
          cases hx : lt l[j] c with
          | true => rfl
          | false => rw [hlt.negTrans _ _ _ this hx] at hc; exact absurd hc (by simp)
      · rw [if_neg hc] at h
        refine ih _ _ _ h (by omega) (by omega) h1 ?_
        intro j x hx hj
        obtain ⟨hjl, rfl⟩ := List.getElem?_eq_some_iff.1 hx
        have hc' : lt l[first + (n + 1) / 2] c = false := by simpa using hc
        by_cases hjm : j = first + (n + 1) / 2
        · subst hjm; exact hc'
        · exact hlt.negTrans _ _ _ (hpw (first + (n + 1) / 2) j hm hjl (by omega)) hc'

theorem lowerBound_spec (lt : Cut α → Cut α → Bool) (hlt : StrictWeak lt) (l : List (Cut α)) (c : Cut α)
    (hs : BestFirst lt l) (i : Nat) (h : lowerBound lt l c = some i) :
      (∀ (j : Nat) (x : Cut α), l[j]? = some x → j < i → lt x c = true) ∧
      (∀ (j : Nat) (x : Cut α), l[j]? = some x → i ≤ j → lt x c = false) := by
  refine lowerBoundGo_spec lt hlt l c hs _ _ _ _ h le_rfl (by omega) (fun j x _ hj => by omega) ?_
  intro j x hx hj
  have := (List.getElem?_eq_some_iff.1 hx).1
  omega

/-! ### `insert` on what the set shows -/

/-- the pointers are a permutation of the slots -/
structure CutSet.Inv (maxCuts : Nat) (s : CutSet α) : Prop where
  perm : s.ptrs.Perm (List.range maxCuts)
  len : s.len ≤ maxCuts

theorem CutSet.Inv.length {maxCuts : Nat} {s : CutSet α} (h : s.Inv maxCuts) : s.ptrs.length = maxCuts := by
  simpa using h.perm.length_eq

theorem CutSet.Inv.nodup {maxCuts : Nat} {s : CutSet α} (h : s.Inv maxCuts) : s.ptrs.Nodup :=
  h.perm.nodup_iff.2 List.nodup_range

theorem CutSet.view_length {maxCuts : Nat} {s : CutSet α} (h : s.Inv maxCuts) : s.view.length = s.len := by
  rw [CutSet.view, List.length_map, List.length_take, h.length]; have := h.len; omega

/-- what `insert` stores: signature recomputed -/
def stored (c : Cut α) : Cut α := { leaves := c.leaves, sig := signature c.leaves, data := c.data }

theorem stored_eq {c : Cut α} (h : c.WF) : stored c = c := by
  have := h.sig
  cases c; simp [stored] at this ⊢; exact this.symm

theorem filter_split {β : Type} (p : β → Bool) (l : List β) :
    ((l.filter fun x => !p x) ++ l.filter fun x => p x).Perm l := by
  have := List.filter_append_perm (fun x => !p x) l
  simpa using this

theorem eraseIdx_append_cons {β : Type} (A B : List β) (p : β) : (A ++ p :: B).eraseIdx A.length = A ++ B := by
  rw [List.eraseIdx_append_of_length_le (le_refl _)]; simp

theorem insertIdx_append {β : Type} (A B : List β) (p : β) (i : Nat) (h : i ≤ A.length) :
    (A ++ B).insertIdx i p = A.insertIdx i p ++ B := by
  induction A generalizing i with
  | nil => obtain rfl : i = 0 := by simpa using h
           rfl
  | cons a A ih =>
    cases i with
    | zero => rfl
    | succ i => simp only [List.cons_append, List.insertIdx_succ_cons]; rw [ih i (by simpa using h)]

theorem map_insertIdx' {β γ : Type} (f : β → γ) (A : List β) (p : β) (i : Nat) (h : i ≤ A.length) :
    (A.insertIdx i p).map f = (A.map f).insertIdx i (f p) := by
  induction A generalizing i with
  | nil => obtain rfl : i = 0 := by simpa using h
           rfl
  | cons a A ih =>
    cases i with
    | zero => rfl
    | succ i => simp only [List.insertIdx_succ_cons, List.map_cons]; rw [ih i (by simpa using h)]

/-- `insert` described on the visible list: cuts dominated by the new one go, the new one is put at the
position found by the binary search; if there is no room, the last one goes, or nothing is inserted. -/
theorem insert_view (maxCuts : Nat) (lt : Cut α → Cut α → Bool) (s : CutSet α) (c : Cut α) (h : s.Inv maxCuts) (hpos : 0 < maxCuts) :
    ∃ s' i, s.insert maxCuts lt c = some s' ∧ s'.Inv maxCuts ∧
      lowerBound lt (s.view.filter fun o => !c.dominates o) c = some i ∧
      i ≤ (s.view.filter fun o => !c.dominates o).length ∧
      (((s.view.filter fun o => !c.dominates o).length = maxCuts ∧ i = maxCuts ∧
          s'.view = s.view.filter fun o => !c.dominates o) ∨
       ((s.view.filter fun o => !c.dominates o).length = maxCuts ∧ i < maxCuts ∧
          s'.view = (s.view.filter fun o => !c.dominates o).dropLast.insertIdx i (stored c)) ∨
       ((s.view.filter fun o => !c.dominates o).length < maxCuts ∧
          s'.view = (s.view.filter fun o => !c.dominates o).insertIdx i (stored c))) := by
  obtain ⟨i, hi, hil⟩ := lowerBound_some lt (s.view.filter fun o => !c.dominates o) c
  have hf : (s.view.filter fun o => !c.dominates o) =
      ((s.ptrs.take s.len).filter fun p => !c.dominates (s.store p)).map s.store := by
    rw [CutSet.view, List.filter_map]; rfl
  rw [CutSet.insert]
  dsimp only
  rw [← hf, hi]
  dsimp only
  rw [hf] at hil ⊢
  rw [hf] at hi
  rw [List.length_map] at hil ⊢
  generalize hk : ((s.ptrs.take s.len).filter fun p => !c.dominates (s.store p)) = kept at *
  generalize hr : ((s.ptrs.take s.len).filter fun p => c.dominates (s.store p)) = rem at *
  have hperm : (kept ++ rem ++ s.ptrs.drop s.len).Perm s.ptrs := by
    have h1 : (kept ++ rem).Perm (s.ptrs.take s.len) := by rw [← hk, ← hr]; exact filter_split _ _
    have := h1.append_right (s.ptrs.drop s.len)
    rwa [List.take_append_drop] at this
  have hplen : (kept ++ rem ++ s.ptrs.drop s.len).length = maxCuts := by rw [hperm.length_eq, h.length]
  have hkl : kept.length ≤ maxCuts := by
    rw [← hplen]; simp only [List.length_append]; omega
  -- the general insertion step
  have step : ∀ (A B : List Nat) (p : Nat), kept ++ rem ++ s.ptrs.drop s.len = A ++ p :: B → i ≤ A.length →
      ∃ s' : CutSet α, some (⟨fun q => if q = p then { (s.store p).setLeaves c.leaves with data := c.data } else s.store q,
        ((kept ++ rem ++ s.ptrs.drop s.len).eraseIdx A.length).insertIdx i p, A.length + 1⟩ : CutSet α) = some s' ∧
        s'.Inv maxCuts ∧ s'.view = (A.map s.store).insertIdx i (stored c) := by
    intro A B p hAB hiA
    refine ⟨_, rfl, ⟨?_, ?_⟩, ?_⟩
    · show (((kept ++ rem ++ s.ptrs.drop s.len).eraseIdx A.length).insertIdx i p).Perm _
      refine List.Perm.trans ?_ h.perm
      refine List.Perm.trans ?_ hperm
      rw [hAB, eraseIdx_append_cons]
      refine (List.perm_insertIdx _ _ (by simp; omega)).trans ?_
      exact List.perm_middle.symm
    · show A.length + 1 ≤ maxCuts
      rw [hAB] at hplen; simp at hplen; omega
    · rw [CutSet.view]
      dsimp only
      rw [hAB, eraseIdx_append_cons, insertIdx_append _ _ _ _ hiA]
      have hl : (A.insertIdx i p).length = A.length + 1 := by rw [List.length_insertIdx_of_le_length hiA]
      rw [List.take_append_of_le_length (by omega), List.take_of_length_le (by omega), map_insertIdx' _ _ _ _ hiA,
        if_pos rfl]
      congr 1
      apply List.map_congr_left
      intro q hq
      have hnd : (A ++ p :: B).Nodup := by rw [← hAB]; exact hperm.nodup_iff.2 h.nodup
      have : q ≠ p := by
        intro e; subst e
        rw [List.nodup_append] at hnd
        exact hnd.2.2 q hq q (by simp) rfl
      rw [if_neg this]
  by_cases hfull : kept.length = maxCuts
  · by_cases hie : i = kept.length
    · rw [if_pos ⟨hfull, hie⟩]
      refine ⟨_, i, rfl, ⟨hperm.trans h.perm, hkl⟩, rfl, hil, Or.inl ⟨hfull, by omega, ?_⟩⟩
      rw [CutSet.view]
      dsimp only
      rw [List.append_assoc, List.take_left]
    · rw [if_neg (by tauto), if_pos hfull]
      have hne : kept ≠ [] := by intro e; rw [e] at hfull; simp at hfull; omega
      have hsplit : kept ++ rem ++ s.ptrs.drop s.len = kept.dropLast ++ kept.getLast hne :: (rem ++ s.ptrs.drop s.len) := by
        conv_lhs => rw [← List.dropLast_append_getLast hne]
        simp
      have hdl : kept.dropLast.length = kept.length - 1 := List.length_dropLast
      obtain ⟨s', h1, h2, h3⟩ := step _ _ _ hsplit (by omega)
      have hget : (kept ++ rem ++ s.ptrs.drop s.len)[kept.length - 1]? = some (kept.getLast hne) := by
        rw [hsplit, ← hdl, List.getElem?_append_right le_rfl]; simp
      rw [hget]
      dsimp only
      refine ⟨s', i, ?_, h2, rfl, hil, Or.inr (Or.inl ⟨hfull, by omega, ?_⟩)⟩
      · rw [← h1, hdl]
      · rw [h3, List.map_dropLast]
  · rw [if_neg (by tauto), if_neg hfull]
    have hlt : kept.length < (kept ++ rem ++ s.ptrs.drop s.len).length := by omega
    obtain ⟨p, B, hB⟩ : ∃ p B, rem ++ s.ptrs.drop s.len = p :: B := by
      cases hx : rem ++ s.ptrs.drop s.len with
      | nil => rw [List.append_assoc, hx] at hlt; simp at hlt
      | cons p B => exact ⟨p, B, rfl⟩
    have hsplit : kept ++ rem ++ s.ptrs.drop s.len = kept ++ p :: B := by rw [List.append_assoc, hB]
    obtain ⟨s', h1, h2, h3⟩ := step _ _ _ hsplit hil
    have hget : (kept ++ rem ++ s.ptrs.drop s.len)[kept.length]? = some p := by
      rw [hsplit, List.getElem?_append_right le_rfl]; simp
    rw [hget]
    dsimp only
    exact ⟨s', i, h1, h2, rfl, hil, Or.inr (Or.inr ⟨by omega, h3⟩)⟩

end Verif.Cuts
