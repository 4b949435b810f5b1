import Verif.Topo.Basic
import Verif.Props.C13

set_option autoImplicit false

/-!
# The depth first search of `topo_view` (helper lemmas)
-/

namespace Verif.Topo

/-- `m` is in the transitive fanin of `n` (reflexive) -/
inductive Tfi (kids : Nat → List Nat) : Nat → Nat → Prop
  | refl (n) : Tfi kids n n
  | step {n k m} : k ∈ kids n → Tfi kids k m → Tfi kids n m

/-- every node of the list comes after all of its fanins -/
def FaninsFirst (kids : Nat → List Nat) (l : List Nat) : Prop :=
  ∀ l1 n l2, l = l1 ++ n :: l2 → ∀ m ∈ kids n, m ∈ l1

variable {kids : Nat → List Nat} {r : Nat → Nat}

/-- `r` decreases along fanins -/
def Ranked (kids : Nat → List Nat) (r : Nat → Nat) : Prop := ∀ n, ∀ m ∈ kids n, r m < r n

theorem Tfi.rank (hr : Ranked kids r) {n m : Nat} (h : Tfi kids n m) : r m ≤ r n := by
  induction h with
  | refl n => exact le_rfl
  | step hk _ ih => have := hr _ _ hk; omega

theorem Tfi.trans {n k m : Nat} (h : Tfi kids n k) (h' : Tfi kids k m) : Tfi kids n m := by
  induction h with
  | refl n => exact h'
  | step hk _ ih => exact .step hk (ih h')

theorem FaninsFirst.snoc {l : List Nat} (h : FaninsFirst kids l) {n : Nat} (hn : ∀ m ∈ kids n, m ∈ l) :
    FaninsFirst kids (l ++ [n]) := by
  intro l1 k l2 e m hm
  rcases List.eq_nil_or_concat l2 with rfl | ⟨l3, x, rfl⟩
  · have := List.append_inj' e rfl
    obtain ⟨rfl, h2⟩ := this
    simp only [List.cons.injEq, and_true] at h2
    subst h2
    exact hn m hm
  · have e' : l ++ [n] = (l1 ++ k :: l3) ++ [x] := by simpa using e
    have := List.append_inj' e' rfl
    exact h l1 k l3 this.1 m hm

theorem FaninsFirst.mem {l : List Nat} (h : FaninsFirst kids l) {n k : Nat} (hn : n ∈ l) (hk : Tfi kids n k) :
    k ∈ l := by
  induction hk with
  | refl n => exact hn
  | step hk _ ih =>
    apply ih
    obtain ⟨l1, l2, rfl⟩ := List.append_of_mem hn
    exact List.mem_append_left _ (h l1 _ l2 rfl _ hk)

structure Inv (kids : Nat → List Nat) (trav : Nat) (s : St) : Prop where
  vis : ∀ m, s.vis m = trav ↔ m ∈ s.order
  nodup : s.order.Nodup
  first : FaninsFirst kids s.order

theorem Inv.visit {trav : Nat} {s : St} (h : Inv kids trav s) {n : Nat} (hn : n ∉ s.order)
    (hk : ∀ m ∈ kids n, m ∈ s.order) : Inv kids trav ((s.mark n trav).push n) := by
  refine ⟨fun m => ?_, ?_, h.first.snoc hk⟩
  · simp only [St.push, St.mark, List.mem_append, List.mem_singleton]
    by_cases e : m = n
    · simp [e]
    · simp [e, h.vis]
  · simp only [St.push, St.mark]
    rw [List.nodup_append]
    refine ⟨h.nodup, by simp, ?_⟩
    intro a ha b hb
    simp only [List.mem_singleton] at hb
    rintro rfl
    subst hb; exact hn ha

theorem topoKids_spec {trav : Nat} {rec : Nat → St → Option St} {k : Nat}
    (hrec : ∀ n s, r n < k → Inv kids trav s → ∃ s', rec n s = some s' ∧ Inv kids trav s' ∧
      s.order <+: s'.order ∧ n ∈ s'.order ∧ ∀ m ∈ s'.order, m ∈ s.order ∨ Tfi kids n m) :
    ∀ (l : List Nat) (s : St), (∀ n ∈ l, r n < k) → Inv kids trav s →
      ∃ s', topoKids rec l s = some s' ∧ Inv kids trav s' ∧ s.order <+: s'.order ∧
        (∀ n ∈ l, n ∈ s'.order) ∧ ∀ m ∈ s'.order, m ∈ s.order ∨ ∃ n ∈ l, Tfi kids n m := by
  intro l
  induction l with
  | nil => intro s _ h; exact ⟨s, rfl, h, List.prefix_refl _, by simp, fun m hm => Or.inl hm⟩
  | cons n l ih =>
    intro s hl h
    obtain ⟨s1, e1, h1, p1, n1, m1⟩ := hrec n s (hl n (by simp)) h
    obtain ⟨s2, e2, h2, p2, n2, m2⟩ := ih s1 (fun x hx => hl x (by simp [hx])) h1
    refine ⟨s2, by simp [topoKids, e1, e2], h2, p1.trans p2, ?_, ?_⟩
    · intro x hx
      rcases List.mem_cons.1 hx with rfl | hx
      · exact p2.subset n1
      · exact n2 x hx
    · intro m hm
      rcases m2 m hm with h | ⟨x, hx, ht⟩
      · rcases m1 m h with h | h
        · exact Or.inl h
        · exact Or.inr ⟨n, by simp, h⟩
      · exact Or.inr ⟨x, by simp [hx], ht⟩

theorem topoRec_spec (hr : Ranked kids r) {trav : Nat} (ht : 0 < trav) : ∀ (f n : Nat) (s : St),
    r n < f → Inv kids trav s → ∃ s', topoRec kids trav f n s = some s' ∧ Inv kids trav s' ∧
      s.order <+: s'.order ∧ n ∈ s'.order ∧ ∀ m ∈ s'.order, m ∈ s.order ∨ Tfi kids n m := by
  intro f
  induction f with
  | zero => intro n s h; omega
  | succ f ih =>
    intro n s hf h
    rw [topoRec]
    split
    · rename_i hv
      exact ⟨s, rfl, h, List.prefix_refl _, (h.vis n).1 hv, fun m hm => Or.inl hm⟩
    · rename_i hv
      have hn : n ∉ s.order := fun hn => hv ((h.vis n).2 hn)
      have h0 : Inv kids trav (s.mark n (trav - 1)) := by
        refine ⟨fun m => ?_, h.nodup, h.first⟩
        simp only [St.mark]
        split
        · rename_i e
          subst e
          exact ⟨fun h => by omega, fun h => absurd h hn⟩
        · exact h.vis m
      obtain ⟨s1, e1, h1, p1, n1, m1⟩ := topoKids_spec (k := f) ih (kids n) _
        (fun m hm => by have := hr n m hm; omega) h0
      rw [e1]
      have hn1 : n ∉ s1.order := by
        intro hc
        rcases m1 n hc with h | ⟨x, hx, hx'⟩
        · exact hn h
        · have := hx'.rank hr; have := hr n x hx; omega
      refine ⟨_, rfl, h1.visit hn1 n1, ?_, by simp [St.push, St.mark], ?_⟩
      · simp only [St.push, St.mark] at p1 ⊢
        exact p1.trans (List.prefix_append _ _)
      · intro m hm
        simp only [St.push, St.mark, List.mem_append, List.mem_singleton] at hm
        rcases hm with hm | rfl
        · rcases m1 m hm with h | ⟨x, hx, hx'⟩
          · exact Or.inl h
          · exact Or.inr (.step hx hx')
        · exact Or.inr (.refl _)

theorem topoCos_spec (hr : Ranked kids r) {trav : Nat} (ht : 0 < trav) {f : Nat} : ∀ (l : List Nat) (s : St),
    (∀ n ∈ l, r n < f) → Inv kids trav s → ∃ s', topoCos kids trav f l s = some s' ∧ Inv kids trav s' ∧
      s.order <+: s'.order ∧ (∀ n ∈ l, n ∈ s'.order) ∧
      ∀ m ∈ s'.order, m ∈ s.order ∨ ∃ n ∈ l, Tfi kids n m := by
  intro l
  induction l with
  | nil => intro s _ h; exact ⟨s, rfl, h, List.prefix_refl _, by simp, fun m hm => Or.inl hm⟩
  | cons n l ih =>
    intro s hl h
    rw [topoCos]
    split
    · rename_i hv
      obtain ⟨s2, e2, h2, p2, n2, m2⟩ := ih s (fun x hx => hl x (by simp [hx])) h
      refine ⟨s2, e2, h2, p2, ?_, ?_⟩
      · intro x hx
        rcases List.mem_cons.1 hx with rfl | hx
        · exact p2.subset ((h.vis x).1 hv)
        · exact n2 x hx
      · intro m hm
        rcases m2 m hm with h | ⟨x, hx, ht⟩
        · exact Or.inl h
        · exact Or.inr ⟨x, by simp [hx], ht⟩
    · obtain ⟨s1, e1, h1, p1, n1, m1⟩ := topoRec_spec hr ht f n s (hl n (by simp)) h
      obtain ⟨s2, e2, h2, p2, n2, m2⟩ := ih s1 (fun x hx => hl x (by simp [hx])) h1
      refine ⟨s2, by rw [e1]; exact e2, h2, p1.trans p2, ?_, ?_⟩
      · intro x hx
        rcases List.mem_cons.1 hx with rfl | hx
        · exact p2.subset n1
        · exact n2 x hx
      · intro m hm
        rcases m2 m hm with h | ⟨x, hx, ht⟩
        · rcases m1 m h with h | h
          · exact Or.inl h
          · exact Or.inr ⟨n, by simp, h⟩
        · exact Or.inr ⟨x, by simp [hx], ht⟩

theorem topoCis_spec {trav : Nat} : ∀ (l : List Nat) (s : St), Inv kids trav s → l.Nodup →
    (∀ n ∈ l, n ∉ s.order ∧ kids n = []) →
    Inv kids trav (topoCis trav l s) ∧ (topoCis trav l s).order = s.order ++ l := by
  intro l
  induction l with
  | nil => intro s h _ _; exact ⟨h, by simp [topoCis]⟩
  | cons n l ih =>
    intro s h hnd hl
    rw [List.nodup_cons] at hnd
    obtain ⟨hn, hk⟩ := hl n (by simp)
    have hv : s.vis n ≠ trav := fun hv => hn ((h.vis n).1 hv)
    rw [topoCis, if_neg hv]
    have h1 := h.visit hn (by simp [hk])
    have e : (s.push n).mark n trav = (s.mark n trav).push n := rfl
    rw [e]
    obtain ⟨i1, i2⟩ := ih _ h1 hnd.2 (by
      intro x hx
      refine ⟨?_, (hl x (by simp [hx])).2⟩
      simp only [St.push, St.mark, List.mem_append, List.mem_singleton, not_or]
      refine ⟨(hl x (by simp [hx])).1, ?_⟩
      rintro rfl; exact hnd.1 hx)
    exact ⟨i1, by rw [i2]; simp [St.push, St.mark]⟩

theorem updateTopo_spec (hr : Ranked kids r) {cis roots : List Nat} {vis : Nat → Nat} {travId f : Nat}
    (hvis : ∀ n, vis n ≤ travId) (h0 : kids 0 = []) (hci : ∀ n ∈ cis, kids n = []) (hnd : (0 :: cis).Nodup)
    (hf : ∀ n ∈ roots, r n < f) :
    ∃ s rest, updateTopo kids cis roots vis travId f = some s ∧ s.order = 0 :: cis ++ rest ∧ s.order.Nodup ∧
      FaninsFirst kids s.order ∧
      ∀ m, m ∈ s.order ↔ m = 0 ∨ m ∈ cis ∨ ∃ n ∈ roots, Tfi kids n m := by
  have hinit : Inv kids (travId + 2) ⟨vis, []⟩ :=
    ⟨fun m => by have := hvis m; simp; omega, by simp, fun l1 n l2 e => by simp at e⟩
  have i0 := hinit.visit (n := 0) (by simp) (by simp [h0])
  rw [List.nodup_cons] at hnd
  obtain ⟨i1, o1⟩ := topoCis_spec cis _ i0 hnd.2 (fun n hn => ⟨by
    simp only [St.push, St.mark, List.nil_append, List.mem_singleton]
    rintro rfl; exact hnd.1 hn, hci n hn⟩)
  obtain ⟨s, e, i2, ⟨rest, p2⟩, n2, m2⟩ := topoCos_spec hr (by omega) (f := f) roots _ hf i1
  have o1' : (topoCis (travId + 2) cis ((St.push ⟨vis, []⟩ 0).mark 0 (travId + 2))).order = 0 :: cis := by
    have : (St.push ⟨vis, []⟩ 0).mark 0 (travId + 2) = (St.mark ⟨vis, []⟩ 0 (travId + 2)).push 0 := rfl
    rw [this, o1]; rfl
  have e2 : (St.push ⟨vis, []⟩ 0).mark 0 (travId + 2) = (St.mark ⟨vis, []⟩ 0 (travId + 2)).push 0 := rfl
  rw [← e2, o1'] at p2 m2
  refine ⟨s, rest, e, p2.symm, i2.nodup, i2.first, fun m => ⟨fun hm => ?_, fun hm => ?_⟩⟩
  · rcases m2 m hm with h | h
    · rcases List.mem_cons.1 h with h | h
      · exact Or.inl h
      · exact Or.inr (Or.inl h)
    · exact Or.inr (Or.inr h)
  · rcases hm with rfl | hm | ⟨n, hn, ht⟩
    · rw [← p2]; simp
    · rw [← p2]; simp [hm]
    · exact i2.first.mem (n2 n hn) ht

end Verif.Topo
