import Verif.RefDeref.Proof
import Mathlib.Algebra.BigOperators.Group.Finset.Basic
import Mathlib.Algebra.Order.BigOperators.Group.Finset

set_option autoImplicit false

/-!
# Which nodes a dereference removes
-/

namespace Verif.RefDeref

variable {p : Param}

/-- the counters cover the pending references and all fanin edges of the nodes in `U` -/
def Covers (p : Param) (U : Finset Nat) (l s : List Nat) (v : Vals) : Prop :=
  ∀ m, l.count m + s.count m + ∑ g ∈ U, (body p g).count m ≤ (v m).toNat

theorem toNat_dec {v : Vals} {m : Nat} (h : 0 < (v m).toNat) :
    ((v.add m (-1)) m).toNat + 1 = (v m).toNat := by
  rw [Vals.add_self]
  have h2 := (v m).isLt
  rw [BitVec.toNat_add]
  have : (-1 : BitVec 32).toNat = 2 ^ 32 - 1 := by decide
  rw [this]; omega

theorem Un.cone {l : List Nat} {v w : Vals} {c : Nat} (h : Un p l v w c) :
    ∀ (U : Finset Nat) (s : List Nat) (nodes : Finset Nat),
    Covers p U l s v → (∀ g ∈ U, ∀ m ∈ body p g, m ∈ nodes) →
    (∀ m ∈ nodes, m ∉ U → v m = 0) → (∀ m ∈ l, m ∈ nodes) →
    ∃ F ⊆ U, Covers p (U \ F) [] s w ∧ (∀ m ∈ nodes, m ∉ U \ F → w m = 0) ∧
      c = ∑ g ∈ F, bcost p g ∧
      (∀ m, (v m).toNat = (w m).toNat + l.count m + ∑ g ∈ F, (body p g).count m) ∧
      (∀ g, g ∈ F ↔ v g ≠ 0 ∧ w g = 0) := by
  induction h with
  | nil v =>
    intro U s nodes hc _ hz _
    exact ⟨∅, by simp, by simpa using hc, by simpa using hz, by simp, by simp, by simp⟩
  | @skip m l v w c hz _ ih =>
    intro U s nodes hc hU h0 hl
    have hpos : 0 < (v m).toNat := by have := hc m; simp at this; omega
    have hd := toNat_dec hpos
    have hne : ∀ x, x ≠ m → (v.add m (-1)) x = v x := fun x hx => Vals.add_ne v _ hx
    have hmU : m ∈ U := by
      by_contra hm
      rw [h0 m (hl m (by simp)) hm] at hpos; simp at hpos
    obtain ⟨F, f1, f2, f3, f4, f5, f6⟩ := ih U s nodes (by
        intro x
        by_cases hx : x = m
        · subst hx; have := hc x; simp at this; omega
        · have := hc x; rw [List.count_cons_of_ne (Ne.symm hx)] at this; rw [hne x hx]; exact this)
      hU (by
        intro x hx hxU
        have : x ≠ m := by rintro rfl; exact hxU hmU
        rw [hne x this]; exact h0 x hx hxU) (fun x hx => hl x (by simp [hx]))
    refine ⟨F, f1, f2, f3, f4, ?_, ?_⟩
    · intro x
      by_cases hx : x = m
      · subst hx; have := f5 x; simp; omega
      · have := f5 x; rw [hne x hx] at this; rw [List.count_cons_of_ne (Ne.symm hx)]; exact this
    · intro g
      rw [f6]
      by_cases hx : g = m
      · subst hx
        have : v g ≠ 0 := by rintro e; rw [e] at hpos; simp at hpos
        tauto
      · rw [hne g hx]
  | @go m l v u w c d hz _ _ ih1 ih2 =>
    intro U s nodes hc hU h0 hl
    have hpos : 0 < (v m).toNat := by have := hc m; simp at this; omega
    have hd := toNat_dec hpos
    have hne : ∀ x, x ≠ m → (v.add m (-1)) x = v x := fun x hx => Vals.add_ne v _ hx
    have hmU : m ∈ U := by
      by_contra hm
      rw [h0 m (hl m (by simp)) hm] at hpos; simp at hpos
    have hsplit : ∀ x, ∑ g ∈ U, (body p g).count x = (body p m).count x +
        ∑ g ∈ U.erase m, (body p g).count x := fun x => (Finset.add_sum_erase U _ hmU).symm
    obtain ⟨F, f1, f2, f3, f4, f5, f6⟩ := ih1 (U.erase m) (l ++ s) nodes (by
        intro x
        have := hc x
        rw [hsplit x] at this
        rw [List.count_append]
        by_cases hx : x = m
        · subst hx; simp at this; omega
        · rw [List.count_cons_of_ne (Ne.symm hx)] at this; rw [hne x hx]; omega)
      (fun g hg => hU g (Finset.mem_of_mem_erase hg)) (by
        intro x hx hxU
        by_cases e : x = m
        · subst e; exact hz
        · rw [hne x e]; exact h0 x hx fun h => hxU (Finset.mem_erase.2 ⟨e, h⟩)) (hU m hmU)
    obtain ⟨G, g1, g2, g3, g4, g5, g6⟩ := ih2 (U.erase m \ F) s nodes (by
        intro x; have := f2 x; simp only [List.count_append, List.count_nil] at this; omega)
      (fun g hg => hU g (Finset.mem_of_mem_erase (Finset.mem_sdiff.1 hg).1)) f3
      (fun x hx => hl x (by simp [hx]))
    have hmF : m ∉ F := fun h => (Finset.mem_erase.1 (f1 h)).1 rfl
    have hmG : m ∉ G := fun h => (Finset.mem_erase.1 (Finset.mem_sdiff.1 (g1 h)).1).1 rfl
    have hdis : Disjoint F G := by
      rw [Finset.disjoint_left]; intro x hx hx'; exact (Finset.mem_sdiff.1 (g1 hx')).2 hx
    have hm2 : m ∉ F ∪ G := by simp [hmF, hmG]
    have hsum : ∀ f : Nat → Nat, ∑ g ∈ insert m (F ∪ G), f g = f m + (∑ g ∈ F, f g + ∑ g ∈ G, f g) := by
      intro f; rw [Finset.sum_insert hm2, Finset.sum_union hdis]
    have hset : U \ insert m (F ∪ G) = (U.erase m \ F) \ G := by
      ext x; simp only [Finset.mem_sdiff, Finset.mem_insert, Finset.mem_union, Finset.mem_erase]; tauto
    refine ⟨insert m (F ∪ G), ?_, ?_, ?_, ?_, ?_, ?_⟩
    · intro x hx
      simp only [Finset.mem_insert, Finset.mem_union] at hx
      rcases hx with rfl | hx | hx
      · exact hmU
      · exact Finset.mem_of_mem_erase (f1 hx)
      · exact Finset.mem_of_mem_erase (Finset.mem_sdiff.1 (g1 hx)).1
    · rw [hset]; exact g2
    · rw [hset]; exact g3
    · rw [hsum, f4, g4]; omega
    · intro x
      have h1 := f5 x
      have h2 := g5 x
      rw [hsum (fun g => (body p g).count x)]
      by_cases hx : x = m
      · subst hx; simp only [List.count_cons_self]; omega
      · rw [hne x hx] at h1; rw [List.count_cons_of_ne (Ne.symm hx)]; omega
    · intro g
      simp only [Finset.mem_insert, Finset.mem_union, f6, g6]
      by_cases hx : g = m
      · subst hx
        have hv : v g ≠ 0 := by rintro e; rw [e] at hpos; simp at hpos
        have hu0 : u g = 0 := by
          have h1 := f5 g; rw [hz] at h1
          have e0 : (0 : BitVec 32).toNat = 0 := rfl
          rw [e0] at h1
          have : (u g).toNat = 0 := by omega
          exact BitVec.eq_of_toNat_eq (by simpa using this)
        have hw0 : w g = 0 := by
          have h1 := g5 g; rw [hu0] at h1
          have e0 : (0 : BitVec 32).toNat = 0 := rfl
          rw [e0] at h1
          have : (w g).toNat = 0 := by omega
          exact BitVec.eq_of_toNat_eq (by simpa using this)
        exact ⟨fun _ => ⟨hv, hw0⟩, fun _ => Or.inl rfl⟩
      · rw [hne g hx]
        have : u g = 0 → w g = 0 := by
          intro hu0
          have h1 := g5 g; rw [hu0] at h1
          have e0 : (0 : BitVec 32).toNat = 0 := rfl
          rw [e0] at h1
          have : (w g).toNat = 0 := by omega
          exact BitVec.eq_of_toNat_eq (by simpa using this)
        have : w g = 0 → u g ≠ 0 ∨ u g = 0 := fun _ => by tauto
        have hv : u g ≠ 0 → v g ≠ 0 := by
          intro h e
          have h1 := f5 g
          rw [hne g hx, e] at h1
          have e0 : (0 : BitVec 32).toNat = 0 := rfl
          rw [e0] at h1
          have : (u g).toNat = 0 := by omega
          exact h (BitVec.eq_of_toNat_eq (by simpa using this))
        tauto

end Verif.RefDeref
