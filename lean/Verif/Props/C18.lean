import Verif.Cut.Basic
import Mathlib.Data.Finset.Card
import Mathlib.Data.List.Sort
import Mathlib.Data.List.NodupEquivFin
import Mathlib.Data.Nat.Bitwise
import Mathlib.Tactic.Ring

set_option autoImplicit false

/-!
# C18, C19: domination and merging of cuts
-/

namespace Verif.Cuts

variable {α : Type}

/-- leaves in strictly increasing order -/
def Sorted (l : List Nat) : Prop := l.Pairwise (· < ·)

instance (l : List Nat) : Decidable (Sorted l) := inferInstanceAs (Decidable (l.Pairwise _))

/-- What every cut in the program satisfies: sorted leaves and the signature that belongs to them. -/
structure Cut.WF (c : Cut α) : Prop where
  sorted : Sorted c.leaves
  sig : c.sig = signature c.leaves

/-! ### signatures -/

theorem testBit_signature (l : List Nat) (i : Nat) : (signature l).testBit i = true ↔ ∃ x ∈ l, x % 64 = i := by
  induction l with
  | nil => simp [signature]
  | cons x l ih =>
    simp only [signature, Nat.testBit_or, Bool.or_eq_true, ih, List.mem_cons, exists_eq_or_imp, Nat.testBit_two_pow,
      decide_eq_true_eq]

theorem signature_mono {a b : List Nat} (h : ∀ x ∈ a, x ∈ b) : signature a &&& signature b = signature a := by
  apply Nat.eq_of_testBit_eq
  intro i
  rw [Nat.testBit_and]
  cases ha : (signature a).testBit i with
  | false => simp
  | true =>
    obtain ⟨x, hx, hi⟩ := (testBit_signature a i).1 ha
    simp [(testBit_signature b i).2 ⟨x, h x hx, hi⟩]

theorem signature_congr {a b : List Nat} (h : ∀ x, x ∈ a ↔ x ∈ b) : signature a = signature b := by
  apply Nat.eq_of_testBit_eq
  intro i
  rw [Bool.eq_iff_iff, testBit_signature, testBit_signature]
  simp [h]

theorem signature_append (a b : List Nat) : signature (a ++ b) = signature a ||| signature b := by
  induction a with
  | nil => simp [signature]
  | cons x a ih => simp [signature, ih, Nat.or_assoc]

/-! ### the loop -/

theorem includesLoop_spec : ∀ (b a : List Nat), Sorted a → Sorted b → a ≠ [] →
    (includesLoop a b = true ↔ ∀ x ∈ a, x ∈ b) := by
  intro b
  induction b with
  | nil =>
    intro a _ _ h
    cases a with
    | nil => exact absurd rfl h
    | cons x a =>
      simp only [includesLoop, Bool.false_eq_true, false_iff]
      intro hall
      simpa using hall x (by simp)
  | cons y b ih =>
    intro a ha hb h
    cases a with
    | nil => exact absurd rfl h
    | cons x a =>
      have ha' := List.pairwise_cons.1 ha
      have hb' := List.pairwise_cons.1 hb
      rw [includesLoop]
      split
      · rename_i hlt
        simp only [Bool.false_eq_true, false_iff]
        intro hall
        rcases List.mem_cons.1 (hall x (by simp)) with rfl | hm
        · omega
        · have := hb'.1 x hm; omega
      · rename_i hnlt
        split
        · rename_i hyx
          subst hyx
          cases a with
          | nil => simp
          | cons z a =>
            simp only [List.isEmpty_cons, Bool.false_eq_true, if_false]
            rw [ih (z :: a) ha'.2 hb'.2 (by simp)]
            constructor
            · intro hall w hw
              rcases List.mem_cons.1 hw with rfl | hw
              · simp
              · exact List.mem_cons_of_mem _ (hall w hw)
            · intro hall w hw
              rcases List.mem_cons.1 (hall w (List.mem_cons_of_mem _ hw)) with rfl | hm
              · have := ha'.1 w hw; omega
              · exact hm
        · rename_i hne
          rw [ih (x :: a) ha hb'.2 (by simp)]
          constructor
          · intro hall w hw; exact List.mem_cons_of_mem _ (hall w hw)
          · intro hall w hw
            rcases List.mem_cons.1 (hall w hw) with rfl | hm
            · rcases List.mem_cons.1 hw with e | hw
              · exact absurd e hne
              · have := ha'.1 w hw; omega
            · exact hm

theorem eq_of_subset_of_length {a b : List Nat} (ha : Sorted a) (hb : Sorted b) (hl : a.length = b.length)
    (h : ∀ x ∈ a, x ∈ b) : a = b := by
  have hn : a.Nodup := ha.imp (fun h => Nat.ne_of_lt h)
  have hp : a.Perm b := (hn.subperm h).perm_of_length_le (by omega)
  exact hp.eq_of_pairwise (fun x y _ _ h1 h2 => absurd h1 (by omega)) ha hb

/-- C18: `dominates` is the subset test on leaves. -/
theorem C18_dominates (c d : Cut α) (hc : c.WF) (hd : d.WF) :
    c.dominates d = true ↔ ∀ x ∈ c.leaves, x ∈ d.leaves := by
  rw [Cut.dominates]
  split
  · rename_i h
    simp only [Bool.false_eq_true, false_iff]
    intro hall
    rcases h with h | h
    · have hn : c.leaves.Nodup := hc.sorted.imp (fun h => Nat.ne_of_lt h)
      have := (hn.subperm hall).length_le
      omega
    · apply h
      rw [hc.sig, hd.sig]; exact signature_mono hall
  · rename_i h
    split
    · rename_i hl
      rw [beq_iff_eq]
      exact ⟨fun e => by rw [e]; exact fun x h => h, eq_of_subset_of_length hc.sorted hd.sorted hl⟩
    · split
      · rename_i h0
        rw [List.length_eq_zero_iff] at h0
        simp [h0]
      · rename_i h0
        exact includesLoop_spec _ _ hc.sorted hd.sorted (by intro e; rw [e] at h0; exact h0 rfl)

/-- a signature collision: leaf 65 has the same signature bit as leaf 1 -/
example : (⟨[1, 65], signature [1, 65], ()⟩ : Cut Unit).dominates ⟨[1, 3, 65], signature [1, 3, 65], ()⟩ = true ∧
    (⟨[65], signature [65], ()⟩ : Cut Unit).dominates ⟨[1, 3], signature [1, 3], ()⟩ = false ∧
    signature [65] &&& signature [1, 3] = signature [65] := by decide

example : (⟨[1, 65], signature [1, 65], ()⟩ : Cut Unit).WF := ⟨by decide, rfl⟩

/-! ## merging -/

theorem setUnion_mem : ∀ (a b : List Nat) (x : Nat), x ∈ setUnion a b ↔ x ∈ a ∨ x ∈ b := by
  intro a
  induction a with
  | nil => intro b x; simp [setUnion]
  | cons z a ih =>
    intro b
    induction b with
    | nil => intro x; simp [setUnion, unionStep]
    | cons y b ihb =>
      intro x
      rw [setUnion] at ihb ⊢
      rw [unionStep]
      split
      · rw [List.mem_cons, ih]; simp; tauto
      · split
        · rw [List.mem_cons, ihb]; simp; tauto
        · have : z = y := by omega
          subst this
          rw [List.mem_cons, ih]; simp; tauto

theorem setUnion_sorted : ∀ (a b : List Nat), Sorted a → Sorted b → Sorted (setUnion a b) := by
  intro a
  induction a with
  | nil => intro b _ h; exact h
  | cons z a ih =>
    intro b
    induction b with
    | nil => intro h _; exact h
    | cons y b ihb =>
      intro ha hb
      have ha' := List.pairwise_cons.1 ha
      have hb' := List.pairwise_cons.1 hb
      rw [setUnion] at ihb ⊢
      rw [unionStep]
      split
      · rename_i hzy
        refine List.pairwise_cons.2 ⟨?_, ih _ ha'.2 hb⟩
        intro w hw
        rcases (setUnion_mem _ _ _).1 hw with h | h
        · exact ha'.1 w h
        · rcases List.mem_cons.1 h with rfl | h
          · exact hzy
          · exact lt_trans hzy (hb'.1 w h)
      · split
        · rename_i hyz
          refine List.pairwise_cons.2 ⟨?_, ihb ha hb'.2⟩
          intro w hw
          rcases (setUnion_mem (z :: a) b w).1 hw with h | h
          · rcases List.mem_cons.1 h with rfl | h
            · exact hyz
            · exact lt_trans hyz (ha'.1 w h)
          · exact hb'.1 w h
        · have : z = y := by omega
          subst this
          refine List.pairwise_cons.2 ⟨?_, ih _ ha'.2 hb'.2⟩
          intro w hw
          rcases (setUnion_mem _ _ _).1 hw with h | h
          · exact ha'.1 w h
          · exact hb'.1 w h

/-! ### popcount -/

/-- number of one bits -/
def ones (n : Nat) : Nat := if h : n = 0 then 0 else n % 2 + ones (n / 2)

theorem ones_zero : ones 0 = 0 := by rw [ones]; simp

theorem ones_step (n : Nat) : ones n = n % 2 + ones (n / 2) := by
  by_cases h : n = 0
  · subst h; simp [ones_zero]
  · rw [ones, dif_neg h]

theorem ones_add_or : ∀ (k a b c : Nat), a + b ≤ k → c ≤ 1 → ones (a + b + c) ≤ ones (a ||| b) + c := by
  intro k
  induction k with
  | zero =>
    intro a b c h hc
    obtain ⟨rfl, rfl⟩ : a = 0 ∧ b = 0 := by omega
    have : c = 0 ∨ c = 1 := by omega
    rcases this with rfl | rfl
    · simp
    · have : ones 1 = 1 := by rw [ones_step]; simp [ones_zero]
      simp [this]
  | succ k ih =>
    intro a b c h hc
    by_cases hab : a + b ≤ k
    · exact ih a b c hab hc
    · rw [ones_step (a + b + c), ones_step (a ||| b)]
      have h1 : (a + b + c) / 2 = a / 2 + b / 2 + (a % 2 + b % 2 + c) / 2 := by omega
      have h2 : (a ||| b) / 2 = a / 2 ||| b / 2 := by
        rw [← Nat.shiftRight_one, ← Nat.shiftRight_one, ← Nat.shiftRight_one, Nat.shiftRight_or_distrib]
      have h3 : (a ||| b) % 2 = max (a % 2) (b % 2) := by
        have e := Nat.or_mod_two_pow (a := a) (b := b) (n := 1)
        simp only [Nat.pow_one] at e
        rw [e]
        rcases Nat.mod_two_eq_zero_or_one a with h | h <;> rcases Nat.mod_two_eq_zero_or_one b with h' | h' <;> rw [h, h'] <;> rfl
      have := ih (a / 2) (b / 2) ((a % 2 + b % 2 + c) / 2) (by omega) (by omega)
      rw [h1, h2, h3]
      have hm : max (a % 2) (b % 2) = a % 2 ∨ max (a % 2) (b % 2) = b % 2 := by omega
      omega

theorem ones_mod (k n : Nat) : ones (n % 2 ^ k) ≤ ones n := by
  induction k generalizing n with
  | zero => simp [Nat.mod_one, ones_zero]
  | succ k ih =>
    rw [ones_step (n % 2 ^ (k + 1)), ones_step n]
    have h1 : n % 2 ^ (k + 1) % 2 = n % 2 := by
      rw [Nat.pow_succ, Nat.mul_comm]; exact Nat.mod_mul_right_mod _ _ _
    have h2 : n % 2 ^ (k + 1) / 2 = n / 2 % 2 ^ k := by
      rw [Nat.pow_succ, Nat.mul_comm, Nat.mod_mul_right_div_self]
    rw [h1, h2]
    have := ih (n / 2)
    omega

theorem sum_testBit (k n : Nat) : ((List.range k).map fun i => if n.testBit i then 1 else 0).sum = ones (n % 2 ^ k) := by
  induction k generalizing n with
  | zero => simp [Nat.mod_one, ones_zero]
  | succ k ih =>
    rw [List.range_succ_eq_map, List.map_cons, List.sum_cons, List.map_map, ones_step (n % 2 ^ (k + 1))]
    have h1 : n % 2 ^ (k + 1) % 2 = n % 2 := by
      rw [Nat.pow_succ, Nat.mul_comm]; exact Nat.mod_mul_right_mod _ _ _
    have h2 : n % 2 ^ (k + 1) / 2 = n / 2 % 2 ^ k := by
      rw [Nat.pow_succ, Nat.mul_comm, Nat.mod_mul_right_div_self]
    rw [h1, h2, ← ih (n / 2)]
    congr 1
    · rw [Nat.testBit_zero]
      rcases Nat.mod_two_eq_zero_or_one n with h | h <;> simp [h]
    · congr 1
      apply List.map_congr_left
      intro i _
      simp only [Function.comp]
      rw [Nat.testBit_succ]

theorem popcount32_eq (w : Nat) : popcount32 w = ones (w % 2 ^ 32) := sum_testBit 32 w

theorem ones_split (k n : Nat) : ones (n % 2 ^ k) + ones (n / 2 ^ k) = ones n := by
  induction k generalizing n with
  | zero => simp [Nat.mod_one, ones_zero]
  | succ k ih =>
    rw [ones_step (n % 2 ^ (k + 1)), ones_step n]
    have h1 : n % 2 ^ (k + 1) % 2 = n % 2 := by
      rw [Nat.pow_succ, Nat.mul_comm]; exact Nat.mod_mul_right_mod _ _ _
    have h2 : n % 2 ^ (k + 1) / 2 = n / 2 % 2 ^ k := by
      rw [Nat.pow_succ, Nat.mul_comm, Nat.mod_mul_right_div_self]
    have h3 : n / 2 ^ (k + 1) = n / 2 / 2 ^ k := by
      rw [Nat.div_div_eq_div_mul, Nat.pow_succ, Nat.mul_comm]
    rw [h1, h2, h3, ← ih (n / 2)]
    omega

theorem ones_two_pow_or (i n : Nat) : ones (2 ^ i ||| n) ≤ 1 + ones n := by
  induction i generalizing n with
  | zero =>
    rw [ones_step (2 ^ 0 ||| n), ones_step n]
    have h2 : (2 ^ 0 ||| n) / 2 = n / 2 := by
      rw [← Nat.shiftRight_one, Nat.shiftRight_or_distrib]; simp [Nat.shiftRight_one]
    rw [h2]
    have : (2 ^ 0 ||| n) % 2 < 2 := Nat.mod_lt _ (by omega)
    omega
  | succ i ih =>
    rw [ones_step (2 ^ (i + 1) ||| n), ones_step n]
    have h2 : (2 ^ (i + 1) ||| n) / 2 = 2 ^ i ||| n / 2 := by
      rw [← Nat.shiftRight_one, Nat.shiftRight_or_distrib, Nat.shiftRight_one, Nat.shiftRight_one, Nat.pow_succ]
      simp
    have h3 : (2 ^ (i + 1) ||| n) % 2 = n % 2 := by
      have e := Nat.or_mod_two_pow (a := 2 ^ (i + 1)) (b := n) (n := 1)
      simp only [Nat.pow_one] at e
      rw [e, Nat.pow_succ]; simp
    rw [h2, h3]
    have := ih (n / 2)
    omega

theorem ones_signature (l : List Nat) : ones (signature l) ≤ l.length := by
  induction l with
  | nil => simp [signature, ones_zero]
  | cons x l ih =>
    rw [signature, List.length_cons]
    have := ones_two_pow_or (x % 64) (signature l)
    omega

/-- The quick check never rejects a union that is small enough. -/
theorem quick_reject (a b : List Nat) :
    popcount32 ((signature a + signature b) % 2 ^ 64 % 2 ^ 32) + popcount32 ((signature a + signature b) % 2 ^ 64 / 2 ^ 32)
      ≤ (setUnion a b).length := by
  rw [popcount32_eq, popcount32_eq]
  have h1 := ones_split 32 ((signature a + signature b) % 2 ^ 64)
  have h2 := ones_mod 64 (signature a + signature b)
  have h3 := ones_add_or _ (signature a) (signature b) 0 le_rfl (by omega)
  have h4 := ones_signature (setUnion a b)
  have h5 : signature (setUnion a b) = signature a ||| signature b := by
    rw [← signature_append]; apply signature_congr; intro x; rw [setUnion_mem, List.mem_append]
  have h6 := ones_mod 32 ((signature a + signature b) % 2 ^ 64 % 2 ^ 32)
  have h7 := ones_mod 32 ((signature a + signature b) % 2 ^ 64 / 2 ^ 32)
  rw [h5] at h4
  simp only [Nat.add_zero] at h3
  omega

/-- number of leaves of the union -/
def unionCard (a b : List Nat) : Nat := (a.toFinset ∪ b.toFinset).card

theorem unionCard_eq {a b : List Nat} (ha : Sorted a) (hb : Sorted b) : (setUnion a b).length = unionCard a b := by
  have hn : (setUnion a b).Nodup := (setUnion_sorted a b ha hb).imp (fun h => Nat.ne_of_lt h)
  rw [unionCard, ← List.toFinset_card_of_nodup hn]
  congr 1
  ext x
  simp [setUnion_mem]

/-- C19 (missing: absence of the overflow, see `C19_violated`).  For two cuts with sorted leaves and right
signatures, and a limit within the capacity: `merge` succeeds exactly when the union of the leaf sets has
at most `k` elements, and then the result holds the sorted union and its signature.  Otherwise it reports
failure, or overruns the leaf array, the latter only if the union exceeds the capacity. -/
theorem C19_merge_partial (maxLeaves k : Nat) (hk : k ≤ maxLeaves) (c d res : Cut α) (hc : c.WF) (hd : d.WF) :
    match c.merge maxLeaves d res k with
    | .ok r => unionCard c.leaves d.leaves ≤ k ∧ r.WF ∧ (∀ x, x ∈ r.leaves ↔ x ∈ c.leaves ∨ x ∈ d.leaves) ∧
        r.leaves.length = unionCard c.leaves d.leaves ∧ r.data = res.data
    | .tooLarge => k < unionCard c.leaves d.leaves
    | .overflow => k < unionCard c.leaves d.leaves ∧ maxLeaves < unionCard c.leaves d.leaves := by
  have hq := quick_reject c.leaves d.leaves
  have hu := unionCard_eq hc.sorted hd.sorted
  rw [Cut.merge, hc.sig, hd.sig]
  dsimp only
  by_cases h1 : c.leaves.length + d.leaves.length > k ∧
      popcount32 ((signature c.leaves + signature d.leaves) % 2 ^ 64 % 2 ^ 32) +
      popcount32 ((signature c.leaves + signature d.leaves) % 2 ^ 64 / 2 ^ 32) > k
  · rw [if_pos h1]; dsimp only; omega
  · rw [if_neg h1]
    by_cases h2 : (setUnion c.leaves d.leaves).length > maxLeaves
    · rw [if_pos h2]; dsimp only; omega
    · rw [if_neg h2]
      by_cases h3 : (setUnion c.leaves d.leaves).length ≤ k
      · rw [if_pos h3]
        refine ⟨by omega, ⟨setUnion_sorted _ _ hc.sorted hd.sorted, ?_⟩, fun x => setUnion_mem _ _ _, hu, rfl⟩
        rw [← signature_append]
        apply signature_congr
        intro x
        rw [List.mem_append, setUnion_mem]
      · rw [if_neg h3]; dsimp only; omega

/-- C19 in full where the array can hold any union: for `2 k ≤ MaxLeaves` (e.g. `k ≤ 3` with the seven
leaves of the program) there is no overflow and `merge` decides `|L1 ∪ L2| ≤ k`. -/
theorem C19_small (maxLeaves k : Nat) (hk : 2 * k ≤ maxLeaves) (c d res : Cut α) (hc : c.WF) (hd : d.WF)
    (hcl : c.leaves.length ≤ k) (hdl : d.leaves.length ≤ k) :
    c.merge maxLeaves d res k ≠ .overflow ∧
    ((∃ r, c.merge maxLeaves d res k = .ok r) ↔ unionCard c.leaves d.leaves ≤ k) := by
  have h := C19_merge_partial maxLeaves k (by omega) c d res hc hd
  have hle : unionCard c.leaves d.leaves ≤ 2 * k := by
    have := Finset.card_union_le c.leaves.toFinset d.leaves.toFinset
    have h1 := List.toFinset_card_le c.leaves
    have h2 := List.toFinset_card_le d.leaves
    unfold unionCard; omega
  cases hm : c.merge maxLeaves d res k with
  | ok r => rw [hm] at h; simp [h.1]
  | tooLarge => rw [hm] at h; simpa using h
  | overflow => rw [hm] at h; dsimp only at h; omega

/-- C19 is violated: with the capacity 7 of cut_enumeration.hpp 82 and cut size 4 (the default of
cut_enumeration.hpp 47) there are two cuts with four leaves each whose merge writes eight leaves. -/
theorem C19_violated : ∃ c d res : Cut Unit, c.WF ∧ d.WF ∧ c.leaves.length ≤ 4 ∧ d.leaves.length ≤ 4 ∧
    c.merge 7 d res 4 = .overflow :=
  ⟨⟨[1, 2, 3, 4], signature [1, 2, 3, 4], ()⟩, ⟨[65, 66, 67, 68], signature [65, 66, 67, 68], ()⟩, ⟨[], 0, ()⟩,
    ⟨by decide, rfl⟩, ⟨by decide, rfl⟩, by decide, by decide, by decide⟩

example : (⟨[1, 2, 3], signature [1, 2, 3], ()⟩ : Cut Unit).merge 7 ⟨[2, 66], signature [2, 66], ()⟩ ⟨[], 0, ()⟩ 4 =
    .ok ⟨[1, 2, 3, 66], 14, ()⟩ := by decide

example : (⟨[1, 2, 3], signature [1, 2, 3], ()⟩ : Cut Unit).merge 7 ⟨[4, 66], signature [4, 66], ()⟩ ⟨[], 0, ()⟩ 4 =
    .tooLarge := by decide

end Verif.Cuts
