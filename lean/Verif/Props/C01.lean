import Verif.Signal

set_option autoImplicit false

/-!
# C01  Complemented-edge algebra

All statements quantify over all 2^64 packed words.
-/

namespace Verif.PSig

theorem toNat_index (s : PSig) : s.index.toNat = s.data.toNat / 2 := by
  simp [index, Nat.shiftRight_eq_div_pow]

theorem toNat_complement (s : PSig) : s.complement.toNat = s.data.toNat % 2 := by
  simp [complement, Nat.and_one_is_mod]

theorem compl_toSig (s : PSig) : s.toSig.compl = (s.data.toNat % 2 == 1) := by
  have h : (s.complement == 1#64) = (s.complement.toNat == 1) := by
    rw [Bool.eq_iff_iff]
    simp [← BitVec.toNat_inj]
  simp [toSig, h, toNat_complement]

theorem data_toSig (s : PSig) : s.toSig.data = s.data.toNat := by
  have h1 : s.toSig.index = s.data.toNat / 2 := toNat_index s
  have h2 := compl_toSig s
  simp only [Sig.data, h1, h2]
  by_cases h : s.data.toNat % 2 = 1
  · simp [h]; omega
  · have : s.data.toNat % 2 = 0 := by omega
    simp [this]; omega

theorem toNat_mk2 (i c : BitVec 64) :
    (mk2 i c).data.toNat = 2 * (i.toNat % 2 ^ 63) + c.toNat % 2 := by
  have h1 : ((i <<< 1) ||| (c &&& 1#64)).toNat = (i <<< 1).toNat ||| (c &&& 1#64).toNat := by simp
  have h2 : (c &&& 1#64).toNat = c.toNat % 2 := by simp [Nat.and_one_is_mod]
  have h3 : (i <<< 1).toNat = 2 * (i.toNat % 2 ^ 63) := by
    simp [Nat.shiftLeft_eq]; omega
  have h4 : (2 * (i.toNat % 2 ^ 63)) ||| (c.toNat % 2) = 2 * (i.toNat % 2 ^ 63) + c.toNat % 2 := by
    have := Nat.two_pow_add_eq_or_of_lt (i := 1) (b := c.toNat % 2) (by omega) (i.toNat % 2 ^ 63)
    simpa using this.symm
  unfold mk2
  rw [h1, h2, h3, h4]

theorem xor_one (n : Nat) : n ^^^ 1 = 2 * (n / 2) + (1 - n % 2) := by
  have h : (n ^^^ 1) / 2 = n / 2 := by
    have := Nat.xor_div_two (a := n) (b := 1); simpa using this
  have h' : (n ^^^ 1) % 2 = 1 - n % 2 := by
    have := Nat.testBit_xor n 1 0
    rw [Nat.testBit_zero, Nat.testBit_zero, Nat.testBit_zero] at this
    by_cases h1 : n % 2 = 1 <;> by_cases h2 : (n ^^^ 1) % 2 = 1
    · rw [h1, h2] at this; simp at this
    · omega
    · omega
    · rw [decide_eq_false h1, decide_eq_false h2] at this; simp at this
  omega

/-- Packing: the packed word read back as a pair determines the word (the pair loses nothing). -/
theorem C01_toSig_injective (s t : PSig) (h : s.toSig = t.toSig) : s = t := by
  have : s.toSig.data = t.toSig.data := by rw [h]
  rw [data_toSig, data_toSig] at this
  cases s; cases t; simp at this ⊢
  exact BitVec.eq_of_toNat_eq this

/-- Packing round trip: building a word from an index below 2^63 and a complement bit and reading it
back gives that index and that bit. -/
theorem C01_pack_roundtrip (i : Nat) (c : Bool) (hi : i < 2 ^ 63) :
    (mk2 (BitVec.ofNat 64 i) (if c then 1#64 else 0#64)).toSig = ⟨i, c⟩ := by
  apply Sig.data_inj
  rw [data_toSig, toNat_mk2]
  have h : (BitVec.ofNat 64 i).toNat = i := by simp; omega
  rw [h]
  cases c <;> simp [Sig.data] <;> omega

example : (mk2 (BitVec.ofNat 64 5) 1#64).toSig = ⟨5, true⟩ :=
  C01_pack_roundtrip 5 true (by decide)

/-- Every operator on words is the corresponding operator on (index, complement) pairs. -/
theorem C01_ops (s : PSig) (c : Bool) :
    s.not.toSig = ⟨s.toSig.index, !s.toSig.compl⟩ ∧
    s.pos.toSig = ⟨s.toSig.index, false⟩ ∧
    s.neg.toSig = ⟨s.toSig.index, true⟩ ∧
    (s.xorb c).toSig = ⟨s.toSig.index, if c then !s.toSig.compl else s.toSig.compl⟩ := by
  have hlt := s.data.isLt
  have hi : s.toSig.index = s.data.toNat / 2 := toNat_index s
  have hc := compl_toSig s
  have key : ∀ b : Bool, (Sig.data ⟨s.toSig.index, b⟩) = 2 * (s.data.toNat / 2) + b.toNat := by
    intro b; simp [Sig.data, hi]
  have hnot : s.not.toSig = ⟨s.toSig.index, !s.toSig.compl⟩ := by
    apply Sig.data_inj
    rw [data_toSig, key, hc]
    have : s.not.data.toNat = s.data.toNat ^^^ 1 := by simp [PSig.not]
    rw [this, xor_one]
    rcases Nat.mod_two_eq_zero_or_one s.data.toNat with h | h <;> simp [h]
  refine ⟨hnot, ?_, ?_, ?_⟩
  · apply Sig.data_inj
    rw [data_toSig, key, pos, toNat_mk2, toNat_index]
    simp; omega
  · apply Sig.data_inj
    rw [data_toSig, key, neg, toNat_mk2, toNat_index]
    simp; omega
  · cases c
    · have : s.xorb false = s := by cases s; simp [xorb]
      simp [this]
    · have : s.xorb true = s.not := by cases s; simp [xorb, PSig.not]
      simp [this, hnot]

/-- Negation is an involution, and `^` with a Boolean is negation or identity. -/
theorem C01_involution (s : PSig) :
    s.not.not = s ∧ s.not ≠ s ∧ s.xorb true = s.not ∧ s.xorb false = s ∧
    s.pos.pos = s.pos ∧ s.neg.pos = s.pos ∧ s.pos.neg = s.neg ∧ s.pos.not = s.neg := by
  have H := fun t => (C01_ops t true)
  refine ⟨?_, ?_, ?_, ?_, ?_, ?_, ?_, ?_⟩
  · apply C01_toSig_injective
    rw [(H _).1, (H _).1]; simp
  · intro h
    have := congrArg PSig.toSig h
    rw [(H _).1] at this
    have := congrArg Sig.compl this
    simp at this
  · cases s; simp [xorb, PSig.not]
  · cases s; simp [xorb]
  · apply C01_toSig_injective; simp [(H _).2.1]
  · apply C01_toSig_injective; simp [(H _).2.1, (H _).2.2.1]
  · apply C01_toSig_injective; simp [(H _).2.1, (H _).2.2.1]
  · apply C01_toSig_injective; simp [(H _).2.1, (H _).2.2.1, (H _).1]

/-- `<` is the lexicographic order on (index, complement); it is a strict total order. -/
theorem C01_lt (s t u : PSig) :
    (s.lt t = true ↔ s.toSig.index < t.toSig.index ∨
      (s.toSig.index = t.toSig.index ∧ s.toSig.compl = false ∧ t.toSig.compl = true)) ∧
    s.lt s = false ∧
    (s.lt t = true → t.lt u = true → s.lt u = true) ∧
    (s.lt t = true ∨ s = t ∨ t.lt s = true) := by
  have hd : ∀ a b : PSig, a.lt b = true ↔ a.toSig.data < b.toSig.data := by
    intro a b; rw [data_toSig, data_toSig]; simp [lt, BitVec.ult]
  refine ⟨?_, ?_, ?_, ?_⟩
  · rw [hd]
    generalize s.toSig = a
    generalize t.toSig = b
    cases a with | mk i c => cases b with | mk j d =>
      cases c <;> cases d <;> simp [Sig.data] <;> omega
  · rw [Bool.eq_false_iff]; intro h; rw [hd] at h; omega
  · rw [hd, hd, hd]; omega
  · rw [hd, hd]
    rcases Nat.lt_trichotomy s.toSig.data t.toSig.data with h | h | h
    · exact Or.inl h
    · exact Or.inr (Or.inl (C01_toSig_injective _ _ (Sig.data_inj h)))
    · exact Or.inr (Or.inr h)

example : (mk2 3#64 1#64).lt (mk2 4#64 0#64) = true := by decide
example : (mk2 3#64 0#64).lt (mk2 3#64 1#64) = true := by decide

end Verif.PSig
