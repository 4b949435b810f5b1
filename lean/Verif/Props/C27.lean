import Verif.Aiger.Basic
import Mathlib.Tactic.IntervalCases

set_option autoImplicit false

/-!
# C27: AIGER delta encoding round trip
-/

namespace Verif.Aiger

theorem low7 (x : BitVec 32) : ((x &&& 0x7f#32) ||| 0x80#32).setWidth 8 &&& 0x80#8 ≠ 0#8 := by
  intro h
  have := congrArg (fun b : BitVec 8 => b.getLsbD 7) h
  revert this
  simp

theorem step_or (res lit : BitVec 32) (k : Nat) :
    (res ||| (((((lit &&& 0x7f#32) ||| 0x80#32).setWidth 8).setWidth 32 &&& 0x7f#32) <<< k)) ||| (lit >>> 7) <<< (k + 7)
      = res ||| lit <<< k := by
  apply BitVec.eq_of_getLsbD_eq
  intro j hj
  have hlow : ∀ i, ((((lit &&& 0x7f#32) ||| 0x80#32).setWidth 8).setWidth 32 &&& 0x7f#32).getLsbD i
      = (decide (i < 7) && lit.getLsbD i) := by
    intro i
    by_cases h : i < 7
    · interval_cases i <;> simp
    · have h0 : (0x7f#32).getLsbD i = false := by
        by_cases h32 : i < 32
        · interval_cases i <;> first | omega | rfl
        · exact BitVec.getLsbD_of_ge _ _ (by omega)
      rw [BitVec.getLsbD_and, h0]
      simp [h]
  simp only [BitVec.getLsbD_or, BitVec.getLsbD_shiftLeft, hlow, BitVec.getLsbD_ushiftRight]
  simp only [hj, decide_true, Bool.true_and]
  by_cases h1 : j < k
  · have h2 : j < k + 7 := by omega
    simp [h1, h2]
  · by_cases h2 : j < k + 7
    · have h3 : j - k < 7 := by omega
      simp [h1, h2, h3]
    · have h3 : ¬ j - k < 7 := by omega
      have h4 : 7 + (j - (k + 7)) = j - k := by omega
      simp [h1, h2, h3, h4]

theorem last_or (res lit : BitVec 32) (k : Nat) (h : lit &&& ~~~0x7f#32 = 0#32) :
    (res ||| (((lit.setWidth 8).setWidth 32 &&& 0x7f#32) <<< k)) = res ||| lit <<< k ∧ (lit.setWidth 8) &&& 0x80#8 = 0#8 := by
  have hb : ∀ i, 7 ≤ i → lit.getLsbD i = false := by
    intro i hi
    by_cases h32 : i < 32
    · have := congrArg (fun b : BitVec 32 => b.getLsbD i) h
      simp only [BitVec.getLsbD_and, BitVec.getLsbD_zero] at this
      have h1 : (~~~0x7f#32).getLsbD i = true := by interval_cases i <;> rfl
      rw [h1, Bool.and_true] at this
      exact this
    · exact BitVec.getLsbD_of_ge _ _ (by omega)
  have e : ((lit.setWidth 8).setWidth 32 &&& 0x7f#32) = lit := by
    apply BitVec.eq_of_getLsbD_eq
    intro i hi
    by_cases h7 : i < 7
    · interval_cases i <;> simp
    · rw [hb i (by omega)]
      rw [BitVec.getLsbD_and]
      have h0 : (0x7f#32).getLsbD i = false := by interval_cases i <;> first | omega | rfl
      rw [h0, Bool.and_false]
  refine ⟨by rw [e], ?_⟩
  apply BitVec.eq_of_getLsbD_eq
  intro i hi
  rw [BitVec.getLsbD_and]
  by_cases h7 : i < 7
  · have : (0x80#8).getLsbD i = false := by interval_cases i <;> rfl
    rw [this]; simp
  · have : i = 7 := by omega
    subst this
    have := hb 7 (by omega)
    rw [BitVec.getLsbD_setWidth, this]
    rfl

theorem encodeLoop_spec : ∀ (f i : Nat) (lit res : BitVec 32) (rest : List Byte), f + i = 5 →
    lit.toNat < 2 ^ (32 - 7 * i) → 0 < f →
    ∃ bs, encodeLoop f lit = some bs ∧ decode i res (bs ++ rest) = .ok (res ||| lit <<< (7 * i), rest) ∧
      bs ≠ [] ∧ bs.length ≤ f := by
  intro f
  induction f with
  | zero => intro i lit res rest _ _ h; omega
  | succ f ih =>
    intro i lit res rest hf hl _
    have hi : ¬ 32 ≤ 7 * i := by omega
    unfold encodeLoop
    by_cases hz : lit &&& ~~~0x7f#32 = 0#32
    · rw [if_neg (by simpa using hz)]
      refine ⟨_, rfl, ?_, by simp, by simp⟩
      obtain ⟨h1, h2⟩ := last_or res lit (7 * i) hz
      simp only [List.cons_append, List.nil_append, decode]
      rw [if_neg hi, if_pos h2, h1]
    · rw [if_pos hz]
      have hf0 : 0 < f := by
        rcases Nat.eq_zero_or_pos f with h0 | h0
        · exfalso
          subst h0
          have : i = 4 := by omega
          subst this
          apply hz
          have h16 : lit.toNat < 16 := by simpa using hl
          have e : lit = BitVec.ofNat 32 lit.toNat := by simp
          rw [e]
          generalize lit.toNat = l at h16
          interval_cases l <;> rfl
        · exact h0
      have hb : (lit >>> 7).toNat < 2 ^ (32 - 7 * (i + 1)) := by
        rw [BitVec.toNat_ushiftRight, Nat.shiftRight_eq_div_pow]
        have : 32 - 7 * i = (32 - 7 * (i + 1)) + 7 := by omega
        rw [this, pow_add] at hl
        omega
      obtain ⟨bs, e1, e2, e3, e4⟩ := ih (i + 1) (lit >>> 7)
        (res ||| (((((lit &&& 0x7f#32) ||| 0x80#32).setWidth 8).setWidth 32 &&& 0x7f#32) <<< (7 * i))) rest
        (by omega) hb hf0
      rw [e1]
      refine ⟨_, rfl, ?_, by simp, by simp; omega⟩
      rw [List.cons_append, decode, if_neg hi]
      rw [if_neg (low7 lit), e2]
      have : 7 * (i + 1) = 7 * i + 7 := by omega
      rw [this, step_or]

/-- Every 32-bit number is encoded, and decoding the bytes, whatever follows them, gives the number back and
stops exactly behind them. -/
theorem C27_roundtrip (lit : BitVec 32) : ∃ bs, encode lit = some bs ∧ bs ≠ [] ∧ bs.length ≤ 5 ∧
    ∀ rest, decode 0 0#32 (bs ++ rest) = .ok (lit, rest) := by
  obtain ⟨bs, e1, _, e3, e4⟩ := encodeLoop_spec 5 0 lit 0#32 [] rfl (by simpa using lit.isLt) (by omega)
  refine ⟨bs, e1, e3, e4, fun rest => ?_⟩
  obtain ⟨bs', e1', e2', _⟩ := encodeLoop_spec 5 0 lit 0#32 rest rfl (by simpa using lit.isLt) (by omega)
  rw [e1] at e1'
  cases e1'
  rw [e2']
  simp

/-- Different numbers have different encodings, and no encoding is a prefix of another. -/
theorem C27_prefix_free (p q : BitVec 32) (bp bq r : List Byte) (hp : encode p = some bp) (hq : encode q = some bq)
    (h : bq = bp ++ r) : p = q ∧ r = [] := by
  obtain ⟨bs, e1, _, _, e2⟩ := C27_roundtrip p
  obtain ⟨bs', e1', _, _, e2'⟩ := C27_roundtrip q
  rw [hp] at e1; cases e1
  rw [hq] at e1'; cases e1'
  have h1 := e2 r
  have h2 := e2' []
  rw [← h] at h1
  rw [List.append_nil, h1] at h2
  simp only [Res.ok.injEq, Prod.mk.injEq] at h2
  exact ⟨h2.1, h2.2⟩

/-- a value that needs all five bytes, with further bytes behind it -/
example : encode 0xdeadbeef#32 = some [0xef#8, 0xfd#8, 0xb6#8, 0xf5#8, 0x0d#8] ∧
    decode 0 0#32 ([0xef#8, 0xfd#8, 0xb6#8, 0xf5#8, 0x0d#8] ++ [0x85#8, 7#8]) = .ok (0xdeadbeef#32, [0x85#8, 7#8]) := by
  decide

/-- an encoding and one that extends beyond it -/
example : encode 300#32 = some [0xac#8, 0x02#8] ∧ encode 44#32 = some [0x2c#8] := by decide

end Verif.Aiger
