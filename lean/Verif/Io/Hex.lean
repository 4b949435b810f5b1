import Verif.Io.Ident
import Verif.TTOps
import Mathlib.Tactic.Ring
import Mathlib.Tactic.IntervalCases

set_option autoImplicit false

/-!
# Truth tables written as hexadecimal numbers
-/

namespace Verif.Io

/-- the number with the given bits, least significant first -/
def bitsNat : List Bool → Nat
  | [] => 0
  | b :: l => (if b then 1 else 0) + 2 * bitsNat l

/-- block `i` of a dynamic truth table, libs/kitty/include/kitty/dynamic_truth_table.hpp 58-62: bits `64 i`, ..., `64 i + 63`;
bits beyond the table are zero -/
def ttWord (t : TT) (i : Nat) : Nat := bitsNat ((t.bits.drop (64 * i)).take 64)

/-- number of blocks, dynamic_truth_table.hpp 59 -/
def ttBlocks (t : TT) : Nat := if t.n ≤ 6 then 1 else 2 ^ (t.n - 6)

/-- digit written for a number below 16, libs/kitty/include/kitty/print.hpp 196-204 -/
def hexDigit (d : Nat) : Char := if d < 10 then Char.ofNat ('0'.toNat + d) else Char.ofNat ('a'.toNat + (d - 10))

/-- the loop over the characters of `chunk` from the last to the first, print.hpp 193-207: least significant digit first; the
characters not reached keep the digit zero -/
def hexLoop : Nat → Nat → List Char
  | 0, _ => []
  | k + 1, w => if w = 0 then List.replicate (k + 1) '0' else hexDigit (w % 16) :: hexLoop k (w / 16)

/-- `chunk_size`, print.hpp 189 -/
def chunkSize (t : TT) : Nat := min (if t.n ≤ 1 then 1 else 2 ^ t.n / 4) 16

/-- `to_hex`, print.hpp 186-210, 283-289: blocks from the last to the first, most significant digit first -/
def toHex (t : TT) : Text :=
  (List.range (ttBlocks t)).reverse.flatMap fun i => (hexLoop (chunkSize t) (ttWord t i)).reverse

/-! ### Reading a hexadecimal number (specification side) -/

/-- value of a hexadecimal digit -/
def digitVal (c : Char) : Option Nat :=
  ["0", "1", "2", "3", "4", "5", "6", "7", "8", "9", "a", "b", "c", "d", "e", "f"].findIdx? (· == String.singleton c)

/-- value of the digits, least significant first -/
def valLsb : List Char → Option Nat
  | [] => some 0
  | c :: l =>
    match digitVal c, valLsb l with
    | some d, some v => some (d + 16 * v)
    | _, _ => none

/-- the number a text of hexadecimal digits stands for -/
def readHex (t : Text) : Option Nat := valLsb t.reverse

/-! ### Lemmas -/

theorem digitVal_hexDigit (d : Nat) (h : d < 16) : digitVal (hexDigit d) = some d := by
  have : (List.range 16).all (fun d => digitVal (hexDigit d) == some d) = true := by decide +kernel
  have := List.all_eq_true.1 this d (List.mem_range.2 h)
  simpa using this

theorem valLsb_append : ∀ (l r : List Char) (a b : Nat), valLsb l = some a → valLsb r = some b → valLsb (l ++ r) = some (a + 16 ^ l.length * b) := by
  intro l
  induction l with
  | nil => intro r a b h1 h2; cases h1; simpa using h2
  | cons c l ih =>
    intro r a b h1 h2
    rw [valLsb] at h1
    cases hd : digitVal c with
    | none => rw [hd] at h1; simp at h1
    | some d =>
      cases hl : valLsb l with
      | none => rw [hl] at h1; simp at h1
      | some v =>
        rw [hd, hl] at h1
        simp only [Option.some.injEq] at h1
        rw [List.cons_append, valLsb, hd, ih r v b hl h2]
        simp only [Option.some.injEq, List.length_cons, pow_succ]
        subst h1
        ring

theorem valLsb_zeros (k : Nat) : valLsb (List.replicate k '0') = some 0 := by
  induction k with
  | zero => rfl
  | succ k ih => rw [List.replicate_succ, valLsb, ih, show digitVal '0' = some 0 by decide]

theorem hexLoop_length : ∀ (k w : Nat), (hexLoop k w).length = k := by
  intro k
  induction k with
  | zero => intro w; rfl
  | succ k ih =>
    intro w
    rw [hexLoop]
    split
    · simp
    · simp [ih]

theorem valLsb_hexLoop : ∀ (k w : Nat), w < 16 ^ k → valLsb (hexLoop k w) = some w := by
  intro k
  induction k with
  | zero => intro w h; simp only [pow_zero] at h; rw [show w = 0 by omega]; rfl
  | succ k ih =>
    intro w h
    rw [hexLoop]
    split
    · rename_i h0
      rw [valLsb_zeros, h0]
    · rw [valLsb, digitVal_hexDigit _ (Nat.mod_lt _ (by decide)), ih (w / 16) (by
        rw [pow_succ] at h
        exact Nat.div_lt_of_lt_mul (by omega))]
      simp only [Option.some.injEq]
      omega

theorem bitsNat_lt : ∀ l : List Bool, bitsNat l < 2 ^ l.length := by
  intro l
  induction l with
  | nil => decide
  | cons b l ih =>
    rw [bitsNat, List.length_cons, pow_succ]
    split <;> omega

theorem bitsNat_append : ∀ l r : List Bool, bitsNat (l ++ r) = bitsNat l + 2 ^ l.length * bitsNat r := by
  intro l
  induction l with
  | nil => intro r; simp [bitsNat]
  | cons b l ih =>
    intro r
    rw [List.cons_append, bitsNat, bitsNat, ih, List.length_cons, pow_succ]
    ring

theorem testBit_bitsNat : ∀ (l : List Bool) (p : Nat), (bitsNat l).testBit p = l.getD p false := by
  intro l
  induction l with
  | nil => intro p; simp [bitsNat]
  | cons b l ih =>
    intro p
    rw [bitsNat]
    cases p with
    | zero =>
      rw [Nat.testBit_zero]
      cases b <;> simp
    | succ p =>
      rw [Nat.testBit_succ, List.getD_cons_succ, ← ih p]
      congr 1
      split <;> omega

theorem valLsb_blocks (t : TT) : ∀ (m : Nat), 64 * m ≤ t.bits.length →
    valLsb ((List.range m).flatMap fun i => hexLoop 16 (ttWord t i)) = some (bitsNat (t.bits.take (64 * m))) := by
  intro m
  induction m with
  | zero => intro _; simp [valLsb, bitsNat]
  | succ m ih =>
    intro h
    have hw : valLsb (hexLoop 16 (ttWord t m)) = some (ttWord t m) := by
      apply valLsb_hexLoop
      have := bitsNat_lt ((t.bits.drop (64 * m)).take 64)
      have hl : ((t.bits.drop (64 * m)).take 64).length ≤ 64 := by simp
      refine Nat.lt_of_lt_of_le this ?_
      calc 2 ^ ((t.bits.drop (64 * m)).take 64).length ≤ 2 ^ 64 := Nat.pow_le_pow_right (by decide) hl
        _ = 16 ^ 16 := by decide
    have hlen : ((List.range m).flatMap fun i => hexLoop 16 (ttWord t i)).length = 16 * m := by
      rw [List.length_flatMap]
      simp only [hexLoop_length]
      simp [Nat.mul_comm]
    rw [List.range_succ, List.flatMap_append, List.flatMap_singleton, valLsb_append _ _ _ _ (ih (by omega)) hw, hlen]
    rw [show 64 * (m + 1) = 64 * m + 64 by ring, List.take_add, bitsNat_append]
    congr 2
    have : (t.bits.take (64 * m)).length = 64 * m := by
      rw [List.length_take]; omega
    rw [this, ttWord, show (16 : Nat) = 2 ^ 4 by decide, ← pow_mul]
    congr 2
    ring

theorem reverse_toHex (t : TT) : (toHex t).reverse = (List.range (ttBlocks t)).flatMap fun i => hexLoop (chunkSize t) (ttWord t i) := by
  unfold toHex
  rw [List.reverse_flatMap, List.reverse_reverse]
  congr 1
  funext i
  simp

/-- reading the text gives the number whose bits are those of the table -/
theorem readHex_toHex (t : TT) (h : t.WF) : readHex (toHex t) = some (bitsNat t.bits) := by
  unfold readHex
  rw [reverse_toHex]
  unfold TT.WF at h
  by_cases h6 : t.n < 6
  · have hb : ttBlocks t = 1 := by unfold ttBlocks; rw [if_pos (by omega)]
    have hl : t.bits.length ≤ 64 := by
      rw [h]
      calc 2 ^ t.n ≤ 2 ^ 6 := Nat.pow_le_pow_right (by decide) (by omega)
        _ = 64 := by decide
    have hw : ttWord t 0 = bitsNat t.bits := by
      unfold ttWord
      rw [Nat.mul_zero, List.drop_zero, List.take_of_length_le hl]
    rw [hb]
    simp only [List.range_one, List.flatMap_cons, List.flatMap_nil, List.append_nil]
    rw [hw]
    apply valLsb_hexLoop
    refine Nat.lt_of_lt_of_le (bitsNat_lt _) ?_
    rw [h]
    unfold chunkSize
    generalize t.n = n at h6
    interval_cases n <;> decide
  · have hc : chunkSize t = 16 := by
      unfold chunkSize
      rw [if_neg (by omega)]
      have : 2 ^ 6 ≤ 2 ^ t.n := Nat.pow_le_pow_right (by decide) (by omega)
      omega
    have hb : 64 * ttBlocks t = t.bits.length := by
      rw [h]
      unfold ttBlocks
      split
      · rw [show t.n = 6 by omega]
        rfl
      · rw [show (64 : Nat) = 2 ^ 6 by decide, ← pow_add]
        congr 1
        omega
    rw [hc, valLsb_blocks t (ttBlocks t) (by omega), hb, List.take_length]

end Verif.Io
