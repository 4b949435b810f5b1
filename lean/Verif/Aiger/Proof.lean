import Verif.Aiger.Basic
import Verif.Props.C27
import Verif.Aig.CleanupProof
import Mathlib.Data.Nat.Digits.Lemmas

set_option autoImplicit false

/-!
# AIGER files: helper lemmas
-/

namespace Verif.Aiger

open Aig

/-! ### an independent description of a combinational AIGER file -/

/-- The contents of a combinational binary AIGER file: number of inputs, output literals, and for every
gate its two right-hand side literals; the `k`-th gate defines the variable `nI + 1 + k`. -/
structure File where
  nI : Nat
  outs : List Nat
  ands : List (Nat × Nat)
deriving DecidableEq

/-- The rules of the format: right-hand sides are ordered and refer to earlier variables, outputs refer to
existing variables; all numbers fit into 32 bits. -/
structure File.Ok (F : File) : Prop where
  ands : ∀ (k l r : Nat), F.ands[k]? = some (l, r) → r ≤ l ∧ l < 2 * (F.nI + 1 + k)
  outs : ∀ o ∈ F.outs, o < 2 * (F.nI + 1 + F.ands.length)
  vars : 2 * (F.nI + 1 + F.ands.length) ≤ 2 ^ 32
  nOuts : F.outs.length < 2 ^ 32

/-- value of a literal when the variables have the values `w` -/
def litVal (w : Nat → Bool) (l : Nat) : Bool := Bool.xor (l % 2 == 1) (w (l / 2))

/-- `w` gives the variables of the file the values they have for the inputs `x`. -/
structure File.Models (F : File) (x w : Nat → Bool) : Prop where
  const : w 0 = false
  input : ∀ k, k < F.nI → w (k + 1) = x k
  gate : ∀ (k l r : Nat), F.ands[k]? = some (l, r) → w (F.nI + 1 + k) = (litVal w l && litVal w r)

/-- concatenated delta encodings -/
def deltas : Nat → List (Nat × Nat) → Option (List Byte)
  | _, [] => some []
  | i, (l, r) :: rest =>
    match encode (BitVec.ofNat 32 (2 * i - l)), encode (BitVec.ofNat 32 (l - r)), deltas (i + 1) rest with
    | some b1, some b2, some bs => some (b1 ++ b2 ++ bs)
    | _, _, _ => none

/-- The bytes of the file up to the symbol table. -/
def File.bytes (F : File) (g : List Byte) : List Byte :=
  header (F.nI + F.ands.length) F.nI F.outs.length F.ands.length ++ F.outs.flatMap (fun o => decimal o ++ [10#8]) ++ g

/-! ### numbers as text -/

theorem digit_bv (d : Nat) (h : d < 10) : isDigit (BitVec.ofNat 8 (48 + d)) = true ∧
    (BitVec.ofNat 8 (48 + d)).toNat - 48 = d ∧ BitVec.ofNat 8 (48 + d) ≠ 10#8 ∧ BitVec.ofNat 8 (48 + d) ≠ 13#8 ∧
    BitVec.ofNat 8 (48 + d) ≠ 32#8 ∧ isSpace (BitVec.ofNat 8 (48 + d)) = false ∧
    BitVec.ofNat 8 (48 + d) ≠ 45#8 ∧ BitVec.ofNat 8 (48 + d) ≠ 43#8 := by
  interval_cases d <;> decide

/-- text consisting of digits only -/
def Digits (l : List Byte) : Prop := ∀ c ∈ l, ∃ d, d < 10 ∧ c = BitVec.ofNat 8 (48 + d)

theorem decimal_digits (n : Nat) : Digits (decimal n) := by
  intro c hc
  unfold decimal at hc
  split at hc
  · simp at hc; subst hc; exact ⟨0, by omega, rfl⟩
  · simp only [List.mem_map, List.mem_reverse] at hc
    obtain ⟨d, hd, rfl⟩ := hc
    exact ⟨d, Nat.digits_lt_base (by omega) hd, rfl⟩

theorem decimal_ne (n : Nat) : decimal n ≠ [] := by
  unfold decimal
  split
  · simp
  · rename_i h
    simp only [ne_eq, List.map_eq_nil_iff, List.reverse_eq_nil_iff]
    rwa [Nat.digits_eq_nil_iff_eq_zero]

theorem digitsVal_map (l : List Nat) (h : ∀ d ∈ l, d < 10) (a : Nat) :
    (l.map fun d => BitVec.ofNat 8 (48 + d)).foldl (fun a c => 10 * a + (c.toNat - 48)) a
      = l.foldl (fun a d => 10 * a + d) a := by
  induction l generalizing a with
  | nil => rfl
  | cons d l ih =>
    simp only [List.map_cons, List.foldl_cons]
    rw [(digit_bv d (h d (by simp))).2.1]
    exact ih (fun e he => h e (by simp [he])) _

theorem foldl_digits (l : List Nat) : l.reverse.foldl (fun a d => 10 * a + d) 0 = Nat.ofDigits 10 l := by
  induction l with
  | nil => rfl
  | cons d l ih =>
    rw [List.reverse_cons, List.foldl_append, ih, Nat.ofDigits_cons]
    simp only [List.foldl_cons, List.foldl_nil]
    omega

theorem digitsVal_decimal (n : Nat) : digitsVal (decimal n) = n := by
  unfold digitsVal decimal
  split
  · rename_i h; subst h; rfl
  · rw [digitsVal_map _ (fun d hd => Nat.digits_lt_base (by omega) (List.mem_reverse.1 hd)), foldl_digits,
      Nat.ofDigits_digits]

theorem takeWhile_digits (l r : List Byte) (h : Digits l) (hr : ∀ c, r.head? = some c → isDigit c = false) :
    (l ++ r).takeWhile isDigit = l ∧ (l ++ r).dropWhile isDigit = r := by
  induction l with
  | nil =>
    cases r with
    | nil => simp
    | cons c r => simp [hr c rfl]
  | cons c l ih =>
    obtain ⟨d, hd, rfl⟩ := h c (by simp)
    obtain ⟨h1, h2⟩ := ih (fun e he => h e (by simp [he]))
    simp [(digit_bv d hd).1, h1, h2]

theorem atol_digits (l : List Byte) (h : Digits l) : atol l = min (digitsVal l : Int) (2 ^ 63 - 1) := by
  obtain ⟨h1, -⟩ := takeWhile_digits l [] h (by simp)
  rw [List.append_nil] at h1
  unfold atol
  cases l with
  | nil => rfl
  | cons c l =>
    obtain ⟨d, hd, rfl⟩ := h c (by simp)
    obtain ⟨_, _, _, _, _, a6, a7, a8⟩ := digit_bv d hd
    have e : (BitVec.ofNat 8 (48 + d) :: l).dropWhile isSpace = BitVec.ofNat 8 (48 + d) :: l := by
      simp [a6]
    have e2 : (BitVec.ofNat 8 (48 + d) == 45#8) = false := by simpa using a7
    simp only [e, e2, Bool.false_eq_true, if_false]
    rw [if_neg (by simp only [not_or]; exact ⟨a7, a8⟩), h1]

theorem atol_decimal (n : Nat) (h : n < 2 ^ 32) : toUnsigned (atol (decimal n)) = BitVec.ofNat 32 n := by
  rw [atol_digits _ (decimal_digits n), digitsVal_decimal]
  have : min (n : Int) (2 ^ 63 - 1) = n := by omega
  rw [this, toUnsigned]
  simp

/-! ### lines -/

theorem getline_append (l r : List Byte) (h : ∀ c ∈ l, c ≠ 10#8 ∧ c ≠ 13#8) : getline (l ++ 10#8 :: r) = (l, r) := by
  induction l with
  | nil => simp [getline]
  | cons c l ih =>
    have := h c (by simp)
    rw [List.cons_append, getline, if_neg this.1, if_neg this.2, ih fun d hd => h d (by simp [hd])]

theorem Digits.noBreak {l : List Byte} (h : Digits l) : ∀ c ∈ l, c ≠ 10#8 ∧ c ≠ 13#8 := by
  intro c hc
  obtain ⟨d, hd, rfl⟩ := h c hc
  exact ⟨(digit_bv d hd).2.2.1, (digit_bv d hd).2.2.2.1⟩

theorem pieces_single (p : List Byte) (h : ∀ c ∈ p, c ≠ 32#8) : pieces p = [p] := by
  induction p with
  | nil => rfl
  | cons c p ih =>
    rw [pieces, if_neg (h c (by simp)), ih fun d hd => h d (by simp [hd])]

theorem pieces_cons (p r : List Byte) (h : ∀ c ∈ p, c ≠ 32#8) : pieces (p ++ 32#8 :: r) = p :: pieces r := by
  induction p with
  | nil => simp [pieces]
  | cons c p ih =>
    rw [List.cons_append, pieces, if_neg (h c (by simp)), ih fun d hd => h d (by simp [hd])]

theorem Digits.noSpace {l : List Byte} (h : Digits l) : ∀ c ∈ l, c ≠ 32#8 := by
  intro c hc
  obtain ⟨d, hd, rfl⟩ := h c hc
  exact (digit_bv d hd).2.2.2.2.1

theorem Digits.all {l : List Byte} (h : Digits l) : l.all isDigit = true := by
  rw [List.all_eq_true]
  intro c hc
  obtain ⟨d, hd, rfl⟩ := h c hc
  exact (digit_bv d hd).1

/-- header line without the line break -/
def headerLine (m i o a : Nat) : List Byte :=
  [97#8, 105#8, 103#8] ++ 32#8 :: (decimal m ++ 32#8 :: (decimal i ++ 32#8 :: (decimal 0 ++ 32#8 ::
    (decimal o ++ 32#8 :: decimal a))))

theorem header_eq (m i o a : Nat) (hm : m < 2 ^ 32) (hi : i < 2 ^ 32) (ho : o < 2 ^ 32) (ha : a < 2 ^ 32) :
    header m i o a = headerLine m i o a ++ [10#8] := by
  simp only [header, headerLine, u32, Nat.mod_eq_of_lt hm, Nat.mod_eq_of_lt hi, Nat.mod_eq_of_lt ho, Nat.mod_eq_of_lt ha]
  simp

theorem parseHeader_headerLine (m i o a : Nat) (hm : m < 2 ^ 32) (hi : i < 2 ^ 32) (ho : o < 2 ^ 32) (ha : a < 2 ^ 32) :
    parseHeader (headerLine m i o a) = some [BitVec.ofNat 32 m, BitVec.ofNat 32 i, 0#32, BitVec.ofNat 32 o, BitVec.ofNat 32 a] := by
  have e : pieces (headerLine m i o a) = [[97#8, 105#8, 103#8], decimal m, decimal i, decimal 0, decimal o, decimal a] := by
    unfold headerLine
    rw [pieces_cons _ _ (by decide), pieces_cons _ _ (decimal_digits m).noSpace, pieces_cons _ _ (decimal_digits i).noSpace,
      pieces_cons _ _ (decimal_digits 0).noSpace, pieces_cons _ _ (decimal_digits o).noSpace,
      pieces_single _ (decimal_digits a).noSpace]
  unfold parseHeader
  rw [e]
  have hne : ∀ n, (decimal n).isEmpty = false := fun n => by
    cases h : decimal n with
    | nil => exact absurd h (decimal_ne n)
    | cons => rfl
  simp only [List.length_cons, List.length_nil, List.all_cons, List.all_nil, hne, (decimal_digits _).all]
  rw [if_pos (by simp)]
  simp only [List.map_cons, List.map_nil, atol_decimal _ hm, atol_decimal _ hi, atol_decimal _ ho, atol_decimal _ ha,
    atol_decimal 0 (by norm_num)]

theorem headerLine_noBreak (m i o a : Nat) : ∀ c ∈ headerLine m i o a, c ≠ 10#8 ∧ c ≠ 13#8 := by
  intro c hc
  simp only [headerLine, List.mem_append, List.mem_cons, List.not_mem_nil, or_false] at hc
  have hd := fun n => (decimal_digits n).noBreak c
  rcases hc with (rfl | rfl | rfl) | rfl | hc
  iterate 4 exact by decide
  rcases hc with hc | rfl | hc
  · exact hd _ hc
  · decide
  rcases hc with hc | rfl | hc
  · exact hd _ hc
  · decide
  rcases hc with hc | rfl | hc
  · exact hd _ hc
  · decide
  rcases hc with hc | rfl | hc
  · exact hd _ hc
  · decide
  · exact hd _ hc

theorem getline_header (m i o a : Nat) (hm : m < 2 ^ 32) (hi : i < 2 ^ 32) (ho : o < 2 ^ 32) (ha : a < 2 ^ 32) (r : List Byte) :
    getline (header m i o a ++ r) = (headerLine m i o a, r) := by
  rw [header_eq m i o a hm hi ho ha, List.append_assoc]
  exact getline_append _ _ (headerLine_noBreak m i o a)

theorem readOutputs_spec : ∀ (os : List Nat) (r : List Byte) (s : RSt), (∀ o ∈ os, o < 2 ^ 32) →
    readOutputs os.length (os.flatMap (fun o => decimal o ++ [10#8]) ++ r) s
      = (r, { s with outputs := s.outputs ++ os.map (BitVec.ofNat 32) }) := by
  intro os
  induction os with
  | nil => intro r s _; simp [readOutputs]
  | cons o os ih =>
    intro r s h
    have e : (o :: os).flatMap (fun o => decimal o ++ [10#8]) ++ r
        = decimal o ++ 10#8 :: (os.flatMap (fun o => decimal o ++ [10#8]) ++ r) := by simp
    rw [e, List.length_cons, readOutputs, getline_append _ _ (decimal_digits o).noBreak]
    rw [atol_decimal o (h o (by simp)), ih r _ fun p hp => h p (by simp [hp])]
    simp

/-! ### callbacks -/

theorem mkPis_eq : ∀ (k : Nat) (s : RSt), mkPis k s =
    { s with net := (cloneInputs k s.net).1, signals := s.signals ++ (cloneInputs k s.net).2 } := by
  intro k
  induction k with
  | zero => intro s; simp [mkPis, cloneInputs]
  | succ k ih => intro s; rw [mkPis, ih]; simp [cloneInputs]

theorem lit_bits (l : Nat) (h : l < 2 ^ 32) : ((BitVec.ofNat 32 l) >>> 1).toNat = l / 2 ∧
    (BitVec.ofNat 32 l &&& 1#32 = 1#32 ↔ l % 2 = 1) := by
  constructor
  · rw [BitVec.toNat_ushiftRight, BitVec.toNat_ofNat, Nat.mod_eq_of_lt h, Nat.shiftRight_eq_div_pow]
  · constructor
    · intro e
      have := congrArg BitVec.toNat e
      simp only [BitVec.toNat_and, BitVec.toNat_ofNat, Nat.mod_eq_of_lt h] at this
      simpa [Nat.and_one_is_mod] using this
    · intro e
      apply BitVec.eq_of_toNat_eq
      simp only [BitVec.toNat_and, BitVec.toNat_ofNat, Nat.mod_eq_of_lt h]
      simpa [Nat.and_one_is_mod] using e

/-- State of the reader after the first `k` gates. -/
structure Reading (F : File) (k : Nat) (s : RSt) : Prop where
  built : Built s.net
  numPis : s.net.numPis = F.nI
  inputs : s.net.inputs.length = F.nI
  outs : s.net.outputs = []
  numPos : s.net.numPos = 0
  outputs : s.outputs = F.outs.map (BitVec.ofNat 32)
  latches : s.latches = []
  len : s.signals.length = F.nI + 1 + k
  valid : ∀ g ∈ s.signals, s.net.Valid g
  val : ∀ x v w, s.net.Consistent x v → F.Models x w → ∀ (j : Nat) (g : Sig), s.signals[j]? = some g → g.val v = w j

theorem litSig_spec {F : File} {k : Nat} {s : RSt} (h : Reading F k s) {l : Nat} (hl : l < 2 * (F.nI + 1 + k))
    (h32 : l < 2 ^ 32) : ∃ g, litSig s (BitVec.ofNat 32 l) = some g ∧ s.net.Valid g ∧
      ∀ x v w, s.net.Consistent x v → F.Models x w → g.val v = litVal w l := by
  obtain ⟨e1, e2⟩ := lit_bits l h32
  obtain ⟨g, hg⟩ : ∃ g, s.signals[l / 2]? = some g :=
    ⟨_, List.getElem?_eq_getElem (by rw [h.len]; omega)⟩
  unfold litSig
  rw [e1, hg]
  refine ⟨_, rfl, ?_, ?_⟩
  · have := h.valid g (List.mem_of_getElem? hg)
    split
    · simpa [Valid] using this
    · exact this
  · intro x v w hv hw
    have := h.val x v w hv hw _ g hg
    show Sig.val v (if BitVec.ofNat 32 l &&& 1#32 = 1#32 then g.not else g) = _
    by_cases ho : l % 2 = 1
    · rw [if_pos (e2.2 ho)]
      simp [this, litVal, ho]
    · rw [if_neg fun e => ho (e2.1 e)]
      have ho : l % 2 = 0 := by omega
      simp [this, litVal, ho]

theorem readAnds_spec {F : File} (hF : F.Ok) : ∀ (rest : List (Nat × Nat)) (k : Nat) (s : RSt) (tail : List Byte),
    F.ands.drop k = rest → k + rest.length = F.ands.length → Reading F k s →
    ∃ g s', deltas (F.nI + 1 + k) rest = some g ∧
      readAnds rest.length (BitVec.ofNat 32 (F.nI + 1 + k)) (g ++ tail) s = .ok (tail, s') ∧ Reading F F.ands.length s' := by
  intro rest
  induction rest with
  | nil =>
    intro k s tail hd hk h
    have : F.ands.length = k := by simpa using hk.symm
    exact ⟨[], s, rfl, rfl, this ▸ h⟩
  | cons p rest ih =>
    intro k s tail hd hk h
    obtain ⟨l, r⟩ := p
    rw [List.length_cons] at hk
    have hget : F.ands[k]? = some (l, r) := by
      have := List.getElem?_drop (xs := F.ands) (i := k) (j := 0)
      rw [hd] at this
      simpa using this.symm
    obtain ⟨hrl, hl⟩ := hF.ands k l r hget
    have hv := hF.vars
    obtain ⟨b1, a1, _, _, a2⟩ := C27_roundtrip (BitVec.ofNat 32 (2 * (F.nI + 1 + k) - l))
    obtain ⟨b2, c1, _, _, c2⟩ := C27_roundtrip (BitVec.ofNat 32 (l - r))
    have hg : BitVec.ofNat 32 (F.nI + 1 + k) <<< 1 = BitVec.ofNat 32 (2 * (F.nI + 1 + k)) := by
      apply BitVec.eq_of_toNat_eq
      simp only [BitVec.toNat_shiftLeft, BitVec.toNat_ofNat, Nat.shiftLeft_eq]
      omega
    have hsub : ∀ p q : Nat, q ≤ p → p < 2 ^ 32 → BitVec.ofNat 32 p - BitVec.ofNat 32 (p - q) = BitVec.ofNat 32 q := by
      intro p q hq hp
      apply BitVec.eq_of_toNat_eq
      simp only [BitVec.toNat_sub, BitVec.toNat_ofNat]
      omega
    obtain ⟨gl, d1, d2, d3⟩ := litSig_spec h hl (by omega)
    obtain ⟨gr, e1, e2, e3⟩ := litSig_spec h (l := r) (by omega) (by omega)
    have hS := createAnd_spec h.built.wf d2 e2
    have hbu : Built (s.net.createAnd gl gr).1 := .and h.built d2 e2
    have hR : Reading F (k + 1) { s with net := (s.net.createAnd gl gr).1, signals := s.signals ++ [(s.net.createAnd gl gr).2] } := by
      refine ⟨hbu, hS.numPis.trans h.numPis, by rw [hS.inputs]; exact h.inputs, hS.outputs.trans h.outs,
        hS.numPos.trans h.numPos, h.outputs, h.latches, by simp [h.len]; omega, ?_, ?_⟩
      · intro g hg
        rcases List.mem_append.1 hg with hg | hg
        · exact hS.ext.valid (h.valid g hg)
        · simp only [List.mem_singleton] at hg
          subst hg; exact hS.valid
      · intro x v w hv hw j g hj
        have hv' : s.net.Consistent x v := hS.ext.consistent hv
        by_cases hjl : j < s.signals.length
        · rw [List.getElem?_append_left hjl] at hj
          exact h.val x v w hv' hw j g hj
        · rw [List.getElem?_append_right (by omega)] at hj
          have hj0 : j - s.signals.length = 0 := by
            have := lt_of_getElem? hj; simpa using this
          rw [hj0] at hj
          simp only [List.getElem?_cons_zero, Option.some.injEq] at hj
          subst hj
          rw [hS.val v hv.models, d3 x v w hv' hw, e3 x v w hv' hw]
          have : j = F.nI + 1 + k := by have := h.len; omega
          rw [this, hw.gate k l r hget]
    obtain ⟨g, s', i1, i2, i3⟩ := ih (k + 1) _ tail (by rw [← List.drop_drop, hd]; rfl) (by omega) hR
    refine ⟨b1 ++ b2 ++ g, s', ?_, ?_, i3⟩
    · rw [deltas, a1, c1]
      rw [show F.nI + 1 + k + 1 = F.nI + 1 + (k + 1) by omega, i1]
    · rw [List.length_cons, readAnds, List.append_assoc, List.append_assoc, a2]
      simp only [Res.bind]
      rw [c2]
      simp only []
      rw [hg, hsub _ _ (by omega) (by omega), hsub _ _ hrl (by omega), onAnd, d1, e1]
      simp only []
      have : BitVec.ofNat 32 (F.nI + 1 + k) + 1 = BitVec.ofNat 32 (F.nI + 1 + (k + 1)) := by
        apply BitVec.eq_of_toNat_eq
        simp [BitVec.toNat_add]
        omega
      rw [this]
      exact i2

theorem reading_start (F : File) :
    Reading F 0 { mkPis F.nI ⟨Aig.empty, [Sig.const false], [], []⟩ with outputs := F.outs.map (BitVec.ofNat 32) } := by
  rw [mkPis_eq]
  obtain ⟨h1, h2, h3, h4, h5, h6, ht, h7, h8, h9, h10⟩ := cloneInputs_spec F.nI Aig.empty .empty rfl
  have i0 : Aig.empty.inputs.length = 0 := rfl
  rw [i0] at h4 h10
  refine ⟨h1, by rw [h3]; simp [Aig.empty], by rw [h4]; simp, h5, h6, rfl, rfl, ?_, ?_, ?_⟩
  · simp only [List.length_append, List.length_singleton, h2]; omega
  · intro g hg
    rcases List.mem_append.1 hg with hg | hg
    · simp only [List.mem_singleton] at hg
      subst hg
      exact h1.wf.pos
    · exact (h9 g hg).1
  · intro x v w hv hw j g hj
    dsimp only at hj
    cases j with
    | zero =>
      simp only [List.cons_append, List.nil_append, List.getElem?_cons_zero, Option.some.injEq] at hj
      subst hj
      rw [hw.const]
      simp [Sig.const, Sig.val, hv.models.const]
    | succ j =>
      simp only [List.cons_append, List.nil_append, List.getElem?_cons_succ] at hj
      have hjl := lt_of_getElem? hj
      rw [h2] at hjl
      have := h10 j g hj
      rw [Nat.zero_add] at this
      rw [hw.input j hjl, ← hv.input j g.index this]
      simp [Sig.val, (h9 g (List.mem_of_getElem? hj)).2]

theorem mkOutputs_spec {F : File} (hF : F.Ok) {s : RSt} (h : Reading F F.ands.length s) :
    ∀ (os : List Nat) (N : Aig), (∀ o ∈ os, o ∈ F.outs) →
    ∃ l : List Sig, l.length = os.length ∧ mkOutputs s (os.map (BitVec.ofNat 32)) N = .ok (cloneOutputs N l) ∧
      (∀ g ∈ l, s.net.Valid g) ∧
      ∀ x v w, s.net.Consistent x v → F.Models x w → l.map (·.val v) = os.map (litVal w) := by
  intro os
  induction os with
  | nil => intro N _; exact ⟨[], rfl, rfl, by simp, by simp⟩
  | cons o os ih =>
    intro N ho
    have h1 := hF.outs o (ho o (by simp))
    have h2 := hF.vars
    obtain ⟨g, e1, e2, e3⟩ := litSig_spec h h1 (by omega)
    obtain ⟨l, c1, c2, c3, c4⟩ := ih (N.createPo g) fun p hp => ho p (by simp [hp])
    refine ⟨g :: l, by simp [c1], ?_, ?_, ?_⟩
    · rw [List.map_cons, mkOutputs, e1]
      exact c2
    · intro q hq
      rcases List.mem_cons.1 hq with rfl | hq
      · exact e2
      · exact c3 q hq
    · intro x v w hv hw
      rw [List.map_cons, List.map_cons, e3 x v w hv hw, c4 x v w hv hw]

/-- What may follow the gates: symbol table entries for existing inputs and outputs, then nothing or a
comment section. -/
inductive Tail (nI nO : Nat) : List Byte → Prop
  | nil : Tail nI nO []
  | comment0 : Tail nI nO [99#8]
  | comment (text : List Byte) : Tail nI nO (99#8 :: 10#8 :: text)
  | inputName (i : Nat) (name rest : List Byte) : i < nI → (∀ c ∈ name, c ≠ 10#8 ∧ c ≠ 13#8) → Tail nI nO rest →
      Tail nI nO (105#8 :: (decimal i ++ 32#8 :: name) ++ 10#8 :: rest)
  | outputName (i : Nat) (name rest : List Byte) : i < nO → (∀ c ∈ name, c ≠ 10#8 ∧ c ≠ 13#8) → Tail nI nO rest →
      Tail nI nO (111#8 :: (decimal i ++ 32#8 :: name) ++ 10#8 :: rest)

theorem parseSymbol_entry (k : Byte) (i : Nat) (name : List Byte) (hi : i < 2 ^ 32) :
    parseSymbol (k :: (decimal i ++ 32#8 :: name)) = some (k, BitVec.ofNat 32 i) := by
  obtain ⟨h1, h2⟩ := takeWhile_digits (decimal i) (32#8 :: name) (decimal_digits i) (by
    intro c hc; simp at hc; subst hc; decide)
  unfold parseSymbol
  simp only [h1, h2]
  rw [if_pos (by simp [decimal_ne]), atol_decimal i hi]

theorem entry_noBreak (k : Byte) (hk : k ≠ 10#8 ∧ k ≠ 13#8) (i : Nat) (name : List Byte)
    (hn : ∀ c ∈ name, c ≠ 10#8 ∧ c ≠ 13#8) : ∀ c ∈ (k :: (decimal i ++ 32#8 :: name)), c ≠ 10#8 ∧ c ≠ 13#8 := by
  intro c hc
  rcases List.mem_cons.1 hc with rfl | hc
  · exact hk
  rcases List.mem_append.1 hc with hc | hc
  · exact (decimal_digits i).noBreak c hc
  rcases List.mem_cons.1 hc with rfl | hc
  · decide
  · exact hn c hc

theorem readSymbols_tail (nI : BitVec 32) (s : RSt) (kI kO : Nat) (hI : kI + 1 ≤ s.signals.length) (hI32 : kI < 2 ^ 32)
    (hO : kO = s.outputs.length) (hO32 : kO < 2 ^ 32) (t : List Byte) (h : Tail kI kO t) :
    ∀ f, t.length ≤ f → readSymbols nI s f t = .ok () := by
  induction h with
  | nil => intro f _; cases f <;> rfl
  | comment0 =>
    intro f hf
    cases f with
    | zero => simp at hf
    | succ f => simp [readSymbols, getline, parseSymbol]
  | comment text =>
    intro f hf
    cases f with
    | zero => simp at hf
    | succ f => simp [readSymbols, getline, parseSymbol]
  | inputName i name rest hi hn _ ih =>
    intro f hf
    cases f with
    | zero => simp at hf
    | succ f =>
      have e := getline_append _ rest (entry_noBreak 105#8 (by decide) i name hn)
      rw [List.cons_append] at e ⊢
      rw [readSymbols, e]
      simp only [parseSymbol_entry 105#8 i name (by omega)]
      have : nameOk nI s 105#8 (BitVec.ofNat 32 i) = true := by
        simp only [nameOk, if_true, decide_eq_true_eq, BitVec.toNat_add, BitVec.toNat_ofNat]
        omega
      rw [if_pos this]
      apply ih
      simp at hf; omega
  | outputName i name rest hi hn _ ih =>
    intro f hf
    cases f with
    | zero => simp at hf
    | succ f =>
      have e := getline_append _ rest (entry_noBreak 111#8 (by decide) i name hn)
      rw [List.cons_append] at e ⊢
      rw [readSymbols, e]
      simp only [parseSymbol_entry 111#8 i name (by omega)]
      have : nameOk nI s 111#8 (BitVec.ofNat 32 i) = true := by
        simp only [nameOk]
        rw [if_neg (by decide), if_neg (by decide), if_pos trivial, decide_eq_true_eq, BitVec.toNat_ofNat]
        omega
      rw [if_pos this]
      apply ih
      simp at hf; omega

/-- Reading a file that follows the rules. -/
theorem read_file (F : File) (hF : F.Ok) : ∃ g, deltas (F.nI + 1) F.ands = some g ∧
    ∀ t, Tail F.nI F.outs.length t → ∃ N, read (F.bytes g ++ t) = .ok N ∧ Built N ∧ N.numPis = F.nI ∧
      N.inputs.length = F.nI ∧ N.numPos = F.outs.length ∧ N.outputs.length = F.outs.length ∧
      ∀ x v w, N.Consistent x v → F.Models x w → N.outputs.map (·.val v) = F.outs.map (litVal w) := by
  have hv := hF.vars
  have hstart := reading_start F
  obtain ⟨g, _, e1, _, _⟩ := readAnds_spec hF F.ands 0 _ [] (by simp) (by simp) hstart
  refine ⟨g, e1, fun t ht => ?_⟩
  obtain ⟨g', s, e1', e2, e3⟩ := readAnds_spec hF F.ands 0 _ t (by simp) (by simp) hstart
  have : g' = g := by rw [e1] at e1'; exact (Option.some.inj e1').symm
  subst this
  obtain ⟨l, c1, c2, c3, c4⟩ := mkOutputs_spec hF e3 F.outs s.net (fun _ h => h)
  obtain ⟨h1, h2, h3, h4, h5, h6, h7, h8⟩ := cloneOutputs_spec l s.net e3.built c3
  refine ⟨cloneOutputs s.net l, ?_, h1, by rw [h5, e3.numPis], by rw [h4, e3.inputs], by rw [h3, e3.numPos, c1]; simp,
    by rw [h2, e3.outs]; simp [c1], ?_⟩
  · have hm : F.nI + F.ands.length < 2 ^ 32 := by omega
    unfold read
    rw [File.bytes, List.append_assoc, List.append_assoc,
      getline_header _ _ _ _ hm (by omega) hF.nOuts (by omega)]
    simp only [parseHeader_headerLine _ _ _ _ hm (show F.nI < 2 ^ 32 by omega) hF.nOuts (show F.ands.length < 2 ^ 32 by omega)]
    simp only [List.getElem?_nil]
    rw [readBody]
    have t1 : (BitVec.ofNat 32 F.nI).toNat = F.nI := by simp; omega
    have t2 : (BitVec.ofNat 32 F.outs.length).toNat = F.outs.length := by simp; exact hF.nOuts
    have t0 : (0#32).toNat = 0 := rfl
    simp only [t1, t2, t0, readLatches, onHeader, mkRos, skipLines, readJustice, skipJustice, Res.bind]
    rw [readOutputs_spec F.outs (g' ++ t) _ (fun o ho => by have := hF.outs o ho; omega)]
    have hst : BitVec.ofNat 32 F.nI + 0#32 + 1 = BitVec.ofNat 32 (F.nI + 1 + 0) := by
      apply BitVec.eq_of_toNat_eq; simp
    have hcnt : (BitVec.ofNat 32 F.nI + 0#32 + BitVec.ofNat 32 F.ands.length + 1).toNat
        - (BitVec.ofNat 32 (F.nI + 1 + 0)).toNat = F.ands.length := by
      simp [BitVec.toNat_add]; omega
    rw [hst, hcnt]
    have hs0 : (mkPis F.nI ⟨Aig.empty, [Sig.const false], [], []⟩).outputs = [] := by rw [mkPis_eq]
    simp only [hs0, List.nil_append]
    rw [e2]
    simp only []
    rw [readSymbols_tail (BitVec.ofNat 32 F.nI) s F.nI F.outs.length (by rw [e3.len]; omega) (by omega)
      (by rw [e3.outputs]; simp) hF.nOuts t ht _ le_rfl]
    simp only []
    rw [e3.outputs, c2]
    simp only []
    rw [e3.latches, mkRis]
  · intro x v w hcon hw
    rw [h2, e3.outs, List.nil_append]
    exact c4 x v w (h7.consistent hcon) hw

end Verif.Aiger
