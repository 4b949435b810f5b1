import Verif.Aiger.Proof

set_option autoImplicit false

/-!
# C29: AIGER reading terminates on every byte string

The full claim is false for this reader: it can loop for ever and it can leave its vectors
(`C29_violated_*`).  What holds: a file whose first line is no header is rejected; files that follow the
format, with any symbol table for existing ports and any comment, are accepted
(`C29_accepts_partial`); and the only way for the plain (five number) format not to terminate is that the
bytes end before the last gate (`C29_terminates_partial`).
-/

namespace Verif.Aiger

open Aig

/-- Files following the format are read successfully, and the network has the denoted functions. -/
theorem C29_accepts_partial (F : File) (hF : F.Ok) (t : List Byte) (ht : Tail F.nI F.outs.length t) :
    ∃ g N, deltas (F.nI + 1) F.ands = some g ∧ read (F.bytes g ++ t) = .ok N ∧ Built N ∧ N.numPis = F.nI ∧
      N.inputs.length = F.nI ∧ N.numPos = F.outs.length ∧ N.outputs.length = F.outs.length ∧
      ∀ x v w, N.Consistent x v → F.Models x w → N.outputs.map (·.val v) = F.outs.map (litVal w) := by
  obtain ⟨g, h1, h2⟩ := read_file F hF
  obtain ⟨N, h⟩ := h2 t ht
  exact ⟨g, N, h1, h⟩

/-- A file with two inputs, three gates (one trivial), a symbol table and a comment. -/
example : (File.mk 2 [7, 10, 1] [(4, 3), (6, 6), (9, 2)]).Ok ∧
    Tail 2 3 ([105, 48, 32, 97, 10, 111, 50, 32, 120, 32, 121, 10, 99, 10, 255, 0].map (BitVec.ofNat 8)) := by
  constructor
  · refine ⟨?_, by decide, by decide, by decide⟩
    intro k l r h
    rcases k with _ | _ | _ | k <;> simp at h <;> obtain ⟨rfl, rfl⟩ := h <;> decide
  · have h2 : Tail 2 3 ([99, 10, 255, 0].map (BitVec.ofNat 8)) := .comment [255#8, 0#8]
    have h1 := Tail.outputName (nI := 2) (nO := 3) 2 [120#8, 32#8, 121#8] _ (by decide) (by decide) h2
    have h0 := Tail.inputName (nI := 2) (nO := 3) 0 [97#8] _ (by decide) (by decide) h1
    exact h0

/-- The header as the format describes it: the word `aig` and five to nine numbers, separated by single
spaces. -/
def IsHeader (line : List Byte) : Prop :=
  ∃ ws : List (List Byte), 5 ≤ ws.length ∧ ws.length ≤ 9 ∧ (∀ w ∈ ws, w ≠ [] ∧ ∀ c ∈ w, isDigit c = true) ∧
    line = [97#8, 105#8, 103#8] ++ ws.flatMap (fun w => 32#8 :: w)

theorem isDigit_ne_space {c : Byte} (h : isDigit c = true) : c ≠ 32#8 := by
  rintro rfl; revert h; decide

theorem pieces_ne (l : List Byte) : pieces l ≠ [] := by
  cases l with
  | nil => simp [pieces]
  | cons c l =>
    rw [pieces]
    split
    · simp
    · split <;> simp

theorem pieces_join : ∀ (l : List Byte), ∃ w ws, pieces l = w :: ws ∧ l = w ++ ws.flatMap (fun w => 32#8 :: w) := by
  intro l
  induction l with
  | nil => exact ⟨[], [], rfl, rfl⟩
  | cons c l ih =>
    obtain ⟨w, ws, h1, h2⟩ := ih
    by_cases hc : c = 32#8
    · refine ⟨[], w :: ws, ?_, ?_⟩
      · rw [pieces, if_pos hc, h1]
      · rw [h2, hc]; simp
    · refine ⟨c :: w, ws, ?_, ?_⟩
      · rw [pieces, if_neg hc, h1]
      · rw [h2]; simp

/-- Input whose first line is not a header is rejected. -/
theorem C29_rejects_partial (line rest : List Byte) (hl : ∀ c ∈ line, c ≠ 10#8 ∧ c ≠ 13#8) (h : ¬ IsHeader line) :
    read (line ++ 10#8 :: rest) = .parseError := by
  unfold read
  rw [getline_append line rest hl]
  have : parseHeader line = none := by
    obtain ⟨w, ws, h1, h2⟩ := pieces_join line
    unfold parseHeader
    rw [h1]
    simp only []
    rw [if_neg]
    rintro ⟨e1, e2, e3, e4⟩
    apply h
    refine ⟨ws, e2, e3, ?_, by rw [h2, e1]⟩
    intro p hp
    have := List.all_eq_true.1 e4 p hp
    simp only [Bool.and_eq_true, Bool.not_eq_true', List.isEmpty_eq_false_iff, List.all_eq_true] at this
    exact this
  simp only [this]

/-- a header with a missing number, and one with a space too many -/
example : ¬ IsHeader ([97, 105, 103, 32, 49, 32, 49, 32, 48, 32, 49].map (BitVec.ofNat 8)) := by
  rintro ⟨ws, h1, h2, h3, h4⟩
  have hp : pieces ([97#8, 105#8, 103#8] ++ ws.flatMap (fun w => 32#8 :: w)) = [97#8, 105#8, 103#8] :: ws := by
    clear h1 h4 h2
    have : ∀ (p : List Byte), (∀ c ∈ p, c ≠ 32#8) → pieces (p ++ ws.flatMap (fun w => 32#8 :: w)) = p :: ws := by
      induction ws with
      | nil => intro p hp; simp [pieces_single p hp]
      | cons w ws ih =>
        intro p hp
        rw [List.flatMap_cons, List.cons_append, pieces_cons p _ hp,
          ih (fun q hq => h3 q (by simp [hq])) w fun c hc => isDigit_ne_space ((h3 w (by simp)).2 c hc)]
    exact this _ (by decide)
  rw [← h4] at hp
  have hlen := congrArg List.length hp
  have : (pieces (List.map (BitVec.ofNat 8) [97, 105, 103, 32, 49, 32, 49, 32, 48, 32, 49])).length = 5 := by decide
  rw [this] at hlen
  simp at hlen
  omega

/-! ### termination -/

/-- number of bytes that end an encoded number -/
def terminators (b : List Byte) : Nat := b.countP fun c => c &&& 0x80#8 == 0#8

theorem readLatches_bytes : ∀ (k : Nat) (b : List Byte) (s : RSt), (readLatches k b s).1 = skipLines k b := by
  intro k
  induction k with
  | zero => intros; rfl
  | succ k ih => intro b s; rw [readLatches, skipLines]; exact ih _ _

theorem readOutputs_bytes : ∀ (k : Nat) (b : List Byte) (s : RSt), (readOutputs k b s).1 = skipLines k b := by
  intro k
  induction k with
  | zero => intros; rfl
  | succ k ih => intro b s; rw [readOutputs, skipLines]; exact ih _ _

theorem decode_hang : ∀ (b : List Byte) (i : Nat) (res : BitVec 32), decode i res b = .hang → terminators b = 0 := by
  intro b
  induction b with
  | nil => intros; rfl
  | cons c r ih =>
    intro i res h
    rw [decode] at h
    split at h
    · cases h
    · split at h
      · cases h
      · rename_i hc
        have := ih _ _ h
        unfold terminators at this ⊢
        rw [List.countP_cons, this]
        simp [hc]

theorem decode_ok : ∀ (b : List Byte) (i : Nat) (res : BitVec 32) (d : BitVec 32 × List Byte),
    decode i res b = .ok d → terminators b = terminators d.2 + 1 := by
  intro b
  induction b with
  | nil => intro i res d h; simp [decode] at h
  | cons c r ih =>
    intro i res d h
    rw [decode] at h
    split at h
    · cases h
    · split at h
      · rename_i hc
        simp only [Res.ok.injEq] at h
        subst h
        unfold terminators
        rw [List.countP_cons]
        simp [hc]
      · rename_i hc
        have := ih _ _ _ h
        unfold terminators at this ⊢
        rw [List.countP_cons, this]
        simp [hc]

theorem onAnd_ne_hang (s : RSt) (l r : BitVec 32) : onAnd s l r ≠ .hang := by
  unfold onAnd
  split <;> simp

theorem readAnds_hang : ∀ (k : Nat) (i : BitVec 32) (b : List Byte) (s : RSt), readAnds k i b s = .hang →
    terminators b < 2 * k := by
  intro k
  induction k with
  | zero => intro i b s h; simp [readAnds] at h
  | succ k ih =>
    intro i b s h
    rw [readAnds] at h
    cases h1 : decode 0 0#32 b with
    | hang => have := decode_hang _ _ _ h1; omega
    | ub => rw [h1] at h; simp [Res.bind] at h
    | parseError => rw [h1] at h; simp [Res.bind] at h
    | ok d1 =>
      rw [h1] at h
      simp only [Res.bind] at h
      have e1 := decode_ok _ _ _ _ h1
      cases h2 : decode 0 0#32 d1.2 with
      | hang => have := decode_hang _ _ _ h2; omega
      | ub => rw [h2] at h; simp at h
      | parseError => rw [h2] at h; simp at h
      | ok d2 =>
        rw [h2] at h
        simp only [] at h
        have e2 := decode_ok _ _ _ _ h2
        cases h3 : onAnd s (i <<< 1 - d1.1) (i <<< 1 - d1.1 - d2.1) with
        | hang => exact absurd h3 (onAnd_ne_hang _ _ _)
        | ub => rw [h3] at h; simp at h
        | parseError => rw [h3] at h; simp at h
        | ok s' =>
          rw [h3] at h
          have := ih _ _ _ h
          omega

theorem getline_shorter : ∀ (b : List Byte), (getline b).2.length ≤ b.length - 1 := by
  intro b
  induction b with
  | nil => simp [getline]
  | cons c r ih =>
    rw [getline]
    split
    · simp
    · split
      · cases r with
        | nil => simp [dropLf]
        | cons d r =>
          simp only [dropLf]
          split <;> simp
      · simp only [List.length_cons]
        omega

theorem readSymbols_ne_hang (nI : BitVec 32) (s : RSt) : ∀ (f : Nat) (b : List Byte), b.length ≤ f →
    readSymbols nI s f b ≠ .hang := by
  intro f
  induction f with
  | zero =>
    intro b hb
    cases b with
    | nil => simp [readSymbols]
    | cons => simp at hb
  | succ f ih =>
    intro b hb
    cases b with
    | nil => simp [readSymbols]
    | cons c r =>
      rw [readSymbols]
      have hs := getline_shorter (c :: r)
      have hlen : (getline (c :: r)).2.length ≤ f := by
        simp only [List.length_cons] at hs hb; omega
      split
      · split
        · exact ih _ hlen
        · simp
      · split
        · simp
        · exact ih _ hlen

theorem mkOutputs_ne_hang (s : RSt) : ∀ (l : List (BitVec 32)) (N : Aig), mkOutputs s l N ≠ .hang := by
  intro l
  induction l with
  | nil => intro N; simp [mkOutputs]
  | cons a l ih =>
    intro N
    rw [mkOutputs]
    split
    · exact ih _
    · simp

theorem mkRis_ne_hang (s : RSt) : ∀ (l : List (BitVec 32 × Int)) (N : Aig), mkRis s l N ≠ .hang := by
  intro l
  induction l with
  | nil => intro N; simp [mkRis]
  | cons a l ih =>
    intro N
    rw [mkRis]
    split
    · exact ih _
    · simp

theorem count_le (c a : BitVec 32) : (c + a + 1).toNat - (c + 1).toNat ≤ a.toNat := by
  have e : c + a + 1 = (c + 1) + a := by
    rw [BitVec.add_assoc, BitVec.add_comm a 1, ← BitVec.add_assoc]
  rw [e, BitVec.toNat_add]
  generalize (c + 1).toNat = u
  generalize a.toNat = w
  have := Nat.mod_le (u + w) (2 ^ 32)
  omega

/-- For a five-number header, whatever bytes follow, the reader terminates if, after the latch and output lines,
there are at least two number-ending bytes for every declared gate. -/
theorem C29_terminates_partial (bs : List Byte) (m i l o a : BitVec 32)
    (hh : parseHeader (getline bs).1 = some [m, i, l, o, a])
    (hb : 2 * a.toNat ≤ terminators (skipLines o.toNat (skipLines l.toNat (getline bs).2))) : read bs ≠ .hang := by
  intro h
  unfold read at h
  simp only [hh, List.getElem?_nil] at h
  rw [readBody] at h
  have t0 : (0#32).toNat = 0 := rfl
  simp only [t0, skipLines, readJustice, skipJustice] at h
  rw [readOutputs_bytes, readLatches_bytes] at h
  generalize readOutputs o.toNat (skipLines l.toNat (getline bs).2)
    (readLatches l.toNat (getline bs).2 (onHeader i.toNat l.toNat)).2 = q at h
  simp only [Res.bind] at h
  have hcount := count_le (i + l) a
  cases hA : readAnds ((i + l + a + 1).toNat - (i + l + 1).toNat) (i + l + 1)
      (skipLines o.toNat (skipLines l.toNat (getline bs).2)) q.2 with
  | hang => have := readAnds_hang _ _ _ _ hA; omega
  | ub => rw [hA] at h; simp at h
  | parseError => rw [hA] at h; simp at h
  | ok q7 =>
    rw [hA] at h
    simp only [] at h
    cases hS : readSymbols i q7.2 q7.1.length q7.1 with
    | hang => exact readSymbols_ne_hang _ _ _ _ le_rfl hS
    | ub => rw [hS] at h; simp at h
    | parseError => rw [hS] at h; simp at h
    | ok u =>
      rw [hS] at h
      simp only [] at h
      cases hO : mkOutputs q7.2 q7.2.outputs q7.2.net with
      | hang => exact mkOutputs_ne_hang _ _ _ hO
      | ub => rw [hO] at h; simp at h
      | parseError => rw [hO] at h; simp at h
      | ok N =>
        rw [hO] at h
        exact mkRis_ne_hang _ _ _ h

/-- "aig 3 2 0 1 1\n6\n" and two delta bytes: the hypotheses hold for a file with a gate -/
example : parseHeader (getline ([97, 105, 103, 32, 51, 32, 50, 32, 48, 32, 49, 32, 49, 10, 54, 10, 2, 2].map (BitVec.ofNat 8))).1
      = some [3#32, 2#32, 0#32, 1#32, 1#32] ∧
    2 * (1#32).toNat ≤ terminators (skipLines (1#32).toNat (skipLines (0#32).toNat
      (getline ([97, 105, 103, 32, 51, 32, 50, 32, 48, 32, 49, 32, 49, 10, 54, 10, 2, 2].map (BitVec.ofNat 8))).2)) := by
  decide +kernel

/-- Violation: the same file with its last byte missing makes the reader loop for ever. -/
theorem C29_violated_truncated :
    read ([97, 105, 103, 32, 51, 32, 50, 32, 48, 32, 49, 32, 49, 10, 54, 10, 2].map (BitVec.ofNat 8)) = .hang := by
  decide +kernel

/-- Violation: an output literal beyond the last variable ("aig 1 1 0 1 0\n9\n") is looked up outside the
signal vector. -/
theorem C29_violated_output :
    read ([97, 105, 103, 32, 49, 32, 49, 32, 48, 32, 49, 32, 48, 10, 57, 10].map (BitVec.ofNat 8)) = .ub := by
  decide +kernel

/-- Violation: so is the operand of a gate whose first delta is 0. -/
theorem C29_violated_gate :
    read ([97, 105, 103, 32, 51, 32, 50, 32, 48, 32, 49, 32, 49, 10, 54, 10, 0, 2].map (BitVec.ofNat 8)) = .ub := by
  decide +kernel

/-- Violation: a symbol table entry for a missing output ("o5 x\n") writes outside the output vector. -/
theorem C29_violated_symbol :
    read ([97, 105, 103, 32, 49, 32, 49, 32, 48, 32, 49, 32, 48, 10, 50, 10, 111, 53, 32, 120, 10].map (BitVec.ofNat 8)) = .ub := by
  decide +kernel

/-- Violation: six bytes with the high bit set shift by more than the width of an `int`. -/
theorem C29_violated_shift :
    read ([97, 105, 103, 32, 51, 32, 50, 32, 48, 32, 48, 32, 49, 10, 130, 128, 128, 128, 128, 0, 2].map (BitVec.ofNat 8)) = .ub := by
  decide +kernel

end Verif.Aiger
