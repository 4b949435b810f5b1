import Mathlib.Tactic.Linarith

set_option autoImplicit false

/-!
# Signals (complemented edges)

Model of `aig_network::signal`, `include/database/network/aig_network.hpp` lines 73-157, and of
`node_pointer`, `include/database/network/details/node.hpp` lines 30-53.
-/

namespace Verif

/-- A signal as a pair (node index, complement attribute).
`include/database/network/aig_network.hpp` 92-99 (`union { complement:1; index:63 }`).
Simplification: the index is an unbounded `Nat`; `PSig` below is the exact 64-bit word and the
theorems of C01 relate the two. -/
structure Sig where
  index : Nat
  compl : Bool
deriving DecidableEq, Repr, Inhabited

namespace Sig

/-- `operator!`, aig_network.hpp 101-104. -/
def not (s : Sig) : Sig := ⟨s.index, !s.compl⟩

/-- `operator+`, aig_network.hpp 106-109. -/
def pos (s : Sig) : Sig := ⟨s.index, false⟩

/-- `operator-`, aig_network.hpp 111-114. -/
def neg (s : Sig) : Sig := ⟨s.index, true⟩

/-- `operator^(bool)`, aig_network.hpp 116-119. -/
def xorb (s : Sig) (c : Bool) : Sig := ⟨s.index, Bool.xor s.compl c⟩

/-- The word `data` of the union seen as a number: complement in bit 0, index above
(aig_network.hpp 92-99). -/
def data (s : Sig) : Nat := 2 * s.index + s.compl.toNat

/-- Reinterpretation of a number as a signal (`explicit signal(uint64_t data)`,
aig_network.hpp 82-85). -/
def ofData (d : Nat) : Sig := ⟨d / 2, d % 2 == 1⟩

/-- `get_constant`, aig_network.hpp 184-187. -/
def const (b : Bool) : Sig := ⟨0, b⟩

/-- Value of a signal when nodes have the values `v` (specification: a complemented edge inverts). -/
def val (v : Nat → Bool) (s : Sig) : Bool := Bool.xor s.compl (v s.index)

@[simp] theorem val_not (v : Nat → Bool) (s : Sig) : s.not.val v = !(s.val v) := by
  cases s with | mk i c => cases c <;> simp [val, not]

@[simp] theorem val_xorb (v : Nat → Bool) (s : Sig) (c : Bool) :
    (s.xorb c).val v = Bool.xor (s.val v) c := by
  cases s with | mk i d => cases c <;> cases d <;> simp [val, xorb]

@[simp] theorem index_not (s : Sig) : s.not.index = s.index := rfl
@[simp] theorem index_pos (s : Sig) : s.pos.index = s.index := rfl
@[simp] theorem index_neg (s : Sig) : s.neg.index = s.index := rfl
@[simp] theorem index_xorb (s : Sig) (c : Bool) : (s.xorb c).index = s.index := rfl
@[simp] theorem index_const (b : Bool) : (Sig.const b).index = 0 := rfl
@[simp] theorem compl_const (b : Bool) : (Sig.const b).compl = b := rfl

theorem ext_iff' {s t : Sig} : s = t ↔ s.index = t.index ∧ s.compl = t.compl := by
  cases s; cases t; simp

theorem data_inj {s t : Sig} (h : s.data = t.data) : s = t := by
  cases s with | mk i c => cases t with | mk j d =>
    cases c <;> cases d <;> simp [data] at h ⊢ <;> omega

@[simp] theorem data_ofData (d : Nat) : (ofData d).data = d := by
  simp only [data, ofData]
  by_cases h : d % 2 = 1
  · simp [h]; omega
  · have : d % 2 = 0 := by omega
    simp [this]; omega

@[simp] theorem ofData_data (s : Sig) : ofData s.data = s := data_inj (data_ofData _)

end Sig

/-- The exact 64-bit representation of a signal, aig_network.hpp 92-99. -/
structure PSig where
  data : BitVec 64
deriving DecidableEq

namespace PSig

/-- `signal(uint64_t index, uint64_t complement)`: bit-field assignment keeps the low 63 bits of the
index and the low bit of the complement, aig_network.hpp 77-80. -/
def mk2 (index compl : BitVec 64) : PSig := ⟨(index <<< 1) ||| (compl &&& 1#64)⟩

/-- Reading the 63-bit field `index`, aig_network.hpp 96. -/
def index (s : PSig) : BitVec 64 := s.data >>> 1

/-- Reading the 1-bit field `complement`, aig_network.hpp 95. -/
def complement (s : PSig) : BitVec 64 := s.data &&& 1#64

/-- `operator!`, aig_network.hpp 101-104. -/
def not (s : PSig) : PSig := ⟨s.data ^^^ 1#64⟩

/-- `operator+`, aig_network.hpp 106-109. -/
def pos (s : PSig) : PSig := mk2 s.index 0#64

/-- `operator-`, aig_network.hpp 111-114. -/
def neg (s : PSig) : PSig := mk2 s.index 1#64

/-- `operator^(bool)`, aig_network.hpp 116-119. -/
def xorb (s : PSig) (c : Bool) : PSig := ⟨s.data ^^^ (if c then 1#64 else 0#64)⟩

/-- `operator<`, aig_network.hpp 141-144. -/
def lt (s t : PSig) : Bool := s.data.ult t.data

/-- Abstraction from the packed word to the pair. -/
def toSig (s : PSig) : Sig := ⟨s.index.toNat, s.complement == 1#64⟩

end PSig
end Verif
