import Mathlib.Tactic.Linarith

set_option autoImplicit false

/-!
# Truth tables

Model of `kitty::dynamic_truth_table` (libs/kitty/include/kitty/dynamic_truth_table.hpp 42-175) with the
operators used by iMap.  kitty is a third party library: its 64-bit blocks are not modelled, a truth
table over `n` variables is the list of its `2^n` bits.
-/

namespace Verif

/-- `kitty::dynamic_truth_table`, dynamic_truth_table.hpp 42-175: number of variables and bits. -/
structure TT where
  n : Nat
  bits : List Bool
deriving DecidableEq, Repr

namespace TT

/-- table with the bits `f 0, f 1, ..` -/
def ofFn (n : Nat) (f : Nat → Bool) : TT := ⟨n, (List.range (2 ^ n)).map f⟩

/-- `get_bit`, kitty/bit_operations.hpp 72-76 (reading outside the table is not a defined access; the
theorems only read inside). -/
def get (t : TT) (p : Nat) : Bool := t.bits.getD p false

/-- the number of bits fits the number of variables -/
def WF (t : TT) : Prop := t.bits.length = 2 ^ t.n

theorem wf_ofFn (n : Nat) (f : Nat → Bool) : (ofFn n f).WF := by simp [WF, ofFn]

@[simp] theorem n_ofFn (n : Nat) (f : Nat → Bool) : (ofFn n f).n = n := rfl

theorem get_ofFn {n : Nat} (f : Nat → Bool) {p : Nat} (h : p < 2 ^ n) : (ofFn n f).get p = f p := by
  simp [get, ofFn, List.getD_eq_getElem?_getD, h]

theorem ext {t u : TT} (ht : t.WF) (hu : u.WF) (hn : t.n = u.n)
    (h : ∀ p, p < 2 ^ t.n → t.get p = u.get p) : t = u := by
  obtain ⟨n, b⟩ := t
  obtain ⟨m, c⟩ := u
  simp only at hn
  subst hn
  simp only [WF] at ht hu
  congr 1
  apply List.ext_getElem (by omega)
  intro p h1 h2
  have := h p (by simp only; omega)
  simpa [get, List.getD_eq_getElem?_getD, h1, h2] using this

/-- constant tables, `dynamic_truth_table(n)` and its complement -/
def const (n : Nat) (b : Bool) : TT := ofFn n fun _ => b

/-- `create_nth_var`, kitty/constructors.hpp 89-142. -/
def nthVar (n i : Nat) : TT := ofFn n fun p => p.testBit i

/-- `operator~` / `unary_not`, kitty/operators.hpp. -/
def not (t : TT) : TT := ofFn t.n fun p => !t.get p

/-- `operator&` / `binary_and` on tables with the same number of variables. -/
def and (t u : TT) : TT := ofFn t.n fun p => t.get p && u.get p

/-- `operator|` / `binary_or`. -/
def or (t u : TT) : TT := ofFn t.n fun p => t.get p || u.get p

/-- `operator^` / `binary_xor`. -/
def xor (t u : TT) : TT := ofFn t.n fun p => Bool.xor (t.get p) (u.get p)

@[simp] theorem n_const (n : Nat) (b : Bool) : (const n b).n = n := rfl
@[simp] theorem n_nthVar (n i : Nat) : (nthVar n i).n = n := rfl
@[simp] theorem n_not (t : TT) : t.not.n = t.n := rfl
@[simp] theorem n_and (t u : TT) : (t.and u).n = t.n := rfl
@[simp] theorem n_or (t u : TT) : (t.or u).n = t.n := rfl
@[simp] theorem n_xor (t u : TT) : (t.xor u).n = t.n := rfl

theorem get_const {n : Nat} (b : Bool) {p : Nat} (h : p < 2 ^ n) : (const n b).get p = b := get_ofFn _ h
theorem get_nthVar {n : Nat} (i : Nat) {p : Nat} (h : p < 2 ^ n) : (nthVar n i).get p = p.testBit i :=
  get_ofFn _ h
theorem get_not {t : TT} {p : Nat} (h : p < 2 ^ t.n) : t.not.get p = !t.get p := get_ofFn _ h
theorem get_and {t u : TT} {p : Nat} (h : p < 2 ^ t.n) : (t.and u).get p = (t.get p && u.get p) :=
  get_ofFn _ h
theorem get_or {t u : TT} {p : Nat} (h : p < 2 ^ t.n) : (t.or u).get p = (t.get p || u.get p) :=
  get_ofFn _ h
theorem get_xor {t u : TT} {p : Nat} (h : p < 2 ^ t.n) : (t.xor u).get p = Bool.xor (t.get p) (u.get p) :=
  get_ofFn _ h

/-- the bit position that encodes an assignment of the first `n` variables -/
def pos (x : Nat → Bool) : Nat → Nat
  | 0 => 0
  | n + 1 => pos x n + (if x n then 2 ^ n else 0)

theorem pos_lt (x : Nat → Bool) (n : Nat) : pos x n < 2 ^ n := by
  induction n with
  | zero => simp [pos]
  | succ n ih => rw [pos, Nat.pow_succ]; split <;> omega

theorem testBit_pos (x : Nat → Bool) (n i : Nat) (h : i < n) : (pos x n).testBit i = x i := by
  induction n with
  | zero => omega
  | succ n ih =>
    rw [pos]
    by_cases hi : i = n
    · subst hi
      have := pos_lt x i
      split
      · rename_i hx
        rw [Nat.add_comm, Nat.testBit_two_pow_add_eq, Nat.testBit_lt_two_pow this, hx]; rfl
      · rename_i hx
        rw [Nat.add_zero, Nat.testBit_lt_two_pow this]; simp at hx; exact hx.symm
    · have : i < n := by omega
      split
      · rw [Nat.add_comm, Nat.testBit_two_pow_add_gt this]; exact ih this
      · rw [Nat.add_zero]; exact ih this

/-- the value of a table under an assignment of its variables -/
def eval (t : TT) (x : Nat → Bool) : Bool := t.get (pos x t.n)

end TT
end Verif
