import Mathlib.Data.List.Basic

set_option autoImplicit false

/-!
# Identifiers written to Verilog files

Texts are lists of characters.
-/

namespace Verif.Io

/-- `std::string` -/
abbrev Text := List Char

/-- `fmt::format( "{}", n )` for an unsigned number: its decimal digits (fmt is a third-party library) -/
def dec (n : Nat) : Text := Nat.toDigits 10 n

/-- `is_simple_char`, include/operations/io/reader.hpp 43-46 (`std::isalpha` in the "C" locale) -/
def isSimpleChar (c : Char) : Bool := c.isAlpha || c == '_' || c == '$'

/-- `is_simple_identifier`, reader.hpp 48-53; the first character of the empty string is the zero character -/
def isSimpleIdentifier : Text → Bool
  | [] => false
  | c :: l => (c.isAlpha || c == '_') && (c :: l).all isSimpleChar

/-- `to_escaped_identifier`, reader.hpp 55-63 -/
def toEscaped (name : Text) : Text := if isSimpleIdentifier name then name else '\\' :: name ++ [' ']

/-! ### How Verilog reads the texts (specification side) -/

/-- an operand of an expression -/
inductive Atom where
  | const (b : Bool)
  | id (name : Text)
deriving DecidableEq, Repr

/-- The identifier a text stands for (IEEE 1364-2005, 3.7.1): the backslash at the start of an escaped identifier and the
blank at its end do not belong to the identifier. -/
def ident : Text → Text
  | '\\' :: l => l.takeWhile (· != ' ')
  | l => l

/-- operands: the sized constants `1'b0`, `1'b1` and identifiers -/
def readAtom (t : Text) : Atom :=
  if t = ['1', '\'', 'b', '0'] then .const false
  else if t = ['1', '\'', 'b', '1'] then .const true
  else .id (ident t)

/-! ### Lemmas -/

theorem dec_inj {a b : Nat} (h : dec a = dec b) : a = b := by
  have h1 := Nat.ofDigitChars_toDigits (b := 10) (n := a) (by decide) (by decide)
  have h2 := Nat.ofDigitChars_toDigits (b := 10) (n := b) (by decide) (by decide)
  unfold dec at h
  rw [h] at h1
  rw [h1] at h2
  exact h2

theorem dec_digit {a : Nat} {c : Char} (h : c ∈ dec a) : c.isDigit = true :=
  Nat.isDigit_of_mem_toDigits (by decide) (by decide) h

theorem dec_ne_nil (a : Nat) : dec a ≠ [] := Nat.toDigits_ne_nil

theorem takeWhile_blank : ∀ (l : Text), (' ' ∉ l) → (l ++ [' ']).takeWhile (· != ' ') = l := by
  intro l
  induction l with
  | nil => intro _; rfl
  | cons c l ih =>
    intro h
    have hc : c ≠ ' ' := fun e => h (by simp [e])
    rw [List.cons_append, List.takeWhile_cons, if_pos (by simpa using hc), ih (fun e => h (by simp [e]))]

theorem ident_of_ne {c : Char} {l : Text} (h : c ≠ '\\') : ident (c :: l) = c :: l := by
  unfold ident
  split
  · rename_i e
    cases e
    exact absurd rfl h
  · rfl

/-- escaping does not change the identifier -/
theorem ident_toEscaped {name : Text} (h : ' ' ∉ name) : ident (toEscaped name) = name := by
  unfold toEscaped
  split
  · rename_i hs
    cases name with
    | nil => rfl
    | cons c l =>
      apply ident_of_ne
      rintro rfl
      simp [isSimpleIdentifier] at hs
  · rw [List.cons_append, ident, takeWhile_blank _ h]

theorem readAtom_toEscaped {name : Text} (h : ' ' ∉ name) : readAtom (toEscaped name) = .id name := by
  unfold readAtom
  have hne : ∀ d : Char, toEscaped name ≠ ['1', '\'', 'b', d] := by
    intro d
    unfold toEscaped
    split
    · rename_i hs
      rintro rfl
      simp [isSimpleIdentifier] at hs
    · intro e
      injection e with e1 _
      exact absurd e1 (by decide)
  rw [if_neg (hne _), if_neg (hne _), ident_toEscaped h]

/-- identifiers that start with a letter or an underscore are read as they are -/
theorem readAtom_plain {c : Char} {l : Text} (h1 : c ≠ '1') (h2 : c ≠ '\\') : readAtom (c :: l) = .id (c :: l) := by
  unfold readAtom
  rw [if_neg (by intro e; injection e with e; exact h1 e), if_neg (by intro e; injection e with e; exact h1 e), ident_of_ne h2]

end Verif.Io
