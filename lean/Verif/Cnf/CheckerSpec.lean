import Verif.Cnf.Checker
import Verif.Props.C43
import Verif.Klut.Cover
import Verif.Choice.Spec

set_option autoImplicit false

/-!
# The checker of mapped networks (specification side)
-/

namespace Verif.Checker
open Cnf

/-- a solver that gives no wrong answers -/
def Correct (solve : List (List Nat) → Answer) : Prop :=
  ∀ cs, match solve cs with
    | .sat a => Satisfies a cs
    | .unsat => ¬ ∃ a, Satisfies a cs
    | .timeout => True

/-- a solver that always answers -/
def Decides (solve : List (List Nat) → Answer) : Prop := ∀ cs, solve cs ≠ .timeout

/-- the cell has leaves, and a table on as many variables, fewer than 32 -/
def Cell (M : Mapping) (n : Nat) : Prop :=
  ∃ cs f, M.cellFanins n = some cs ∧ M.cellFunction n = some f ∧ f.WF ∧ f.n = cs.length ∧ f.n < 32 ∧ cs ≠ []

/-- `m` comes behind `n` in a class list -/
inductive Behind (C : Choice) : Nat → Nat → Prop
  | next {n m : Nat} : C.equivs[n]? = some (some m) → Behind C n m
  | more {n k m : Nat} : C.equivs[n]? = some (some k) → Behind C k m → Behind C n m

/-- `m` is a choice of the representative `n`: a gate, behind `n` in the class list, and `n` is the last gate with fan-out
for which this is so -/
structure ChoiceOf (C : Choice) (m n : Nat) : Prop where
  gate : ∃ a b, C.net.IsGate m a b
  rep : ∃ a b, C.net.IsGate n a b
  used : C.net.fanoutSize n ≠ 0
  behind : Behind C n m
  last : ∀ g, (∃ a b, C.net.IsGate g a b) → C.net.fanoutSize g ≠ 0 → Behind C g m → g ≤ n

/-- `Val C w leaves n b`: the cone of `n` down to the leaves, through fanins and choices, gives the value `b` if the leaves
have the values `w` -/
inductive Val (C : Choice) (w : Nat → Bool) (leaves : List Nat) : Nat → Bool → Prop
  | leaf {n : Nat} : n ∈ leaves → Val C w leaves n (w n)
  | gate {n : Nat} {a b : Sig} {x y : Bool} : C.net.IsGate n a b → Val C w leaves a.index x → Val C w leaves b.index y →
      Val C w leaves n (Bool.xor a.compl x && Bool.xor b.compl y)
  | choice {n m : Nat} {x : Bool} : ChoiceOf C m n → Val C w leaves m x →
      Val C w leaves n (Bool.xor (Bool.xor x (C.net.phaseOf m)) (C.net.phaseOf n))

/-- the cell of `n` is right by its structure: the cone of `n` down to the leaves, through fanins and choices, gives the
value of the table, whatever the values of the leaves -/
def StructRight (C : Choice) (M : Mapping) (n : Nat) : Prop :=
  ∃ cs f, M.cellFanins n = some cs ∧ M.cellFunction n = some f ∧ ∀ w, Val C w cs n (f.eval (Klut.args w cs))

/-- `m` is reached from `n` through leaves of cells of gates -/
inductive Reach (N : Aig) (M : Mapping) (n : Nat) : Nat → Prop
  | refl : Reach N M n n
  | step {k m : Nat} {cs : List Nat} : Reach N M n k → (∃ a b, N.IsGate k a b) → M.cellFanins k = some cs → m ∈ cs → Reach N M n m

end Verif.Checker
