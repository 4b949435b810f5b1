import Verif.Cnf.CheckerSpec

set_option autoImplicit false

/-!
# The parallel checker of mapped networks (specification side)
-/

namespace Verif.Checker.Par

/-- the gate `m` has `n` as a fanin -/
def Reads (N : Aig) (m n : Nat) : Prop := ∃ a b, N.IsGate m a b ∧ (a.index = n ∨ b.index = n)

/-- `n` is represented by `r`: `r` is the last gate with fan-out for which `n` comes behind it in the class list -/
structure RepOf (C : Choice) (n r : Nat) : Prop where
  rep : ∃ a b, C.net.IsGate r a b
  used : C.net.fanoutSize r ≠ 0
  behind : Behind C r n
  last : ∀ g, (∃ a b, C.net.IsGate g a b) → C.net.fanoutSize g ≠ 0 → Behind C g n → g ≤ r

/-- the node whose fan-outs are followed from `n`: its representative, or `n` itself if it has none -/
def Key (C : Choice) (n k : Nat) : Prop := RepOf C n k ∨ k = n ∧ ∀ r, ¬ RepOf C n r

/-- one step from `n` upwards -/
def Step (C : Choice) (n m : Nat) : Prop := RepOf C n m ∨ ∃ k, Key C n k ∧ Reads C.net m k

/-- `Walk C root leaves k n`: from some leaf to `n` in `k` steps upwards, not passing the root -/
inductive Walk (C : Choice) (root : Nat) (leaves : List Nat) : Nat → Nat → Prop
  | leaf {l : Nat} : l ∈ leaves → Walk C root leaves 0 l
  | step {k n m : Nat} : Walk C root leaves k n → n ≠ root → Step C n m → Walk C root leaves (k + 1) m

/-- `n` is nearer to the leaves than the root, counted in steps upwards -/
def Nearer (C : Choice) (root : Nat) (leaves : List Nat) (n : Nat) : Prop :=
  ∃ k, Walk C root leaves k n ∧ ∀ j, j ≤ k → ¬ Walk C root leaves j root

/-- as `Val`, but all nodes used, apart from the root, are nearer to the leaves than the root -/
inductive NearVal (C : Choice) (w : Nat → Bool) (root : Nat) (leaves : List Nat) : Nat → Bool → Prop
  | leaf {n : Nat} : n ∈ leaves → NearVal C w root leaves n (w n)
  | gate {n : Nat} {a b : Sig} {x y : Bool} : n = root ∨ Nearer C root leaves n → C.net.IsGate n a b →
      NearVal C w root leaves a.index x → NearVal C w root leaves b.index y →
      NearVal C w root leaves n (Bool.xor a.compl x && Bool.xor b.compl y)
  | choice {n m : Nat} {x : Bool} : Nearer C root leaves m → ChoiceOf C m n → NearVal C w root leaves m x →
      NearVal C w root leaves n (Bool.xor (Bool.xor x (C.net.phaseOf m)) (C.net.phaseOf n))

/-- the cell of `n` is right by its structure, the root is reached from the leaves, and all nodes needed for this are nearer to the
leaves -/
def NearRight (C : Choice) (M : Mapping) (n : Nat) : Prop :=
  ∃ cs f, M.cellFanins n = some cs ∧ M.cellFunction n = some f ∧ (∃ k, Walk C n cs k n) ∧ ∀ w, NearVal C w n cs n (f.eval (Klut.args w cs))

end Verif.Checker.Par
