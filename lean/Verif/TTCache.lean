import Verif.TTOps

set_option autoImplicit false

/-!
# Truth table cache

Model of `include/utils/truth_table_cache.hpp`.
-/

namespace Verif

/-- `truth_table_cache`, truth_table_cache.hpp 94-97: `_indexes` as an association list (hashing is not
modelled; kitty's `==` compares the number of variables and the bits) and `_data`. -/
structure TTCache where
  indexes : List (TT × Nat)
  data : List TT
deriving DecidableEq, Repr

namespace TTCache

/-- constructor, truth_table_cache.hpp 99-104 -/
def empty : TTCache := ⟨[], []⟩

/-- `_indexes.find(tt)`, truth_table_cache.hpp 118 -/
def find (c : TTCache) (t : TT) : Option Nat := (c.indexes.find? fun e => e.1 = t).map (·.2)

/-- `insert`, truth_table_cache.hpp 106-130; literals are natural numbers (`uint32_t` in the code). -/
def insert (c : TTCache) (t0 : TT) : TTCache × Nat :=
  let isCompl := if t0.get 0 then 1 else 0
  let t := if t0.get 0 then t0.not else t0
  match c.find t with
  | some i => (c, 2 * i + isCompl)
  | none => (⟨(t, c.data.length) :: c.indexes, c.data ++ [t]⟩, 2 * c.data.length + isCompl)

/-- `operator[]`, truth_table_cache.hpp 132-137; `none`: outside the vector. -/
def lookup (c : TTCache) (l : Nat) : Option TT :=
  match c.data[l / 2]? with
  | none => none
  | some t => some (if l % 2 = 1 then t.not else t)

/-- a sequence of insertions -/
def inserts (c : TTCache) : List TT → TTCache
  | [] => c
  | t :: ts => (c.insert t).1.inserts ts

end TTCache
end Verif
