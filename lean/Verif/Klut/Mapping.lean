import Verif.TTCache

set_option autoImplicit false

/-!
# Mapping view

Model of `include/database/views/mapping_view.hpp` with stored functions.
-/

namespace Verif

/-- `mapping_view_storage<true>`, mapping_view.hpp 38-45, and the number of nodes of the network below
(constant: the view is immutable). Simplification: the `uint32_t` entries are natural numbers. -/
structure Mapping where
  ntkSize : Nat
  mappings : List Nat
  mappingSize : Nat
  functions : List Nat
  cache : TTCache
deriving DecidableEq, Repr

namespace Mapping

/-- constructor, mapping_view.hpp 120-138. -/
def init (n : Nat) : Mapping where
  ntkSize := n
  mappings := List.replicate n 0
  mappingSize := 0
  functions := List.replicate n 0
  cache := (TTCache.empty.insert (TT.const 0 false)).1

/-- `has_mapping`, mapping_view.hpp 140-143. -/
def hasMapping (m : Mapping) : Bool := decide (0 < m.mappingSize)

/-- `is_cell_root`, mapping_view.hpp 145-148; `none`: index outside the vector. -/
def isCellRoot (m : Mapping) (n : Nat) : Option Bool := (m.mappings[n]?).map fun k => decide (k ≠ 0)

/-- `clear_mapping`, mapping_view.hpp 150-155. -/
def clear (m : Mapping) : Mapping := { m with mappings := List.replicate m.ntkSize 0, mappingSize := 0 }

/-- `num_cells`, mapping_view.hpp 157-160. -/
def numCells (m : Mapping) : Nat := m.mappingSize

/-- `add_to_mapping`, mapping_view.hpp 162-184. -/
def add (m : Mapping) (n : Nat) (leaves : List Nat) : Option Mapping :=
  match m.mappings[n]? with
  | none => none
  | some k => some { m with
      mappingSize := if k = 0 then m.mappingSize + 1 else m.mappingSize
      mappings := m.mappings.set n m.mappings.length ++ leaves.length :: leaves }

/-- `remove_from_mapping`, mapping_view.hpp 186-196. -/
def remove (m : Mapping) (n : Nat) : Option Mapping :=
  match m.mappings[n]? with
  | none => none
  | some k => some { m with
      mappingSize := if k ≠ 0 then m.mappingSize - 1 else m.mappingSize
      mappings := m.mappings.set n 0 }

/-- `cell_function`, mapping_view.hpp 198-202. -/
def cellFunction (m : Mapping) (n : Nat) : Option TT := (m.functions[n]?).bind m.cache.lookup

/-- `set_cell_function`, mapping_view.hpp 204-208. -/
def setFunction (m : Mapping) (n : Nat) (f : TT) : Option Mapping :=
  if n < m.functions.length then
    some { m with functions := m.functions.set n (m.cache.insert f).2, cache := (m.cache.insert f).1 }
  else none

/-- the nodes visited by `foreach_cell_fanin`, mapping_view.hpp 210-218; `none`: reads outside the vector. -/
def cellFanins (m : Mapping) (n : Nat) : Option (List Nat) :=
  match m.mappings[n]? with
  | none => none
  | some k => match m.mappings[k]? with
    | none => none
    | some sz => if k + 1 + sz ≤ m.mappings.length then some ((m.mappings.drop (k + 1)).take sz) else none

/-- the modifying calls -/
inductive Op
  | add (n : Nat) (leaves : List Nat)
  | remove (n : Nat)
  | clear
  | setFunction (n : Nat) (f : TT)
deriving DecidableEq, Repr

/-- one call -/
def step (m : Mapping) : Op → Option Mapping
  | .add n l => m.add n l
  | .remove n => m.remove n
  | .clear => some m.clear
  | .setFunction n f => m.setFunction n f

/-- a sequence of calls -/
def run (m : Mapping) : List Op → Option Mapping
  | [] => some m
  | op :: ops => match m.step op with
    | some m => m.run ops
    | none => none

end Mapping
end Verif
