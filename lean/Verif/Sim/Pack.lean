import Mathlib.Data.List.Basic

set_option autoImplicit false

/-!
# The bit-packed simulator

Model of `bit_packed_simulator`, include/operations/algorithms/simulation.hpp 277-442, on top of kitty's
`partial_truth_table`. `none` stands for undefined behaviour (an access outside a table).
-/

namespace Verif.Pack

/-- the two tables of one primary input: `patterns[i]` and `care[i]`, simulation.hpp 267, 440. A table is the list of its
bits; the words of libs/kitty/include/kitty/partial_truth_table.hpp 280 hold 64 of them each, the unused bits of the last
word are zero. The code keeps two vectors of tables; both have an entry per input from the constructors on. -/
structure Row where
  pat : List Bool
  care : List Bool
deriving DecidableEq, Repr

/-- state of the simulator, simulation.hpp 267-268, 440-441 -/
structure Sim where
  rows : List Row
  numPatterns : Nat
  packed : Nat
deriving DecidableEq, Repr

/-- the constructors, simulation.hpp 288-317 with `fill_cares` 410-417: all bits of the initial patterns are cared for.
`pats` are the initial tables, all of length `n`. (The default constructor leaves the counters uninitialised.) -/
def init (pats : List (List Bool)) (n : Nat) : Sim :=
  ⟨pats.map fun t => ⟨t, List.replicate n true⟩, n, n⟩

/-- `partial_truth_table::add_bit`, partial_truth_table.hpp 163-183. The bit that fills a word is set with a shift by
`0 - 1` in 32-bit arithmetic, which is undefined; `x86 = true` models the instruction set that takes the shift count
modulo 64 and so sets the right bit. -/
def addBit (x86 : Bool) (t : List Bool) (b : Bool) : Option (List Bool) :=
  if b = true ∧ (t.length + 1) % 64 = 0 ∧ x86 = false then none else some (t ++ [b])

/-- loop of `add_pattern`, simulation.hpp 327-331. `.at` throws on a missing input, the loop leaves further inputs
alone (the assertions are off). -/
def addRows (x86 : Bool) : List Row → List (Bool × Bool) → Option (List Row)
  | rows, [] => some rows
  | [], _ :: _ => none
  | r :: rows, b :: bs =>
    match addBit x86 r.pat b.1, addBit x86 r.care b.2, addRows x86 rows bs with
    | some p, some c, some rows' => some (⟨p, c⟩ :: rows')
    | _, _, _ => none

/-- `add_pattern`, simulation.hpp 322-333; value and care bit of every input -/
def addPattern (x86 : Bool) (s : Sim) (bs : List (Bool × Bool)) : Option Sim :=
  match addRows x86 s.rows bs with
  | none => none
  | some rows => some { s with rows := rows, numPatterns := s.numPatterns + 1 }

/-- one step of the loop of `move_pattern`, simulation.hpp 424-436 -/
def moveRow (src dst : Nat) (r : Row) : Option Row :=
  match r.care[src]? with
  | none => none
  | some false => some r
  | some true =>
    match r.pat[src]? with
    | none => none
    | some b =>
      if dst < r.pat.length ∧ dst < r.care.length then
        some ⟨r.pat.set dst b, (r.care.set dst true).set src false⟩
      else none

/-- `move_pattern`, simulation.hpp 420-437 -/
def movePattern (src dst : Nat) : List Row → Option (List Row)
  | [] => some []
  | r :: rows =>
    match moveRow src dst r, movePattern src dst rows with
    | some r', some rows' => some (r' :: rows')
    | _, _ => none

/-- bit `q` of the word `unavailable`, simulation.hpp 351-357, for the pattern at `p`: some input that `p` cares for is
cared for at `q` as well. Bits after the end of a table are zero. -/
def unavailable (rows : List Row) (p q : Nat) : Option Bool :=
  match rows with
  | [] => some false
  | r :: rows =>
    match r.care[p]?, unavailable rows p q with
    | some c, some u => some ((c && r.care[q]? == some true) || u)
    | _, _ => none

/-- `find_first_bit_in_word( ~unavailable )`, simulation.hpp 358 and libs/kitty/include/kitty/bit_operations.hpp 174-210:
the first available position among `q, q+1, …` (`k` of them); the inner option is `-1` -/
def firstFree (rows : List Row) (p : Nat) : Nat → Nat → Option (Option Nat)
  | _, 0 => some none
  | q, k + 1 =>
    match unavailable rows p q with
    | none => none
    | some false => some (some q)
    | some true => firstFree rows p (q + 1) k

/-- loop over the blocks, simulation.hpp 348-366, for `k` blocks from `block`: the position the pattern at `p` is moved to.
The condition `block < ( p >> 6 ) || pos < ( p % 64 )`, with `block ≤ p >> 6`, is `64·block + pos < p`; it is kept as
written. -/
def findSlot (rows : List Row) (p : Nat) : Nat → Nat → Option (Option Nat)
  | _, 0 => some none
  | block, k + 1 =>
    match firstFree rows p (64 * block) 64 with
    | none => none
    | some (some q) =>
      if block < p / 64 ∨ q - 64 * block < p % 64 then some (some q) else findSlot rows p (block + 1) k
    | some none => findSlot rows p (block + 1) k

/-- loop over the unpacked patterns, simulation.hpp 344-367: `k` patterns from `packed + k - 1` down. `start` stands for
`std::rand`; `start p` is used as the first block for positions from 1024. The empty slots come out in the order of the
vector `empty_slots`. -/
def packLoop (start : Nat → Nat) (packed : Nat) : Nat → List Row → Option (List Row × List Nat)
  | 0, rows => some (rows, [])
  | k + 1, rows =>
    let p := packed + k
    let b := if p < 1024 then 0 else start p % (p / 64)
    match findSlot rows p b (p / 64 + 1 - b) with
    | none => none
    | some none => packLoop start packed k rows
    | some (some q) =>
      match movePattern p q rows with
      | none => none
      | some rows' =>
        match packLoop start packed k rows' with
        | none => none
        | some (rows'', e) => some (rows'', p :: e)

/-- the loop `while ( empty_slots[j] >= num_patterns - 1 && j <= i )`, simulation.hpp 375-380; the first argument bounds
the number of rounds. (`num_patterns = 0`, where the subtraction wraps, is reported as `none`; it is unreachable.) -/
def skip (e : List Nat) (i : Nat) : Nat → Nat → Nat → Option (Nat × Nat)
  | 0, _, _ => none
  | f + 1, n, j =>
    match e[j]? with
    | none => none
    | some x =>
      if n = 0 then none
      else if n - 1 ≤ x ∧ j ≤ i then
        let n' := if x = n - 1 then n - 1 else n
        if j + 1 = e.length then some (n', j + 1) else skip e i f n' (j + 1)
      else some (n, j)

/-- the loop that fills the empty slots, simulation.hpp 373-384, for the slots with index below the first argument -/
def fill (e : List Nat) : Nat → Nat → Nat → List Row → Option (Nat × List Row)
  | 0, n, _, rows => some (n, rows)
  | i + 1, n, j, rows =>
    match skip e i (e.length + 1) n j with
    | none => none
    | some (n, j) =>
      if i < j then some (n, rows)
      else
        match e[i]? with
        | none => none
        | some x =>
          if n = 0 then none
          else
            match movePattern (n - 1) x rows with
            | none => none
            | some rows' => fill e i (n - 1) j rows'

/-- `pack_bits`, simulation.hpp 339-396 -/
def packBits (start : Nat → Nat) (s : Sim) : Option (Sim × Bool) :=
  if s.numPatterns = 0 then some (s, false)
  else if s.numPatterns = s.packed then some (s, false)
  else
    match packLoop start s.packed (s.numPatterns - s.packed) s.rows with
    | none => none
    | some (rows, e) =>
      if 0 < e.length then
        match fill e e.length s.numPatterns 0 rows with
        | none => none
        | some (n, rows') =>
          some (⟨rows'.map fun r => ⟨r.pat.take n, r.care.take n⟩, n, n⟩, true)
      else some (⟨rows, s.numPatterns, s.numPatterns⟩, false)

/-- one table of `randomize_dont_care_bits`, simulation.hpp 402-404: `( patterns & care ) | ( tt & ~care )` -/
def randomRow : List Bool → List Bool → List Bool → List Bool
  | p :: ps, c :: cs, t :: ts => ((p && c) || (t && !c)) :: randomRow ps cs ts
  | _, _, _ => []

/-- `randomize_dont_care_bits`, simulation.hpp 398-406; `rnd i` is the random table for input `i` -/
def randomizeFrom (rnd : Nat → Nat → Bool) (n : Nat) : Nat → List Row → List Row
  | _, [] => []
  | i, r :: rows => { r with pat := randomRow r.pat r.care ((List.range n).map (rnd i)) } :: randomizeFrom rnd n (i + 1) rows

/-- `randomize_dont_care_bits`, simulation.hpp 398-406 -/
def randomize (rnd : Nat → Nat → Bool) (s : Sim) : Sim :=
  { s with rows := randomizeFrom rnd s.numPatterns 0 s.rows }

end Verif.Pack
