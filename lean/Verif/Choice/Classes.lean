import Verif.Choice.Basic

set_option autoImplicit false

/-!
# Candidate equivalence classes

Model of `cand_equiv_classes`, `include/operations/algorithms/choice_computation.hpp` 47-370.
-/

namespace Verif.Choice

/-- `_id2class` and `_reprs`, choice_computation.hpp 364-365. -/
structure Classes where
  id2class : List (List Nat)
  reprs : List Nat
deriving DecidableEq, Repr

/-- Constructor, choice_computation.hpp 61-70. -/
def Classes.init (size : Nat) : Classes := { id2class := List.replicate size [], reprs := List.range size }

/-- `_reprs[c] = repr_new` for all members of the new class, choice_computation.hpp 138-141. Classes contain only nodes
(`Classes.Ok`), so the write is never out of range. -/
def setReprs (l : List Nat) (r : Nat) (reprs : List Nat) : List Nat := l.foldl (fun m c => m.set c r) reprs

/-- The class of `r` split in two, choice_computation.hpp 136-142: `old` stays, `new` moves to `s`. -/
def Classes.split (K : Classes) (r : Nat) (old : List Nat) (s : Nat) (new : List Nat) : Classes :=
  { id2class := (K.id2class.set r old).set s new, reprs := setReprs new s K.reprs }

/-- `refine_one_class`, choice_computation.hpp 120-149: the number of splits and the new classes. The comparison (`equal` or
`equal_cex`, line 127) is a parameter. `none` for an access out of range. The first argument bounds the recursion depth. -/
def refineOne (eq : Nat → Nat → Bool) (recursively : Bool) : Nat → Nat → Classes → Option (Nat × Classes)
  | 0, _, _ => none
  | fuel + 1, r, K =>
    match K.id2class[r]? with
    | none => none
    | some l =>
      match l.filter fun n => !eq r n with
      | [] => some (0, K)
      | s :: new =>
        let K' := K.split r (l.filter (eq r)) s (s :: new)
        if recursively && decide ((s :: new).length > 1) then
          (refineOne eq recursively fuel s K').map fun q => (q.1 + 1, q.2)
        else some (1, K')

/-- The loop of `refine_classes`, choice_computation.hpp 237-249, over the given indices. The recursion of `refine_one_class`
is bounded by the number of nodes plus one (`refineOne_spec`: this is enough). -/
def refineLoop (eq : Nat → Nat → Bool) (recursively : Bool) : List Nat → Nat × Classes → Option (Nat × Classes)
  | [], st => some st
  | i :: is, st =>
    match st.2.id2class[i]? with
    | none => none
    | some [] => refineLoop eq recursively is st
    | some (_ :: _) =>
      match refineOne eq recursively (st.2.id2class.length + 1) i st.2 with
      | none => none
      | some q => refineLoop eq recursively is (st.1 + q.1, q.2)

/-- `refine_classes`, choice_computation.hpp 237-249. -/
def refineClasses (eq : Nat → Nat → Bool) (recursively : Bool) (K : Classes) : Option (Nat × Classes) :=
  refineLoop eq recursively (List.range K.id2class.length) (0, K)

/-- `_sim`, choice_computation.hpp 367: the simulation words of every node. -/
abbrev Sims := List (List (BitVec 64))

/-- The words of one combinational input, choice_computation.hpp 177-181. The `i`-th random number since the start of the program is
`rand i`, `c` counts them. Without words, line 181 accesses an empty vector. -/
def inputWords (nwords : Nat) (rand : Nat → Nat) (c : Nat) : Option (List (BitVec 64)) :=
  match (List.range nwords).map fun i => BitVec.ofNat 64 (rand (c + i)) with
  | [] => none
  | w :: l => some ((w <<< 1) :: l)

/-- The loop over the combinational inputs, choice_computation.hpp 176-182. -/
def simInputs (nwords : Nat) (rand : Nat → Nat) : List Nat → Sims × Nat → Option (Sims × Nat)
  | [], st => some st
  | n :: l, st =>
    match inputWords nwords rand st.2 with
    | none => none
    | some ws =>
      if n < st.1.length then simInputs nwords rand l (st.1.set n ws, st.2 + nwords) else none

/-- One word of a gate, choice_computation.hpp 193. -/
def gateWord (a b : Bool) (x y : BitVec 64) : BitVec 64 := (if a then ~~~x else x) &&& (if b then ~~~y else y)

/-- The loop over the gates, choice_computation.hpp 184-195. -/
def simGates (N : Aig) : List Nat → Sims → Option Sims
  | [], sim => some sim
  | n :: l, sim =>
    match N.kids n with
    | none => none
    | some (a, b) =>
      match sim[a.index]?, sim[b.index]? with
      | some x, some y =>
        if n < sim.length then simGates N l (sim.set n (List.zipWith (gateWord a.compl b.compl) x y)) else none
      | _, _ => none

/-- `perform_random_simulation`, choice_computation.hpp 169-197. -/
def randomSim (N : Aig) (nwords : Nat) (rand : Nat → Nat) (c : Nat) : Option (Sims × Nat) :=
  match simInputs nwords rand N.inputs (List.replicate N.nodes.length (List.replicate nwords 0), c) with
  | none => none
  | some st => (simGates N N.gates st.1).map fun s => (s, st.2)

/-- The words of a node, complemented if the node has phase 1: what `node_hash` and `equal` look at, choice_computation.hpp
271-280 and 306-319. -/
def normWords (N : Aig) (n : Nat) (ws : List (BitVec 64)) : List (BitVec 64) :=
  if N.phaseOf n then ws.map (~~~·) else ws

/-- `equal`, choice_computation.hpp 304-321. Both nodes have words (`randomSim_spec`), the last case does not occur. -/
def equalSim (N : Aig) (sim : Sims) (n1 n2 : Nat) : Bool :=
  match sim[n1]?, sim[n2]? with
  | some x, some y => if N.phaseOf n1 ≠ N.phaseOf n2 then x == y.map (~~~·) else x == y
  | _, _ => false

/-- The table of primes, choice_computation.hpp 254-268. -/
def hashPrimes : List Nat := [
  1009, 1049, 1093, 1151, 1201, 1249, 1297, 1361, 1427, 1459,
  1499, 1559, 1607, 1657, 1709, 1759, 1823, 1877, 1933, 1997,
  2039, 2089, 2141, 2213, 2269, 2311, 2371, 2411, 2467, 2543,
  2609, 2663, 2699, 2741, 2797, 2851, 2909, 2969, 3037, 3089,
  3169, 3221, 3299, 3331, 3389, 3461, 3517, 3557, 3613, 3671,
  3719, 3779, 3847, 3907, 3943, 4013, 4073, 4129, 4201, 4243,
  4289, 4363, 4441, 4493, 4549, 4621, 4663, 4729, 4793, 4871,
  4933, 4973, 5021, 5087, 5153, 5227, 5281, 5351, 5417, 5471,
  5519, 5573, 5651, 5693, 5749, 5821, 5861, 5923, 6011, 6073,
  6131, 6199, 6257, 6301, 6353, 6397, 6481, 6563, 6619, 6689,
  6737, 6803, 6863, 6917, 6977, 7027, 7109, 7187, 7237, 7309,
  7393, 7477, 7523, 7561, 7607, 7681, 7727, 7817, 7877, 7933,
  8011, 8039, 8059, 8081, 8093, 8111, 8123, 8147]

/-- The sum of `node_hash`, choice_computation.hpp 273-280: 64-bit products, exclusive or of their low 32 bits. `k` is the index of the
first word. -/
def hashWords : Nat → List (BitVec 64) → BitVec 32 → BitVec 32
  | _, [], h => h
  | k, w :: ws, h =>
    match hashPrimes[k % 128]? with
    | none => h
    | some p => hashWords (k + 1) ws (h ^^^ (w * BitVec.ofNat 64 p).setWidth 32)

/-- The inner loop of `Abc_PrimeCudd`, choice_computation.hpp 345-353: no odd number from `i` on whose square is at most `p` divides `p`.
The first argument bounds the number of rounds. Simplified: no overflow of `int` in `i * i` (`p < 2^30`). -/
def noDivisor (p : Nat) : Nat → Nat → Option Bool
  | 0, _ => none
  | fuel + 1, i =>
    if i * i ≤ p then
      if p % i = 0 then some false else noDivisor p fuel (i + 2)
    else some true

/-- `Abc_PrimeCudd`, choice_computation.hpp 334-359. The first argument bounds the number of rounds. -/
def primeFrom : Nat → Nat → Option Nat
  | 0, _ => none
  | fuel + 1, p =>
    if p % 2 = 1 then
      match noDivisor p (p + 1) 3 with
      | none => none
      | some true => some p
      | some false => primeFrom fuel (p + 1)
    else primeFrom fuel (p + 1)

/-- The hash table of `prepare` and the classes, choice_computation.hpp 203-227, one node; `none` in the table is `AIG_NULL`. -/
def prepareNode (N : Aig) (sim : Sims) (size : Nat) (st : List (Option Nat) × Classes) (n : Nat) : Option (List (Option Nat) × Classes) :=
  match sim[n]? with
  | none => none
  | some ws =>
    let h := (hashWords 0 (normWords N n ws) 0).toNat % size
    match st.1[h]? with
    | none => none
    | some none => some (st.1.set h (some n), { st.2 with id2class := st.2.id2class.modify n (· ++ [n]) })
    | some (some r) => some (st.1, { id2class := st.2.id2class.modify r (· ++ [n]), reprs := st.2.reprs.set n r })

/-- The loop over all nodes of `prepare`, choice_computation.hpp 206-227. -/
def prepareLoop (N : Aig) (sim : Sims) (size : Nat) : List Nat → List (Option Nat) × Classes → Option (List (Option Nat) × Classes)
  | [], st => some st
  | n :: l, st =>
    match prepareNode N sim size st n with
    | none => none
    | some st => prepareLoop N sim size l st

/-- The nodes visited by `foreach_node`, aig_network.hpp 993-999. -/
def liveNodes (N : Aig) : List Nat := (List.range N.nodes.length).filter fun n => !N.isDead n

/-- `prepare`, choice_computation.hpp 199-231. The search for a prime is bounded by twice the size (Bertrand). -/
def prepare (N : Aig) (sim : Sims) (K : Classes) : Option Classes :=
  match primeFrom (2 * (N.nodes.length / 4) + 2) (N.nodes.length / 4) with
  | none => none
  | some size =>
    match prepareLoop N sim size (liveNodes N) (List.replicate size none, K) with
    | none => none
    | some st => (refineClasses (equalSim N sim) false st.2).map Prod.snd

/-- The seven rounds of choice_computation.hpp 84-88. -/
def refineRounds (N : Aig) (nwords : Nat) (rand : Nat → Nat) : Nat → Classes × Nat → Option (Classes × Nat)
  | 0, st => some st
  | k + 1, st =>
    match randomSim N nwords rand st.2 with
    | none => none
    | some (sim, c) =>
      match refineClasses (equalSim N sim) true st.1 with
      | none => none
      | some q => refineRounds N nwords rand k (q.2, c)

/-- `compute_equiv_classes`, choice_computation.hpp 80-89. -/
def computeClasses (N : Aig) (nwords : Nat) (rand : Nat → Nat) : Option (Classes × Nat) :=
  match randomSim N nwords rand 0 with
  | none => none
  | some (sim, c) =>
    match prepare N sim (Classes.init N.nodes.length) with
    | none => none
    | some K => refineRounds N nwords rand 7 (K, c)

end Verif.Choice
