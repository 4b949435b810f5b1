import Verif.Aig.Basic
import Verif.Isop

set_option autoImplicit false

/-!
# Sums of products, algebraic division and factoring

Model of include/operations/optimization/detail/sop_refactoring.hpp. A product is a set of literals in a
64-bit word: literal `2i` is the negated, `2i+1` the plain variable `i` (516-523). `sop_least_lit` (84-109) and
`sop_kernels_rec` (404-425) are not used by any caller and not modelled.
-/

namespace Verif.Sop

/-- one product: `uint64_t`, sop_refactoring.hpp 517 -/
abbrev Product := BitVec 64

/-- `sop_t`, sop_refactoring.hpp 533 -/
abbrev Terms := List Product

/-- `cube_has_lit`, sop_refactoring.hpp 37-40 -/
def hasLit (c : Product) (lit : Nat) : Bool := (c &&& (1#64 <<< lit)) != 0#64

/-- `cube_count_lit`, sop_refactoring.hpp 45-54. Simplification: counts the set bits by testing every position
instead of clearing the lowest set bit repeatedly. -/
def countLit (c : Product) : Nat := (List.range 64).countP (hasLit c)

/-- `sop_count_lit`, sop_refactoring.hpp 179-189. Simplification: a natural number instead of `uint32_t`. -/
def lits (s : Terms) : Nat := (s.map countLit).sum

/-- `sop_lit_occur`, sop_refactoring.hpp 59-79: the first literal that appears more than once; `none` stands for
the result -1. Simplification: the early exit from the inner loop is not modelled (same result). -/
def litOccur (s : Terms) (litNum : Nat) : Option Nat := (List.range litNum).find? fun l => 1 < s.countP (hasLit · l)

/-- loop of `sop_most_lit`, sop_refactoring.hpp 119-138 -/
def mostLitLoop (s : Terms) (cube : Product) : List Nat → Option Nat → Nat → Option Nat
  | [], lit, _ => lit
  | l :: ls, lit, times =>
    if !hasLit cube l then mostLitLoop s cube ls lit times
    else
      let occ := s.countP (hasLit · l)
      if times < occ then mostLitLoop s cube ls (some l) occ else mostLitLoop s cube ls lit times

/-- `sop_most_lit`, sop_refactoring.hpp 114-141; `none` stands for the result -1. -/
def mostLit (s : Terms) (cube : Product) (litNum : Nat) : Option Nat := mostLitLoop s cube (List.range litNum) none 1

/-- `get_most_lit`, sop_refactoring.hpp 146-162: whether the literal appears more than once, and the common
part of the products containing it -/
def getMostLit (s : Terms) (lit : Nat) : Bool × Product :=
  let l := s.filter (hasLit · lit)
  (decide (1 < l.length), l.foldl (· &&& ·) (BitVec.allOnes 64))

/-- `sop_best_lit`, sop_refactoring.hpp 167-172: the product consisting of the best literal. `none`: no such
literal, then the code shifts by -1, undefined behaviour. -/
def bestLit (s : Terms) (cube : Product) (litNum : Nat) : Option Product :=
  match mostLit s cube litNum with
  | none => none
  | some l => some (1#64 <<< l)

/-- the common part of all products, sop_refactoring.hpp 198-202, 218-222, 651-655 -/
def common (s : Terms) : Product := s.foldl (· &&& ·) (BitVec.allOnes 64)

/-- `sop_make_cube_free`, sop_refactoring.hpp 195-210 -/
def makeCubeFree (s : Terms) : Terms :=
  if common s = 0#64 then s else s.map (· &&& ~~~common s)

/-- `sop_is_cube_free`, sop_refactoring.hpp 215-225 -/
def isCubeFree (s : Terms) : Bool := common s == 0#64

/-- `sop_divide_by_lit`, sop_refactoring.hpp 230-242 -/
def divideByLit (s : Terms) (lit : Nat) : Terms := (s.filter (hasLit · lit)).map (· &&& ~~~(1#64 <<< lit))

/-- `sop_divide_by_cube`, sop_refactoring.hpp 248-269 (and without remainder 275-288): quotient and remainder -/
def divideByCube (s : Terms) (d : Product) : Terms × Terms :=
  ((s.filter fun c => c &&& d == d).map (· &&& ~~~d), s.filter fun c => !(c &&& d == d))

/-- the marker bit 63 of `sop_divide`, sop_refactoring.hpp 316, 364 -/
def mark : Product := 1#64 <<< 63

/-- the test of a dividend cube against a divisor cube and a quotient cube, sop_refactoring.hpp 344-348, 373-377 -/
def fits (q d c : Product) : Bool := !hasLit c 63 && (c &&& d == d) && (q == c &&& ~~~d)

/-- the loop marking the first fitting cube, sop_refactoring.hpp 370-381 -/
def markFirst (q d : Product) : Terms → Terms
  | [] => []
  | c :: l => if fits q d c then (c ||| mark) :: l else c :: markFirst q d l

/-- one iteration of the main loop of `sop_divide`, sop_refactoring.hpp 311-383, on the dividend with marks and the
quotient collected so far -/
def divideStep (divisor : Terms) (D Q : Terms) (i : Nat) : Terms × Terms :=
  match D[i]? with
  | none => (D, Q)
  | some c =>
    if hasLit c 63 then (D, Q)
    else match divisor.find? (fun d => c &&& d == d) with
      | none => (D, Q)
      | some d0 =>
        let q := c &&& ~~~d0
        if divisor.all fun d => d == d0 || D.any (fits q d) then
          (divisor.foldl (fun D d => if d == d0 then D else markFirst q d D) (D.set i (c ||| mark)), Q ++ [q])
        else (D, Q)

/-- `sop_divide`, sop_refactoring.hpp 295-398: the dividend afterwards, the quotient and the remainder -/
def divide (dividend divisor : Terms) : Terms × Terms × Terms :=
  match divisor with
  | [d] => let qr := divideByCube dividend d
           (dividend, qr.1, qr.2)
  | _ =>
    let r := (List.range dividend.length).foldl (fun s i => divideStep divisor s.1 s.2 i) (dividend, [])
    (r.1.map fun c => if hasLit c 63 then c &&& ~~~mark else c, r.2, r.1.filter fun c => !hasLit c 63)

/-- the mutable arguments of `sop_best_kernel_rec`: `sop`, `best_kernel`, `best_cost`, sop_refactoring.hpp 432-437 -/
structure KState where
  sop : Terms
  best : Terms
  cost : Nat
deriving DecidableEq, Repr

/-- loop of `sop_best_kernel_rec`, sop_refactoring.hpp 448-466; the last argument is `best_fact_cost`, `rec` the
recursive call -/
def kernelLoop (rec : Terms → Nat → KState → Option (KState × Nat)) (kernel : Terms) :
    List Nat → KState → Nat → Option (KState × Nat)
  | [], s, fact => some (s, fact)
  | i :: l, s, fact =>
    let m := getMostLit kernel i
    if m.1 then
      if (m.2 &&& ((1#64 <<< i) - 1#64)) != 0#64 then kernelLoop rec kernel l s fact
      else
        let qr := divideByCube kernel m.2
        let rcost := countLit m.2 + lits qr.2
        match rec qr.1 (i + 1) s with
        | none => none
        | some (s, fc) => kernelLoop rec kernel l s (if fc + rcost < fact then fc + rcost else fact)
    else kernelLoop rec kernel l s fact

/-- `sop_best_kernel_rec`, sop_refactoring.hpp 432-475: mutable arguments afterwards and result. The first argument
bounds the recursion depth. Simplification: costs are natural numbers instead of `uint32_t`. -/
def bestKernel (litNum : Nat) : Nat → Terms → Nat → KState → Option (KState × Nat)
  | 0, _, _, _ => none
  | f + 1, kernel, j, s =>
    let d := divide s.sop kernel
    let dcost := lits d.2.1 + lits d.2.2
    match kernelLoop (bestKernel litNum f) kernel (List.range' j (litNum - j)) { s with sop := d.1 } (lits kernel) with
    | none => none
    | some (s, fact) =>
      if s.best = [] ∨ dcost + fact < s.cost then some ({ s with best := kernel, cost := dcost + fact }, fact)
      else some (s, fact)

/-- `sop_good_divisor`, sop_refactoring.hpp 481-497: the SOP afterwards and the divisor (`none`: returns false).
The recursion depth is bounded by the number of literals. -/
def goodDivisor (s : Terms) (litNum : Nat) : Option (Terms × Option Terms) :=
  if s.length ≤ 1 then some (s, none)
  else match litOccur s litNum with
    | none => some (s, none)
    | some _ => match bestKernel litNum (litNum + 1) s 0 ⟨s, [], 0⟩ with
      | none => none
      | some (k, _) => some (k.sop, some k.best)

/-- the literals of a cube in a range of positions, sop_refactoring.hpp 700-711 -/
def litsIn (cube : Product) (b e : Nat) : List Nat := (List.range' b (e - b)).filter (hasLit cube)

/-- `gen_and_circuit_rec`, sop_refactoring.hpp 694-741. The first argument after the cube bounds the recursion depth;
`none` stands for non-termination or an access outside `children`. -/
def genAnd (ch : List Sig) (cube : Product) : Nat → Aig → Nat → Nat → Option (Aig × Sig)
  | 0, _, _, _ => none
  | f + 1, N, b, e =>
    match litsIn cube b e with
    | [lit] => match ch[lit / 2]? with
      | none => none
      | some s => some (N, if lit % 2 = 1 then s else s.not)
    | ls =>
      -- the splitting point, lines 724-735
      let i := match ls[ls.length / 2]? with
        | some i => i
        | none => e
      match genAnd ch cube f N b i with
      | none => none
      | some (N, t1) => match genAnd ch cube f N i e with
        | none => none
        | some (N, t2) => some (N.createAnd t1 t2)

/-- `gen_andor_circuit_rec`, sop_refactoring.hpp 743-761 -/
def genAndOr (ch : List Sig) (litNum : Nat) : Nat → Aig → Terms → Option (Aig × Sig)
  | 0, _, _ => none
  | f + 1, N, s =>
    match s with
    | [c] => genAnd ch c f N 0 litNum
    | s => match genAndOr ch litNum f N (s.take (s.length / 2)) with
      | none => none
      | some (N, t1) => match genAndOr ch litNum f N (s.drop (s.length / 2)) with
        | none => none
        | some (N, t2) => some (N.createOr t1 t2)

/-- adding the remainder, sop_refactoring.hpp 642-648, 685-691; `rec` is `gen_factor_rec` -/
def addRem (rec : Aig → Terms → Option (Aig × Sig)) (N : Aig) (dq : Sig) (rem : Terms) : Option (Aig × Sig) :=
  if rem = [] then some (N, dq)
  else match rec N rem with
    | none => none
    | some (N, r) => some (N.createOr dq r)

/-- `lit_factor_rec`, sop_refactoring.hpp 661-692; `rec` is `gen_factor_rec` and `f` bounds the depth of the AND
tree -/
def litFactor (ch : List Sig) (litNum f : Nat) (rec : Aig → Terms → Option (Aig × Sig)) (N : Aig) (s : Terms)
    (cube : Product) : Option (Aig × Sig) :=
  match bestLit s cube litNum with
  | none => none
  | some l =>
    let qr := divideByCube s l
    match genAnd ch l f N 0 litNum with
    | none => none
    | some (N, d) => match rec N qr.1 with
      | none => none
      | some (N, q) =>
        let r := N.createAnd d q
        addRem rec r.1 r.2 qr.2

/-- `gen_factor_rec`, sop_refactoring.hpp 607-659 -/
def genFactor (ch : List Sig) (litNum : Nat) : Nat → Aig → Terms → Option (Aig × Sig)
  | 0, _, _ => none
  | f + 1, N, s =>
    match goodDivisor s litNum with
    | none => none
    | some (s, none) => genAndOr ch litNum f N s
    | some (s, some divisor) =>
      let r1 := divide s divisor
      match r1.2.1 with
      | [q] => litFactor ch litNum f (genFactor ch litNum f) N r1.1 q
      | quotient =>
        let quotient := makeCubeFree quotient
        let r2 := divide r1.1 quotient
        let s := r2.1
        let divisor := r2.2.1
        let rem := r2.2.2
        if isCubeFree divisor then
          match genFactor ch litNum f N divisor with
          | none => none
          | some (N, d) => match genFactor ch litNum f N quotient with
            | none => none
            | some (N, q) =>
              let r := N.createAnd d q
              addRem (genFactor ch litNum f) r.1 r.2 rem
        else litFactor ch litNum f (genFactor ch litNum f) N s (common divisor)

/-- `cubes_to_sop` for one cube, sop_refactoring.hpp 517-522 -/
def ofCube (n : Nat) (c : Cube) : Product :=
  (List.range n).foldl (fun p i => if c.getMask i then p ||| (1#64 <<< (2 * i + (c.getBit i).toNat)) else p) 0#64

/-- `cubes_to_sop`, sop_refactoring.hpp 506-526 -/
def ofCubes (cs : List Cube) (n : Nat) : Terms := cs.map (ofCube n)

/-- `num_literals`, libs/kitty/include/kitty/cube.hpp 107-110 -/
def numLiterals (c : Cube) : Nat := (List.range 32).countP c.getMask

/-- `get_isop`, sop_refactoring.hpp 572-605: the smaller one of the covers of the function and of its complement,
and whether it is the complement -/
def getIsop (t : TT) : Option (List Cube × Bool) :=
  match t.isop with
  | none => none
  | some cs => match t.not.isop with
    | none => none
    | some ns =>
      if ns.length < cs.length then some (ns, true)
      else if ns.length = cs.length ∧ (ns.map numLiterals).sum < (cs.map numLiterals).sum then some (ns, true)
      else some (cs, false)

/-- `sop_factoring::operator()`, sop_refactoring.hpp 540-569: the network and the signal passed to `fn`. The last
argument bounds the recursion depth. -/
def factor (N : Aig) (t : TT) (leaves : List Sig) (fuel : Nat) : Option (Aig × Sig) :=
  if t.isConst0 then some (N, Sig.const false)
  else if t.not.isConst0 then some (N, Sig.const true)
  else match getIsop t with
    | none => none
    | some (cubes, negated) =>
      match genFactor leaves (2 * t.n) fuel N (ofCubes cubes t.n) with
      | none => none
      | some (N, f) => some (N, if negated then f.not else f)

end Verif.Sop
