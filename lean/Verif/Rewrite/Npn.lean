import Verif.TTOps

set_option autoImplicit false

/-!
# Exact NPN canonization (kitty)

Model of `exact_npn_canonization`, libs/kitty/include/kitty/npn.hpp 154-257, for four variables (the only use in
iMap is `node_rewriting::generate_classes`, node_rewriting.hpp 98-106).
-/

namespace Verif.TT

/-- `swap_adjacent_inplace`, kitty/operations.hpp 451-512: variables `p` and `p + 1` are exchanged. -/
def swapAdj (t : TT) (p : Nat) : TT := t.swap p (p + 1)

/-- `flip_inplace`, kitty/operations.hpp 646-690: the two cofactors of variable `i` are exchanged. -/
def flip (t : TT) (i : Nat) : TT := ofFn t.n fun p => t.get (pos (upd p.testBit i (!p.testBit i)) t.n)

/-- the bits as a number, bit 0 first -/
def num : List Bool → Nat
  | [] => 0
  | b :: l => (if b then 1 else 0) + 2 * num l

/-- `less_than`, kitty/operations.hpp 199-213: comparison as numbers. -/
def less (t u : TT) : Bool := num t.bits < num u.bits

end Verif.TT

namespace Verif.Npn

open TT

/-- `swaps[2]`, kitty/detail/constants.hpp 136 -/
def swaps4 : List Nat := [2, 1, 0, 2, 0, 1, 2, 0, 2, 1, 0, 2, 0, 1, 2, 0, 2, 1, 0, 2, 0, 1, 2]

/-- `flips[2]`, kitty/detail/constants.hpp 151 -/
def flips4 : List Nat := [0, 1, 0, 2, 0, 1, 0, 3, 0, 1, 0, 2, 0, 1, 0]

/-- local variables of `exact_npn_canonization`, npn.hpp 180-192.  `bs` and `bf` are `best_swap + 1` and
`best_flip + 1`. -/
structure St where
  t1 : TT
  t2 : TT
  tmin : TT
  invo : Bool
  bs : Nat
  bf : Nat

/-- `std::min` -/
def minTT (a b : TT) : TT := if b.less a then b else a

/-- the comparison `if ( t1 < tmin || t2 < tmin )`, npn.hpp 203-208, 222-228 and 239-245; `i` and `j` are the
numbers of swaps and flips done. -/
def upd (i j : Nat) (s : St) : St :=
  if s.t1.less s.tmin || s.t2.less s.tmin then
    { s with tmin := minTT s.t1 s.t2, invo := decide (minTT s.t1 s.t2 = s.t2), bs := i, bf := j }
  else s

/-- the loop over `swaps`, npn.hpp 194-209 and 230-246 (the callback `fn` does nothing). -/
def swapLoop : List Nat → Nat → Nat → St → St
  | [], _, _, s => s
  | p :: l, i, j, s => swapLoop l (i + 1) j (upd (i + 1) j { s with t1 := s.t1.swapAdj p, t2 := s.t2.swapAdj p })

/-- the loop over `flips`, npn.hpp 211-247 -/
def flipLoop (swaps : List Nat) : List Nat → Nat → St → St
  | [], _, s => s
  | p :: l, j, s => flipLoop swaps l (j + 1) (swapLoop swaps 0 (j + 1)
      (upd 0 (j + 1) { s with t1 := (s.t1.swapAdj 0).flip p, t2 := (s.t2.swapAdj 0).flip p }))

/-- `std::swap( perm[pos], perm[pos + 1] )`, npn.hpp 252-256 -/
def swapAt (l : List Nat) (p : Nat) : List Nat :=
  match l[p]?, l[p + 1]? with
  | some a, some b => (l.set p b).set (p + 1) a
  | _, _ => l

/-- `phase ^= 1 << flips[i]`, npn.hpp 259-262 -/
def mask (m : Nat) (l : List Nat) : Nat := l.foldl (fun a p => a ^^^ (1 <<< p)) m

/-- `exact_npn_canonization`, npn.hpp 154-265: representative, phase and permutation (for 4 variables the special
cases for 0 and 1 variables do not apply). -/
def canonWith (swaps flips : List Nat) (tt : TT) : TT × Nat × List Nat :=
  let m := minTT tt tt.not
  let s := flipLoop swaps flips 0 (swapLoop swaps 0 0 ⟨tt, tt.not, m, decide (m = tt.not), 0, 0⟩)
  (s.tmin, mask (if s.invo then 1 <<< tt.n else 0) (flips.take s.bf), (swaps.take s.bs).foldl swapAt (List.range tt.n))

/-! ### The word level

`static_truth_table<4>` keeps the table in the low 16 bits of a word (kitty/static_truth_table.hpp 33-62).  The masks
are the low 16 bits of those in kitty/detail/constants.hpp 45-75; the high bits of the word stay 0. -/

/-- the table with the bits of `a` -/
def wordTT (a : Nat) : TT := ofFn 4 a.testBit

/-- `permutation_masks`, kitty/detail/constants.hpp 70-73 -/
def swapMasks : Nat → Nat × Nat × Nat
  | 0 => (0x9999, 0x2222, 0x4444)
  | 1 => (0xc3c3, 0x0c0c, 0x3030)
  | _ => (0xf00f, 0x00f0, 0x0f00)

/-- `swap_adjacent_inplace`, kitty/operations.hpp 451-512 and 497-512, variables below 3 -/
def swapW (p a : Nat) : Nat :=
  (a &&& (swapMasks p).1) ||| ((a &&& (swapMasks p).2.1) <<< (1 <<< p)) ||| ((a &&& (swapMasks p).2.2) >>> (1 <<< p))

/-- `projections`, kitty/detail/constants.hpp 45-49 -/
def projW : Nat → Nat
  | 0 => 0xaaaa
  | 1 => 0xcccc
  | 2 => 0xf0f0
  | _ => 0xff00

/-- `flip_inplace`, kitty/operations.hpp 646-690, variables below 4 -/
def flipW (i a : Nat) : Nat := ((a <<< (1 <<< i)) &&& projW i) ||| ((a &&& projW i) >>> (1 <<< i))

/-- `~tt` followed by `mask_bits`, kitty/operations.hpp 60-66 -/
def notW (a : Nat) : Nat := a ^^^ 0xffff

/-- `force a k = k a` (no counterpart in the code): the number is evaluated before the loops go on. -/
def force {α : Type} (a : Nat) (k : Nat → α) : α :=
  match a with
  | 0 => k 0
  | b + 1 => k (b + 1)

/-- `St` with words, npn.hpp 180-192 -/
structure StW where
  t1 : Nat
  t2 : Nat
  tmin : Nat
  invo : Bool
  bs : Nat
  bf : Nat

/-- `s.force k = k s`, see `force` -/
def StW.force {α : Type} (s : StW) (k : StW → α) : α :=
  Npn.force s.t1 fun t1 => Npn.force s.t2 fun t2 => Npn.force s.tmin fun tmin => Npn.force s.bs fun bs => Npn.force s.bf fun bf =>
    match s.invo with
    | true => k ⟨t1, t2, tmin, true, bs, bf⟩
    | false => k ⟨t1, t2, tmin, false, bs, bf⟩

/-- `std::min` on words -/
def minW (a b : Nat) : Nat := if b < a then b else a

/-- `upd` on words, npn.hpp 203-208, 222-228 and 239-245 -/
def updW (i j : Nat) (s : StW) : StW :=
  if s.t1 < s.tmin ∨ s.t2 < s.tmin then
    { s with tmin := minW s.t1 s.t2, invo := decide (minW s.t1 s.t2 = s.t2), bs := i, bf := j }
  else s

/-- the loop over `swaps` on words, npn.hpp 194-209 and 230-246 -/
def swapLoopW : List Nat → Nat → Nat → StW → StW
  | [], _, _, s => s
  | p :: l, i, j, s =>
    (updW (i + 1) j { s with t1 := swapW p s.t1, t2 := swapW p s.t2 }).force fun s => swapLoopW l (i + 1) j s

/-- the loop over `flips` on words, npn.hpp 211-247 -/
def flipLoopW (swaps : List Nat) : List Nat → Nat → StW → StW
  | [], _, s => s
  | p :: l, j, s =>
    (swapLoopW swaps 0 (j + 1)
      (updW 0 (j + 1) { s with t1 := flipW p (swapW 0 s.t1), t2 := flipW p (swapW 0 s.t2) })).force
        fun s => flipLoopW swaps l (j + 1) s

/-- `exact_npn_canonization` on words, npn.hpp 154-265 -/
def canonW (a : Nat) : Nat × Nat × List Nat :=
  force a fun a =>
    let m := minW a (notW a)
    let s := flipLoopW swaps4 flips4 0 (swapLoopW swaps4 0 0 ⟨a, notW a, m, decide (m = notW a), 0, 0⟩)
    (s.tmin, mask (if s.invo then 1 <<< 4 else 0) (flips4.take s.bf), (swaps4.take s.bs).foldl swapAt (List.range 4))

/-- `exact_npn_canonization`, npn.hpp 154-265, of a table of four variables -/
def canon (tt : TT) : TT × Nat × List Nat :=
  let r := canonW (num tt.bits)
  (wordTT r.1, r.2.1, r.2.2)

end Verif.Npn
