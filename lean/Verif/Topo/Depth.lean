import Verif.Topo.Basic

set_option autoImplicit false

/-!
# Depth view

Model of `include/database/views/depth_view.hpp` 115-282.
-/

namespace Verif.Topo

/-- What `compute_levels` reads of the network and of its parameters. -/
structure DepthParam where
  /-- fanin signals of `foreach_fanin` -/
  fanins : Nat → List Sig
  /-- `is_constant(n) || is_pi(n)` -/
  term : Nat → Bool
  /-- `_cost_fn` -/
  cost : Nat → Nat
  /-- `_ps.count_complements` -/
  countCompl : Bool

/-- visited marks and the `_levels` map (depth_view.hpp 277-280). Levels are natural numbers. -/
structure DSt where
  vis : Nat → Nat
  lev : Nat → Nat

/-- update of a map -/
def upd (f : Nat → Nat) (n k : Nat) : Nat → Nat := fun m => if m = n then k else f m

/-- `clevel++` for complemented fanins, depth_view.hpp 207-211. -/
def DepthParam.extra (p : DepthParam) (f : Sig) : Nat := if p.countCompl && f.compl then 1 else 0

/-- the `foreach_fanin` loop of `compute_levels`, depth_view.hpp 205-213 -/
def levelKids (p : DepthParam) (rec : Nat → DSt → Option (DSt × Nat)) : List Sig → DSt → Nat → Option (DSt × Nat)
  | [], s, level => some (s, level)
  | f :: l, s, level => match rec f.index s with
    | none => none
    | some (s, c) => levelKids p rec l s (max level (c + p.extra f))

/-- `compute_levels(n)`, depth_view.hpp 192-216. -/
def levelRec (p : DepthParam) (trav : Nat) : Nat → Nat → DSt → Option (DSt × Nat)
  | 0, _, _ => none
  | f + 1, n, s =>
    if s.vis n = trav then some (s, s.lev n)
    else
      let s : DSt := ⟨upd s.vis n trav, s.lev⟩
      if p.term n then some (⟨s.vis, upd s.lev n 0⟩, 0)
      else match levelKids p (levelRec p trav f) (p.fanins n) s 0 with
        | none => none
        | some (s, level) => some (⟨s.vis, upd s.lev n (level + p.cost n)⟩, level + p.cost n)

/-- the `foreach_po` loop of `compute_levels()`, depth_view.hpp 218-228; the last argument is `_depth`. -/
def levelPos (p : DepthParam) (trav fuel : Nat) : List Sig → DSt → Nat → Option (DSt × Nat)
  | [], s, d => some (s, d)
  | f :: l, s, d => match levelRec p trav fuel f.index s with
    | none => none
    | some (s, c) => levelPos p trav fuel l s (max d (c + p.extra f))

/-- `update_levels`, depth_view.hpp 170-177: all levels are reset to 0, the traversal id is incremented;
result: levels and depth. -/
def updateLevels (p : DepthParam) (pos : List Sig) (vis : Nat → Nat) (travId fuel : Nat) : Option (DSt × Nat) :=
  levelPos p (travId + 1) fuel pos ⟨vis, fun _ => 0⟩ 0

/-- fanin signals of an AIG node, aig_network.hpp 1091-1125. -/
def aigFanins (N : Aig) (n : Nat) : List Sig :=
  if n = 0 ∨ N.isCi n then [] else
    match N.nodes[n]? with
    | some nd => [nd.c0, nd.c1]
    | none => []

/-- `depth_view{ ntk }` with unit cost (depth_view.hpp 120-139): levels and depth. -/
def depthView (N : Aig) (countCompl : Bool) (fuel : Nat) : Option (DSt × Nat) :=
  updateLevels ⟨aigFanins N, fun n => n == 0 || N.isPi n, fun _ => 1, countCompl⟩ (N.outputs.take N.numPos)
    (visOf N) N.travId fuel

end Verif.Topo
