set_option autoImplicit false

/-!
# Parameters and rounds of the LUT mapper

Model of `klut_mapping_params` and of the control skeleton of `klut_mapping_impl`
(include/operations/algorithms/klut_mapping.hpp 79-105, 147-315) and of the option handling of the shell
command `map_fpga` (cli/command/map_fpga.hpp 22-76).
-/

namespace Verif.Mapper

/-- `enum ETypeCmp`, include/database/cut/cut.hpp 34-39. -/
inductive Cmp
  | default | delay | delay2 | area
deriving DecidableEq, Repr

/-- `enum ETypeMode`, include/database/cut/cut.hpp 44-49. -/
inductive Mode
  | default | delay | area | flow
deriving DecidableEq, Repr

/-- `cut_enumeration_params`, include/database/cut/cut_enumeration.hpp 44-63. -/
structure CutPs where
  cutSize : Nat := 4
  cutLimit : Nat := 25
  faninLimit : Nat := 10
  minimize : Bool := false
  verbose : Bool := false
  veryVerbose : Bool := false
deriving DecidableEq, Repr

/-- `klut_mapping_params`, klut_mapping.hpp 79-105 with the constructor's changes of the cut parameters.
Simplifications: the `float` members are given in thousandths; `eCutMode` has no initialiser in the code
(`default` here, it is always overwritten). -/
structure Ps where
  cut : CutPs := { cutSize := 6, cutLimit := 10 }
  bPreprocess : Bool := true
  bArea : Bool := false
  bEdge : Bool := true
  bPower : Bool := false
  bFancy : Bool := false
  bZeroGain : Bool := true
  uFlowIters : BitVec 8 := 1
  uAreaIters : BitVec 8 := 2
  eSortMode : Cmp := .delay
  eCutMode : Mode := .default
  bUseLutLib : Bool := false
  iDelayTraget : Int := -1
  andDelay : Int := 1000
  andArea : Int := 1000
  epsilon : Int := 5
  bDebug : Bool := false
  verbose : Bool := false
deriving DecidableEq, Repr

/-- `init_parameters`, klut_mapping.hpp 173-188. -/
def initParameters (p : Ps) : Ps :=
  { p with
    bPreprocess := true
    bArea := false
    bEdge := true
    bPower := false
    bFancy := false
    eSortMode := .delay
    eCutMode := .delay
    bUseLutLib := false
    uFlowIters := 1
    uAreaIters := 2
    iDelayTraget := -1
    epsilon := 5
    verbose := false }

/-- A call of `perform_mapping_round(mode, preprocess, first)` together with the parameters during the
call, after the mode and sort order have been set (klut_mapping.hpp 262-294). -/
structure Round where
  mode : Nat
  preprocess : Bool
  first : Bool
  ps : Ps
deriving DecidableEq, Repr

/-- beginning of `perform_mapping_round`, klut_mapping.hpp 267-294: the evaluation mode and the sort
order of the round. The body of the round does not change the parameters. -/
def round (mode : Nat) (preprocess first : Bool) (p : Ps) : Round :=
  let p := { p with eCutMode := if mode = 2 then .area else .flow }
  let p := { p with eSortMode := if mode ≠ 0 ∨ p.bArea then .area else if p.bFancy then .delay2 else .delay }
  ⟨mode, preprocess, first, p⟩

/-- the loops of `perform_mapping`, klut_mapping.hpp 239-249: `k` rounds with the given mode. -/
def rounds (mode : Nat) : Nat → Ps → List Round
  | 0, _ => []
  | k + 1, p => let r := round mode false false p
                r :: rounds mode k r.ps

/-- parameters left by a list of rounds -/
def after (p : Ps) (l : List Round) : Ps := (l.getLast?.map (·.ps)).getD p

/-- rounds performed by `perform_mapping`, klut_mapping.hpp 194-252: the preprocessing rounds (217-237),
the area flow rounds (239-243) and the exact area rounds (245-249). -/
def performMapping (p : Ps) : List Round :=
  let pre :=
    if p.bPreprocess && !p.bArea then
      let r1 := round 0 true true p
      let r2 := round 0 true false { r1.ps with bFancy := true }
      let r3 := round 0 true false { r2.ps with bFancy := false, bArea := true }
      ([r1, r2, r3], { r3.ps with bArea := false })
    else
      let r := round 0 false true p
      ([r], r.ps)
  let flow := rounds 1 p.uFlowIters.toNat pre.2
  let p := after pre.2 flow
  let area := rounds 2 p.uAreaIters.toNat p
  pre.1 ++ flow ++ area

/-- `klut_mapping_impl::run`, klut_mapping.hpp 147-161: the rounds of a mapping run with user parameters `p`. -/
def run (p : Ps) : List Round := performMapping (initParameters p)

/-- options of `map_fpga`, map_fpga.hpp 115-121. -/
structure Options where
  prioritySize : Nat := 10
  cutSize : Nat := 6
  flowIter : Nat := 1
  areaIter : Nat := 2
  type : Int := 0
  verbose : Bool := false
deriving DecidableEq, Repr

/-- `map_fpga_command::execute`, map_fpga.hpp 41-75: range checks and the parameters handed to the
mapper; `none` stands for the warning and early return. -/
def Options.params (o : Options) : Option Ps :=
  if o.prioritySize < 6 ∨ 20 < o.prioritySize then none
  else if o.cutSize < 2 ∨ 6 < o.cutSize then none
  else if o.type ≠ 0 ∧ o.type ≠ 1 then none
  else if o.flowIter < 1 ∨ 2 < o.flowIter then none
  else if o.areaIter < 1 ∨ 3 < o.areaIter then none
  else some { cut := { cutSize := o.cutSize, cutLimit := o.prioritySize }
              uFlowIters := BitVec.ofNat 8 o.flowIter, uAreaIters := BitVec.ofNat 8 o.areaIter
              verbose := o.verbose }

end Verif.Mapper
