set_option autoImplicit false

/-!
# The interactive shell around the AIG store

The store of AIGs, the `history` command, and the effect other commands have on the store. The
networks themselves are a parameter `α`: a network object only holds a shared pointer to its
storage (`aig_network.hpp` 60-90), so the model keeps a heap of storages and the store keeps
addresses.
-/

namespace Verif.Cli

/-- What the commands leave behind for an observer. `size n` is the line printed by
`history --size` (`cli/command/history.hpp` 51-53); `mapped l` lists the AIGs given to the choice
miter, in the order of the calls of `add_aig`, by `map_fpga --type 1`
(`cli/command/map_fpga.hpp` 88-93). Warnings are not recorded. -/
inductive Event (α : Type) where
  | size (n : Int)
  | mapped (l : List α)
deriving DecidableEq, Repr

/-- State of the shell. `heap` holds the storages, addressed by position. `slots` is the AIG store
(`libs/alice/include/alice/store.hpp` 30-210): its last entry is the current one, because
`extend` makes the new element current (157-163) and no modelled command moves the current index.
The other fields are the members of `history_command` (`cli/command/history.hpp` 64-69), which
live as long as the shell. `out` is the list of events so far. -/
structure St (α : Type) where
  heap : List α
  slots : List Nat
  index : Int
  cclear : Bool
  csize : Bool
  cadd : Bool
  replace : Int
  out : List (Event α)
deriving DecidableEq, Repr

/-- A fresh shell: empty stores, members of `history_command` initialised as in
`cli/command/history.hpp` 64-69. -/
def init {α : Type} : St α :=
  { heap := [], slots := [], index := -1, cclear := false, csize := false, cadd := false,
    replace := -1, out := [] }

/-- The commands modelled. `optimize f g` stands for `rewrite`, `refactor`, `balance`, `lut_opt`
and `cleanup` (`cli/command/*.hpp`): the operation changes the storage of the current AIG by `f`
while it works, and then makes a new storage holding `g` of that the current AIG. For `rewrite` and
`refactor` `f` is the local replacement done in place
(`include/operations/optimization/rewrite.hpp` 143-150, `refactor.hpp` 90-105); for `balance` and
`cleanup` it is the identity. -/
inductive Cmd (α : Type) where
  | read (a : α)
  | history (add size clear : Bool) (replace : Option Int)
  | optimize (f g : α → α)
  | mapChoice

variable {α : Type}

/-- `store()[i] = x`: `operator[]` throws when the index is out of range
(`libs/alice/include/alice/store.hpp` 101-108); a negative `int` becomes a huge `size_t`. -/
def put (slots : List Nat) (i : Int) (x : Nat) : Option (List Nat) :=
  if 0 ≤ i ∧ i < slots.length then some (slots.set i.toNat x) else none

/-- Lines 27-30 of `history_command::execute` (`cli/command/history.hpp`). -/
def execAdd (s : St α) : Option (St α) :=
  if s.cadd && decide (s.index + 1 ≤ 5) then
    match s.slots.getLast? with
    | none => none
    | some cur => (put s.slots (s.index + 1) cur).map fun l =>
        { s with slots := l, index := s.index + 1 }
  else some s

/-- Lines 37-45 of `history_command::execute` (`cli/command/history.hpp`). -/
def execReplace (s : St α) : Option (St α) :=
  if s.replace = -1 then some s
  else if s.replace > s.index ∨ s.replace < -1 then some s
  else
    match s.slots.getLast? with
    | none => none
    | some cur => (put s.slots s.replace cur).map fun l => { s with slots := l }

/-- Lines 47-60 of `history_command::execute` (`cli/command/history.hpp`). -/
def execEnd (s : St α) : St α :=
  let i := if s.cclear then -1 else s.index
  { s with
    index := i
    out := if s.csize then s.out ++ [Event.size (i + 1)] else s.out
    cclear := false, csize := false, cadd := false, replace := -1 }

/-- `history_command::execute` (`cli/command/history.hpp` 21-61). The early returns of lines 24
and 34 leave the flags as they are. -/
def execHistory (s : St α) : Option (St α) :=
  if s.slots = [] then some s
  else
    (execAdd s).bind fun s1 =>
      if s1.index + 1 > 5 then some s1
      else (execReplace s1).map execEnd

/-- `read_aiger_command::execute` (`cli/command/io/read_aiger.hpp` 21-37): the AIG store is cleared
and extended six times, each time with a default-constructed network `e` that owns a new storage;
the reader fills the last one with the design `a`. The members of `history_command` are not
touched. Simplified: a read that fails and the other two stores are left out; storages no longer
referenced stay on the heap. -/
def execRead (e : α) (s : St α) (a : α) : St α :=
  { s with
    heap := s.heap ++ [e, e, e, e, e, a]
    slots := (List.range 6).map (s.heap.length + ·) }

/-- Effect of an optimisation command on the store (`cli/command/rewrite.hpp` 39-47,
`refactor.hpp` 39-48, `balance.hpp` 25, `cleanup.hpp` 25, `lut_opt.hpp` 57-71); see `Cmd`. With an
empty store the command only warns. -/
def execOptimize (s : St α) (f g : α → α) : Option (St α) :=
  if s.slots = [] then some s
  else
    match s.slots.getLast? with
    | none => none
    | some cur =>
        match s.heap[cur]? with
        | none => none
        | some v => some
            { s with
              heap := s.heap.set cur (f v) ++ [g (f v)]
              slots := s.slots.dropLast ++ [s.heap.length] }

/-- The AIGs that `map_fpga --type 1` hands to the choice miter (`cli/command/map_fpga.hpp`
82-93): every history slot, from the last to the first, whose network has a gate. `gates` is
`num_gates`. Simplified: the mapping itself and its result in the LUT store are left out. -/
def execMap (gates : α → Nat) (s : St α) : Option (St α) :=
  if s.slots = [] then some s
  else
    (s.slots.dropLast.reverse.mapM (s.heap[·]?)).map fun l =>
      { s with out := s.out ++ [Event.mapped (l.filter fun a => decide (gates a > 0))] }

/-- One command line. A flag given sets the member, a flag not given leaves it alone: the callback
of `add_flag` only ever stores `true` and runs only for options present
(`libs/alice/lib/cli11/CLI11.hpp` 1836-1852, `libs/alice/include/alice/command.hpp` 540-597);
likewise for the option value. `none` is an exception leaving the command. -/
def step (e : α) (gates : α → Nat) (s : St α) : Cmd α → Option (St α)
  | .read a => some (execRead e s a)
  | .history add size clear r =>
      execHistory { s with
        cadd := s.cadd || add, csize := s.csize || size, cclear := s.cclear || clear
        replace := r.getD s.replace }
  | .optimize f g => execOptimize s f g
  | .mapChoice => execMap gates s

/-- A session (`libs/alice/include/alice/cli.hpp`: commands are run one after the other). -/
def run (e : α) (gates : α → Nat) : St α → List (Cmd α) → Option (St α)
  | s, [] => some s
  | s, c :: cs => (step e gates s c).bind fun s' => run e gates s' cs

end Verif.Cli
