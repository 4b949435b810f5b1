set_option autoImplicit false

/-!
# Call-backs of networks and the views that register them

A network object holds two shared pointers, to its storage and to its events, the lists of call-backs
(`include/database/network/aig_network.hpp` 1330-1331). The model keeps the events objects and the views whose call-backs they hold; what
the storages contain does not matter here, only how many nodes are created. The outcome `none` stands for undefined behaviour: a call-back
that runs after its view was destroyed, or a network that does not exist.
-/

namespace Verif.Cli.Events

/-- All events objects and all views made so far, addressed by position. `hooks` lists for every events object the views whose `on_add` it
calls (`include/database/network/details/events.hpp` 30-36, only `on_add` is modelled; the call-backs of `on_delete` are removed by
the function that adds them, `aig_network.hpp` 659 and 716). `alive` tells whether the object of a view still exists. -/
structure Heap where
  hooks : List (List Nat)
  alive : List Bool
deriving DecidableEq, Repr

/-- A new events object without call-backs: both constructors of `aig_network` (168-178) and of `klut_network`
(`include/database/network/klut_network.hpp` 70-82). Copying a network makes none: the copy shares the old one. -/
def newEvents (h : Heap) : Nat × Heap := (h.hooks.length, { h with hooks := h.hooks ++ [[]] })

/-- The constructors of `depth_view` add a call-back that holds `this` to the events of the network they copy
(`include/database/views/depth_view.hpp` 112 and 138). The levels the view computes are left out. -/
def openView (e : Nat) (h : Heap) : Option (Nat × Heap) :=
  match h.hooks[e]? with
  | none => none
  | some l => some (h.alive.length, ⟨h.hooks.set e (l ++ [h.alive.length]), h.alive ++ [true]⟩)

/-- The end of a view's life. `depth_view` (`include/database/views/depth_view.hpp` 88-282) has no destructor of its own: the call-back
stays in the list. -/
def closeView (v : Nat) (h : Heap) : Heap := { h with alive := h.alive.set v false }

/-- `create_and` of a pair that is not in the table yet (`include/database/network/aig_network.hpp` 361-364) and the creation of a LUT
(`klut_network.hpp` 351-354): all call-backs of the events of the network run. The call-back of `depth_view` writes the members of
the view only (`depth_view.hpp` 260-275), which are left out. -/
def addNode (e : Nat) (h : Heap) : Option Heap :=
  match h.hooks[e]? with
  | none => none
  | some l => if l.all (fun v => h.alive[v]? == some true) then some h else none

/-- The creation of `k` nodes one after the other, see `addNode` (`include/database/network/aig_network.hpp` 361-364). -/
def addNodes (e : Nat) : Nat → Heap → Option Heap
  | 0, h => some h
  | k + 1, h => (addNode e h).bind (addNodes e k)

/-- A new network into which `k` nodes are put: the `dest` of `cleanup_dangling` (`include/operations/algorithms/cleanup.hpp` 436-447),
the LUT network of `choice_to_klut` and the AIG of `convert_klut_to_aig` (`cli/command/lut_opt.hpp` 68-69). -/
def build (k : Nat) (h : Heap) : Option (Nat × Heap) :=
  match newEvents h with
  | (e, h1) => (addNodes e k h1).map fun h2 => (e, h2)

/-- `rewrite` (`include/operations/optimization/rewrite.hpp` 75-151, 347-356) and `refactor` (`refactor.hpp` 76-106, 592-605): `k` nodes are
created in the given network itself, then `m` in the result of `cleanup_dangling`. -/
def resynthesize (e k m : Nat) (h : Heap) : Option (Nat × Heap) :=
  (addNodes e k h).bind (build m)

/-- `balance_and` (`include/operations/optimization/and_balance.hpp` 360-365): the members `_aig`, a view of the given network, and `_new_aig`,
a view of a new one (37, 353-354); `k` nodes are created in the latter (54-59); `cleanup_dangling` makes a third view and creates `m`
nodes there (61, `cleanup.hpp` 436), whose object ends when `run` has copied its base; a new network is made from the storage alone (364), and
the two members end. -/
def balance (e k m : Nat) (h : Heap) : Option (Nat × Heap) :=
  match openView e h with
  | none => none
  | some (v1, h1) =>
    match newEvents h1 with
    | (e2, h2) =>
      match openView e2 h2 with
      | none => none
      | some (v2, h3) =>
        match addNodes e2 k h3 with
        | none => none
        | some h4 =>
          match newEvents h4 with
          | (e3, h5) =>
            match openView e3 h5 with
            | none => none
            | some (v3, h6) =>
              match addNodes e3 m h6 with
              | none => none
              | some h7 =>
                match newEvents (closeView v3 h7) with
                | (e4, h8) => some (e4, closeView v1 (closeView v2 h8))

/-- `write_dot` (`include/operations/io/detail/write_dot.hpp` 301-362): for the level of the first node the drawer makes a view of the network it draws
(64-72; every network has the constant node). The drawer is a temporary, made for the default argument (377), so the view ends with the call. -/
def draw (e : Nat) (h : Heap) : Option Heap :=
  match openView e h with
  | none => none
  | some (v, h1) => some (closeView v h1)

/-- `print_stats` (`cli/command/print_stats.hpp` 27-29, 36-38): the view is made of a network constructed from the storage alone, which has
events of its own. -/
def stats (h : Heap) : Option Heap :=
  match newEvents h with
  | (e, h1) =>
    match openView e h1 with
    | none => none
    | some (v, h2) => some (closeView v h2)

/-- The shell: the events of the networks in the AIG store, of which the last is the current one (see `Verif.Cli.St`), and of the network in the
LUT store (`cli/command/map_fpga.hpp` 66-68, 102, 112). -/
structure Sh where
  heap : Heap
  aigs : List Nat
  lut : Option Nat
deriving DecidableEq, Repr

/-- The shell when it starts: empty stores (`libs/alice/include/alice/store.hpp` 30-60). -/
def start : Sh := ⟨⟨[], []⟩, [], none⟩

/-- The commands, with the numbers of nodes they create. `rewrite k m` and `refactor k m`: `k` in the current network, `m` in the result.
`balance k m`: in the two networks made on the way. `lutOpt k m`: LUTs, gates of the result. `save i`: `history` stores the current network in slot `i`.
`mapFpga k`: LUTs, `mapChoice a k`: nodes of the merged networks, LUTs. `writeDot`/`writeDotLut`: `write_dot` with type 0 and 1. `other`: commands that make no network
and no view: `write_aiger`, `write_verilog`, `write_fpga`, `history` without an action, lines refused with a warning
(`cli/command/*.hpp`, `cli/command/io/*.hpp`). -/
inductive Cmd where
  | read (k : Nat)
  | rewrite (k m : Nat)
  | refactor (k m : Nat)
  | balance (k m : Nat)
  | cleanup (m : Nat)
  | lutOpt (k m : Nat)
  | save (i : Nat)
  | printStats
  | printStatsLut
  | writeDot
  | writeDotLut
  | mapFpga (k : Nat)
  | mapChoice (a k : Nat)
  | other
deriving DecidableEq, Repr

/-- `read_aiger` (`cli/command/io/read_aiger.hpp` 21-37): six new networks, the reader puts `k` nodes into the last; the LUT store is emptied with a
full AIG store (22-26). -/
def execRead (s : Sh) (k : Nat) : Option Sh :=
  let n := s.heap.hooks.length
  let h := { s.heap with hooks := s.heap.hooks ++ List.replicate 6 [] }
  (addNodes (n + 5) k h).map fun h' =>
    ⟨h', [n, n + 1, n + 2, n + 3, n + 4, n + 5], if s.aigs = [] then s.lut else none⟩

/-- A command that puts the result of `f` in the place of the current network (`cli/command/rewrite.hpp` 39-47, `refactor.hpp` 39-48, `balance.hpp` 25,
`cleanup.hpp` 25, `lut_opt.hpp` 57-71); with an empty store it only warns. -/
def replaceCurrent (s : Sh) (f : Nat → Heap → Option (Nat × Heap)) : Option Sh :=
  match s.aigs.getLast? with
  | none => some s
  | some e => (f e s.heap).map fun p => { s with heap := p.2, aigs := s.aigs.dropLast ++ [p.1] }

/-- A command that only looks at the current network (`cli/command/print_stats.hpp` 22-30, `cli/command/io/write_dot.hpp` 22-28). -/
def lookAt (s : Sh) (f : Nat → Heap → Option Heap) : Option Sh :=
  match s.aigs.getLast? with
  | none => some s
  | some e => (f e s.heap).map fun h => { s with heap := h }

/-- The same for the LUT network (`cli/command/print_stats.hpp` 31-39, `cli/command/io/write_dot.hpp` 29-36). -/
def lookAtLut (s : Sh) (f : Nat → Heap → Option Heap) : Option Sh :=
  match s.lut with
  | none => some s
  | some e => (f e s.heap).map fun h => { s with heap := h }

/-- `map_fpga` (`cli/command/map_fpga.hpp` 82-113): the mapped AIG shares the events of the current network without choices (105-107), and is new with
choices (88-98); no node is created in the stored networks; the LUT network is new. -/
def execMap (s : Sh) (f : Heap → Option (Nat × Heap)) : Option Sh :=
  if s.aigs = [] then some s
  else (f s.heap).map fun p => { s with heap := p.2, lut := some p.1 }

/-- One command line. `history` makes a new network from the storage of the current one and assigns it to slot `i`
(`cli/command/history.hpp` 28-29, 43-44); a slot outside the store throws (`none`), see `Verif.Cli.put`. -/
def step (s : Sh) : Cmd → Option Sh
  | .read k => execRead s k
  | .rewrite k m => replaceCurrent s fun e => resynthesize e k m
  | .refactor k m => replaceCurrent s fun e => resynthesize e k m
  | .balance k m => replaceCurrent s fun e => balance e k m
  | .cleanup m => replaceCurrent s fun _ => build m
  | .lutOpt k m => replaceCurrent s fun _ h => (build k h).bind fun p => build m p.2
  | .save i =>
    if s.aigs = [] then some s
    else if i < s.aigs.length then
      match newEvents s.heap with
      | (e, h) => some { s with heap := h, aigs := s.aigs.set i e }
    else none
  | .printStats => lookAt s fun _ => stats
  | .printStatsLut => lookAtLut s fun _ => stats
  | .writeDot => lookAt s draw
  | .writeDotLut => lookAtLut s draw
  | .mapFpga k => execMap s (build k)
  | .mapChoice a k => execMap s fun h => (build a h).bind fun p => build k p.2
  | .other => some s

/-- A session: the commands one after the other (`libs/alice/include/alice/cli.hpp` 266-307). -/
def run : Sh → List Cmd → Option Sh
  | s, [] => some s
  | s, c :: cs => (step s c).bind fun s' => run s' cs

/-- A script of the flow on the network with the events `e`: `rewrite` and `balance_and` in turn, each on the result of the one before
(`include/flow/flow_manager.hpp` 162-211). `true`: rewrite. -/
def script : List (Bool × Nat × Nat) → Nat → Heap → Option (Nat × Heap)
  | [], e, h => some (e, h)
  | (true, k, m) :: l, e, h => (resynthesize e k m h).bind fun p => script l p.1 p.2
  | (false, k, m) :: l, e, h => (balance e k m h).bind fun p => script l p.1 p.2

end Verif.Cli.Events
