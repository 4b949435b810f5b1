# Formal model of iMap: design

Source modelled: `/repo` (OSCC-Project/iMap), read as text.  The proofs are in Lean 4.33.0 with
Mathlib, in `lean/Verif/`.  `properties.jsonl` has the English claims (ids C01...), `MANIFEST.json`
maps them to theorem names and states, `seeded/LOG.jsonl` records the mutation tests.

## 1. Trusted base

* The Lean kernel (and `lake`/`lean` front end to feed it).
* Axioms: the theorems listed in `MANIFEST.json` depend on subsets of `propext`, `Classical.choice`,
  `Quot.sound`; section 6 lists the axioms of every one of them, as printed by `#print axioms`.
  No own axioms, no `sorry`, no `native_decide`, no `bv_decide`.
* The reading of the C++ source: every model definition cites the file and lines it mirrors, and says
  where it simplifies.  That reading is not machine checked.
* Global simplifications (valid for every module unless it says otherwise):
  * The default build type is Release with `-DNDEBUG`: `assert`s are off, so the model gives no effect
    to them (an `assert` never rescues the code in the model).
  * node indices and counters are `Nat`; wrap-around of 63-bit indices and 31/32-bit counters is not
    modelled (a network would need > 2^31 fanouts).  Where 64-bit words matter (packed signals, cut
    signatures, hash keys, cubes, SOP products, user values, AIGER literals) they are modelled as bit
    vectors or with modulo arithmetic.
  * floating point costs of the mapper are integers (thousandths) or an arbitrary oracle.
  * vector growth, allocation failure, wall-clock timing, progress bars, verbose printing: not modelled.
  * C++ undefined behaviour is a distinct outcome (`none`, `Stop.undefined`, `.hang`) where it can occur.
  * Recursive functions of the code get a bound on the recursion depth ("fuel"); exceeding it is the
    outcome `none` (or `Stop.bound`), so that "whenever a result comes back" covers every terminating run,
    and termination theorems say which bound suffices.

## 2. Semantics used in the statements (independent of the code)

A *valuation* `v : Nat -> Bool` gives a value to each node.  It is *consistent* with a network under an
input assignment `x` if the constant node is false, the k-th input node has value `x k`, and each live
gate's value is the conjunction of its (possibly complemented) fanin values (`Verif/Aig/Spec.lean`).
"Output i computes b under x" means: in a consistent valuation output i has value b.  Constructed
networks have exactly one consistent valuation; this existence/uniqueness is itself a theorem
(`C02_meaning`).  `Built N` says that `N` arises from the empty network by any sequence of
`create_pi/ro/po/ri/and` calls.  LUT networks have the analogous specification in `Verif/Klut/Spec.lean`,
Verilog modules and LUT netlists a reading of their statements (`VModule.Run`, `LutModule.Run`), AIGER files
a denotation of their literals.  Nothing in these definitions uses hash tables, reference counts or any
algorithm of the code base.

## 3. Modelled code

| source (under /repo) | model | extent |
|---|---|---|
| include/database/network/details/{signal,node,storage,node_hash}.hpp | Signal, Aig/Basic, Strash/* | all members used by the networks; `storage` hash vector with `next` links |
| include/database/network/aig_network.hpp | Aig/{Basic,Gates,Subst,Sim} | constructors, derived gates, `find_and`, `substitute_node`, `take_out_node`, `replace_in_*`, simulation (`compute`), user values, iteration. Life time of the `on_add` call-backs: Cli/Events. Not: serialisation, other events |
| include/database/network/klut_network.hpp | Klut/{Basic,Subst} | constructors, `compute`, user values, counters, `substitute_node`. Not: events |
| include/database/views/{topo,depth,mapping}_view.hpp | Topo/*, Klut/Mapping | construction, levels, growing through a depth view (Topo/Grow), packed mapping. Not: `set_level`, `set_depth`, `set_critical_path` (not called), `immutable_view` (empty wrappers) |
| include/operations/algorithms/cleanup.hpp | Aig/Cleanup, Klut/CleanupLuts | `cleanup_dangling`, `cleanup_luts` (LUT networks) |
| include/operations/algorithms/ref_deref.hpp, rewrite.hpp 258-292 | RefDeref/* | all |
| include/operations/algorithms/detail/checker_4_mapped_graph.hpp | Cnf/Checker | without messages and dot files; the SAT solver is an oracle with its specification |
| include/operations/algorithms/{miter,equivalence_checking,cnf}.hpp | Aig/Miter, Cnf/Basic, Cnf/Klut | AIGs and LUT networks; kitty `cnf_characteristic`; the SAT solver is an oracle with its specification |
| include/operations/algorithms/simulation.hpp | Aig/Sim, Sim/Pack, Sim/Partial | `simulate`, `simulate_nodes`, `simulate_node`, `bit_packed_simulator`, simulation and re-simulation with partial truth tables (AIG) |
| include/operations/algorithms/klut_mapping.hpp | Mapping/* | parameters, rounds, cut handling, reference counting, final cover; cost functions are an oracle in Map.lean and modelled with rational numbers in Timed.lean |
| include/operations/algorithms/network_to_klut.hpp, detail/convert_to_aig.hpp | Klut/Collapse, Klut/ToAig, Isop | both overloads, kitty `isop` |
| include/operations/algorithms/{aig_with_choice,choice_miter}.hpp | Choice/* | `set_choice`, `check_tfi`, mux recognition, `merge_aigs_to_miter` |
| include/operations/algorithms/choice_computation.hpp | Choice/Classes, Choice/Prover, Choice/Sweep, Choice/Derive | all of it: `cand_equiv_classes`, `sat_prover`, `choice_computation`. The SAT solver is an oracle (a function of the call number, clauses and assumptions), its variable limit is modelled; random numbers are a sequence |
| include/database/cut/*.hpp, include/utils/truth_table_cache.hpp | Cut/*, TTCache, TTOps | cuts, cut sets, enumeration with and without minimisation |
| include/operations/optimization/and_balance.hpp | Balance/{Basic,Proof,Depth} | all (AIG branches) |
| include/operations/optimization/balancing.hpp, balancing/{sop_balancing,utils}.hpp | Balance/{Sop,SopProof} | all; the order of equal elements in the priority queues is a parameter |
| include/operations/optimization/{rewrite,refactor}.hpp, detail/{node_rewriting,database_npn4_aig,sop_refactoring}.hpp | Rewrite/*, Refactor/*, Sop/* | all; the shipped database words are a parameter |
| libs/kitty: npn.hpp, isop.hpp, cube.hpp, print.hpp `to_hex`, partial_truth_table `add_bit`, basic operations | Rewrite/Npn, Isop, Io/Hex, TT* | what the code above calls |
| include/operations/io: AIGER reader and writer, Verilog and LUT writers, reader.hpp | Aiger/*, Io/* | bytes of AIGER files; statements of Verilog files as structured data |
| cli/command/{history,map_fpga,print_stats,...}.hpp, cli/cache.hpp | Cli/{History,MapChoice,Stats,Events}, Mapping/{Params,Command} | store, history, option checks, `map_fpga` with and without choices, `print_stats`, life times of views |
| libs/alice/lib/cli11/CLI11.hpp, libs/alice/include/alice/command.hpp, cli/command/{rewrite,refactor,lut_opt,map_fpga}.hpp | Cli/Options* | flags and single-valued integer options, from the arguments to the parameters of the operation. Not: positional, vector and string options, subcommands, quotes |
| include/flow/flow_manager.hpp, include/operations/algorithms/debugger.hpp | Flow/Basic | `dch_compress`, `dch_compress2`, `choice_synthesis`, `mapper`, the verification step, `debug_by_miter` (the reading and `choice_synthesis_abc` are in Flow/Files, `write_out` in Flow/Write) |
| include/operations/algorithms/circuit_validator.hpp | Validator/Basic | everything but `use_odc = true` |
| include/operations/io/detail/write_dot.hpp | Io/Dot (reader: Io/DotRead) | default drawer, as text; `gate_dot_drawer` not |
| include/operations/algorithms/detail/checker_4_mapped_graph_parallel.hpp | Cnf/CheckerPar | the compiled branch of `run`; threads as an order of the iterations and a predicate for conflicts; `collect_fanin_cone_nodes_root_to_leaf` (not called) not |
| include/flow/configer.hpp, include/flow/flow_manager.hpp `configure`, libs/json `operator[]`, `get` | Flow/Config | from parsed documents; the JSON parser not |
| include/flow/flow_manager.hpp `report`, klut_network.hpp `get_detailed_lut_statics` | Flow/Report | all but the delay |
| include/flow/flow_manager.hpp `read_in`, `choice_synthesis_abc`, `run` up to the mapping; reader.hpp `Reader` | Flow/Files | all but the expansion of file names by the shell |
| include/flow/flow_manager.hpp `write_out`; writer.hpp `write2Verilog`, `write2LUT` | Flow/Write | paths and contents; not the folders made by the shell, files that cannot be opened, the files for debugging |
| cli/command/io/read_aiger.hpp, map_fpga.hpp, io/write_fpga.hpp, io/write_verilog.hpp, io/write_aiger.hpp (stores across commands) | Cli/Fpga | the current AIG, LUT network and names; the history is in Cli/History, choices in Cli/MapChoice, print_stats in Cli/Stats |

Not modelled at all: `gate_dot_drawer` (write_dot.hpp 110-284, not used),
`balance.hpp` (no caller), `ai_infra`, the
third-party libraries other than the kitty and lorina functions above.

## 4. Properties

"How" names the proof technique; the state column is that of `MANIFEST.json`, the note says what is
missing in a partial claim.  A `_violated`/`_undefined`/`_limit` theorem is a machine-checked witness that
the code breaks the unrestricted claim.

| id | claim | what is modelled | how it is proved | state | note |
|---|---|---|---|---|---|
| C01 | Complemented-edge algebra | `signal` bit-field operators on 64-bit words | bit-vector lemmas, all words | proved |  |
| C02 | create_and computes conjunction and disturbs nothing | `create_pi/po/ro/ri/and` on the node vector, strash table as list | invariant over all construction histories, value lemma | proved |  |
| C03 | Derived gates compute their named function | all derived constructors, `tree_reduce` | composition of C02; induction on argument list | proved |  |
| C04 | Structural hashing is canonical | same | invariant: table = gates, no two gates with the same pair | proved |  |
| C05 | find_and agrees with create_and | `find_and` | by C04 invariant | proved |  |
| C06 | Index order is topological while only constructing | same | invariant | proved |  |
| C07 | fanout_size is exact | fanout counters in `create_and/po/ri` | invariant: counter = counted references | proved |  |
| C08 | Size bookkeeping | counters `num_pis`, `num_pos`, `num_entries`, `foreach_gate` | invariant | proved |  |
| C09 | phase bit is the all-zero simulation value | phase bits | invariant + uniqueness of the all-zero valuation | proved |  |
| C10 | Strash table refines a finite map | hash vector + `next` links, `hash_find/insert/reserve/erase` | refinement: chains represent lists, abstraction = finite map | proved | Precondition made explicit (distinct stored pairs, erase only stored nodes); C10_erase_absent_removes_other shows what a release build does outside it. |
| C11 | substitute_node preserves outputs | `substitute_node` worklist, `replace_in_node`, `replace_in_outputs`, `take_out_node` | semantic preservation for consistent valuations; witness for the negation | partial | The full claim is false for the code: C11_violated has a witness in which the output ends on a removed node. The partial theorem proves that every valuation of the network stays one and outputs keep their values when dead nodes keep their equations; acyclicity of the result is not proved. |
| C12 | No dead node is handed out | same | witness of the violation, invariant for construct-only histories | partial | Proved for construction-only histories; false with substitution, witness C12_violated. |
| C13 | MFFC probing leaves no trace | `recursive_deref/ref` with leaf predicate | mutual induction on rank: ref after deref is identity | proved | Generic in fanins, terminal condition and cost, 32-bit wrapping counters; cost sums are natural numbers. |
| C14 | cleanup_dangling preserves behaviour | `cleanup_dangling_impl` | simulation relation old node -> new signal | partial | Proved for networks without registers (functions: any acyclic network incl. dead nodes; no dangling gate and size: constructed networks). With registers the claim is false: C14_violated_registers. |
| C15 | topo_view order | `create_topo_rec` DFS with marks | DFS invariant | proved | Any acyclic network in any index order; foreach_gate for networks without registers. C15_foreach_gate_registers is a witness that foreach_gate also visits register outputs when registers exist. |
| C16 | depth_view levels | `compute_levels` recursion | specification by longest paths; induction | proved | Generic in the fanin and cost functions of the view. C16_register_level records that a register output gets level 1. |
| C17 | AND balancing preserves behaviour | `and_balance_impl` | semantic invariant for super-gate collection, each step keeps the conjunction | partial | All constructed networks without registers, all implementations of std::sort, all assignments. Register outputs are taken for AND gates, so the claim fails with registers (C17_violated_registers). The final copy of a gate-free network reads a level outside its vector (C17_violated_levels). |
| C18 | Cut domination test is subset | `dominates` with signatures | signature monotonicity lemma | proved | for all sorted cuts with matching signature |
| C19 | Cut merge is bounded set union | `merge` with `popcount(sigA+sigB)` reject and `std::set_union` into a bounded array | popcount(a+b) <= popcount(a|b); UB outcome for array overflow | partial | exact result for all inputs where the leaf array is not overrun; in full when 2k <= MaxLeaves; the overrun is reachable with cut size 4 and colliding signatures |
| C20 | Cut sets stay irredundant and bounded | `cut_set::insert/limit/update_best/remove` | list invariants; witnesses for `limit`, `remove`, bare `insert` | partial | proved for is_dominated-guarded insertion; bare insert, limit, tolerance comparison and remove violate the claim |
| C21 | Enumerated cuts are cuts and carry the right function | `cut_enumeration` run/merge/truth tables | induction over node order | partial | all constructed networks without registers, any cost function and comparison, with and without truth table minimisation, whenever the arrays are not overrun (always for cut size <= 3 and 2..12 cuts); registers and the default cut limit violate the claim |
| C22 | truth_table_cache round trip | `truth_table_cache` | history invariant | proved | all insertion histories; literals as natural numbers |
| C23 | Algebraic division identity | `sop_divide_*` | semantics of cube lists | proved | All SOPs with literals below 62 (31 variables), all divisors. With a 32nd variable the mark bit is a literal and division is wrong (C23_limit). |
| C24 | SOP factoring preserves the function | `sop_factoring` | well-founded measure on literal count, semantics, irredundancy of `isop` covers | proved | All truth tables over at most 31 variables through the public operator (including kitty's isop, whose covers are shown irredundant), all networks and leaf signals; all SOPs without containment for the procedure itself. On SOPs with containment, which the operator never passes, it recurses forever (C24_limit). |
| C25 | Rewriting preserves behaviour | `rewrite` with depths, references, resynthesis and `local_replacement` | every replacement pair has equal functions; all replacements together keep every consistent valuation | partial | Whenever rewrite comes back: all constructed networks without registers, all databases over four inputs, all parameters with cuts of at most seven leaves, all cut orders, provided no gate has two fanins computing the same function (or the replacements leave no gate with identical fanins). Without that an output becomes constant 0 (C25_violated); registers are dropped (C25_registers). |
| C26 | Refactoring preserves behaviour | `refactor` with depth maps, cuts, cones, factoring and `substitute_node` | relation between original and current network kept by every step | partial | Whenever refactor comes back: all constructed networks without registers, all parameters with at most 31 leaves (the command allows 12), including reconvergence-driven cuts, cone tables, factoring, reference counting and substitution. Networks with gates outside the output cones lead to undefined lookups (C26_undefined); registers are dropped (C26_registers). Termination not proved. |
| C27 | AIGER delta encoding round trip | `encode`/`decode` | induction on the number | proved | all 32-bit numbers, any following bytes |
| C28 | AIGER write/read round trip | `write_aiger` + `read_aiger` + `aiger_reader` on byte lists | round trip through the byte list | proved | For constructed networks whose inputs precede their gates, which cleanup_dangling always produces (C28_cleanup_*); size at most 2^31 nodes, fewer than 2^32 outputs. C28_needs_clean is a witness that the writer itself does not renumber. Names not modelled on the writing side. |
| C29 | AIGER reading terminates on every byte string | `decode` at end of file, header, symbol table | non-termination witness; theorems for complete files | partial | False for the code: witnesses for non-termination on truncated files and for out-of-range accesses. Proved: well-formed combinational files are accepted with the denoted functions, wrong headers are rejected, and the reader terminates when enough number-ending bytes follow. |
| C30 | LUT network gates compute their function | `klut_network` constructors | history invariant | proved | All constructed LUT networks; node indices and literals as natural numbers. |
| C31 | Bit-wise and truth-table simulation of a LUT agree | both `compute` routines | witness + partial for reversal-invariant functions | partial | False for the code: the Boolean compute reads the fanins in reversed order (C31_boolean_reversed, witness C31_violated). The truth-table compute is proved right; the two agree when the function is invariant under reversal of its inputs. |
| C32 | User values do not change structure | `clear_values/set_value` sharing the CI flag | witness for LUT networks; theorem for AIGs | partial | Proved for AIGs. For LUT networks values share the field with the input mark, so is_ci and num_gates change (C32_violated); everything else is proved unchanged. |
| C33 | Mapping view stores what was given | `mapping_view` packed vector | refinement to a map | proved | All operation sequences on the view. |
| C34 | Mapped network to LUT network preserves behaviour | `collapse_mapped_network_impl::run` | simulation relation with polarity | partial | All constructed AIGs without registers with any legal cover, all output polarities; returns nothing exactly when there are gates but no cell. Registers are dropped by the code (C34_violated_registers). choice_to_klut also for covers of choice networks, whose leaves need only have smaller indices. |
| C35 | LUT network to AIG preserves behaviour | `convert_klut_to_aig`, kitty `isop` | simulation relation, `isop` computes a cover | partial | All constructed LUT networks without registers and LUTs of at most 32 inputs, including the cube cover computed by kitty::isop; also mapped AIGs with a legal cover. Registers are dropped by the code (C35_violated_registers). |
| C36 | FPGA mapping yields a legal cover | `klut_mapping_impl` rounds and `derive_final_mapping` | coverage by DFS invariant, heuristics are an oracle | partial | All constructed AIGs without registers and choices, cut size 2..7, cut limit 3..11, with an arbitrary oracle for costs, sorting and acceptance; absence of undefined behaviour for cut sizes 2 and 3. Fails for cut limit 2, with choices (self-loop) and with registers. |
| C37 | Exact-area probing leaves no trace | `cut_area_ref/deref` | as C13 | partial | All acyclic covers, all cuts, all 32-bit counters, area and edge cost. In networks with registers the claim fails (C37_violated): register outputs are not is_pi and their best cut is trivial. |
| C38 | Mapping parameters are honoured | `init_parameters`, `perform_mapping`, option checks | exact characterisation, witness | partial | Exact characterisation of the honoured settings for all parameter values; most user settings are overwritten (C38_violated). |
| C39 | Choices keep the network acyclic | `set_choice/check_tfi` | acyclicity invariant | partial | All networks and all sequences of set_choice on gates, mixed with network extensions; class lists when nodes without class are added to representatives (what derive_choice_aig intends). Calls with an input as representative can close a cycle (C39_violated_input). |
| C40 | Mux recognition is sound | `is_mux/recognize_mux` | case analysis, semantic | proved | All constructed networks, all nodes; is_mux is also shown to be exact for its shape. |
| C41 | Choice miter keeps every network's outputs | `choice_miter` | simulation; witnesses for constants, order and registers | partial | All lists of constructed networks without registers with the same interface and at least one input, provided the inputs were created before the gates; all assignments. Without that order an output is wrong (C41_violated_order); constant outputs without inputs recurse forever, registers lead to a missing identifier; fan-out counters of the miter are too high (C41_fanout). |
| C42 | Miter is the disequality of two networks | `miter` | composition of C02/C03/C14 | proved | Networks without registers, any acyclic network in any index order. |
| C43 | CNF encoding is exact | `generate_cnf` | clause semantics | proved | AIGs, natural-number literals; all gate clause generators except on_function. |
| C44 | Equivalence checking verdict is right | `equivalence_checking` | C42 + C43 + specification of the solver | partial | Verdicts given are right for every correct solver; a verdict is given if the miter has a gate or no inputs. For miters without gates the solver is asked about unknown variables (C44_violated). |
| C45 | Simulation agrees with evaluation | `simulate`, `compute` | fold = consistent valuation | proved | Combinational networks (all inputs are PIs), as simulate() itself assumes; C45_register_outputs_ignored records what happens otherwise. Bit-packed and partial simulators not modelled. |
| C46 | History snapshots survive later commands | command state machine with shared storage | state machine invariant, witnesses | partial | All sessions with one read, at most five snapshots, no clear and no in-place change of a network that is current and saved; reading discards the history in every state. In-place commands change a just-saved snapshot (C46_violated_alias, for every network), and clear does not forget snapshots (C46_violated_clear). |
| C47 | The history command never wedges | same | state machine invariant, witnesses | partial | All sessions with one read, first, and never a sixth snapshot. A sixth add wedges the command for good (C47_wedged, C47_violated). |
| C48 | Emitted Verilog identifiers are distinct | `write_verilog`, identifiers | reading of the module as equations; witness of collision | partial | Proved for combinational networks with default names, and for reader names that do not collide with generated ones: identifiers distinct and the file denotes the network. Violated in general: port called n3, too few names, registers. |
| C49 | LUT netlist writer denotes the LUT network | `write_lut`, kitty `to_hex` | interpretation of the netlist; witnesses | partial | Proved for LUT networks without registers and without constant fanins and names that do not collide with generated ones; the INIT text is right for every table. Violated in general: constant fanin leaves an open pin, registers become constants, name collisions, header of input-free networks. |
| C50 | Pattern packing loses no simulation pattern | `bit_packed_simulator` | invariant over sessions: every pattern is still present | proved | All initial tables of equal length, all sessions of add_pattern, pack_bits and randomize_dont_care_bits, all random choices. Sessions always run through where shift counts are taken modulo 64; in the strict reading of C++ kitty's add_bit is undefined for every 64th bit (C50_violated_shift). |
| C51 | LUT network bookkeeping | `klut_network` counters | history invariant | proved | All constructed LUT networks. |
| C52 | AND balancing never makes an output deeper | `and_balance_impl` levels | lower-bound argument over super-gates (weighted sums of 2^level) | partial | All constructed networks without registers, all implementations of std::sort that return an ordered permutation. Missing: networks with registers, which balance_and does not support (C17_violated_registers). |
| C53 | map_fpga stores an equivalent LUT network | `map_fpga_command::execute` | composition of C21, C36, C34 | partial | All constructed AIGs without registers, options with priority size up to 11, arbitrary heuristics; mapping type 0. Undefined behaviour is characterised exactly for cut sizes 2 and 3: gates without any output driven by a gate (C53_violated). |
| C54 | Port names read from a file end up on their ports | `NameMap`, `aiger_reader` callbacks, `Reader` | counting argument on the name lists; witnesses | partial | All files whose symbol table names every input, register and output, lines in any order, all drivers; and files without symbol table and registers. Fails for partial symbol tables (names shift), and reads outside a vector when an unnamed input drives a named output or a register directly. |
| C55 | Exact NPN canonization | `exact_npn_canonization` for 4 variables | word-level equality checked against the table model by loops over generators; group generated by swaps and flips | proved | All tables of four variables; word-level model of the kitty loops. |
| C56 | Resynthesis from the database offers only equivalent signals | `generate_db`, `padding_network_by_signal`, resynthesis | simulation relation database node -> signal | proved | All database contents over four inputs, all constructed networks, tables and leaf signals. |
| C57 | lut_opt keeps the functions of the current AIG | `lut_opt_command::execute` | composition of C53 and C35 | partial | All constructed AIGs without registers, options with priority size up to 11, arbitrary heuristics. Undefined behaviour is characterised exactly for cut sizes 2 and 3: gates without any output driven by a gate (C57_violated). |
| C58 | SOP balancing keeps the functions of the outputs | `balancing_impl`, `sop_rebalancing` | invariant over the topological order (value and level of every entry); the cut of the two fanins always survives the enumeration (`Cut/KindProof`) | partial | All constructed AIGs without registers of at most 2^32/135 nodes, unminimised truth tables, cut sizes 2 to 7, cut limits from 3, any choice of the priority queues. Free of undefined behaviour for cut sizes 2 and 3 and limits up to 12. With minimised tables or cut limit 2 nodes become the constant 0 (C58_violated_*). |
| C59 | FPGA mapping of a network with choices keeps the functions | `perform_mapping_and_choice`, `topologize` with classes, `collapse_mapped_choice_impl` | invariant over rounds with cuts of class members, phases through truth-table complement; witness of the self-loop | partial | All constructed AIGs without registers with ordered and sound choices, cut size 2..7, cut limit 3..11, arbitrary heuristics: every cell is right; the LUT network is equivalent unless some cell is the node itself. That happens (C59_violated_self): the cell of a representative becomes its own unit cut and an output becomes constant. |
| C60 | The network with choices has the functions of the original | `derive_choice_aig`, `man_dup_dfs`, `man_dup_dfs_rec` | invariant over the gates (value of every entry, sound representatives and links, acyclicity of C39); injective copy relation for the depth-first duplication, termination by a duplicate-free stack | partial | All constructed AIGs whose inputs have the smallest indices, all sound representatives. An input after a gate gives a wrong function (C60_violated_order: old2new[i] is set to the signal i); registers become plain inputs and outputs. |
| C61 | Candidate classes are exactly agreement on the simulated patterns | `cand_equiv_classes`: simulation, hashing, refinement | refinement invariant (classes sorted, ordered by hash and by comparison); simulated words = patterns of models | proved | All constructed networks, positive numbers of words, all random numbers. With the program's generator (values below 2^31) half of the simulated patterns are all-zero (C61_half). |
| C62 | The SAT prover proves equivalent and disproves different nodes | `sat_prover`: clauses, variables, recycling, `sat_prove` | invariant over sessions: clauses hold in every model and determine every encoded node from smaller ones; measure = nodes without variable | proved | All reachable states of the prover, all parameters, solvers as oracles with right answers. Definedness and read-back of the counterexample for networks of less than 1000 nodes: above, an assumption can mention a variable the solver has not allocated. |
| C63 | Choice computation keeps all functions | `man_sweep`, `sweep_node`, `compute_choice` | invariant over the gates: mapped nodes have the value of the original, representatives are sound, prover and class invariants of C61/C62; composed with C41, C59, C60 | partial | The sweeping is right for all constructed AIGs. The network with choices and the whole flow to the LUT network: inputs with the smallest indices; without the self-cells of C59; registers are not kept (C60). Definedness for less than 1000 nodes. |
| C64 | Counterexamples separate the disproved pair and no equivalent nodes | `resimulate`, `collect_tfo_cands`, `resimulate_solved_rec`, `resimulate_other_rec` | both nodes of the disproved pair get their values under the counterexample (traversal invariant), so refining separates them; witness with the parameters and random numbers of the program | partial | Decision and separation hold for all constructed AIGs of less than 1000 nodes and all right solvers; classes are only split. That equivalent nodes are never separated fails (C64_violated): resimulate_other_rec visits the first child twice and never the second, whose value is left over from an earlier counterexample. |
| C65 | The choice flow keeps all functions | `dch_compress`, `dch_compress2`, `choice_synthesis`, `mapper` of the flow manager | composition of C25, C55, C63, C59; the miter only needs its first network to be constructed (`Choice/MiterWeak`: invariant that new nodes only use mapped nodes) | partial | Whenever the flow comes back: networks without registers, inputs first, no gate with two fanins of the same function among the networks given to rewriting (C25), no self-cell (C59). In-place changes of the stored networks are modelled and shown harmless. C65_violated: on a network of C25 the LUT network is wrong. |
| C66 | The verification step of the flow tells right from wrong results | `run` (verification), `debug_by_miter` | reads of the changed storage give the old functions (`core_source`), the miter over live nodes only (`miter_core`), C35 and C44; witness by evaluation of the whole flow | partial | Both verdicts are right for networks without registers, inputs first, no gate with two fanins of the same function; any LUT network with the same interface and LUTs of at most 32 inputs. C66_interface_partial: a LUT network with another interface is always refused. C66_violated: the step says 'equivalent' for a wrong LUT network. |
| C67 | Verdicts of the circuit validator are right | `circuit_validator`: all forms of `validate`, `construct`, `restart`, `pop`, the callback | invariant over sessions: every model of the network extends to an assignment of the variables, and assignments of the clauses agree with the model at all known nodes and temporary gates; witnesses by evaluation with a verified solver | partial | All sessions (validate in all forms, generate_pattern, update, restarts, with and without push/pop), all networks that grow by gates, outputs and register inputs, all solvers with right answers. Fails for inputs created after the validator (C67_violated_input, C67_undefined_input) and for circuit gates whose type does not fit the number of fanins (C67_violated_gate). use_odc = true is not modelled (needs foreach_fanout, which no network has). |
| C68 | Pattern generation finds different patterns with the wanted value, and all of them | `generate_pattern`, `block_pattern` | loop invariant: the added clauses exclude exactly the blocked and found patterns; removed by `pop` | partial | All sessions, nodes, values, blocked patterns of the right length and numbers of patterns; completeness for solvers that do not give up. The claim of the code's comment fails on a timeout (C68_violated_timeout) and for num_patterns = 0 (C68_violated_zero). |
| C69 | The delay and area that the LUT mapper reports are those of the mapping | `perform_mapping` with all cost functions, required times, reference counts and the reported values | refinement to the mapper of C36 with some heuristics; invariant of a round: an accepted cut has the delay of its leaves, which do not change any more in the round; required times of outputs never exceed the largest delay; witness by evaluation | partial | Networks without choices and registers, cut limits 3 to 11, costs modelled with rational numbers. The area is always right, the delay after the first round, and it never grows; but the final mapping may be deeper than reported (C69_violated: 4 instead of 3). C69_refines holds for networks with choices as well. |
| C70 | Reference counts and required times of the LUT mapper | `compute_required_times`, `mark_current_mapping_rec`, `derive_final_mapping` | invariant of the marking recursion: count plus references still to come equals outputs plus uses by marked nodes; propagation over the reversed order: no leaf comes before its node, so the required time of a node is final when it is passed on; witnesses by evaluation | partial | Networks without choices and registers, cut limits 3 to 11, fewer than 2^32 outputs and nodes. Counts are right after every round, required times after every round that is not an area round of the preprocessing (C70_violated_area: no required times inside after the third round), and arrival in time after the first round (C70_violated_slack: after all rounds an input is required at time -1). |
| C71 | A command line means what the help text says | CLI11 parsing and callbacks, `command::run`, `execute` of four commands up to the call | token loop: one round per spelled option, fuel bounded by the characters left; callbacks write the last value; induction over the session; witnesses by evaluation | partial | Parsing and ranges for all lines and sessions. Meaning for lines that spell options one by one (not flags written together): always the meaning of all lines of the session together, not of the last line; so it is right for the first refactor and map_fpga. Fails: level of rewrite is inverted, flags cannot be turned off again, values stay, refused lines have effects, numbers wrap round, default cut size of lut_opt, map_fpga forgets the type, documented priority sizes above 12 overrun the array of cuts. |
| C72 | Mapping with choices from the shell gives the design back | `map_fpga` from the state of the shell: slots, miter, choices, mapper (any heuristics or its own costs), LUT network | all snapshots keep the functions (induction over the session, C46), then C41, C63, C59 and C69; witnesses by evaluation of the whole command | partial | Sessions of C46 whose commands preserve functions, designs without registers, inputs first, priority sizes up to 11, mappings without a cell that is its own leaf; for the mapper with any heuristics and with its own costs. Fails without a saved snapshot that has a gate (undefined behaviour instead of the warning, because the store always has six slots) and for a design of three gates with the default options: both outputs become the constant 0 (C72_violated_zero). |
| C73 | The CNF of a LUT network is exact | `cnf_characteristic`, `on_function`, `generate_cnf` for LUT networks | a clause of a negated cube holds iff the cube is false or the output right; covers of function and complement (as in C35) | partial | Networks without registers, functions of at most 31 variables, uint32_t literals as natural numbers. With registers it fails: their outputs share the literal of the constant (C73_violated_register). |
| C74 | The checker of mapped networks tells right mappings from wrong ones | `checker_4_mapped_graph`: choice map, cones, clauses of cells and cones, check of cells and outputs; the solver is any function from clauses to answers | soundness: the values of the AIG extend to an assignment of all clauses but the last; acceptance: the cone is closed under fanins and choices, so the clauses force the derived values; end: rounds bounded by 32^size; witnesses by evaluation | partial | Networks with ordered and sound choices, without registers; cells with 1 to 31 leaves. Accepted mappings are right if the solver always answers; cells that are right by their structure are accepted; the check ends if leaves are smaller than their root. Fails: timeouts count as success, registers, right cells refused, output check blind below the top cell, no end for a cell that is its own leaf (which klut_mapping produces). |
| C75 | Cleaning up a LUT network keeps its outputs and simplifies its LUTs | `cleanup_luts_impl`, `clone_inputs`, `clone_outputs`, `cleanup_luts`, with the order of `topo_view` | loop invariant over the topological order: images have the values of their nodes, created LUTs are tidy, levels do not grow; `min_base_inplace` keeps exactly the used variables; witnesses by evaluation | partial | All LUT networks without register outputs (foreach_pi skips them). Fails with registers: outputs of registers become constant 0 and the registers are lost (C75_violated_register). A LUT that becomes unread by the simplification stays (C75_violated_dangling), and a constant LUT stays if a fanin occurs twice (C75_violated_constant). |
| C76 | Substituting a node of a LUT network | `substitute_node` of LUT networks | closed form of the loop over nodes; values by induction over the old order, where the readers of the old node see the new one; rank for the acyclic result: nodes above the old one come last; witnesses by evaluation | partial | All LUT networks and pairs of nodes in which old is not below new. If it is, the new node becomes its own fanin (C76_violated_cycle); old = new sets the fan-out count to 0 (C76_violated_same); the order of nodes is not kept topological (C76_violated_order). Events are not modelled. |
| C77 | Simulation with patterns that are added over time gives every node its values | `simulate_fanin_cone`, `re_simulate_fanin_cone`, `update_const_pi`, `simulate_node`, `simulate_nodes`, both versions of `compute` for partial truth tables | a step leaves a value or makes it the row of its node (induction over the fanin cone); invariant over all sessions: every stored row reaches the last block; witnesses by evaluation | partial | AIGs without registers, at least one pattern, and the use that the comments of the code ask for: before a pattern starts a new block of 64, all stored values are brought up to date. Without it bits stay zero (C77_violated_blocks); gates without a value get zeros (C77_violated_missing); changed patterns are not noticed (C77_violated_changed); register outputs never get a value (C77_violated_register). |
| C78 | No call-back of a destroyed view runs | `events().on_add` as lists of views, made and destroyed by the commands of the shell and the scripts of the flow; the networks by the number of nodes they get | invariant over sessions: no view is alive between commands, and only the drawn current network has a call-back; witness with the modelled rewriting | partial | All sessions: undefined behaviour happens exactly if a network is drawn with write_dot and gets a new node by rewrite or refactor while it is still the current one (C78_exact); sessions without write_dot and the flow are safe. C78_violated: read, write_dot, rewrite of a chain of three gates, with the modelled rewriting. |
| C79 | print_stats prints the numbers of the stored network and leaves it as it is | `print_stats` for both kinds of networks, `klut_network(storage)` with `_init`, `depth_view` on LUT networks, sessions with `write_fpga` | the constructor appends exactly one empty node (tables are known to the cache); longest paths of C16 are longest chains of edges; induction over the session; witnesses by evaluation | partial | Networks without registers and sizes below 2^31. AIG lines are right and only traversal marks change. For LUT networks every call appends a node to the stored network before counting: the i-th printed number of LUTs is i too large (C79_violated: 3 instead of 2), functions stay, and later netlists have one LUT without pins per call. With registers the depth is too large (C79_violated_register). |
| C80 | write_dot draws the network | `write_dot` with the default drawer for AIGs and LUT networks, as the text of the file | reader for DOT lines written apart from the model; every line is read back as its statement, the statements are counted per name; the table of levels by an invariant over the loop, its levels by C16; witnesses by evaluation | partial | Networks without registers, any traversal marks; the file is read back with an independent reader of DOT statements. Names, shapes, labels, edges, styles and outputs are exactly those of the network; edges go up if they lead to a gate that outputs use. Unused gates are put on the lowest level, so edges go down (C80_violated); register outputs are drawn as gates (C80_violated_register); after print_stats a LUT network is drawn with an additional gate (C80_violated_session). |
| C81 | The parallel checker of mapped networks accepts exactly the right mappings | the parallel checker: search from the leaves, clauses of a cell, the loop over the cells with the order of the iterations as a parameter, the keys looked up in the shared map | the search keeps a queue that is sorted by numbers of steps, so that all nodes nearer than the root are met; clauses as in C74; the flag only depends on the set of the cells; witnesses by evaluation | partial | Networks without registers, any solver without wrong answers, any order of the iterations: accepted LUTs are right. Right LUTs are accepted if all nodes of the cone are nearer to the leaves than the root; otherwise a right LUT is refused (C81_violated_alarm), also without leaves (C81_no_leaves) and when the solver gives up (C81_violated_timeout). With registers a wrong LUT is accepted (C81_violated_register). Iterations conflict on the map of fan-outs for a network with two outputs (C81_violated_race); C81_free_partial states when they do not. |
| C82 | A depth view follows a network that grows through it | `depth_view` as a state: network, vectors of levels and critical nodes, depth; constructors, `create_pi`, `create_ro`, `create_po`, `create_and` with `on_add`, `resize_levels`, `update_levels` | invariant over sessions: levels in the vector are longest ways, nodes without a level are inputs; the traversal by C16; witnesses by evaluation | partial | AIGs without registers, every gate used by an output whenever all levels are computed: levels are right in every session; the depth is right if complements are not counted, else at most one too small. Unused gates get level 0, so gates on them are too low (C82_violated_unused); create_po ignores complements (C82_violated_complement); register outputs are at 0 until an update puts them at 1 (C82_violated_register); a new input has no level (C82_violated_input); is_on_critical_path is never true (C82_critical). |
| C83 | The flow does what its configuration file says | parsed documents, `get_value` with the conversions of the JSON library, `configure`, and the flow from a document to the LUT network | case analysis over documents with a specification of the last field of a name; the mapper uses the cut parameters only, by C38; the shipped file by evaluation | partial | All parsed documents. Settings of the right type and in range reach the parameters (C83_said_partial), but only the size and the number of cuts of the mapper have an influence on the networks (C83_only_two, C83_violated_unused). Missing settings become 0 and false instead of their defaults (C83_missing, C83_violated_default), numbers wrap around (C83_violated_wrap), with a cut size of 1 a conjunction silently becomes constant 0 (C83_violated_range), and the shipped file switches on the minimisation that it says is off (C83_violated_minimize). The parser of the text is not modelled. |
| C84 | The report of the flow is right and always defined | `report`, `get_detailed_lut_statics`, `run` from the configuration to the report | induction over the gates with the counters as counts of LUTs (bookkeeping of C51); sums over the numbers of fanins; C65 for the results of the flow; counterexamples by evaluation | partial | All constructed LUT networks of less than 2^31 nodes and all cut sizes: the report is defined exactly if no LUT has more fanins than the cut size (C84_defined), and then right (C84_report). So it is for the flow under the hypotheses of C65 and sensible parameters (C84_flow_partial). Missing: without a cut size in the configuration file the counting leaves the vector (C84_violated_missing), networks without LUTs are not reported as such (C84_violated_none). Copies by klut_network(storage) have no report (C84_copied). The delay in the report is not modelled here. |
| C85 | Networks accepted by the AIGER reader are well formed and as announced | `read_aiger` with the callbacks of `aiger_reader` (as for C28, C29) | invariant of the state of the reader through inputs, registers, lines, gates, outputs and register inputs: every stored signal is a node, every gate made by `create_and`; the header by splitting at spaces; counterexamples by evaluation | partial | All byte strings: an accepted network is well formed (C85_built) and, if the numbers of the header are below 2^32, as the header announces (C85_accepted_partial). Missing, and false: files that break the format are accepted too; missing and meaningless lines of outputs are the constant 0 (C85_violated_missing, C85_violated_letters), the maximal variable is not checked (C85_violated_maximum), larger numbers wrap around (C85_violated_large). |
| C86 | The flow maps the network in the files it is given | `Reader`, `read_in`, `choice_synthesis_abc`, `mapper`, the beginning of `run`, over a disk of bytes | C85 gives the hypotheses of the rest of the flow; C65 for a file; for a folder the miter has the outputs of its first network whatever the others are, then C63 and C59; counterexamples by evaluation | partial | All bytes in the files: for a file whose network has inputs and no registers the LUT network is equivalent to it, under the hypotheses of C65 (C86_file_partial). For a folder it is equivalent to compress2.aig, whatever the other files hold (C86_folder_partial), and to original.aig exactly if compress2.aig is (C86_original_partial). A failed reading of the file, or of original.aig, and nothing else, is reported (C86_complaint). Missing, and false: different networks in a folder are not noticed (C86_violated_mixed), nor are missing ones (C86_violated_alone); a folder with .aig in its name is taken for a file (C86_violated_named); after a failed reading an empty network is mapped (C86_violated_unread). |
| C87 | The files that the flow writes denote the network that it read | `write_out` with `Writer::write2Verilog`, `write2LUT`, after the run of C86 | composition: C85 (reader), C86 (flow), C48 and C49 (writers); an invariant of `collapse` shows that no LUT has a constant fanin; the network with choices has the functions of the network read (C60, C63) | partial | All bytes, paths and sound solvers, under the hypotheses of C86: the netlist and, if its path is another one, the Verilog module are written with distinct identifiers and denote the network in the file (C87_file_partial) or in compress2.aig (C87_folder_partial); other files stay as they were; the default paths are different (C87_default) and given ones are used (C87_paths). No LUT has a constant fanin, which C49 needs (C87_no_constants_partial); a node that is its own cell gives one (C87_violated_constant). Missing: port names that look like made-up ones, for a folder original.aig (C86_violated_mixed). With the same path for both files the Verilog module is lost (C87_violated_same). Folders that cannot be made and files that cannot be opened are not modelled. |
| C88 | What the shell writes denotes the last design read | stores and commands `read_aiger`, `map_fpga` (type 0), `write_fpga`, `write_primary`, `write_aiger`; the other commands as replacements of the current AIG | invariant over sessions of any length: the stored LUT network is equivalent to the last design and has no constant fanins, the current AIG has the functions of the design; then C49, C48, C28 | partial | All sessions: after the last read_aiger of a combinational design with at least one input, with any commands that keep its functions, write_fpga comes back and writes a netlist that denotes the design, or nothing if there was no map_fpga with accepted options (C88_partial). write_primary writes a Verilog module that denotes it (C88_primary_partial), and the file of write_aiger reads back as it if the inputs come first (C88_aiger_partial). balance, cleanup, lut_opt, rewrite and refactor are such commands (C88_balance, C88_cleanup, C88_lut_opt_partial, C88_rewrite_partial, C88_refactor_partial). Missing: registers, port names that look like made-up ones, more than 11 cuts, mapping with choices (C72), print_stats between mapping and writing (C79). After a file that cannot be read an empty module is written (C88_violated_unread); mapping a file with gates none of which drives an output is undefined (C88_violated_dangling); write_aiger without a design throws (C88_violated_empty). Sessions with cut sizes up to 3, with a gate at an output of every AIG that has gates and without write_aiger after the last read_aiger come back (C88_defined_partial); without a gate at an output map_fpga is undefined (C88_undefined). Mapping and writing leave the result of the last optimisation current (C88_current). |

## 5. Disagreements between code and claims found on the way

Each item with a theorem name has a machine-checked witness; the others are observations made while reading,
outside the model.

Network
* `substitute_node` can hand out or leave an output on a removed node (`C12_violated`, `C11_violated`,
  `C11_violated_simulation`).
* Erasing a pair that is not stored from the hash table removes another entry (`C10_erase_absent_removes_other`).
* Inputs created after register outputs end up among the registers for `foreach_pi`/`foreach_po` (the lists are
  split by the counters).
* `is_xor` of AIGs is constantly false.
* LUT networks: the Boolean `compute` reads fanins in reversed order (`C31_violated`); user values share the field of
  the input mark (`C32_violated`).

Registers.  Most passes treat register outputs as gates or drop them: `cleanup_dangling`
(`C14_violated_registers`), `topo_view::foreach_gate` (`C15_foreach_gate_registers`), `depth_view` levels
(`C16_register_level`), `balance_and` (`C17_violated_registers`), cut enumeration (`C21_violated_registers`), `rewrite`
(`C25_registers`), `refactor` (`C26_registers`), `network_to_klut` (`C34_violated_registers`), `convert_klut_to_aig`
(`C35_violated_registers`), the mapper (`C36_violated_registers`, `C37_violated`), the choice miter
(`C41_violated_registers`), the writers (`C48_violated_registers`, `C49_violated_registers`), simulation
(`C45_register_outputs_ignored`).

Cuts
* Leaf array overrun in `merge` for colliding signatures (`C19_violated`); `cut_set::limit(k)` keeps `k-1` cuts
  (`C20_violated_limit`); unguarded `insert`, `remove` and the tolerance comparison break the set
  (`C20_violated_insert`, `C20_violated_remove`, `C20_violated_order`); the default cut limit 25 exceeds the array of 12
  (`C21_violated_limit`).

Optimisation
* `rewrite`: `local_replacement` can give a gate two identical fanins, after which the node counts as an input
  (`is_ci` tests for equal fanins); an output becomes constant 0 (`C25_violated`).  With the shipped
  database: a = ((3&4)&1)&2, b = (1&3)&(2&4), g = a&b driving two outputs (evaluated with `#eval`).
* `refactor`: depth lookup of nodes outside the output cones is undefined (`C26_undefined`); the iterator `old_iter` in
  `update_fanouts_info` is used after an `insert` that may rehash; the shell hands `preserve_level` on as
  `allow_depth_up`, i.e. its opposite (see C71 for the effect).
* `sop_divide` uses literal 63 as mark (`C23_limit`); factoring recurses forever on covers with containment (`C24_limit`).
* `balance_and` on gate-free networks reads a level outside the vector (`C17_violated_levels`); the `on_add` lambda of
  `depth_view` captures a `this` that is moved (observation).

Mapping and choices
* Parameters are overwritten by `init_parameters` (`C38_violated`, `C38_violated_shell`).
* `map_fpga` dereferences an empty optional when no output is driven by a gate (`C53_violated`); cut limit 2 and choices
  give self-loops (`C36_violated_limit`, `C36_violated_choice`).
* `set_choice` with an input as representative closes a cycle (`C39_violated_input`), classes can merge wrongly
  (`C39_violated_classes`).
* Choice miter: wrong output unless inputs come before gates (`C41_violated_order`), endless recursion on constants without
  inputs (`C41_violated_const`), fan-out counters too high (`C41_fanout`).

Equivalence checking
* For miters without gates the solver is asked about variables it does not know (`C44_violated`).
* kitty's `add_bit` shifts by -1 for every 64th bit (`C50_violated_shift`).

Input and output
* AIGER reader: endless loop on truncated files, accesses outside vectors for bad literals and symbols, oversized shifts
  (`C29_violated_*`); names shift for partial symbol tables, out-of-range access when an unnamed input drives a named output
  (`C54_violated_*`).
* AIGER writer: writes node indices without renumbering, wrong for networks whose inputs do not come first
  (`C28_needs_clean`).
* Verilog writer: a port called `n3` collides with a wire, too few names read outside the vector, registers become
  "unknown gate" (`C48_violated*`).
* LUT writer: constant fanins become open pins, register outputs constant LUTs, `_w3_` and `name0` collide, the header of
  an input-free module starts with a comma (`C49_violated_*`).

Shell
* In-place commands change a snapshot that was just saved (`C46_violated_alias`), `clear` forgets nothing
  (`C46_violated_clear`), a sixth `add` wedges the history command (`C47_wedged`, `C47_violated`), options stay set
  (`C47_violated_sticky`), a second read breaks it (`C47_violated_read`).
* `write_aiger` with an empty store warns but goes on; `map_fpga` type 1 ignores the current AIG (`C72_current_unused`).

SOP balancing
* A node all of whose cuts have one leaf or a constant-0 table becomes the constant 0: `x1 & (x1 | x2)` with minimised truth
  tables (`C58_violated_minimize`), every gate with two or more cuts with `cut_limit` 2 (`C58_violated_limit`).
* `only_on_critical_path` balances nothing: marking of critical nodes is commented out in `depth_view.hpp` 230-236 (see
  `copied` in Balance/Sop).

Mapping with choices
* The unit cut of a representative is in its cut set when the cuts of its choices are inserted; if one of them dominates all
  others, the unit cut, with left-over cost, is first and becomes the best cut. The cell has itself as leaf, and
  `choice_to_klut` reads signal 0 for it: the output is constant (`C59_violated_self`). The guard `best().size() > 1` that
  would prevent it is commented out in `klut_mapping.hpp` 417.

Choice network construction
* `derive_choice_aig` and `man_dup_dfs` set the entry of the combinational input `i` to the signal `i` instead of the signal
  that `create_pi` returned. If some input has a larger index than a gate, gates take the place of inputs and the result has
  another function, without any assertion (`C60_violated_order`).
* Registers become plain primary inputs and outputs (`C60_violated_registers`).

Candidate classes and SAT prover
* The simulation words are 64 bits wide but the random numbers are below 2^31 (`std::minstd_rand0`): the upper half of every word is
  the all-zero pattern, half of the simulation is wasted (`C61_half`).
* `sat_prover` allocates 1000 solver variables; a variable above that exists only once a clause mentions it. Asking about an
  input that occurs in no clause yet is then an access to memory the solver has not allocated (`known` in Choice/Prover;
  excluded by the size bound in `C62_defined`).

Choice computation
* `resimulate_other_rec` visits the first child twice and the second one never (choice_computation.hpp 1061-1062). The value of the
  second child is then what an earlier counterexample left, or 0. Equivalent nodes are separated and the equivalence is not found, with the
  parameters and random numbers of the program (`C64_violated`, 14 inputs and 14 gates). Functions are not affected (`C63_repr`).

Flow manager
* `dch_compress(aig)` takes the network by value, but a network value is a handle: `rewrite` changes the storage of `_original_aig`
  and `_compress_aig` in place (flow_manager.hpp 158-230). The miter therefore gets two networks whose nodes are not in the order in which they
  were made. Harmless for the functions (`C65_partial`), but structures meant as alternatives are lost.
* The verification step compares the LUT network with this changed network, not with the one read (107-108). When rewriting breaks a function
  (C25), the flow gives a wrong LUT network and the step reports "equivalent" (`C66_violated`).
* The verdict of `debug_by_miter` is dereferenced without a test (debugger.hpp 85): undefined when the solver gives up.

Circuit validator (included, but not called by any command)
* The callback of the constructor is called by `create_and` only (aig_network.hpp 361), not by `create_pi`. The literal of an input created
  after the validator is read out of range (`C67_undefined_input`), or is the literal 0 of the constant once a gate has followed: `validate` says
  that the input is constant 0 (`C67_violated_input`).
* `validator_params const& ps = {}` is kept as a reference (683): dangling with the default argument. The callback captures `this` and
  is never removed: dangling when the network is changed after the validator is gone.
* Gates of a circuit whose type does not fit the number of fanins (MAJ with two, AND with three) get no clauses, since the assertions are off
  (447-487): arbitrary verdicts (`C67_violated_gate`).
* The comment of `generate_pattern` (294) says that an empty result without blocked patterns proves `f` constant. On a timeout, and
  for `num_patterns = 0`, it does not (`C68_violated_timeout`, `C68_violated_zero`).
* `klut_mapping`: when the new best cut of a node misses the required time, the old one is kept with its old delay and arrival time
  (354-360), although its leaves may have become slower. `compute_required_times` returns early (500-501) when `bArea` is set, so that after the
  third preprocessing round the required times of all inner nodes are infinite, and the next round takes slower cuts anywhere. The delay reported by
  `map_fpga` is then too small, and area recovery makes the mapping deeper than the first round did (`C69_violated`: 4 levels, 3 reported).
* `perform_mapping_and_choice` (401) compares the number of the round's mode with `ETC_DELAY` (= 1, the value for the flow rounds): cuts of choice nodes
  that miss the required time are skipped in the delay and exact area rounds, but not in the flow rounds.
* The consequence for the required times: after the area round of the preprocessing the cells have none (`C70_violated_area`), and after all
  rounds inputs may be required at negative times (`C70_violated_slack`), so that the required times of the last rounds allow nothing to change.
* `mark_current_mapping_rec` resets `edge_size` in every call (542): the total is that of the last cell. It is not read anywhere.
* Options of the shell: `add_flag` sets its variable to `false` (CLI11.hpp 1840) after the initialiser `preserve_level = true` of `rewrite` and `refactor`.
  So `rewrite` preserves levels only with `-l`, the opposite of its help text (`C71_violated_level`); in `refactor`, which hands `preserve_level` on as
  `allow_depth_up`, the two mistakes cancel each other. Command objects keep their members: values and flags stay for later lines (`C71_violated_sticky`,
  `C71_violated_off`), also those of refused lines, after which the command refuses lines without options (`C71_violated_refused`); `map_fpga` turns its own
  member `type` back (`C71_violated_type`). Numbers are cut to 32 bits before the range check (`C71_violated_wrap`). `lut_opt` has default cut size 6 instead
  of 4 (`C71_violated_default`; its message says [2, 8], its check [2, 6]). Priority sizes 13 to 20 overrun the array of cuts (`C71_violated_priority`).
* `map_fpga --type 1` (`C72`): the check for an empty history (map_fpga.hpp 77) counts the slots of the store, always six after a read; without a
  snapshot that has a gate `merge_aigs_to_miter` takes the first element of an empty vector (`C72_violated_empty`, `C72_violated_read`).
* The trivial cut of a representative can become its best cut: `insert` of a choice cut removes all cuts it dominates (cut_set.hpp 145), also an equal one,
  and puts the new cut behind the trivial cut, whose delay is 0. The comment "after insert the choice cuts, the trival cut will eliminates"
  (klut_mapping.hpp 425) is wrong. With the costs of the program this happens for `x₁ ∧ x₂` and `x₂ ∧ ¬(¬x₁ ∧ x₂)` in one design: read, `history --add`,
  `map_fpga --type 1` give the constant 0 for both outputs (`C72_violated_zero`). It is what C59, C60, C63 and C65 exclude.
* `generate_cnf` with the default literals treats register outputs as the constant 0 (`C73_violated_register`; `foreach_pi` skips them).
* `checker_4_mapped_graph` (`C74`): a timeout counts as success (`C74_violated_timeout`). `is_equal_root` asks for an assignment in which *all* LUTs of the
  cone differ from their nodes, so one right LUT hides all wrong ones (`C74_root_blind`, `C74_violated_po`); only `check_each_luts` finds them. It does not mark
  visited nodes: the number of rounds is exponential in the depth, and a LUT that is its own leaf (C59) is an endless loop (`C74_violated_self`).
  Register outputs get the clauses of `0 ∧ 0`, so all of them are taken to be equal (`C74_violated_register`). The variable of the constant node is not fixed.
* `cleanup_luts` maps only primary inputs; the outputs of registers keep the default entry 0 of `node_map`, the constant, and registers are not copied
  (`C75_violated_register`). It does not remove LUTs that its own simplification makes unused (`C75_violated_dangling`).
* `substitute_node` of LUT networks replaces also below the new node (`C76_violated_cycle`), which the AIG version avoids by its checks, and clears the count of
  the old node even if it is the new one (`C76_violated_same`). `ci_index` and `pi_index` of LUT networks (548-552, 568-572) read `children[0]` of an input,
  whose vector of children is empty; nothing calls them.
* Re-simulation of partial truth tables computes the last block only. Simulating at 63 and then at 65 patterns leaves a zero for the 64th
  (`C77_violated_blocks`); the assertion that excludes this (aig_network.hpp 1205) is off in the release build. The comment of `simulate_node` (simulation.hpp 653)
  says re-simulation happens when `has( n )` is false; it happens when it is true. After `pack_bits` of `bit_packed_simulator` stored values are stale
  (`C77_violated_changed`). Nothing in the repository calls these functions yet.
* `depth_view` registers a call-back with `this` in the events of its network (depth_view.hpp 112, 138) and has no destructor. `write_dot` makes such a view on the
  stored network; the next `rewrite` or `refactor` that creates a node calls the destroyed view (`C78_violated`, `C78_exact`).
* `klut_network( storage )` runs `_init`, which appends a node whatever the storage holds (klut_network.hpp 77-88). `print_stats -t 1` uses it on the stored network, so
  each call shows one LUT more than the one before, beginning with one too many, and `write_fpga` writes a `LUT0` for each call (`C79_violated`, `C79_netlist_partial`).
* `write_dot` takes levels from `depth_view`, which leaves nodes that no output uses on level 0: the edge into an unused gate can go down (`C80_violated`). Register outputs
  are not `is_pi`, so they are drawn as gates without fanins one level above the inputs, and register inputs are not drawn (`C80_violated_register`). The nodes that
  `print_stats -t 1` appends are drawn as LUTs (`C80_violated_session`). With an empty store of AIGs the command warns about a missing FPGA mapping
  (cli/command/io/write_dot.hpp 24).
* The parallel checker of mapped networks (checker_4_mapped_graph_parallel.hpp) collects the nodes of a LUT from its leaves upwards and stops when it meets the root (783-786),
  so nodes that are farther from the leaves are left without clauses and right LUTs are refused: one LUT for `x1 & (x2 & (x3 & x4))` is (`C81_violated_alarm`). The comment
  "TODO: fix bugs here!" (758) is right. `_fanouts[n]` (793) inserts a key into the map shared by the threads when `n` has no gate as fan-out: a data race for two gates with the same
  inputs that are both outputs (`C81_violated_race`). A timeout counts as a difference (672-679), where the other checker counts it as equality.
* `depth_view` resizes its levels only when a gate is added (depth_view.hpp 262; create_pi sends no event), so `level` and `create_po` read outside the vector for an input that was just created
  (`C82_violated_input`); `and_balance` avoids this with an update after the inputs. `create_po` (187) ignores `count_complements`, unlike `compute_levels` (223-226) (`C82_violated_complement`).
  Gates that no output uses keep level 0, so gates created on them are too low (`C82_violated_unused`). `set_critical_path` is never called (230-236 are commented out), so
  `is_on_critical_path` is always false (`C82_critical`), and its vector is not resized with the network.
* The configuration file of the flow: flow_manager.hpp 151 stores `min_candidate_cut_size` in the switch `minimize_truth_table`, so the shipped file, which says `"minimize_truth_table": false`, switches
  it on (`C83_violated_minimize`). Missing settings become 0, with a message only (configer.hpp 65-69; `C83_violated_default`: a mapper with cuts of 0 leaves). Of all settings only `cut_size` and
  `cut_limit` of `klut_mapping` have an influence on the networks (`C83_only_two`): `_ps_rewrite`, `use_rewrite`, `use_balance` and `iterations` are never read, and the numbers of
  rounds are overwritten by `init_parameters`.
* Nothing checks the cut size of the configuration file. With 1 (or with none, which is 0) the mapper finds no cut for a gate, keeps an empty one, and the gate becomes constant 0
  (`C83_violated_range`; the assertion in klut_mapping.hpp 600 is off). With 0 the report of an inverter counts in an empty vector (klut_network.hpp 842; `C84_violated_missing`).
  "NO LUT" (flow_manager.hpp 371-374) is printed if the cut size is 0, not if there are no LUTs (`C84_violated_none`). For a copy made by `klut_network( storage )` the index is
  2^32 - 1 (`C84_copied`).
* `read_aiger` does not notice the end of the file or lines that are no numbers among the latches and outputs (aiger.hpp 755-780): such outputs are silently the constant 0
  (`C85_violated_missing`, `C85_violated_letters`). The maximal variable is not used (`C85_violated_maximum`); numbers of 2^32 and more wrap around (719; `C85_violated_large`).
* The flow trusts its files. For a folder the result is that of compress2.aig, even if original.aig is another function (`C86_violated_mixed`); if compress.aig and compress2.aig are missing, an empty network
  is mapped without a word, as the assertion in flow_manager.hpp 243 is off (`C86_violated_alone`). A path with ".aig" anywhere in it is taken for a file (266, 293; `C86_violated_named`). After
  "Load input wrong!" the flow goes on with an empty network (89-91; `C86_violated_unread`).
* `write_out` does not compare its two paths: if they are the same, the Verilog module is overwritten by the netlist (`C87_violated_same`). It returns true whatever the writers say (flow_manager.hpp 353-360),
  and gives the paths to the shell without quotes (329, 336).
* `read_aiger` of a file that cannot be read clears the stores and leaves an empty network, with which `map_fpga` and `write_fpga` go on without a word (`C88_violated_unread`).
* `write_aiger` without a stored AIG goes on after its warning; the access to the empty store throws a string (alice/store.hpp 61), which cli.hpp does not catch around commands: the shell ends.
* `write_aiger` without a current AIG warns and then accesses the empty store, which throws (`C88_violated_empty`).

## 6. Axioms of the theorems

* none: `Klut.C30_constant`, `Mapper.C38_violated_shell`
* propext: `Strash.C10_erase_absent_removes_other`, `Balance.C17_violated_levels`, `Cuts.C19_violated`, `Cuts.C20_violated_order`, `Rewrite.C25_registers`, `Klut.C32_violated`, `Collapse.C34_violated_registers`, `Mapper.C37_violated`, `Mapper.C38_partial`, `ChoiceMiter.C41_fanout`, `Aig.C45_register_outputs_ignored`, `Aig.C11_violated_simulation`, `Cli.C46_violated_clear`, `Cli.C47_violated`, `Cli.C47_violated_sticky`, `Cli.C47_violated_read`, `Pack.C50_violated_shift`, `Validator.C67_undefined_input`, `Validator.C67_violated_gate`, `Cli.Opts.C71_names`, `Cli.isMapper_any`, `Klut.C76_violated_same`, `PSim.C77_violated_missing`, `PSim.C77_violated_changed`, `PSim.C77_violated_register`, `Cli.Events.C78_violated`, `Topo.Grow.C82_violated_unused`, `Topo.Grow.C82_violated_complement`, `Topo.Grow.C82_violated_register`, `Topo.Grow.C82_violated_input`, `Topo.Grow.C82_violated_critical`, `Flow.Config.C83_violated_default`, `Flow.Config.C83_violated_wrap`
* Quot.sound, propext: `Aig.C12_violated`, `Topo.C15_foreach_gate_registers`, `Topo.C16_register_level`, `Cuts.C18_dominates`, `Cuts.C20_violated_insert`, `Cuts.C20_violated_limit`, `Cuts.C20_violated_remove`, `Cuts.C21_violated_limit`, `Cuts.C21_violated_registers`, `TTCache.C22_injective`, `Sop.C23_limit`, `Refactor.C26_undefined`, `Refactor.C26_registers`, `Aiger.C29_rejects_partial`, `Aiger.C29_violated_truncated`, `Aiger.C29_violated_output`, `Aiger.C29_violated_gate`, `Aiger.C29_violated_symbol`, `Aiger.C29_violated_shift`, `Klut.C31_violated`, `Mapper.C36_violated_limit`, `Mapper.C36_violated_choice`, `Mapper.C36_violated_registers`, `Mapper.C38_exact`, `Mapper.C38_violated`, `Choice.C39_violated_input`, `Choice.C39_violated_classes`, `ChoiceMiter.C41_violated_order`, `ChoiceMiter.C41_violated_const`, `ChoiceMiter.C41_violated_registers`, `Cli.C46_read_discards`, `Cli.C46_second_optimize`, `Cli.C46_violated_alias`, `Cli.C47_wedged`, `Choice.C60_violated_order`, `Choice.C60_violated_registers`, `Choice.C61_half`, `Cli.C72_current_unused`, `Checker.C74_self_loops`, `Checker.C74_violated_timeout`, `Klut.C75_violated_dangling`, `Klut.C76_violated_cycle`, `Cli.Events.C78_view`, `Cli.Stats.C79_violated_register`, `Checker.Par.C81_order`, `Checker.Par.C81_violated_race`, `Flow.Report.C84_violated_missing`, `Flow.Report.C84_violated_none`, `Flow.Write.C87_violated_constant`
* Classical.choice, Quot.sound, propext: `PSig.C01_toSig_injective`, `PSig.C01_pack_roundtrip`, `PSig.C01_ops`, `PSig.C01_involution`, `PSig.C01_lt`, `Aig.C02_meaning`, `Aig.C02_create_and`, `Aig.C02_create_io`, `Aig.C03_binary`, `Aig.C03_ternary`, `Aig.C03_nary`, `Aig.C04_canonical`, `Aig.C04_idempotent`, `Aig.C04_found`, `Aig.C05_find_and`, `Aig.C06_topological`, `Aig.C07_fanout_exact`, `Aig.C08_sizes`, `Aig.C08_counters`, `Aig.C09_phase`, `Strash.C10_refines`, `Strash.C10_network`, `Aig.C11_substitute_partial`, `Aig.C11_violated`, `Aig.C12_construct_partial`, `RefDeref.C13_deref_ref`, `RefDeref.C13_ref_deref`, `RefDeref.C13_sizes`, `RefDeref.C13_cone`, `RefDeref.C13_mffc`, `RefDeref.C13_aig_acyclic`, `Aig.C14_function_partial`, `Aig.C14_returns_partial`, `Aig.C14_built_partial`, `Aig.C14_no_dangling_partial`, `Aig.C14_violated_registers`, `Topo.C15_topo`, `Topo.C15_topo_from`, `Topo.C15_foreach_gate`, `Topo.C15_built`, `Topo.C16_levels`, `Topo.C16_built`, `Balance.C17_partial`, `Balance.C17_violated_registers`, `Cuts.C19_merge_partial`, `Cuts.C19_small`, `Cuts.C20_offers_partial`, `Cuts.C20_eviction`, `Cuts.C20_update_best`, `Cuts.C21_function_partial`, `Cuts.C21_cut`, `Cuts.C21_defined`, `TTCache.C22_cache`, `Sop.C23_cube`, `Sop.C23_literal`, `Sop.C23_divide`, `Sop.C23_algebraic`, `Sop.C24_operator`, `Sop.C24_sop`, `Sop.C24_limit`, `Rewrite.C25_partial`, `Rewrite.C25_collapse_free_partial`, `Rewrite.C25_violated`, `Refactor.C26_partial`, `Aiger.C27_roundtrip`, `Aiger.C27_prefix_free`, `Aiger.C28_roundtrip`, `Aiger.C28_cleanup_clean`, `Aiger.C28_cleanup_roundtrip`, `Aiger.C28_needs_clean`, `Aiger.C29_accepts_partial`, `Aiger.C29_terminates_partial`, `Klut.C30_create_node`, `Klut.C30_not`, `Klut.C30_binary`, `Klut.C30_ternary`, `Klut.C30_values`, `Klut.C31_table`, `Klut.C31_boolean_reversed`, `Klut.C31_agree_partial`, `Aig.C32_aig`, `Klut.C32_klut_partial`, `Klut.C32_klut_flags_partial`, `Mapping.C33_mapping`, `Collapse.C34_network_to_klut_partial`, `Collapse.C34_choice_to_klut_partial`, `Collapse.C34_choice_to_klut_rising_partial`, `Collapse.C34_lut_size_partial`, `ToAig.C35_klut_partial`, `ToAig.C35_mapped_partial`, `ToAig.C35_violated_registers`, `Mapper.C36_partial`, `Mapper.C36_defined_partial`, `Mapper.C36_shell_partial`, `Mapper.C36_needed_partial`, `Mapper.C37_deref_ref_partial`, `Mapper.C37_ref_deref_partial`, `Mapper.C37_probe_partial`, `Mapper.C37_area`, `Mapper.C38_shell_partial`, `Choice.C39_acyclic_partial`, `Choice.C39_classes_partial`, `Choice.C39_defined`, `Choice.C39_exact`, `Choice.C39_gates`, `Choice.C39_gates_defined`, `Aig.C40_mux`, `ChoiceMiter.C41_partial`, `Aig.C42_miter`, `Aig.C42_built`, `Aig.C42_mismatch`, `Cnf.C43_exact`, `Cnf.C43_outputs`, `Cnf.C43_gates`, `Cnf.C44_verdict_partial`, `Cnf.C44_sound`, `Cnf.C44_defined`, `Cnf.C44_violated`, `Aig.C45_bool`, `Aig.C45_tt`, `Cli.C46_partial`, `Cli.C47_partial`, `Io.C48_defined_partial`, `Io.C48_distinct_partial`, `Io.C48_denotes_partial`, `Io.C48_default_partial`, `Io.C48_violated`, `Io.C48_violated_short`, `Io.C48_violated_registers`, `Io.C49_init`, `Io.C49_defined_partial`, `Io.C49_distinct_partial`, `Io.C49_denotes_partial`, `Io.C49_default_partial`, `Io.C49_violated_constant`, `Io.C49_violated_registers`, `Io.C49_violated_clash`, `Io.C49_violated_header`, `Pack.C50_packing`, `Pack.C50_defined`, `Pack.C50_result`, `Klut.C51_bookkeeping`, `Balance.C52_partial`, `Mapper.C53_partial`, `Mapper.C53_defined_partial`, `Mapper.C53_undefined`, `Mapper.C53_violated`, `Io.C54_named_partial`, `Io.C54_unnamed`, `Io.C54_violated_output`, `Io.C54_violated_latch`, `Io.C54_violated_shift`, `Npn.C55_config`, `Npn.C55_minimal`, `Npn.C55_class`, `Rewrite.C56_database`, `Rewrite.C56_resynthesis`, `Mapper.C57_partial`, `Mapper.C57_defined_partial`, `Mapper.C57_violated`, `SopBalance.C58_partial`, `SopBalance.C58_defined_partial`, `SopBalance.C58_violated_minimize`, `SopBalance.C58_violated_limit`, `Mapper.C59_cells_partial`, `Mapper.C59_klut_partial`, `Mapper.C59_defined_partial`, `Mapper.C59_violated_self`, `Choice.C60_derive_partial`, `Choice.C60_recorded`, `Choice.C60_dup`, `Choice.C60_mapping_partial`, `Choice.C61_classes`, `Choice.C61_equivalent`, `Choice.Prover.C62_unsat`, `Choice.Prover.C62_sat`, `Choice.Prover.C62_defined`, `Choice.Prover.C62_decides`, `Choice.C63_repr`, `Choice.C63_defined`, `Choice.C63_choice_partial`, `Choice.C63_pipeline_partial`, `Choice.C64_partial`, `Choice.C64_monotone`, `Choice.C64_violated`, `Flow.C65_partial`, `Flow.C65_violated`, `Flow.C66_partial`, `Flow.C66_interface_partial`, `Flow.C66_violated`, `Validator.C67_signals_partial`, `Validator.C67_node_partial`, `Validator.C67_const_partial`, `Validator.C67_circuit_partial`, `Validator.C67_pattern_partial`, `Validator.C67_decides_partial`, `Validator.C67_violated_input`, `Validator.C68_patterns_partial`, `Validator.C68_complete`, `Validator.C68_violated_timeout`, `Validator.C68_violated_zero`, `Mapper.Timed.C69_refines`, `Mapper.Timed.C69_cover_partial`, `Mapper.Timed.C69_area_partial`, `Mapper.Timed.C69_first_partial`, `Mapper.Timed.C69_monotone_partial`, `Mapper.Timed.C69_bound_partial`, `Mapper.Timed.C69_probing_partial`, `Mapper.Timed.Depth.unique`, `Mapper.Timed.C69_violated`, `Mapper.Timed.C70_refs_partial`, `Mapper.Timed.C70_used_partial`, `Mapper.Timed.C70_required_partial`, `Mapper.Timed.C70_slack_partial`, `Mapper.Timed.C70_defined_partial`, `Mapper.Timed.C70_violated_area`, `Mapper.Timed.C70_violated_slack`, `Cli.Opts.C71_terminates`, `Cli.Opts.C71_line`, `Cli.Opts.C71_help`, `Cli.Opts.C71_word`, `Cli.Opts.C71_twice`, `Cli.Opts.C71_number`, `Cli.Opts.C71_ranges`, `Cli.Opts.C71_rewrite_partial`, `Cli.Opts.C71_refactor_partial`, `Cli.Opts.C71_lutOpt_partial`, `Cli.Opts.C71_mapFpga_partial`, `Cli.Opts.C71_first_partial`, `Cli.Opts.C71_violated_level`, `Cli.Opts.C71_violated_off`, `Cli.Opts.C71_violated_sticky`, `Cli.Opts.C71_violated_refused`, `Cli.Opts.C71_violated_wrap`, `Cli.Opts.C71_violated_default`, `Cli.Opts.C71_violated_type`, `Cli.Opts.C71_violated_priority`, `Cli.C72_partial`, `Cli.C72_defined_partial`, `Cli.C72_plain`, `Cli.isMapper_real`, `Cli.C72_violated_empty`, `Cli.C72_violated_read`, `Cli.C72_violated_zero`, `Cnf.C73_function`, `Cnf.C73_exact`, `Cnf.C73_outputs`, `Cnf.C73_violated_register`, `Checker.C74_sound_partial`, `Checker.C74_network_partial`, `Checker.C74_root_means_partial`, `Checker.C74_single_partial`, `Checker.C74_defined_partial`, `Checker.C74_accepts_partial`, `Checker.C74_root_blind`, `Checker.C74_violated_self`, `Checker.C74_violated_po`, `Checker.C74_violated_register`, `Checker.C74_violated_alarm`, `Klut.C75_function_partial`, `Klut.C75_tidy_partial`, `Klut.C75_cost_partial`, `Klut.C75_live_partial`, `Klut.C75_violated_register`, `Klut.C75_violated_constant`, `Klut.C76_structure`, `Klut.C76_fanout_partial`, `Klut.C76_meaning_partial`, `Klut.C76_function_partial`, `Klut.C76_acyclic_partial`, `Klut.C76_violated_order`, `PSim.meaning_exists`, `PSim.C77_resize`, `PSim.C77_node_partial`, `PSim.C77_whole_partial`, `PSim.C77_last_partial`, `PSim.C77_session_partial`, `PSim.C77_violated_blocks`, `Cli.Events.C78_exact`, `Cli.Events.C78_safe_partial`, `Cli.Events.C78_flow`, `Cli.Stats.C79_aig_partial`, `Cli.Stats.C79_lut_exact_partial`, `Cli.Stats.C79_function_partial`, `Cli.Stats.C79_netlist_partial`, `Cli.Stats.C79_violated`, `Io.Dot.C80_aig_partial`, `Io.Dot.C80_lut_partial`, `Io.Dot.C80_up_partial`, `Io.Dot.C80_lut_up_partial`, `Io.Dot.C80_violated`, `Io.Dot.C80_violated_register`, `Io.Dot.C80_violated_session`, `Checker.Par.C81_sound_partial`, `Checker.Par.C81_network_partial`, `Checker.Par.C81_defined_partial`, `Checker.Par.C81_accepts_partial`, `Checker.Par.C81_free_partial`, `Checker.Par.C81_no_leaves`, `Checker.Par.C81_violated_alarm`, `Checker.Par.C81_violated_timeout`, `Checker.Par.C81_violated_register`, `Topo.Grow.C82_levels_partial`, `Topo.Grow.C82_depth_partial`, `Topo.Grow.C82_count_partial`, `Topo.Grow.C82_same_partial`, `Topo.Grow.C82_defined_partial`, `Topo.Grow.C82_critical`, `Flow.Config.C83_bool`, `Flow.Config.C83_uint`, `Flow.Config.C83_said_partial`, `Flow.Config.C83_missing`, `Flow.Config.C83_only_two`, `Flow.Config.C83_violated_minimize`, `Flow.Config.C83_violated_unused`, `Flow.Config.C83_violated_range`, `Flow.Report.C84_report`, `Flow.Report.C84_defined`, `Flow.Report.C84_flow_partial`, `Flow.Report.C84_copied`, `Aiger.C85_built`, `Aiger.C85_accepted_partial`, `Aiger.C85_violated_missing`, `Aiger.C85_violated_letters`, `Aiger.C85_violated_maximum`, `Aiger.C85_violated_large`, `Flow.Files.C86_file_partial`, `Flow.Files.C86_folder_partial`, `Flow.Files.C86_original_partial`, `Flow.Files.C86_complaint`, `Flow.Files.C86_violated_mixed`, `Flow.Files.C86_violated_alone`, `Flow.Files.C86_violated_named`, `Flow.Files.C86_violated_unread`, `Flow.Write.C87_file_partial`, `Flow.Write.C87_folder_partial`, `Flow.Write.C87_no_constants_partial`, `Flow.Write.C87_default`, `Flow.Write.C87_paths`, `Flow.Write.C87_violated_same`, `Cli.Fpga.C88_partial`, `Cli.Fpga.C88_current`, `Cli.Fpga.C88_defined_partial`, `Cli.Fpga.C88_undefined`, `Cli.Fpga.C88_primary_partial`, `Cli.Fpga.C88_aiger_partial`, `Cli.Fpga.C88_balance`, `Cli.Fpga.C88_cleanup`, `Cli.Fpga.C88_lut_opt_partial`, `Cli.Fpga.C88_rewrite_partial`, `Cli.Fpga.C88_refactor_partial`, `Cli.Fpga.C88_violated_unread`, `Cli.Fpga.C88_violated_dangling`, `Cli.Fpga.C88_violated_empty`
