{
 "claims": [
  {
   "property": "C01",
   "status": "proved",
   "theorems": [
    "Verif.PSig.C01_toSig_injective",
    "Verif.PSig.C01_pack_roundtrip",
    "Verif.PSig.C01_ops",
    "Verif.PSig.C01_involution",
    "Verif.PSig.C01_lt"
   ],
   "note": ""
  },
  {
   "property": "C02",
   "status": "proved",
   "theorems": [
    "Verif.Aig.C02_meaning",
    "Verif.Aig.C02_create_and",
    "Verif.Aig.C02_create_io"
   ],
   "note": ""
  },
  {
   "property": "C03",
   "status": "proved",
   "theorems": [
    "Verif.Aig.C03_binary",
    "Verif.Aig.C03_ternary",
    "Verif.Aig.C03_nary"
   ],
   "note": ""
  },
  {
   "property": "C04",
   "status": "proved",
   "theorems": [
    "Verif.Aig.C04_canonical",
    "Verif.Aig.C04_idempotent",
    "Verif.Aig.C04_found"
   ],
   "note": ""
  },
  {
   "property": "C05",
   "status": "proved",
   "theorems": [
    "Verif.Aig.C05_find_and"
   ],
   "note": ""
  },
  {
   "property": "C06",
   "status": "proved",
   "theorems": [
    "Verif.Aig.C06_topological"
   ],
   "note": ""
  },
  {
   "property": "C07",
   "status": "proved",
   "theorems": [
    "Verif.Aig.C07_fanout_exact"
   ],
   "note": ""
  },
  {
   "property": "C08",
   "status": "proved",
   "theorems": [
    "Verif.Aig.C08_sizes",
    "Verif.Aig.C08_counters"
   ],
   "note": ""
  },
  {
   "property": "C09",
   "status": "proved",
   "theorems": [
    "Verif.Aig.C09_phase"
   ],
   "note": ""
  },
  {
   "property": "C10",
   "status": "proved",
   "theorems": [
    "Verif.Strash.C10_refines",
    "Verif.Strash.C10_network",
    "Verif.Strash.C10_erase_absent_removes_other"
   ],
   "note": "Precondition made explicit (distinct stored pairs, erase only stored nodes); C10_erase_absent_removes_other shows what a release build does outside it."
  },
  {
   "property": "C11",
   "status": "partial",
   "theorems": [
    "Verif.Aig.C11_substitute_partial",
    "Verif.Aig.C11_violated"
   ],
   "note": "The full claim is false for the code: C11_violated has a witness in which the output ends on a removed node. The partial theorem proves that every valuation of the network stays one and outputs keep their values when dead nodes keep their equations; acyclicity of the result is not proved."
  },
  {
   "property": "C12",
   "status": "partial",
   "theorems": [
    "Verif.Aig.C12_construct_partial",
    "Verif.Aig.C12_violated"
   ],
   "note": "Proved for construction-only histories; false with substitution, witness C12_violated."
  },
  {
   "property": "C45",
   "status": "proved",
   "theorems": [
    "Verif.Aig.C45_bool",
    "Verif.Aig.C45_tt",
    "Verif.Aig.C45_register_outputs_ignored",
    "Verif.Aig.C11_violated_simulation"
   ],
   "note": "Combinational networks (all inputs are PIs), as simulate() itself assumes; C45_register_outputs_ignored records what happens otherwise. Bit-packed and partial simulators not modelled."
  },
  {
   "property": "C13",
   "status": "proved",
   "theorems": [
    "Verif.RefDeref.C13_deref_ref",
    "Verif.RefDeref.C13_ref_deref",
    "Verif.RefDeref.C13_sizes",
    "Verif.RefDeref.C13_cone",
    "Verif.RefDeref.C13_mffc",
    "Verif.RefDeref.C13_aig_acyclic"
   ],
   "note": "Generic in fanins, terminal condition and cost, 32-bit wrapping counters; cost sums are natural numbers."
  },
  {
   "property": "C15",
   "status": "proved",
   "theorems": [
    "Verif.Topo.C15_topo",
    "Verif.Topo.C15_topo_from",
    "Verif.Topo.C15_foreach_gate",
    "Verif.Topo.C15_built",
    "Verif.Topo.C15_foreach_gate_registers"
   ],
   "note": "Any acyclic network in any index order; foreach_gate for networks without registers. C15_foreach_gate_registers is a witness that foreach_gate also visits register outputs when registers exist."
  },
  {
   "property": "C16",
   "status": "proved",
   "theorems": [
    "Verif.Topo.C16_levels",
    "Verif.Topo.C16_built",
    "Verif.Topo.C16_register_level"
   ],
   "note": "Generic in the fanin and cost functions of the view. C16_register_level records that a register output gets level 1."
  },
  {
   "property": "C14",
   "status": "partial",
   "theorems": [
    "Verif.Aig.C14_function_partial",
    "Verif.Aig.C14_returns_partial",
    "Verif.Aig.C14_built_partial",
    "Verif.Aig.C14_no_dangling_partial",
    "Verif.Aig.C14_violated_registers"
   ],
   "note": "Proved for networks without registers (functions: any acyclic network incl. dead nodes; no dangling gate and size: constructed networks). With registers the claim is false: C14_violated_registers."
  },
  {
   "property": "C42",
   "status": "proved",
   "theorems": [
    "Verif.Aig.C42_miter",
    "Verif.Aig.C42_built",
    "Verif.Aig.C42_mismatch"
   ],
   "note": "Networks without registers, any acyclic network in any index order."
  },
  {
   "property": "C43",
   "status": "proved",
   "theorems": [
    "Verif.Cnf.C43_exact",
    "Verif.Cnf.C43_outputs",
    "Verif.Cnf.C43_gates"
   ],
   "note": "AIGs, natural-number literals; all gate clause generators except on_function."
  },
  {
   "property": "C44",
   "status": "partial",
   "theorems": [
    "Verif.Cnf.C44_verdict_partial",
    "Verif.Cnf.C44_sound",
    "Verif.Cnf.C44_defined",
    "Verif.Cnf.C44_violated"
   ],
   "note": "Verdicts given are right for every correct solver; a verdict is given if the miter has a gate or no inputs. For miters without gates the solver is asked about unknown variables (C44_violated)."
  },
  {
   "property": "C18",
   "status": "proved",
   "theorems": [
    "Verif.Cuts.C18_dominates"
   ],
   "note": "for all sorted cuts with matching signature"
  },
  {
   "property": "C19",
   "status": "partial",
   "theorems": [
    "Verif.Cuts.C19_merge_partial",
    "Verif.Cuts.C19_small",
    "Verif.Cuts.C19_violated"
   ],
   "note": "exact result for all inputs where the leaf array is not overrun; in full when 2k <= MaxLeaves; the overrun is reachable with cut size 4 and colliding signatures"
  },
  {
   "property": "C20",
   "status": "partial",
   "theorems": [
    "Verif.Cuts.C20_offers_partial",
    "Verif.Cuts.C20_eviction",
    "Verif.Cuts.C20_update_best",
    "Verif.Cuts.C20_violated_insert",
    "Verif.Cuts.C20_violated_limit",
    "Verif.Cuts.C20_violated_order",
    "Verif.Cuts.C20_violated_remove"
   ],
   "note": "proved for is_dominated-guarded insertion; bare insert, limit, tolerance comparison and remove violate the claim"
  },
  {
   "property": "C22",
   "status": "proved",
   "theorems": [
    "Verif.TTCache.C22_cache",
    "Verif.TTCache.C22_injective"
   ],
   "note": "all insertion histories; literals as natural numbers"
  },
  {
   "property": "C21",
   "status": "partial",
   "theorems": [
    "Verif.Cuts.C21_function_partial",
    "Verif.Cuts.C21_cut",
    "Verif.Cuts.C21_defined",
    "Verif.Cuts.C21_violated_limit",
    "Verif.Cuts.C21_violated_registers"
   ],
   "note": "all constructed networks without registers, any cost function and comparison, with and without truth table minimisation, whenever the arrays are not overrun (always for cut size <= 3 and 2..12 cuts); registers and the default cut limit violate the claim"
  },
  {
   "property": "C27",
   "status": "proved",
   "theorems": [
    "Verif.Aiger.C27_roundtrip",
    "Verif.Aiger.C27_prefix_free"
   ],
   "note": "all 32-bit numbers, any following bytes"
  },
  {
   "property": "C28",
   "status": "proved",
   "theorems": [
    "Verif.Aiger.C28_roundtrip",
    "Verif.Aiger.C28_cleanup_clean",
    "Verif.Aiger.C28_cleanup_roundtrip",
    "Verif.Aiger.C28_needs_clean"
   ],
   "note": "For constructed networks whose inputs precede their gates, which cleanup_dangling always produces (C28_cleanup_*); size at most 2^31 nodes, fewer than 2^32 outputs. C28_needs_clean is a witness that the writer itself does not renumber. Names not modelled on the writing side."
  },
  {
   "property": "C29",
   "status": "partial",
   "theorems": [
    "Verif.Aiger.C29_accepts_partial",
    "Verif.Aiger.C29_rejects_partial",
    "Verif.Aiger.C29_terminates_partial",
    "Verif.Aiger.C29_violated_truncated",
    "Verif.Aiger.C29_violated_output",
    "Verif.Aiger.C29_violated_gate",
    "Verif.Aiger.C29_violated_symbol",
    "Verif.Aiger.C29_violated_shift"
   ],
   "note": "False for the code: witnesses for non-termination on truncated files and for out-of-range accesses. Proved: well-formed combinational files are accepted with the denoted functions, wrong headers are rejected, and the reader terminates when enough number-ending bytes follow."
  },
  {
   "property": "C30",
   "status": "proved",
   "theorems": [
    "Verif.Klut.C30_create_node",
    "Verif.Klut.C30_not",
    "Verif.Klut.C30_binary",
    "Verif.Klut.C30_ternary",
    "Verif.Klut.C30_constant",
    "Verif.Klut.C30_values"
   ],
   "note": "All constructed LUT networks; node indices and literals as natural numbers."
  },
  {
   "property": "C31",
   "status": "partial",
   "theorems": [
    "Verif.Klut.C31_table",
    "Verif.Klut.C31_boolean_reversed",
    "Verif.Klut.C31_agree_partial",
    "Verif.Klut.C31_violated"
   ],
   "note": "False for the code: the Boolean compute reads the fanins in reversed order (C31_boolean_reversed, witness C31_violated). The truth-table compute is proved right; the two agree when the function is invariant under reversal of its inputs."
  },
  {
   "property": "C32",
   "status": "partial",
   "theorems": [
    "Verif.Aig.C32_aig",
    "Verif.Klut.C32_violated",
    "Verif.Klut.C32_klut_partial",
    "Verif.Klut.C32_klut_flags_partial"
   ],
   "note": "Proved for AIGs. For LUT networks values share the field with the input mark, so is_ci and num_gates change (C32_violated); everything else is proved unchanged."
  },
  {
   "property": "C33",
   "status": "proved",
   "theorems": [
    "Verif.Mapping.C33_mapping"
   ],
   "note": "All operation sequences on the view."
  },
  {
   "property": "C51",
   "status": "proved",
   "theorems": [
    "Verif.Klut.C51_bookkeeping"
   ],
   "note": "All constructed LUT networks."
  },
  {
   "property": "C34",
   "status": "partial",
   "theorems": [
    "Verif.Collapse.C34_network_to_klut_partial",
    "Verif.Collapse.C34_choice_to_klut_partial",
    "Verif.Collapse.C34_choice_to_klut_rising_partial",
    "Verif.Collapse.C34_lut_size_partial",
    "Verif.Collapse.C34_violated_registers"
   ],
   "note": "All constructed AIGs without registers with any legal cover, all output polarities; returns nothing exactly when there are gates but no cell. Registers are dropped by the code (C34_violated_registers). choice_to_klut also for covers of choice networks, whose leaves need only have smaller indices."
  },
  {
   "property": "C35",
   "status": "partial",
   "theorems": [
    "Verif.ToAig.C35_klut_partial",
    "Verif.ToAig.C35_mapped_partial",
    "Verif.ToAig.C35_violated_registers"
   ],
   "note": "All constructed LUT networks without registers and LUTs of at most 32 inputs, including the cube cover computed by kitty::isop; also mapped AIGs with a legal cover. Registers are dropped by the code (C35_violated_registers)."
  },
  {
   "property": "C46",
   "status": "partial",
   "theorems": [
    "Verif.Cli.C46_partial",
    "Verif.Cli.C46_read_discards",
    "Verif.Cli.C46_second_optimize",
    "Verif.Cli.C46_violated_alias",
    "Verif.Cli.C46_violated_clear"
   ],
   "note": "All sessions with one read, at most five snapshots, no clear and no in-place change of a network that is current and saved; reading discards the history in every state. In-place commands change a just-saved snapshot (C46_violated_alias, for every network), and clear does not forget snapshots (C46_violated_clear)."
  },
  {
   "property": "C47",
   "status": "partial",
   "theorems": [
    "Verif.Cli.C47_partial",
    "Verif.Cli.C47_wedged",
    "Verif.Cli.C47_violated",
    "Verif.Cli.C47_violated_sticky",
    "Verif.Cli.C47_violated_read"
   ],
   "note": "All sessions with one read, first, and never a sixth snapshot. A sixth add wedges the command for good (C47_wedged, C47_violated)."
  },
  {
   "property": "C40",
   "status": "proved",
   "theorems": [
    "Verif.Aig.C40_mux"
   ],
   "note": "All constructed networks, all nodes; is_mux is also shown to be exact for its shape."
  },
  {
   "property": "C39",
   "status": "partial",
   "theorems": [
    "Verif.Choice.C39_acyclic_partial",
    "Verif.Choice.C39_classes_partial",
    "Verif.Choice.C39_defined",
    "Verif.Choice.C39_exact",
    "Verif.Choice.C39_gates",
    "Verif.Choice.C39_gates_defined",
    "Verif.Choice.C39_violated_input",
    "Verif.Choice.C39_violated_classes"
   ],
   "note": "All networks and all sequences of set_choice on gates, mixed with network extensions; class lists when nodes without class are added to representatives (what derive_choice_aig intends). Calls with an input as representative can close a cycle (C39_violated_input)."
  },
  {
   "property": "C38",
   "status": "partial",
   "theorems": [
    "Verif.Mapper.C38_partial",
    "Verif.Mapper.C38_exact",
    "Verif.Mapper.C38_violated",
    "Verif.Mapper.C38_violated_shell",
    "Verif.Mapper.C38_shell_partial"
   ],
   "note": "Exact characterisation of the honoured settings for all parameter values; most user settings are overwritten (C38_violated)."
  },
  {
   "property": "C37",
   "status": "partial",
   "theorems": [
    "Verif.Mapper.C37_deref_ref_partial",
    "Verif.Mapper.C37_ref_deref_partial",
    "Verif.Mapper.C37_probe_partial",
    "Verif.Mapper.C37_area",
    "Verif.Mapper.C37_violated"
   ],
   "note": "All acyclic covers, all cuts, all 32-bit counters, area and edge cost. In networks with registers the claim fails (C37_violated): register outputs are not is_pi and their best cut is trivial."
  },
  {
   "property": "C23",
   "status": "proved",
   "theorems": [
    "Verif.Sop.C23_cube",
    "Verif.Sop.C23_literal",
    "Verif.Sop.C23_divide",
    "Verif.Sop.C23_algebraic",
    "Verif.Sop.C23_limit"
   ],
   "note": "All SOPs with literals below 62 (31 variables), all divisors. With a 32nd variable the mark bit is a literal and division is wrong (C23_limit)."
  },
  {
   "property": "C24",
   "status": "proved",
   "theorems": [
    "Verif.Sop.C24_operator",
    "Verif.Sop.C24_sop",
    "Verif.Sop.C24_limit"
   ],
   "note": "All truth tables over at most 31 variables through the public operator (including kitty's isop, whose covers are shown irredundant), all networks and leaf signals; all SOPs without containment for the procedure itself. On SOPs with containment, which the operator never passes, it recurses forever (C24_limit)."
  },
  {
   "property": "C17",
   "status": "partial",
   "theorems": [
    "Verif.Balance.C17_partial",
    "Verif.Balance.C17_violated_registers",
    "Verif.Balance.C17_violated_levels"
   ],
   "note": "All constructed networks without registers, all implementations of std::sort, all assignments. Register outputs are taken for AND gates, so the claim fails with registers (C17_violated_registers). The final copy of a gate-free network reads a level outside its vector (C17_violated_levels)."
  },
  {
   "property": "C52",
   "status": "partial",
   "theorems": [
    "Verif.Balance.C52_partial"
   ],
   "note": "All constructed networks without registers, all implementations of std::sort that return an ordered permutation. Missing: networks with registers, which balance_and does not support (C17_violated_registers)."
  },
  {
   "property": "C36",
   "status": "partial",
   "theorems": [
    "Verif.Mapper.C36_partial",
    "Verif.Mapper.C36_defined_partial",
    "Verif.Mapper.C36_shell_partial",
    "Verif.Mapper.C36_needed_partial",
    "Verif.Mapper.C36_violated_limit",
    "Verif.Mapper.C36_violated_choice",
    "Verif.Mapper.C36_violated_registers"
   ],
   "note": "All constructed AIGs without registers and choices, cut size 2..7, cut limit 3..11, with an arbitrary oracle for costs, sorting and acceptance; absence of undefined behaviour for cut sizes 2 and 3. Fails for cut limit 2, with choices (self-loop) and with registers."
  },
  {
   "property": "C53",
   "status": "partial",
   "theorems": [
    "Verif.Mapper.C53_partial",
    "Verif.Mapper.C53_defined_partial",
    "Verif.Mapper.C53_undefined",
    "Verif.Mapper.C53_violated"
   ],
   "note": "All constructed AIGs without registers, options with priority size up to 11, arbitrary heuristics; mapping type 0. Undefined behaviour is characterised exactly for cut sizes 2 and 3: gates without any output driven by a gate (C53_violated)."
  },
  {
   "property": "C41",
   "status": "partial",
   "theorems": [
    "Verif.ChoiceMiter.C41_partial",
    "Verif.ChoiceMiter.C41_fanout",
    "Verif.ChoiceMiter.C41_violated_order",
    "Verif.ChoiceMiter.C41_violated_const",
    "Verif.ChoiceMiter.C41_violated_registers"
   ],
   "note": "All lists of constructed networks without registers with the same interface and at least one input, provided the inputs were created before the gates; all assignments. Without that order an output is wrong (C41_violated_order); constant outputs without inputs recurse forever, registers lead to a missing identifier; fan-out counters of the miter are too high (C41_fanout)."
  },
  {
   "property": "C50",
   "status": "proved",
   "theorems": [
    "Verif.Pack.C50_packing",
    "Verif.Pack.C50_defined",
    "Verif.Pack.C50_result",
    "Verif.Pack.C50_violated_shift"
   ],
   "note": "All initial tables of equal length, all sessions of add_pattern, pack_bits and randomize_dont_care_bits, all random choices. Sessions always run through where shift counts are taken modulo 64; in the strict reading of C++ kitty's add_bit is undefined for every 64th bit (C50_violated_shift)."
  },
  {
   "property": "C54",
   "status": "partial",
   "theorems": [
    "Verif.Io.C54_named_partial",
    "Verif.Io.C54_unnamed",
    "Verif.Io.C54_violated_output",
    "Verif.Io.C54_violated_latch",
    "Verif.Io.C54_violated_shift"
   ],
   "note": "All files whose symbol table names every input, register and output, lines in any order, all drivers; and files without symbol table and registers. Fails for partial symbol tables (names shift), and reads outside a vector when an unnamed input drives a named output or a register directly."
  },
  {
   "property": "C48",
   "status": "partial",
   "theorems": [
    "Verif.Io.C48_defined_partial",
    "Verif.Io.C48_distinct_partial",
    "Verif.Io.C48_denotes_partial",
    "Verif.Io.C48_default_partial",
    "Verif.Io.C48_violated",
    "Verif.Io.C48_violated_short",
    "Verif.Io.C48_violated_registers"
   ],
   "note": "Proved for combinational networks with default names, and for reader names that do not collide with generated ones: identifiers distinct and the file denotes the network. Violated in general: port called n3, too few names, registers."
  },
  {
   "property": "C49",
   "status": "partial",
   "theorems": [
    "Verif.Io.C49_init",
    "Verif.Io.C49_defined_partial",
    "Verif.Io.C49_distinct_partial",
    "Verif.Io.C49_denotes_partial",
    "Verif.Io.C49_default_partial",
    "Verif.Io.C49_violated_constant",
    "Verif.Io.C49_violated_registers",
    "Verif.Io.C49_violated_clash",
    "Verif.Io.C49_violated_header"
   ],
   "note": "Proved for LUT networks without registers and without constant fanins and names that do not collide with generated ones; the INIT text is right for every table. Violated in general: constant fanin leaves an open pin, registers become constants, name collisions, header of input-free networks."
  },
  {
   "property": "C25",
   "status": "partial",
   "theorems": [
    "Verif.Rewrite.C25_partial",
    "Verif.Rewrite.C25_collapse_free_partial",
    "Verif.Rewrite.C25_violated",
    "Verif.Rewrite.C25_registers"
   ],
   "note": "Whenever rewrite comes back: all constructed networks without registers, all databases over four inputs, all parameters with cuts of at most seven leaves, all cut orders, provided no gate has two fanins computing the same function (or the replacements leave no gate with identical fanins). Without that an output becomes constant 0 (C25_violated); registers are dropped (C25_registers)."
  },
  {
   "property": "C55",
   "status": "proved",
   "theorems": [
    "Verif.Npn.C55_config",
    "Verif.Npn.C55_minimal",
    "Verif.Npn.C55_class"
   ],
   "note": "All tables of four variables; word-level model of the kitty loops."
  },
  {
   "property": "C56",
   "status": "proved",
   "theorems": [
    "Verif.Rewrite.C56_database",
    "Verif.Rewrite.C56_resynthesis"
   ],
   "note": "All database contents over four inputs, all constructed networks, tables and leaf signals."
  },
  {
   "property": "C26",
   "status": "partial",
   "theorems": [
    "Verif.Refactor.C26_partial",
    "Verif.Refactor.C26_undefined",
    "Verif.Refactor.C26_registers"
   ],
   "note": "Whenever refactor comes back: all constructed networks without registers, all parameters with at most 31 leaves (the command allows 12), including reconvergence-driven cuts, cone tables, factoring, reference counting and substitution. Networks with gates outside the output cones lead to undefined lookups (C26_undefined); registers are dropped (C26_registers). Termination not proved."
  },
  {
   "property": "C57",
   "status": "partial",
   "theorems": [
    "Verif.Mapper.C57_partial",
    "Verif.Mapper.C57_defined_partial",
    "Verif.Mapper.C57_violated"
   ],
   "note": "All constructed AIGs without registers, options with priority size up to 11, arbitrary heuristics. Undefined behaviour is characterised exactly for cut sizes 2 and 3: gates without any output driven by a gate (C57_violated)."
  },
  {
   "property": "C58",
   "status": "partial",
   "theorems": [
    "Verif.SopBalance.C58_partial",
    "Verif.SopBalance.C58_defined_partial",
    "Verif.SopBalance.C58_violated_minimize",
    "Verif.SopBalance.C58_violated_limit"
   ],
   "note": "All constructed AIGs without registers of at most 2^32/135 nodes, unminimised truth tables, cut sizes 2 to 7, cut limits from 3, any choice of the priority queues. Free of undefined behaviour for cut sizes 2 and 3 and limits up to 12. With minimised tables or cut limit 2 nodes become the constant 0 (C58_violated_*)."
  },
  {
   "property": "C59",
   "status": "partial",
   "theorems": [
    "Verif.Mapper.C59_cells_partial",
    "Verif.Mapper.C59_klut_partial",
    "Verif.Mapper.C59_defined_partial",
    "Verif.Mapper.C59_violated_self"
   ],
   "note": "All constructed AIGs without registers with ordered and sound choices, cut size 2..7, cut limit 3..11, arbitrary heuristics: every cell is right; the LUT network is equivalent unless some cell is the node itself. That happens (C59_violated_self): the cell of a representative becomes its own unit cut and an output becomes constant."
  },
  {
   "property": "C60",
   "status": "partial",
   "theorems": [
    "Verif.Choice.C60_derive_partial",
    "Verif.Choice.C60_recorded",
    "Verif.Choice.C60_dup",
    "Verif.Choice.C60_mapping_partial",
    "Verif.Choice.C60_violated_order",
    "Verif.Choice.C60_violated_registers"
   ],
   "note": "All constructed AIGs whose inputs have the smallest indices, all sound representatives. An input after a gate gives a wrong function (C60_violated_order: old2new[i] is set to the signal i); registers become plain inputs and outputs."
  },
  {
   "property": "C61",
   "status": "proved",
   "theorems": [
    "Verif.Choice.C61_classes",
    "Verif.Choice.C61_equivalent",
    "Verif.Choice.C61_half"
   ],
   "note": "All constructed networks, positive numbers of words, all random numbers. With the program's generator (values below 2^31) half of the simulated patterns are all-zero (C61_half)."
  },
  {
   "property": "C62",
   "status": "proved",
   "theorems": [
    "Verif.Choice.Prover.C62_unsat",
    "Verif.Choice.Prover.C62_sat",
    "Verif.Choice.Prover.C62_defined",
    "Verif.Choice.Prover.C62_decides"
   ],
   "note": "All reachable states of the prover, all parameters, solvers as oracles with right answers. Definedness and read-back of the counterexample for networks of less than 1000 nodes: above, an assumption can mention a variable the solver has not allocated."
  },
  {
   "property": "C63",
   "status": "partial",
   "theorems": [
    "Verif.Choice.C63_repr",
    "Verif.Choice.C63_defined",
    "Verif.Choice.C63_choice_partial",
    "Verif.Choice.C63_pipeline_partial"
   ],
   "note": "The sweeping is right for all constructed AIGs. The network with choices and the whole flow to the LUT network: inputs with the smallest indices; without the self-cells of C59; registers are not kept (C60). Definedness for less than 1000 nodes."
  },
  {
   "property": "C64",
   "status": "partial",
   "theorems": [
    "Verif.Choice.C64_partial",
    "Verif.Choice.C64_monotone",
    "Verif.Choice.C64_violated"
   ],
   "note": "Decision and separation hold for all constructed AIGs of less than 1000 nodes and all right solvers; classes are only split. That equivalent nodes are never separated fails (C64_violated): resimulate_other_rec visits the first child twice and never the second, whose value is left over from an earlier counterexample."
  },
  {
   "property": "C65",
   "status": "partial",
   "theorems": [
    "Verif.Flow.C65_partial",
    "Verif.Flow.C65_violated"
   ],
   "note": "Whenever the flow comes back: networks without registers, inputs first, no gate with two fanins of the same function among the networks given to rewriting (C25), no self-cell (C59). In-place changes of the stored networks are modelled and shown harmless. C65_violated: on a network of C25 the LUT network is wrong."
  },
  {
   "property": "C66",
   "status": "partial",
   "theorems": [
    "Verif.Flow.C66_partial",
    "Verif.Flow.C66_interface_partial",
    "Verif.Flow.C66_violated"
   ],
   "note": "Both verdicts are right for networks without registers, inputs first, no gate with two fanins of the same function; any LUT network with the same interface and LUTs of at most 32 inputs. C66_interface_partial: a LUT network with another interface is always refused. C66_violated: the step says 'equivalent' for a wrong LUT network."
  },
  {
   "property": "C67",
   "status": "partial",
   "theorems": [
    "Verif.Validator.C67_signals_partial",
    "Verif.Validator.C67_node_partial",
    "Verif.Validator.C67_const_partial",
    "Verif.Validator.C67_circuit_partial",
    "Verif.Validator.C67_pattern_partial",
    "Verif.Validator.C67_decides_partial",
    "Verif.Validator.C67_violated_input",
    "Verif.Validator.C67_undefined_input",
    "Verif.Validator.C67_violated_gate"
   ],
   "note": "All sessions (validate in all forms, generate_pattern, update, restarts, with and without push/pop), all networks that grow by gates, outputs and register inputs, all solvers with right answers. Fails for inputs created after the validator (C67_violated_input, C67_undefined_input) and for circuit gates whose type does not fit the number of fanins (C67_violated_gate). use_odc = true is not modelled (needs foreach_fanout, which no network has)."
  },
  {
   "property": "C68",
   "status": "partial",
   "theorems": [
    "Verif.Validator.C68_patterns_partial",
    "Verif.Validator.C68_complete",
    "Verif.Validator.C68_violated_timeout",
    "Verif.Validator.C68_violated_zero"
   ],
   "note": "All sessions, nodes, values, blocked patterns of the right length and numbers of patterns; completeness for solvers that do not give up. The claim of the code's comment fails on a timeout (C68_violated_timeout) and for num_patterns = 0 (C68_violated_zero)."
  },
  {
   "property": "C69",
   "status": "partial",
   "theorems": [
    "Verif.Mapper.Timed.C69_refines",
    "Verif.Mapper.Timed.C69_cover_partial",
    "Verif.Mapper.Timed.C69_area_partial",
    "Verif.Mapper.Timed.C69_first_partial",
    "Verif.Mapper.Timed.C69_monotone_partial",
    "Verif.Mapper.Timed.C69_bound_partial",
    "Verif.Mapper.Timed.C69_probing_partial",
    "Verif.Mapper.Timed.Depth.unique",
    "Verif.Mapper.Timed.C69_violated"
   ],
   "note": "Networks without choices and registers, cut limits 3 to 11, costs modelled with rational numbers. The area is always right, the delay after the first round, and it never grows; but the final mapping may be deeper than reported (C69_violated: 4 instead of 3). C69_refines holds for networks with choices as well."
  },
  {
   "property": "C70",
   "status": "partial",
   "theorems": [
    "Verif.Mapper.Timed.C70_refs_partial",
    "Verif.Mapper.Timed.C70_used_partial",
    "Verif.Mapper.Timed.C70_required_partial",
    "Verif.Mapper.Timed.C70_slack_partial",
    "Verif.Mapper.Timed.C70_defined_partial",
    "Verif.Mapper.Timed.C70_violated_area",
    "Verif.Mapper.Timed.C70_violated_slack"
   ],
   "note": "Networks without choices and registers, cut limits 3 to 11, fewer than 2^32 outputs and nodes. Counts are right after every round, required times after every round that is not an area round of the preprocessing (C70_violated_area: no required times inside after the third round), and arrival in time after the first round (C70_violated_slack: after all rounds an input is required at time -1)."
  },
  {
   "property": "C71",
   "status": "partial",
   "theorems": [
    "Verif.Cli.Opts.C71_terminates",
    "Verif.Cli.Opts.C71_line",
    "Verif.Cli.Opts.C71_names",
    "Verif.Cli.Opts.C71_help",
    "Verif.Cli.Opts.C71_word",
    "Verif.Cli.Opts.C71_twice",
    "Verif.Cli.Opts.C71_number",
    "Verif.Cli.Opts.C71_ranges",
    "Verif.Cli.Opts.C71_rewrite_partial",
    "Verif.Cli.Opts.C71_refactor_partial",
    "Verif.Cli.Opts.C71_lutOpt_partial",
    "Verif.Cli.Opts.C71_mapFpga_partial",
    "Verif.Cli.Opts.C71_first_partial",
    "Verif.Cli.Opts.C71_violated_level",
    "Verif.Cli.Opts.C71_violated_off",
    "Verif.Cli.Opts.C71_violated_sticky",
    "Verif.Cli.Opts.C71_violated_refused",
    "Verif.Cli.Opts.C71_violated_wrap",
    "Verif.Cli.Opts.C71_violated_default",
    "Verif.Cli.Opts.C71_violated_type",
    "Verif.Cli.Opts.C71_violated_priority"
   ],
   "note": "Parsing and ranges for all lines and sessions. Meaning for lines that spell options one by one (not flags written together): always the meaning of all lines of the session together, not of the last line; so it is right for the first refactor and map_fpga. Fails: level of rewrite is inverted, flags cannot be turned off again, values stay, refused lines have effects, numbers wrap round, default cut size of lut_opt, map_fpga forgets the type, documented priority sizes above 12 overrun the array of cuts."
  },
  {
   "property": "C72",
   "status": "partial",
   "theorems": [
    "Verif.Cli.C72_partial",
    "Verif.Cli.C72_defined_partial",
    "Verif.Cli.C72_plain",
    "Verif.Cli.isMapper_any",
    "Verif.Cli.isMapper_real",
    "Verif.Cli.C72_current_unused",
    "Verif.Cli.C72_violated_empty",
    "Verif.Cli.C72_violated_read",
    "Verif.Cli.C72_violated_zero"
   ],
   "note": "Sessions of C46 whose commands preserve functions, designs without registers, inputs first, priority sizes up to 11, mappings without a cell that is its own leaf; for the mapper with any heuristics and with its own costs. Fails without a saved snapshot that has a gate (undefined behaviour instead of the warning, because the store always has six slots) and for a design of three gates with the default options: both outputs become the constant 0 (C72_violated_zero)."
  },
  {
   "property": "C73",
   "status": "partial",
   "theorems": [
    "Verif.Cnf.C73_function",
    "Verif.Cnf.C73_exact",
    "Verif.Cnf.C73_outputs",
    "Verif.Cnf.C73_violated_register"
   ],
   "note": "Networks without registers, functions of at most 31 variables, uint32_t literals as natural numbers. With registers it fails: their outputs share the literal of the constant (C73_violated_register)."
  },
  {
   "property": "C74",
   "status": "partial",
   "theorems": [
    "Verif.Checker.C74_sound_partial",
    "Verif.Checker.C74_network_partial",
    "Verif.Checker.C74_root_means_partial",
    "Verif.Checker.C74_single_partial",
    "Verif.Checker.C74_defined_partial",
    "Verif.Checker.C74_accepts_partial",
    "Verif.Checker.C74_root_blind",
    "Verif.Checker.C74_self_loops",
    "Verif.Checker.C74_violated_self",
    "Verif.Checker.C74_violated_po",
    "Verif.Checker.C74_violated_timeout",
    "Verif.Checker.C74_violated_register",
    "Verif.Checker.C74_violated_alarm"
   ],
   "note": "Networks with ordered and sound choices, without registers; cells with 1 to 31 leaves. Accepted mappings are right if the solver always answers; cells that are right by their structure are accepted; the check ends if leaves are smaller than their root. Fails: timeouts count as success, registers, right cells refused, output check blind below the top cell, no end for a cell that is its own leaf (which klut_mapping produces)."
  },
  {
   "property": "C75",
   "status": "partial",
   "theorems": [
    "Verif.Klut.C75_function_partial",
    "Verif.Klut.C75_tidy_partial",
    "Verif.Klut.C75_cost_partial",
    "Verif.Klut.C75_live_partial",
    "Verif.Klut.C75_violated_register",
    "Verif.Klut.C75_violated_dangling",
    "Verif.Klut.C75_violated_constant"
   ],
   "note": "All LUT networks without register outputs (foreach_pi skips them). Fails with registers: outputs of registers become constant 0 and the registers are lost (C75_violated_register). A LUT that becomes unread by the simplification stays (C75_violated_dangling), and a constant LUT stays if a fanin occurs twice (C75_violated_constant)."
  },
  {
   "property": "C76",
   "status": "partial",
   "theorems": [
    "Verif.Klut.C76_structure",
    "Verif.Klut.C76_fanout_partial",
    "Verif.Klut.C76_meaning_partial",
    "Verif.Klut.C76_function_partial",
    "Verif.Klut.C76_acyclic_partial",
    "Verif.Klut.C76_violated_cycle",
    "Verif.Klut.C76_violated_same",
    "Verif.Klut.C76_violated_order"
   ],
   "note": "All LUT networks and pairs of nodes in which old is not below new. If it is, the new node becomes its own fanin (C76_violated_cycle); old = new sets the fan-out count to 0 (C76_violated_same); the order of nodes is not kept topological (C76_violated_order). Events are not modelled."
  },
  {
   "property": "C77",
   "status": "partial",
   "theorems": [
    "Verif.PSim.meaning_exists",
    "Verif.PSim.C77_resize",
    "Verif.PSim.C77_node_partial",
    "Verif.PSim.C77_whole_partial",
    "Verif.PSim.C77_last_partial",
    "Verif.PSim.C77_session_partial",
    "Verif.PSim.C77_violated_blocks",
    "Verif.PSim.C77_violated_missing",
    "Verif.PSim.C77_violated_changed",
    "Verif.PSim.C77_violated_register"
   ],
   "note": "AIGs without registers, at least one pattern, and the use that the comments of the code ask for: before a pattern starts a new block of 64, all stored values are brought up to date. Without it bits stay zero (C77_violated_blocks); gates without a value get zeros (C77_violated_missing); changed patterns are not noticed (C77_violated_changed); register outputs never get a value (C77_violated_register)."
  },
  {
   "property": "C78",
   "status": "partial",
   "theorems": [
    "Verif.Cli.Events.C78_exact",
    "Verif.Cli.Events.C78_safe_partial",
    "Verif.Cli.Events.C78_view",
    "Verif.Cli.Events.C78_flow",
    "Verif.Cli.Events.C78_violated"
   ],
   "note": "All sessions: undefined behaviour happens exactly if a network is drawn with write_dot and gets a new node by rewrite or refactor while it is still the current one (C78_exact); sessions without write_dot and the flow are safe. C78_violated: read, write_dot, rewrite of a chain of three gates, with the modelled rewriting."
  },
  {
   "property": "C79",
   "status": "partial",
   "theorems": [
    "Verif.Cli.Stats.C79_aig_partial",
    "Verif.Cli.Stats.C79_lut_exact_partial",
    "Verif.Cli.Stats.C79_function_partial",
    "Verif.Cli.Stats.C79_netlist_partial",
    "Verif.Cli.Stats.C79_violated",
    "Verif.Cli.Stats.C79_violated_register"
   ],
   "note": "Networks without registers and sizes below 2^31. AIG lines are right and only traversal marks change. For LUT networks every call appends a node to the stored network before counting: the i-th printed number of LUTs is i too large (C79_violated: 3 instead of 2), functions stay, and later netlists have one LUT without pins per call. With registers the depth is too large (C79_violated_register)."
  },
  {
   "property": "C80",
   "status": "partial",
   "theorems": [
    "Verif.Io.Dot.C80_aig_partial",
    "Verif.Io.Dot.C80_lut_partial",
    "Verif.Io.Dot.C80_up_partial",
    "Verif.Io.Dot.C80_lut_up_partial",
    "Verif.Io.Dot.C80_violated",
    "Verif.Io.Dot.C80_violated_register",
    "Verif.Io.Dot.C80_violated_session"
   ],
   "note": "Networks without registers, any traversal marks; the file is read back with an independent reader of DOT statements. Names, shapes, labels, edges, styles and outputs are exactly those of the network; edges go up if they lead to a gate that outputs use. Unused gates are put on the lowest level, so edges go down (C80_violated); register outputs are drawn as gates (C80_violated_register); after print_stats a LUT network is drawn with an additional gate (C80_violated_session)."
  },
  {
   "property": "C81",
   "status": "partial",
   "theorems": [
    "Verif.Checker.Par.C81_sound_partial",
    "Verif.Checker.Par.C81_network_partial",
    "Verif.Checker.Par.C81_order",
    "Verif.Checker.Par.C81_defined_partial",
    "Verif.Checker.Par.C81_accepts_partial",
    "Verif.Checker.Par.C81_free_partial",
    "Verif.Checker.Par.C81_no_leaves",
    "Verif.Checker.Par.C81_violated_alarm",
    "Verif.Checker.Par.C81_violated_timeout",
    "Verif.Checker.Par.C81_violated_register",
    "Verif.Checker.Par.C81_violated_race"
   ],
   "note": "Networks without registers, any solver without wrong answers, any order of the iterations: accepted LUTs are right. Right LUTs are accepted if all nodes of the cone are nearer to the leaves than the root; otherwise a right LUT is refused (C81_violated_alarm), also without leaves (C81_no_leaves) and when the solver gives up (C81_violated_timeout). With registers a wrong LUT is accepted (C81_violated_register). Iterations conflict on the map of fan-outs for a network with two outputs (C81_violated_race); C81_free_partial states when they do not."
  },
  {
   "property": "C82",
   "status": "partial",
   "theorems": [
    "Verif.Topo.Grow.C82_levels_partial",
    "Verif.Topo.Grow.C82_depth_partial",
    "Verif.Topo.Grow.C82_count_partial",
    "Verif.Topo.Grow.C82_same_partial",
    "Verif.Topo.Grow.C82_defined_partial",
    "Verif.Topo.Grow.C82_critical",
    "Verif.Topo.Grow.C82_violated_unused",
    "Verif.Topo.Grow.C82_violated_complement",
    "Verif.Topo.Grow.C82_violated_register",
    "Verif.Topo.Grow.C82_violated_input",
    "Verif.Topo.Grow.C82_violated_critical"
   ],
   "note": "AIGs without registers, every gate used by an output whenever all levels are computed: levels are right in every session; the depth is right if complements are not counted, else at most one too small. Unused gates get level 0, so gates on them are too low (C82_violated_unused); create_po ignores complements (C82_violated_complement); register outputs are at 0 until an update puts them at 1 (C82_violated_register); a new input has no level (C82_violated_input); is_on_critical_path is never true (C82_critical)."
  },
  {
   "property": "C83",
   "status": "partial",
   "theorems": [
    "Verif.Flow.Config.C83_bool",
    "Verif.Flow.Config.C83_uint",
    "Verif.Flow.Config.C83_said_partial",
    "Verif.Flow.Config.C83_missing",
    "Verif.Flow.Config.C83_only_two",
    "Verif.Flow.Config.C83_violated_minimize",
    "Verif.Flow.Config.C83_violated_default",
    "Verif.Flow.Config.C83_violated_wrap",
    "Verif.Flow.Config.C83_violated_unused",
    "Verif.Flow.Config.C83_violated_range"
   ],
   "note": "All parsed documents. Settings of the right type and in range reach the parameters (C83_said_partial), but only the size and the number of cuts of the mapper have an influence on the networks (C83_only_two, C83_violated_unused). Missing settings become 0 and false instead of their defaults (C83_missing, C83_violated_default), numbers wrap around (C83_violated_wrap), with a cut size of 1 a conjunction silently becomes constant 0 (C83_violated_range), and the shipped file switches on the minimisation that it says is off (C83_violated_minimize). The parser of the text is not modelled."
  },
  {
   "property": "C84",
   "status": "partial",
   "theorems": [
    "Verif.Flow.Report.C84_report",
    "Verif.Flow.Report.C84_defined",
    "Verif.Flow.Report.C84_flow_partial",
    "Verif.Flow.Report.C84_copied",
    "Verif.Flow.Report.C84_violated_missing",
    "Verif.Flow.Report.C84_violated_none"
   ],
   "note": "All constructed LUT networks of less than 2^31 nodes and all cut sizes: the report is defined exactly if no LUT has more fanins than the cut size (C84_defined), and then right (C84_report). So it is for the flow under the hypotheses of C65 and sensible parameters (C84_flow_partial). Missing: without a cut size in the configuration file the counting leaves the vector (C84_violated_missing), networks without LUTs are not reported as such (C84_violated_none). Copies by klut_network(storage) have no report (C84_copied). The delay in the report is not modelled here."
  },
  {
   "property": "C85",
   "status": "partial",
   "theorems": [
    "Verif.Aiger.C85_built",
    "Verif.Aiger.C85_accepted_partial",
    "Verif.Aiger.C85_violated_missing",
    "Verif.Aiger.C85_violated_letters",
    "Verif.Aiger.C85_violated_maximum",
    "Verif.Aiger.C85_violated_large"
   ],
   "note": "All byte strings: an accepted network is well formed (C85_built) and, if the numbers of the header are below 2^32, as the header announces (C85_accepted_partial). Missing, and false: files that break the format are accepted too; missing and meaningless lines of outputs are the constant 0 (C85_violated_missing, C85_violated_letters), the maximal variable is not checked (C85_violated_maximum), larger numbers wrap around (C85_violated_large)."
  },
  {
   "property": "C86",
   "status": "partial",
   "theorems": [
    "Verif.Flow.Files.C86_file_partial",
    "Verif.Flow.Files.C86_folder_partial",
    "Verif.Flow.Files.C86_original_partial",
    "Verif.Flow.Files.C86_complaint",
    "Verif.Flow.Files.C86_violated_mixed",
    "Verif.Flow.Files.C86_violated_alone",
    "Verif.Flow.Files.C86_violated_named",
    "Verif.Flow.Files.C86_violated_unread"
   ],
   "note": "All bytes in the files: for a file whose network has inputs and no registers the LUT network is equivalent to it, under the hypotheses of C65 (C86_file_partial). For a folder it is equivalent to compress2.aig, whatever the other files hold (C86_folder_partial), and to original.aig exactly if compress2.aig is (C86_original_partial). A failed reading of the file, or of original.aig, and nothing else, is reported (C86_complaint). Missing, and false: different networks in a folder are not noticed (C86_violated_mixed), nor are missing ones (C86_violated_alone); a folder with .aig in its name is taken for a file (C86_violated_named); after a failed reading an empty network is mapped (C86_violated_unread)."
  },
  {
   "property": "C87",
   "status": "partial",
   "theorems": [
    "Verif.Flow.Write.C87_file_partial",
    "Verif.Flow.Write.C87_folder_partial",
    "Verif.Flow.Write.C87_no_constants_partial",
    "Verif.Flow.Write.C87_default",
    "Verif.Flow.Write.C87_paths",
    "Verif.Flow.Write.C87_violated_constant",
    "Verif.Flow.Write.C87_violated_same"
   ],
   "note": "All bytes, paths and sound solvers, under the hypotheses of C86: the netlist and, if its path is another one, the Verilog module are written with distinct identifiers and denote the network in the file (C87_file_partial) or in compress2.aig (C87_folder_partial); other files stay as they were; the default paths are different (C87_default) and given ones are used (C87_paths). No LUT has a constant fanin, which C49 needs (C87_no_constants_partial); a node that is its own cell gives one (C87_violated_constant). Missing: port names that look like made-up ones, for a folder original.aig (C86_violated_mixed). With the same path for both files the Verilog module is lost (C87_violated_same). Folders that cannot be made and files that cannot be opened are not modelled."
  },
  {
   "property": "C88",
   "status": "partial",
   "theorems": [
    "Verif.Cli.Fpga.C88_partial",
    "Verif.Cli.Fpga.C88_current",
    "Verif.Cli.Fpga.C88_defined_partial",
    "Verif.Cli.Fpga.C88_undefined",
    "Verif.Cli.Fpga.C88_primary_partial",
    "Verif.Cli.Fpga.C88_aiger_partial",
    "Verif.Cli.Fpga.C88_balance",
    "Verif.Cli.Fpga.C88_cleanup",
    "Verif.Cli.Fpga.C88_lut_opt_partial",
    "Verif.Cli.Fpga.C88_rewrite_partial",
    "Verif.Cli.Fpga.C88_refactor_partial",
    "Verif.Cli.Fpga.C88_violated_unread",
    "Verif.Cli.Fpga.C88_violated_dangling",
    "Verif.Cli.Fpga.C88_violated_empty"
   ],
   "note": "All sessions: after the last read_aiger of a combinational design with at least one input, with any commands that keep its functions, write_fpga comes back and writes a netlist that denotes the design, or nothing if there was no map_fpga with accepted options (C88_partial). write_primary writes a Verilog module that denotes it (C88_primary_partial), and the file of write_aiger reads back as it if the inputs come first (C88_aiger_partial). balance, cleanup, lut_opt, rewrite and refactor are such commands (C88_balance, C88_cleanup, C88_lut_opt_partial, C88_rewrite_partial, C88_refactor_partial). Missing: registers, port names that look like made-up ones, more than 11 cuts, mapping with choices (C72), print_stats between mapping and writing (C79). After a file that cannot be read an empty module is written (C88_violated_unread); mapping a file with gates none of which drives an output is undefined (C88_violated_dangling); write_aiger without a design throws (C88_violated_empty). Sessions with cut sizes up to 3, with a gate at an output of every AIG that has gates and without write_aiger after the last read_aiger come back (C88_defined_partial); without a gate at an output map_fpga is undefined (C88_undefined). Mapping and writing leave the result of the last optimisation current (C88_current)."
  }
 ]
}