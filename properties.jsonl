{"id": "C01", "title": "Complemented-edge algebra", "statement": "For every signal the operators obey the Boolean edge algebra: negating twice is the identity, `+` strips and `-` sets the complement, `^ c` complements exactly when c is true, equality is equality of (node, complement), `<` is a strict total order, and the packed 64-bit word round-trips (node index in the upper 63 bits, complement in bit 0).", "quantifier": "all signals (all node indices below 2^63, both polarities)", "why_tests_cant": "There are 2^64 packed words; a test samples a few of them.", "anchors": ["include/database/network/aig_network.hpp: signal (73-157)"]}
{"id": "C02", "title": "create_and computes conjunction and disturbs nothing", "statement": "After create_and(a,b) on any network obtained from the public construction API, the returned signal evaluates to (value of a) AND (value of b) under every input assignment, and every signal that existed before the call still evaluates to what it did before.", "quantifier": "all construction histories, all pairs of existing signals, all input assignments", "why_tests_cant": "The result depends on the whole construction history (strashing hits, trivial cases, complement placement); only finitely many histories and assignments can be run.", "anchors": ["include/database/network/aig_network.hpp: create_and (313-367)"]}
{"id": "C03", "title": "Derived gates compute their named function", "statement": "create_nand/or/nor/lt/le/xor/xnor/ite/maj/xor3 and the n-ary and/or/xor constructors return a signal whose value is the named Boolean function of the argument signals, for every network and assignment (n-ary: any number of arguments, including none).", "quantifier": "all construction histories, all argument lists, all input assignments", "why_tests_cant": "n-ary constructors accept unboundedly many arguments and every call goes through state-dependent strashing.", "anchors": ["include/database/network/aig_network.hpp: create_nand..create_nary_xor (369-452)", "include/utils/range.hpp: tree_reduce (25-45)"]}
{"id": "C04", "title": "Structural hashing is canonical", "statement": "In a network built with the construction API no two gates have the same ordered fanin pair, no gate has a constant fanin or two fanins on the same node, and asking for the same conjunction again (in either argument order) returns the same signal and does not change the network.", "quantifier": "all construction histories", "why_tests_cant": "Uniqueness is an invariant over unbounded histories including table growth.", "anchors": ["include/database/network/aig_network.hpp: create_and (313-367)", "include/database/network/details/storage.hpp: hash_find, hash_insert"]}
{"id": "C05", "title": "find_and agrees with create_and", "statement": "find_and(a,b) answers true exactly when create_and(a,b) would not add a gate to the network; asking never changes the network.", "quantifier": "all construction histories, all pairs of existing signals", "why_tests_cant": "Needs agreement for every reachable network state.", "anchors": ["include/database/network/aig_network.hpp: find_and (290-311), create_and (313-367)"]}
{"id": "C06", "title": "Index order is topological while only constructing", "statement": "In every network produced by the construction API each gate's fanins have strictly smaller indices than the gate, so foreach_gate visits fanins before fanouts and the network is acyclic.", "quantifier": "all construction histories", "why_tests_cant": "Global invariant of unbounded histories.", "anchors": ["include/database/network/aig_network.hpp: create_and, foreach_gate (313-367, 1036-1052)"]}
{"id": "C07", "title": "fanout_size is exact", "statement": "For every node of a constructed network fanout_size(n) equals the number of gate fanins that refer to n plus the number of combinational outputs that refer to n.", "quantifier": "all construction histories, all nodes", "why_tests_cant": "Reference counting drift appears only along particular histories.", "anchors": ["include/database/network/aig_network.hpp: create_and, create_po, create_ri, fanout_size"]}
{"id": "C08", "title": "Size bookkeeping", "statement": "For constructed networks num_gates() is the number of nodes foreach_gate visits, size() = 1 + number of combinational inputs + num_gates(), num_pis/num_pos equal the numbers of create_pi/create_po calls.", "quantifier": "all construction histories", "why_tests_cant": "num_gates is derived from a hash-table entry counter, not counted; drift depends on history.", "anchors": ["include/database/network/aig_network.hpp: num_gates, size, num_pis, num_pos (721-788)"]}
{"id": "C09", "title": "phase bit is the all-zero simulation value", "statement": "For every node of a constructed network the stored phase equals the node's value when all combinational inputs are 0.", "quantifier": "all construction histories, all nodes", "why_tests_cant": "Choice computation relies on the bit for every node of every network.", "anchors": ["include/database/network/aig_network.hpp: create_and phase update (313-367), phase()"]}
{"id": "C10", "title": "Strash table refines a finite map", "statement": "After any sequence of insertions, erasures and rehashes (with distinct fanin pairs) the chained hash table finds exactly the nodes currently inserted: a find for a fanin pair returns the node with that pair if present and reports absence otherwise; chains always terminate; num_entries equals the number of stored nodes.", "quantifier": "all operation sequences, all fanin pairs, all table sizes", "why_tests_cant": "Rehash thresholds (20000 entries) and collisions depend on long sequences; pointer chains could become cyclic or lost only in particular orders.", "anchors": ["include/database/network/details/storage.hpp: abc_hash, hash_find, hash_insert, hash_reserve, hash_erase (44-138)"]}
{"id": "C11", "title": "substitute_node preserves outputs", "statement": "If two nodes/signals of a network have the same value under all assignments and the new signal does not depend on the old node, substitute_node(old,new) leaves the function of every primary output unchanged.", "quantifier": "all networks reachable through the API including earlier substitutions, all functionally-equal pairs, all assignments", "why_tests_cant": "The worklist cascades through arbitrarily many strash merges whose order depends on the network.", "anchors": ["include/database/network/aig_network.hpp: substitute_node, replace_in_node, replace_in_outputs, take_out_node (466-625)"]}
{"id": "C12", "title": "No dead node is handed out", "statement": "After any sequence of construction and substitution, signals returned by create_and/find_and refer to live nodes and every fanin of a live gate and every output refers to a live node.", "quantifier": "all histories mixing construction and substitution", "why_tests_cant": "Requires a particular interleaving of merge and removal.", "anchors": ["include/database/network/aig_network.hpp: take_out_node, replace_in_node, create_and", "include/database/network/details/storage.hpp: hash_erase"]}
{"id": "C13", "title": "MFFC probing leaves no trace", "statement": "Recursively dereferencing the cone of a node and then re-referencing it restores every reference counter and reports the same cone size both times; the size equals the number of gates that become unreferenced.", "quantifier": "all acyclic networks, all nodes, all counter values, any leaf boundary", "why_tests_cant": "Holds for all network shapes and sharing patterns; tests cover few cones.", "anchors": ["include/operations/algorithms/ref_deref.hpp: recursive_deref / recursive_ref (28-120)"]}
{"id": "C14", "title": "cleanup_dangling preserves behaviour", "statement": "cleanup_dangling returns a network with the same number and order of inputs and outputs whose outputs compute the same functions, which contains no gate that is not in the transitive fanin of some output, and which is never larger than the original.", "quantifier": "all constructed networks, all assignments", "why_tests_cant": "Quantifies over all networks; the traversal order and merging are network dependent.", "anchors": ["include/operations/algorithms/cleanup.hpp: cleanup_dangling (36-205, 418)"]}
{"id": "C15", "title": "topo_view order", "statement": "The node order of a topological view lists every node in the transitive fanin of an output exactly once, never lists a node before one of its fanins, and lists no other gates.", "quantifier": "all acyclic networks, whatever their index order", "why_tests_cant": "DFS order properties over arbitrary DAGs.", "anchors": ["include/database/views/topo_view.hpp: update_topo, create_topo_rec (90-263)"]}
{"id": "C16", "title": "depth_view levels", "statement": "For every node in the transitive fanin of a primary output, level(n) equals the length (sum of gate costs, plus counted complemented edges) of the longest path from an input or constant to n; all other nodes have level 0; depth() equals the maximum level over the primary outputs.", "quantifier": "all acyclic networks, all nodes", "why_tests_cant": "Longest path over arbitrary DAGs.", "anchors": ["include/database/views/depth_view.hpp: compute_levels, update_levels (189-282)"]}
{"id": "C17", "title": "AND balancing preserves behaviour", "statement": "balance_and returns a network in which every output computes the same function of the inputs as before.", "quantifier": "all constructed networks, all assignments", "why_tests_cant": "Equivalence of whole networks for every input network; super-gate collection, duplicate/opposite literal removal and permutation interact.", "anchors": ["include/operations/optimization/and_balance.hpp: and_balance_impl (29-365)"]}
{"id": "C18", "title": "Cut domination test is subset", "statement": "For cuts with at most the maximum number of leaves, dominates(other) returns true exactly when every leaf of the cut is a leaf of the other, despite the signature shortcuts.", "quantifier": "all cuts with sorted leaves", "why_tests_cant": "Signature collisions (modulo 64) are rare in tests but must never change the answer.", "anchors": ["include/database/cut/cut.hpp: dominates (247-282), set_leaves (227)"]}
{"id": "C19", "title": "Cut merge is bounded set union", "statement": "merge(a,b,k) succeeds exactly when the union of the two leaf sets has at most k leaves, and then the result holds exactly the sorted union and its signature; it never touches memory outside the fixed leaf array.", "quantifier": "all pairs of cuts with at most k leaves, all k within the supported maximum", "why_tests_cant": "The popcount-of-sum quick reject and overflow by signature collision depend on 64-bit values of leaf indices.", "anchors": ["include/database/cut/cut.hpp: merge (285-305)"]}
{"id": "C20", "title": "Cut sets stay irredundant and bounded", "statement": "Starting from an empty set, any sequence of insertions leaves a cut set in which no cut dominates another, at most the maximum number of cuts, best first; limit(k) leaves exactly min(k,size) cuts.", "quantifier": "all insertion sequences, all cuts", "why_tests_cant": "Order- and history-dependent container behaviour (stable_partition, lower_bound, pointer swapping).", "anchors": ["include/database/cut/cut_set.hpp: insert, is_dominated, limit (118-204)"]}
{"id": "C21", "title": "Enumerated cuts are cuts and carry the right function", "statement": "For every node, each cut produced by cut enumeration is a real cut (the node's value is determined by the leaf values) and its stored truth table gives the node's value from the leaf values under every input assignment.", "quantifier": "all constructed networks, all nodes, all cuts, all assignments", "why_tests_cant": "Quantifies over all networks and leaf valuations; sharing, complements and truth-table expansion interact.", "anchors": ["include/database/cut/cut_enumeration.hpp: merge_cuts2, compute_truth_table, compute_truth_table_support (206-491)"]}
{"id": "C22", "title": "truth_table_cache round trip", "statement": "Looking up the literal returned by insert(f) yields f, for every sequence of earlier insertions; equal functions get equal literals, complementary functions get complementary literals; earlier literals stay valid.", "quantifier": "all insertion histories, all truth tables", "why_tests_cant": "History-dependent normalisation.", "anchors": ["include/utils/truth_table_cache.hpp: insert, operator[] (62-137)"]}
{"id": "C23", "title": "Algebraic division identity", "statement": "Dividing an SOP F by a literal, a cube or another SOP D yields quotient Q and remainder R with F = D*Q + R as Boolean functions under every assignment (and Q, R do not mention more cubes than F).", "quantifier": "all SOPs over up to 31 variables (literal 63 is the mark bit of the division), all divisors, all assignments", "why_tests_cant": "Input space of cube lists is unbounded.", "anchors": ["include/operations/optimization/detail/sop_refactoring.hpp: sop_divide_by_lit, sop_divide_by_cube, sop_divide (230-398)"]}
{"id": "C24", "title": "SOP factoring preserves the function", "statement": "Factoring a truth table (through its irredundant sum of products), or any sum of products without containment, into an AIG yields a signal whose value equals the function's value on the leaf signals, for every network and assignment, and factoring terminates.", "quantifier": "all truth tables over up to 31 variables and all SOPs in which no product contains another, all leaf signals, all networks, all assignments", "why_tests_cant": "Recursive kernel/divisor selection explores unboundedly many shapes.", "anchors": ["include/operations/optimization/detail/sop_refactoring.hpp: sop_factoring (529-762), cubes_to_sop (506)"]}
{"id": "C25", "title": "Rewriting preserves behaviour", "statement": "rewrite() returns a network whose outputs compute the same functions as before for every input network and parameter setting.", "quantifier": "all constructed networks, all parameters, all assignments", "why_tests_cant": "Replacement bypasses strashing and reference counts; failure needs particular overlap of replacements.", "anchors": ["include/operations/optimization/rewrite.hpp", "include/operations/optimization/detail/node_rewriting.hpp"]}
{"id": "C26", "title": "Refactoring preserves behaviour", "statement": "refactor() returns a network whose outputs compute the same functions as before for every input network and parameter setting.", "quantifier": "all constructed networks, all parameters, all assignments", "why_tests_cant": "Same as rewriting; cascading substitutions.", "anchors": ["include/operations/optimization/refactor.hpp (41-605)"]}
{"id": "C27", "title": "AIGER delta encoding round trip", "statement": "Decoding the bytes emitted for a number returns that number and consumes exactly those bytes, for every number and any following bytes.", "quantifier": "all 32-bit unsigned values, all following byte streams", "why_tests_cant": "2^32 values times arbitrary continuations.", "anchors": ["include/operations/io/detail/write_aiger.hpp: encode", "libs/lorina/lorina/aiger.hpp: decode lambda (825-839)"]}
{"id": "C28", "title": "AIGER write/read round trip", "statement": "Writing a combinational network to binary AIGER and reading the file back gives a network with the same number of inputs and outputs and identical output functions.", "quantifier": "all cleaned constructed combinational networks, all assignments", "why_tests_cant": "All networks; literal renumbering, header and delta coding interact.", "anchors": ["include/operations/io/detail/write_aiger.hpp: write_aiger", "include/operations/io/detail/aiger_reader.hpp", "libs/lorina/lorina/aiger.hpp: read_aiger (640-894)"]}
{"id": "C29", "title": "AIGER reading terminates on every byte string", "statement": "Reading any byte string, including truncated or corrupt files, ends in bounded time with success or a reported failure and never touches unmapped signals.", "quantifier": "all byte strings, all truncation points", "why_tests_cant": "All crash/truncation points of all files.", "anchors": ["libs/lorina/lorina/aiger.hpp: read_aiger (640-894)", "include/operations/io/detail/aiger_reader.hpp"]}
{"id": "C30", "title": "LUT network gates compute their function", "statement": "Every klut creation function (and, or, lt, le, xor, maj, ite, xor3, not, create_node with any truth table) returns a signal whose value is the given function of the fanin values, and leaves other signals' values unchanged.", "quantifier": "all construction histories, all truth tables and fanins, all assignments", "why_tests_cant": "All histories and functions.", "anchors": ["include/database/network/klut_network.hpp: _init, create_* , create_node (85-369)"]}
{"id": "C31", "title": "Bit-wise and truth-table simulation of a LUT agree", "statement": "For every LUT node, evaluating it on Boolean fanin values and evaluating it on fanin truth tables give consistent answers bit by bit.", "quantifier": "all LUT nodes, all fanin values", "why_tests_cant": "Needs all functions and all values; the two routines index the table independently.", "anchors": ["include/database/network/klut_network.hpp: compute (732-773)"]}
{"id": "C32", "title": "User values do not change structure", "statement": "Setting or clearing the user-visible per-node value field never changes which nodes are inputs, gates or outputs.", "quantifier": "all networks, all value assignments", "why_tests_cant": "Depends on sequences of calls on arbitrary networks.", "anchors": ["include/database/network/klut_network.hpp: clear_values, set_value, is_ci, foreach_gate (221, 712, 777-800)", "include/database/network/aig_network.hpp: clear_values, set_value (1214-1237)"]}
{"id": "C33", "title": "Mapping view stores what was given", "statement": "After any sequence of add/remove/clear mapping calls, a node is a cell root exactly if it was last added and not removed, its cell fanins are the leaves last given, its cell function is the one last set, and num_cells is the number of cell roots.", "quantifier": "all call sequences, all nodes and leaf lists", "why_tests_cant": "History-dependent packed vector layout.", "anchors": ["include/database/views/mapping_view.hpp: add_to_mapping, remove_from_mapping, foreach_cell_fanin (108-222)"]}
{"id": "C34", "title": "Mapped network to LUT network preserves behaviour", "statement": "If every cell's function is the correct function of its leaves and outputs/leaves are inputs, constants or cells, converting a mapped network to a LUT network gives outputs with the same functions, the same inputs and outputs in order, and no LUT with more inputs than its cell has leaves.", "quantifier": "all networks with a valid mapping, all assignments", "why_tests_cant": "Inverter absorption (pos/neg/mixed drivers) interacts with every cover.", "anchors": ["include/operations/algorithms/network_to_klut.hpp: collapse_mapped_network_impl::run (39-199)"]}
{"id": "C35", "title": "LUT network to AIG preserves behaviour", "statement": "Converting a LUT network to an AIG keeps number and order of inputs/outputs and the function of every output.", "quantifier": "all LUT networks, all assignments", "why_tests_cant": "All functions and networks.", "anchors": ["include/operations/algorithms/detail/convert_to_aig.hpp: convert_klut_to_aig (31-101)"]}
{"id": "C36", "title": "FPGA mapping yields a legal cover", "statement": "After klut_mapping, every output driver and every leaf of every chosen cell is an input, a constant or itself a chosen cell; every cell has at most cut_size leaves, all leaves lie strictly below the cell (no combinational self-loop) and the stored function is correct.", "quantifier": "all networks, all mapping parameters", "why_tests_cant": "The chosen cover depends on all heuristics; must hold for whatever the heuristics pick.", "anchors": ["include/operations/algorithms/klut_mapping.hpp: derive_final_mapping, mark_current_mapping_rec, mark_ref_rec (539-618)"]}
{"id": "C37", "title": "Exact-area probing leaves no trace", "statement": "cut_area_deref followed by cut_area_ref (or the reverse) on the same cut restores all mapping reference counters and returns the same area.", "quantifier": "all current covers, all cuts, all counter values", "why_tests_cant": "Recursive over arbitrary covers.", "anchors": ["include/operations/algorithms/klut_mapping.hpp: cut_area_ref, cut_area_deref (644-668)"]}
{"id": "C38", "title": "Mapping parameters are honoured", "statement": "The area/flow iteration counts and flags the user supplies in the mapping parameters are the ones the mapper runs with.", "quantifier": "all parameter settings", "why_tests_cant": "Needs all settings; the effect is only visible in quality of results.", "anchors": ["include/operations/algorithms/klut_mapping.hpp: klut_mapping_params, init_parameters (79-105, 173-188)", "cli/command/map_fpga.hpp"]}
{"id": "C39", "title": "Choices keep the network acyclic", "statement": "After any sequence of set_choice calls the combined relation (fanin or choice alternative) has no cycle, and every class lists each of its members exactly once from its representative.", "quantifier": "all networks, all sequences of set_choice", "why_tests_cant": "Cycles need specific combinations of classes.", "anchors": ["include/operations/algorithms/aig_with_choice.hpp: set_choice, check_tfi (106-126, 263-298)"]}
{"id": "C40", "title": "Mux recognition is sound", "statement": "Whenever a node is recognised as a multiplexer with control c and data t, e, the node's value equals (c ? t : e) under every assignment.", "quantifier": "all networks, all nodes, all assignments", "why_tests_cant": "All structural patterns and polarities over all networks.", "anchors": ["include/operations/algorithms/aig_with_choice.hpp: is_mux, recognize_mux (142-255)"]}
{"id": "C41", "title": "Choice miter keeps every network's outputs", "statement": "Merging several networks with the same interface gives a network in which each merged network's outputs have the same functions as before merging, and the kept outputs are those of the first network.", "quantifier": "all lists of constructed networks with equal interfaces, all assignments", "why_tests_cant": "Depends on sharing between arbitrary networks; constant outputs and zero inputs are corner cases.", "anchors": ["include/operations/algorithms/choice_miter.hpp (38-260)"]}
{"id": "C42", "title": "Miter is the disequality of two networks", "statement": "miter(a,b) exists exactly if interface sizes agree, and then its single output is 1 under exactly those assignments on which some output differs.", "quantifier": "all pairs of networks without registers, all assignments", "why_tests_cant": "All network pairs and assignments.", "anchors": ["include/operations/algorithms/miter.hpp: miter (41-83)"]}
{"id": "C43", "title": "CNF encoding is exact", "statement": "The clauses generated for a network together with the output literals are satisfied by an assignment of the variables exactly when it is the extension of an input assignment by the node values; hence a set of output literals is satisfiable together with the clauses iff some input assignment produces these outputs.", "quantifier": "all networks without registers, all variable assignments", "why_tests_cant": "2^n assignments for all networks.", "anchors": ["include/operations/algorithms/cnf.hpp: generate_cnf (36-426)"]}
{"id": "C44", "title": "Equivalence checking verdict is right", "statement": "Given a correct SAT oracle, equivalence_checking on a miter returns true exactly if the two networks agree on all assignments, and otherwise the reported counterexample makes some output differ.", "quantifier": "all network pairs, all oracle answers", "why_tests_cant": "Universally quantified over networks and assignments.", "anchors": ["include/operations/algorithms/equivalence_checking.hpp (84-111)"]}
{"id": "C45", "title": "Simulation agrees with evaluation", "statement": "simulate<bool> returns the output values defined by the network for the given inputs, and truth-table simulation returns, at every bit position, the output value for the assignment encoded by that position.", "quantifier": "all constructed networks, all assignments / bit positions", "why_tests_cant": "2^n positions for all networks.", "anchors": ["include/operations/algorithms/simulation.hpp: simulate, simulate_nodes (475-509, 760-782)", "include/database/network/aig_network.hpp: compute (1153-1210)"]}
{"id": "C46", "title": "History snapshots survive later commands", "statement": "An AIG saved with `history --add` is what `map_fpga --type 1` later uses: later optimisation commands do not change a saved snapshot, cleared snapshots are no longer used, and reading a new design discards the old design's history.", "quantifier": "all command sequences", "why_tests_cant": "State machine over unbounded command sequences with shared storage.", "anchors": ["cli/command/history.hpp", "cli/command/map_fpga.hpp", "cli/command/io/read_aiger.hpp"]}
{"id": "C47", "title": "The history command never wedges", "statement": "Whatever history commands were issued before, `history --clear` empties the history and `history --size` reports the number of saved snapshots.", "quantifier": "all command sequences", "why_tests_cant": "Failure needs a particular number of previous commands and sticky flags.", "anchors": ["cli/command/history.hpp: execute (21-61)"]}
{"id": "C48", "title": "Emitted Verilog identifiers are distinct", "statement": "In the Verilog written for a network with named ports all declared identifiers (inputs, outputs, internal wires) are pairwise different, so the file denotes the network.", "quantifier": "all networks, all port names accepted by the reader", "why_tests_cant": "All name choices; collisions need particular names.", "anchors": ["include/operations/io/detail/write_verilog.hpp (87-316)", "include/operations/io/detail/writer_lut.hpp (76-215)", "include/operations/io/reader.hpp (43-167)"]}
{"id": "C49", "title": "LUT netlist writer denotes the LUT network", "statement": "Interpreting the written netlist (input list, LUT instances with INIT words and positional pins, output assignments) gives the same output functions as the LUT network.", "quantifier": "all LUT networks, all assignments", "why_tests_cant": "All networks and functions.", "anchors": ["include/operations/io/detail/writer_lut.hpp: write_lut (76-215)"]}
{"id": "C50", "title": "Pattern packing loses no simulation pattern", "statement": "After adding patterns and packing bits, every cared-for input bit of every added pattern is still present at some single position consistent with the rest of its pattern.", "quantifier": "all pattern sequences, all care masks", "why_tests_cant": "Packing decisions depend on whole histories.", "anchors": ["include/operations/algorithms/simulation.hpp: bit_packed_simulator (300-442)"]}
{"id": "C51", "title": "LUT network bookkeeping", "statement": "In every LUT network built through the public constructors, fanout_size of each node is the number of fanin edges and outputs that refer to it, num_gates is the number of nodes that are neither constants nor inputs, every fanin has a smaller index than its node, each node has as many fanins as its function has variables, and is_ci holds exactly for the created inputs.", "quantifier": "all construction sequences", "why_tests_cant": "Unbounded sequences of constructor calls.", "anchors": ["include/database/network/klut_network.hpp: create_pi, create_ro, create_po, create_ri, _create_node, create_node, fanout_size, num_gates, is_ci"]}
{"id": "C52", "title": "AND balancing never makes an output deeper", "statement": "After balance_and, the largest number of gates on a path to an output is at most what it was for the same output before.", "quantifier": "all constructed networks, all outputs, all paths, all sorting implementations", "why_tests_cant": "Depth of arbitrary networks; depends on the greedy pairing being optimal for every multiset of levels, with sharing and duplicate removal.", "anchors": ["include/operations/optimization/and_balance.hpp: build_super, balance_find_left, balance_permute, push_unique_by_level (175-351)"]}
{"id": "C53", "title": "map_fpga stores an equivalent LUT network", "statement": "For every AIG and all options the shell accepts, map_fpga without choices stores a LUT network with the same inputs and outputs in order and the same output functions, every LUT has at most cut_size inputs, and bad options are refused.", "quantifier": "all AIGs, all options, all assignments, whatever the mapping heuristics pick", "why_tests_cant": "End-to-end over all networks, cut choices and output polarities.", "anchors": ["cli/command/map_fpga.hpp: execute (34-113)", "include/operations/algorithms/klut_mapping.hpp", "include/operations/algorithms/network_to_klut.hpp: choice_to_klut (415-429)"]}
{"id": "C54", "title": "Port names read from a file end up on their ports", "statement": "Reading an AIGER file gives, for every input, output and register named in the symbol table, exactly that name (as a Verilog identifier) at the position of the port, whatever drives the outputs.", "quantifier": "all files: all symbol tables, all line orders, all output drivers", "why_tests_cant": "Needs outputs that are driven by inputs directly, shared drivers and partial symbol tables in combination.", "anchors": ["include/operations/io/reader.hpp: Reader (114-170)", "include/operations/io/detail/aiger_reader.hpp: NameMap::insert (35-55), ~aiger_reader (133-168), on_input_name, on_output_name, on_latch_name (197-220)"]}
{"id": "C55", "title": "Exact NPN canonization", "statement": "For every 4-input function, the canonization returns the smallest truth table of its NPN class (input permutations, input and output negations) together with a permutation and phase that reconstruct the function from it; two functions get the same representative exactly if they are NPN equivalent.", "quantifier": "all 4-input truth tables, all permutations and negations", "why_tests_cant": "The claim relates every pair of the 65536 tables and every one of the 768 transformations, and the loop visits them incrementally through Gray-code tables.", "anchors": ["libs/kitty/include/kitty/npn.hpp: exact_npn_canonization (154-265)", "libs/kitty/include/kitty/operations.hpp: swap_adjacent_inplace (451-512), flip_inplace (646-690)", "include/operations/optimization/detail/node_rewriting.hpp: generate_classes (98-106)"]}
{"id": "C56", "title": "Resynthesis from the database offers only equivalent signals", "statement": "Whatever words the subgraph database is decoded from, every entry pairs a truth table with a signal computing it, and for every network, every function of at most four variables and any four signals, resynthesis comes back, only adds gates, and every signal handed to the callback computes the function of the four signals.", "quantifier": "all database contents over four inputs, all networks, all tables, all leaf signals (also complemented, equal or constant ones)", "why_tests_cant": "Needs the composition of the NPN configuration, the database simulation and structural hashing over arbitrary networks.", "anchors": ["include/operations/optimization/detail/node_rewriting.hpp: operator(), generate_db, padding_network_by_signal (42-178)", "include/operations/optimization/detail/database_npn4_aig.hpp: insert_into_network, decode_data_rewriting (71-119)"]}
{"id": "C57", "title": "lut_opt keeps the functions of the current AIG", "statement": "For every AIG and all options, the shell command lut_opt (mapping to LUTs and conversion back) leaves an AIG with the same inputs and outputs in order and the same output functions; bad options are refused and leave the AIG alone.", "quantifier": "all AIGs, all options, all assignments, whatever the mapping heuristics pick", "why_tests_cant": "End-to-end over all networks, cut choices, output polarities and cube covers.", "anchors": ["cli/command/lut_opt.hpp: execute (32-71)", "include/operations/algorithms/klut_mapping.hpp", "include/operations/algorithms/network_to_klut.hpp: choice_to_klut", "include/operations/algorithms/detail/convert_to_aig.hpp: convert_klut_to_aig"]}
{"id": "C58", "title": "SOP balancing keeps the functions of the outputs", "statement": "For every AIG, every cut size and cut limit accepted by the cut enumeration, with or without minimised truth tables and critical-path restriction, cut-based SOP balancing terminates and returns an AIG with the same inputs and outputs in order and the same output functions.", "quantifier": "all AIGs, all parameters, all assignments, whichever of several elements of lowest level the priority queues return", "why_tests_cant": "Depends on which cuts survive the limit, on the cube cover of every cut function and on level arithmetic at every node.", "anchors": ["include/operations/optimization/balancing.hpp: balancing_impl::run, balancing (116-258)", "include/operations/optimization/balancing/sop_balancing.hpp: sop_rebalancing (47-134)", "include/operations/optimization/balancing/utils.hpp: arrival_time_queue (26-36)"]}
{"id": "C59", "title": "FPGA mapping of a network with choices keeps the functions", "statement": "For every AIG with choices whose classes are linked towards smaller indices and whose members have the same function up to their phases, LUT mapping followed by choice_to_klut terminates and yields a LUT network with the same output functions and LUTs of at most cut_size inputs.", "quantifier": "all AIGs, all ordered and sound choices, all assignments, whatever the mapping heuristics pick", "why_tests_cant": "Cells mix cuts of different members of a class with different phases; leaves lie outside the cone of the root.", "anchors": ["include/operations/algorithms/klut_mapping.hpp: perform_mapping_and_choice (377-435), topologize", "include/operations/algorithms/network_to_klut.hpp: collapse_mapped_choice_impl (205-379)", "include/operations/algorithms/aig_with_choice.hpp: is_repr, get_equiv_node (67-76)"]}
{"id": "C60", "title": "The network with choices has the functions of the original", "statement": "For every AIG and every array of representatives with the same function up to the phases, derive_choice_aig terminates and returns an AIG with choices with the same inputs and the same output functions; every class link goes to a smaller index and joins nodes with the same function up to their phases, and no link of the intermediate network that an output depends on is lost.", "quantifier": "all AIGs, all sound arrays of representatives, all assignments", "why_tests_cant": "Nodes are merged, redirected to representatives and reordered by a recursion through fanins and class links; termination rests on the acyclicity that set_choice maintains.", "anchors": ["include/operations/algorithms/choice_computation.hpp: derive_choice_aig, man_dup_dfs, man_dup_dfs_rec (1071-1219)", "include/operations/algorithms/aig_with_choice.hpp: set_choice, set_equiv, get_repr (73-137)"]}
{"id": "C61", "title": "Candidate classes are exactly agreement on the simulated patterns", "statement": "For every AIG, every positive number of words and all random numbers, compute_equiv_classes ends; every class is the ascending list of the nodes with its representative, the representative is its smallest member, and two nodes are in the same class exactly if their values agree up to their phases on all patterns of the eight simulations. Nodes with the same function up to complementation are never separated.", "quantifier": "all AIGs, all random numbers, all pairs of nodes", "why_tests_cant": "Classes come from hashing and splitting in a loop; a wrong split separates nodes silently and shows only as missing choices.", "anchors": ["include/operations/algorithms/choice_computation.hpp: cand_equiv_classes (47-370)"]}
{"id": "C62", "title": "The SAT prover proves equivalent and disproves different nodes", "statement": "After any sequence of sat_prove calls on a growing network, with recycling of the solver at any time: if sat_prove reports equivalence the two nodes have the same function up to their phases; if it reports a difference, the input values read back with get_var_value separate them; it ends, and accesses nothing out of range for networks of less than 1000 nodes.", "quantifier": "all networks, all sequences of calls and network extensions, all parameters, all solvers that give no wrong answers", "why_tests_cant": "The clauses are added incrementally for conjunctions and multiplexers with optional polarity flips and shared between calls; an error in one clause is visible only for particular structures and histories.", "anchors": ["include/operations/algorithms/choice_computation.hpp: sat_prover (376-791)"]}
{"id": "C63", "title": "Choice computation keeps all functions", "statement": "For every AIG, all random numbers and every SAT solver whose answers 'unsatisfiable' are right, whatever else it answers: man_sweep records for every node a representative that is not larger and has the same function up to the phases; compute_choice returns a network with choices with the same output functions. The miter of several networks, choice computation, mapping and derivation of the LUT network together keep the output functions of the first network.", "quantifier": "all AIGs, all random numbers, all answers of a sound solver, all heuristics of the mapper", "why_tests_cant": "Which nodes are merged depends on random simulation and on the history of SAT calls; a wrongly merged node is visible only for the inputs no simulation has tried.", "anchors": ["include/operations/algorithms/choice_computation.hpp: choice_computation: compute_choice, man_sweep, sweep_node (837-935), derive_choice_aig (1071-1141)", "include/operations/algorithms/choice_miter.hpp: merge_aigs_to_miter", "cli/command/map_fpga.hpp: execute (82-104)"]}
{"id": "C64", "title": "Counterexamples separate the disproved pair and no equivalent nodes", "statement": "In man_sweep, with a solver that always decides and decides right: if a gate and its representative have the same function up to the phases the representative is recorded, otherwise the counterexample separates the two in the candidate classes; classes are only split, and nodes with the same function are never separated.", "quantifier": "all AIGs, all random numbers, all gates, all right solvers", "why_tests_cant": "A spurious separation loses a choice silently; it depends on values left over from earlier counterexamples.", "anchors": ["include/operations/algorithms/choice_computation.hpp: resimulate, collect_tfo_cands, resimulate_solved_rec, resimulate_other_rec (942-1065), equal_cex, refine_one_class (233-328)"]}
{"id": "C65", "title": "The choice flow keeps all functions", "statement": "For every AIG: the LUT network that the flow manager makes (two scripts of rewriting and balancing, miter of the three networks, choice computation, mapping, conversion) has the inputs and the output functions of the AIG, and no LUT has more inputs than allowed; although the scripts rewrite two of the three networks in place, so that the miter gets networks whose storage was changed after they were stored.", "quantifier": "all AIGs, all heuristics, random numbers, answers of a sound solver, sortings of equal operands", "why_tests_cant": "The flow shares network storage between steps that change it; whether a changed network leaks into the result depends on the structure of the whole network.", "anchors": ["include/flow/flow_manager.hpp: dch_compress, dch_compress2, choice_synthesis, mapper (158-280)", "include/operations/algorithms/choice_miter.hpp: merge_aigs_to_miter", "include/operations/optimization/rewrite.hpp"]}
{"id": "C66", "title": "The verification step of the flow tells right from wrong results", "statement": "When the verification step of the flow manager says 'equivalent', the LUT network has the output functions of the network that was read; when it says 'unequivalent', it has not. (The step compares with a network whose storage the first rewriting has changed.)", "quantifier": "all AIGs, all LUT networks with the same interface, all solvers that give no wrong answers", "why_tests_cant": "A check that compares against a damaged reference accepts exactly the results that are damaged in the same way; it is the test itself that is wrong.", "anchors": ["include/flow/flow_manager.hpp: run (103-116)", "include/operations/algorithms/debugger.hpp: debug_by_miter (78-95)"]}
{"id": "C67", "title": "Verdicts of the circuit validator are right", "statement": "After any sequence of calls of the circuit validator and while the network grows: validate says 'equivalent' for two signals, a node and a signal, a signal and a constant, or a signal and a circuit over divisors only if they have the same function, and 'not equivalent' only if they differ, and then cex holds values of the primary inputs for which they differ; if the solver never gives up, it decides equivalence.", "quantifier": "all AIGs, all sequences of calls and extensions of the network, all right solvers, restarts at any time", "why_tests_cant": "The validator keeps literals and clauses over calls, restarts and push/pop; a stale literal gives a wrong verdict only after a particular history of calls.", "anchors": ["include/operations/algorithms/circuit_validator.hpp: circuit_validator: constructor, validate (81-287), restart, construct, pop (361-445), add_tmp_gate, solve (447-569)"]}
{"id": "C68", "title": "Pattern generation finds different patterns with the wanted value, and all of them", "statement": "generate_pattern returns at most the number of patterns asked for, all different, none of them blocked, each a pattern of primary inputs for which the node has the wanted value; fewer than asked for means that there are no others; and if no pattern was blocked and none is returned, the node is constant.", "quantifier": "all AIGs, all sessions of the validator, nodes, values, blocked patterns, numbers of patterns, all right solvers", "why_tests_cant": "Blocked patterns must disappear from the solver with pop and the enumeration must be complete; a test sees only the patterns that were returned.", "anchors": ["include/operations/algorithms/circuit_validator.hpp: generate_pattern (289-354), block_pattern (571-579), push, pop (430-445)"]}
{"id": "C69", "title": "The delay and area that the LUT mapper reports are those of the mapping", "statement": "klut_mapping returns together with the mapping its area, the number of cells, and its delay, the number of cells on the longest path to a primary output; and the rounds that recover area do not make the mapping deeper than the first round did.", "quantifier": "all AIGs without choices and registers, all parameters, all rounds", "why_tests_cant": "The reported delay is kept in the cuts over all rounds and not computed from the mapping; a test has to compute the depth of the final cover independently, on a network where a later round takes a slower cut below a kept one.", "anchors": ["include/operations/algorithms/klut_mapping.hpp: perform_mapping (194-253), perform_mapping_round (262-321), perform_mapping_and (331-368), compute_required_times (476-531), derive_final_mapping (581-618), cut_delay (632-641), klut_mapping (1082-1090)", "include/operations/algorithms/detail/map_qor.hpp"]}
{"id": "C70", "title": "Reference counts and required times of the LUT mapper", "statement": "After every round of the LUT mapper the reference count of a node is the number of outputs and cells that use it in the current mapping, no cell is superfluous, a node has a required time if and only if the mapping uses it, the required time is the reported delay minus the number of cells on the longest path to an output, and no node arrives later than required.", "quantifier": "all AIGs without choices and registers, all parameters, all rounds, all nodes", "why_tests_cant": "Counts and required times are internal and only steer the next round; wrong ones still give a correct cover, only a worse one.", "anchors": ["include/operations/algorithms/klut_mapping.hpp: compute_required_times (476-531), mark_current_mapping_rec (539-557), derive_final_mapping (581-618), perform_mapping_round (262-321)"]}
{"id": "C71", "title": "A command line means what the help text says", "statement": "When a line of the shell calls rewrite, refactor, lut_opt or map_fpga, the operation runs with the values given in that line and with the defaults of the help text for everything else; values outside the documented ranges are refused and a refused line has no effect on later ones; parsing ends for every line.", "quantifier": "all lines (all arguments, all spellings and orders of options) and all sequences of lines before, all numbers of stored AIGs", "why_tests_cant": "The result of a command depends on the values that all lines before have left in the command object; tests start a new shell for every command, and a wrong cut size or level flag still gives an equivalent network.", "anchors": ["cli/command/rewrite.hpp", "cli/command/refactor.hpp", "cli/command/lut_opt.hpp", "cli/command/map_fpga.hpp", "libs/alice/include/alice/command.hpp: run (548-597)", "libs/alice/lib/cli11/CLI11.hpp: add_flag (1836-1852), _parse (2545-2646), _parse_arg (2801-2900), run_callback (1307-1341), lexical_cast (569-580)"]}
{"id": "C72", "title": "Mapping with choices from the shell gives the design back", "statement": "After a session of the shell that reads a design, optimises it and saves snapshots, map_fpga --type 1 with accepted options stores a LUT network with the inputs, outputs and output functions of the design and LUTs of at most cut_size inputs; if nothing was saved it warns.", "quantifier": "all designs, all sessions, all options, all random numbers and sound solver answers", "why_tests_cant": "The wrong LUT networks need two equivalent gates with equal cuts, found by random simulation and a solver, in a session with snapshots; the type 0 command, which is tested, never takes this path.", "anchors": ["cli/command/map_fpga.hpp: execute (33-114)", "cli/command/history.hpp", "include/operations/algorithms/klut_mapping.hpp: perform_mapping_and_choice (377-435)", "include/database/cut/cut_set.hpp: insert (142-179)"]}
{"id": "C73", "title": "The CNF of a LUT network is exact", "statement": "The clauses that generate_cnf produces for a LUT network are satisfied by exactly the assignments in which every node has the value of its function at the values of its fanins; with required output values they are satisfiable exactly if some input assignment gives these values. For one LUT: the clauses hold exactly when the output literal has the value of the truth table at the input literals.", "quantifier": "all LUT networks, all truth tables with at most 31 variables, all literals, all assignments", "why_tests_cant": "The clauses come from irredundant covers of the function and its complement; a missing or too strong clause shows only for the one input pattern it concerns.", "anchors": ["libs/kitty/include/kitty/cnf.hpp: cnf_characteristic (53-77)", "include/operations/algorithms/cnf.hpp: on_function (192-234), node_literals (252-306), generate_cnf_impl::run (322-426)"]}
{"id": "C74", "title": "The checker of mapped networks tells right mappings from wrong ones", "statement": "checker_4_mapped_graph returns true exactly if every LUT of the mapping computes the function of its root from its leaves, so that the LUT network made of an accepted mapping is equivalent to the AIG; the check of an output fails if a LUT below the output is wrong; and the check always ends.", "quantifier": "all AIGs with ordered and sound choices, all mappings, all solver answers", "why_tests_cant": "The checker is itself the test: if it accepts wrong mappings nothing shows it, and the mappings that it accepts wrongly or does not end on are those that the mapper rarely produces.", "anchors": ["include/operations/algorithms/detail/checker_4_mapped_graph.hpp", "include/operations/algorithms/debugger.hpp (38-43)", "include/operations/algorithms/klut_mapping.hpp (995-1010)"]}
{"id": "C75", "title": "Cleaning up a LUT network keeps its outputs and simplifies its LUTs", "statement": "cleanup_luts returns a LUT network with the same inputs, outputs, registers and output functions, in which every LUT depends on every fanin, no fanin is constant, buffers are gone and every LUT is used; it has no more LUTs than the outputs reach in the source, no larger LUTs and no longer paths.", "quantifier": "all LUT networks, all LUT functions, all traversal marks", "why_tests_cant": "The simplification of a LUT depends on which images are constant and on the support after substituting them; a test hits few combinations of constant fanins, unused variables and one-input functions.", "anchors": ["include/operations/algorithms/cleanup.hpp: cleanup_luts_impl (207-294), clone_inputs (296-329), clone_outputs (331-356), cleanup_luts (481-512)", "include/database/views/topo_view.hpp: update_topo (197-238)"]}
{"id": "C76", "title": "Substituting a node of a LUT network", "statement": "After substitute_node(old, new) on a LUT network nothing reads old, every reader of old reads new, fan-out counts are right, the network is acyclic with fanins before readers, and all nodes compute what they computed if old had the value of new; equivalent nodes leave all outputs unchanged.", "quantifier": "all LUT networks, all pairs of nodes, all input assignments", "why_tests_cant": "The loop touches all nodes, also those below new; the cases where this makes a cycle or a wrong count need particular positions of the two nodes.", "anchors": ["include/database/network/klut_network.hpp: substitute_node (378-417)"]}
{"id": "C77", "title": "Simulation with patterns that are added over time gives every node its values", "statement": "simulate_node and simulate_nodes with partial truth tables give a node the list of its values under all patterns of the simulator, whether it is simulated for the first time or again after patterns were added; values stored before stay right.", "quantifier": "all AIGs, all patterns, all orders of adding patterns and simulating nodes, any number of 64-bit blocks", "why_tests_cant": "Re-simulation computes the last block only; whether the blocks before are right depends on when each node was simulated last, and errors appear only after more than 64 patterns.", "anchors": ["include/operations/algorithms/simulation.hpp: simulate_fanin_cone (597-613), re_simulate_fanin_cone (615-631), update_const_pi (633-647), simulate_node (660-685), simulate_nodes (696-732)", "include/database/network/aig_network.hpp: compute (1170-1210)", "libs/kitty/include/kitty/partial_truth_table.hpp: resize (163-171)"]}
{"id": "C78", "title": "No call-back of a destroyed view runs", "statement": "In every session of the shell, and in the flow, each call-back that runs when a node is created belongs to a view that still exists.", "quantifier": "all sessions of commands, all numbers of created nodes, all scripts of the flow", "why_tests_cant": "A dangling call-back corrupts memory only if a node is created in the network after the view is gone, which needs one particular order of commands and a rewriting that finds something; tests that run one command per process never reach it.", "anchors": ["include/database/views/depth_view.hpp: constructors (95-139)", "cli/command/io/write_dot.hpp", "cli/command/print_stats.hpp", "cli/command/rewrite.hpp", "cli/command/refactor.hpp", "include/database/network/details/events.hpp", "include/flow/flow_manager.hpp (162-211)"]}
{"id": "C79", "title": "print_stats prints the numbers of the stored network and leaves it as it is", "statement": "The line printed by print_stats shows the numbers of inputs, outputs and gates (LUTs) of the stored network and the length of its longest path, and the stored network is the same afterwards, so that later lines and written files are those of the mapped network.", "quantifier": "all stored AIGs and LUT networks, all sessions of printing and writing, all traversal marks", "why_tests_cant": "The printed numbers are what a tester looks at; that a LUT count is one too large does not show unless LUTs are counted in another way, and the error grows with each call.", "anchors": ["cli/command/print_stats.hpp: execute (20-48)", "include/database/network/klut_network.hpp: klut_network(storage) (77-82), _init (85-142), num_gates (457-460)", "include/database/views/depth_view.hpp (115-228)", "cli/command/io/write_fpga.hpp (18-31)"]}
{"id": "C80", "title": "write_dot draws the network", "statement": "The file written by write_dot can be read as a drawing that has one box for each constant, one triangle for each input, one ellipse for each gate (LUT) and one inverted triangle for each output. The edges into a gate are its fanins in their order, dashed exactly when complemented, and the same holds for outputs. Every name is on exactly one level, and every edge goes up.", "quantifier": "all stored AIGs and LUT networks, all traversal marks", "why_tests_cant": "A drawing is looked at, not compared; a wrong style or a misplaced gate in one drawing of thousands of nodes is not seen, and networks with unused gates or registers are rarely drawn.", "anchors": ["include/operations/io/detail/write_dot.hpp: default_dot_drawer (34-108), write_dot (300-382)", "cli/command/io/write_dot.hpp (21-44)", "include/database/views/depth_view.hpp (115-228)"]}
{"id": "C81", "title": "The parallel checker of mapped networks accepts exactly the right mappings", "statement": "The parallel checker returns true exactly if every LUT of the mapping computes the function of its root in terms of its leaves. The result does not depend on the number of threads and the order in which the iterations end, and no two iterations conflict on shared data.", "quantifier": "all choice networks, all mappings, all solvers that give no wrong answers, all orders of the iterations, all assignments of iterations to threads", "why_tests_cant": "A conflict of two threads needs a particular interleaving and may go unnoticed; refused right LUTs need cones of unequal depth, and a checker is rarely run on wrong mappings.", "anchors": ["include/operations/algorithms/detail/checker_4_mapped_graph_parallel.hpp: my_sat_solver (41-174), run (190-226, 509), is_equal_cell (584-680), collect_fanouts (686-691), collect_choices (697-708), collect_fanin_cone_nodes_leaf_to_root (763-800)", "include/operations/algorithms/debugger.hpp: debug_mapped_aig_by_origin_parallel"]}
{"id": "C82", "title": "A depth view follows a network that grows through it", "statement": "While inputs, outputs and gates are created through a depth view, in any order, level of every node is the length of a longest way from it towards the inputs, depth is the length of a longest way from the outputs, as if all levels had been computed anew, and is_on_critical_path tells the nodes on these ways.", "quantifier": "all sequences of creating inputs, outputs and gates, resizing and updating, through a new view or a view of any AIG, with and without counting complements", "why_tests_cant": "The levels steer balancing only: a wrong one makes a result deeper, not wrong, and reading the level of an input that is not in the vector yet mostly gives zero, the right number, by chance.", "anchors": ["include/database/views/depth_view.hpp (88-282): constructors (96-139), level (150-153), is_on_critical_path (155-158), update_levels (170-177), resize_levels (179-182), create_po (184-189), on_add (260-275)", "include/utils/node_map.hpp (74-179)", "include/database/network/aig_network.hpp: create_pi (189-201), create_ro (215-224), create_and (313-367)"]}
{"id": "C83", "title": "The flow does what its configuration file says", "statement": "Every setting of the configuration file has the value given there, a setting that is not given keeps its default, values that make no sense are reported, and the flow behaves accordingly.", "quantifier": "all parsed documents, all networks, all environments of the synthesis", "why_tests_cant": "A setting that is ignored or taken from another key gives a valid result, only not the one that was asked for; nobody compares all pairs of configuration files.", "anchors": ["include/flow/configer.hpp: get_value (56-70)", "include/flow/flow_manager.hpp: configure (132-156), run (79-123), mapper (261-280), dch_compress (162-178), dch_compress2 (184-211)", "libs/json/nlohmann/json.hpp: operator[] (21329-21347), from_json (4643-4651, 4892-4934)", "config/config.json", "include/operations/algorithms/klut_mapping.hpp: init_parameters (173-188)"]}
{"id": "C84", "title": "The report of the flow is right and always defined", "statement": "The report of the flow gives the number of LUTs as the area and, for every number of fanins up to the cut size, the number of LUTs with it; the numbers add up to the area; it says so if there are no LUTs; and it is defined for every network that the flow makes, with every configuration file.", "quantifier": "all LUT networks, all cut sizes, all configuration files and networks for the flow", "why_tests_cant": "The counters are entries of a vector indexed by a difference of unsigned numbers; whether an index may leave the vector depends on every LUT of every network and on the configuration file.", "anchors": ["include/flow/flow_manager.hpp: report (366-379), run (79-123)", "include/database/network/klut_network.hpp: get_detailed_lut_statics (837-845), get_Statics_LUT (847-850), num_gates (457-460), fanin_size (462-465)"]}
{"id": "C85", "title": "Networks accepted by the AIGER reader are well formed and as announced", "statement": "Whatever bytes the AIGER reader accepts, the network is well formed: inputs first, then register outputs, as many register inputs as register outputs, with the numbers of inputs, registers and outputs and at most the number of gates that the header announces; and files that break the format are not accepted.", "quantifier": "all byte strings", "why_tests_cant": "Files may be cut off, damaged or made by other programs in any way; samples of damaged files do not show that no sequence of bytes yields a network with a dangling fanin or a wrong number of inputs.", "anchors": ["libs/lorina/lorina/aiger.hpp: read_aiger (701-894)", "include/operations/io/detail/aiger_reader.hpp: on_header (168-195)"]}
{"id": "C86", "title": "The flow maps the network in the files it is given", "statement": "For the path of a file, the LUT network of the flow is equivalent to the network in the file; for a folder, it is equivalent to the network in original.aig; and if something cannot be read, the flow says so and makes no LUT network.", "quantifier": "all contents of the disk, all paths, all parameters of the mapper, all sound solvers", "why_tests_cant": "The three files of a folder come from another program and may hold anything; whether the result depends on the wrong one of them shows only when they differ, and then on every pair of networks.", "anchors": ["include/flow/flow_manager.hpp: run (79-123), choice_synthesis_abc (238-255), mapper (261-280), read_in (289-317)", "include/operations/io/reader.hpp: Reader (117-167)", "libs/lorina/lorina/aiger.hpp: read_aiger (701-924)"]}
{"id": "C87", "title": "The files that the flow writes denote the network that it read", "statement": "From bytes to files: after a run of the flow on an AIGER file, the written netlist of LUTs and the written Verilog module have distinct identifiers and denote the network in the file (for a folder: the network in original.aig), and no other file has changed.", "quantifier": "all bytes of the input, all paths, all port names, all parameters of the mapper, all sound solvers", "why_tests_cant": "Every stage may be right by itself while the next one gets something it does not expect; only a statement about the whole, for all files, excludes this.", "anchors": ["include/flow/flow_manager.hpp: run (79-123), write_out (322-361)", "include/operations/io/writer.hpp: write2Verilog (92-110), write2LUT (112-130)", "include/operations/io/detail/writer_lut.hpp", "include/operations/io/detail/write_verilog.hpp"]}
{"id": "C88", "title": "What the shell writes denotes the last design read", "statement": "In every session of the shell, whatever was read, optimised, mapped and written before: after the last read_aiger, write_fpga comes back; it writes nothing if map_fpga made no LUT network of this design, and otherwise a netlist with distinct identifiers that denotes the design read last. LUT networks of earlier designs are never written. The files of write_primary and write_aiger denote the design read last, too.", "quantifier": "all sessions (lists of commands of any length), all files, port names, options of map_fpga and heuristics of the mapper", "why_tests_cant": "Stores are cleared under a condition and kept across commands that warn; whether a stale network can be written depends on sessions of any length.", "anchors": ["cli/command/io/read_aiger.hpp: execute (21-37)", "cli/command/map_fpga.hpp: execute (34-114)", "cli/command/io/write_fpga.hpp: execute (19-31)", "cli/command/io/write_verilog.hpp: execute (21-28)", "cli/command/io/write_aiger.hpp: execute (18-23)", "cli/command/rewrite.hpp: execute (22-48)"]}
