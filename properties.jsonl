{"id": "C01", "title": "Packing an offset coordinate into 64 bits is lossless", "statement": "Converting an offset coordinate to its 64-bit word and constructing a coordinate from that word gives back the same coordinate (dead flag included); constructing a coordinate from any 64-bit word and converting it back gives the same word. Two coordinates have the same word only if they are equal, and get_dead() changes nothing but the dead flag.", "quantifier": "all 64-bit words and all (d,z,y,x) with 1-bit d,z and 31-bit x,y", "why_tests_cant": "2^64 values; tests sample a handful of small coordinates and never the top bits of x and y", "anchors": ["include/fiction/layouts/coordinates.hpp: offset::ucoord_t (uint64 constructor, explicit operator uint64_t, get_dead, operator==)"]}
{"id": "C02", "title": "The coordinate orderings are strict total orders on live coordinates", "statement": "For each of the three coordinate types, operator< is irreflexive and transitive; of two coordinates with the same dead flag exactly one of a<b, a==b, b<a holds; >, <=, >= and != are the derived relations. Coordinates that differ only in the dead flag are unequal but unordered.", "quantifier": "all pairs and triples of coordinates of each type", "why_tests_cant": "transitivity and trichotomy quantify over all triples of coordinates; sorted containers and binary searches silently break if one triple fails", "anchors": ["include/fiction/layouts/coordinates.hpp: offset::ucoord_t, cube::coord_t, siqad::coord_t comparison operators"]}
{"id": "C03", "title": "Coordinate iteration visits every coordinate in bounds exactly once, in order, and terminates", "statement": "Iterating over the coordinates of a layout of aspect ratio ar yields every coordinate (x,y,z) with 0<=x<=ar.x, 0<=y<=ar.y, 0<=z<=ar.z exactly once and nothing else, in strictly increasing order, and then reaches the end iterator.", "quantifier": "all aspect ratios below the representable maximum, for offset, cube and SiQAD coordinates", "why_tests_cant": "aspect ratios are unbounded; an off-by-one at a border or a layer change depends on the exact aspect ratio", "anchors": ["include/fiction/layouts/coordinates.hpp: coord_iterator, wrap", "include/fiction/layouts/cartesian_layout.hpp: foreach_coordinate, coordinates"]}
{"id": "C04", "title": "SiQAD and fiction coordinates convert into each other without loss", "statement": "to_siqad_coord after to_fiction_coord is the identity on live SiQAD coordinates whose doubled row index is representable, to_fiction_coord after to_siqad_coord is the identity on all ground-layer cube coordinates (negative rows included), and both conversions preserve the order of coordinates.", "quantifier": "all SiQAD coordinates and all cube coordinates", "why_tests_cant": "negative odd rows and the representation limits are exactly where truncating division misbehaves; the domain is 2^64 large", "anchors": ["include/fiction/layouts/coordinates.hpp: siqad::to_fiction_coord, siqad::to_siqad_coord"]}
{"id": "C05", "title": "Enumerating a spanned area lists exactly the cells of the rectangle", "statement": "all_coordinates_in_spanned_area(a,b) returns each cell (x,y) with min(a.x,b.x)<=x<=max(a.x,b.x) and min(a.y,b.y)<=y<=max(a.y,b.y) exactly once, regardless of which two opposite corners are given.", "quantifier": "all pairs of corner coordinates", "why_tests_cant": "rectangles of every size and every corner order", "anchors": ["include/fiction/utils/layout_utils.hpp: all_coordinates_in_spanned_area"]}
{"id": "C06", "title": "Cartesian directions are inverse to each other and stop at the border", "statement": "Inside a Cartesian layout north and south, east and west, above and below undo each other whenever the move does not cross a border, a move at the border returns the coordinate itself, and is_north_of etc. hold exactly for the coordinate one step away.", "quantifier": "all aspect ratios and all coordinates in bounds", "why_tests_cant": "every aspect ratio and every border position", "anchors": ["include/fiction/layouts/cartesian_layout.hpp: north, east, south, west, above, below, is_north_of, is_east_of, is_south_of, is_west_of"]}
{"id": "C07", "title": "Cartesian adjacency is exactly grid distance one", "statement": "adjacent_coordinates(c) contains, without duplicates, exactly the coordinates in bounds on the same layer at Manhattan distance one; being adjacent is symmetric; the opposite pairs are exactly the adjacent pairs placed point-symmetrically around c.", "quantifier": "all aspect ratios and all coordinates in bounds", "why_tests_cant": "every aspect ratio and coordinate, including degenerate one-row or one-column layouts", "anchors": ["include/fiction/layouts/cartesian_layout.hpp: foreach_adjacent_coordinate, foreach_adjacent_opposite_coordinates, is_adjacent_of"]}
{"id": "C08", "title": "Hexagonal offset and cube coordinates convert into each other without loss", "statement": "For each of the four hexagonal arrangements, converting an offset coordinate to cube coordinates yields a triple summing to zero, and converting back yields the original coordinate; conversely every cube triple that sums to zero and belongs to a non-negative offset coordinate is recovered.", "quantifier": "all offset coordinates and all four arrangements", "why_tests_cant": "the parity-dependent integer divisions are wrong only for particular residues and signs", "anchors": ["include/fiction/layouts/hexagonal_layout.hpp: to_cube_coordinate, to_offset_coordinate"]}
{"id": "C09", "title": "Hexagonal adjacency is exactly cube distance one and symmetric", "statement": "For each of the four hexagonal arrangements, adjacent_coordinates(c) contains, without duplicates, exactly the coordinates in bounds on the same layer at cube distance one; adjacency is symmetric; a coordinate has at most six neighbours and exactly six away from the border; the opposite pairs consist of two neighbours placed point-symmetrically around c.", "quantifier": "all aspect ratios, all coordinates in bounds, all four arrangements", "why_tests_cant": "all sizes, parities and border positions", "anchors": ["include/fiction/layouts/hexagonal_layout.hpp: foreach_adjacent_coordinate, is_adjacent_of, adjacent_opposite_coordinates"]}
{"id": "C10", "title": "Every built-in clocking scheme assigns clock numbers below its number of clocks and is periodic", "statement": "For every predefined clocking scheme and every clock zone, the clock number is smaller than the scheme's number of clocks, and moving by the scheme's period in x or y does not change it; unknown scheme names yield no scheme and names are matched case-insensitively.", "quantifier": "all predefined schemes and all clock zones of unbounded coordinates", "why_tests_cant": "infinitely many clock zones; table lookups with wrong index arithmetic only fail for some residues", "anchors": ["include/fiction/layouts/clocking_scheme.hpp: clocking_scheme, *_clocking, get_clocking_scheme"]}
{"id": "C11", "title": "Incoming and outgoing clocking are dual", "statement": "Zone b is an incoming zone of a iff a is an outgoing zone of b; hence b appears among the incoming clocked zones of a iff a appears among the outgoing clocked zones of b; no zone is incoming or outgoing to itself; with at least three clocks no zone is both incoming and outgoing to another one.", "quantifier": "all clocking schemes (including irregular ones), all pairs of zones, all layouts with symmetric adjacency", "why_tests_cant": "irregular clockings are arbitrary maps; the claim ranges over all of them", "anchors": ["include/fiction/layouts/clocked_layout.hpp: is_incoming_clocked, is_outgoing_clocked, foreach_incoming_clocked_zone, foreach_outgoing_clocked_zone"]}
{"id": "C12", "title": "Linear clocking schemes admit no feedback", "statement": "In a layout clocked by COLUMNAR, ROW, 2DDWAVE or 2DDWAVEHEX, following outgoing clocked zones from any zone never returns to it; information flow is acyclic. For USE, RES, ESR, CFE and SRS a cyclic flow exists.", "quantifier": "all layout sizes, all zones and all finite walks", "why_tests_cant": "walks of every length in layouts of every size", "anchors": ["include/fiction/layouts/clocking_scheme.hpp: is_linear_scheme, columnar_clocking, row_clocking, twoddwave_clocking, twoddwave_hex_clocking", "include/fiction/layouts/clocked_layout.hpp: foreach_outgoing_clocked_zone"]}
{"id": "C13", "title": "Built-in clocking schemes respect their declared degrees", "statement": "In a Cartesian layout, no zone has more incoming (outgoing) clocked zones than the maximum in-degree (out-degree) declared by the scheme, for every built-in scheme.", "quantifier": "all built-in schemes, all layout sizes, all zones", "why_tests_cant": "depends on the neighbourhood of every residue class and border case", "anchors": ["include/fiction/layouts/clocking_scheme.hpp: max_in_degree, max_out_degree", "include/fiction/layouts/clocked_layout.hpp: in_degree, out_degree"]}
{"id": "C14", "title": "Overriding clock numbers behaves like updating a map", "statement": "After any sequence of assign_clock_number calls, a zone that was assigned reports the last assigned number modulo the number of clocks, every other zone reports what the scheme's function gives, and the layout is regularly clocked iff nothing has been assigned since the scheme was set.", "quantifier": "all sequences of assignments on all schemes", "why_tests_cant": "unbounded histories of overrides", "anchors": ["include/fiction/layouts/clocking_scheme.hpp: override_clock_number, operator(), is_regular", "include/fiction/layouts/clocked_layout.hpp: assign_clock_number, get_clock_number, replace_clocking_scheme"]}
{"id": "C15", "title": "A cloned layout is independent of its original", "statement": "After clone(), no sequence of clock-number assignments to the clone changes what the original reports, and vice versa.", "quantifier": "all layouts and all later histories on clone and original", "why_tests_cant": "aliasing shows only for particular interleavings of updates after the clone", "anchors": ["include/fiction/layouts/clocked_layout.hpp: clone, clocked_layout_storage"]}
{"id": "C16", "title": "Tiles and nodes of a gate-level layout stay in one-to-one correspondence", "statement": "After any sequence of create/move/clear operations, a non-empty tile hosts exactly one node, get_tile of a placed node is the tile that hosts it, get_node of that tile is the node, no two tiles host the same node, and cleared nodes are dead and have no tile.", "quantifier": "all finite histories of create_pi, create_po, create_buf, gate creation, move_node, connect and clear_tile with arbitrary tiles", "why_tests_cant": "unbounded operation histories including overwriting of occupied tiles", "anchors": ["include/fiction/layouts/gate_level_layout.hpp: create_pi, create_po, create_buf, create_and, move_node, clear_tile, get_node, get_tile, assign_node"]}
{"id": "C17", "title": "Gate and wire counts equal what is placed", "statement": "After any sequence of operations num_gates() equals the number of occupied tiles whose node is not a wire segment and num_wires() the number of occupied tiles whose node is one.", "quantifier": "all finite histories of layout operations", "why_tests_cant": "the counters are updated incrementally on every path through create, move and clear; drift needs particular histories", "anchors": ["include/fiction/layouts/gate_level_layout.hpp: num_gates, num_wires, assign_node, clear_tile, move_node"]}
{"id": "C18", "title": "The crossing count equals the number of crossings", "statement": "After any sequence of operations num_crossings() equals the number of ground tiles hosting a wire segment below an occupied crossing-layer tile.", "quantifier": "all finite histories of layout operations", "why_tests_cant": "incremental bookkeeping; the order of placing and clearing the two layers matters", "anchors": ["include/fiction/layouts/gate_level_layout.hpp: num_crossings, assign_node, clear_tile"]}
{"id": "C19", "title": "Primary inputs and outputs are registered exactly once and stay registered", "statement": "A tile created as primary output on a layout is a primary output until it is cleared or overwritten, regardless of what the tile hosted before; moving a primary output keeps it one; num_pis/num_pos equal the number of primary inputs/outputs placed.", "quantifier": "all finite histories of layout operations", "why_tests_cant": "depends on whether the tile was occupied before and by what", "anchors": ["include/fiction/layouts/gate_level_layout.hpp: create_pi, create_po, is_pi, is_po, move_node, clear_tile"]}
{"id": "C20", "title": "Fanins and fanouts of a gate-level layout are mutually consistent", "statement": "If node m is reported as a fanout of node n then n is reported as a fanin of m; conversely every fanin relation is reported as a fanout, as long as clock numbers do not depend on the layer.", "quantifier": "all reachable layouts and all pairs of nodes", "why_tests_cant": "quantifies over all layouts, clockings and connections", "anchors": ["include/fiction/layouts/gate_level_layout.hpp: foreach_fanin, foreach_fanout, is_child, connect"]}
{"id": "C21", "title": "A path returned by A* is a valid path", "statement": "A non-empty path returned by a_star starts at the source, ends at the target, moves only along outgoing clocked zones (or adjacency) of the layout, visits no coordinate twice, and avoids obstructed coordinates other than the target and connections that are obstructed.", "quantifier": "all layouts, clockings, obstruction sets, cost functions, heuristics and routing objectives", "why_tests_cant": "search over arbitrary graphs", "anchors": ["include/fiction/algorithms/path_finding/a_star.hpp: a_star, a_star_impl", "include/fiction/layouts/obstruction_layout.hpp"]}
{"id": "C22", "title": "A* finds a path whenever one exists", "statement": "a_star returns the empty path iff the target is not reachable from the source through unobstructed coordinates and connections; the search always terminates.", "quantifier": "all finite layouts, obstruction sets and routing objectives", "why_tests_cant": "reachability in arbitrary graphs", "anchors": ["include/fiction/algorithms/path_finding/a_star.hpp: a_star, a_star_impl::expand"]}
{"id": "C23", "title": "A* returns a cheapest path when the heuristic never overestimates", "statement": "With the default unit costs and a heuristic that never overestimates, the path returned by a_star is at most as long as any other path from source to target.", "quantifier": "all layouts, obstruction sets, routing objectives and admissible heuristics", "why_tests_cant": "optimality quantifies over all alternative paths", "anchors": ["include/fiction/algorithms/path_finding/a_star.hpp: a_star, a_star_distance"]}
{"id": "C24", "title": "Enumerating all paths yields every simple path exactly once", "statement": "enumerate_all_paths returns exactly the simple paths from source to target along clocked, unobstructed coordinates, each once.", "quantifier": "all finite layouts, obstruction sets and routing objectives", "why_tests_cant": "exponentially many paths in arbitrary graphs", "anchors": ["include/fiction/algorithms/path_finding/enumerate_all_paths.hpp: enumerate_all_paths"]}
{"id": "C25", "title": "The built-in distance functions are metrics and admissible heuristics", "statement": "manhattan, squared-Euclidean-free Chebyshev and 2DDWave distances are zero exactly on equal positions, symmetric (except 2DDWave) and satisfy the triangle inequality, and neither Manhattan distance on Cartesian layouts nor the 2DDWave distance on 2DDWave-clocked layouts exceeds the number of steps of any path.", "quantifier": "all coordinates and all paths", "why_tests_cant": "all coordinates and all walk lengths", "anchors": ["include/fiction/algorithms/path_finding/distance.hpp: manhattan_distance, chebyshev_distance, twoddwave_distance"]}
{"id": "C26", "title": "The Gray code iterator enumerates a Gray code", "statement": "Dereferencing the iterator at positions i and i+1 gives words that differ in exactly one bit; over the positions 0..2^n-1 every n-bit word occurs exactly once; position k yields k xor (k>>1).", "quantifier": "all 64-bit positions and all widths n", "why_tests_cant": "2^64 positions", "anchors": ["include/fiction/algorithms/iter/gray_code_iterator.hpp: gray_code_iterator"]}
{"id": "C27", "title": "The aspect ratio iterator yields every factorization exactly once", "statement": "For each tile count the iterator visits, before moving on, every pair (x,y) of zero-based extents with (x+1)*(y+1) equal to the tile count exactly once, both orientations included, and tile counts increase by one without gaps.", "quantifier": "all tile counts", "why_tests_cant": "unbounded tile counts; perfect squares and the integer square-root boundary are the failure points", "anchors": ["include/fiction/algorithms/iter/aspect_ratio_iterator.hpp: aspect_ratio_iterator"]}
{"id": "C28", "title": "Combinatorial helpers compute what they name", "statement": "binomial_coefficient(n,k) is the binomial coefficient whenever the intermediate products fit into 64 bits; cartesian_combinations returns exactly all tuples choosing one element per list in lexicographic order; determine_all_combinations_of_distributing_k_entities_on_n_positions returns exactly all k-element index subsets once, in order.", "quantifier": "all inputs", "why_tests_cant": "unbounded inputs", "anchors": ["include/fiction/utils/math_utils.hpp: binomial_coefficient, cartesian_combinations", "include/fiction/utils/combination_utils.hpp"]}
{"id": "C29", "title": "The truth-table constructors build the functions they are named after", "statement": "Each create_<f>_tt() returns the truth table of f under one fixed variable convention; in particular le and ge are the complements of gt and lt.", "quantifier": "all constructors and all input assignments", "why_tests_cant": "finite, but the existing tests only use some of the tables, and the claim ties all of them to one convention", "anchors": ["include/fiction/utils/truth_table_utils.hpp: create_*_tt"]}
{"id": "C30", "title": "The gate functions of a gate-level layout and of a technology network agree with their names", "statement": "The function assigned to every create_<gate> node is the gate's Boolean function under one variable convention for both ways of evaluating a node (on Boolean values and on truth tables).", "quantifier": "all gates and all input assignments", "why_tests_cant": "two independent evaluation routines with opposite index orders; tests use symmetric gates", "anchors": ["include/fiction/layouts/gate_level_layout.hpp: create_*, compute, initialize_truth_table_cache", "include/fiction/networks/technology_network.hpp: create_*, add_additional_functions"]}
{"id": "C31", "title": "Deleting virtual primary inputs preserves the function", "statement": "The network returned by delete_virtual_pis computes, for every assignment of the real primary inputs, the outputs that the original computes when each virtual input carries the value of its real input.", "quantifier": "all networks with virtual primary inputs and all input assignments", "why_tests_cant": "all networks; outputs driven directly by an input are the corner case", "anchors": ["include/fiction/algorithms/network_transformation/delete_virtual_pis.hpp", "include/fiction/networks/virtual_pi_network.hpp"]}
{"id": "C32", "title": "Fanout substitution preserves the function and bounds every fanout", "statement": "fanout_substitution returns a network computing the same outputs for every input assignment; if the degree is at least two and the threshold at least one, no node other than constants exceeds the threshold and no inserted buffer exceeds the degree, and is_fanout_substituted accepts the result.", "quantifier": "all networks, strategies, degrees and thresholds", "why_tests_cant": "all DAGs and parameter combinations", "anchors": ["include/fiction/algorithms/network_transformation/fanout_substitution.hpp: fanout_substitution, is_fanout_substituted"]}
{"id": "C33", "title": "Network balancing preserves the function and balances all paths", "statement": "network_balancing returns a network computing the same outputs for every input assignment in which every fanin of a node lies on the level directly below it (and, on request, all outputs on one level), and is_balanced accepts it.", "quantifier": "all networks and all input assignments", "why_tests_cant": "all DAGs", "anchors": ["include/fiction/algorithms/network_transformation/network_balancing.hpp: network_balancing, is_balanced"]}
{"id": "C34", "title": "Inverse levels are longest distances to a sink", "statement": "inverse_levels returns for every node from which an output is reachable through nodes without dangling successors the length of the longest path to a node without fanouts.", "quantifier": "all acyclic networks without dangling nodes", "why_tests_cant": "all DAGs and traversal orders", "anchors": ["include/fiction/utils/network_utils.hpp: inverse_levels"]}
{"id": "C35", "title": "Charge indices and charge distributions correspond one to one", "statement": "Assigning a charge index up to the maximum and recomputing the index from the resulting charge distribution gives the same index, and every charge distribution over the states of the base is obtained from exactly one index.", "quantifier": "all numbers of SiDBs, bases two and three, all indices", "why_tests_cant": "b^n configurations for every n", "anchors": ["include/fiction/technology/charge_distribution_surface.hpp: assign_charge_index, index_to_charge_distribution, charge_distribution_to_index, get_max_charge_index"]}
{"id": "C36", "title": "Exhaustive ground state simulation returns exactly the physically valid charge distributions", "statement": "exhaustive_ground_state_simulation returns every charge distribution of the given base that satisfies population and configuration stability, each exactly once, and nothing else.", "quantifier": "all layouts, all physical parameters, bases two and three", "why_tests_cant": "exponentially many configurations for every layout", "anchors": ["include/fiction/algorithms/simulation/sidb/exhaustive_ground_state_simulation.hpp", "include/fiction/technology/charge_distribution_surface.hpp: increase_charge_index_by_one, validity_check"]}
{"id": "C37", "title": "Incremental potential updates agree with recomputation", "statement": "After any sequence of charge-index steps with history-based updates, the local potentials equal those obtained by recomputing them from scratch for the current charge distribution, including the dependent cell.", "quantifier": "all layouts and all sequences of Gray-code steps", "why_tests_cant": "errors accumulate over unbounded histories", "anchors": ["include/fiction/technology/charge_distribution_surface.hpp: update_local_internal_potential, update_charge_state_of_dependent_cell, charge_index_gray_code_to_charge_distribution"]}
{"id": "C38", "title": "SiDBs pre-assigned negative and excluded positive states are forced", "statement": "An SiDB reported by negative_sidb_detection on the all-negative layout is negatively charged in every physically valid charge distribution; if can_positive_charges_occur is false, no physically valid charge distribution contains a positively charged SiDB.", "quantifier": "all layouts, parameters and charge distributions", "why_tests_cant": "quantifies over all exponentially many charge distributions", "anchors": ["include/fiction/technology/charge_distribution_surface.hpp: negative_sidb_detection, is_three_state_simulation_required", "include/fiction/algorithms/simulation/sidb/can_positive_charges_occur.hpp"]}
{"id": "C39", "title": "QuickExact returns exactly the physically valid charge distributions in two-state simulation", "statement": "quickexact with base two returns exactly the physically valid charge distributions that the exhaustive simulation returns, provided no SiDB's potential lies within the error margin of a transition level.", "quantifier": "all layouts and physical parameters", "why_tests_cant": "the pruning by pre-assigned and dependent SiDBs has to be right for every layout", "anchors": ["include/fiction/algorithms/simulation/sidb/quickexact.hpp: quickexact, two_state_simulation"]}
{"id": "C40", "title": "The energy distribution counts each distinct charge distribution once", "statement": "calculate_energy_distribution assigns to each listed energy the number of distinct charge distributions whose energy lies within the margin, duplicates in the input do not matter, energies are listed in increasing order and no two listed energies are closer than the margin.", "quantifier": "all lists of charge distributions", "why_tests_cant": "all lists, including duplicates and near-degenerate energies", "anchors": ["include/fiction/algorithms/simulation/sidb/energy_distribution.hpp: calculate_energy_distribution"]}
{"id": "C41", "title": "Cell-level inputs and outputs follow the assigned cell types", "statement": "After any sequence of cell type assignments, a cell is a primary input (output) iff its last assigned type is an input (output) type, num_pis, num_pos and num_cells count exactly those cells, and get_cell_type returns the last assigned type.", "quantifier": "all finite histories of assignments", "why_tests_cant": "unbounded histories of overwriting", "anchors": ["include/fiction/layouts/cell_level_layout.hpp: assign_cell_type, get_cell_type, is_pi, is_po, num_cells"]}
{"id": "C42", "title": "Normalizing a layout shifts it without losing cells", "statement": "normalize_layout_coordinates returns a layout with the same number of cells, in which every cell of the original appears shifted by one common offset with its type, and whose smallest x and y are zero.", "quantifier": "all cell-level layouts, including SiQAD coordinates", "why_tests_cant": "all layouts; loss of cells needs two cells differing only in the sublattice index", "anchors": ["include/fiction/utils/layout_utils.hpp: normalize_layout_coordinates"]}
{"id": "C43", "title": "Obstructions behave like sets", "statement": "After any sequence of obstruct and clear operations a coordinate (connection) is reported as obstructed iff it was obstructed after it was last cleared, or is occupied in the underlying layout.", "quantifier": "all finite histories", "why_tests_cant": "unbounded histories", "anchors": ["include/fiction/layouts/obstruction_layout.hpp"]}
{"id": "C44", "title": "Simulated annealing returns the best state it evaluated", "statement": "The returned cost is the cost of the returned state, is no larger than the cost of the initial state, and no state evaluated during the run was cheaper; with a schedule that decreases to the final temperature the run terminates.", "quantifier": "all cost functions, schedules, neighbourhood functions and random draws", "why_tests_cant": "all random draws and run lengths", "anchors": ["include/fiction/algorithms/optimization/simulated_annealing.hpp: simulated_annealing, multi_simulated_annealing"]}
{"id": "C45", "title": "Equivalence checking reports the right kind of equivalence", "statement": "Unless the SAT solver exceeds its resource limit, equivalence_checking reports NO iff one of the designs is a layout with design rule violations, or their numbers of inputs or outputs differ, or they differ on some input; otherwise it reports STRONG if their throughputs agree (networks have throughput 1) and WEAK if not. STRONG and WEAK are never reported wrongly, even if the solver gives up. A counter example has one value per input and the designs differ on it.", "quantifier": "all pairs of specification and implementation, networks or layouts, and all sound SAT solvers", "why_tests_cant": "all designs; tests compare a handful of pairs, and a solver that gives up is never exercised", "anchors": ["include/fiction/algorithms/verification/equivalence_checking.hpp: equivalence_checking, eq_type"]}
{"id": "C46", "title": "The critical path length is the longest path from an input to an output", "statement": "critical_path_length_and_throughput returns as critical path length the maximum number of tiles on any fanin path from a primary input to a primary output, and as throughput one plus the largest difference, in clock cycles, of the arrival times of two fanins of the same tile, over all tiles that reach an output.", "quantifier": "all acyclic gate-level layouts", "why_tests_cant": "all layouts; the traversal caches partial results, and the result must not depend on the order of visits", "anchors": ["include/fiction/algorithms/properties/critical_path_length_and_throughput.hpp: critical_path_length_and_throughput"]}
{"id": "C47", "title": "Clocking determination finds a valid clocking iff there is one", "statement": "determine_clocking succeeds iff the layout has a clock number assignment under which every connection between neighbouring tiles is correctly clocked and crossing tiles share the clock number of the tile below; after success, the layout is clocked that way, and after failure its clocking is unchanged.", "quantifier": "all gate-level layouts and all sound and complete SAT solvers", "why_tests_cant": "all layouts and all models the solver may return; the tests clear the clocking beforehand", "anchors": ["include/fiction/algorithms/physical_design/determine_clocking.hpp: determine_clocking"]}
{"id": "C48", "title": "Input patterns are placed on the input pairs according to the binary representation", "statement": "At input index i, bdl_input_iterator presents a layout in which input pair k encodes bit (n-1-k) of i, independently of how the index was reached, and cells outside the input pairs are unchanged.", "quantifier": "all sequences of iterator operations and all numbers of inputs", "why_tests_cant": "unbounded histories of increments, decrements and jumps", "anchors": ["include/fiction/algorithms/iter/bdl_input_iterator.hpp: set_all_inputs"]}
{"id": "C49", "title": "Enumerations visit exactly the live nodes", "statement": "foreach_node visits the constants, every node that sits on a tile and every node created without one, and skips nodes whose tile was cleared or overwritten; foreach_wire and foreach_gate visit the wire segments and the non-input nodes among them.", "quantifier": "all finite histories of layout operations", "why_tests_cant": "liveness is a bit of a reference counter that operations increment and decrement; it depends on the whole history", "anchors": ["include/fiction/layouts/gate_level_layout.hpp: foreach_node, foreach_gate, foreach_wire, is_dead, move_node, connect"]}
{"id": "C50", "title": "Network conversion preserves the Boolean function", "statement": "Converting a network with complemented edges (such as an AIG) into a technology network yields a network with the same inputs whose outputs agree with the source's for every input assignment, whichever fanins and outputs are complemented, including complemented constants.", "quantifier": "all networks and input assignments", "why_tests_cant": "all networks", "anchors": ["include/fiction/algorithms/network_transformation/network_conversion.hpp: convert_network", "include/fiction/networks/technology_network.hpp: create_not"]}
{"id": "C51", "title": "The virtual miter is true exactly where the networks differ", "statement": "virtual_miter returns a network iff the (real) numbers of inputs and outputs agree; its single output is 1 for exactly the assignments for which some output differs, so the networks are equivalent iff the miter is constant 0.", "quantifier": "all pairs of networks and assignments", "why_tests_cant": "all networks", "anchors": ["include/fiction/algorithms/verification/virtual_miter.hpp: virtual_miter"]}
{"id": "C52", "title": "QuickExact returns exactly the physically valid charge distributions in three-state simulation", "statement": "If positively charged SiDBs can occur, quickexact with base three returns exactly the physically valid charge distributions that the exhaustive simulation with base three returns, each once, provided no SiDB's potential lies within the error margin of a transition level.", "quantifier": "all layouts and physical parameters", "why_tests_cant": "the enumeration interleaves a base-three and a base-two counter over different SiDBs with incremental potentials and a dependent SiDB", "anchors": ["include/fiction/algorithms/simulation/sidb/quickexact.hpp: three_state_simulation", "include/fiction/technology/charge_distribution_surface.hpp: index_to_charge_distribution_for_quickexact_simulation, increase_charge_index_of_sub_layout_by_one, reset_charge_index_sub_layout, is_three_state_simulation_required"]}
{"id": "C53", "title": "QuickSim only returns physically valid charge distributions, with their energies", "statement": "Whatever random numbers are drawn and however the threads interleave, every charge distribution returned by quicksim is physically valid, contains no positive charge, is also found by the exhaustive simulation, and is stored with its electrostatic potential energy although that was updated incrementally.", "quantifier": "all layouts, parameters, random draws and thread schedules", "why_tests_cant": "quantifies over random draws and interleavings", "anchors": ["include/fiction/algorithms/simulation/sidb/quicksim.hpp: quicksim", "include/fiction/technology/charge_distribution_surface.hpp: adjacent_search, recompute_electrostatic_potential_energy"]}
{"id": "C54", "title": "Configuration stability means that no electron hop lowers the energy", "statement": "A charge distribution passes the configuration stability check iff no hop of an electron from a more negatively to a less negatively charged SiDB lowers the electrostatic potential energy beyond the error margin.", "quantifier": "all charge distributions, potentials and parameters", "why_tests_cant": "all layouts and charge distributions", "anchors": ["include/fiction/technology/charge_distribution_surface.hpp: is_configuration_stable, recompute_electrostatic_potential_energy"]}
{"id": "C55", "title": "Converting a layout between SiQAD and fiction coordinates keeps every cell", "statement": "convert_layout_to_siqad_coordinates and convert_layout_to_fiction_coordinates produce a layout with the same number of cells, in which every cell of the source appears at the converted position with its type and name, and converting there and back returns the original cells.", "quantifier": "all cell-level layouts", "why_tests_cant": "all layouts of all sizes; the conversion may normalise negative coordinates", "anchors": ["include/fiction/utils/layout_utils.hpp: convert_layout_to_siqad_coordinates, convert_layout_to_fiction_coordinates, normalize_layout_coordinates", "include/fiction/layouts/coordinates.hpp: siqad::to_siqad_coord, siqad::to_fiction_coord"]}
{"id": "C56", "title": "No design rule violations are reported iff the design rules are obeyed", "statement": "gate_level_drvs with default parameters reports zero violations for a layout iff every signal used by a placed node comes from a node on a neighbouring tile that is clocked one phase earlier, nodes without fanins are primary inputs and nodes without fanouts are primary outputs, wires in crossing layers are above wires, and there are inputs and outputs, all of which are placed. In particular all fanins of each placed node are then visited by foreach_fanin.", "quantifier": "all gate-level layouts built by any history of operations, all clocking schemes and topologies", "why_tests_cant": "all layouts and histories; tests check a handful of layouts with one violation each", "anchors": ["include/fiction/algorithms/verification/design_rule_violations.hpp: gate_level_drvs, gate_level_drv_params, gate_level_drv_stats"]}
{"id": "C57", "title": "Rotating, merging and marking gates moves cells as documented", "statement": "For square gate libraries, rotate_90 turns a gate clockwise, rotate_270 counterclockwise and rotate_180 by half a turn; the rotations compose like rotations and lose no cells. Merging gates puts on each position the last non-empty cell of the given gates, and marking a cell changes that cell only. None of these accesses a gate out of bounds.", "quantifier": "all gate sizes, all gates, all technologies, all lists of merged gates", "why_tests_cant": "tests rotate a few fixed gates of one size", "anchors": ["include/fiction/technology/fcn_gate_library.hpp: rotate_90, rotate_180, rotate_270, merge, mark_cell, transpose, reverse_columns, reverse_rows"]}
{"id": "C58", "title": "Gate libraries connect the signals of their tiles", "statement": "When set_up_gate of the QCA ONE, SIM7 or Bestagon library returns a gate for a tile, that gate has a contact at every side on which a signal enters or leaves the tile, no contact at other sides, and its contacts are connected inside: in QCA ONE by touching cells, in SIM7 by touching cells in the order of their phases, in both for inverters only diagonally. AND and OR gates have exactly the constant cells of their function, primary inputs and outputs exactly the input and output cells of the library, and other tiles none. In the Bestagon library the wire ends line up with those of neighboring tiles, crossing wires are realized together, and the catalogues of implementations and ports agree with the gates.", "quantifier": "all tiles: every function, all combinations of sides with incoming and outgoing signals, all fanin and fanout sizes", "why_tests_cant": "tests set up a handful of tiles; the lookup tables have more than a hundred entries that are typed in by hand", "anchors": ["include/fiction/technology/qca_one_library.hpp: set_up_gate, determine_port_routing, lookup tables", "include/fiction/technology/sim7_mol_library.hpp: set_up_gate, determine_port_routing, set_up_1_to_3_fanout, lookup tables", "include/fiction/technology/sidb_bestagon_library.hpp: set_up_gate, determine_port_routing, get_functional_implementations, get_gate_ports, lookup tables", "include/fiction/technology/cell_ports.hpp: port_list, port_position"]}
{"id": "C59", "title": "Applying a gate library places every gate in its tile", "statement": "apply_gate_library gives a cell-level layout that contains, for each node of the gate-level layout, exactly the cells of the gate the library sets up for its tile, at the position relative_to_absolute_cell_position assigns to it and named after the node where they are inputs or outputs; no two tiles share a cell, no cell is outside the layout, and the layout is not larger than needed. With QCA ONE, connected nodes in one layer have touching cells, and where a connection changes the layer there is a via to a ground cell that touches the other gate.", "quantifier": "all gate-level layouts built by any sequence of operations, all sizes, all node names; Cartesian, shifted Cartesian and hexagonal layouts", "why_tests_cant": "tests apply libraries to a few small layouts and compare counts; overlaps depend on the parity of rows and on which layers are used", "anchors": ["include/fiction/algorithms/physical_design/apply_gate_library.hpp: apply_gate_library, assign_gate, determine_aspect_ratio_for_cell_level_layout", "include/fiction/utils/layout_utils.hpp: relative_to_absolute_cell_position", "include/fiction/technology/qca_one_library.hpp: post_layout_optimization", "include/fiction/technology/sidb_bestagon_library.hpp: set_up_gate"]}
{"id": "C60", "title": "Orthogonal physical design yields a layout of the network", "statement": "`orthogonal` turns every fanout-substituted network into a gate-level layout under 2DDWave clocking (three or four phases) with the network's inputs and outputs, in their order, such that every output computes, along the fanins that `foreach_fanin` reports (neighbouring tiles with consecutive clock numbers), the Boolean function of the corresponding output of the network. Inputs are on the western and outputs on the eastern border, and everything is inside the layout, whose size is computed beforehand.", "quantifier": "all technology networks of any size with gates of one or two fanins, all topological orders, all input assignments", "why_tests_cant": "The placement interleaves an edge colouring, a size prediction and wires that may cross each other; tests compare a handful of benchmark layouts with their networks.", "anchors": ["include/fiction/algorithms/physical_design/orthogonal.hpp:orthogonal", "include/fiction/algorithms/physical_design/orthogonal.hpp:orthogonal_impl::run", "include/fiction/algorithms/physical_design/orthogonal.hpp:east_south_edge_coloring", "include/fiction/algorithms/physical_design/orthogonal.hpp:determine_layout_size", "include/fiction/algorithms/physical_design/orthogonal.hpp:place_outputs", "include/fiction/utils/placement_utils.hpp:reserve_input_nodes", "include/fiction/utils/placement_utils.hpp:place"]}
{"id": "C61", "title": "Hexagonalization preserves the layout", "statement": "`hexagonalization` maps a 2DDWave-clocked Cartesian layout to a row-clocked even-row hexagonal layout: every diagonal becomes a row, distinct tiles stay distinct, every gate keeps its function and its fanins, which lie in the row above as the row clocking demands, inputs and outputs keep their order, everything is inside the result, whose first column, last column and last row are in use, and every output computes the same Boolean function as before. In particular `orthogonal` followed by `hexagonalization` yields a hexagonal layout of the network.", "quantifier": "all layout sizes, all layouts with at most two-input gates whose crossings are above occupied tiles and whose outputs are not read; all networks that `orthogonal` handles; all input assignments", "why_tests_cant": "The new columns depend on a rounding of half-integers and an offset computed from the first occupied diagonal; tests convert a few benchmark layouts.", "anchors": ["include/fiction/algorithms/physical_design/hexagonalization.hpp:hexagonalization", "include/fiction/algorithms/physical_design/hexagonalization.hpp:to_hex", "include/fiction/algorithms/physical_design/hexagonalization.hpp:get_offset", "include/fiction/utils/placement_utils.hpp:place"]}
{"id": "C62", "title": "Operational domains are exact for every thread schedule", "statement": "The operational-domain computations report exactly the truth about the points they visit, however their threads interleave: `grid_search` yields every point of the parameter grid once with its status; `random_sampling` yields exactly the sampled points; `flood_fill` yields exactly the samples, all operational points connected to an operational sample, and the neighbours of those, each with its status. The result of flood fill therefore depends on the samples only, not on the schedule; every schedule ends, none deadlocks; and the statistics count the operational, non-operational and all points. Parameter values are min + i*step for exactly those i for which the value does not exceed the maximum, and distinct grid points have distinct keys.", "quantifier": "all numbers of dimensions, ranges, step sizes of at least 1e-6, status functions, samples, numbers of threads, all interleavings of the threads and all wake-ups", "why_tests_cant": "The result of a multi-threaded search with a condition variable must be the same in every interleaving; tests run a few schedules on a few gates.", "anchors": ["include/fiction/algorithms/simulation/sidb/operational_domain.hpp:grid_search", "include/fiction/algorithms/simulation/sidb/operational_domain.hpp:random_sampling", "include/fiction/algorithms/simulation/sidb/operational_domain.hpp:flood_fill", "include/fiction/algorithms/simulation/sidb/operational_domain.hpp:simulate_operational_status_in_parallel", "include/fiction/algorithms/simulation/sidb/operational_domain.hpp:moore_neighborhood", "include/fiction/algorithms/simulation/sidb/operational_domain.hpp:log_stats"]}
{"id": "C63", "title": "Contour tracing of operational domains", "statement": "`operational_domain_contour_tracing` stores only true statuses of grid points, each once, including all samples, and infers only points of the grid. In three or more dimensions it always ends, and if no operational region has a hole it finds, for every operational sample, the whole border of its region with all points next to it, and infers only operational points. In two dimensions it ends exactly when no operational sample it starts from is isolated.", "quantifier": "all parameter ranges with steps of at least 1e-6, numbers of dimensions, status functions, samples and thread schedules of the sampling", "why_tests_cant": "Termination and completeness of the trace depend on the shape of the operational region; tests trace a few regions of one gate.", "anchors": ["include/fiction/algorithms/simulation/sidb/operational_domain.hpp:contour_tracing", "include/fiction/algorithms/simulation/sidb/operational_domain.hpp:trace_contour_curve", "include/fiction/algorithms/simulation/sidb/operational_domain.hpp:trace_boundary_surface", "include/fiction/algorithms/simulation/sidb/operational_domain.hpp:find_operational_contour_step_point", "include/fiction/algorithms/simulation/sidb/operational_domain.hpp:infer_operational_status_in_enclosing_contour", "include/fiction/algorithms/simulation/sidb/operational_domain.hpp:moore_neighborhood_2d"]}
{"id": "C64", "title": "Ground states and equivalence of simulation results", "statement": "`minimum_energy` is the attained minimum of the energies (infinity for none). `groundstates()` lists every charge distribution within the error margin of the minimum exactly once, however often it occurs, and nothing else. `is_ground_state` (release build) is true exactly if the exact result is not empty and the heuristic and the exact result have the same set of ground states. `check_simulation_results_for_equivalence` is true exactly if neither result contains a distribution twice and the two consist of the same distributions, in any order, with energies within the margin.", "quantifier": "all simulation results: any number, order and multiplicity of charge distributions, all energies", "why_tests_cant": "Ties within the margin, duplicates and different orders multiply; tests compare a few simulated layouts.", "anchors": ["include/fiction/algorithms/simulation/sidb/minimum_energy.hpp:minimum_energy", "include/fiction/algorithms/simulation/sidb/sidb_simulation_result.hpp:groundstates", "include/fiction/algorithms/simulation/sidb/is_ground_state.hpp:is_ground_state", "include/fiction/algorithms/simulation/sidb/equivalence_check_for_simulation_results.hpp:check_simulation_results_for_equivalence"]}
{"id": "C65", "title": "State types, occupation probabilities and critical temperatures", "statement": "Given energies on which being within the margin is transitive, the state types (kinks accepted) list every state once, sorted, at an energy within the margin of its own, accepted exactly if its outputs have the specified values. The occupation probability is that of the Boltzmann distribution. The critical temperature of a gate is 0 if for some input pattern no ground state computes the function; otherwise, at every simulated temperature below it the probability of an error is tolerated for every input pattern, and it is the maximum or a temperature at which this fails for some pattern. For other layouts the occupation probability does not decrease with the temperature, so the critical temperature is correct within 0.01 K for all temperatures. Full property, false of the code: the same with rejected kinks.", "quantifier": "all lists of states and energies, all outputs and specifications, all temperatures, maximal temperatures and confidence levels, all numbers of input patterns", "why_tests_cant": "The claims compare sums of exponentials at all temperatures; tests evaluate a few gates.", "anchors": ["include/fiction/algorithms/simulation/sidb/calculate_energy_and_state_type.hpp:calculate_energy_and_state_type_with_kinks_accepted", "include/fiction/algorithms/simulation/sidb/calculate_energy_and_state_type.hpp:calculate_energy_and_state_type_with_kinks_rejected", "include/fiction/algorithms/simulation/sidb/occupation_probability_of_excited_states.hpp:occupation_probability_gate_based", "include/fiction/algorithms/simulation/sidb/occupation_probability_of_excited_states.hpp:occupation_probability_non_gate_based", "include/fiction/algorithms/simulation/sidb/critical_temperature.hpp:critical_temperature_gate_based", "include/fiction/algorithms/simulation/sidb/critical_temperature.hpp:critical_temperature_non_gate_based"]}
{"id": "C66", "title": "Accuracy and time to solution", "statement": "For given simulation results the reported accuracy is the percentage of results that have exactly the ground states of the exact result, and the mean run time is their average. The time to solution is infinite if there is no success, the mean run time if all succeed, and otherwise the time t with (1 - accuracy)^(t / mean) = 1 - confidence. Full property, false of the code: `time_to_solution` counts QuickSim runs without a result as failures.", "quantifier": "all simulation results, numbers of repetitions, run times and confidence levels", "why_tests_cant": "The accuracy is a statement about every possible outcome of randomised runs; failing runs are rare in tests.", "anchors": ["include/fiction/algorithms/simulation/sidb/time_to_solution.hpp:time_to_solution", "include/fiction/algorithms/simulation/sidb/time_to_solution.hpp:time_to_solution_for_given_simulation_results"]}
{"id": "C67", "title": "Yen's algorithm for the k shortest paths", "statement": "`yen_k_shortest_paths` returns distinct paths, at most k of them; each leads from the source to the target by permitted steps of the given layout and visits no coordinate twice. It returns none only if there is none, and it terminates. On Cartesian layouts with a linear clocking scheme it returns the k shortest paths, all of them if there are at most k. The call leaves the obstructions of the layout as they were, except for one on the source. Full property, false of the code: it returns the k shortest paths of every layout, for k = 0 none, and leaves the layout unchanged.", "quantifier": "all layouts, obstructions and clocking schemes, all pairs of coordinates on the ground, all k, every priority queue", "why_tests_cant": "The paths found depend on all paths found before; tests compare a few small layouts with k up to a handful.", "anchors": ["include/fiction/algorithms/path_finding/k_shortest_paths.hpp:yen_k_shortest_paths", "include/fiction/algorithms/path_finding/k_shortest_paths.hpp:yen_k_shortest_paths_impl::run", "include/fiction/layouts/obstruction_layout.hpp:obstruct_connection", "include/fiction/utils/routing_utils.hpp:path_set"]}
{"id": "C68", "title": "BDL pairs and BDL wires", "statement": "`detect_bdl_pairs` for a type returns a stable pairing of the dots of that type: two dots per pair, the upper one above or left of the lower one, at a distance within the given bounds, no dot in two pairs, and for any two dots at an admissible distance one of them is in a pair whose dots are no further apart. The pairs are listed from the top left to the bottom right and, if no two distances coincide, are independent of the sorting algorithm. `detect_bdl_wires` terminates and puts every pair into exactly one wire; each wire is connected by pairs closer than the threshold. Selecting inputs keeps the wires with an input pair, without their output pairs. Full property, false of the code: wires are exactly the connected groups of pairs, and without a type the pairs of all types are returned.", "quantifier": "all SiDB layouts, all bounds on the distances and all thresholds, every behaviour of the unstable sort", "why_tests_cant": "The pairing depends on the order of all pairwise distances; tests use a handful of gates with straight wires.", "anchors": ["include/fiction/algorithms/simulation/sidb/detect_bdl_pairs.hpp:detect_bdl_pairs", "include/fiction/algorithms/simulation/sidb/detect_bdl_pairs.hpp:bdl_pair", "include/fiction/algorithms/simulation/sidb/detect_bdl_wires.hpp:detect_bdl_wires", "include/fiction/algorithms/simulation/sidb/detect_bdl_wires.hpp:filter_wires", "include/fiction/algorithms/simulation/sidb/detect_bdl_wires.hpp:find_bdl_neighbor_above", "include/fiction/algorithms/simulation/sidb/detect_bdl_wires.hpp:find_bdl_neighbor_below"]}
{"id": "C69", "title": "Operational status of SiDB gates", "statement": "`is_operational` by simulation returns OPERATIONAL exactly if, under every input pattern, no positive charges can occur in a two-state simulation, a charge distribution is found, and in every ground state each output pair encodes the bit of its truth table, and, with kinks rejected, every pair of every input and output wire encodes the bit of its input or output. Otherwise the reason is that of the first failing input pattern. Filtering beforehand does not change the status, and what the filter rejects is not operational, provided the dots outside of canvas and wires are negatively charged in the ground states and the potential at the dependent cell is off the error margin. `operational_input_patterns` lists exactly the patterns the layout computes correctly. Full property, false of the code: without these provisions.", "quantifier": "all gates, truth tables, input patterns, parameters, and all outcomes of the physical simulation; for the filter, all physical environments with any number of dots under exhaustive simulation", "why_tests_cant": "The equivalence quantifies over all ground states and all charge distributions of the canvas; tests check a handful of library gates.", "anchors": ["include/fiction/algorithms/simulation/sidb/is_operational.hpp:is_operational", "include/fiction/algorithms/simulation/sidb/is_operational.hpp:is_operational_impl", "include/fiction/algorithms/simulation/sidb/is_operational.hpp:operational_input_patterns", "include/fiction/algorithms/simulation/sidb/is_operational.hpp:verify_logic_match_of_cds", "include/fiction/algorithms/simulation/sidb/is_operational.hpp:is_layout_invalid", "include/fiction/algorithms/simulation/sidb/is_operational.hpp:is_physical_validity_feasible", "include/fiction/algorithms/simulation/sidb/is_operational.hpp:is_io_signal_unstable", "include/fiction/utils/truth_table_utils.hpp:evaluate_output"]}
{"id": "C70", "title": "FQCA files", "statement": "Writing a QCA cell layout as an FQCA file fails exactly if more than 52 cells have a name or are primary inputs or outputs. Reading the file gives a layout with cells at the same positions and of the same type, with the same names and clock numbers, the mode being that of the layer, in the smallest aspect ratio that contains all cells; a layout that says no more than the format expresses is read back unchanged. With via layers, the file is that of the layout with additional layers for the vias. Full property, false of the code: every layout is read back unchanged.", "quantifier": "all cell layouts of any size and number of layers, all names, types, modes and clock numbers", "why_tests_cant": "The tests compare a few fixed texts; the round trip has to hold for every layout and name.", "anchors": ["include/fiction/io/write_fqca_layout.hpp:write_fqca_layout", "include/fiction/io/read_fqca_layout.hpp:read_fqca_layout"]}
{"id": "C71", "title": "FGL files", "statement": "Writing a gate-level layout as an FGL file and reading it gives the part of the layout that its primary outputs need: the same occupied tiles with the same functions (named or given by a truth table), the same connections in the same order, the same primary inputs in order, the same outputs, and the names of both; it computes the same function at every output. The clocking scheme is the same if it is one of the named ones; clock numbers of the ground layer are kept in any case. The order of the gate elements in the file does not matter. Full property, false of the code: every layout is read back unchanged.", "quantifier": "all gate-level layouts reachable through the interface, on all topologies and clocking schemes, all gate functions, names and orders of elements", "why_tests_cant": "The tests write and read a handful of fixed layouts; the round trip has to hold for every layout, function and clocking.", "anchors": ["include/fiction/io/write_fgl_layout.hpp:write_fgl_layout", "include/fiction/io/read_fgl_layout.hpp:read_fgl_layout"]}
{"id": "C72", "title": "Levels, depth and critical paths of networks", "statement": "The level of a node in a depth view is the cost of a most expensive path from the inputs to it (with unit or any other node costs, counting complemented edges or not, counting inputs or not), the depth is that of a most expensive path to an output, and the nodes on critical paths are those on paths that attain the depth. Full property, false of the code: every node has a level, and critical paths are right for counted complements too.", "quantifier": "all acyclic networks, all node costs, all settings, all nodes", "why_tests_cant": "The tests check levels of a few small networks; the levels have to be those of most expensive paths in every network, and no test relates critical paths to paths.", "anchors": ["include/fiction/networks/views/static_depth_view.hpp:static_depth_view"]}
{"id": "C73", "title": "Breadth-first topological order of networks", "statement": "A breadth-first topological view visits each node once, first constants and inputs, each gate after everything it reads, and gates in the order of their levels; its gate loop visits the gates in the same order. Full property, false of the code: it visits exactly the nodes that outputs depend on.", "quantifier": "all acyclic networks, all nodes", "why_tests_cant": "The tests compare the order with an expected list for two or three networks.", "anchors": ["include/fiction/networks/views/bfs_topo_view.hpp:bfs_topo_view"]}
{"id": "C74", "title": "Ranks of networks", "statement": "A rank view places each node other than constants at its level, at one position, and keeps this, whatever nodes are swapped and whatever ranks are set or sorted. The width is that of a widest rank. Looping over the nodes gives each once and after its fanins; inputs are visited in the order of rank 0, which contains just them. Full property, false of the code: this holds of every network, of all given ranks and after updates, and a loop ends when its function asks for it.", "quantifier": "all acyclic networks, all histories of calls, all comparisons, all given ranks", "why_tests_cant": "The tests perform a few swaps on small networks; positions and ranks are kept in two tables that must agree after any history.", "anchors": ["include/fiction/networks/views/mutable_rank_view.hpp:mutable_rank_view"]}
{"id": "C75", "title": "Distance maps and caches", "statement": "A precomputed distance map, a sparse distance map and a distance cache give the same distances as the function they were made from, for all coordinates of the layout and all histories of queries. Full property, false of the code for layouts with several layers, for coordinates beyond the layout and for layouts that change.", "quantifier": "all layouts of offset coordinates, all distance functions, all pairs of coordinates, all histories of queries", "why_tests_cant": "The tests compare maps of a few one-layer layouts with A* distances.", "anchors": ["include/fiction/algorithms/path_finding/distance_map.hpp:initialize_distance_map", "include/fiction/algorithms/path_finding/distance_map.hpp:initialize_sparse_distance_map", "include/fiction/algorithms/path_finding/distance_map.hpp:distance_map_functor", "include/fiction/algorithms/path_finding/distance_map.hpp:sparse_distance_map_functor", "include/fiction/algorithms/path_finding/distance_map.hpp:smart_distance_cache_functor"]}
{"id": "C76", "title": "Layouts by exact physical design compute the function of the network", "statement": "Every assignment that meets the constraints which exact generates for an aspect ratio is turned into a layout of that size which has the inputs and outputs of the network and whose outputs compute the functions of the network's outputs; the preparation of the output signals keeps these functions. Full property: for all clocking schemes and all networks.", "quantifier": "all networks after fanout substitution, all topological orders, all named clocking schemes, Cartesian and hexagonal layouts of all sizes, with and without crossings, synchronized or not, all satisfying assignments", "why_tests_cant": "The tests run the solver for a few small networks and check equivalence for the one assignment that it finds; another version of the solver may find any other.", "anchors": ["include/fiction/algorithms/physical_design/exact.hpp:smt_handler::generate_smt_instance", "include/fiction/algorithms/physical_design/exact.hpp:smt_handler::assign_layout", "include/fiction/algorithms/physical_design/exact.hpp:smt_handler::check_point", "include/fiction/networks/technology_network.hpp:substitute_po_signals"]}
{"id": "C77", "title": "Layouts by exact physical design are as small as possible", "statement": "The layout returned by exact has the fewest tiles of all layouts within the given bounds for which the constraints can be met; if nothing is returned, they can be met for no aspect ratio within the bounds. The lower bound on the area and the skipped aspect ratios lose nothing. This holds for one thread and, for every number of threads and every schedule, for many. Full property, false of the code with many threads: they never examine the first aspect ratio.", "quantifier": "all networks, all named regular clocking schemes, all bounds, all solvers that find an assignment where there is one, all schedules of any number of threads", "why_tests_cant": "Tests see single schedules, and cannot know the smallest feasible area.", "anchors": ["include/fiction/algorithms/physical_design/exact.hpp:run_synchronously", "include/fiction/algorithms/physical_design/exact.hpp:run_asynchronously", "include/fiction/algorithms/physical_design/exact.hpp:explore_asynchronously", "include/fiction/algorithms/physical_design/exact.hpp:smt_handler::skippable", "include/fiction/algorithms/iter/aspect_ratio_iterator.hpp:aspect_ratio_iterator"]}
{"id": "C78", "title": "Random SiDB layouts have the requested number of dots at allowed positions, and no two are the same", "statement": "A layout returned by generate_random_sidb_layout has all dots of the skeleton and exactly the requested number of dots in addition, all within the given area and none on a defect or on a position a defect affects; every such choice of dots can be returned; if positive charges are forbidden, none can occur in it, and if they are required, they can. Nothing is returned only if all attempts were used up, and the generator ends. generate_multiple_random_sidb_layouts returns no two layouts that agree in all cells. Full property, false of the code: inputs and outputs of the skeleton can become logic dots; with positive charges forbidden dots of the skeleton can be removed; with positive charges required the generator may not end.", "quantifier": "all skeletons, defects, areas, numbers of dots, limits, predicates for positive charges, hash functions, and all sequences of random numbers", "why_tests_cant": "The results are random: tests see a few of the sequences of random numbers and hash collisions never.", "anchors": ["include/fiction/algorithms/simulation/sidb/random_sidb_layout_generator.hpp:generate_random_sidb_layout", "include/fiction/algorithms/simulation/sidb/random_sidb_layout_generator.hpp:generate_multiple_random_sidb_layouts", "include/fiction/utils/layout_utils.hpp:random_coordinate", "include/fiction/utils/layout_utils.hpp:are_cell_layouts_identical", "include/fiction/utils/layout_utils.hpp:cell_layout_digest"]}
{"id": "C79", "title": "The gate designers return exactly the operational layouts, whatever the schedule of their threads", "statement": "design_sidb_gates in exhaustive mode returns all operational layouts that consist of the skeleton and the requested number of logic dots on free positions of the canvas, each of them once, and nothing else; with AFTER_FIRST_SOLUTION it returns at least one of them if there is any, and at most one per thread. QuickCell returns the same layouts, as pruning never discards an operational one; PRUNING_ONLY returns a superset. In random mode each returned layout is operational, has exactly the requested dots in addition and has the defects of the skeleton. All of this holds for every interleaving of the threads and every shuffling; the threads end. Full property, false of the code: dots can be missing and layouts repeated on a partially filled canvas; zero dots give nothing; QuickCell discards operational layouts if kinks are tolerated; the random designer does not end if there is no gate.", "quantifier": "all skeletons, defects, canvases, numbers of dots, numbers of threads, predicates for being operational, shufflings, random numbers and all schedules of the threads", "why_tests_cant": "Tests run a handful of gates under the schedules that happen; that no schedule loses or repeats a result, and that the search space is covered, is about all of them.", "anchors": ["include/fiction/algorithms/physical_design/design_sidb_gates.hpp:design_sidb_gates", "include/fiction/algorithms/physical_design/design_sidb_gates.hpp:run_automatic_exhaustive_gate_designer", "include/fiction/algorithms/physical_design/design_sidb_gates.hpp:run_random_design", "include/fiction/algorithms/physical_design/design_sidb_gates.hpp:run_quickcell", "include/fiction/algorithms/physical_design/design_sidb_gates.hpp:run_pruning", "include/fiction/algorithms/physical_design/design_sidb_gates.hpp:determine_all_possible_canvas_layouts", "include/fiction/algorithms/physical_design/design_sidb_gates.hpp:skeleton_layout_with_canvas_sidbs", "include/fiction/algorithms/physical_design/design_sidb_gates.hpp:design_canvas_layout"]}
{"id": "C80", "title": "The SAT engine colors a graph with as few colors as possible, whatever the search tactic", "statement": "determine_vertex_coloring with the SAT engine returns a coloring of all vertices in which neighbours differ and which uses as few colors as any such coloring, for all search tactics alike and whatever valid cliques are given; with clique_size_color_frequency, some color occurs in every clique, which is possible if and only if there is an independent transversal, and otherwise the call falls back to the heuristic. The statistics (number of colors, most frequent color and its frequency) are those of the returned coloring; colorings of the heuristic engines are reported faithfully; the verification accepts exactly the proper colorings. Full property, false of the code: the descending search dereferences a null pointer if the frequency constraint cannot be met.", "quantifier": "all graphs, cliques, search tactics, iteration orders and all correct solvers", "why_tests_cant": "Tests color a few fixed graphs; that no smaller coloring exists is a statement about all colorings of all graphs.", "anchors": ["include/fiction/algorithms/graph/graph_coloring.hpp:determine_vertex_coloring", "include/fiction/algorithms/graph/graph_coloring.hpp:sat_coloring_handler", "include/fiction/algorithms/graph/graph_coloring.hpp:graph_coloring_impl"]}
{"id": "C81", "title": "Color routing routes all objectives if and only if they can be routed together, and lays exactly these wires", "statement": "color_routing with the SAT engine and all paths returns true if and only if there are permitted routes for all objectives no two of which share a tile or connect the same tiles. With every engine and path limit: if it returns true, the layout is the given one with exactly one such route per objective added as wires, each segment fed by its predecessor and the target by the last one; if it returns false, the layout is unchanged. With partial routing it returns true, lays at most one route per objective without clashes and reports the number of the others. With crossings, the chosen paths share no two consecutive tiles. Full property, false of the code: on a layout without crossing layer, wires that cross overwrite each other and true is returned; repeated objectives are never routed together.", "quantifier": "all layouts, topologies, clocking schemes, objectives between distinct occupied tiles of the ground layer, path limits, engines, correct solvers, proper heuristics and iteration orders of the hash tables", "why_tests_cant": "Tests route a few layouts; that no joint routing is missed, and that the wires never get into each other's way, concerns all layouts and objectives.", "anchors": ["include/fiction/algorithms/physical_design/color_routing.hpp:color_routing", "include/fiction/algorithms/physical_design/color_routing.hpp:conduct_routing", "include/fiction/algorithms/graph/generate_edge_intersection_graph.hpp:generate_edge_intersection_graph", "include/fiction/utils/routing_utils.hpp:route_path", "include/fiction/utils/routing_utils.hpp:is_crossable_wire"]}
{"id": "C82", "title": "A defect surface remembers exactly the defects its history left", "statement": "After any history of assignments and moves, get_sidb_defect returns at every position the defect the history left there, and a defect of type NONE elsewhere; assigning NONE removes; ignored types are never stored. foreach_sidb_defect visits exactly the defective positions, once each and with that defect; num_defects is their number; the counters of positive and negative defects count the visited ones with that charge. Full property, false of the code: a moved defect ends up at its target, and charged and neutral defects partition the defects.", "quantifier": "all histories of assign_sidb_defect and move_sidb_defect, all positions, all sets of ignored types", "why_tests_cant": "Tests perform a few assignments and moves; the correspondence of map, counters and visits concerns all histories.", "anchors": ["include/fiction/technology/sidb_defect_surface.hpp:sidb_defect_surface", "include/fiction/technology/sidb_defect_surface.hpp:assign_sidb_defect", "include/fiction/technology/sidb_defect_surface.hpp:get_sidb_defect", "include/fiction/technology/sidb_defect_surface.hpp:move_sidb_defect", "include/fiction/technology/sidb_defect_surface.hpp:foreach_sidb_defect", "include/fiction/technology/sidb_defects.hpp:sidb_defect"]}
{"id": "C83", "title": "Surface analysis blacklists exactly the gates that a defect would compromise", "statement": "affected_sidbs returns exactly the positions of the surface within the horizontal and vertical reach of the defect at the given coordinate (its own coordinate included), each once, with the default or given distances for charged and neutral defects; all_affected_sidbs is the union over all defects. sidb_surface_analysis lists a port list for a function on a tile if and only if an implementation of the function with that port list would have an SiDB on an affected position there; so a gate that is not listed has no SiDB within the reach of any defect. Full property, false of the code: distances above 16 bits are cut off.", "quantifier": "all surfaces with any history, all aspect ratios up to 2^30 positions, all distances, all gate libraries and layouts", "why_tests_cant": "Tests analyse a few surfaces; safety of the black list means that no SiDB of any gate on any tile is overlooked.", "anchors": ["include/fiction/algorithms/simulation/sidb/sidb_surface_analysis.hpp:sidb_surface_analysis", "include/fiction/technology/sidb_defect_surface.hpp:affected_sidbs", "include/fiction/technology/sidb_defect_surface.hpp:all_affected_sidbs"]}
{"id": "C84", "title": "Reading a defect matrix yields exactly its defects, or the first fault", "statement": "read_sidb_surface_defects on any text of a matrix of defect indices (rows in brackets, indices separated by white space) yields a surface with exactly the defects of the matrix at column and row, with the aspect ratio of the matrix; the first row shorter than a previous one throws missing_sidb_position_exception, the first index that names no defect type throws unsupported_defect_index_exception. Full property, false of the code: every matrix with rows of different length is rejected, and no row of the file is ignored silently.", "quantifier": "all matrices and all their textual representations with arbitrary white space and text between rows", "why_tests_cant": "Tests read a few files; the regular expression and the index bookkeeping have to be right for all matrices and layouts of white space.", "anchors": ["include/fiction/io/read_sidb_surface_defects.hpp:read_sidb_surface_defects", "include/fiction/io/read_sidb_surface_defects.hpp:missing_sidb_position_exception", "include/fiction/io/read_sidb_surface_defects.hpp:unsupported_defect_index_exception"]}
{"id": "C85", "title": "Bounding boxes are the smallest ones", "statement": "bounding_box_2d of a layout is the smallest box that contains all non-empty tiles (gate-level layouts, both layers) or all non-empty cells and defects (cell-level layouts with offset, cube or SiQAD coordinates): everything is inside and each of the four sides touches something. For empty layouts it is the point (0, 0). Full property, false of the code: SiQAD layouts with cells and defects, and gate-level layouts with gates outside of the aspect ratio.", "quantifier": "all gate-level layouts reachable by any valid history, all cell-level layouts and sets of defects", "why_tests_cant": "Tests compute a few boxes; minimality and containment concern all layouts.", "anchors": ["include/fiction/layouts/bounding_box.hpp:bounding_box_2d", "include/fiction/layouts/bounding_box.hpp:update_bounding_box"]}
{"id": "C86", "title": "Crossing minimization rearranges ranks only, never adds crossings and reports their exact number", "statement": "mincross on a balanced network with valid ranks ends normally and returns ranks that hold the same nodes level by level, each at its recorded position; the reported number of crossings is exactly the number of pairs of edges that cross in the returned network; it is at most that of the given network; fixed inputs keep their order; without optimization the ranks are unchanged. Full property, false of the code: the result is a local optimum with respect to exchanges of neighbours, and a transposition pass reports the number of crossings it removes.", "quantifier": "all balanced networks, all valid ranks after any history, all parameters, all results of an unstable sort", "why_tests_cant": "Tests compare the numbers of crossings of a few networks; the incremental count and the bookkeeping of best ranks have to be right for all networks.", "anchors": ["include/fiction/algorithms/graph/mincross.hpp:mincross", "include/fiction/algorithms/graph/mincross.hpp:mincross_impl", "include/fiction/algorithms/graph/mincross.hpp:mincross_step", "include/fiction/algorithms/graph/mincross.hpp:transpose", "include/fiction/algorithms/graph/mincross.hpp:transpose_step", "include/fiction/algorithms/graph/mincross.hpp:ncross", "include/fiction/networks/views/mutable_rank_view.hpp:mutable_rank_view"]}
{"id": "C87", "title": "Writing an SiDB layout to an SQD file and reading it back restores cells and defects", "statement": "read_sqd_layout of what write_sqd_layout wrote of a layout yields exactly its cells with their types, inputs and outputs, its defects with their types and electrical parameters, and the smallest aspect ratio that covers them; a file of one lattice orientation is rejected as a layout of the other one. Files of QCA layouts hold the four (constants: two) dots of each cell at positions of its own. Full property, false of the code: for every layout, including negative cube coordinates, higher layers, arsenic defects and neutral defects with parameters.", "quantifier": "all layouts after any history of cell and defect assignments, all coordinate types, both orientations, all ways of printing floating-point numbers that can be read back", "why_tests_cant": "Tests write and read a handful of layouts; positions, numbers and defect kinds are unbounded.", "anchors": ["include/fiction/io/write_sqd_layout.hpp:write_sqd_layout", "include/fiction/io/read_sqd_layout.hpp:read_sqd_layout", "include/fiction/layouts/coordinates.hpp:to_siqad_coord", "include/fiction/technology/sidb_defects.hpp:sidb_defect"]}
{"id": "C88", "title": "The SQD reader accepts exactly the files that describe a layout, and reads what they describe", "statement": "read_sqd_layout ends normally exactly if the document has the elements siqad, layers, layer_prop, lat_vec and design, the orientation of the layout type, and well-formed dots and defects in all its layers; the target then holds the dots and defects of the file, the last one at each position, on top of what it held before; the aspect ratio covers the positions of the file. Full property, false of the code: a failed attempt leaves the target as it was, an invalid dot index is rejected, and the aspect ratio covers the cells the target had before.", "quantifier": "all documents, all targets, all coordinate types", "why_tests_cant": "Tests contain a dozen malformed files; the reader must tell all of them from well-formed ones.", "anchors": ["include/fiction/io/read_sqd_layout.hpp:read_sqd_layout", "include/fiction/io/read_sqd_layout.hpp:read_sqd_layout_impl", "include/fiction/io/read_sqd_layout.hpp:sqd_parsing_error"]}
{"id": "C89", "title": "Graph-oriented layout design yields layouts of the network", "statement": "Every layout found by graph-oriented layout design has the inputs and outputs of the network, and every output computes the function of the network's output, whatever the effort mode, the cost objective, the order in which vertices of the search spaces are expanded, random shuffling and the comparisons with the best costs so far; all gates and wires are within the bounds of the layout, inputs are at the northern or western and outputs at the southern or eastern border, and no position proposed by the search fails to be placed and routed.", "quantifier": "every network with one- and two-input gates over signals that are not constant, every fanout substitution strategy and node order, every reachable vertex of every search space, every parameter set, and every outcome of the cost comparisons", "why_tests_cant": "A test runs one network with one effort mode; which layouts are found depends on timeouts, threads and random numbers, and a wrong routing only shows for particular placements.", "anchors": ["include/fiction/algorithms/physical_design/graph_oriented_layout_design.hpp: graph_oriented_layout_design, graph_oriented_layout_design_impl", "include/fiction/layouts/obstruction_layout.hpp: obstruction_layout", "include/fiction/utils/routing_utils.hpp: route_path"]}
{"id": "C90", "title": "Pruning by potential bounds keeps every realisable multiset", "statement": "While the ground state space of a layout is built, the multiset of charge states of a cluster is only discarded if no assignment of charge states with that multiset is population stable for any potentials within the bounds received by the SiDBs of the cluster.", "quantifier": "every cluster of every size, every assignment of charge states, all potential bounds, all thresholds and error margins, all witness partitioning limits", "why_tests_cant": "The witness partitioning searches exponentially many partitions; that a set of witnesses is lost on one branch shows only for particular overlaps of the witnesses.", "anchors": ["include/fiction/algorithms/simulation/sidb/ground_state_space.hpp: ground_state_space, perform_potential_bound_analysis, find_valid_witness_partitioning, omit_free_witnesses_and_count_overlap", "include/fiction/technology/sidb_cluster_hierarchy.hpp: sidb_cluster_receptor_state"]}
{"id": "C91", "title": "ClusterComplete returns exactly the metastable charge distributions", "statement": "ClusterComplete returns, each once, exactly the charge distributions of a layout that are population stable and configuration stable: none that it returns violates a criterion, and none that satisfies them is missing.", "quantifier": "every number of SiDBs, all potentials, external and defect potentials, thresholds and error margins, every cluster hierarchy over the SiDBs, base two and three, all witness partitioning limits, all iteration orders of the hash sets", "why_tests_cant": "The ground state space discards charge configurations on bounds that are updated incrementally over merges; a bound that is off by one update for one hierarchy loses or adds configurations that no comparison on a few layouts would show.", "anchors": ["include/fiction/algorithms/simulation/sidb/clustercomplete.hpp: clustercomplete, clustercomplete_impl", "include/fiction/algorithms/simulation/sidb/ground_state_space.hpp: ground_state_space", "include/fiction/technology/sidb_cluster_hierarchy.hpp: sidb_cluster, sidb_cluster_charge_state, potential_projection_order"]}
{"id": "C92", "title": "ClusterComplete returns the same for every schedule of its threads", "statement": "With any number of threads and under every schedule, ClusterComplete returns exactly the charge distributions that it returns with a single thread, each once: no work is lost or done twice when threads steal from one another. If every thread is scheduled again and again and attempts to lock do not fail forever, all threads end.", "quantifier": "every setting of C91 with a non-empty charge space of the top cluster, every number of threads, every order of the initial work, every interleaving of the critical sections, every pattern of failing attempts to lock", "why_tests_cant": "Threads steal from the oldest layer of a queue and replay the owner's decisions to get the clustering state that the stolen work belongs to, while the owner goes on; a test sees a handful of interleavings out of a number that grows with every step.", "anchors": ["include/fiction/algorithms/simulation/sidb/clustercomplete.hpp: clustercomplete_impl::run, worker, worker_queue, initialize_worker_queues, add_physically_valid_charge_configurations, unfold_composition, obtain_work"]}
{"id": "C93", "title": "Population stability reports exact and safe potentials", "statement": "For every metastable charge distribution, in ascending order of energy, the population stability analysis reports for every charge transition the smallest change of a local potential that triggers it, and the SiDB where this happens: no charge state changes as long as all local potentials change by less, and at the critical SiDB a change by the smallest reported potential suffices.", "quantifier": "every number of SiDBs, all charge distributions, potentials and thresholds, every order of the hash map, every sorting routine", "why_tests_cant": "The minimum runs over all SiDBs and four transitions whose candidates depend on signs and distances to two thresholds; tests fix a few layouts and compare numbers from the same formulas.", "anchors": ["include/fiction/algorithms/simulation/sidb/physical_population_stability.hpp: physical_population_stability, population_stability_information"]}
{"id": "C94", "title": "Band bending resilience is the least potential over all input patterns", "statement": "The band bending resilience of a gate is the smallest potential, over all input patterns, that the ground state for this pattern tolerates before the given transition, or any transition, happens.", "quantifier": "every layout, every list of input patterns, every stability function, every transition", "why_tests_cant": "A test on one gate compares with a number obtained from the same program; that the loop does not depend on the input pattern only shows if the patterns differ in stability.", "anchors": ["include/fiction/algorithms/simulation/sidb/band_bending_resilience.hpp: band_bending_resilience"]}
{"id": "C95", "title": "Wiring reduction deletes one tile per lane and closes ranks", "statement": "Each search of wiring reduction ends, and the tiles it deletes form disjoint cuts with exactly one tile in every column (or row): all columns lose the same number of tiles, no input, output, gate, fan-out, crossing or wire along the search direction is deleted, the remaining tiles of a column move up without gaps and in their order, no two tiles end up in the same place, and tiles that were neighbours stay neighbours.", "quantifier": "every layout size, all nodes and obstructions, both search directions, every faithful priority queue, every point at which the time limit is reached", "why_tests_cant": "The cuts are found by a shortest path search that is repeated on a layout with growing obstructions; a test checks that one small layout is still equivalent, not where every tile of every layout ends up.", "anchors": ["include/fiction/algorithms/physical_design/wiring_reduction.hpp: wiring_reduction"]}
{"id": "C96", "title": "Wiring reduction connects the remaining tiles to their signals again", "statement": "When wiring reduction deletes tiles, every fan-in of every remaining tile is replaced by the new place of the remaining tile at which the signal that went through the deleted wires begins, and this place is the western or northern neighbour of the new place of the tile, so that the layout keeps its function and its 2DDWave flow.", "quantifier": "every well-formed 2DDWave layout, both search directions, every set of cuts found by the search, every remaining tile and fan-in, every additional obstruction", "why_tests_cant": "Whether the offsets of two tiles agree depends on how all cuts pass the bends of the wires between them, so the interplay of obstructed connections and walks over deleted wires must hold for every arrangement of wires and cuts.", "anchors": ["include/fiction/algorithms/physical_design/wiring_reduction.hpp: wiring_reduction"]}
{"id": "C97", "title": "The exact simulators agree", "statement": "Away from the ends of the error margins, ClusterComplete returns the same charge distributions as the exhaustive simulation, each exactly once, and in base two QuickExact, the exhaustive simulation and ClusterComplete return the same charge distributions, whatever the hierarchy of clusters and the order of hash sets.", "quantifier": "every number of SiDBs, all potentials, thresholds, hierarchies and iteration orders, bases two and three", "why_tests_cant": "The three programs find the charge distributions in entirely different ways; tests compare them on a few layouts under one set of physical parameters.", "anchors": ["include/fiction/algorithms/simulation/sidb/clustercomplete.hpp: clustercomplete", "include/fiction/algorithms/simulation/sidb/quickexact.hpp: quickexact", "include/fiction/algorithms/simulation/sidb/exhaustive_ground_state_simulation.hpp: exhaustive_ground_state_simulation"]}
{"id": "C98", "title": "Wiring reduction keeps signals apart at crossings and fan-outs", "statement": "When wiring reduction removes wires, every fan-in of every remaining gate or wire is replaced by the node, in its tile and its layer, at which the signal began, so that signals of a crossing are not mixed up, and the two fan-ins of a gate never become the same node.", "quantifier": "every well-formed layout of any size with any crossings and fan-outs, every order of equal entries in the priority queue, and every moment of a timeout; horizontal searches, and vertical searches with at most two cuts", "why_tests_cant": "The node that a signal comes from after the removal depends on the whole run of parallel wires next to it; tests check the equivalence of a few layouts.", "anchors": ["include/fiction/algorithms/physical_design/wiring_reduction.hpp: wiring_reduction"]}
{"id": "C99", "title": "The displacement robustness domain is complete", "statement": "An exhaustive displacement analysis stores every way to displace the SiDBs within the given columns, rows and dimers, without two SiDBs at the same position, exactly once and with its operational status, and the statistics count operational and non-operational displacements; a random analysis stores a subset of at most the given fraction; the result does not depend on the number of threads, and the analysis always ends.", "quantifier": "every SiDB layout, all displacement variations, fixed SiDBs and policies, all shuffles, every number of threads and every schedule", "why_tests_cant": "The combinations are distributed to threads that write to the same domain, after two random shuffles; tests run a few layouts and compare counts.", "anchors": ["include/fiction/algorithms/simulation/sidb/displacement_robustness_domain.hpp: determine_displacement_robustness_domain", "include/fiction/utils/layout_utils.hpp: all_coordinates_in_spanned_area"]}
{"id": "C100", "title": "Gate designs reported impossible are impossible", "statement": "If a gate design on a defective surface is reported to be impossible, some output SiDB is not negatively charged in any physically valid charge distribution, whatever SiDBs are placed on the canvas and whatever the inputs, and hence no canvas makes the gate work; if it is not reported, every output SiDB can be negatively charged on its own.", "quantifier": "every skeleton, all defects, all input patterns and specifications, every canvas with any number of SiDBs and every charge distribution", "why_tests_cant": "The claim is about all canvases and all charge distributions of each; tests try one surface at a time.", "anchors": ["include/fiction/technology/is_sidb_gate_design_impossible.hpp: is_sidb_gate_design_impossible"]}
{"id": "C101", "title": "Defect influence domains and clearances are what they claim", "statement": "However its threads are scheduled, the search for influential defect positions assigns a status to each position of the scanned area on the grid exactly once; the status says whether the defect changes the operation or the ground states of the layout; and the clearance computed from it is the largest distance of an influential position from its nearest SiDB, so that scanned positions farther away from all SiDBs are not influential.", "quantifier": "every layout, defect, scanned area, step size, number of threads, schedule, shuffle, iteration order of the domain and distance function", "why_tests_cant": "Schedules and layouts are unbounded; a test observes a few interleavings and positions.", "anchors": ["include/fiction/algorithms/simulation/sidb/defect_influence.hpp: defect_influence_grid_search, defect_influence_random_sampling", "include/fiction/algorithms/simulation/sidb/defect_clearance.hpp: calculate_defect_clearance", "include/fiction/algorithms/simulation/sidb/sidb_simulation_domain.hpp: sidb_simulation_domain"]}
{"id": "C102", "title": "Synchronization elements are remembered and connect clock zones in both directions", "statement": "After any history of creating, cloning and assigning, a synchronization element layout reports for each clock zone the number of cycles last assigned to it (zero by default), counts the zones with a nonzero number, and clones are independent of their originals; one zone feeds another if their clock numbers are consecutive or one of them is a synchronization element, in agreement from both sides; a synchronization element is connected with all its neighbours; and the degree is the number of incoming plus outgoing zones.", "quantifier": "every history of calls, layout size, topology, clocking scheme and clock zone", "why_tests_cant": "Histories, layout sizes and clocking schemes are unbounded.", "anchors": ["include/fiction/layouts/synchronization_element_layout.hpp: assign_synchronization_element, is_synchronization_element, get_synchronization_element, num_se, is_incoming_clocked, is_outgoing_clocked, incoming_clocked_zones, outgoing_clocked_zones, in_degree, out_degree, degree, clone"]}
{"id": "C103", "title": "Post-layout optimization moves gates to better positions only", "statement": "For each gate, post-layout optimization tries positions by diagonals; a gate is moved to the first free position of the layout from which routing succeeds that is nearer to the upper left corner, not to the left of or above its fan-ins, at the left or upper border for inputs and outside of the area of the other gates for outputs; otherwise it stays where it was. With the default parameters such a position on an earlier diagonal is never missed, no gate can be moved endlessly, at most max_gate_relocations positions are tried for each gate, and layouts with misplaced inputs or outputs are rejected.", "quantifier": "every layout size, gate, fan-ins, occupied tiles, routing results, limit and timeout", "why_tests_cant": "Layouts, routing results and sequences of moves are unbounded.", "anchors": ["include/fiction/algorithms/physical_design/post_layout_optimization.hpp: post_layout_optimization, improve_gate_location, check_new_position"]}
{"id": "C104", "title": "Potentials are converted to distances within the precision", "statement": "The distance computed for a potential is the smallest multiple of the step size at which the screened Coulomb potential does not exceed the given potential; it is not smaller than the exact distance and exceeds it by less than the step size; and the computation ends.", "quantifier": "every potential, precision and positive physical parameters", "why_tests_cant": "Potentials and parameters are real numbers, and the number of iterations is unbounded.", "anchors": ["include/fiction/algorithms/simulation/sidb/potential_to_distance_conversion.hpp: potential_to_distance_conversion"]}
{"id": "C105", "title": "Gate counts report each gate once, under its kind", "statement": "Counting the gate types of a network or layout gives, for each kind, the number of gates of that kind, where buffers with several fan-outs are fan-outs and inputs and constants are not counted; and the reported total is the number of gates.", "quantifier": "every technology network and gate-level layout", "why_tests_cant": "Networks and layouts are unbounded.", "anchors": ["include/fiction/algorithms/properties/count_gate_types.hpp: count_gate_types, count_gate_types_stats::report"]}
{"id": "C106", "title": "On-the-fly circuit design returns a design of what it placed and routed, and ends", "statement": "Designing a circuit on a defective surface ends; a returned layout is the design of the reported gate-level layout, which placement and routing found with the blacklist of the surface extended only by gates whose design failed; and it gives up only if placement and routing fails with such a blacklist.", "quantifier": "every network, surface, tool for placement and routing that honours blacklists, and gate designer", "why_tests_cant": "The number of retries and the set of failing gates are unbounded.", "anchors": ["include/fiction/algorithms/physical_design/on_the_fly_sidb_circuit_design.hpp: on_the_fly_sidb_circuit_design_on_defective_surface"]}
{"id": "C107", "title": "Truth tables are read in the order of the file", "statement": "Successive calls of next give the truth tables of the lines of a file in order, each with its number of variables, and then nothing for ever.", "quantifier": "every file of lines with a truth table and an expression, and every number of calls", "why_tests_cant": "Files and numbers of calls are unbounded.", "anchors": ["include/fiction/io/tt_reader.hpp: tt_reader::tt_reader, next, read"]}
{"id": "C108", "title": "Delimited data can be read back", "statement": "What is written line by line as delimited data gives, when cut at the ends of lines and at commas, the written values in order; each call writes one line.", "quantifier": "every sequence of calls with values that contain neither commas nor ends of lines", "why_tests_cant": "Numbers of lines and values and their lengths are unbounded.", "anchors": ["include/fiction/io/csv_writer.hpp: csv_writer::write_line"]}
{"id": "C109", "title": "Charge states correspond to signs and characters", "statement": "The text of a charge configuration has one character for each SiDB, in order, that stands for its charge, so configurations with the same text are equal; signs and charge states correspond one to one.", "quantifier": "every charge configuration, sign and simulation base", "why_tests_cant": "Configurations are unbounded.", "anchors": ["include/fiction/technology/sidb_charge_state.hpp: charge_configuration_to_string, charge_state_to_sign, sign_to_charge_state, sidb_charge_states_for_base_number"]}
{"id": "C110", "title": "Written operational and influence domains can be read back", "statement": "The text written for an operational, critical temperature or defect influence domain gives, when read as delimited data, the names of the columns and then the values and the tag of each sample in order; with the option to write operational samples only, exactly these are written; and domains with an unsupported number of dimensions are refused.", "quantifier": "every domain, tag without commas and ends of lines, and writing mode", "why_tests_cant": "Domains have any number of samples with any values.", "anchors": ["include/fiction/io/write_operational_domain.hpp: write_operational_domain, sweep_parameter_to_string", "include/fiction/io/write_defect_influence_domain.hpp: write_defect_influence_domain"]}
{"id": "C111", "title": "Written ground states are all ground states, with the charge of each SiDB", "statement": "Writing locations and ground states of a simulation result lists exactly the charge distributions of least energy, up to rounding to six decimal places, and for each SiDB, sorted, its position and its charge in each of them; nothing is written for an empty result.", "quantifier": "every simulation result", "why_tests_cant": "Results have any number of distributions and SiDBs.", "anchors": ["include/fiction/io/write_location_and_ground_state.hpp: write_location_and_ground_state", "include/fiction/algorithms/simulation/sidb/minimum_energy.hpp: minimum_energy"]}
{"id": "C112", "title": "Network reader gives the networks of all readable files", "statement": "Reading a file or directory gives the networks of its Verilog, AIGER and, where supported, BLIF files in the order of the directory; each such file gives either a network or a message; and sorted access gives the same networks in ascending order of their size.", "quantifier": "every file system content and result of the parsers", "why_tests_cant": "Directories have any number of files.", "anchors": ["include/fiction/io/network_reader.hpp: network_reader::network_reader, get_networks, read"]}
{"id": "C113", "title": "The library for technology mapping consists of the selected gates", "statement": "Each gate of the library has the function of its name; the library has exactly the selected gates and what selected gates with three inputs compute if at least one of these is constant; gates with three inputs are left out if constant inputs are enforced; and accepted parameters provide the gates the network type requires.", "quantifier": "every choice of gates, and all values of inputs", "why_tests_cant": "There are 2^21 parameters; the tests map some networks with some of them.", "anchors": ["include/fiction/technology/technology_mapping_library.hpp: GATE_*, DECAY_*", "include/fiction/algorithms/network_transformation/technology_mapping.hpp: set_up_gates, validate_required_gates, technology_mapping_params"]}
{"id": "C114", "title": "Written simulation results pair charges with positions", "statement": "The simulation result written for SiQAD has the positions of all SiDBs, sorted, and one entry for each charge distribution, in ascending order of energies, whose i-th character stands for the charge of the SiDB at the i-th position.", "quantifier": "every simulation result whose distributions have the same SiDBs", "why_tests_cant": "Results have any number of distributions and SiDBs.", "anchors": ["include/fiction/io/write_sqd_sim_result.hpp: write_sqd_sim_result"]}
{"id": "C115", "title": "Layouts written for ToPoliNano and MagCAD are complete", "statement": "An accepted iNML layout is written as items such that each magnet has exactly one item, with its component, place and clock number, or belongs to the structure of a magnet that has one; and a layout is accepted if and only if its inputs are on its left border and its outputs on its right border.", "quantifier": "every iNML cell layout", "why_tests_cant": "Layouts have any size and structures can be adjacent in any way.", "anchors": ["include/fiction/io/write_qcc_layout.hpp: write_qcc_layout"]}
{"id": "C116", "title": "QLL files of QCA layouts have each cell once at its place", "statement": "The elements written for a QCA layout are one for each cell, at its place in an even layer, and one for each connection to the next layer of cells, in the odd layer between them. No two elements share a place, and identifiers are 1, 2, 3 and so on.", "quantifier": "every QCA cell layout with any number of layers", "why_tests_cant": "Layouts have any size and any number of layers, and pins can be in each of them.", "anchors": ["include/fiction/io/write_qll_layout.hpp: write_qll_layout"]}
{"id": "C117", "title": "QLL files of iNML layouts have each magnet and each pin", "statement": "An accepted iNML layout is written such that each magnet has exactly one item, or belongs to the structure of a magnet that has one, each input and output has exactly one pin with its name, direction and place, and identifiers are 1, 2, 3 and so on.", "quantifier": "every iNML cell layout with one layer", "why_tests_cant": "Layouts have any size and structures can be adjacent in any way.", "anchors": ["include/fiction/io/write_qll_layout.hpp: write_qll_layout"]}
{"id": "C118", "title": "Names survive the translation of networks", "statement": "After names are transferred from one network or layout to another, the destination has the name of the source, its inputs and outputs have the names of those with the same index, all other signals keep their names, and with a mapping each named signal gives its name to the signal it is mapped to.", "quantifier": "every pair of networks or layouts with names and every mapping of signals", "why_tests_cant": "Networks have any number of signals, and any of them can have a name.", "anchors": ["include/fiction/utils/name_utils.hpp: restore_names, restore_network_name, restore_input_names, restore_output_names, restore_signal_names"]}
{"id": "C119", "title": "Magnets are counted as MagCAD counts them", "statement": "The number of magnets of an iNML layout is the number of its magnets, where a chain of four inverter magnets counts as one.", "quantifier": "every iNML cell layout", "why_tests_cant": "Layouts have any number of magnets and inverters.", "anchors": ["include/fiction/technology/magcad_magnet_count.hpp: magcad_magnet_count"]}
{"id": "C120", "title": "The area is that of the smallest rectangle around the cells", "statement": "The width and height reported for a layout are those of the smallest rectangle that contains all its cells with the spaces between them, the area is their product, and the area of a bounding box is at most that of its layout.", "quantifier": "every size of layouts and all positive dimensions of cells", "why_tests_cant": "Layouts have any size and dimensions are parameters.", "anchors": ["include/fiction/technology/area.hpp: area"]}
