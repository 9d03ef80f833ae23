{
 "claims": [
  {
   "property": "C01",
   "status": "proved",
   "theorems": [
    "Verif.Coordinates.C01_coord_roundtrip",
    "Verif.Coordinates.C01_word_roundtrip",
    "Verif.Coordinates.C01_word_injective",
    "Verif.Coordinates.C01_word_layout",
    "Verif.Coordinates.C01_get_dead"
   ],
   "note": "Bit-precise model; all 2^64 words."
  },
  {
   "property": "C02",
   "status": "proved",
   "theorems": [
    "Verif.Coordinates.C02_ucoord_order",
    "Verif.Coordinates.C02_cube_order",
    "Verif.Coordinates.C02_siqad_order",
    "Verif.Coordinates.C02_ucoord_trichotomy",
    "Verif.Coordinates.C02_cube_trichotomy",
    "Verif.Coordinates.C02_siqad_trichotomy",
    "Verif.Coordinates.C02_ucoord_derived",
    "Verif.Coordinates.C02_cube_derived",
    "Verif.Coordinates.C02_siqad_derived",
    "Verif.Coordinates.C02_dead_twin",
    "Verif.Coordinates.C02_lexicographic"
   ],
   "note": ""
  },
  {
   "property": "C03",
   "status": "proved",
   "theorems": [
    "Verif.Coordinates.C03_ucoord_all",
    "Verif.Coordinates.C03_ucoord_range",
    "Verif.Coordinates.C03_ucoord_ground",
    "Verif.Coordinates.C03_ucoord_max_column_stuck",
    "Verif.Coordinates.C03_cube_all",
    "Verif.Coordinates.C03_siqad_all",
    "Verif.Coordinates.C03_cube_start_clamped",
    "Verif.Coordinates.C03_siqad_raw_iterator_misses_rows"
   ],
   "note": "Offset coordinates bit-precise, extents below 2^31-1 (the wrap-around case is shown separately); int32 overflow of cube/SiQAD coordinates not modelled."
  },
  {
   "property": "C04",
   "status": "proved",
   "theorems": [
    "Verif.Coordinates.C04_to_siqad_meaning",
    "Verif.Coordinates.C04_siqad_roundtrip",
    "Verif.Coordinates.C04_cube_roundtrip",
    "Verif.Coordinates.C04_order_preserved",
    "Verif.Coordinates.C04_arithmetic",
    "Verif.Coordinates.C04_saturation",
    "Verif.Coordinates.C04_cube_arithmetic"
   ],
   "note": ""
  },
  {
   "property": "C05",
   "status": "proved",
   "theorems": [
    "Verif.Coordinates.C05_spanned_area",
    "Verif.Coordinates.C05_corner_order",
    "Verif.Coordinates.C05_spanned_area_siqad"
   ],
   "note": ""
  },
  {
   "property": "C06",
   "status": "proved",
   "theorems": [
    "Verif.Layouts.C06_within_bounds",
    "Verif.Layouts.C06_inverse_moves",
    "Verif.Layouts.C06_border_moves",
    "Verif.Layouts.C06_moves_in_bounds",
    "Verif.Layouts.C06_direction_predicates",
    "Verif.Layouts.C06_wards",
    "Verif.Layouts.C06_out_of_bounds_dead"
   ],
   "note": ""
  },
  {
   "property": "C07",
   "status": "proved",
   "theorems": [
    "Verif.Layouts.C07_is_adjacent",
    "Verif.Layouts.C07_adjacent_exact",
    "Verif.Layouts.C07_adjacent_elevation",
    "Verif.Layouts.C07_opposite_exact"
   ],
   "note": ""
  },
  {
   "property": "C08",
   "status": "proved",
   "theorems": [
    "Verif.Layouts.C08_cube_sum_zero",
    "Verif.Layouts.C08_offset_roundtrip",
    "Verif.Layouts.C08_to_cube_injective",
    "Verif.Layouts.C08_cube_roundtrip"
   ],
   "note": "Extents below 2^31-1."
  },
  {
   "property": "C09",
   "status": "proved",
   "theorems": [
    "Verif.Layouts.C09_adjacent_exact",
    "Verif.Layouts.C09_adjacent_nodup",
    "Verif.Layouts.C09_is_adjacent",
    "Verif.Layouts.C09_cube_distance_one",
    "Verif.Layouts.C09_at_most_six",
    "Verif.Layouts.C09_interior_six",
    "Verif.Layouts.C09_opposite_sound",
    "Verif.Layouts.C09_opposite_complete"
   ],
   "note": "Extents below 2^31-1; shifted Cartesian layouts inherit these functions."
  },
  {
   "property": "C10",
   "status": "proved",
   "theorems": [
    "Verif.Clocking.C10_feedback_closed_form",
    "Verif.Clocking.C10_use_flow",
    "Verif.Clocking.C10_srs_bancs_cells",
    "Verif.Clocking.C10_clock_below_num_clocks",
    "Verif.Clocking.C10_linear_closed_form",
    "Verif.Clocking.C10_periodic",
    "Verif.Clocking.C10_lookup_domain",
    "Verif.Clocking.C10_lookup_case",
    "Verif.Clocking.C10_lookup_clocks"
   ],
   "note": "The fall-back of 2DDWAVEHEX3 to a 4-phase scheme on Cartesian layouts is stated in C10_lookup_clocks."
  },
  {
   "property": "C11",
   "status": "proved",
   "theorems": [
    "Verif.Clocking.C11_dual",
    "Verif.Clocking.C11_irreflexive",
    "Verif.Clocking.C11_antisymmetric",
    "Verif.Clocking.C11_two_clocks_symmetric",
    "Verif.Clocking.C11_zones_dual"
   ],
   "note": ""
  },
  {
   "property": "C12",
   "status": "proved",
   "theorems": [
    "Verif.Clocking.C12_cartesian_acyclic",
    "Verif.Clocking.C12_hexagonal_acyclic",
    "Verif.Clocking.C12_2ddwave3_hexagonal_cyclic",
    "Verif.Clocking.C12_feedback_schemes_cyclic"
   ],
   "note": "Also shows that the 3-phase 2DDWAVE scheme, classified as linear, has feedback loops on hexagonal layouts."
  },
  {
   "property": "C13",
   "status": "proved",
   "theorems": [
    "Verif.Clocking.C13_interior_served",
    "Verif.Clocking.C13_exactly_two",
    "Verif.Clocking.C13_cartesian_degrees",
    "Verif.Clocking.C13_2ddwavehex_degrees",
    "Verif.Clocking.C13_hexagonal_linear_exceeds"
   ],
   "note": "Cartesian layouts for all named schemes, hexagonal layouts for 2DDWAVEHEX; a theorem shows that COLUMNAR/ROW exceed their declaration on hexagonal layouts."
  },
  {
   "property": "C14",
   "status": "proved",
   "theorems": [
    "Verif.Clocking.C14_override_is_map_update",
    "Verif.Clocking.C14_replace_resets"
   ],
   "note": ""
  },
  {
   "property": "C15",
   "status": "partial",
   "theorems": [
    "Verif.Clocking.C15_clone_not_independent",
    "Verif.Clocking.C15_clone_aliases",
    "Verif.Clocking.C15_independent_after_replace_partial"
   ],
   "note": "False of the code: clone() copies the pointer to the scheme. Negation and exact aliasing behaviour proved; independence proved once either side has received a new scheme."
  },
  {
   "property": "C16",
   "status": "proved",
   "theorems": [
    "Verif.GateLevel.C16_bijection",
    "Verif.GateLevel.C16_removed_is_dead",
    "Verif.GateLevel.C16_clear",
    "Verif.GateLevel.C16_dead_stays_dead",
    "Verif.GateLevel.C16_move"
   ],
   "note": ""
  },
  {
   "property": "C17",
   "status": "proved",
   "theorems": [
    "Verif.GateLevel.C17_counts",
    "Verif.GateLevel.C17_finite"
   ],
   "note": "Counters are 32-bit numbers; equality modulo 2^32."
  },
  {
   "property": "C18",
   "status": "partial",
   "theorems": [
    "Verif.GateLevel.C18_crossings_partial",
    "Verif.GateLevel.C18_wires_only_partial",
    "Verif.GateLevel.C18_underflow"
   ],
   "note": "False of the code once a gate shares a column with another node (C18_underflow); proved for histories in which doubly occupied columns contain only wire segments."
  },
  {
   "property": "C19",
   "status": "partial",
   "theorems": [
    "Verif.GateLevel.C19_node_numbers",
    "Verif.GateLevel.C19_is_pi",
    "Verif.GateLevel.C19_num_pis",
    "Verif.GateLevel.C19_cleared_pi_counted",
    "Verif.GateLevel.C19_pos_partial",
    "Verif.GateLevel.C19_po_lost",
    "Verif.GateLevel.C19_moved_po_lost",
    "Verif.GateLevel.C19_unplaced_pos"
   ],
   "note": "False of the code for primary outputs created on or moved onto a wire segment, for unplaced primary outputs and for num_pis after clearing (witnesses proved); registration is proved exact for all other histories."
  },
  {
   "property": "C20",
   "status": "proved",
   "theorems": [
    "Verif.GateLevel.C20_fanout_is_fanin",
    "Verif.GateLevel.C20_fanin_is_fanout",
    "Verif.GateLevel.C20_unclocked",
    "Verif.GateLevel.C20_layer_dependent"
   ],
   "note": "For placed nodes inside the layout; layer independence of the clock numbers is proved for all named schemes and shown to be necessary."
  },
  {
   "property": "C21",
   "status": "proved",
   "theorems": [
    "Verif.Paths.C21_path_valid",
    "Verif.Paths.C21_path_meaning"
   ],
   "note": "For every layout, obstruction interface, cost and distance function and every priority queue that loses no entries."
  },
  {
   "property": "C22",
   "status": "proved",
   "theorems": [
    "Verif.Paths.C22_complete"
   ],
   "note": "Termination and completeness; fuel above the number of coordinates always suffices."
  },
  {
   "property": "C23",
   "status": "partial",
   "theorems": [
    "Verif.Paths.C23_optimal_partial",
    "Verif.Paths.C23_bfs_optimal_partial",
    "Verif.Paths.C23_not_optimal",
    "Verif.Paths.C23_repaired_optimal_partial",
    "Verif.Paths.C23_linear_schemes"
   ],
   "note": "False of the code: the in-place update of f breaks the heap (C23_not_optimal, default Manhattan distance and unit costs). Proved: optimal with a repaired queue, for breadth-first search, and on linearly clocked layouts."
  },
  {
   "property": "C24",
   "status": "proved",
   "theorems": [
    "Verif.Paths.C24_exact",
    "Verif.Paths.C24_same_moves",
    "Verif.Paths.C24_crossing_target_missed"
   ],
   "note": "Exact enumeration; differs from A* for targets in the crossing layer (C24_crossing_target_missed)."
  },
  {
   "property": "C25",
   "status": "proved",
   "theorems": [
    "Verif.Paths.C25_manhattan_metric",
    "Verif.Paths.C25_chebyshev_metric",
    "Verif.Paths.C25_twoddwave",
    "Verif.Paths.C25_squared_euclidean",
    "Verif.Paths.C25_manhattan_admissible",
    "Verif.Paths.C25_chebyshev_admissible_hexagonal",
    "Verif.Paths.C25_manhattan_overestimates_hexagonal",
    "Verif.Paths.C25_twoddwave_exact",
    "Verif.Paths.C25_twoddwave_reachable"
   ],
   "note": "Manhattan is admissible on Cartesian layouts; on hexagonal layouts it overestimates (proved), the Chebyshev distance does not."
  },
  {
   "property": "C26",
   "status": "proved",
   "theorems": [
    "Verif.Iter.C26_successor_one_bit",
    "Verif.Iter.C26_bijection",
    "Verif.Iter.C26_history",
    "Verif.Iter.C26_eq_iff_same_position",
    "Verif.Iter.C26_ltNum_iff",
    "Verif.Iter.C26_iterator_order_disagrees",
    "Verif.Iter.C26_iterator_order"
   ],
   "note": "A further theorem shows that < between iterators compares Gray codes and is not the order of positions."
  },
  {
   "property": "C27",
   "status": "proved",
   "theorems": [
    "Verif.Iter.C27_factorize_exact",
    "Verif.Iter.C27_sequence",
    "Verif.Iter.C27_le_not_antisymmetric"
   ],
   "note": "A further theorem shows that <= between iterators is not antisymmetric."
  },
  {
   "property": "C28",
   "status": "partial",
   "theorems": [
    "Verif.Iter.C28_binomial_exact",
    "Verif.Iter.C28_binomial_exact_small",
    "Verif.Iter.C28_binomial_overflow",
    "Verif.Iter.C28_cartesian_mem",
    "Verif.Iter.C28_cartesian_length",
    "Verif.Iter.C28_cartesian_sorted",
    "Verif.Iter.C28_cartesian_nodup",
    "Verif.Iter.C28_combinations_exact",
    "Verif.Iter.C28_combinations_sorted",
    "Verif.Iter.C28_combinations_zero"
   ],
   "note": "binomial_coefficient and cartesian_combinations in full; k-combinations for k >= 1 given the specification of the vendored enumerator; for k = 0 the code returns no combination (proved)."
  },
  {
   "property": "C29",
   "status": "partial",
   "theorems": [
    "Verif.TruthTables.C29_constructors_partial",
    "Verif.TruthTables.C29_lt_gt_msb",
    "Verif.TruthTables.C29_le_ge_wrong",
    "Verif.TruthTables.C29_no_common_order",
    "Verif.TruthTables.C29_multi_output",
    "Verif.TruthTables.C29_evaluate_output"
   ],
   "note": "False of the code for le/ge (negation proved) and for a common variable order; all other constructors proved."
  },
  {
   "property": "C30",
   "status": "partial",
   "theorems": [
    "Verif.TruthTables.C30_gate_functions",
    "Verif.TruthTables.C30_lt_is_gt",
    "Verif.TruthTables.C30_compute_tt",
    "Verif.TruthTables.C30_compute_bool",
    "Verif.TruthTables.C30_overloads_disagree",
    "Verif.TruthTables.C30_overloads_agree_partial",
    "Verif.TruthTables.C30_create_node_function"
   ],
   "note": "Proved for truth-table evaluation of all gates except the order relations, which are shown to be exchanged; the two overloads of compute are shown to disagree."
  },
  {
   "property": "C31",
   "status": "partial",
   "theorems": [
    "Verif.Networks.C31_delete_partial",
    "Verif.Networks.C31_no_virtual",
    "Verif.Networks.C31_output_lost",
    "Verif.Networks.C31_not_preserved"
   ],
   "note": "False of the code for outputs driven directly by a virtual input, which become constant 0 (C31_output_lost, C31_not_preserved); proved for all other networks."
  },
  {
   "property": "C32",
   "status": "partial",
   "theorems": [
    "Verif.Networks.C32_function_preserved",
    "Verif.Networks.C32_total",
    "Verif.Networks.C32_bounds_partial",
    "Verif.Networks.C32_accepted_partial",
    "Verif.Networks.C32_check_exact",
    "Verif.Networks.C32_double_fanin_overfull",
    "Verif.Networks.C32_large_threshold_rejected",
    "Verif.Networks.C32_degree_one_undefined"
   ],
   "note": "Function preservation and termination proved in full. The bounds on fanouts are false if a gate uses the same fanin twice (C32_double_fanin_overfull) and for thresholds above the degree (C32_large_threshold_rejected); proved otherwise."
  },
  {
   "property": "C33",
   "status": "proved",
   "theorems": [
    "Verif.Networks.C33_balancing",
    "Verif.Networks.C33_accepted",
    "Verif.Networks.C33_check_exact",
    "Verif.Networks.C33_no_outputs_undefined",
    "Verif.Networks.C33_dangling_rejected"
   ],
   "note": "For networks with at least one output; without outputs the code is undefined (C33_no_outputs_undefined), and the check rejects networks with dangling gates (C33_dangling_rejected)."
  },
  {
   "property": "C34",
   "status": "proved",
   "theorems": [
    "Verif.Networks.C34_inverse_levels",
    "Verif.Networks.C34_no_dangling",
    "Verif.Networks.C34_dangling"
   ],
   "note": "For every node whose reachable sinks are all outputs; wrong for nodes with dangling fanouts (C34_dangling)."
  },
  {
   "property": "C35",
   "status": "proved",
   "theorems": [
    "Verif.Sidb.C35_roundtrip",
    "Verif.Sidb.C35_surjective",
    "Verif.Sidb.C35_injective",
    "Verif.Sidb.C35_increment",
    "Verif.Sidb.C35_weight"
   ],
   "note": "With and without a dependent SiDB; charge indices are unbounded (no 64-bit wrap-around)."
  },
  {
   "property": "C36",
   "status": "proved",
   "theorems": [
    "Verif.Sidb.C36_exact",
    "Verif.Sidb.C36_empty",
    "Verif.Sidb.C36_ordered",
    "Verif.Sidb.C36_base_two_suffices"
   ],
   "note": "Exact arithmetic; bases two and three; each valid distribution exactly once and in lexicographic order."
  },
  {
   "property": "C37",
   "status": "proved",
   "theorems": [
    "Verif.Sidb.C37_incremental",
    "Verif.Sidb.C37_history_charges",
    "Verif.Sidb.C37_gray",
    "Verif.Sidb.C37_gray_words"
   ],
   "note": "Arbitrary sequences of charge changes with any update mode, and the Gray-code walk."
  },
  {
   "property": "C38",
   "status": "proved",
   "theorems": [
    "Verif.Sidb.C38_forced_negative",
    "Verif.Sidb.C38_no_positive",
    "Verif.Sidb.C38_three_state",
    "Verif.Sidb.C38_all_negative"
   ],
   "note": "For symmetric non-negative potentials."
  },
  {
   "property": "C39",
   "status": "proved",
   "theorems": [
    "Verif.Sidb.C39_quickexact",
    "Verif.Sidb.C39_agrees",
    "Verif.Sidb.C39_agrees_three",
    "Verif.Sidb.C39_single",
    "Verif.Sidb.C39_empty",
    "Verif.Sidb.C39_margin_missed",
    "Verif.Sidb.C39_local_unsound",
    "Verif.Sidb.C39_single_stale"
   ],
   "note": "For layouts whose SiDBs see the same external potential and off the error margin. Both are needed: C39_margin_missed, C39_local_unsound; a single SiDB without automatic base detection is reported with a stale validity (C39_single_stale)."
  },
  {
   "property": "C40",
   "status": "partial",
   "theorems": [
    "Verif.Sidb.C40_separated",
    "Verif.Sidb.C40_degeneracy",
    "Verif.Sidb.C40_covered",
    "Verif.Sidb.C40_duplicates",
    "Verif.Sidb.C40_counted_once_partial",
    "Verif.Sidb.C40_counted_twice",
    "Verif.Sidb.C40_degeneracy_query"
   ],
   "note": "False of the code in part: an energy within the margin of two listed energies is counted twice (C40_counted_twice) and degeneracy() returns a position (C40_degeneracy_query). Proved: separation, degeneracies, coverage, independence of duplicates; counted once if energies are clustered."
  },
  {
   "property": "C41",
   "status": "proved",
   "theorems": [
    "Verif.Cells.C41_type",
    "Verif.Cells.C41_pi_po",
    "Verif.Cells.C41_counts",
    "Verif.Cells.C41_foreach",
    "Verif.Cells.C41_mode",
    "Verif.Cells.C41_name",
    "Verif.Cells.C41_technologies",
    "Verif.Cells.C41_designated",
    "Verif.Cells.C41_name_survives_removal"
   ],
   "note": "Names survive the removal of their cell (C41_name_survives_removal)."
  },
  {
   "property": "C42",
   "status": "partial",
   "theorems": [
    "Verif.Cells.C42_coordinate_types",
    "Verif.Cells.C42_shift_partial",
    "Verif.Cells.C42_cells_partial",
    "Verif.Cells.C42_count",
    "Verif.Cells.C42_loses_siqad_cells",
    "Verif.Cells.C42_loses_crossings"
   ],
   "note": "False of the code for SiQAD coordinates and for cells above the ground layer, whose z is dropped (C42_loses_siqad_cells, C42_loses_crossings); proved for all other layouts, and the cell count in general."
  },
  {
   "property": "C43",
   "status": "proved",
   "theorems": [
    "Verif.Cells.C43_coordinates",
    "Verif.Cells.C43_connections",
    "Verif.Cells.C43_set_laws"
   ],
   "note": ""
  },
  {
   "property": "C44",
   "status": "proved",
   "theorems": [
    "Verif.Optimization.C44_best",
    "Verif.Optimization.C44_acceptance",
    "Verif.Optimization.C44_evaluations",
    "Verif.Optimization.C44_terminates",
    "Verif.Optimization.C44_linear_terminates",
    "Verif.Optimization.C44_geometric_terminates",
    "Verif.Optimization.C44_geometric_zero_diverges",
    "Verif.Optimization.C44_constant_diverges",
    "Verif.Optimization.C44_multi",
    "Verif.Optimization.C44_multi_no_instances"
   ],
   "note": "For every cost function, neighbourhood, schedule and stream of random draws; termination is proved for schedules that decrease by a fixed amount or factor and shown to fail for constant schedules and for a geometric schedule with final temperature 0."
  },
  {
   "property": "C45",
   "status": "proved",
   "theorems": [
    "Verif.Equiv.C45_no_iff",
    "Verif.Equiv.C45_equivalence_sound",
    "Verif.Equiv.C45_strong_iff_throughput_one",
    "Verif.Equiv.C45_counter_example",
    "Verif.Equiv.C45_stats",
    "Verif.Equiv.C45_layout_against_network",
    "Verif.Equiv.C45_strong_with_throughput_two",
    "Verif.Equiv.C45_resource_limit_reported_as_no"
   ],
   "note": "The miter and the SAT solver are external: the miter is given by its function, the solver is any sound one. The documentation promises STRONG only for throughput 1/1, the code compares the throughputs (C45_strong_with_throughput_two); a solver that gives up is reported as NO (C45_resource_limit_reported_as_no)."
  },
  {
   "property": "C46",
   "status": "proved",
   "theorems": [
    "Verif.CritPath.C46_length",
    "Verif.CritPath.C46_throughput",
    "Verif.CritPath.C46_layout_length",
    "Verif.CritPath.C46_layout_throughput",
    "Verif.CritPath.C46_linear_acyclic"
   ],
   "note": "For layouts without cycles in the data flow; the layout versions also assume primary inputs without fanins, and the throughput version wires with at most one fanin."
  },
  {
   "property": "C47",
   "status": "partial",
   "theorems": [
    "Verif.DetClock.C47_sound",
    "Verif.DetClock.C47_failure_unchanged",
    "Verif.DetClock.C47_complete_partial",
    "Verif.DetClock.C47_clocked_layout_rejected",
    "Verif.DetClock.C47_wire_above_empty_tile_rejected",
    "Verif.DetClock.C47_gate_in_crossing_layer"
   ],
   "note": "Soundness for layouts whose crossing layers hold only wires above other nodes; completeness for unclocked layouts. False of the code for layouts that are already clocked (C47_clocked_layout_rejected), wires above empty tiles (C47_wire_above_empty_tile_rejected) and gates in crossing layers (C47_gate_in_crossing_layer)."
  },
  {
   "property": "C48",
   "status": "proved",
   "theorems": [
    "Verif.Iter.C48_closed_form",
    "Verif.Iter.C48_history_independent",
    "Verif.Iter.C48_collect"
   ],
   "note": ""
  },
  {
   "property": "C49",
   "status": "partial",
   "theorems": [
    "Verif.GateLevel.C49_enumeration_partial",
    "Verif.GateLevel.C49_wires_and_gates",
    "Verif.GateLevel.C49_moved_child_skipped",
    "Verif.GateLevel.C49_replaced_child_skipped"
   ],
   "note": "False of the code: reference counts underflow into the dead flag (C49_moved_child_skipped); proved for histories without move_node."
  },
  {
   "property": "C50",
   "status": "proved",
   "theorems": [
    "Verif.Networks.C50_convert"
   ],
   "note": "n-ary gates are created as one node in the model."
  },
  {
   "property": "C51",
   "status": "proved",
   "theorems": [
    "Verif.Networks.C51_defined",
    "Verif.Networks.C51_miter",
    "Verif.Networks.C51_equivalence"
   ],
   "note": "For networks without virtual inputs; mockturtle's cleanup_dangling is taken by its specification."
  },
  {
   "property": "C52",
   "status": "proved",
   "theorems": [
    "Verif.Sidb.C52_quickexact",
    "Verif.Sidb.C52_agrees",
    "Verif.Sidb.C52_single",
    "Verif.Sidb.C52_base_two_missed"
   ],
   "note": "For layouts whose SiDBs see the same external potential, off the error margin, and base three in the parameters (the default); with base two and automatic detection a positive first SiDB is missed (C52_base_two_missed)."
  },
  {
   "property": "C53",
   "status": "proved",
   "theorems": [
    "Verif.Sidb.C53_sound",
    "Verif.Sidb.C53_subset",
    "Verif.Sidb.C53_all_negative"
   ],
   "note": "No external potentials and no defects (QuickSim's parameters have neither); timeouts are not modelled."
  },
  {
   "property": "C54",
   "status": "partial",
   "theorems": [
    "Verif.Sidb.C54_energy",
    "Verif.Sidb.C54_hop_energy",
    "Verif.Sidb.C54_stability_partial",
    "Verif.Sidb.C54_minimum_stable",
    "Verif.Sidb.C54_local_rejected"
   ],
   "note": "Exact characterisation if all SiDBs see the same external potential; false otherwise (C54_local_rejected): the check halves the internal but not the external potentials."
  },
  {
   "property": "C55",
   "status": "partial",
   "theorems": [
    "Verif.Cells.C55_to_siqad",
    "Verif.Cells.C55_to_cube",
    "Verif.Cells.C55_roundtrip",
    "Verif.Cells.C55_roundtrip_siqad",
    "Verif.Cells.C55_offset_loses_cells",
    "Verif.Cells.C55_to_offset_partial"
   ],
   "note": "Proved for SiQAD and cube targets and both round trips; false of the code for offset targets with negative coordinates (C55_offset_loses_cells), proved there otherwise."
  },
  {
   "property": "C56",
   "status": "partial",
   "theorems": [
    "Verif.Drv.C56_no_drvs_iff_clean",
    "Verif.Drv.C56_fanins_complete",
    "Verif.Drv.C56_critical_path",
    "Verif.Drv.C56_crossed_gate_missed",
    "Verif.Drv.C56_gate_in_crossing_layer_missed",
    "Verif.Drv.C56_empty_layout_passes"
   ],
   "note": "Proved for non-empty layouts with all nodes in bounds, wires being those not marked dead. False of the code for empty layouts (C56_empty_layout_passes), wires marked dead (C56_crossed_gate_missed) and gates in the crossing layer (C56_gate_in_crossing_layer_missed)."
  },
  {
   "property": "C57",
   "status": "partial",
   "theorems": [
    "Verif.Library.C57_rotate_90",
    "Verif.Library.C57_rotate_180",
    "Verif.Library.C57_rotate_270",
    "Verif.Library.C57_rotations_compose",
    "Verif.Library.C57_rotation_keeps_cells",
    "Verif.Library.C57_non_square_rotation_undefined",
    "Verif.Library.C57_merge",
    "Verif.Library.C57_non_square_merge_undefined",
    "Verif.Library.C57_mark"
   ],
   "note": "Proved for square gates; rotate_180 and mark_cell for all sizes. False of the code for gates that are not square, such as the 60 by 46 cells of the SiDB libraries: rotation by 90 or 270 degrees and merging read out of bounds (C57_non_square_rotation_undefined, C57_non_square_merge_undefined)."
  },
  {
   "property": "C58",
   "status": "partial",
   "theorems": [
    "Verif.Library.Bestagon.C58_bestagon_contact",
    "Verif.Library.Bestagon.C58_bestagon_crossing",
    "Verif.Library.Bestagon.C58_bestagon_no_other_contact",
    "Verif.Library.Bestagon.C58_bestagon_region",
    "Verif.Library.Bestagon.C58_bestagon_implementation",
    "Verif.Library.Bestagon.C58_bestagon_catalogue",
    "Verif.Library.Bestagon.C58_bestagon_gate_ports",
    "Verif.Library.Bestagon.C58_bestagon_mirrored",
    "Verif.Library.Bestagon.C58_bestagon_wire_continues",
    "Verif.Library.Bestagon.C58_bestagon_wire_above_fanout_lost",
    "Verif.Library.QcaOne.C58_qca_contact",
    "Verif.Library.QcaOne.C58_qca_no_other_contact",
    "Verif.Library.QcaOne.C58_qca_linked",
    "Verif.Library.QcaOne.C58_qca_inverter",
    "Verif.Library.QcaOne.C58_qca_and",
    "Verif.Library.QcaOne.C58_qca_or",
    "Verif.Library.QcaOne.C58_qca_io",
    "Verif.Library.QcaOne.C58_qca_constants",
    "Verif.Library.QcaOne.C58_qca_defined",
    "Verif.Library.Sim7.C58_sim7_contact",
    "Verif.Library.Sim7.C58_sim7_flow",
    "Verif.Library.Sim7.C58_sim7_inverter",
    "Verif.Library.Sim7.C58_sim7_constants",
    "Verif.Library.Sim7.C58_sim7_io"
   ],
   "note": "Proved for all tiles of the three libraries. False of the code in one case: a wire above a fan-out is lost in the Bestagon library (C58_bestagon_wire_above_fanout_lost). Not modelled: the physics of the cells, so that a gate computes its function is not proved, only that its structure is the one the function needs; the ToPoliNano library."
  },
  {
   "property": "C59",
   "status": "partial",
   "theorems": [
    "Verif.Library.C59_position_injective",
    "Verif.Library.C59_position_injective_hex",
    "Verif.Library.C59_hex_overlap",
    "Verif.Library.C59_in_bounds",
    "Verif.Library.C59_bounds_tight",
    "Verif.Library.C59_cells",
    "Verif.Library.C59_cells_hex",
    "Verif.Library.Bestagon.C59_bestagon",
    "Verif.Library.QcaOne.C59_vias",
    "Verif.Library.QcaOne.C59_qca_connected",
    "Verif.Library.QcaOne.C59_qca_layer_change",
    "Verif.Library.QcaOne.C59_qca_layer_swap",
    "Verif.Library.QcaOne.C59_qca_crossing_io_lost"
   ],
   "note": "Positions, bounds and cells are proved for all layouts; hexagonal layouts under the hypothesis that the gates use at most three quarters of the rows, which is proved of the Bestagon library. The connection by vias needs that the crossing-layer cell next to the via is empty: otherwise it is false (C59_qca_layer_swap). Input and output cells in the crossing layer are turned into vias and overwrite what is below (C59_qca_crossing_io_lost). Not modelled: truncation to 31 bits, the copied clocking scheme, defects and parameterized libraries. Nodes skipped by foreach_node (C49) are not placed."
  },
  {
   "property": "C60",
   "status": "partial",
   "theorems": [
    "Verif.PhysicalDesign.Ortho.C60_orthogonal_partial",
    "Verif.PhysicalDesign.Ortho.C60_function_partial",
    "Verif.PhysicalDesign.Ortho.C60_shared_output_wrong",
    "Verif.PhysicalDesign.Ortho.C60_asymmetric_gate_wrong",
    "Verif.PhysicalDesign.Ortho.C60_double_fanin_wrong"
   ],
   "note": "Proved for networks in which the driver of an output has no other fanout, the fanins of a gate are distinct and two-input functions are symmetric; false of the code otherwise (three witnesses). Constant fanins and outputs, conditional colouring and names are not modelled."
  },
  {
   "property": "C61",
   "status": "partial",
   "theorems": [
    "Verif.PhysicalDesign.Hexa.C61_hexagonalization_partial",
    "Verif.PhysicalDesign.Hexa.C61_tight_partial",
    "Verif.PhysicalDesign.Hexa.C61_false_crossing_only",
    "Verif.PhysicalDesign.Hexa.C61_false_output_read",
    "Verif.PhysicalDesign.Hexa.C61_orthogonal_hexable",
    "Verif.PhysicalDesign.Hexa.C61_flow_partial"
   ],
   "note": "Default parameters: the modes that extend inputs and outputs to the borders (with A* routing) are not modelled. Crossing-layer tiles above empty ground tiles and outputs that are read are excluded because the claim is false of them (two witnesses)."
  },
  {
   "property": "C62",
   "status": "proved",
   "theorems": [
    "Verif.OpDomain.C62_values",
    "Verif.OpDomain.C62_parameter_point",
    "Verif.OpDomain.C62_add_value",
    "Verif.OpDomain.C62_keys",
    "Verif.OpDomain.C62_dimension_step_point",
    "Verif.OpDomain.C62_false_step_point",
    "Verif.OpDomain.C62_lookup",
    "Verif.OpDomain.C62_unique",
    "Verif.OpDomain.C62_stats",
    "Verif.OpDomain.C62_grid_search",
    "Verif.OpDomain.C62_random_sampling",
    "Verif.OpDomain.C62_flood_fill",
    "Verif.OpDomain.C62_flood_fill_deterministic",
    "Verif.OpDomain.C62_simulation_terminates",
    "Verif.OpDomain.C62_flood_fill_terminates",
    "Verif.OpDomain.C62_false_fine_steps"
   ],
   "note": "The status of a parameter point (`is_operational`) is an arbitrary deterministic function; parameter values are rationals instead of doubles; steps finer than the key resolution of 1e-6 are excluded because the claim is false of them (witness). The critical-temperature variant is not modelled."
  },
  {
   "property": "C63",
   "status": "partial",
   "theorems": [
    "Verif.OpDomain.C63_sound",
    "Verif.OpDomain.C63_surface",
    "Verif.OpDomain.C63_curve_ends",
    "Verif.OpDomain.C63_curve_hangs",
    "Verif.OpDomain.C63_left_border",
    "Verif.OpDomain.C63_false_contours",
    "Verif.OpDomain.C63_false_isolated"
   ],
   "note": "Soundness in all dimensions, full correctness in three or more dimensions for regions without holes, and the exact termination condition in two dimensions are proved. In two dimensions the documented guarantee (contours of all sampled regions are found) is false of the code (witness, and a general theorem about the left border); for regions away from the left border it is not proved."
  },
  {
   "property": "C64",
   "status": "proved",
   "theorems": [
    "Verif.SidbAnalysis.C64_minimum_energy",
    "Verif.SidbAnalysis.C64_groundstates",
    "Verif.SidbAnalysis.C64_is_ground_state",
    "Verif.SidbAnalysis.C64_false_abort",
    "Verif.SidbAnalysis.C64_equivalence"
   ],
   "note": "Energies are rationals; a distribution is its charge index, its energy (a function of the index) and its charge states; that indices identify distributions is C35. In debug builds `is_ground_state` can abort, see the disagreement."
  },
  {
   "property": "C65",
   "status": "partial",
   "theorems": [
    "Verif.SidbAnalysis.C65_state_types",
    "Verif.SidbAnalysis.C65_false_duplicates",
    "Verif.SidbAnalysis.C65_kinks_partial",
    "Verif.SidbAnalysis.C65_false_kinks_transparent",
    "Verif.SidbAnalysis.C65_probability",
    "Verif.SidbAnalysis.C65_false_kinks_half",
    "Verif.SidbAnalysis.C65_false_kinks",
    "Verif.SidbAnalysis.C65_gate",
    "Verif.SidbAnalysis.C65_monotone",
    "Verif.SidbAnalysis.C65_non_gate",
    "Verif.SidbAnalysis.C65_no_result",
    "Verif.SidbAnalysis.C65_false_close_states"
   ],
   "note": "Exact real arithmetic instead of doubles. The simulation itself and `verify_logic_match` are inputs. Missing: kinks rejected in general (false of the code); proved only if every state is operational."
  },
  {
   "property": "C66",
   "status": "partial",
   "theorems": [
    "Verif.SidbAnalysis.C66_accuracy",
    "Verif.SidbAnalysis.C66_time",
    "Verif.SidbAnalysis.C66_no_runs",
    "Verif.SidbAnalysis.C66_false_failed_runs"
   ],
   "note": "Exact real arithmetic. Missing: runs without a result, which the code ignores (witness)."
  },
  {
   "property": "C67",
   "status": "partial",
   "theorems": [
    "Verif.Paths.C67_paths",
    "Verif.Paths.C67_obstructions_partial",
    "Verif.Paths.C67_terminates",
    "Verif.Paths.C67_k_shortest_partial",
    "Verif.Paths.C67_false_k_shortest",
    "Verif.Paths.C67_false_order",
    "Verif.Paths.C67_false_obstructions",
    "Verif.Paths.C67_false_zero"
   ],
   "note": "Target in the ground layer; crossable wires occupy their tile. Missing: completeness and order by length outside of linear clocking schemes, where they fail (witnesses)."
  },
  {
   "property": "C68",
   "status": "partial",
   "theorems": [
    "Verif.SidbAnalysis.Bdl.C68_pairs",
    "Verif.SidbAnalysis.Bdl.C68_unique",
    "Verif.SidbAnalysis.Bdl.C68_all_pairs",
    "Verif.SidbAnalysis.Bdl.C68_wires",
    "Verif.SidbAnalysis.Bdl.C68_complete_partial",
    "Verif.SidbAnalysis.Bdl.C68_selection",
    "Verif.SidbAnalysis.Bdl.C68_false_wires",
    "Verif.SidbAnalysis.Bdl.C68_false_all_types"
   ],
   "note": "Distances are values of any symmetric function into a linear order. Wires are the connected groups if no pair follows more than two others and the topmost pair of each group is one of its ends; otherwise it fails (witness). Directions (ports) of wires are not modelled."
  },
  {
   "property": "C69",
   "status": "partial",
   "theorems": [
    "Verif.SidbAnalysis.Operational.C69_simulation",
    "Verif.SidbAnalysis.Operational.C69_reason",
    "Verif.SidbAnalysis.Operational.C69_filter_partial",
    "Verif.SidbAnalysis.Operational.C69_patterns_partial",
    "Verif.SidbAnalysis.Operational.C69_filter_conditions",
    "Verif.SidbAnalysis.Operational.C69_false_filter",
    "Verif.SidbAnalysis.Operational.C69_false_patterns",
    "Verif.SidbAnalysis.Operational.C69_false_output_order"
   ],
   "note": "The filter agrees with the simulation under the stated conditions, which are derived for exhaustively simulated layouts (`C69_filter_conditions`); without them it is wrong (witness). Counters and statistics are not modelled."
  },
  {
   "property": "C70",
   "status": "partial",
   "theorems": [
    "Verif.Io.C70_designators",
    "Verif.Io.C70_read_write",
    "Verif.Io.C70_roundtrip",
    "Verif.Io.C70_vias",
    "Verif.Io.C70_false_constant",
    "Verif.Io.C70_false_name",
    "Verif.Io.C70_false_mode_and_clock",
    "Verif.Io.C70_false_clock"
   ],
   "note": "Names, the title and numbers must be expressible: no line breaks and clock numbers of one digit. What is lost beyond is described exactly by `ReadBack`, with witnesses. Coordinates are not truncated to their bit widths; streams do not fail."
  },
  {
   "property": "C71",
   "status": "partial",
   "theorems": [
    "Verif.Fgl.C71_clocking_regular",
    "Verif.Fgl.C71_clocking_irregular",
    "Verif.Fgl.C71_order",
    "Verif.Fgl.C71_clocking_three",
    "Verif.Fgl.C71_roundtrip",
    "Verif.Fgl.C71_other_topology",
    "Verif.Fgl.C71_read",
    "Verif.Fgl.C71_outputs",
    "Verif.Fgl.C71_function",
    "Verif.Fgl.C71_false_output_order",
    "Verif.Fgl.C71_false_crossing_clock",
    "Verif.Fgl.C71_false_open3",
    "Verif.Fgl.C71_false_dangling",
    "Verif.Fgl.C71_false_cleared_input",
    "Verif.Fgl.C71_false_unclocked",
    "Verif.Fgl.C71_false_unreadable"
   ],
   "note": "Proved for layouts whose inputs and outputs are placed and named and whose needed gates read as many tiles as their functions have variables (`Writable`), with data flowing under the clocking that is read back (`SameFlow`), which is proved for named schemes, for three-phase linear schemes and for ground-layer overrides. What is lost beyond has witnesses. The order of the gates is any that `topo_view` may produce (`TopoView`). XML syntax is not modelled."
  },
  {
   "property": "C72",
   "status": "partial",
   "theorems": [
    "Verif.Views.C72_levels",
    "Verif.Views.C72_critical_partial",
    "Verif.Views.C72_false_critical",
    "Verif.Views.C72_false_level"
   ],
   "note": "Proved for levels and the depth with all settings. Critical paths are proved if no complemented output is counted; otherwise there is a witness that none is found. Nodes that no output needs have no level: asking for it throws (witness)."
  },
  {
   "property": "C73",
   "status": "partial",
   "theorems": [
    "Verif.Views.C73_order",
    "Verif.Views.C73_all",
    "Verif.Views.C73_gates",
    "Verif.Views.C73_false_twice",
    "Verif.Views.C73_false_reachable"
   ],
   "note": "Proved for networks in which no gate reads a node twice: then the order has every node. In general it has exactly the nodes whose cones have no such gate (`PlainCone`); witnesses for what is missing and what is there although no output needs it."
  },
  {
   "property": "C74",
   "status": "partial",
   "theorems": [
    "Verif.Views.C74_construct",
    "Verif.Views.C74_run",
    "Verif.Views.C74_set",
    "Verif.Views.C74_set_result",
    "Verif.Views.C74_setAll_result",
    "Verif.Views.C74_swap",
    "Verif.Views.C74_sort",
    "Verif.Views.C74_check_iff",
    "Verif.Views.C74_check",
    "Verif.Views.C74_nodes",
    "Verif.Views.C74_gates",
    "Verif.Views.C74_given",
    "Verif.Views.C74_pis",
    "Verif.Views.C74_rearrange",
    "Verif.Views.C74_false_unused",
    "Verif.Views.C74_false_stop",
    "Verif.Views.C74_false_given",
    "Verif.Views.C74_false_width"
   ],
   "note": "Construction succeeds exactly if an output depends on every node (`C74_construct`). Histories are those whose assertions hold, with swaps of nodes of the view. What fails beyond has witnesses. Adding nodes through the view is not modelled."
  },
  {
   "property": "C75",
   "status": "partial",
   "theorems": [
    "Verif.DistMap.C75_map_partial",
    "Verif.DistMap.C75_false_layers",
    "Verif.DistMap.C75_false_beyond",
    "Verif.DistMap.C75_sparse",
    "Verif.DistMap.C75_cache_exact",
    "Verif.DistMap.C75_cache_partial",
    "Verif.DistMap.C75_false_stale"
   ],
   "note": "Sparse maps are proved for all layouts. Maps are proved for layouts with one layer; with more layers, every map is written out of bounds (`C75_false_layers` for all of them). Caches are proved to answer with the distance at the first query, hence correctly while the layout does not change."
  },
  {
   "property": "C76",
   "status": "partial",
   "theorems": [
    "Verif.PhysicalDesign.Exact.C76_po_signals",
    "Verif.PhysicalDesign.Exact.C76_function_partial"
   ],
   "note": "Proved for all named regular clocking schemes except 2DDWAVE3 on hexagonal layouts (no constraints against cycles are generated there although its zones form cycles). Missing: irregular clocking, constant fanins and outputs. Not modelled: border pins, straight inverters, synchronization elements, technology-specific constraints, black lists, hierarchical inputs and outputs. The incremental solver is treated like a fresh one. The statement is about the network after fanout substitution, which must have no dangling gates."
  },
  {
   "property": "C77",
   "status": "partial",
   "theorems": [
    "Verif.PhysicalDesign.Exact.C77_minimal_partial",
    "Verif.PhysicalDesign.Exact.C77_async_partial",
    "Verif.PhysicalDesign.Exact.C77_async_first",
    "Verif.PhysicalDesign.Exact.C77_async_terminates",
    "Verif.PhysicalDesign.Exact.C77_false_async"
   ],
   "note": "Proved for one thread. For many threads proved for every schedule up to the first aspect ratio, which is never examined (`C77_async_first`, `C77_false_async`), with termination of all schedules. Missing: 2DDWAVE3 on hexagonal layouts, irregular clocking, border pins, timeouts. The solver is any function that finds an assignment where there is one; solvers that are extended from smaller aspect ratios are treated like fresh ones."
  },
  {
   "property": "C78",
   "status": "partial",
   "theorems": [
    "Verif.SidbDesign.C78_coordinate_cube",
    "Verif.SidbDesign.C78_coordinate_siqad",
    "Verif.SidbDesign.C78_other_corners",
    "Verif.SidbDesign.C78_any",
    "Verif.SidbDesign.C78_skeleton",
    "Verif.SidbDesign.C78_forbidden_partial",
    "Verif.SidbDesign.C78_blank",
    "Verif.SidbDesign.C78_nothing",
    "Verif.SidbDesign.C78_possible",
    "Verif.SidbDesign.C78_unique",
    "Verif.SidbDesign.C78_multiple_terminates",
    "Verif.SidbDesign.C78_false_inputs",
    "Verif.SidbDesign.C78_false_forbidden",
    "Verif.SidbDesign.C78_false_terminates"
   ],
   "note": "Proved for all sequences of draws except for what is false: see `C78_false_inputs`, `C78_false_forbidden` (proved if positive charges cannot occur in the skeleton itself) and `C78_false_terminates` (proved unless positive charges are required). Which positions a defect affects is an input."
  },
  {
   "property": "C79",
   "status": "partial",
   "theorems": [
    "Verif.SidbDesign.C79_sound",
    "Verif.SidbDesign.C79_sound_quickcell",
    "Verif.SidbDesign.C79_exhaustive_partial",
    "Verif.SidbDesign.C79_first_partial",
    "Verif.SidbDesign.C79_terminates",
    "Verif.SidbDesign.C79_returns",
    "Verif.SidbDesign.C79_no_threads",
    "Verif.SidbDesign.C79_quickcell_partial",
    "Verif.SidbDesign.C79_pruning_only_partial",
    "Verif.SidbDesign.C79_pruning_partial",
    "Verif.SidbDesign.C79_random_partial",
    "Verif.SidbDesign.C79_random_forever",
    "Verif.SidbDesign.C79_false_fewer",
    "Verif.SidbDesign.C79_false_zero",
    "Verif.SidbDesign.C79_random_nothing",
    "Verif.SidbDesign.C79_false_kinks"
   ],
   "note": "Proved for all schedules; completeness for canvases without dots (exhaustive: and without defects) and at least one dot; QuickCell if pruning is sound, which is proved if kinks are rejected and under the conditions of C69 on the filter. Being operational is a parameter, linked to C69 by `C79_pruning_partial`. False parts: `C79_false_fewer`, `C79_false_zero`, `C79_false_kinks`, `C79_random_forever`, `C79_no_threads`."
  },
  {
   "property": "C80",
   "status": "partial",
   "theorems": [
    "Verif.Graphs.C80_minimal",
    "Verif.Graphs.C80_chromatic",
    "Verif.Graphs.C80_tactics_agree",
    "Verif.Graphs.C80_transversal",
    "Verif.Graphs.C80_falls_back",
    "Verif.Graphs.C80_false_descending",
    "Verif.Graphs.C80_lexicographic_vacuous",
    "Verif.Graphs.C80_heuristic",
    "Verif.Graphs.C80_verification",
    "Verif.Graphs.C80_false_wrong_clique"
   ],
   "note": "Proved for every graph with at least one vertex, every tactic and every correct solver; the heuristics and solvers are parameters. False part: `C80_false_descending`. Cliques that are not cliques make the result non-minimal (`C80_false_wrong_clique`); the lexicographic symmetry breaking excludes nothing (`C80_lexicographic_vacuous`)."
  },
  {
   "property": "C81",
   "status": "partial",
   "theorems": [
    "Verif.PhysicalDesign.ColorRouting.C81_sound",
    "Verif.PhysicalDesign.ColorRouting.C81_iff",
    "Verif.PhysicalDesign.ColorRouting.C81_partial_routing",
    "Verif.PhysicalDesign.ColorRouting.C81_crossings",
    "Verif.PhysicalDesign.ColorRouting.C81_false_parallel",
    "Verif.PhysicalDesign.ColorRouting.C81_false_flat"
   ],
   "note": "Proved for routing without crossings. With crossings the choice of the paths is proved (`C81_crossings`), not the effect on the layout. False parts: `C81_false_flat`, `C81_false_parallel`."
  },
  {
   "property": "C82",
   "status": "partial",
   "theorems": [
    "Verif.Defects.C82_get_partial",
    "Verif.Defects.C82_last_assignment",
    "Verif.Defects.C82_move",
    "Verif.Defects.C82_visits",
    "Verif.Defects.C82_charged",
    "Verif.Defects.C82_counters",
    "Verif.Defects.C82_false_occupied",
    "Verif.Defects.C82_false_self",
    "Verif.Defects.C82_false_partition"
   ],
   "note": "Proved for all histories whose moves go to intact positions; the exact effect of any other move is `C82_move`. False parts: `C82_false_occupied`, `C82_false_self`, `C82_false_partition`."
  },
  {
   "property": "C83",
   "status": "partial",
   "theorems": [
    "Verif.Defects.C83_affected",
    "Verif.Defects.C83_all_partial",
    "Verif.Defects.C83_entries_partial",
    "Verif.Defects.C83_blacklist_partial",
    "Verif.Defects.C83_safe_partial",
    "Verif.Defects.C83_false_narrow",
    "Verif.Defects.C83_false_wrap"
   ],
   "note": "`affected_sidbs` is proved outright; the others for distances that fit 16 bits. False parts: `C83_false_narrow`, and `C83_false_wrap` for surfaces of more than 2^30 columns."
  },
  {
   "property": "C84",
   "status": "partial",
   "theorems": [
    "Verif.Defects.C84_read",
    "Verif.Defects.C84_missing",
    "Verif.Defects.C84_unsupported",
    "Verif.Defects.C84_false_ragged",
    "Verif.Defects.C84_false_commas"
   ],
   "note": "Proved for all texts of matrices with non-decreasing row lengths, and for the two exceptions. False parts: `C84_false_ragged`, `C84_false_commas`."
  },
  {
   "property": "C85",
   "status": "partial",
   "theorems": [
    "Verif.BoundingBox.C85_cells",
    "Verif.BoundingBox.C85_gates",
    "Verif.BoundingBox.C85_siqad",
    "Verif.BoundingBox.C85_siqad_defects_partial",
    "Verif.BoundingBox.C85_siqad_only_defects",
    "Verif.BoundingBox.C85_siqad_empty",
    "Verif.BoundingBox.C85_false_siqad_defects",
    "Verif.BoundingBox.C85_false_outside"
   ],
   "note": "Proved for cell-level layouts with offset and cube coordinates, for gate-level layouts with their gates within the aspect ratio, and for SiQAD layouts with cells only or defects only. With both, the box may reach one row too far (`C85_siqad_defects_partial`, `C85_false_siqad_defects`). `C85_false_outside`: gates outside of the aspect ratio."
  },
  {
   "property": "C86",
   "status": "partial",
   "theorems": [
    "Verif.Mincross.C86_mincross",
    "Verif.Mincross.C86_false_local",
    "Verif.Mincross.C86_false_reduction"
   ],
   "note": "Everything but local optimality is proved (`C86_mincross`). False parts: `C86_false_local`, `C86_false_reduction`. 32-bit and 64-bit counters are unbounded numbers in the model; medians are exact fractions, but the theorem covers every outcome of the sort."
  },
  {
   "property": "C87",
   "status": "partial",
   "theorems": [
    "Verif.Sqd.C87_siqad",
    "Verif.Sqd.C87_offset",
    "Verif.Sqd.C87_cube_partial",
    "Verif.Sqd.C87_no_defects",
    "Verif.Sqd.C87_orientation",
    "Verif.Sqd.C87_qca_apart",
    "Verif.Sqd.C87_qca_dots",
    "Verif.Sqd.C87_qca_layout",
    "Verif.Sqd.C87_false_arsenic",
    "Verif.Sqd.C87_false_neutral",
    "Verif.Sqd.C87_false_negative",
    "Verif.Sqd.C87_false_layer",
    "Verif.Sqd.C87_false_qca_layer"
   ],
   "note": "Proved for SiQAD coordinates, for offset coordinates in the ground layer and for non-negative cube coordinates, with expressible defects. False parts: `C87_false_arsenic`, `C87_false_neutral`, `C87_false_negative`, `C87_false_layer`, `C87_false_qca_layer`. The XML parser and the printing of floating-point numbers are external."
  },
  {
   "property": "C88",
   "status": "partial",
   "theorems": [
    "Verif.Sqd.C88_accepts",
    "Verif.Sqd.C88_offset_position",
    "Verif.Sqd.C88_siqad_position",
    "Verif.Sqd.C88_content",
    "Verif.Sqd.C88_aspect",
    "Verif.Sqd.C88_false_index",
    "Verif.Sqd.C88_false_atomic",
    "Verif.Sqd.C88_false_target"
   ],
   "note": "`C88_accepts`, `C88_content`, `C88_aspect` and the meaning of positions are proved. False parts: `C88_false_index`, `C88_false_atomic`, `C88_false_target`."
  },
  {
   "property": "C89",
   "status": "partial",
   "theorems": [
    "Verif.PhysicalDesign.Gold.C89_design_partial",
    "Verif.PhysicalDesign.Gold.C89_function_partial",
    "Verif.PhysicalDesign.Gold.C89_defined",
    "Verif.PhysicalDesign.Gold.C89_defined_single",
    "Verif.PhysicalDesign.Gold.C89_planar",
    "Verif.PhysicalDesign.Gold.C89_false_race"
   ],
   "note": "Proved for the layouts the search delivers, from the network through output buffers, fanout substitution, the two topological orders and the placement and routing of every vertex. Missing: the relocation of outputs that follows (post_layout_optimization with optimize_pos_only), constant fanins and outputs, gates that read a signal twice, networks without inputs. C89_false_race shows that concurrent changes of the best cost lead to an access out of bounds."
  },
  {
   "property": "C90",
   "status": "partial",
   "theorems": [
    "Verif.Sidb.Gss.C90_realisable_kept_partial",
    "Verif.Sidb.Gss.C90_false_positive"
   ],
   "note": "Proved in base two, and in base three if one of the witness partitioning limits is zero or no SiDB is positive. In base three with the default limits the property is false: C90_false_positive."
  },
  {
   "property": "C91",
   "status": "partial",
   "theorems": [
    "Verif.Sidb.Gss.C91_sound",
    "Verif.Sidb.Gss.C91_distinct",
    "Verif.Sidb.Gss.C91_complete_partial",
    "Verif.Sidb.Gss.C91_exact_base_two",
    "Verif.Sidb.Gss.C91_exact_base_three",
    "Verif.Sidb.Gss.C91_valid_returned_partial",
    "Verif.Sidb.Gss.C91_false_undefined",
    "Verif.Sidb.Gss.C91_false_loss",
    "Verif.Sidb.Gss.C91_false_strict"
   ],
   "note": "Soundness and distinctness hold without conditions (C91_sound, C91_distinct). Exactness is proved in base two (C91_exact_base_two) and in base three if a witness partitioning limit is zero (C91_exact_base_three), provided there is a metastable charge distribution. Otherwise it is false: in base three with the default limits configurations are lost (C91_false_loss), without a metastable one the behaviour can be undefined (C91_false_undefined), and the end of the error margin counts as stable, unlike in the charge distribution surface (C91_false_strict)."
  },
  {
   "property": "C92",
   "status": "proved",
   "theorems": [
    "Verif.Sidb.Gss.C92_defined",
    "Verif.Sidb.Gss.C92_schedule",
    "Verif.Sidb.Gss.C92_exact_base_two",
    "Verif.Sidb.Gss.C92_terminates",
    "Verif.Sidb.Gss.C92_false_thieves"
   ],
   "note": "C92_defined: no undefined behaviour and no wrong or repeated result at any time; C92_schedule: the result at the end; C92_exact_base_two: in terms of the metastable charge distributions; C92_terminates: under fairness. The critical sections are atomic steps; attempts to lock may fail at any time. C92_false_thieves records that a thread may end although there is work it could steal."
  },
  {
   "property": "C93",
   "status": "partial",
   "theorems": [
    "Verif.SidbAnalysis.C93_minimum",
    "Verif.SidbAnalysis.C93_robust",
    "Verif.SidbAnalysis.C93_tight",
    "Verif.SidbAnalysis.C93_order",
    "Verif.SidbAnalysis.C93_false_neutral"
   ],
   "note": "C93_minimum: the reported potentials are the minima over the SiDBs considered; C93_robust and C93_tight: they are safe and tight, in terms of charge states fitting local potentials; C93_order: one entry per charge distribution in ascending order of energy. False for the transition from neutral to negative alone, whose minimum leaves out SiDBs that are nearer to becoming positive (C93_false_neutral). Safety is stated for charge states that fit without the error margin."
  },
  {
   "property": "C94",
   "status": "partial",
   "theorems": [
    "Verif.SidbAnalysis.C94_layout",
    "Verif.SidbAnalysis.C94_patterns_partial",
    "Verif.SidbAnalysis.C94_false_patterns"
   ],
   "note": "False of the code: the loop over the input patterns simulates the layout it was given each time and ignores the pattern (C94_false_patterns). Proved: what is returned (C94_layout: the least potential for the layout itself) and the property if all patterns have the same stability (C94_patterns_partial)."
  },
  {
   "property": "C95",
   "status": "proved",
   "theorems": [
    "Verif.Wiring.C95_ends",
    "Verif.Wiring.C95_cuts",
    "Verif.Wiring.C95_protected",
    "Verif.Wiring.C95_moved",
    "Verif.Wiring.C95_injective",
    "Verif.Wiring.C95_fill",
    "Verif.Wiring.C95_neighbours"
   ],
   "note": "C95_ends: the loop ends, without a time limit only when there is no further path; C95_cuts: disjoint, inside the layout, the same number in every lane; C95_protected: what is never deleted; C95_moved, C95_injective, C95_fill: the new places and that they are filled without gaps; C95_neighbours: neighbours stay neighbours."
  },
  {
   "property": "C96",
   "status": "proved",
   "theorems": [
    "Verif.Wiring.C96_signals"
   ],
   "note": "C96_signals. The layer of a fan-in is not modelled; the special cases for crossings (wiring_reduction.hpp:547-611) are arbitrary additional obstructions."
  },
  {
   "property": "C97",
   "status": "partial",
   "theorems": [
    "Verif.Sidb.Gss.C97_exhaustive_partial",
    "Verif.Sidb.Gss.C97_three_simulators"
   ],
   "note": "C97_exhaustive_partial and C97_three_simulators. In base three one of the witness partitioning limits must be zero (C91_false_loss otherwise); if there is no valid charge distribution, ClusterComplete may be undefined (C91_false_undefined)."
  },
  {
   "property": "C98",
   "status": "partial",
   "theorems": [
    "Verif.Wiring.C98_layers_partial",
    "Verif.Wiring.C98_distinct_partial"
   ],
   "note": "C98_layers_partial and C98_distinct_partial. Missing: vertical searches with more than two cuts; there the special case of crossings tests row y - i instead of row y - 1 (wiring_reduction.hpp:588-590) and may miss a crossing from the third tile on. No layout is known in which the search also chooses the cuts that would show it."
  },
  {
   "property": "C99",
   "status": "partial",
   "theorems": [
    "Verif.Displacement.C99_displacements_partial",
    "Verif.Displacement.C99_exhaustive_partial",
    "Verif.Displacement.C99_random_partial",
    "Verif.Displacement.C99_terminates",
    "Verif.Displacement.C99_false_columns",
    "Verif.Displacement.C99_false_one"
   ],
   "note": "C99_displacements_partial, C99_exhaustive_partial, C99_random_partial, C99_terminates. Missing: cube and offset coordinates with STAY_ON_ORIGINAL_DIMER and both variations positive, for which C99_false_columns shows that displacements by columns are lost. C99_false_one shows that a random analysis may analyse no layout at all."
  },
  {
   "property": "C100",
   "status": "partial",
   "theorems": [
    "Verif.Impossible.C100_never_negative_partial",
    "Verif.Impossible.C100_sound_partial",
    "Verif.Impossible.C100_complete",
    "Verif.Impossible.C100_false_margin",
    "Verif.Impossible.C100_false_positive",
    "Verif.Impossible.C100_false_constant"
   ],
   "note": "C100_never_negative_partial, C100_sound_partial, C100_complete. Missing because false: SiDBs within the error margin (C100_false_margin), positively charged SiDBs (C100_false_positive) and constant outputs (C100_false_constant)."
  },
  {
   "property": "C101",
   "status": "partial",
   "theorems": [
    "Verif.Influence.C101_grid",
    "Verif.Influence.C101_random",
    "Verif.Influence.C101_terminates",
    "Verif.Influence.C101_operationality_partial",
    "Verif.Influence.C101_groundState_partial",
    "Verif.Influence.C101_plain_partial",
    "Verif.Influence.C101_clearance",
    "Verif.Influence.C101_safe_partial",
    "Verif.Influence.C101_false_operationality",
    "Verif.Influence.C101_false_specification",
    "Verif.Influence.C101_false_positive",
    "Verif.Influence.C101_false_grid"
   ],
   "note": "C101_grid, C101_random, C101_terminates, C101_operationality_partial, C101_groundState_partial, C101_plain_partial, C101_clearance, C101_safe_partial. Missing because false: layouts that do not work without a defect (C101_false_operationality), layouts without a specification under the default definition (C101_false_specification), possible positive charges (C101_false_positive) and positions that were not scanned (C101_false_grid). Contour tracing is not modelled."
  },
  {
   "property": "C102",
   "status": "partial",
   "theorems": [
    "Verif.Clocking.Sync.C102_history",
    "Verif.Clocking.Sync.C102_count",
    "Verif.Clocking.Sync.C102_flow",
    "Verif.Clocking.Sync.C102_zones_dual",
    "Verif.Clocking.Sync.C102_element",
    "Verif.Clocking.Sync.C102_degree_partial",
    "Verif.Clocking.Sync.C102_degree_ignores",
    "Verif.Clocking.Sync.C102_false_degree"
   ],
   "note": "C102_history, C102_count, C102_flow, C102_zones_dual, C102_element, C102_degree_partial, C102_degree_ignores. Missing because false: the degree of zones that are or have neighbours that are synchronization elements (C102_false_degree); degree ignores them always (C102_degree_ignores)."
  },
  {
   "property": "C103",
   "status": "partial",
   "theorems": [
    "Verif.Relocate.C103_allowed",
    "Verif.Relocate.C103_stays",
    "Verif.Relocate.C103_first",
    "Verif.Relocate.C103_complete",
    "Verif.Relocate.C103_limit_partial",
    "Verif.Relocate.C103_terminates",
    "Verif.Relocate.C103_entry",
    "Verif.Relocate.C103_false_limit",
    "Verif.Relocate.C103_false_rejected"
   ],
   "note": "C103_allowed, C103_stays, C103_first, C103_complete, C103_limit_partial, C103_terminates, C103_entry. Missing because false: the limit for outputs (C103_false_limit) and the rejection of layouts with misplaced inputs or outputs (C103_false_rejected). Routing, the restoration of wires, obstructions and the relocation of outputs at the end are not modelled."
  },
  {
   "property": "C104",
   "status": "partial",
   "theorems": [
    "Verif.Distance.C104_smallest",
    "Verif.Distance.C104_precise",
    "Verif.Distance.C104_ends_partial",
    "Verif.Distance.C104_false_ends"
   ],
   "note": "C104_smallest, C104_precise, C104_ends_partial. Missing because false: potentials that are not positive, for which the loop never ends (C104_false_ends). Rounding errors are not modelled."
  },
  {
   "property": "C105",
   "status": "partial",
   "theorems": [
    "Verif.GateCount.C105_network",
    "Verif.GateCount.C105_layout_partial",
    "Verif.GateCount.C105_layout_wires",
    "Verif.GateCount.C105_false_layout"
   ],
   "note": "C105_network, C105_layout_partial, C105_layout_wires. Missing because false: the counts of buffers and fan-outs of layouts, which include the inputs (C105_false_layout). For layouts, functions other than the supported gates are not covered."
  },
  {
   "property": "C106",
   "status": "partial",
   "theorems": [
    "Verif.OnTheFly.C106_ends",
    "Verif.OnTheFly.C106_impossible",
    "Verif.OnTheFly.C106_design_partial",
    "Verif.OnTheFly.C106_first",
    "Verif.OnTheFly.C106_false_empty"
   ],
   "note": "C106_ends, C106_impossible, C106_design_partial, C106_first. Missing because false: designs that end with an unsupported orientation or another error, for which an empty layout is returned (C106_false_empty)."
  },
  {
   "property": "C107",
   "status": "partial",
   "theorems": [
    "Verif.TtReader.C107_tables_partial",
    "Verif.TtReader.C107_incomplete",
    "Verif.TtReader.C107_false_empty",
    "Verif.TtReader.C107_false_vars"
   ],
   "note": "C107_tables_partial, C107_incomplete. Missing because false: empty files (C107_false_empty) and tables of fewer than two variables (C107_false_vars). Expressions with white space, other than the documented format, are not covered."
  },
  {
   "property": "C108",
   "status": "proved",
   "theorems": [
    "Verif.Csv.C108_roundtrip",
    "Verif.Csv.C108_lines",
    "Verif.Csv.C108_empty",
    "Verif.Csv.C108_false_comma"
   ],
   "note": "C108_roundtrip, C108_lines, C108_empty. C108_false_comma shows why values must not contain commas, as documented."
  },
  {
   "property": "C109",
   "status": "proved",
   "theorems": [
    "Verif.ChargeText.C109_text",
    "Verif.ChargeText.C109_text_injective",
    "Verif.ChargeText.C109_sign",
    "Verif.ChargeText.C109_base",
    "Verif.ChargeText.C109_false_none"
   ],
   "note": "C109_text, C109_text_injective, C109_sign, C109_base. The state of empty cells has the sign of neutral SiDBs and is left out of texts (C109_false_none)."
  },
  {
   "property": "C110",
   "status": "proved",
   "theorems": [
    "Verif.DomainCsv.C110_operational",
    "Verif.DomainCsv.C110_refused",
    "Verif.DomainCsv.C110_influence"
   ],
   "note": "C110_operational, C110_refused, C110_influence. Numbers are the characters the stream writes, which has six significant digits by default; this rounding is not modelled."
  },
  {
   "property": "C111",
   "status": "proved",
   "theorems": [
    "Verif.GroundText.C111_ground_states",
    "Verif.GroundText.C111_text",
    "Verif.GroundText.C111_value"
   ],
   "note": "C111_ground_states, C111_text, C111_value. Rounding is any monotone function and the formatting of numbers any that gives no delimiters."
  },
  {
   "property": "C112",
   "status": "partial",
   "theorems": [
    "Verif.NetReader.C112_networks",
    "Verif.NetReader.C112_messages",
    "Verif.NetReader.C112_either",
    "Verif.NetReader.C112_sorted_partial",
    "Verif.NetReader.C112_false_vertices",
    "Verif.NetReader.C112_sticky"
   ],
   "note": "C112_networks, C112_messages, C112_either, C112_sorted_partial. Missing because false: the documented order by numbers of vertices (C112_false_vertices). C112_sticky: sorted access changes later unsorted access."
  },
  {
   "property": "C113",
   "status": "partial",
   "theorems": [
    "Verif.TechLibrary.C113_functions",
    "Verif.TechLibrary.C113_decay_partial",
    "Verif.TechLibrary.C113_decay_complete_partial",
    "Verif.TechLibrary.C113_false_and_xor",
    "Verif.TechLibrary.C113_library_partial",
    "Verif.TechLibrary.C113_selected",
    "Verif.TechLibrary.C113_required_partial",
    "Verif.TechLibrary.C113_false_mig"
   ],
   "note": "C113_functions, C113_decay_partial, C113_decay_complete_partial, C113_library_partial, C113_selected, C113_required_partial. Missing because false: and-xor (C113_false_and_xor) and majority gates of MIGs if constant inputs are enforced (C113_false_mig)."
  },
  {
   "property": "C114",
   "status": "proved",
   "theorems": [
    "Verif.SqdResult.C114_positions",
    "Verif.SqdResult.C114_distributions",
    "Verif.SqdResult.C114_empty"
   ],
   "note": "C114_positions, C114_distributions, C114_empty. The text of XML elements, engine information, parameters and the formatting of numbers are not covered."
  },
  {
   "property": "C115",
   "status": "partial",
   "theorems": [
    "Verif.Qcc.C115_items",
    "Verif.Qcc.C115_all",
    "Verif.Qcc.C115_accepted_partial",
    "Verif.Qcc.C115_false_offset",
    "Verif.Qcc.C115_false_pins"
   ],
   "note": "C115_items and C115_all hold for each accepted layout. C115_accepted_partial is for layouts that occupy the first and the last column; C115_false_offset and C115_false_pins show the others. The text of XML elements, the header and the entity are not covered."
  },
  {
   "property": "C116",
   "status": "partial",
   "theorems": [
    "Verif.Qll.C116_places_partial",
    "Verif.Qll.C116_ids",
    "Verif.Qll.C116_elements_partial",
    "Verif.Qll.C116_false_pins"
   ],
   "note": "C116_elements_partial and C116_places_partial for layouts whose inputs and outputs are in the lowest layer; C116_ids for all. C116_false_pins shows that the rest is false. iNML and molecular QCA layouts, the settings and the text of XML elements are not covered, and the bounding box is a hypothesis."
  },
  {
   "property": "C117",
   "status": "proved",
   "theorems": [
    "Verif.Qcc.C117_items",
    "Verif.Qcc.C117_pins",
    "Verif.Qcc.C117_ids",
    "Verif.Qcc.C117_false_once"
   ],
   "note": "C117_items, C117_pins, C117_ids. C117_false_once: inputs and outputs have an item and a pin at the same place, although the source says that they are not considered among the magnets. The settings and the text of XML elements are not covered."
  },
  {
   "property": "C118",
   "status": "partial",
   "theorems": [
    "Verif.Names.C118_inputs",
    "Verif.Names.C118_others",
    "Verif.Names.C118_outputs",
    "Verif.Names.C118_name",
    "Verif.Names.C118_signals_partial",
    "Verif.Names.C118_false_driver",
    "Verif.Names.C118_false_complement"
   ],
   "note": "C118_name, C118_inputs, C118_outputs, C118_others. C118_signals_partial is for fanins of nodes if no complemented signal has a name; the rest is false: C118_false_driver, C118_false_complement. The overload for branching signals and types without names are not covered."
  },
  {
   "property": "C119",
   "status": "partial",
   "theorems": [
    "Verif.Qcc.C119_count",
    "Verif.Qcc.C119_plain_partial",
    "Verif.Qcc.C119_false_chains"
   ],
   "note": "C119_plain_partial for layouts without inverters. C119_false_chains: the number is wrong for each layout with inverters; C119_count gives the number for all."
  },
  {
   "property": "C120",
   "status": "proved",
   "theorems": [
    "Verif.Area.C120_extent",
    "Verif.Area.C120_area",
    "Verif.Area.C120_box"
   ],
   "note": "C120_extent, C120_area, C120_box. Numbers are rational instead of double, so rounding is not covered."
  }
 ]
}