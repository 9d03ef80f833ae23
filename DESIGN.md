# Formal model of cda-tum/fiction in Lean 4

This directory holds a Lean 4 model of parts of the C++ library in `/repo`
(header-only, `include/fiction/**`) and machine-checked proofs about it.

* `properties.jsonl` – the English properties.
* `lean/Verif/<Topic>/Model.lean` – the model; every definition cites the C++ lines it models.
* `lean/Verif/<Topic>/Lemmas.lean` – helper lemmas (where the topic needs them).
* `lean/Verif/<Topic>/Props.lean` – small independent specification plus the property theorems
  (names start with the property id) and, beside each, an `example` showing that its hypotheses are met.
* `MANIFEST.json` – property → theorems and status.
* `seeded/LOG.jsonl` – log of the mutation experiments.

## Trusted base

* Lean 4.33.0's kernel. The theorems use at most the axioms `propext`, `Classical.choice`, `Quot.sound`
  (checked with `#print axioms`). No axioms of our own, no `sorry`, no `native_decide`, no `bv_decide`.
* The transcription C++ → Lean: the model was written by reading the code, nothing was extracted
  automatically. Each definition cites its source so the transcription can be reviewed line by line.
* The reading of the C++ itself: standard containers behave as specified, `noexcept` functions return,
  no allocation failure, single-threaded execution unless a property says otherwise.

### Cross-cutting simplifications

* Machine integers are `Nat`/`Int` where the property is not about overflow; where a bit width matters
  (packing of coordinates, Gray code, conversion saturation) `BitVec`/explicit ranges are used, and
  unbounded theorems state the range under which the C++ arithmetic cannot wrap.
* Floating point (`double`) in SiDB physics is modelled by rational/ordered-field arithmetic. Rounding is not modelled.
* Hash maps are modelled as association functions / lists; iteration order, where it matters, is universally quantified.
* `std::shared_ptr` sharing is modelled only where it is observable (C15).

## Plan per property

| id | what is modelled | how it is proved |
|----|------------------|------------------|
| C01 | `ucoord_t` as bit fields in `BitVec` | bit-vector extensionality, all widths symbolic |
| C02 | the three `operator<`, `==` and the derived operators | case analysis, linear arithmetic |
| C03 | `wrap`, `coord_iterator::operator++` per coordinate type | closed form of the k-th iterate by induction; bijection with the box |
| C04 | `to_fiction_coord`, `to_siqad_coord` with int32 saturation | integer arithmetic |
| C05 | the row-major loop | induction over the remaining cells |
| C06, C07 | direction functions, adjacency lists of `cartesian_layout` | case analysis over borders |
| C08, C09 | cube conversions, neighbour enumeration for four arrangements | integer arithmetic with parity case splits |
| C10, C13 | clock functions incl. lookup tables | finite tables checked completely by kernel evaluation, lifted by periodicity |
| C11, C12 | `is_incoming_clocked`, zones; walks | modular arithmetic; a strictly increasing potential along walks |
| C14, C15 | override map; heap of shared schemes | induction over operation lists; C15 is false of the code: negation with a witness |
| C16–C20 | state machine of `gate_level_layout` storage | invariant preserved by every operation; negations with witnesses where the code violates the claim |
| C21–C24 | A*, path enumeration over an abstract finite graph | invariants of open/closed list and predecessor map; induction over fuel; optimality or a counterexample |
| C25 | distance functions | arithmetic, induction over walks |
| C26 | `BitVec` model of the Gray iterator | bit-level reasoning |
| C27 | `factorize`, `next` | arithmetic on divisors |
| C28 | loops of the helpers | induction; comparison with Mathlib's `Nat.choose`, list products |
| C29, C30 | truth tables as natural numbers and the two `compute` overloads | complete kernel evaluation of the finite tables; negation for le/ge |
| C31–C34 | networks as topologically ordered node lists, simulation semantics | induction over the node list |
| C35–C39 | charge surface, ExGS, QuickExact over an ordered field | positional number systems, induction over index steps; monotonicity of potentials |
| C40 | the fold computing the distribution | induction over the list |
| C41–C43 | operation histories over maps/sets | induction over histories; C42 negation with a witness for SiQAD coordinates |
| C44 | annealing loop with an arbitrary stream of random draws | loop invariant |
| C45 | decision structure of `run`, over the models of C46 and C56; miter and SAT solver as parameters | case analysis with a soundness assumption on the solver |
| C46 | `signal_delay` recursion with its cache, `dominating_incoming_signal_path`, maximum over outputs | invariant of the cache by induction over a rank of the data flow graph |
| C47 | variables, clauses, symmetry breaking recursion and assignment of clock numbers; SAT solver as a parameter | clauses hold iff the clocking is valid; rotation of valid clockings; negations with witnesses |
| C56 | all ten checks of `gate_level_drvs` | each count is zero iff the rule holds; duality of fanins and fanouts (C20) |
| C55 | the conversion loops over the cell maps | round trips of C04 lifted to layouts; offset targets: negation with a witness |
| C48 | iterator operations on an abstract cell map | closed form of `set_all_inputs`, induction over histories |
| C49 | reference counters and dead flags of the gate-level layout | induction over histories without `move_node`; negation with a witness |
| C50, C51 | source networks with complemented edges; copies into one network | induction over the topological order |
| C52 | the two nested counters of three-state QuickExact with histories and dependent SiDB | positional number systems, loop invariant |
| C53 | QuickSim with arbitrary random numbers; threads as interleavings of result lists | invariant of the incremental state |
| C54 | energy as a quadratic form | algebra over sums |
| C57 | gates as arrays of arrays with checked accesses; the loops of `transpose` and `merge` | loop invariants; position maps of the rotations |
| C58 | tables generated from the code; tiles as the answers to the queries of `set_up_gate`; cells as gates of C57 | checks of all table entries by the kernel, lifted to all tiles through the lookup |
| C59 | positions as arithmetic on tiles and cells; `assign_gate` as a fold over the cells of a gate; the optimization of QCA ONE as a fold over all cells | uniqueness of quotient and remainder; folds over items with distinct positions; case analysis over sides with the contacts of C58 |
| C60 | `PhysicalDesign/Orthogonal.lean`: colouring, size, wires, placement of inputs, gates and outputs on the gate-level layout model of C16-C20 | colouring invariant (`OrthoColor`), grid abstraction of the two layers (`OrthoWire`, `OrthoGeo`), loop invariant over the nodes (`OrthoInv`, `OrthoPi`), size accounting (`OrthoMain`), function of a layout as an inductive relation (`LayoutFn`); `OrthoCompose` composes this with fanout substitution (`Networks/FanoutOrigin`: where the nodes of the substituted network come from) |
| C61 | `PhysicalDesign/Hexagonalization.lean`: coordinates, offset, and the loops over inputs, tiles and outputs on the gate-level layout model | geometry of the conversion (`HexaGeo`), loop invariant: the result is the image of the tiles processed so far (`HexaBuild`, `HexaSem`), isomorphism of layouts preserves values (`Iso.val`), structural invariant of orthogonal layouts (`OrthoHexa`) |
| C62 | `OpDomain/Model.lean`: ranges and grid, keyed domain map, neighbourhoods, slices and threads of the parallel simulation, and the flood fill workers with their mutex, queue, counter and condition variable as small steps | injectivity of the key quantisation (`Grid`), invariant of the parallel simulation over all schedules (`Parallel`), sixteen-part invariant of the flood fill workers, progress and a decreasing measure (`Flood`, `FloodRun`) |
| C63 | `OpDomain/Contour.lean`: walk to the border, Moore trace with backtracking, breadth-first search over the boundary, inference; loops with an iteration bound | the round of the 2-D trace is injective on a finite set of states, so the trace is periodic and returns (`CurveRun`); search invariants and measures (`SurfaceRun`); neighbour counts (`Surface`) |
| C64 | `SidbAnalysis/Results.lean`: minimum, ground states, the comparison of ground states with its assertion as a distinct outcome, the equivalence check with its sets and its sorting | the ground states as a filter of the sorted unique indices, permutations of duplicate-free lists (`ResultsProps`) |
| C65 | `SidbAnalysis/Temperature.lean`: typed states (any result of the unstable sort), Boltzmann factors with `Real.exp`, rounding to six decimals, the scan of the temperatures and the loop over the input patterns | a permutation lemma for states grouped by energies, shift invariance of the Boltzmann distribution, cross-multiplied sums for monotonicity, invariant of the scan (`TemperatureLemmas`, `TemperatureProps`) |
| C66 | `SidbAnalysis/TimeToSolution.lean`: the tally over the results, accuracy, mean and time with `Real.log`; infinity and not-a-number are distinct outcomes | the tally counts successes as specified by C64; logarithm laws (`TimeToSolutionProps`) |
| C67 | `Paths/Yen.lean`: the loops over k and the spurs, the shared obstruction sets with temporary entries, the ordered set of candidates, on top of the model of A* | A* results C21 and C22 for each spur, an invariant of the obstruction sets, the tree of deviations for completeness: every missing path leaves the found ones at a spur for which a candidate exists (`YenLemmas`, `YenProps`) |
| C68 | `SidbAnalysis/Bdl.lean`: pairwise distances, the pairing loop after any sort, the ordered set of pairs, the walk along neighbours below and above, selection of wires | induction over the sorted distances; a stable pairing with distinct distances is unique by induction on the number of closer pairs; invariants of the walk: connected, closed except at its end (`BdlLemmas`, `BdlProps`) |
| C69 | `SidbAnalysis/Operational.lean`: encoding of bits by pairs and directions, the loops over outputs, wires, ground states and input patterns, the assignment of charges to the wires, the filter, the listing of patterns; the simulation is a parameter, instantiated with the model of ExGS | direct correctness of each loop; the ground state is one of the charge distributions the filter enumerates, and all others cost at least as much (`OperationalLemmas`, `OperationalProps`) |
| C70 | `Io/Fqca.lean`: the writer character by character and the reader with its regular expressions as functions on texts | the writer's text as a sequence of tokens, the reader's effect on each token, composed over rows, layers and definitions (`FqcaLemmas`, `FqcaProps`) |
| C71 | `Io/Fgl.lean`: the tree of XML elements, the writer and the reader with its sorting, its type chain, its hexadecimal functions and its clock zones | `Built`: an invariant of the reader's loop relating the layout built so far to the prefix of the elements; `TopoView` says that what an element reads is placed already (`FglLoop`, `FglProps`, `FglClock`) |
| C72 | `Networks/Views.lean`: the recursive computation of levels with its visited marks, the depth and the marking of critical paths | levels against paths (`DepthSpec`), by induction over the recursion with the partial table as invariant (`DepthProps`) |
| C73 | `Networks/Views.lean`: the queue with its counters of fanins that were visited, and fanouts as mockturtle's fanout view gives them (each once) | an invariant of the queue: counters, membership and levels (`BfsProps.Inv`) |
| C74 | `Networks/Views.lean`: ranks, positions and width, the constructors and the methods that change them | `RankedOn`: an invariant that relates both tables and the width, kept by every call (`RankProps`) |
| C75 | `Paths/DistMap.lean`: the nested loops with running indices and vectors, where accesses out of bounds are undefined, the index of a coordinate, the hash maps as partial functions | the loops build the table of distances row by row; the running index of `foreach_coordinate` is the computed index if there is one layer; an invariant of the cache (`DistMapProps`) |
| C76 | `PhysicalDesign/Exact.lean`: the variables, all families of constraints for regular clocking, the construction of the layout from an assignment; `Networks/SubstitutePo.lean`: `substitute_po_signals` | the constraints give facts about tiles, edges and connections (`ExactFacts`); an invariant of the construction relates placed nodes to their values (`ExactSem`, `ExactInv`, `ExactMain`); the schemes are checked by their periods (`ExactClocked`); `ExactProps` |
| C77 | `PhysicalDesign/ExactSearch.lean`: the bounds with their machine arithmetic, `skippable`, the loop over the aspect ratios, the threads with the shared iterator, result and interrupts as a transition system | all nodes are on tiles of their own; columns and rows grow along connections, so levels bound them; the iterator covers all aspect ratios in order of area (C27); an invariant of the transition system: every fetched aspect ratio is refuted, not better than the result or being examined; a decreasing measure (`ExactSearchFacts`, `ExactSearchProps`) |
| C78 | `SidbDesign/Random.lean`: the distributions, random coordinates of cube and SiQAD layouts, comparison and digest of layouts on 64 bits, the attempts, the recursion and the collection of different layouts; random numbers and hash functions are inputs | invariants over the attempts, on top of the cell-level layouts of C41; sums are independent of the order, so equal layouts have equal digests; a measure for the loop over several layouts (`RandomFacts`, `RandomProps`) |
| C79 | `SidbDesign/Design.lean`: the threads as a transition system with atomic flag and locked result list, the distribution of the work, the placement of dots, canvas layouts, pruning and the random design on top of C78; a schedule is a list of thread numbers | an invariant over schedules (stored plus pending good items are a permutation of all good items), a decreasing measure, and the combinations of C28 (`PoolFacts`, `DesignFacts`, `DesignProps`); the specification is `DesignSpec.lean` |
| C80 | `Graphs/Coloring.lean`: the clauses of the SAT instance one by one, the four search procedures, the extraction of the coloring, the fallback and the verification; a solver is a function from the number of colors to an optional model | soundness and completeness of the encoding with pre-assigned cliques, correctness of each search procedure for monotone instances (`ColoringFacts`, `SearchFacts`, `ColoringProps`); the specification is `ColoringSpec.lean` |
| C81 | `PhysicalDesign/ColorRouting.lean`: the layout as the path finders see it (obstruction_layout), the edge intersection graph with its cliques, the decision, and route_path on the gate-level model; the candidates come from the models of C24 and C67, the coloring from that of C80 | an invariant over the objectives (edges are exactly clique pairs and conflicts), color classes as independent transversals, and an induction over the segments laid (`ColorRoutingFacts`, `Select`, `Wire`, `Run`, `Props`); the specification is `ColorRoutingSpec.lean` |
| C82 | `Defects/Surface.lean`: defect types and properties, the map of defects, assignments, moves and all counters; a history is a list of operations | induction over the history against a position-wise history function (`SurfaceProps`) |
| C83 | `Defects/Analysis.lean`: reach of a defect with the 64 to 16 bit conversion, the clipped rectangle, the union, the loop over tiles, gates and SiDBs | membership characterizations of rectangle, union and map updates (`AnalysisFacts`, `AnalysisProps`) |
| C84 | `Defects/Reader.lean`: the search of the regular expressions on characters, the rows, the conversion of the indices and the surface | `matchRow_iff` ties the search to the regular expression; induction over the rows (`ReaderFacts`, `ReaderProps`) |
| C85 | `Layouts/BoundingBox.lean`: the three variants of update_bounding_box with their numeric limits, conversions between SiQAD and cube coordinates, and the sizes | a fold of minima and maxima over a non-empty list is tight (`fold_tight`), SiQAD corners by refinement to columns and rows (`BoundingBoxProps`) |
| C86 | `Networks/Mincross.lean`: medians, reordering, transpositions on the copy of the rank, the count by penalties and the passes, on the ranks of C74 | the assertion on positions by an invariant over the copy, the count by an explicit list of crossings, the search by an invariant on the best ranks (`MincrossFacts`, `MincrossCount`, `MincrossProps`); the specification is `MincrossSpec.lean` |
| C87 | `Io/Sqd.lean`: the tree of XML elements, printing and parsing of integers, writer and reader on any coordinate type | what a document describes is a relation (`SqdSpec`); reader and writer are related to it separately (`SqdParse`, `SqdEffect`) |
| C88 | `Io/Sqd.lean` as for C87; the storage of the target is shared with the reader, so that exceptions do not undo assignments | both directions by induction over the loops (`SqdParse`), the contents by induction from the end of the file (`SqdEffect`) |
| C89 | PhysicalDesign/Gold (positions, path checks, placement, routing, expansion of a vertex), GoldOrder (topological orders, nodes to place), GoldCompose (the whole). A search space is a reachable set of vertices: a vertex is reached if it is proposed by the expansion of a reached vertex; the priority queue, timeouts and costs only choose among reached vertices, and their comparisons are arbitrary verdicts. | An invariant of the partial layout (values of placed nodes, nothing out of bounds, inputs and outputs where they belong) kept by every placement; replaying a vertex takes the same steps as when it was proposed; wires already routed are not disturbed (the path finder only uses free tiles). |
| C90 | Sidb/Gss: perform_potential_bound_analysis with the sets of witnesses, the omission of free witnesses and the search for a partitioning, statement by statement. | The search for negative witnesses is shown to succeed whenever some set of negative witnesses leaves enough others, by induction over the number of witnesses and over the loop; the sets are restored after a failure. |
| C91 | Sidb/Gss: the ground state space (initial clustering, pruning to a fixed point, merges, potential bound stores) and the unfolding of the hierarchy by ClusterComplete with its bounds and the final configuration stability check. Not modelled: the machine learning clustering itself (any hierarchy is allowed), the distribution over threads (see C92), floating point. | An invariant relates the received bounds of every cluster to the bounds projected by the others (GssInv); pruning and merging preserve it and keep the trace of every metastable charge distribution (GssPrune, GssMerge, GssRun); the unfolding keeps the sum of the bounds exact at the leaves (GssUnfold, GssResults). |
| C92 | Sidb/Steal: queues with layers, informants and the clustering state for thieves; workers as state machines whose steps are the critical sections (obtain, add to queue, backtrack, steal, initialise after stealing) and the unfolding between them; the division of the initial work. Not modelled: the C++ memory model, floating point, exceptions. | For every worker the layers of its queue lie along a path of clustering states from the one for thieves to its own (Path, WInv in StealInv); every step keeps results and left work together a permutation of the result of a single thread (SInv in StealRun). Termination by a lexicographic measure: the clustering states that are left to visit, then what every worker has to do until it unfolds or ends. |
| C93 | SidbAnalysis/Stability: the three handlers, the loops over cells and transitions, the search for charge distributions by index after sorting. Not modelled: the conversion of potentials to distances, floating point; QuickExact is that of C39. | Induction over the cells gives the minimum for every transition; safety and tightness follow from the distances to the thresholds; charge indices identify charge distributions by C35_injective. |
| C94 | SidbAnalysis/Stability: the loop over the patterns with the minimum over transitions; the population stability is a parameter, in the counterexample that of C93 with QuickExact. | The minimum so far is the least element of the set of potentials reported so far; induction over the patterns. |
| C95 | Optimization/Wiring: the search layout with its obstructions and jumps, the A* search of Paths (C09), the removal of cuts, the offset matrix and the new coordinates. The special cases for bends and crossings enter as arbitrary additional obstructions. Not modelled: the outer loop over the directions, move_node and the resizing, statistics. | Every path of the search is a sequence of tiles with one per lane whose positions differ by at most one between lanes; the loop keeps all cuts free of obstructions and disjoint. The offset of a tile is the number of cuts before it in its lane. |
| C96 | Optimization/Wiring: is the connection between two tiles obstructed, the tile a bent wire obstructs, the new fan-in with the walk over deleted wires (adjust_tile_horizontal_search_dir, adjust_tile_vertical_search_dir). Not modelled: layers of fan-ins, move_node. | Cuts cannot pass between a tile and its fan-in in the next lane except next to a deleted bend, so the offsets of both differ by a known number; induction over the walk. |
| C97 | The models of C36, C39 and C91 together. | The criteria of ClusterComplete and of the charge distribution surface differ only at the ends of the error margins; then C36_exact, C39_agrees and C91 apply. |
| C98 | Optimization/WiringCross.lean: is_single_wire, is_crossing, the loop of the special case, the obstructed tile, and the layers of new fan-ins. | A deleted wire that turns into the next lane begins a straight wire up to a node that remains. If a wire of that node led to the next lane as well, the difference of the offsets would force that wire to be deleted side by side with the first, and the special case would have obstructed the turn. Hence the signal begins in the ground layer, and not at the node where the other fan-in begins. |
| C99 | SidbAnalysis/Displacement.lean: corners, all_coordinates_in_spanned_area, combinations, displaced layouts, limit, slices and steps of the threads. Coordinates without bounds; the operational status is an arbitrary function; the fabrication probability is not modelled. | The loop over the spanned area by induction over rows and columns; a displaced layout has as many cells as the original iff no position repeats; the slices are a partition; stored and owed results are a permutation of all results in every state. |
| C100 | SidbDesign/Impossible.lean: the potentials of neutral charge distributions and the comparison with the threshold, for all patterns and output pairs. The detection of the output pairs is an argument. | With all SiDBs neutral only defects contribute to the potential; further SiDBs, neutral or negative, only make it more negative, so that an SiDB beyond the threshold is never negative and its pair shows only one value. |
| C101 | SidbAnalysis/Influence.lean: the status of a position, the scanned area, the slices of the threads, their steps on the shared map, the statistics and the clearance. Simulations are arguments; quicktrace and the number of simulator invocations are not modelled. | An invariant of the schedule: the domain together with what the threads still owe is a permutation of all results; look-ups never succeed as positions are distinct. The clearance is a fold whose result bounds and attains the distances. |
| C102 | Clocking/Sync.lean: the map of synchronization elements, storage blocks shared by copies, cloning, the relations between zones and their degrees. Coordinates are the keys of the map instead of their 64-bit words (C01). | Histories are compared with histories of functions by induction; the zones are filters of the adjacent coordinates, whose relation is symmetric (C11). |
| C103 | Optimization/Relocate.lean: the loops over candidate positions, the test of a candidate, attempts, timeouts, the result for a gate and the tests at the beginning. Whether tiles are empty and routing succeeds are arguments. | The nested loops are one loop over the tiles by diagonals, for which an induction gives the tried positions before the result; candidates are counted for the limit, and the measure of a move is a lexicographic order. |
| C104 | SidbAnalysis/Distance.lean: the potential as the code computes it, the step size and the loop, on real numbers. | The loop returns the first multiple that passes its test; the potential is positive, strictly decreasing and below any positive number from some distance on. |
| C105 | Networks/GateCount.lean: the sequence of tests for technology networks and for gate-level layouts, the counters and the reported total. That inputs carry the identity function is a hypothesis (gate_level_layout.hpp:262, and mockturtle for networks). | The loop adds one to the counter of the first test a node passes; by cases on the number of the function this is the kind of the gate. |
| C106 | SidbDesign/OnTheFly.lean: the loop over placement and routing and gate design with its exception handlers. exact_with_blacklist and the gate library are arguments with contracts (structure Contract). | Induction on the iterations; each failed gate is a new entry of the blacklist, so there are at most as many retries as possible entries. |
| C107 | Io/TtReader.lean: the vector of words, the position and next with its 64-bit subtraction. Splitting of the stream into words and the parser of digits (kitty) are not modelled. | Induction on the number of calls: after k calls the position is twice the number of the lines read. |
| C108 | Io/Csv.lean: the recursion of write_line over its arguments. Values are the characters the stream writes for them; formatting of numbers is not modelled. | The text of a line is the list of its values joined by commas; the text of all lines is joined by ends of lines; splitting is inverse to joining. |
| C109 | Sidb/ChargeText.lean: the four states, their signs and texts. | Induction on the configuration. |
| C110 | Io/DomainCsv.lean: the first line, the lines of the samples by the number of dimensions, the filter and the exceptions. The order of samples is an argument, as domains are hash maps; opening of files is not modelled. | The lines equal their specification by cases on the number of dimensions and induction on the samples; the rest is C108. |
| C111 | Io/GroundText.lean: the least energy, the filter, the names of columns and the lines. Energies are rational; rounding, the formatting of numbers and the order of cells are arguments with contracts (Format.Good). | The filter equals minimality as rounding is monotone; each value and each line is ended by its delimiter, so that splitting gives them back. |
| C112 | Io/NetReader.lean: the collection of files, the dispatch on extensions, read with its messages, and sorting. Parsers (lorina, mockturtle) and the file system are arguments; files with and without a supported extension that are no regular files are entries. | Induction on the collected files; sorting by the library's theorems on merge sort. |
| C113 | Networks/TechLibrary.lean: the expressions of all gates and of what they become, the selection and the validation. The genlib parser (lorina) and the mapper (mockturtle) are not modelled. | By cases on the gate and its inputs, a finite domain that is covered completely, and membership in the list of gates for all parameters. |
| C114 | Io/SqdResult.lean: the ordering of cells and of surfaces, and the values of the elements. | The characters are those of C109 for the charges in the order of cells; sorting by the library's theorems on merge sort. |
| C115 | Io/Qcc.lean: the check of pins, the scan with cells to skip, and the items. | Induction on the scan in row-major order; structures only reach cells that come later. |
| C116 | Io/Qll.lean: the loop over cells, connections between layers, constants and pins, and identifiers. | Membership in the loops both ways; places are distinct because parities of layers differ. |
| C117 | Io/QllInml.lean: the elements of iNML layouts, on top of the scan of C115. | Items by C115; pins because sorting permutes. |
| C118 | Networks/Names.lean: the transfer of the network name, of inputs, outputs and signals. | Induction on the list of assignments. |
| C119 | Io/Magnets.lean: the count of cells and of inverters. | Lengths of filtered permutations. |
| C120 | Technology/Area.lean: width, height and area. | Places of cells are defined by recursion and shown to be multiples of the pitch. |

## Known disagreements between code and property

Each has a theorem with a concrete witness; the part of the property that does hold is proved beside it.

* C12/C13 – `2DDWAVE3`-style three-phase schemes feed back on hexagonal layouts
  (`C12_2ddwave3_hexagonal_cyclic`); COLUMNAR/ROW declare out-degree 2 but reach 3 on hexagonal layouts
  (`C13_hexagonal_linear_exceeds`).
* C15 – clones of clocked layouts share the clocking scheme object: an override through one is visible in
  the other (`C15_clone_aliases`, `C15_clone_not_independent`).
* C18 – the crossing counter underflows when a gate shares a column with another node (`C18_underflow`).
* C19 – a primary output created on or moved onto a wire tile is unregistered (`C19_po_lost`,
  `C19_moved_po_lost`); unplaced primary outputs share one entry (`C19_unplaced_pos`); cleared primary
  inputs are still counted by `num_pis` (`C19_cleared_pi_counted`).
* C20 – the duality of fanins and fanouts needs layer-independent clock numbers (`C20_layer_dependent`).
* C23 – A* lowers the `f` value of queued entries in place without restoring the heap and returns
  non-shortest paths with the default distance and cost functions (`C23_not_optimal`).
* C24 – `enumerate_all_paths` never enters a target in the crossing layer although A* does
  (`C24_crossing_target_missed`).
* C25 – the Manhattan distance, the default heuristic, overestimates on hexagonal layouts
  (`C25_manhattan_overestimates_hexagonal`).
* C26 – the Gray iterator's `<` compares code words, not positions (`C26_iterator_order_disagrees`).
* C27 – `<=` of aspect-ratio iterators is not antisymmetric (`C27_le_not_antisymmetric`).
* C28 – `binomial_coefficient` overflows (`C28_binomial_overflow`); `k = 0` yields no combination
  (`C28_combinations_zero`).
* C29 – `create_le_tt`/`create_ge_tt` do not compute ≤/≥ (`C29_le_ge_wrong`, `C29_no_common_order`).
* C30 – lt/gt exchanged between the two `compute` overloads (`C30_lt_is_gt`, `C30_overloads_disagree`).
* C49 – enumerations skip placed nodes after `move_node` or after overwriting a fanin: the reference
  counter underflows into the dead flag (`C49_moved_child_skipped`, `C49_replaced_child_skipped`).
* C31 – an output driven directly by a virtual input becomes the constant 0 (`C31_output_lost`,
  `C31_not_preserved`).
* C32 – a gate that uses the same fanin twice overfills a buffer (`C32_double_fanin_overfull`); for
  thresholds above the degree the result may be rejected by `is_fanout_substituted`
  (`C32_large_threshold_rejected`); a degree of at most one is undefined (`C32_degree_one_undefined`).
* C33 – balancing a network without outputs dereferences the end iterator (`C33_no_outputs_undefined`);
  `is_balanced` rejects networks with dangling gates (`C33_dangling_rejected`).
* C34 – `inverse_levels` is 0 for nodes with a dangling fanout (`C34_dangling`).
* C39 – QuickExact misses charge distributions whose dependent SiDB lies within the error margin of a
  transition level (`C39_margin_missed`), returns invalid ones if the external potential differs between SiDBs
  (`C39_local_unsound`: hops from pre-assigned SiDBs are not checked), and reports a
  single SiDB with the validity determined before the external potentials were assigned (`C39_single_stale`).
* C40 – near-degenerate energies are counted more than once (`C40_counted_twice`);
  `energy_distribution::degeneracy` returns the position of the energy (`C40_degeneracy_query`).
* C54 – with different external potentials, the stability check rejects distributions although no hop lowers
  the energy (`C54_local_rejected`).
* C52 – with base two in the parameters and automatic base detection, the positive charge state of the first
  SiDB is never tried although three-state simulation is conducted (`C52_base_two_missed`).
* C41 – the name of a cell survives its removal and reappears when a new cell is placed there
  (`C41_name_survives_removal`).
* C42 – `normalize_layout_coordinates` drops the z coordinate: SiQAD cells of one dimer coincide and crossing
  layers collapse (`C42_loses_siqad_cells`, `C42_loses_crossings`).
* C44 – a constant schedule, or the geometric schedule with final temperature 0, never ends
  (`C44_constant_diverges`, `C44_geometric_zero_diverges`); `multi_simulated_annealing` with no instances
  dereferences the end iterator (`C44_multi_no_instances`). The random engine is a `static` object shared by the
  threads of `multi_simulated_annealing` without synchronisation, a data race outside the model.
* C55 – `convert_layout_to_fiction_coordinates` with offset coordinates as the target and negative source
  coordinates loses cells (`C55_offset_loses_cells`).
* C45 – two layouts of throughput 1/2 are reported as strongly equivalent although the documentation reserves STRONG
  for 1/1 (`C45_strong_with_throughput_two`); if the SAT solver gives up, equivalent designs are reported as not
  equivalent (`C45_resource_limit_reported_as_no`).
* C47 – `determine_clocking` rejects layouts that are already correctly clocked if a path from the first input
  forks: the recursion that breaks symmetries was meant to follow one fanout only, but `foreach_fanout` ignores the
  return value between zones (`C47_clocked_layout_rejected`). It rejects wires above empty tiles, as the lookup of the
  missing variable yields variable 0 (`C47_wire_above_empty_tile_rejected`), and produces an invalid clocking for gates
  in the crossing layer (`C47_gate_in_crossing_layer`).
* C56 – wires that are marked dead (C49) and gates in the crossing layer are not checked for crossings
  (`C56_crossed_gate_missed`, `C56_gate_in_crossing_layer_missed`); empty layouts have no violations although they have
  no inputs and outputs (`C56_empty_layout_passes`).
* C57 – `transpose` and `merge` index gates as `g[x][y]` with `x < GateSizeX`, although gates have `GateSizeY` rows: for gates
  that are not square, `rotate_90`, `rotate_270` and `merge` access them out of bounds (`C57_non_square_rotation_undefined`,
  `C57_non_square_merge_undefined`).
* C58 – `sidb_bestagon_library::set_up_gate` returns the fan-out gate before it looks for a wire above the tile, and the empty
  gate for that wire: the wire above a fan-out is lost (`C58_bestagon_wire_above_fanout_lost`).
* C59 – the post-layout optimization of QCA ONE recognizes the ends of wires in the crossing layer by their having at most one
  neighbor. Two connections between the same places that change the layer in opposite directions are not recognized and are
  swapped in the cell-level layout (`C59_qca_layer_swap`).
* C59 – it also takes input and output cells in the crossing layer for ends of wires and overwrites the ground cells below them,
  so that inputs are lost (`C59_qca_crossing_io_lost`).
* C60: `orthogonal` produces wrong layouts if a node drives an output and another gate (`C60_shared_output_wrong`): `is_eastern_po_orientation_available` looks at the first fanout only, and wires to outputs can overwrite wires placed on the crossing layer.
* C60: `orthogonal` passes the fanins of two-input gates in the order of their tiles, so that gates like `create_lt` may get their fanins swapped (`C60_asymmetric_gate_wrong`).
* C60: a gate with the same fanin twice becomes its own fanin in the layout of `orthogonal` (`C60_double_fanin_wrong`).
* C61: `hexagonalization` determines the column offset from the ground layer only; a tile of the crossing layer above an empty tile can get a negative column, which wraps around (`C61_false_crossing_only`).
* C61: `hexagonalization` creates outputs last, so gates reading an output tile are connected to the constant 0 (`C61_false_output_read`).
* C62: `operational_domain` accepts step sizes finer than 1e-6 although parameter points are compared with that resolution: different grid points share one entry, and the status of one is reported for the other (`C62_false_fine_steps`).
* C62: a parameter value inside [min, max] but beyond the last value of the range has no step point; `operational_domain_ratio` with such a point ends in an exception inside a `noexcept` function (`C62_false_step_point`).
* C63: two-dimensional contour tracing never ends when it starts from an isolated operational point (`C63_curve_hangs`, `C63_false_isolated`).
* C63: if an operational region touches the lower bound of the first parameter, the two-dimensional trace stops after three points (`C63_left_border`); the inference then spreads over the whole grid, marks non-operational points as operational and suppresses the contours of further samples, contrary to the documentation (`C63_false_contours`).
* C64: `is_ground_state` asserts that the heuristic has no more ground states than the exact simulation; a heuristic that misses a unique ground state but finds two distributions of the next energy violates it, so that debug builds abort where release builds answer false (`C64_false_abort`).
* C65: `calculate_energy_and_state_type_with_kinks_rejected` lists every rejected state also as accepted and then skips the remaining states of that energy: the ground state always counts as correct and the error probability never exceeds one half (`C65_false_kinks`, `C65_false_kinks_transparent`, `C65_false_kinks_half`).
* C65: states that occur twice in a simulation result are counted twice by the gate-based occupation probability although the energy distribution counts them once (`C65_false_duplicates`).
* C65: a state that the energy distribution lists above the ground state is not counted as excited if it is less than two margins above it (`C65_false_close_states`).
* C65: without a simulation result the critical temperature is the maximal temperature for non-gate layouts, but 0 for gates (`C65_no_result`).
* C66: QuickSim runs without a result are not stored (the branch that should store an empty result tests an optional that is known to have a value): they do not lower the accuracy, and if all runs fail, accuracy and time are NaN (`C66_false_failed_runs`, `C66_no_runs`).
* C67: the connections blocked for a spur include those of paths that share the root, which excludes the spur itself, so paths using these connections later are lost: on an empty 3x3 grid five paths from the centre to a corner include one over nine tiles while two over seven are never found (`C67_false_k_shortest`), and the paths are not ordered by length (`C67_false_order`).
* C67: the obstruction sets are shared with the layout passed as a constant, and clearing the temporary obstructions also removes the user's obstruction of the source (`C67_false_obstructions`).
* C67: one path is returned for k = 0 (`C67_false_zero`).
* C68: a wire that leads downwards on both sides of its topmost pair is split in two, since the walk starts there and follows one direction only (`C68_false_wires`).
* C68: without a type, `detect_bdl_pairs` leaves out dots of type LOGIC although it claims to detect the pairs of all types (`C68_false_all_types`).
* C69: the filter takes every dot outside of canvas and wires to be negatively charged and rejects operational gates in which such a dot is neutral (`C69_false_filter`).
* C69: `operational_input_patterns` lists a pattern for which the simulation finds no charge distribution, although `is_operational` is NON_OPERATIONAL because of it (`C69_false_patterns`).
* C69: output pairs are numbered by position, output wires by where they begin; if the orders differ, no layout with two different output functions is found operational without kinks (`C69_false_output_order`).
* C70: a constant cell with a name is written with a designator and read as a normal cell (`C70_false_constant`).
* C70: names lose their white space (`C70_false_name`), constants their clock numbers and cells in odd layers any mode other than VERTICAL (`C70_false_mode_and_clock`).
* C70: clock numbers of two digits move the cells after them and are read as one digit (`C70_false_clock`).
* C71: gates that no output needs are dropped (`C71_false_dangling`), and inputs whose tile was cleared come back at the origin (`C71_false_cleared_input`).
* C71: OPEN layouts with three phases are read with four and lose connections (`C71_false_open3`); clock numbers of the crossing layer are lost, and connections with them (`C71_false_crossing_clock`).
* C71: a gate with connections along which no data flows is written with fewer inputs and read as another function (`C71_false_unclocked`) or not at all (`C71_false_unreadable`).
* C71: the order of outputs changes if one reads a later one (`C71_false_output_order`).
* C72: with counted complements, a network whose depth is attained by a complemented output has no critical path (`C72_false_critical`).
* C72: nodes that no output depends on have no level, and `level` throws for them (`C72_false_level`).
* C73: a gate that reads a node twice, and all that depends on it, is missing from the order (`C73_false_twice`): its fanins count twice and its fanout once.
* C73: contrary to its documentation, the view visits nodes that no output depends on (`C73_false_reachable`).
* C74: a network with an input or a gate that no output needs ends the program when the view is constructed (`C74_false_unused`).
* C74: `update_ranks` does not reset the width (`C74_false_width`).
* C74: `foreach_node` and `foreach_gate` do not end when their function returns false: they go on with the next rank (`C74_false_stop`).
* C74: given ranks are taken without a check (`C74_false_given`).
* C75: `initialize_distance_map` writes out of bounds for every layout with more than one layer (`C75_false_layers`); its vectors have the size of the ground layer.
* C75: `distance_map_functor` gives distances of other coordinates for coordinates beyond the layout (`C75_false_beyond`).
* C75: a cache answers with distances in an earlier layout or an earlier state of the layout (`C75_false_stale`).
* C76: `exact` reads the first element of an empty vector of fanins for constant outputs (exact.hpp, `assign_layout`); not covered by the theorem.
* C76: on hexagonal layouts, no constraints against cycles are generated for 2DDWAVE3, whose zones form cycles there (`C12_2ddwave3_hexagonal_cyclic`).
* C77: with several threads, `explore_asynchronously` increments the iterator before it is read, so that the first aspect ratio, 1 × lower bound, is never examined (exact.hpp:2907-2908; `C77_async_first`). `C77_false_async` is a network and bounds for which one thread finds a layout and many threads find none in any schedule.
* C77: `static_cast<uint64_t>(ps.upper_bound_x * ps.upper_bound_y)` multiplies as `int`, which overflows (undefined behaviour) for the default bounds 65535 (exact.hpp:198, 3098). If the product wraps around, the bound is right nevertheless (`upper_eq`).
* C77: `worker_aspect_ratio` is written by its thread and read by others without a lock (exact.hpp:2940, 2974), a data race; the model treats it as atomic.
* C78: a drawn coordinate is not checked for being occupied (random_sidb_layout_generator.hpp:149-157): an input or output of the skeleton within the area becomes a logic dot, and the primary input or output is gone (`C78_false_inputs`).
* C78: with positive charges forbidden, an occupied coordinate that is drawn while positive charges can occur is set to empty (random_sidb_layout_generator.hpp:158-162), so dots of a skeleton in which they can occur are removed and replaced by others (`C78_false_forbidden`).
* C78: with positive charges required (`MAY_OCCUR`), the generator calls itself without limit (random_sidb_layout_generator.hpp:167-171), also if the requested dots could not be placed at all; `maximal_attempts` does not bound this (`C78_false_terminates`).
* C78: two opposite corners other than upper left and lower right give an undefined distribution in `random_coordinate` (`C78_other_corners`), while `all_coordinates_in_spanned_area` accepts them (C05).
* C79: QuickCell prunes with `is_layout_invalid` whatever `op_condition` says (design_sidb_gates.hpp:606-636), while `is_operational` filters only if kinks are rejected (is_operational.hpp:951-955): gates that are operational with kinks tolerated are discarded (`C79_false_kinks`).
* C79: positions that are occupied are skipped, not excluded (design_sidb_gates.hpp:722-732, 752-763): with dots of the skeleton in the canvas, layouts have fewer dots than requested and are returned repeatedly (`C79_false_fewer`).
* C79: with `number_of_canvas_sidbs` = 0 nothing is returned although the skeleton may be operational (`C79_false_zero`, from C28).
* C79: exhaustive design places no dot on a defect but keeps the rest of the combination (design_sidb_gates.hpp:724-730), so layouts with fewer dots are returned; QuickCell discards such combinations (755-760).
* C79: if `std::thread::hardware_concurrency()` returns 0, as the standard allows, the number of items per thread is a division by zero (design_sidb_gates.hpp:256, 431, 645; `C79_no_threads`).
* C79: the random designer does not end if there is no gate (`C79_random_forever`), and returns nothing without trying if there are no canvas layouts (`C79_random_nothing`).
* C79: `run_quickcell` writes `params.operational_params` from all threads without a lock (design_sidb_gates.hpp:449-450): a data race, although all write the same value. Not expressed in the model.
* C79: `run_random_design` erases entries of the defect map while iterating over it (design_sidb_gates.hpp:337-345). Not expressed in the model.
* C80: with the descending search, an instance that is unsatisfiable for all numbers of colors (clique_size_color_frequency, as in the example of the note in graph_coloring.hpp:236-240) leads to a null pointer that is dereferenced; the other tactics fall back to the heuristic (`C80_false_descending`).
* C80: the clauses of the lexicographic symmetry breaking are tautologies, as the inner loop includes the vertex itself (`C80_lexicographic_vacuous`): they exclude no coloring, contrary to their documentation.
* C80: on a graph without vertices the descending search counts down below zero (`Found.wrapped` in the model).
* C81: with `crossings` on a layout whose height is one layer, `above` of a tile is the tile itself, so the second of two crossing wires replaces the first (routing_utils.hpp:207-208) and `true` is returned (`C81_false_flat`).
* C81: two objectives with the same source and target are never routed together, although disjoint routes may exist (generate_edge_intersection_graph.hpp:204, 228; `C81_false_parallel`), e.g. both inputs of a gate from one fanout.
* C81: an objective whose source is its target yields a path of one coordinate, for which `cbegin + 1 .. cend - 1` is an invalid range (generate_edge_intersection_graph.hpp:210). Excluded by the hypotheses.
* C81: with `partial_sat` a call without partial routing may return `false` although the objectives can be routed together, depending on which minimal coloring the solver returns.
* C82: moving a defect onto a defective position loses the moved defect, and moving it onto its own position removes it (sidb_defect_surface.hpp, move_sidb_defect uses `emplace` and then `erase`; `C82_false_occupied`, `C82_false_self`).
* C82: a dangling bond, silicon vacancy or arsenic defect of charge 0, such as every defect read from a file, is counted neither as charged nor as neutral (`C82_false_partition`).
* C83: `all_affected_sidbs` accepts distances of type uint64_t and passes them to `affected_sidbs`, which accepts uint16_t: a distance of 65536 acts as 0 (`C83_false_narrow`).
* C84: a row longer than the previous ones is accepted, and the positions missing from those rows count as intact (`C84_false_ragged`).
* C84: rows with commas, as Python lists have them, are skipped silently; the result is an intact surface of one position (`C84_false_commas`).
* C84: an index above INT_MAX escapes as std::out_of_range of std::stoi, not as the documented exception (`C84_unsupported`).
* C85: with SiQAD coordinates, corners of cells and defects are merged component by component (bounding_box.hpp:119-120): a cell in row 1 and a defect in row 2 yield a box down to row 3 (`C85_false_siqad_defects`).
* C85: gates outside of the aspect ratio, e.g. after `resize`, are not visited; if there are no others, the corners keep their initial values and the sizes wrap around (`C85_false_outside`).
* C86: transpositions of the last but one rank ignore the crossings with the last one (mincross.hpp:441, `r + 1 < depth()`), and those of inputs in networks of depth one are never considered: the result may have neighbours whose exchange removes crossings (`C86_false_local`).
* C86: `transpose_step` iterates over a copy of the rank that it does not update after an exchange: it goes on with nodes that are no neighbours, may add crossings and reports a wrong reduction (`C86_false_reduction`).
* C87: arsenic defects have no entry in `defect_type_to_name` (write_sqd_layout.hpp:166-180) nor in the reader's table; they come back as unknown defects (`C87_false_arsenic`).
* C87: permittivity and screening distance of neutral defects are not written (write_sqd_layout.hpp:382-384; `C87_false_neutral`).
* C87: layouts with negative cube coordinates are written without complaint, but the reader rejects the file (read_sqd_layout.hpp:200-203; `C87_false_negative`).
* C87: the layer of offset and cube coordinates is not written; cells above each other coincide (`C87_false_layer`, `C87_false_qca_layer`).
* C88: with SiQAD coordinates the dot index is truncated to one bit instead of being checked (read_sqd_layout.hpp:258-263): index 2 is read as 0 (`C88_false_index`).
* C88: the reader works on a copy of the target that shares its storage (read_sqd_layout.hpp:57, 160), so that a failed attempt leaves cells behind (`C88_false_atomic`).
* C88: reading into a layout resizes it to the positions of the file only (read_sqd_layout.hpp:151); cells it had before may end up outside (`C88_false_target`).
* C88: a label element without text is passed to std::string as a null pointer (read_sqd_layout.hpp:392-395), which is undefined behaviour, and malformed numbers raise std::invalid_argument instead of the documented sqd_parsing_error.
* C89: With multithreading the best cost is read twice and stored without comparing it again. If other threads change it in between, a complete layout is neither accepted nor pruned, and the code looks up the node after the last one, an access out of bounds (graph_oriented_layout_design.hpp:2025, 2138, 2156, 1568; C89_false_race). For the same reason a worse layout may replace a better one.
* C89: With return_first and one thread the layout is returned without restored names of inputs and outputs.
* C89: In the order from outputs to inputs, inputs that no output depends on are not placed: they have a node but no tile.
* C89: For nodes with two fanins, place is called with nodes of the layout cast to signals and is only harmless because the signals are moved afterwards.
* C90: find_valid_witness_partitioning for the positive charge takes the first element of the set of positive witnesses but erases the element of its iterator (ground_state_space.hpp:573-575), and afterwards inserts the first one again. From the second iteration on a witness is lost and another may be used twice; a multiset that a population stable assignment has is then discarded (C90_false_positive: five SiDBs, one negative, three positive). The ground state space and ClusterComplete lose valid configurations in base three.
* C91: in base three with the default limits ClusterComplete loses physically valid charge distributions (C91_false_loss: six SiDBs), see C90.
* C91: if the charge space of a cluster becomes empty because no charge state fits, get_next_bound dereferences the end of an ordered set (sidb_cluster_hierarchy.hpp:894-908); ClusterComplete is then undefined (C91_false_undefined).
* C91: the population criterion of ClusterComplete includes the end of the error margin, that of charge_distribution_surface::validity_check does not (C91_false_strict). The results of ClusterComplete and QuickExact therefore differ on such layouts.
* C92: threads without initial work are numbered from zero again (clustercomplete.hpp:1023-1026), so they skip the queue of another thread instead of their own; results are not affected, but a thread may end while there is work (C92_false_thieves).
* C93: the potential for the transition from neutral to negative leaves out neutral SiDBs that are nearer to the threshold to positive, and is infinite if there are no others, whereas that from neutral to positive takes all neutral SiDBs (C93_false_neutral; physical_population_stability.hpp:298-319).
* C94: band_bending_resilience.hpp:69-71 passes lyt instead of *bii to physical_population_stability. The iterator works on a clone of the layout (bdl_input_iterator.hpp:86), so all input patterns are ignored (C94_false_patterns).
* C95: the checks for inputs and outputs that are not in the ground layer or not at a border (wiring_reduction.hpp:1247-1270) return from the lambda given to foreach_pi and foreach_po only, so that wiring reduction goes on after them.
* C96: is_single_wire (wiring_reduction.hpp:421-426) passes a truth value instead of a node to is_fanout because of a misplaced parenthesis, so fan-outs are not excluded; harmless for the cuts, as fan-outs are obstructed elsewhere. In the vertical special case for crossings (588-590) the second test looks at row y - i, where by symmetry with the horizontal case it should be row y - 1.
* C98: the vertical special case of crossings tests row y - i, where the symmetric horizontal case tests column x (wiring_reduction.hpp:588-590).
* C99: with STAY_ON_ORIGINAL_DIMER and both variations positive, the corners of cube and offset coordinates are overwritten and displacements by columns are lost (displacement_robustness_domain.hpp:460-467); SiQAD coordinates keep them (C99_false_columns).
* C99: combinations with two SiDBs at the same position count towards the limit of a random analysis, so that no layout at all may be analysed although the code promises at least one (displacement_robustness_domain.hpp:527, 550-554; C99_false_one).
* C100: the potential is compared with the lower bound of neutral SiDBs instead of the upper bound of negative ones, so that designs within the error margin are reported to be impossible although the output SiDB can be negative (is_sidb_gate_design_impossible.hpp:83-85, 95-97; C100_false_margin).
* C100: with simulation base three, a positively charged SiDB next to the output makes it negative although the design is reported to be impossible (C100_false_positive).
* C100: a gate with a constant output can work although one SiDB of its output pair is never negative (C100_false_constant).
* C101: with the definition OPERATIONALITY_CHANGE a position is influential if the layout with the defect does not work, so that in a layout that never works each defect is called influential although it changes nothing (defect_influence.hpp:584-591; C101_false_operationality).
* C101: without a specification the default definition OPERATIONALITY_CHANGE calls no defect influential; the static_assert(true, ...) meant to reject this never fails (defect_influence.hpp:623-626; C101_false_specification).
* C101: defects that make positive charges possible are called influential without comparing ground states (defect_influence.hpp:662-665; C101_false_positive).
* C101: the clearance ignores positions between grid points, so that influential defects farther away than the clearance may exist (defect_influence.hpp:198-199; C101_false_grid).
* C102: degree returns the smaller one of the degree of the underlying layout and the number of incoming plus outgoing zones, and this is always the former, so that the additional connections of synchronization elements are never counted, contrary to its documentation (synchronization_element_layout.hpp:340-345; C102_degree_ignores, C102_false_degree).
* C103: max_gate_relocations does not limit the positions tried for outputs (post_layout_optimization.hpp:1162, 1185; C103_false_limit).
* C103: layouts whose inputs or outputs are not at the border are reported as invalid but optimized nevertheless, as the return statements only leave lambda functions (post_layout_optimization.hpp:1248-1271; C103_false_rejected).
* C104: for potentials that are not positive the loop never ends, in exact arithmetic, as the screened potential is always positive (potential_to_distance_conversion.hpp:51; C104_false_ends). In floating-point arithmetic it ends only for zero, when the exponential underflows, and never for negative potentials.
* C105: for gate-level layouts inputs are counted as buffers or fan-outs, although inputs are not to be counted and those of technology networks are not, because is_buf of layouts does not exclude inputs (count_gate_types.hpp:98-113, 276-280; gate_level_layout.hpp:881-884; C105_false_layout).
* C106: if a gate has unsupported ports or any other error occurs, the function prints a message and returns an empty layout instead of throwing (on_the_fly_sidb_circuit_design.hpp:198-209, 218; C106_false_empty).
* C107: for an empty stream or a file that cannot be opened, size() - 1 wraps around, so next reads an element that does not exist instead of returning nullopt (tt_reader.hpp:61; C107_false_empty).
* C107: one digit is always read as a function of two variables (tt_reader.hpp:69; C107_false_vars).
* C109: the text of a positive SiDB is '+', although the documentation gives the example "-101..." (sidb_charge_state.hpp:100, 130; C109_text).
* C112: networks are sorted by their numbers of gates, although the documentation says by their vertex counts (network_reader.hpp:148, 154-158; C112_false_vertices).
* C113: of the functions listed for and-xor with constant inputs, !a*b is not one it computes then, and NAND, which it computes, is not listed (technology_mapping_library.hpp:92-95; C113_false_and_xor). The mapper may thus use a gate that the technology does not provide.
* C113: if constant inputs are enforced, parameters are accepted for MIGs although the library has no majority gate (technology_mapping.hpp:380-393, 461-469; C113_false_mig).
* C115: write_qcc_layout.hpp:186-195 compares the column of an output relative to the bounding box with the width of the whole layout, so a layout whose first column is empty is refused although its pins are on its borders (C115_false_offset).
* C115: the exception of write_qcc_layout.hpp:113-118 speaks of layouts without designated pins, but such layouts are accepted (C115_false_pins).
* C116: write_qll_layout.hpp:264-274 writes inputs and outputs to the layer z although all other cells are written to 2z, so that pins in upper layers are at the place of connections between layers (C116_false_pins).
* C117: write_qll_layout.hpp:417 says that inputs and outputs are not considered among the cells, but for iNML the table of components (94-98) has them, so each is written twice at the same place (C117_false_once).
* C118: restore_signal_names is said to transfer all signal names but only visits fanins of nodes (name_utils.hpp:197-198), so a named signal that only drives an output of a network whose outputs are no nodes loses its name (C118_false_driver).
* C118: the mapping ignores complements (name_utils.hpp:193), so the name of a complemented signal replaces the name of the signal (C118_false_complement).
* C119: magcad_magnet_count adds a quarter of the inverters to the number of all cells (magcad_magnet_count.hpp:42), so that a chain of four counts as five instead of one (C119_false_chains). The number is written to QCC files.
