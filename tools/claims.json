{
 "C01": {
  "status": "proved",
  "theorems": [
   "c01_new_with",
   "c01_call_log",
   "c01_calls_once",
   "c01_calls_exact",
   "c01_rejects",
   "Sound.lawful"
  ],
  "note": "Stateful closures (FnMut); the call log is exactly the specified sequence; too large sizes panic, never UB. `Lawful` holds of every shape listed (Sound.lawful)."
 },
 "C02": {
  "status": "proved",
  "theorems": [
   "c02_node_weight",
   "c02_c03_stateful",
   "Sound.lawful"
  ],
  "note": "Coordinates whose shear overflows isize in debug builds are the subject of C28. `Lawful` holds of every shape listed (Sound.lawful)."
 },
 "C03": {
  "status": "proved",
  "theorems": [
   "c03_edge_weight",
   "c02_c03_stateful",
   "Sound.lawful"
  ],
  "note": "As C02. `Lawful` holds of every shape listed (Sound.lawful)."
 },
 "C04": {
  "status": "proved",
  "theorems": [
   "c04_node_count",
   "c04_to_index",
   "c04_from_index",
   "c04_to_index_inj",
   "Sound.lawful"
  ],
  "note": "`Lawful` holds of every shape listed (Sound.lawful)."
 },
 "C05": {
  "status": "proved",
  "theorems": [
   "c05_node_identifiers",
   "c05_nodes_exact",
   "c05_len",
   "Sound.lawful"
  ],
  "note": "`Lawful` holds of every shape listed (Sound.lawful)."
 },
 "C06": {
  "status": "proved",
  "theorems": [
   "c06_node_references",
   "c06_node_references_exact",
   "Sound.lawful"
  ],
  "note": "`Lawful` holds of every shape listed (Sound.lawful)."
 },
 "C07": {
  "status": "proved",
  "theorems": [
   "c07_neighbors",
   "c07_neighbors_exact",
   "c07_neighbors_length",
   "Sound.lawful",
   "c07_neighbors_call"
  ],
  "note": "`Lawful` holds of every shape listed (Sound.lawful)."
 },
 "C08": {
  "status": "proved",
  "theorems": [
   "c08_symmetric",
   "Sound.lawful",
   "c08_neighbors_directed"
  ],
  "note": "`Lawful` holds of every shape listed (Sound.lawful)."
 },
 "C09": {
  "status": "proved",
  "theorems": [
   "c09_is_adjacent",
   "c09_get_direction",
   "c09_get_direction_sound",
   "Sound.lawful"
  ],
  "note": "`Lawful` holds of every shape listed (Sound.lawful)."
 },
 "C10": {
  "status": "proved",
  "theorems": [
   "c10_edges",
   "c10_targets",
   "c10_edge_exact",
   "Sound.lawful"
  ],
  "note": "`Lawful` holds of every shape listed (Sound.lawful)."
 },
 "C11": {
  "status": "proved",
  "theorems": [
   "c11_undirected_weight",
   "c11_undirected_iter",
   "Sound.lawful"
  ],
  "note": "`Lawful` holds of every shape listed (Sound.lawful)."
 },
 "C12": {
  "status": "partial",
  "theorems": [
   "c12_outgoing",
   "c12_incoming_partial",
   "c12_incoming_exact",
   "c12_incoming_debug_panics",
   "Sound.lawful"
  ],
  "note": "False of the code for directed graphs in debug builds (a debug_assert panics): negation proved. The rest, including directed graphs in release builds, is proved. `Lawful` holds of every shape listed (Sound.lawful)."
 },
 "C13": {
  "status": "proved",
  "theorems": [
   "c13_edge_references",
   "c13_keys",
   "c13_edge_exact",
   "Sound.lawful"
  ],
  "note": "`Lawful` holds of every shape listed (Sound.lawful)."
 },
 "C14": {
  "status": "proved",
  "theorems": [
   "c14_handshake",
   "c14_handshake_iter",
   "Sound.lawful"
  ],
  "note": "`Lawful` holds of every shape listed (Sound.lawful)."
 },
 "C15": {
  "status": "partial",
  "theorems": [
   "c15_edge_references_id",
   "c15_edges_id_partial",
   "c15_edges_id_directed",
   "c15_edges_id_wrong",
   "c15_counterexample",
   "c15_incoming_id_partial",
   "c15_incoming_id_wrong",
   "c15_incoming_id_directed_wrong",
   "Sound.lawful"
  ],
  "note": "False of the code for backward references of undirected graphs and most Incoming references: negations proved; the remaining cases proved. `Lawful` holds of every shape listed (Sound.lawful)."
 },
 "C16": {
  "status": "proved",
  "theorems": [
   "c16_step",
   "c16_refines_map",
   "c16_only_map",
   "c16_last_node_write",
   "c16_last_edge_write",
   "c16_independent",
   "Sound.lawful"
  ],
  "note": "Histories of reads, writes and iterations refine a pair of maps. The shapes of C31-C33: c57_refines_map (see C57). `Lawful` holds of every shape listed (Sound.lawful)."
 },
 "C17": {
  "status": "partial",
  "theorems": [
   "c17_visit_map_partial",
   "c17_unvisit_answer",
   "c17_unvisit_wrong",
   "Stored.storable"
  ],
  "note": "False of the code for the result of unvisit (true for every node): negation proved; everything else proved. Stated for every built-in shape, also those of C31-C33. `Storable` holds of every built-in shape (Stored.storable)."
 },
 "C18": {
  "status": "partial",
  "theorems": [
   "c18_node_identifiers",
   "c18_node_references",
   "c18_neighbors",
   "c18_edges_of",
   "c18_edges",
   "c18_edges_directed",
   "c18_edge_references_state",
   "c18_edge_references_partial",
   "c18_edge_references_fused",
   "c18_edge_references_overflow",
   "c18_edge_references_wrong_bound",
   "Sound.lawful",
   "Stored.storable"
  ],
  "note": "False of the code for edge_references when nodes x directions overflows usize: panic (debug) or wrong bound (release) proved. Everything else proved. For every built-in shape, also those of C31-C33, except that edges(n) and edges_directed(n) are restricted to the others there (see C58). `Lawful` holds of every shape listed (Sound.lawful). `Storable` holds of every built-in shape (Stored.storable)."
 },
 "C19": {
  "status": "proved",
  "theorems": [
   "c19_lookups",
   "c19_iterators",
   "c19_edges",
   "c19_edges_directed",
   "Sound.lawful",
   "Stored.storable"
  ],
  "note": "At every state an iterator can reach, also past its end. For every built-in shape, also those of C31-C33, except that edges(n) and edges_directed(n) are restricted to the others there (see C58). `Lawful` holds of every shape listed (Sound.lawful). `Storable` holds of every built-in shape (Stored.storable)."
 },
 "C20": {
  "status": "partial",
  "theorems": [
   "c20_off_graph_faults",
   "c20_no_items_partial",
   "Stored.storable"
  ],
  "note": "False of the code: edges of an off-graph coordinate panic (debug) or are undefined behaviour (release), proved for every shape. `Storable` holds of every built-in shape (Stored.storable)."
 },
 "C21": {
  "status": "partial",
  "theorems": [
   "c21_len_panics",
   "c21_remaining_partial",
   "Stored.storable"
  ],
  "note": "False of the code: len() panics, proved. Stated for every built-in shape, also those of C31-C33. `Storable` holds of every built-in shape (Stored.storable)."
 },
 "C22": {
  "status": "partial",
  "theorems": [
   "c22_drop_ub",
   "c22_double_drop",
   "c22_drop_partial",
   "Stored.storable"
  ],
  "note": "False of the code for edge weights with destructors on every nonempty graph (proved); node weights and destructor-free edge weights proved correct. Stated for every built-in shape, also those of C31-C33. `Storable` holds of every built-in shape (Stored.storable)."
 },
 "C23": {
  "status": "partial",
  "theorems": [
   "c23_clone_ub",
   "c23_eq_ub",
   "c23_hash_ub",
   "c23_nodes_partial",
   "c23_eq_exact",
   "c23_eq_never_true",
   "c23_clone_hash_exact",
   "Stored.storable"
  ],
  "note": "False of the code on every nonempty graph whose edge type is not zero-sized: uninitialised edge slots are read (proved); the node part proved correct. Zero-sized edge types are C81. Stated for every built-in shape, also those of C31-C33. `Storable` holds of every built-in shape (Stored.storable)."
 },
 "C24": {
  "status": "proved",
  "theorems": [
   "c24_square",
   "c24_square_directed",
   "c24_adjacent"
  ],
  "note": ""
 },
 "C25": {
  "status": "proved",
  "theorems": [
   "c25_diagonal",
   "c25_diagonal_directed",
   "c25_adjacent"
  ],
  "note": ""
 },
 "C26": {
  "status": "proved",
  "theorems": [
   "c26_hex_offset",
   "c26_hex_offset_directed",
   "c26_adjacent",
   "c26_bases"
  ],
  "note": ""
 },
 "C27": {
  "status": "proved",
  "theorems": [
   "c27_axial_r",
   "c27_axial_r_directed",
   "c27_axial_q",
   "c27_axial_q_directed",
   "c27_hex_axial"
  ],
  "note": "For h, v below isize::MAX; component types other than isize under the hypothesis that they hold the coordinates (see C39)."
 },
 "C28": {
  "status": "partial",
  "theorems": [
   "c28_to_offset_exact",
   "c28_node_weight_partial",
   "c28_debug_panics",
   "c28_in_graph"
  ],
  "note": "False of the code in debug builds: looking up (isize::MAX, v-1) panics (proved). Exact behaviour on every pair of machine integers proved."
 },
 "C29": {
  "status": "proved",
  "theorems": [
   "c29_offset_axial_iso",
   "c29_directed"
  ],
  "note": ""
 },
 "C30": {
  "status": "proved",
  "theorems": [
   "c30_hex_offset_loop",
   "c30_row_cycle",
   "c30_bases"
  ],
  "note": ""
 },
 "C31": {
  "status": "partial",
  "theorems": [
   "c31_exact",
   "c31_exact_directed",
   "c31_partial",
   "c31_off_graph",
   "c31_violated",
   "c31_empty_diverges",
   "c31_loop_exact",
   "c31_wide_panics",
   "c31_wide_diverges"
  ],
  "note": "False of the code: going east past the end of a row whose shear is not 0 returns a coordinate outside the graph, and a map of width 0 makes the move diverge (both proved); widths beyond isize panic (debug) or diverge (release, isize::MAX + 1), also proved. The exact result of every move from a node is proved; so is the property for the moves that do not hit the defect. Assumes h*v < isize::MAX, which holds for constructible graphs of sized weights."
 },
 "C32": {
  "status": "partial",
  "theorems": [
   "c32_exact",
   "c32_move_iff",
   "c32_stays_partial",
   "c32_leaves_graph",
   "c32_back_partial",
   "c32_back_wrong",
   "c32_violated",
   "c32_east_west"
  ],
  "note": "False of the code: NE leaves the graph from the last row, and the moves that stay in their row do not come back. Exactly which moves stay and which come back is proved."
 },
 "C33": {
  "status": "partial",
  "theorems": [
   "c33_exact",
   "c33_move_iff",
   "c33_stays_partial",
   "c33_north_south_wrong",
   "c33_back_partial",
   "c33_back_wrong"
  ],
  "note": "False of the code: north and south move east and west; exactly which moves come back is proved. That a successful move returns a node is proved in full."
 },
 "C34": {
  "status": "partial",
  "theorems": [
   "c34_exact",
   "c34_move_partial",
   "c34_move_node",
   "c34_missing",
   "c34_violated",
   "c34_bijection",
   "c34_alias",
   "c34_adjacent",
   "c34_adjacent_partial",
   "c34_adjacent_wrong",
   "c34_new_with",
   "c34_edges_readable",
   "c34_edges_partial",
   "c34_edges_ub",
   "c34_alias_edge",
   "c34_alias_edge_ub"
  ],
  "note": "False of the code: eastward moves compare the doubled coordinate with the undoubled width, so the eastern half cannot be entered from the west; is_adjacent disagrees with neighbors there, and edges of every node in the eastern half reads uninitialised memory (all proved). Proved in full: positions and nodes are in bijection, successful moves lead to nodes. The exact result of every move, and exactly which nodes' edges are safe, are proved. The safe edge_weight of a coordinate of the wrong parity reads uninitialised memory on every map of 2 x 2 or more (proved, with the exact condition)."
 },
 "C35": {
  "status": "partial",
  "theorems": [
   "c35_layout_wrong",
   "c35_violated",
   "c35_common_partial",
   "c35_exact"
  ],
  "note": "False of the code: IS_FLAT_TOP is never overridden, so OddQ/EvenQ use the pointy-top layout. Proved which layout is used, that it differs from the documented one, and where they agree."
 },
 "C36": {
  "status": "proved",
  "theorems": [
   "c36_square",
   "c36_square_directed",
   "c36_diag",
   "c36_diag_directed",
   "c36_hex_r",
   "c36_hex_dr",
   "c36_hex_q",
   "c36_hex_dq",
   "c36_faults"
  ],
  "note": "One theorem per axis type, each an instance of the structure LawfulAxis (inverse bijections, rejection of every other index, opposite vectors)."
 },
 "C37": {
  "status": "proved",
  "theorems": [
   "c37_index_range",
   "c37_from_to",
   "c37_to_from",
   "c37_rejects"
  ],
  "note": "Parametric in the axis type (IndexedAxis); LawfulAxis.indexed shows the crate's axis types qualify."
 },
 "C38": {
  "status": "partial",
  "theorems": [
   "c38_dr_roundtrip",
   "c38_dq_roundtrip",
   "c38_dq_moves_partial",
   "c38_dr_rotated",
   "c38_dr_moves_wrong"
  ],
  "note": "Round trips proved for both types, same-vector proved for AxisDQ. False of the code for AxisDR: every converted direction is turned by 60 degrees (c38_dr_rotated, c38_dr_moves_wrong)."
 },
 "C39": {
  "status": "proved",
  "theorems": [
   "c39_r",
   "c39_dr",
   "c39_q",
   "c39_dq",
   "c39_too_large",
   "c39_neighbors_outside"
  ],
  "note": "Same observable behaviour for every integer range that holds one step around the map. c39_too_large: without that, construction faults. c39_neighbors_outside: outside the claim, off-graph coordinates of a narrow type are undefined behaviour in release builds."
 },
 "C40": {
  "status": "proved",
  "theorems": [
   "c40_connected",
   "c40_longer",
   "Sound.lawful"
  ],
  "note": "With a bound on the number of steps. `Lawful` holds of every shape listed (Sound.lawful)."
 },
 "C41": {
  "status": "proved",
  "theorems": [
   "c41_nodes",
   "c41_safe",
   "c41_complete",
   "Sound.lawful"
  ],
  "note": "The search is any program that follows items of neighbors and targets of edges, possibly abandoning iterators. `Lawful` holds of every shape listed (Sound.lawful)."
 },
 "C42": {
  "status": "partial",
  "theorems": [
   "c42_new_with",
   "c42_access",
   "c42_iterators",
   "c42_methods_partial",
   "c42_edge_size_wrong"
  ],
  "note": "False of the code for horizontal_edge_size/vertical_edge_size, which impl Shape for &S does not forward: c42_edge_size_wrong. Every other method agrees, and graphs over the reference behave the same."
 },
 "C43": {
  "status": "proved",
  "theorems": [
   "Sq.c43_new_with",
   "Sq.c43_call_log",
   "Sq.c43_calls_exact",
   "Sq.c43_calls_once",
   "Sq.c43_rejects",
   "Sq.c43_new"
  ],
  "note": "h * v must stay below isize::MAX + 1 elements (ndarray's limit); beyond that, and for h = 0 or an unlooped v = 0, new_with panics (c43_rejects)."
 },
 "C44": {
  "status": "proved",
  "theorems": [
   "Sq.c44_node_weight",
   "Sq.c44_edge_weight",
   "Sq.weights_eq"
  ],
  "note": ""
 },
 "C45": {
  "status": "partial",
  "theorems": [
   "Sq.c45_node_identifiers_partial",
   "Sq.c45_nodes_exact",
   "Sq.c45_len_partial",
   "Sq.c45_index_bijection_partial",
   "Sq.c45_node_references",
   "Sq.c45_zero_height_wrong",
   "Sq.c45_from_index_total"
  ],
  "note": "Proved for sides >= 1 that the index type can represent. False of the code for height 0 with a vertical loop: new_with accepts it and node_identifiers lists nodes that do not exist (c45_zero_height_wrong)."
 },
 "C46": {
  "status": "proved",
  "theorems": [
   "Sq.c46_neighbors",
   "Sq.c46_neighbors_nodes"
  ],
  "note": "For sides the index type can represent (C52)."
 },
 "C47": {
  "status": "proved",
  "theorems": [
   "Sq.c47_edges",
   "Sq.c47_meaning",
   "Sq.c47_other_end"
  ],
  "note": "For sides the index type can represent (C52)."
 },
 "C48": {
  "status": "proved",
  "theorems": [
   "Sq.c48_edge_references",
   "Sq.c48_exact",
   "Sq.c48_loop_exact",
   "Sq.c48_loop_total"
  ],
  "note": "For sides the index type can represent (C52)."
 },
 "C49": {
  "status": "partial",
  "theorems": [
   "Sq.c49_get_edge_id_partial",
   "Sq.c49_get_edge_reference_partial",
   "Sq.c49_forward_wrap_wrong"
  ],
  "note": "False of the code when stepping forward around a loop of at least two cells: the id returned is that of the edge starting at the first cell (c49_forward_wrap_wrong). Proved for every other node and direction."
 },
 "C50": {
  "status": "proved",
  "theorems": [
   "Sq.c50_formula",
   "Sq.c50_metric",
   "Sq.c50_nodes",
   "Sq.c50_edge",
   "Sq.c50_shortest",
   "Sq.c50_walk",
   "Sq.c50_looped_wrong"
  ],
  "note": "c50_looped_wrong shows the absence of loops is needed."
 },
 "C51": {
  "status": "partial",
  "theorems": [
   "Sq.c51_visit_map_partial",
   "Sq.c51_contents",
   "Sq.c51_unvisit_wrong",
   "Sq.c51_off_graph",
   "Sq.c51_graph_map"
  ],
  "note": "False of the code for unvisit on a node that is not visited: it returns true (c51_unvisit_wrong). Everything else behaves as a set."
 },
 "C52": {
  "status": "proved",
  "theorems": [
   "Sq.c52_built",
   "Sq.c52_lookups",
   "Sq.c52_iterators",
   "Sq.c52_too_large_wrong"
  ],
  "note": "c52_too_large_wrong: without the fit, node_identifiers repeats nodes."
 },
 "C53": {
  "status": "partial",
  "theorems": [
   "Sq.c53_safe_partial",
   "Sq.c53_edges_ub",
   "Sq.c53_get_edge_reference_ub",
   "Sq.c53_nodes_mut_ub",
   "Sq.c53_edges_exact",
   "Sq.c53_get_edge_reference_exact",
   "Sq.c53_get_edge_reference_iff"
  ],
  "note": "False of the code in release builds for indices off the graph and after replacing an array through nodes_mut; proved for nodes of graphs built by new_with."
 },
 "C54": {
  "status": "proved",
  "theorems": [
   "Sq.c54_refines_map",
   "Sq.c54_only_map",
   "Sq.c54_last_node_write",
   "Sq.c54_last_edge_write"
  ],
  "note": ""
 },
 "C55": {
  "status": "proved",
  "theorems": [
   "c55_new_uninit",
   "c55_unwritten_node",
   "c55_unwritten_edge",
   "Sound.lawful"
  ],
  "note": "The resulting graph is equal to the one new_with builds, not merely indistinguishable. `Lawful` holds of every shape listed (Sound.lawful)."
 },
 "C56": {
  "status": "proved",
  "theorems": [
   "Sq.c56_neighbors",
   "Sq.c56_edges",
   "Sq.c56_node_references",
   "Sq.c56_count"
  ],
  "note": "node_identifiers is in C45."
 },
 "C57": {
  "status": "proved",
  "theorems": [
   "c57_new_with",
   "c57_weights",
   "c57_node_references",
   "c57_edge_references",
   "c57_neighbors",
   "c57_refines_map",
   "Stored.storable"
  ],
  "note": "For the sound shapes, OddQ/EvenQ offset shapes (plain, directed, LoopEW), LoopEW axial shapes, the double-coordinate shape and references to them (the family Stored): histories of reads, writes and iterations refine a pair of maps (edges only of nodes whose edges were all announced, C58). `Storable` holds of every built-in shape (Stored.storable)."
 },
 "C58": {
  "status": "partial",
  "theorems": [
   "c58_edges_partial",
   "c58_edges_ub",
   "c58_offQ",
   "c58_offQLew",
   "c58_offQDirected",
   "c58_axRLew",
   "c58_axQLew",
   "c58_offQ_fails",
   "c58_offQLew_fails",
   "c58_axDRLew",
   "c58_axDQLew",
   "Stored.storable"
  ],
  "note": "False of the code on the flat-top offset shapes: exactly which nodes' edges reads an uninitialised slot is proved (c58_offQ, c58_offQLew). Holds on the directed flat-top and on the looped axial shapes. `Storable` holds of every built-in shape (Stored.storable)."
 },
 "C59": {
  "status": "proved",
  "theorems": [
   "c59_square",
   "c59_square_directed",
   "c59_diag",
   "c59_diag_directed",
   "c59_offset",
   "c59_offset_directed",
   "c59_loop",
   "c59_axial",
   "c59_axial_directed",
   "c59_axial_flat",
   "c59_axial_flat_directed",
   "Sound.lawful"
  ],
  "note": "Attained and minimal. Flat-top offset shapes are excluded: their moves are wrong (C31, C32). `Lawful` holds of every shape listed (Sound.lawful)."
 },
 "C60": {
  "status": "proved",
  "theorems": [
   "c60_square",
   "c60_square_directed",
   "c60_diag",
   "c60_diag_directed",
   "c60_offset",
   "c60_offset_directed",
   "c60_loop",
   "c60_axial",
   "c60_axial_directed",
   "c60_axial_flat",
   "c60_axial_flat_directed",
   "Sound.lawful"
  ],
  "note": "Closed forms; widths and heights 0 and 1 included. `Lawful` holds of every shape listed (Sound.lawful)."
 },
 "C61": {
  "status": "proved",
  "theorems": [
   "c61_point_top",
   "c61_flat_top",
   "c61_point_top_back",
   "c61_flat_top_back",
   "c61_fix"
  ],
  "note": "The bound usize::MAX itself is excluded: there the addition overflows (shown beside the theorems)."
 },
 "C62": {
  "status": "proved",
  "theorems": [
   "c62_to_offset",
   "c62_move",
   "c62_reads",
   "c62_raw",
   "c62_writes",
   "Stored.storable"
  ],
  "note": "All modelled shapes, including those with wrong moves. `Storable` holds of every built-in shape (Stored.storable)."
 },
 "C63": {
  "status": "proved",
  "theorems": [
   "c63_undirected",
   "c63_directed",
   "c63_is_directed",
   "Sound.lawful"
  ],
  "note": "`Lawful` holds of every shape listed (Sound.lawful)."
 },
 "C64": {
  "status": "proved",
  "theorems": [
   "c64_bfs",
   "c64_dfs"
  ],
  "note": "petgraph's traversal loops are transcribed as client programs (petgraph is not part of /repo); the crate's methods are the model's."
 },
 "C65": {
  "status": "proved",
  "theorems": [
   "c65_progress",
   "c65_terminates",
   "c65_dijkstra",
   "c65_completes",
   "Sound.lawful"
  ],
  "note": "petgraph's loop is transcribed as a client program (petgraph is not part of /repo); the crate's methods are the model's. `Lawful` holds of every shape listed (Sound.lawful)."
 },
 "C66": {
  "status": "partial",
  "theorems": [
   "Sq.c66_directions",
   "Sq.c66_moves",
   "Sq.c66_unchecked_partial",
   "Sq.c66_no_neighbour",
   "Sq.c66_start_wrong"
  ],
  "note": "False going backward from the first cell of an axis: panic in debug, a name of no edge in release, even if the axis is looped (c66_start_wrong). Proved everywhere else."
 },
 "C67": {
  "status": "proved",
  "theorems": [
   "Sq.c67_edge_count",
   "Sq.c67_handshake",
   "Sq.c67_new_edge_graph"
  ],
  "note": ""
 },
 "C68": {
  "status": "proved",
  "theorems": [
   "c68_bfs",
   "c68_dfs",
   "c68_connected"
  ],
  "note": "c68_bfs, c68_dfs for every modelled shape: exactly the nodes within reach; c68_connected: all nodes are, except on the double-coordinate shape (C72). petgraph's loops are transcribed as client programs."
 },
 "C69": {
  "status": "partial",
  "theorems": [
   "c69_progress_partial",
   "c69_completes_iff",
   "c69_result_partial",
   "c69_fails_axial",
   "c69_fails_offset"
  ],
  "note": "False of the code: no run is completed on LoopEW axial maps with a sheared row, nor on OddQ/EvenQ offset maps of the stated row numbers, whatever the start and the costs (proved). Proved: exactly when runs complete, that otherwise they end in a fault of edges(), and that a completed run has the least costs."
 },
 "C70": {
  "status": "proved",
  "theorems": [
   "c70_new_with",
   "c70_stops_at",
   "c70_needs_uninit",
   "c70_returned",
   "c70_unwinding",
   "Stored.storable"
  ],
  "note": "Closures are state transformers that may panic; the local array of MaybeUninit is dropped when unwinding. Values already made are leaked, which the theorem on slots makes visible. `Storable` holds of every built-in shape (Stored.storable)."
 },
 "C71": {
  "status": "proved",
  "theorems": [
   "c71_indices",
   "c71_node_identifiers",
   "c71_calls",
   "c71_is_adjacent",
   "c71_get_direction",
   "Stored.storable"
  ],
  "note": "Over the inductive family Stored (all modelled shapes); c71_is_adjacent over Single (all but double coordinates, whose is_neighbor is in C34). `Storable` holds of every built-in shape (Stored.storable)."
 },
 "C72": {
  "status": "proved",
  "theorems": [
   "c72_reach",
   "c72_search",
   "c72_misses",
   "c72_dijkstra"
  ],
  "note": "The set found is given exactly. It is a defect of move_coord_r (C34) that it is not the whole map."
 },
 "C73": {
  "status": "proved",
  "theorems": [
   "Sq.c73_bfs",
   "Sq.c73_dfs",
   "Sq.c73_progress",
   "Sq.c73_dijkstra",
   "Sq.c73_completes"
  ],
  "note": "petgraph's loops are modelled as client programs; the heap order is left open."
 },
 "C74": {
  "status": "proved",
  "theorems": [
   "Sq.c74_drops_once",
   "Sq.c74_total",
   "Sq.c74_calls"
  ],
  "note": "Vec::with_capacity is taken to succeed (memory is not modelled)."
 },
 "C75": {
  "status": "proved",
  "theorems": [
   "c75_torus",
   "c75_program",
   "c75_bfs",
   "c75_dfs",
   "c75_dijkstra",
   "c75_torus_graph",
   "Sound.lawful",
   "c75_program_state"
  ],
  "note": "For every Lawful shape; the torus of every size is one (also when it is degenerate, with loops and double edges). c75_program: new_with and any program of weight changes refines maps. Model restrictions on user implementations: methods without hidden state, at most eight directions, the methods listed in DESIGN.md not overridden. `Lawful` holds of every shape listed (Sound.lawful)."
 },
 "C76": {
  "status": "partial",
  "theorems": [
   "c76_new_with_partial",
   "c76_new_with_returns",
   "c76_node_weight_iff",
   "c76_edge_weight_iff",
   "c76_weights_safe_partial",
   "c76_loose_ub",
   "c76_count_ub",
   "c76_slip_ub"
  ],
  "note": "False: c76_loose_ub, c76_count_ub, c76_slip_ub are unbounded families of safe implementations with undefined behaviour in node_weight, new_with and edges. What holds: new_with is safe if COUNT is honest (c76_new_with_partial), succeeds if the methods return (c76_new_with_returns); exact conditions for node_weight(_mut) and edge_weight(_mut) (the _iff theorems); a coherent shape never makes these two unsafe, whatever its moves (c76_weights_safe_partial)."
 },
 "C77": {
  "status": "proved",
  "theorems": [
   "c77_new_with",
   "c77_empty",
   "c77_calls",
   "c77_nodes",
   "c77_program",
   "c77_program_only"
  ],
  "note": "Edge references are compared by source, target and weight; on this lattice source and target determine the direction. The sides must fit the legacy index type (C52 says what happens otherwise)."
 },
 "C78": {
  "status": "proved",
  "theorems": [
   "c78_new",
   "c78_square_default",
   "c78_new_s",
   "c78_const",
   "c78_const_axial",
   "Stored.storable"
  ],
  "note": "Shapes are values in the model, so S::default() appears as the value the Default implementation returns; a panicking Default of a weight is covered by C70. `Storable` holds of every built-in shape (Stored.storable)."
 },
 "C79": {
  "status": "proved",
  "theorems": [
   "c79_offset_order",
   "c79_flat_order",
   "c79_point_order",
   "c79_double_order",
   "c79_legacy_order",
   "c79_pairs",
   "Stored.storable",
   "c79_total",
   "c79_axes"
  ],
  "note": "The derived comparison is modelled as comparison of the fields in the order of declaration. No marker of the crate is flat-top (IS_FLAT_TOP is always false), so the flat-top case needs a marker written by a user. `Storable` holds of every built-in shape (Stored.storable)."
 },
 "C80": {
  "status": "proved",
  "theorems": [
   "c80_safe",
   "c80_read_iff",
   "c80_drain",
   "c80_square",
   "c80_slip"
  ],
  "note": "Sufficient contract proved for arbitrary shapes (records of functions); c80_read_iff is exact for a single read. Coordinates the shape does not recognise are excluded for edges(): there the release build is undefined behaviour (C20). Shapes are assumed to be deterministic functions."
 },
 "C81": {
  "status": "proved",
  "theorems": [
   "c81_new_with",
   "c81_reads",
   "c81_writes",
   "c81_clone",
   "c81_eq",
   "c81_hash",
   "c81_drop",
   "Stored.storable"
  ],
  "note": "Zero-sized edge types modelled by edge arrays whose slots all hold the one value of the type (Subsingleton E where it matters); c81_new_with shows that construction gives exactly this. `Storable` holds of every built-in shape (Stored.storable)."
 },
 "C82": {
  "status": "proved",
  "theorems": [
   "c82_runs",
   "c82_result",
   "c82_none_iff",
   "c82_least",
   "c82_steps",
   "c82_square",
   "Sound.lawful"
  ],
  "note": "Any entry of least estimate may be popped; the estimate need not be consistent. Costs and estimates are natural numbers, so the client's overflow is not modelled. None is characterised by reachability on lawful shapes and by the goal test alone on sound (connected) ones. `Lawful` holds of every shape listed (Sound.lawful)."
 },
 "C83": {
  "status": "partial",
  "theorems": [
   "Sq.c83_astar",
   "Sq.c83_least",
   "Sq.c83_distance_partial",
   "Sq.c83_distance_iff",
   "Sq.c83_toll_wrong",
   "Sq.c83_looped_wrong",
   "Sq.c83_unit_iff"
  ],
  "note": "Everything but optimality holds on all graphs. Optimality with distance(), for all costs, holds exactly on the graphs whose loops have at most two cells (c83_distance_iff, c83_distance_partial); around any longer loop there are costs for which every run misses the cheapest path (c83_toll_wrong), and around a loop of five or more cells even if all edges cost one (c83_looped_wrong). With all edges costing one it holds for all starts and goals exactly if no loop has more than four cells (c83_unit_iff)."
 },
 "C84": {
  "status": "proved",
  "theorems": [
   "c84_floyd_warshall",
   "c84_connected",
   "c84_steps",
   "c84_square",
   "Sound.lawful"
  ],
  "note": "floyd_warshall is modelled as in petgraph 0.8, over natural-number costs; K::max() is none, the negative-cycle check and the conversion to a HashMap are left out `Lawful` holds of every shape listed (Sound.lawful)."
 },
 "C85": {
  "status": "proved",
  "theorems": [
   "c85_components",
   "c85_connected",
   "c85_cyclic",
   "c85_forest",
   "c85_directed",
   "c85_square",
   "c85_diag",
   "c85_offset",
   "c85_axial",
   "c85_axial_flat",
   "c85_loop",
   "Sound.lawful"
  ],
  "note": "UnionFind is represented by the partition it stands for `Lawful` holds of every shape listed (Sound.lawful)."
 },
 "C86": {
  "status": "proved",
  "theorems": [
   "Sq.c86_floyd_warshall",
   "Sq.c86_components",
   "Sq.c86_cyclic"
  ],
  "note": "The results are stated for every result the search may return; the entries of the matrix are compared with the least cost over all walks along edges(). A loop of length one or two counts as a cycle, because edge_references lists the edge twice or a self-edge."
 },
 "C87": {
  "status": "proved",
  "theorems": [
   "c87_bipartite",
   "c87_colouring",
   "c87_square",
   "c87_square_directed",
   "c87_diagonal",
   "c87_diagonal_directed",
   "c87_hex_offset",
   "c87_hex_offset_directed",
   "c87_hex_loop",
   "c87_hex_axial_R",
   "c87_hex_axial_R_directed",
   "c87_hex_axial_Q",
   "c87_hex_axial_Q_directed",
   "c87_torus",
   "Sound.lawful"
  ],
  "note": "petgraph's algorithm as a client program; answers exact for every shape with lawful moves, then classified for each built-in shape `Lawful` holds of every shape listed (Sound.lawful)."
 },
 "C88": {
  "status": "proved",
  "theorems": [
   "Sq.c88_bipartite",
   "Sq.c88_even_loops"
  ],
  "note": "the same program on the legacy graph"
 },
 "C89": {
  "status": "partial",
  "theorems": [
   "c89_directed",
   "c89_undirected_partial",
   "c89_undirected_wrong",
   "c89_direction"
  ],
  "note": "False of the code for the undirected axes: their Direction type is the directed axis, whose blanket impl answers true for every direction, so backward directions claim to be forward (c89_undirected_wrong). Proved: directed axes, Direction<T> over any axis, and exactly the forward directions of the undirected axes."
 },
 "C90": {
  "status": "proved",
  "theorems": [
   "c90_visit_map",
   "c90_visit_safe",
   "c90_shared",
   "c90_neighbors_safe",
   "c90_direction_safe",
   "c90_index_safe",
   "c90_neighbors_iff",
   "c90_count_ub"
  ],
  "note": "no law of the shape is assumed; SafeCode: the methods of the implementation are safe code, so never undefined behaviour themselves"
 },
 "C91": {
  "status": "proved",
  "theorems": [
   "c91_spanning",
   "c91_count",
   "c91_total",
   "c91_tree",
   "Sound.lawful"
  ],
  "note": "Transcribed from petgraph 0.8; UnionFind by its partition; the heap may yield edges of equal weight in any order; weights compare as natural numbers do. `Lawful` holds of every shape listed (Sound.lawful)."
 },
 "C92": {
  "status": "proved",
  "theorems": [
   "Sq.c92_spanning"
  ],
  "note": "As C91, on the legacy graph."
 },
 "C93": {
  "status": "proved",
  "theorems": [
   "Sq.c93_new_raw",
   "Sq.c93_built",
   "Sq.c93_exact",
   "Sq.c93_replace",
   "Sq.c93_edges"
  ],
  "note": "new_raw modelled as it is (debug_assert of check_gen only). c93_exact characterises the constructed graphs among all triples of ndarray arrays; c93_edges holds for arrays of any sides. Whole is what ndarray guarantees of an Array2."
 },
 "C94": {
  "status": "proved",
  "theorems": [
   "c94_reads",
   "c94_writes",
   "c94_new_raw",
   "c94_lawful",
   "c94_derived",
   "c94_drop",
   "Sound.lawful",
   "Stored.storable",
   "c94_equal_any"
  ],
  "note": "A simulation between graphs of which one has more slots initialised, and the existence of the constructed graph underneath. Arrays are in standard layout; weight types have a value. `Lawful` holds of every shape listed (Sound.lawful). `Storable` holds of every built-in shape (Stored.storable)."
 },
 "C95": {
  "status": "proved",
  "theorems": [
   "c95_visit_map_eq",
   "c95_emptied",
   "Sq.c95_visit_map_eq",
   "Stored.storable"
  ],
  "note": "Lattice maps for every storable shape, compared by their bit sets and any reflexive shape equality; legacy maps of any two sizes. `Storable` holds of every built-in shape (Stored.storable)."
 },
 "C96": {
  "status": "proved",
  "theorems": [
   "c96_edges",
   "c96_distinct",
   "c96_two_views",
   "c96_edge_references",
   "Sq.c96_edges",
   "Sq.c96_two_views",
   "Sq.c96_sorted",
   "Sound.lawful",
   "Sq.c96_index_orders",
   "Sq.c96_order"
  ],
  "note": "Weight equality is any function, reflexive or not. `Lawful` holds of every shape listed (Sound.lawful)."
 },
 "C97": {
  "status": "partial",
  "theorems": [
   "c97_groups_partial",
   "c97_exact",
   "c97_lawful",
   "c97_single",
   "c97_double",
   "Sq.c97_legacy",
   "Sound.lawful"
  ],
  "note": "Right on all lawful shapes, all maps of C68 and the legacy graph; false on every DoubleCoordShape<OddR> map of more than one node (c97_double), because neighbors_directed ignores the direction. c97_exact: right exactly if every walk can be walked back; c97_groups_partial: what holds on all storable shapes. `Lawful` holds of every shape listed (Sound.lawful)."
 },
 "C98": {
  "status": "partial",
  "theorems": [
   "c98_toposort_partial",
   "c98_exact",
   "c98_lawful",
   "c98_single",
   "c98_double",
   "Sq.c98_legacy",
   "Sound.lawful"
  ],
  "note": "Right on all lawful shapes, all maps of C68 and the legacy graph; on DoubleCoordShape<OddR> false exactly on maps of one column and more than one row, and of one row of two nodes (c98_double). c98_exact: right exactly if there is a cycle or no edge. `Lawful` holds of every shape listed (Sound.lawful)."
 },
 "C99": {
  "status": "proved",
  "theorems": [
   "c99_has_path",
   "c99_single",
   "c99_double",
   "Sq.c99_legacy"
  ],
  "note": "all storable shapes; legacy graph"
 },
 "C100": {
  "status": "partial",
  "theorems": [
   "c100_debug_ub",
   "c100_debug_partial",
   "c100_zero_sized",
   "Stored.storable"
  ],
  "note": "False of the code: on every nonempty map of the crate's shapes {:?} and {:#?} format the uninitialised slot of an absent edge (c100_debug_ub). c100_debug_partial: on every storable shape, exactly what is written when every shown edge exists, and undefined behaviour otherwise; the node array alone is always fine. c100_zero_sized: zero-sized edge types are not affected. Missing: absent edges. `Storable` holds of every built-in shape (Stored.storable)."
 },
 "C101": {
  "status": "proved",
  "theorems": [
   "c101_square",
   "c101_square_directed",
   "c101_diagonal",
   "c101_diagonal_directed",
   "c101_hex_offset",
   "c101_hex_offset_directed",
   "c101_hex_loop",
   "c101_hex_axial",
   "c101_neighbors",
   "c101_adjacent",
   "c101_walks",
   "Sound.lawful"
  ],
  "note": "Stated on the model's own move_coord and to_offset; the three consequences hold for any symmetry between two lawful shapes. `Lawful` holds of every shape listed (Sound.lawful)."
 },
 "C102": {
  "status": "proved",
  "theorems": [
   "c102_same_node_identifiers",
   "c102_same_node_references",
   "c102_same_neighbors",
   "c102_same_edges",
   "c102_same_edge_references",
   "c102_edges",
   "c102_no_panic",
   "c102_incoming",
   "c102_neighbors_stuck",
   "c102_node_identifiers_stuck",
   "c102_edges_progress",
   "c102_square_far",
   "Sound.lawful",
   "c102_node_references_after",
   "c102_edge_references_skip",
   "Sq.c102_same",
   "Sq.c102_stuck",
   "Sq.c102_edges_debug"
  ],
  "note": "Model/Caught.lean returns the fields of the iterator as the call leaves them, also when it panics; the c102_same_* theorems tie it to the iterators of the other properties. `Lawful` holds of every shape listed (Sound.lawful)."
 },
 "C103": {
  "status": "proved",
  "theorems": [
   "Sq.c103_shortest",
   "Sq.c103_distance_iff",
   "Sq.c103_diameter",
   "Sq.c103_astar"
  ],
  "note": "On every SquareGraph built by the crate: hop distance, exactly when distance() agrees with it, the diameter, and A* with it."
 },
 "C104": {
  "status": "proved",
  "theorems": [
   "c104_new_with",
   "c104_outcome",
   "c104_visit_map",
   "c104_visit_map_wrong",
   "Sq.c104_new_with",
   "Sq.c104_rejects",
   "Sq.c104_visit_map",
   "Stored.storable"
  ],
  "note": "Running out of memory on a smaller request (an abort) is not modelled. `Storable` holds of every built-in shape (Stored.storable)."
 },
 "C105": {
  "status": "proved",
  "theorems": [
   "Sq.c105_flip_h",
   "Sq.c105_flip_v",
   "Sq.c105_swap",
   "Sq.c105_turn_h",
   "Sq.c105_turn_v",
   "Sq.c105_trans",
   "Sq.c105_neighbors",
   "Sq.c105_walks",
   "Sq.c105_transitive"
  ],
  "note": "Each map is a symmetry of the grid a SquareGraph stores; neighbours and walks of the built graphs follow for any symmetry. Transitivity holds exactly when each side loops or has at most two cells; the converse shows that no symmetry at all takes a corner to the cell beside it."
 },
 "C106": {
  "status": "proved",
  "theorems": [
   "c106_lists",
   "c106_has_path",
   "c106_regions",
   "c106_astar",
   "c106_astar_edges",
   "c106_estimate",
   "Sq.c106_legacy_lists",
   "Sq.c106_legacy_has_path",
   "Sq.c106_legacy_regions",
   "Sq.c106_legacy_astar",
   "Sq.c106_legacy_astar_edges",
   "Sound.lawful"
  ],
  "note": "petgraph's NodeFiltered and EdgeFiltered are modelled as state machines around the crate's iterators; the searches are those of C82, C83, C97 and C99. kosaraju_scc and astar: shapes that obey the laws. `Lawful` holds of every shape listed (Sound.lawful)."
 },
 "C107": {
  "status": "proved",
  "theorems": [
   "c107_copy",
   "c107_nodes",
   "c107_edges",
   "c107_same_iff",
   "c107_order",
   "c107_walks",
   "c107_loops_differ",
   "Sq.c107_legacy_copy",
   "Sq.c107_legacy_nodes",
   "Sq.c107_legacy_edges",
   "Sq.c107_legacy_same_iff",
   "Sq.c107_legacy_walks",
   "Sound.lawful"
  ],
  "note": "petgraph's Graph is transcribed (adjacency lists, add_node, add_edge, Edges::next); its index type is taken to be large enough. Incoming edges of directed lattices in debug builds panic (C12) and are excluded. `Lawful` holds of every shape listed (Sound.lawful)."
 },
 "C108": {
  "status": "proved",
  "theorems": [
   "c108_bellman_ford",
   "c108_distances",
   "c108_predecessors",
   "c108_like_dijkstra",
   "c108_undirected",
   "c108_connected",
   "c108_potential",
   "Sq.c108_legacy_bellman_ford",
   "Sq.c108_legacy_distances",
   "Sq.c108_legacy_predecessors",
   "Sound.lawful"
  ],
  "note": "bellman_ford is transcribed from petgraph 0.8; weights are integers and sums exact (float rounding is not modelled). dijkstra and potential corollaries are stated for LatticeGraph only. `Lawful` holds of every shape listed (Sound.lawful)."
 },
 "C109": {
  "status": "proved",
  "theorems": [
   "c109_offset",
   "c109_axial",
   "c109_double",
   "c109_node_identifiers",
   "c109_edge_references",
   "c109_directions",
   "c109_edge_ids",
   "Sq.c109_sorted",
   "Stored.storable"
  ],
  "note": "Storable holds of every built-in shape (Stored.storable). The enumerations are ordered by position of declaration."
 },
 "C110": {
  "status": "partial",
  "theorems": [
   "c110_neighbors",
   "c110_edges_directed",
   "c110_edges_partial",
   "c110_runs_partial",
   "c110_search_partial",
   "c110_undirected",
   "c110_debug_search",
   "Sound.lawful"
  ],
  "note": "False on directed graphs in debug builds, because edges_directed(_, Incoming) panics there (C12): c110_debug_search proves that no search over the view from a non-goal node with a neighbor returns. All other cases (undirected in any build, directed in release builds) are proved in full; neighbors and edges_directed(_, Incoming) in all builds. `Lawful` holds of every shape listed (Sound.lawful)."
 },
 "C111": {
  "status": "proved",
  "theorems": [
   "c111_square",
   "c111_square_directed",
   "c111_diag",
   "c111_diag_directed",
   "c111_offset",
   "c111_offset_directed",
   "c111_loop",
   "c111_axial",
   "c111_axial_directed",
   "c111_axial_flat",
   "c111_axial_flat_directed",
   "Sound.lawful",
   "Sq.c111_legacy_degree",
   "Sq.c111_legacy_diameter"
  ],
  "note": "Degree and Diameter are stated on neighbors, edges and walks along neighbors; the sizes are those of Lawful shapes (accepted sizes). `Lawful` holds of every shape listed (Sound.lawful)."
 },
 "C112": {
  "status": "proved",
  "theorems": [
   "c112_runs",
   "c112_exact",
   "c112_square",
   "c112_square_directed",
   "c112_diag",
   "c112_diag_directed",
   "c112_offset",
   "c112_offset_directed",
   "c112_axial",
   "c112_axial_directed",
   "c112_axial_flat",
   "c112_axial_flat_directed",
   "Sound.lawful"
  ],
  "note": "maximal_cliques of petgraph 0.8 as a relation over all orders of its hash sets; cylinders, double coordinates and maps of a single row have the general theorems only. `Lawful` holds of every shape listed (Sound.lawful)."
 },
 "C113": {
  "status": "proved",
  "theorems": [
   "c113_runs",
   "c113_exact",
   "c113_paths",
   "c113_all",
   "c113_once",
   "c113_twice",
   "c113_circles",
   "c113_one_way",
   "c113_one_way_cylinder",
   "c113_panics",
   "c113_wraps",
   "c113_square_shortest",
   "c113_square_shortest_directed",
   "Sq.c113_legacy_runs",
   "Sq.c113_legacy_exact",
   "Sq.c113_legacy_once",
   "Sq.c113_legacy_all",
   "Sound.lawful"
  ],
  "note": "petgraph's algorithm is transcribed from petgraph 0.8 and run over the modelled functions of the crate `Lawful` holds of every shape listed (Sound.lawful)."
 },
 "C114": {
  "status": "proved",
  "theorems": [
   "c114_has_path",
   "c114_astar",
   "c114_square",
   "c114_square_directed",
   "c114_diag",
   "c114_diag_directed",
   "c114_offset",
   "c114_offset_directed",
   "c114_axial",
   "c114_axial_directed",
   "c114_axial_flat",
   "c114_axial_flat_directed",
   "c114_loop",
   "Sq.c114_legacy_has_path",
   "Sq.c114_legacy_node",
   "Sq.c114_legacy_link",
   "Sound.lawful"
  ],
  "note": "Ways that avoid a cell or a link are defined as the reflexive transitive closure of the single step the graph offers; c114_has_path and c114_astar identify their absence with the answers of petgraph's has_path_connecting on NodeFiltered and astar on EdgeFiltered. The closed forms hold for all sizes. `Lawful` holds of every shape listed (Sound.lawful)."
 },
 "C115": {
  "status": "proved",
  "theorems": [
   "c115_events",
   "c115_order",
   "c115_forward",
   "c115_tree",
   "c115_cyclic",
   "c115_cyclic_lawful",
   "c115_toposort",
   "c115_double",
   "Sq.c115_legacy",
   "Sq.c115_legacy_cyclic",
   "Sound.lawful"
  ],
  "note": "depth_first_search with its events and is_cyclic_directed, on every storable shape and on the deprecated graph; order of discovery and the tree on lawful shapes. `Lawful` holds of every shape listed (Sound.lawful)."
 },
 "C116": {
  "status": "proved",
  "theorems": [
   "c116_tarjan",
   "c116_exact",
   "c116_lawful",
   "c116_single",
   "c116_double",
   "c116_flat",
   "c116_flat_loop",
   "c116_axial",
   "Sq.c116_legacy",
   "Sound.lawful"
  ],
  "note": "tarjan_scc transcribed as a big-step relation with its debug assertions; c116_exact: a run exists iff neighbors of nodes are nodes, c116_tarjan: then one result, the components in reverse topological order; c116_lawful/double/flat/flat_loop/axial: for which maps that is so; single group on connected maps; the deprecated graph. `Lawful` holds of every shape listed (Sound.lawful)."
 },
 "C117": {
  "status": "partial",
  "theorems": [
   "c117_walk_partial",
   "c117_exact",
   "c117_lawful",
   "c117_single",
   "c117_double",
   "Sq.c117_legacy",
   "Sound.lawful"
  ],
  "note": "False as stated on double coordinates: c117_double shows the result is wrong on every such map of at least two nodes. c117_walk_partial gives the result for all shapes, c117_exact when it is right; c117_lawful, c117_single and Sq.c117_legacy give the full claim on the lawful shapes, on connected maps of at least two nodes and on the deprecated graph. `Lawful` holds of every shape listed (Sound.lawful)."
 },
 "C118": {
  "status": "proved",
  "theorems": [
   "c118_spfa",
   "c118_distances",
   "c118_predecessors",
   "c118_like_bellman_ford",
   "c118_connected",
   "c118_potential",
   "Sq.c118_legacy_spfa",
   "Sq.c118_legacy_like_bellman_ford",
   "Sq.c118_legacy_predecessors",
   "Sound.lawful"
  ],
  "note": "Costs as integers added exactly (the test for overflow is left out of the model). `Lawful` holds of every shape listed (Sound.lawful)."
 },
 "C119": {
  "status": "proved",
  "theorems": [
   "c119_runs",
   "c119_right",
   "c119_exact",
   "c119_one",
   "c119_grow",
   "c119_all",
   "Sq.c119_legacy_runs",
   "Sq.c119_legacy",
   "Sound.lawful"
  ],
  "note": "KthWalk counts walks as sequences of positions in what edges() yields; the heap is a list of which any entry of least score may be popped. `Lawful` holds of every shape listed (Sound.lawful)."
 },
 "C120": {
  "status": "proved",
  "theorems": [
   "c120_runs",
   "c120_tree",
   "c120_min",
   "c120_kruskal",
   "c120_uneven",
   "Sq.c120_legacy_runs",
   "Sq.c120_legacy_min",
   "Sq.c120_legacy_kruskal",
   "Sound.lawful"
  ],
  "note": "Costs are natural numbers. The nodes and the edges are those of one complete iteration. `Lawful` holds of every shape listed (Sound.lawful)."
 },
 "C121": {
  "status": "partial",
  "theorems": [
   "c121_panics",
   "c121_points_partial",
   "c121_cuts_partial",
   "Sq.c121_legacy",
   "Sound.lawful"
  ],
  "note": "False of LatticeGraph: the crate's node_references has no size_hint, petgraph takes its lower bound 0 as the number of nodes, and articulation_points panics on every graph that has a node (c121_panics, an equivalence covering the empty graph too). c121_points_partial: with tables of node_bound entries it would return exactly the nodes that cut, in one way; c121_cuts_partial: on the crate's shapes these are the Cuts nodes of C114, with its closed forms. Sq.c121_legacy: on SquareGraph the property holds in full, with a closed form. Missing: LatticeGraph as it is. `Lawful` holds of every shape listed (Sound.lawful)."
 },
 "C122": {
  "status": "proved",
  "theorems": [
   "c122_runs",
   "c122_coloring",
   "c122_two",
   "c122_degree",
   "c122_bipartite",
   "c122_square",
   "c122_square_directed",
   "Sq.c122_legacy_runs",
   "Sq.c122_legacy",
   "Sq.c122_legacy_number",
   "Sound.lawful",
   "c122_order"
  ],
  "note": "The heap is any list from which any entry of greatest score may be popped, so the theorems hold for every order of equal entries. `Lawful` holds of every shape listed (Sound.lawful)."
 },
 "C123": {
  "status": "proved",
  "theorems": [
   "c123_matching",
   "c123_edges",
   "c123_half",
   "c123_perfect",
   "Sq.c123_legacy",
   "Sq.c123_legacy_result",
   "Sound.lawful",
   "c123_square",
   "c123_square_directed",
   "Sq.c123_legacy_most"
  ],
  "note": "neighbors() is taken to run to its end where the code stops asking at the first node not visited. `Lawful` holds of every shape listed (Sound.lawful)."
 },
 "C124": {
  "status": "proved",
  "theorems": [
   "c124_runs",
   "c124_dominators",
   "c124_separate",
   "c124_uncut",
   "c124_wide",
   "c124_square",
   "c124_offset",
   "Sq.c124_legacy_runs",
   "Sq.c124_legacy",
   "Sq.c124_legacy_root",
   "Sound.lawful",
   "c124_row",
   "c124_square_exact",
   "c124_square_directed_exact",
   "c124_diag_exact",
   "c124_diag_directed_exact",
   "c124_offset_exact",
   "c124_offset_directed_exact",
   "c124_axial_exact",
   "c124_axial_directed_exact",
   "c124_axial_flat_exact",
   "c124_axial_flat_directed_exact",
   "c124_loop_exact",
   "Sq.c124_legacy_exact"
  ],
  "note": "simple_fast of petgraph 0.8 over the crate's neighbors and visit map: runs for every order of the hash sets; immediate_dominator and dominators against the set of nodes on every way `Lawful` holds of every shape listed (Sound.lawful)."
 }
}
