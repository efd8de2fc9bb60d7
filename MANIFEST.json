{
 "claims": [
  {
   "property": "C01",
   "status": "proved",
   "theorems": [
    "LG.c01_new_with",
    "LG.c01_call_log",
    "LG.c01_calls_once",
    "LG.c01_calls_exact",
    "LG.c01_rejects",
    "LG.Sound.lawful"
   ],
   "note": "Stateful closures (FnMut); the call log is exactly the specified sequence; too large sizes panic, never UB. `Lawful` holds of every shape listed (Sound.lawful)."
  },
  {
   "property": "C02",
   "status": "proved",
   "theorems": [
    "LG.c02_node_weight",
    "LG.c02_c03_stateful",
    "LG.Sound.lawful"
   ],
   "note": "Coordinates whose shear overflows isize in debug builds are the subject of C28. `Lawful` holds of every shape listed (Sound.lawful)."
  },
  {
   "property": "C03",
   "status": "proved",
   "theorems": [
    "LG.c03_edge_weight",
    "LG.c02_c03_stateful",
    "LG.Sound.lawful"
   ],
   "note": "As C02. `Lawful` holds of every shape listed (Sound.lawful)."
  },
  {
   "property": "C04",
   "status": "proved",
   "theorems": [
    "LG.c04_node_count",
    "LG.c04_to_index",
    "LG.c04_from_index",
    "LG.c04_to_index_inj",
    "LG.Sound.lawful"
   ],
   "note": "`Lawful` holds of every shape listed (Sound.lawful)."
  },
  {
   "property": "C05",
   "status": "proved",
   "theorems": [
    "LG.c05_node_identifiers",
    "LG.c05_nodes_exact",
    "LG.c05_len",
    "LG.Sound.lawful"
   ],
   "note": "`Lawful` holds of every shape listed (Sound.lawful)."
  },
  {
   "property": "C06",
   "status": "proved",
   "theorems": [
    "LG.c06_node_references",
    "LG.c06_node_references_exact",
    "LG.Sound.lawful"
   ],
   "note": "`Lawful` holds of every shape listed (Sound.lawful)."
  },
  {
   "property": "C07",
   "status": "proved",
   "theorems": [
    "LG.c07_neighbors",
    "LG.c07_neighbors_exact",
    "LG.c07_neighbors_length",
    "LG.Sound.lawful",
    "LG.c07_neighbors_call"
   ],
   "note": "`Lawful` holds of every shape listed (Sound.lawful)."
  },
  {
   "property": "C08",
   "status": "proved",
   "theorems": [
    "LG.c08_symmetric",
    "LG.Sound.lawful",
    "LG.c08_neighbors_directed"
   ],
   "note": "`Lawful` holds of every shape listed (Sound.lawful)."
  },
  {
   "property": "C09",
   "status": "proved",
   "theorems": [
    "LG.c09_is_adjacent",
    "LG.c09_get_direction",
    "LG.c09_get_direction_sound",
    "LG.Sound.lawful"
   ],
   "note": "`Lawful` holds of every shape listed (Sound.lawful)."
  },
  {
   "property": "C10",
   "status": "proved",
   "theorems": [
    "LG.c10_edges",
    "LG.c10_targets",
    "LG.c10_edge_exact",
    "LG.Sound.lawful"
   ],
   "note": "`Lawful` holds of every shape listed (Sound.lawful)."
  },
  {
   "property": "C11",
   "status": "proved",
   "theorems": [
    "LG.c11_undirected_weight",
    "LG.c11_undirected_iter",
    "LG.Sound.lawful"
   ],
   "note": "`Lawful` holds of every shape listed (Sound.lawful)."
  },
  {
   "property": "C12",
   "status": "partial",
   "theorems": [
    "LG.c12_outgoing",
    "LG.c12_incoming_partial",
    "LG.c12_incoming_exact",
    "LG.c12_incoming_debug_panics",
    "LG.Sound.lawful"
   ],
   "note": "False of the code for directed graphs in debug builds (a debug_assert panics): negation proved. The rest, including directed graphs in release builds, is proved. `Lawful` holds of every shape listed (Sound.lawful)."
  },
  {
   "property": "C13",
   "status": "proved",
   "theorems": [
    "LG.c13_edge_references",
    "LG.c13_keys",
    "LG.c13_edge_exact",
    "LG.Sound.lawful"
   ],
   "note": "`Lawful` holds of every shape listed (Sound.lawful)."
  },
  {
   "property": "C14",
   "status": "proved",
   "theorems": [
    "LG.c14_handshake",
    "LG.c14_handshake_iter",
    "LG.Sound.lawful"
   ],
   "note": "`Lawful` holds of every shape listed (Sound.lawful)."
  },
  {
   "property": "C15",
   "status": "partial",
   "theorems": [
    "LG.c15_edge_references_id",
    "LG.c15_edges_id_partial",
    "LG.c15_edges_id_directed",
    "LG.c15_edges_id_wrong",
    "LG.c15_counterexample",
    "LG.c15_incoming_id_partial",
    "LG.c15_incoming_id_wrong",
    "LG.c15_incoming_id_directed_wrong",
    "LG.Sound.lawful"
   ],
   "note": "False of the code for backward references of undirected graphs and most Incoming references: negations proved; the remaining cases proved. `Lawful` holds of every shape listed (Sound.lawful)."
  },
  {
   "property": "C16",
   "status": "proved",
   "theorems": [
    "LG.c16_step",
    "LG.c16_refines_map",
    "LG.c16_only_map",
    "LG.c16_last_node_write",
    "LG.c16_last_edge_write",
    "LG.c16_independent",
    "LG.Sound.lawful"
   ],
   "note": "Histories of reads, writes and iterations refine a pair of maps. The shapes of C31-C33: c57_refines_map (see C57). `Lawful` holds of every shape listed (Sound.lawful)."
  },
  {
   "property": "C17",
   "status": "partial",
   "theorems": [
    "LG.c17_visit_map_partial",
    "LG.c17_unvisit_answer",
    "LG.c17_unvisit_wrong",
    "LG.Stored.storable"
   ],
   "note": "False of the code for the result of unvisit (true for every node): negation proved; everything else proved. Stated for every built-in shape, also those of C31-C33. `Storable` holds of every built-in shape (Stored.storable)."
  },
  {
   "property": "C18",
   "status": "partial",
   "theorems": [
    "LG.c18_node_identifiers",
    "LG.c18_node_references",
    "LG.c18_neighbors",
    "LG.c18_edges_of",
    "LG.c18_edges",
    "LG.c18_edges_directed",
    "LG.c18_edge_references_state",
    "LG.c18_edge_references_partial",
    "LG.c18_edge_references_fused",
    "LG.c18_edge_references_overflow",
    "LG.c18_edge_references_wrong_bound",
    "LG.Sound.lawful",
    "LG.Stored.storable"
   ],
   "note": "False of the code for edge_references when nodes x directions overflows usize: panic (debug) or wrong bound (release) proved. Everything else proved. For every built-in shape, also those of C31-C33, except that edges(n) and edges_directed(n) are restricted to the others there (see C58). `Lawful` holds of every shape listed (Sound.lawful). `Storable` holds of every built-in shape (Stored.storable)."
  },
  {
   "property": "C19",
   "status": "proved",
   "theorems": [
    "LG.c19_lookups",
    "LG.c19_iterators",
    "LG.c19_edges",
    "LG.c19_edges_directed",
    "LG.Sound.lawful",
    "LG.Stored.storable"
   ],
   "note": "At every state an iterator can reach, also past its end. For every built-in shape, also those of C31-C33, except that edges(n) and edges_directed(n) are restricted to the others there (see C58). `Lawful` holds of every shape listed (Sound.lawful). `Storable` holds of every built-in shape (Stored.storable)."
  },
  {
   "property": "C20",
   "status": "partial",
   "theorems": [
    "LG.c20_off_graph_faults",
    "LG.c20_no_items_partial",
    "LG.Stored.storable"
   ],
   "note": "False of the code: edges of an off-graph coordinate panic (debug) or are undefined behaviour (release), proved for every shape. `Storable` holds of every built-in shape (Stored.storable)."
  },
  {
   "property": "C21",
   "status": "partial",
   "theorems": [
    "LG.c21_len_panics",
    "LG.c21_remaining_partial",
    "LG.Stored.storable"
   ],
   "note": "False of the code: len() panics, proved. Stated for every built-in shape, also those of C31-C33. `Storable` holds of every built-in shape (Stored.storable)."
  },
  {
   "property": "C22",
   "status": "partial",
   "theorems": [
    "LG.c22_drop_ub",
    "LG.c22_double_drop",
    "LG.c22_drop_partial",
    "LG.Stored.storable"
   ],
   "note": "False of the code for edge weights with destructors on every nonempty graph (proved); node weights and destructor-free edge weights proved correct. Stated for every built-in shape, also those of C31-C33. `Storable` holds of every built-in shape (Stored.storable)."
  },
  {
   "property": "C23",
   "status": "partial",
   "theorems": [
    "LG.c23_clone_ub",
    "LG.c23_eq_ub",
    "LG.c23_hash_ub",
    "LG.c23_nodes_partial",
    "LG.c23_eq_exact",
    "LG.c23_eq_never_true",
    "LG.c23_clone_hash_exact",
    "LG.Stored.storable"
   ],
   "note": "False of the code on every nonempty graph whose edge type is not zero-sized: uninitialised edge slots are read (proved); the node part proved correct. Zero-sized edge types are C81. Stated for every built-in shape, also those of C31-C33. `Storable` holds of every built-in shape (Stored.storable)."
  },
  {
   "property": "C24",
   "status": "proved",
   "theorems": [
    "LG.c24_square",
    "LG.c24_square_directed",
    "LG.c24_adjacent"
   ],
   "note": ""
  },
  {
   "property": "C25",
   "status": "proved",
   "theorems": [
    "LG.c25_diagonal",
    "LG.c25_diagonal_directed",
    "LG.c25_adjacent"
   ],
   "note": ""
  },
  {
   "property": "C26",
   "status": "proved",
   "theorems": [
    "LG.c26_hex_offset",
    "LG.c26_hex_offset_directed",
    "LG.c26_adjacent",
    "LG.c26_bases"
   ],
   "note": ""
  },
  {
   "property": "C27",
   "status": "proved",
   "theorems": [
    "LG.c27_axial_r",
    "LG.c27_axial_r_directed",
    "LG.c27_axial_q",
    "LG.c27_axial_q_directed",
    "LG.c27_hex_axial"
   ],
   "note": "For h, v below isize::MAX; component types other than isize under the hypothesis that they hold the coordinates (see C39)."
  },
  {
   "property": "C28",
   "status": "partial",
   "theorems": [
    "LG.c28_to_offset_exact",
    "LG.c28_node_weight_partial",
    "LG.c28_debug_panics",
    "LG.c28_in_graph"
   ],
   "note": "False of the code in debug builds: looking up (isize::MAX, v-1) panics (proved). Exact behaviour on every pair of machine integers proved."
  },
  {
   "property": "C29",
   "status": "proved",
   "theorems": [
    "LG.c29_offset_axial_iso",
    "LG.c29_directed"
   ],
   "note": ""
  },
  {
   "property": "C30",
   "status": "proved",
   "theorems": [
    "LG.c30_hex_offset_loop",
    "LG.c30_row_cycle",
    "LG.c30_bases"
   ],
   "note": ""
  },
  {
   "property": "C31",
   "status": "partial",
   "theorems": [
    "LG.c31_exact",
    "LG.c31_exact_directed",
    "LG.c31_partial",
    "LG.c31_off_graph",
    "LG.c31_violated",
    "LG.c31_empty_diverges",
    "LG.c31_loop_exact",
    "LG.c31_wide_panics",
    "LG.c31_wide_diverges"
   ],
   "note": "False of the code: going east past the end of a row whose shear is not 0 returns a coordinate outside the graph, and a map of width 0 makes the move diverge (both proved); widths beyond isize panic (debug) or diverge (release, isize::MAX + 1), also proved. The exact result of every move from a node is proved; so is the property for the moves that do not hit the defect. Assumes h*v < isize::MAX, which holds for constructible graphs of sized weights."
  },
  {
   "property": "C32",
   "status": "partial",
   "theorems": [
    "LG.c32_exact",
    "LG.c32_move_iff",
    "LG.c32_stays_partial",
    "LG.c32_leaves_graph",
    "LG.c32_back_partial",
    "LG.c32_back_wrong",
    "LG.c32_violated",
    "LG.c32_east_west"
   ],
   "note": "False of the code: NE leaves the graph from the last row, and the moves that stay in their row do not come back. Exactly which moves stay and which come back is proved."
  },
  {
   "property": "C33",
   "status": "partial",
   "theorems": [
    "LG.c33_exact",
    "LG.c33_move_iff",
    "LG.c33_stays_partial",
    "LG.c33_north_south_wrong",
    "LG.c33_back_partial",
    "LG.c33_back_wrong"
   ],
   "note": "False of the code: north and south move east and west; exactly which moves come back is proved. That a successful move returns a node is proved in full."
  },
  {
   "property": "C34",
   "status": "partial",
   "theorems": [
    "LG.c34_exact",
    "LG.c34_move_partial",
    "LG.c34_move_node",
    "LG.c34_missing",
    "LG.c34_violated",
    "LG.c34_bijection",
    "LG.c34_alias",
    "LG.c34_adjacent",
    "LG.c34_adjacent_partial",
    "LG.c34_adjacent_wrong",
    "LG.c34_new_with",
    "LG.c34_edges_readable",
    "LG.c34_edges_partial",
    "LG.c34_edges_ub",
    "LG.c34_alias_edge",
    "LG.c34_alias_edge_ub"
   ],
   "note": "False of the code: eastward moves compare the doubled coordinate with the undoubled width, so the eastern half cannot be entered from the west; is_adjacent disagrees with neighbors there, and edges of every node in the eastern half reads uninitialised memory (all proved). Proved in full: positions and nodes are in bijection, successful moves lead to nodes. The exact result of every move, and exactly which nodes' edges are safe, are proved. The safe edge_weight of a coordinate of the wrong parity reads uninitialised memory on every map of 2 x 2 or more (proved, with the exact condition)."
  },
  {
   "property": "C35",
   "status": "partial",
   "theorems": [
    "LG.c35_layout_wrong",
    "LG.c35_violated",
    "LG.c35_common_partial",
    "LG.c35_exact"
   ],
   "note": "False of the code: IS_FLAT_TOP is never overridden, so OddQ/EvenQ use the pointy-top layout. Proved which layout is used, that it differs from the documented one, and where they agree."
  },
  {
   "property": "C36",
   "status": "proved",
   "theorems": [
    "LG.c36_square",
    "LG.c36_square_directed",
    "LG.c36_diag",
    "LG.c36_diag_directed",
    "LG.c36_hex_r",
    "LG.c36_hex_dr",
    "LG.c36_hex_q",
    "LG.c36_hex_dq",
    "LG.c36_faults"
   ],
   "note": "One theorem per axis type, each an instance of the structure LawfulAxis (inverse bijections, rejection of every other index, opposite vectors)."
  },
  {
   "property": "C37",
   "status": "proved",
   "theorems": [
    "LG.c37_index_range",
    "LG.c37_from_to",
    "LG.c37_to_from",
    "LG.c37_rejects"
   ],
   "note": "Parametric in the axis type (IndexedAxis); LawfulAxis.indexed shows the crate's axis types qualify."
  },
  {
   "property": "C38",
   "status": "partial",
   "theorems": [
    "LG.c38_dr_roundtrip",
    "LG.c38_dq_roundtrip",
    "LG.c38_dq_moves_partial",
    "LG.c38_dr_rotated",
    "LG.c38_dr_moves_wrong"
   ],
   "note": "Round trips proved for both types, same-vector proved for AxisDQ. False of the code for AxisDR: every converted direction is turned by 60 degrees (c38_dr_rotated, c38_dr_moves_wrong)."
  },
  {
   "property": "C39",
   "status": "proved",
   "theorems": [
    "LG.c39_r",
    "LG.c39_dr",
    "LG.c39_q",
    "LG.c39_dq",
    "LG.c39_too_large",
    "LG.c39_neighbors_outside"
   ],
   "note": "Same observable behaviour for every integer range that holds one step around the map. c39_too_large: without that, construction faults. c39_neighbors_outside: outside the claim, off-graph coordinates of a narrow type are undefined behaviour in release builds."
  },
  {
   "property": "C40",
   "status": "proved",
   "theorems": [
    "LG.c40_connected",
    "LG.c40_longer",
    "LG.Sound.lawful"
   ],
   "note": "With a bound on the number of steps. `Lawful` holds of every shape listed (Sound.lawful)."
  },
  {
   "property": "C41",
   "status": "proved",
   "theorems": [
    "LG.c41_nodes",
    "LG.c41_safe",
    "LG.c41_complete",
    "LG.Sound.lawful"
   ],
   "note": "The search is any program that follows items of neighbors and targets of edges, possibly abandoning iterators. `Lawful` holds of every shape listed (Sound.lawful)."
  },
  {
   "property": "C42",
   "status": "partial",
   "theorems": [
    "LG.c42_new_with",
    "LG.c42_access",
    "LG.c42_iterators",
    "LG.c42_methods_partial",
    "LG.c42_edge_size_wrong"
   ],
   "note": "False of the code for horizontal_edge_size/vertical_edge_size, which impl Shape for &S does not forward: c42_edge_size_wrong. Every other method agrees, and graphs over the reference behave the same."
  },
  {
   "property": "C43",
   "status": "proved",
   "theorems": [
    "LG.Sq.c43_new_with",
    "LG.Sq.c43_call_log",
    "LG.Sq.c43_calls_exact",
    "LG.Sq.c43_calls_once",
    "LG.Sq.c43_rejects",
    "LG.Sq.c43_new"
   ],
   "note": "h * v must stay below isize::MAX + 1 elements (ndarray's limit); beyond that, and for h = 0 or an unlooped v = 0, new_with panics (c43_rejects)."
  },
  {
   "property": "C44",
   "status": "proved",
   "theorems": [
    "LG.Sq.c44_node_weight",
    "LG.Sq.c44_edge_weight",
    "LG.Sq.weights_eq"
   ],
   "note": ""
  },
  {
   "property": "C45",
   "status": "partial",
   "theorems": [
    "LG.Sq.c45_node_identifiers_partial",
    "LG.Sq.c45_nodes_exact",
    "LG.Sq.c45_len_partial",
    "LG.Sq.c45_index_bijection_partial",
    "LG.Sq.c45_node_references",
    "LG.Sq.c45_zero_height_wrong",
    "LG.Sq.c45_from_index_total"
   ],
   "note": "Proved for sides >= 1 that the index type can represent. False of the code for height 0 with a vertical loop: new_with accepts it and node_identifiers lists nodes that do not exist (c45_zero_height_wrong)."
  },
  {
   "property": "C46",
   "status": "proved",
   "theorems": [
    "LG.Sq.c46_neighbors",
    "LG.Sq.c46_neighbors_nodes"
   ],
   "note": "For sides the index type can represent (C52)."
  },
  {
   "property": "C47",
   "status": "proved",
   "theorems": [
    "LG.Sq.c47_edges",
    "LG.Sq.c47_meaning",
    "LG.Sq.c47_other_end"
   ],
   "note": "For sides the index type can represent (C52)."
  },
  {
   "property": "C48",
   "status": "proved",
   "theorems": [
    "LG.Sq.c48_edge_references",
    "LG.Sq.c48_exact",
    "LG.Sq.c48_loop_exact",
    "LG.Sq.c48_loop_total"
   ],
   "note": "For sides the index type can represent (C52)."
  },
  {
   "property": "C49",
   "status": "partial",
   "theorems": [
    "LG.Sq.c49_get_edge_id_partial",
    "LG.Sq.c49_get_edge_reference_partial",
    "LG.Sq.c49_forward_wrap_wrong"
   ],
   "note": "False of the code when stepping forward around a loop of at least two cells: the id returned is that of the edge starting at the first cell (c49_forward_wrap_wrong). Proved for every other node and direction."
  },
  {
   "property": "C50",
   "status": "proved",
   "theorems": [
    "LG.Sq.c50_formula",
    "LG.Sq.c50_metric",
    "LG.Sq.c50_nodes",
    "LG.Sq.c50_edge",
    "LG.Sq.c50_shortest",
    "LG.Sq.c50_walk",
    "LG.Sq.c50_looped_wrong"
   ],
   "note": "c50_looped_wrong shows the absence of loops is needed."
  },
  {
   "property": "C51",
   "status": "partial",
   "theorems": [
    "LG.Sq.c51_visit_map_partial",
    "LG.Sq.c51_contents",
    "LG.Sq.c51_unvisit_wrong",
    "LG.Sq.c51_off_graph",
    "LG.Sq.c51_graph_map"
   ],
   "note": "False of the code for unvisit on a node that is not visited: it returns true (c51_unvisit_wrong). Everything else behaves as a set."
  },
  {
   "property": "C52",
   "status": "proved",
   "theorems": [
    "LG.Sq.c52_built",
    "LG.Sq.c52_lookups",
    "LG.Sq.c52_iterators",
    "LG.Sq.c52_too_large_wrong"
   ],
   "note": "c52_too_large_wrong: without the fit, node_identifiers repeats nodes."
  },
  {
   "property": "C53",
   "status": "partial",
   "theorems": [
    "LG.Sq.c53_safe_partial",
    "LG.Sq.c53_edges_ub",
    "LG.Sq.c53_get_edge_reference_ub",
    "LG.Sq.c53_nodes_mut_ub",
    "LG.Sq.c53_edges_exact",
    "LG.Sq.c53_get_edge_reference_exact",
    "LG.Sq.c53_get_edge_reference_iff"
   ],
   "note": "False of the code in release builds for indices off the graph and after replacing an array through nodes_mut; proved for nodes of graphs built by new_with."
  },
  {
   "property": "C54",
   "status": "proved",
   "theorems": [
    "LG.Sq.c54_refines_map",
    "LG.Sq.c54_only_map",
    "LG.Sq.c54_last_node_write",
    "LG.Sq.c54_last_edge_write"
   ],
   "note": ""
  },
  {
   "property": "C55",
   "status": "proved",
   "theorems": [
    "LG.c55_new_uninit",
    "LG.c55_unwritten_node",
    "LG.c55_unwritten_edge",
    "LG.Sound.lawful"
   ],
   "note": "The resulting graph is equal to the one new_with builds, not merely indistinguishable. `Lawful` holds of every shape listed (Sound.lawful)."
  },
  {
   "property": "C56",
   "status": "proved",
   "theorems": [
    "LG.Sq.c56_neighbors",
    "LG.Sq.c56_edges",
    "LG.Sq.c56_node_references",
    "LG.Sq.c56_count"
   ],
   "note": "node_identifiers is in C45."
  },
  {
   "property": "C57",
   "status": "proved",
   "theorems": [
    "LG.c57_new_with",
    "LG.c57_weights",
    "LG.c57_node_references",
    "LG.c57_edge_references",
    "LG.c57_neighbors",
    "LG.c57_refines_map",
    "LG.Stored.storable"
   ],
   "note": "For the sound shapes, OddQ/EvenQ offset shapes (plain, directed, LoopEW), LoopEW axial shapes, the double-coordinate shape and references to them (the family Stored): histories of reads, writes and iterations refine a pair of maps (edges only of nodes whose edges were all announced, C58). `Storable` holds of every built-in shape (Stored.storable)."
  },
  {
   "property": "C58",
   "status": "partial",
   "theorems": [
    "LG.c58_edges_partial",
    "LG.c58_edges_ub",
    "LG.c58_offQ",
    "LG.c58_offQLew",
    "LG.c58_offQDirected",
    "LG.c58_axRLew",
    "LG.c58_axQLew",
    "LG.c58_offQ_fails",
    "LG.c58_offQLew_fails",
    "LG.c58_axDRLew",
    "LG.c58_axDQLew",
    "LG.Stored.storable"
   ],
   "note": "False of the code on the flat-top offset shapes: exactly which nodes' edges reads an uninitialised slot is proved (c58_offQ, c58_offQLew). Holds on the directed flat-top and on the looped axial shapes. `Storable` holds of every built-in shape (Stored.storable)."
  },
  {
   "property": "C59",
   "status": "proved",
   "theorems": [
    "LG.c59_square",
    "LG.c59_square_directed",
    "LG.c59_diag",
    "LG.c59_diag_directed",
    "LG.c59_offset",
    "LG.c59_offset_directed",
    "LG.c59_loop",
    "LG.c59_axial",
    "LG.c59_axial_directed",
    "LG.c59_axial_flat",
    "LG.c59_axial_flat_directed",
    "LG.Sound.lawful"
   ],
   "note": "Attained and minimal. Flat-top offset shapes are excluded: their moves are wrong (C31, C32). `Lawful` holds of every shape listed (Sound.lawful)."
  },
  {
   "property": "C60",
   "status": "proved",
   "theorems": [
    "LG.c60_square",
    "LG.c60_square_directed",
    "LG.c60_diag",
    "LG.c60_diag_directed",
    "LG.c60_offset",
    "LG.c60_offset_directed",
    "LG.c60_loop",
    "LG.c60_axial",
    "LG.c60_axial_directed",
    "LG.c60_axial_flat",
    "LG.c60_axial_flat_directed",
    "LG.Sound.lawful"
   ],
   "note": "Closed forms; widths and heights 0 and 1 included. `Lawful` holds of every shape listed (Sound.lawful)."
  },
  {
   "property": "C61",
   "status": "proved",
   "theorems": [
    "LG.c61_point_top",
    "LG.c61_flat_top",
    "LG.c61_point_top_back",
    "LG.c61_flat_top_back",
    "LG.c61_fix"
   ],
   "note": "The bound usize::MAX itself is excluded: there the addition overflows (shown beside the theorems)."
  },
  {
   "property": "C62",
   "status": "proved",
   "theorems": [
    "LG.c62_to_offset",
    "LG.c62_move",
    "LG.c62_reads",
    "LG.c62_raw",
    "LG.c62_writes",
    "LG.Stored.storable"
   ],
   "note": "All modelled shapes, including those with wrong moves. `Storable` holds of every built-in shape (Stored.storable)."
  },
  {
   "property": "C63",
   "status": "proved",
   "theorems": [
    "LG.c63_undirected",
    "LG.c63_directed",
    "LG.c63_is_directed",
    "LG.Sound.lawful"
   ],
   "note": "`Lawful` holds of every shape listed (Sound.lawful)."
  },
  {
   "property": "C64",
   "status": "proved",
   "theorems": [
    "LG.c64_bfs",
    "LG.c64_dfs"
   ],
   "note": "petgraph's traversal loops are transcribed as client programs (petgraph is not part of /repo); the crate's methods are the model's."
  },
  {
   "property": "C65",
   "status": "proved",
   "theorems": [
    "LG.c65_progress",
    "LG.c65_terminates",
    "LG.c65_dijkstra",
    "LG.c65_completes",
    "LG.Sound.lawful"
   ],
   "note": "petgraph's loop is transcribed as a client program (petgraph is not part of /repo); the crate's methods are the model's. `Lawful` holds of every shape listed (Sound.lawful)."
  },
  {
   "property": "C66",
   "status": "partial",
   "theorems": [
    "LG.Sq.c66_directions",
    "LG.Sq.c66_moves",
    "LG.Sq.c66_unchecked_partial",
    "LG.Sq.c66_no_neighbour",
    "LG.Sq.c66_start_wrong"
   ],
   "note": "False going backward from the first cell of an axis: panic in debug, a name of no edge in release, even if the axis is looped (c66_start_wrong). Proved everywhere else."
  },
  {
   "property": "C67",
   "status": "proved",
   "theorems": [
    "LG.Sq.c67_edge_count",
    "LG.Sq.c67_handshake",
    "LG.Sq.c67_new_edge_graph"
   ],
   "note": ""
  },
  {
   "property": "C68",
   "status": "proved",
   "theorems": [
    "LG.c68_bfs",
    "LG.c68_dfs",
    "LG.c68_connected"
   ],
   "note": "c68_bfs, c68_dfs for every modelled shape: exactly the nodes within reach; c68_connected: all nodes are, except on the double-coordinate shape (C72). petgraph's loops are transcribed as client programs."
  },
  {
   "property": "C69",
   "status": "partial",
   "theorems": [
    "LG.c69_progress_partial",
    "LG.c69_completes_iff",
    "LG.c69_result_partial",
    "LG.c69_fails_axial",
    "LG.c69_fails_offset"
   ],
   "note": "False of the code: no run is completed on LoopEW axial maps with a sheared row, nor on OddQ/EvenQ offset maps of the stated row numbers, whatever the start and the costs (proved). Proved: exactly when runs complete, that otherwise they end in a fault of edges(), and that a completed run has the least costs."
  },
  {
   "property": "C70",
   "status": "proved",
   "theorems": [
    "LG.c70_new_with",
    "LG.c70_stops_at",
    "LG.c70_needs_uninit",
    "LG.c70_returned",
    "LG.c70_unwinding",
    "LG.Stored.storable"
   ],
   "note": "Closures are state transformers that may panic; the local array of MaybeUninit is dropped when unwinding. Values already made are leaked, which the theorem on slots makes visible. `Storable` holds of every built-in shape (Stored.storable)."
  },
  {
   "property": "C71",
   "status": "proved",
   "theorems": [
    "LG.c71_indices",
    "LG.c71_node_identifiers",
    "LG.c71_calls",
    "LG.c71_is_adjacent",
    "LG.c71_get_direction",
    "LG.Stored.storable"
   ],
   "note": "Over the inductive family Stored (all modelled shapes); c71_is_adjacent over Single (all but double coordinates, whose is_neighbor is in C34). `Storable` holds of every built-in shape (Stored.storable)."
  },
  {
   "property": "C72",
   "status": "proved",
   "theorems": [
    "LG.c72_reach",
    "LG.c72_search",
    "LG.c72_misses",
    "LG.c72_dijkstra"
   ],
   "note": "The set found is given exactly. It is a defect of move_coord_r (C34) that it is not the whole map."
  },
  {
   "property": "C73",
   "status": "proved",
   "theorems": [
    "LG.Sq.c73_bfs",
    "LG.Sq.c73_dfs",
    "LG.Sq.c73_progress",
    "LG.Sq.c73_dijkstra",
    "LG.Sq.c73_completes"
   ],
   "note": "petgraph's loops are modelled as client programs; the heap order is left open."
  },
  {
   "property": "C74",
   "status": "proved",
   "theorems": [
    "LG.Sq.c74_drops_once",
    "LG.Sq.c74_total",
    "LG.Sq.c74_calls"
   ],
   "note": "Vec::with_capacity is taken to succeed (memory is not modelled)."
  },
  {
   "property": "C75",
   "status": "proved",
   "theorems": [
    "LG.c75_torus",
    "LG.c75_program",
    "LG.c75_bfs",
    "LG.c75_dfs",
    "LG.c75_dijkstra",
    "LG.c75_torus_graph",
    "LG.Sound.lawful",
    "LG.c75_program_state"
   ],
   "note": "For every Lawful shape; the torus of every size is one (also when it is degenerate, with loops and double edges). c75_program: new_with and any program of weight changes refines maps. Model restrictions on user implementations: methods without hidden state, at most eight directions, the methods listed in DESIGN.md not overridden. `Lawful` holds of every shape listed (Sound.lawful)."
  },
  {
   "property": "C76",
   "status": "partial",
   "theorems": [
    "LG.c76_new_with_partial",
    "LG.c76_new_with_returns",
    "LG.c76_node_weight_iff",
    "LG.c76_edge_weight_iff",
    "LG.c76_weights_safe_partial",
    "LG.c76_loose_ub",
    "LG.c76_count_ub",
    "LG.c76_slip_ub"
   ],
   "note": "False: c76_loose_ub, c76_count_ub, c76_slip_ub are unbounded families of safe implementations with undefined behaviour in node_weight, new_with and edges. What holds: new_with is safe if COUNT is honest (c76_new_with_partial), succeeds if the methods return (c76_new_with_returns); exact conditions for node_weight(_mut) and edge_weight(_mut) (the _iff theorems); a coherent shape never makes these two unsafe, whatever its moves (c76_weights_safe_partial)."
  },
  {
   "property": "C78",
   "status": "proved",
   "theorems": [
    "LG.c78_new",
    "LG.c78_square_default",
    "LG.c78_new_s",
    "LG.c78_const",
    "LG.c78_const_axial",
    "LG.Stored.storable"
   ],
   "note": "Shapes are values in the model, so S::default() appears as the value the Default implementation returns; a panicking Default of a weight is covered by C70. `Storable` holds of every built-in shape (Stored.storable)."
  },
  {
   "property": "C79",
   "status": "proved",
   "theorems": [
    "LG.c79_offset_order",
    "LG.c79_flat_order",
    "LG.c79_point_order",
    "LG.c79_double_order",
    "LG.c79_legacy_order",
    "LG.c79_pairs",
    "LG.Stored.storable",
    "LG.c79_total",
    "LG.c79_axes"
   ],
   "note": "The derived comparison is modelled as comparison of the fields in the order of declaration. No marker of the crate is flat-top (IS_FLAT_TOP is always false), so the flat-top case needs a marker written by a user. `Storable` holds of every built-in shape (Stored.storable)."
  },
  {
   "property": "C77",
   "status": "proved",
   "theorems": [
    "LG.c77_new_with",
    "LG.c77_empty",
    "LG.c77_calls",
    "LG.c77_nodes",
    "LG.c77_program",
    "LG.c77_program_only"
   ],
   "note": "Edge references are compared by source, target and weight; on this lattice source and target determine the direction. The sides must fit the legacy index type (C52 says what happens otherwise)."
  },
  {
   "property": "C80",
   "status": "proved",
   "theorems": [
    "LG.c80_safe",
    "LG.c80_read_iff",
    "LG.c80_drain",
    "LG.c80_square",
    "LG.c80_slip"
   ],
   "note": "Sufficient contract proved for arbitrary shapes (records of functions); c80_read_iff is exact for a single read. Coordinates the shape does not recognise are excluded for edges(): there the release build is undefined behaviour (C20). Shapes are assumed to be deterministic functions."
  },
  {
   "property": "C81",
   "status": "proved",
   "theorems": [
    "LG.c81_new_with",
    "LG.c81_reads",
    "LG.c81_writes",
    "LG.c81_clone",
    "LG.c81_eq",
    "LG.c81_hash",
    "LG.c81_drop",
    "LG.Stored.storable"
   ],
   "note": "Zero-sized edge types modelled by edge arrays whose slots all hold the one value of the type (Subsingleton E where it matters); c81_new_with shows that construction gives exactly this. `Storable` holds of every built-in shape (Stored.storable)."
  },
  {
   "property": "C82",
   "status": "proved",
   "theorems": [
    "LG.c82_runs",
    "LG.c82_result",
    "LG.c82_none_iff",
    "LG.c82_least",
    "LG.c82_steps",
    "LG.c82_square",
    "LG.Sound.lawful"
   ],
   "note": "Any entry of least estimate may be popped; the estimate need not be consistent. Costs and estimates are natural numbers, so the client's overflow is not modelled. None is characterised by reachability on lawful shapes and by the goal test alone on sound (connected) ones. `Lawful` holds of every shape listed (Sound.lawful)."
  },
  {
   "property": "C83",
   "status": "partial",
   "theorems": [
    "LG.Sq.c83_astar",
    "LG.Sq.c83_least",
    "LG.Sq.c83_distance_partial",
    "LG.Sq.c83_distance_iff",
    "LG.Sq.c83_toll_wrong",
    "LG.Sq.c83_looped_wrong",
    "LG.Sq.c83_unit_iff"
   ],
   "note": "Everything but optimality holds on all graphs. Optimality with distance(), for all costs, holds exactly on the graphs whose loops have at most two cells (c83_distance_iff, c83_distance_partial); around any longer loop there are costs for which every run misses the cheapest path (c83_toll_wrong), and around a loop of five or more cells even if all edges cost one (c83_looped_wrong). With all edges costing one it holds for all starts and goals exactly if no loop has more than four cells (c83_unit_iff)."
  },
  {
   "property": "C84",
   "status": "proved",
   "theorems": [
    "LG.c84_floyd_warshall",
    "LG.c84_connected",
    "LG.c84_steps",
    "LG.c84_square",
    "LG.Sound.lawful"
   ],
   "note": "floyd_warshall is modelled as in petgraph 0.8, over natural-number costs; K::max() is none, the negative-cycle check and the conversion to a HashMap are left out `Lawful` holds of every shape listed (Sound.lawful)."
  },
  {
   "property": "C85",
   "status": "proved",
   "theorems": [
    "LG.c85_components",
    "LG.c85_connected",
    "LG.c85_cyclic",
    "LG.c85_forest",
    "LG.c85_directed",
    "LG.c85_square",
    "LG.c85_diag",
    "LG.c85_offset",
    "LG.c85_axial",
    "LG.c85_axial_flat",
    "LG.c85_loop",
    "LG.Sound.lawful"
   ],
   "note": "UnionFind is represented by the partition it stands for `Lawful` holds of every shape listed (Sound.lawful)."
  },
  {
   "property": "C86",
   "status": "proved",
   "theorems": [
    "LG.Sq.c86_floyd_warshall",
    "LG.Sq.c86_components",
    "LG.Sq.c86_cyclic"
   ],
   "note": "The results are stated for every result the search may return; the entries of the matrix are compared with the least cost over all walks along edges(). A loop of length one or two counts as a cycle, because edge_references lists the edge twice or a self-edge."
  },
  {
   "property": "C87",
   "status": "proved",
   "theorems": [
    "LG.c87_bipartite",
    "LG.c87_colouring",
    "LG.c87_square",
    "LG.c87_square_directed",
    "LG.c87_diagonal",
    "LG.c87_diagonal_directed",
    "LG.c87_hex_offset",
    "LG.c87_hex_offset_directed",
    "LG.c87_hex_loop",
    "LG.c87_hex_axial_R",
    "LG.c87_hex_axial_R_directed",
    "LG.c87_hex_axial_Q",
    "LG.c87_hex_axial_Q_directed",
    "LG.c87_torus",
    "LG.Sound.lawful"
   ],
   "note": "petgraph's algorithm as a client program; answers exact for every shape with lawful moves, then classified for each built-in shape `Lawful` holds of every shape listed (Sound.lawful)."
  },
  {
   "property": "C88",
   "status": "proved",
   "theorems": [
    "LG.Sq.c88_bipartite",
    "LG.Sq.c88_even_loops"
   ],
   "note": "the same program on the legacy graph"
  },
  {
   "property": "C89",
   "status": "partial",
   "theorems": [
    "LG.c89_directed",
    "LG.c89_undirected_partial",
    "LG.c89_undirected_wrong",
    "LG.c89_direction"
   ],
   "note": "False of the code for the undirected axes: their Direction type is the directed axis, whose blanket impl answers true for every direction, so backward directions claim to be forward (c89_undirected_wrong). Proved: directed axes, Direction<T> over any axis, and exactly the forward directions of the undirected axes."
  },
  {
   "property": "C90",
   "status": "proved",
   "theorems": [
    "LG.c90_visit_map",
    "LG.c90_visit_safe",
    "LG.c90_shared",
    "LG.c90_neighbors_safe",
    "LG.c90_direction_safe",
    "LG.c90_index_safe",
    "LG.c90_neighbors_iff",
    "LG.c90_count_ub"
   ],
   "note": "no law of the shape is assumed; SafeCode: the methods of the implementation are safe code, so never undefined behaviour themselves"
  },
  {
   "property": "C91",
   "status": "proved",
   "theorems": [
    "LG.c91_spanning",
    "LG.c91_count",
    "LG.c91_total",
    "LG.c91_tree",
    "LG.Sound.lawful"
   ],
   "note": "Transcribed from petgraph 0.8; UnionFind by its partition; the heap may yield edges of equal weight in any order; weights compare as natural numbers do. `Lawful` holds of every shape listed (Sound.lawful)."
  },
  {
   "property": "C92",
   "status": "proved",
   "theorems": [
    "LG.Sq.c92_spanning"
   ],
   "note": "As C91, on the legacy graph."
  },
  {
   "property": "C93",
   "status": "proved",
   "theorems": [
    "LG.Sq.c93_new_raw",
    "LG.Sq.c93_built",
    "LG.Sq.c93_exact",
    "LG.Sq.c93_replace",
    "LG.Sq.c93_edges"
   ],
   "note": "new_raw modelled as it is (debug_assert of check_gen only). c93_exact characterises the constructed graphs among all triples of ndarray arrays; c93_edges holds for arrays of any sides. Whole is what ndarray guarantees of an Array2."
  },
  {
   "property": "C94",
   "status": "proved",
   "theorems": [
    "LG.c94_reads",
    "LG.c94_writes",
    "LG.c94_new_raw",
    "LG.c94_lawful",
    "LG.c94_derived",
    "LG.c94_drop",
    "LG.Sound.lawful",
    "LG.Stored.storable",
    "LG.c94_equal_any"
   ],
   "note": "A simulation between graphs of which one has more slots initialised, and the existence of the constructed graph underneath. Arrays are in standard layout; weight types have a value. `Lawful` holds of every shape listed (Sound.lawful). `Storable` holds of every built-in shape (Stored.storable)."
  },
  {
   "property": "C95",
   "status": "proved",
   "theorems": [
    "LG.c95_visit_map_eq",
    "LG.c95_emptied",
    "LG.Sq.c95_visit_map_eq",
    "LG.Stored.storable"
   ],
   "note": "Lattice maps for every storable shape, compared by their bit sets and any reflexive shape equality; legacy maps of any two sizes. `Storable` holds of every built-in shape (Stored.storable)."
  },
  {
   "property": "C96",
   "status": "proved",
   "theorems": [
    "LG.c96_edges",
    "LG.c96_distinct",
    "LG.c96_two_views",
    "LG.c96_edge_references",
    "LG.Sq.c96_edges",
    "LG.Sq.c96_two_views",
    "LG.Sq.c96_sorted",
    "LG.Sound.lawful",
    "LG.Sq.c96_index_orders",
    "LG.Sq.c96_order"
   ],
   "note": "Weight equality is any function, reflexive or not. `Lawful` holds of every shape listed (Sound.lawful)."
  },
  {
   "property": "C97",
   "status": "partial",
   "theorems": [
    "LG.c97_groups_partial",
    "LG.c97_exact",
    "LG.c97_lawful",
    "LG.c97_single",
    "LG.c97_double",
    "LG.Sq.c97_legacy",
    "LG.Sound.lawful"
   ],
   "note": "Right on all lawful shapes, all maps of C68 and the legacy graph; false on every DoubleCoordShape<OddR> map of more than one node (c97_double), because neighbors_directed ignores the direction. c97_exact: right exactly if every walk can be walked back; c97_groups_partial: what holds on all storable shapes. `Lawful` holds of every shape listed (Sound.lawful)."
  },
  {
   "property": "C98",
   "status": "partial",
   "theorems": [
    "LG.c98_toposort_partial",
    "LG.c98_exact",
    "LG.c98_lawful",
    "LG.c98_single",
    "LG.c98_double",
    "LG.Sq.c98_legacy",
    "LG.Sound.lawful"
   ],
   "note": "Right on all lawful shapes, all maps of C68 and the legacy graph; on DoubleCoordShape<OddR> false exactly on maps of one column and more than one row, and of one row of two nodes (c98_double). c98_exact: right exactly if there is a cycle or no edge. `Lawful` holds of every shape listed (Sound.lawful)."
  },
  {
   "property": "C99",
   "status": "proved",
   "theorems": [
    "LG.c99_has_path",
    "LG.c99_single",
    "LG.c99_double",
    "LG.Sq.c99_legacy"
   ],
   "note": "all storable shapes; legacy graph"
  },
  {
   "property": "C100",
   "status": "partial",
   "theorems": [
    "LG.c100_debug_ub",
    "LG.c100_debug_partial",
    "LG.c100_zero_sized",
    "LG.Stored.storable"
   ],
   "note": "False of the code: on every nonempty map of the crate's shapes {:?} and {:#?} format the uninitialised slot of an absent edge (c100_debug_ub). c100_debug_partial: on every storable shape, exactly what is written when every shown edge exists, and undefined behaviour otherwise; the node array alone is always fine. c100_zero_sized: zero-sized edge types are not affected. Missing: absent edges. `Storable` holds of every built-in shape (Stored.storable)."
  },
  {
   "property": "C101",
   "status": "proved",
   "theorems": [
    "LG.c101_square",
    "LG.c101_square_directed",
    "LG.c101_diagonal",
    "LG.c101_diagonal_directed",
    "LG.c101_hex_offset",
    "LG.c101_hex_offset_directed",
    "LG.c101_hex_loop",
    "LG.c101_hex_axial",
    "LG.c101_neighbors",
    "LG.c101_adjacent",
    "LG.c101_walks",
    "LG.Sound.lawful"
   ],
   "note": "Stated on the model's own move_coord and to_offset; the three consequences hold for any symmetry between two lawful shapes. `Lawful` holds of every shape listed (Sound.lawful)."
  },
  {
   "property": "C102",
   "status": "proved",
   "theorems": [
    "LG.c102_same_node_identifiers",
    "LG.c102_same_node_references",
    "LG.c102_same_neighbors",
    "LG.c102_same_edges",
    "LG.c102_same_edge_references",
    "LG.c102_edges",
    "LG.c102_no_panic",
    "LG.c102_incoming",
    "LG.c102_neighbors_stuck",
    "LG.c102_node_identifiers_stuck",
    "LG.c102_edges_progress",
    "LG.c102_square_far",
    "LG.Sound.lawful",
    "LG.c102_node_references_after",
    "LG.c102_edge_references_skip",
    "LG.Sq.c102_same",
    "LG.Sq.c102_stuck",
    "LG.Sq.c102_edges_debug"
   ],
   "note": "Model/Caught.lean returns the fields of the iterator as the call leaves them, also when it panics; the c102_same_* theorems tie it to the iterators of the other properties. `Lawful` holds of every shape listed (Sound.lawful)."
  },
  {
   "property": "C103",
   "status": "proved",
   "theorems": [
    "LG.Sq.c103_shortest",
    "LG.Sq.c103_distance_iff",
    "LG.Sq.c103_diameter",
    "LG.Sq.c103_astar"
   ],
   "note": "On every SquareGraph built by the crate: hop distance, exactly when distance() agrees with it, the diameter, and A* with it."
  },
  {
   "property": "C104",
   "status": "proved",
   "theorems": [
    "LG.c104_new_with",
    "LG.c104_outcome",
    "LG.c104_visit_map",
    "LG.c104_visit_map_wrong",
    "LG.Sq.c104_new_with",
    "LG.Sq.c104_rejects",
    "LG.Sq.c104_visit_map",
    "LG.Stored.storable"
   ],
   "note": "Running out of memory on a smaller request (an abort) is not modelled. `Storable` holds of every built-in shape (Stored.storable)."
  },
  {
   "property": "C105",
   "status": "proved",
   "theorems": [
    "LG.Sq.c105_flip_h",
    "LG.Sq.c105_flip_v",
    "LG.Sq.c105_swap",
    "LG.Sq.c105_turn_h",
    "LG.Sq.c105_turn_v",
    "LG.Sq.c105_trans",
    "LG.Sq.c105_neighbors",
    "LG.Sq.c105_walks",
    "LG.Sq.c105_transitive"
   ],
   "note": "Each map is a symmetry of the grid a SquareGraph stores; neighbours and walks of the built graphs follow for any symmetry. Transitivity holds exactly when each side loops or has at most two cells; the converse shows that no symmetry at all takes a corner to the cell beside it."
  },
  {
   "property": "C106",
   "status": "proved",
   "theorems": [
    "LG.c106_lists",
    "LG.c106_has_path",
    "LG.c106_regions",
    "LG.c106_astar",
    "LG.c106_astar_edges",
    "LG.c106_estimate",
    "LG.Sq.c106_legacy_lists",
    "LG.Sq.c106_legacy_has_path",
    "LG.Sq.c106_legacy_regions",
    "LG.Sq.c106_legacy_astar",
    "LG.Sq.c106_legacy_astar_edges",
    "LG.Sound.lawful"
   ],
   "note": "petgraph's NodeFiltered and EdgeFiltered are modelled as state machines around the crate's iterators; the searches are those of C82, C83, C97 and C99. kosaraju_scc and astar: shapes that obey the laws. `Lawful` holds of every shape listed (Sound.lawful)."
  },
  {
   "property": "C107",
   "status": "proved",
   "theorems": [
    "LG.c107_copy",
    "LG.c107_nodes",
    "LG.c107_edges",
    "LG.c107_same_iff",
    "LG.c107_order",
    "LG.c107_walks",
    "LG.c107_loops_differ",
    "LG.Sq.c107_legacy_copy",
    "LG.Sq.c107_legacy_nodes",
    "LG.Sq.c107_legacy_edges",
    "LG.Sq.c107_legacy_same_iff",
    "LG.Sq.c107_legacy_walks",
    "LG.Sound.lawful"
   ],
   "note": "petgraph's Graph is transcribed (adjacency lists, add_node, add_edge, Edges::next); its index type is taken to be large enough. Incoming edges of directed lattices in debug builds panic (C12) and are excluded. `Lawful` holds of every shape listed (Sound.lawful)."
  },
  {
   "property": "C108",
   "status": "proved",
   "theorems": [
    "LG.c108_bellman_ford",
    "LG.c108_distances",
    "LG.c108_predecessors",
    "LG.c108_like_dijkstra",
    "LG.c108_undirected",
    "LG.c108_connected",
    "LG.c108_potential",
    "LG.Sq.c108_legacy_bellman_ford",
    "LG.Sq.c108_legacy_distances",
    "LG.Sq.c108_legacy_predecessors",
    "LG.Sound.lawful"
   ],
   "note": "bellman_ford is transcribed from petgraph 0.8; weights are integers and sums exact (float rounding is not modelled). dijkstra and potential corollaries are stated for LatticeGraph only. `Lawful` holds of every shape listed (Sound.lawful)."
  },
  {
   "property": "C109",
   "status": "proved",
   "theorems": [
    "LG.c109_offset",
    "LG.c109_axial",
    "LG.c109_double",
    "LG.c109_node_identifiers",
    "LG.c109_edge_references",
    "LG.c109_directions",
    "LG.c109_edge_ids",
    "LG.Sq.c109_sorted",
    "LG.Stored.storable"
   ],
   "note": "Storable holds of every built-in shape (Stored.storable). The enumerations are ordered by position of declaration."
  },
  {
   "property": "C110",
   "status": "partial",
   "theorems": [
    "LG.c110_neighbors",
    "LG.c110_edges_directed",
    "LG.c110_edges_partial",
    "LG.c110_runs_partial",
    "LG.c110_search_partial",
    "LG.c110_undirected",
    "LG.c110_debug_search",
    "LG.Sound.lawful"
   ],
   "note": "False on directed graphs in debug builds, because edges_directed(_, Incoming) panics there (C12): c110_debug_search proves that no search over the view from a non-goal node with a neighbor returns. All other cases (undirected in any build, directed in release builds) are proved in full; neighbors and edges_directed(_, Incoming) in all builds. `Lawful` holds of every shape listed (Sound.lawful)."
  },
  {
   "property": "C111",
   "status": "proved",
   "theorems": [
    "LG.c111_square",
    "LG.c111_square_directed",
    "LG.c111_diag",
    "LG.c111_diag_directed",
    "LG.c111_offset",
    "LG.c111_offset_directed",
    "LG.c111_loop",
    "LG.c111_axial",
    "LG.c111_axial_directed",
    "LG.c111_axial_flat",
    "LG.c111_axial_flat_directed",
    "LG.Sound.lawful",
    "LG.Sq.c111_legacy_degree",
    "LG.Sq.c111_legacy_diameter"
   ],
   "note": "Degree and Diameter are stated on neighbors, edges and walks along neighbors; the sizes are those of Lawful shapes (accepted sizes). `Lawful` holds of every shape listed (Sound.lawful)."
  },
  {
   "property": "C112",
   "status": "proved",
   "theorems": [
    "LG.c112_runs",
    "LG.c112_exact",
    "LG.c112_square",
    "LG.c112_square_directed",
    "LG.c112_diag",
    "LG.c112_diag_directed",
    "LG.c112_offset",
    "LG.c112_offset_directed",
    "LG.c112_axial",
    "LG.c112_axial_directed",
    "LG.c112_axial_flat",
    "LG.c112_axial_flat_directed",
    "LG.Sound.lawful"
   ],
   "note": "maximal_cliques of petgraph 0.8 as a relation over all orders of its hash sets; cylinders, double coordinates and maps of a single row have the general theorems only. `Lawful` holds of every shape listed (Sound.lawful)."
  },
  {
   "property": "C113",
   "status": "proved",
   "theorems": [
    "LG.c113_runs",
    "LG.c113_exact",
    "LG.c113_paths",
    "LG.c113_all",
    "LG.c113_once",
    "LG.c113_twice",
    "LG.c113_circles",
    "LG.c113_one_way",
    "LG.c113_one_way_cylinder",
    "LG.c113_panics",
    "LG.c113_wraps",
    "LG.c113_square_shortest",
    "LG.c113_square_shortest_directed",
    "LG.Sq.c113_legacy_runs",
    "LG.Sq.c113_legacy_exact",
    "LG.Sq.c113_legacy_once",
    "LG.Sq.c113_legacy_all",
    "LG.Sound.lawful"
   ],
   "note": "petgraph's algorithm is transcribed from petgraph 0.8 and run over the modelled functions of the crate `Lawful` holds of every shape listed (Sound.lawful)."
  },
  {
   "property": "C114",
   "status": "proved",
   "theorems": [
    "LG.c114_has_path",
    "LG.c114_astar",
    "LG.c114_square",
    "LG.c114_square_directed",
    "LG.c114_diag",
    "LG.c114_diag_directed",
    "LG.c114_offset",
    "LG.c114_offset_directed",
    "LG.c114_axial",
    "LG.c114_axial_directed",
    "LG.c114_axial_flat",
    "LG.c114_axial_flat_directed",
    "LG.c114_loop",
    "LG.Sq.c114_legacy_has_path",
    "LG.Sq.c114_legacy_node",
    "LG.Sq.c114_legacy_link",
    "LG.Sound.lawful"
   ],
   "note": "Ways that avoid a cell or a link are defined as the reflexive transitive closure of the single step the graph offers; c114_has_path and c114_astar identify their absence with the answers of petgraph's has_path_connecting on NodeFiltered and astar on EdgeFiltered. The closed forms hold for all sizes. `Lawful` holds of every shape listed (Sound.lawful)."
  },
  {
   "property": "C115",
   "status": "proved",
   "theorems": [
    "LG.c115_events",
    "LG.c115_order",
    "LG.c115_forward",
    "LG.c115_tree",
    "LG.c115_cyclic",
    "LG.c115_cyclic_lawful",
    "LG.c115_toposort",
    "LG.c115_double",
    "LG.Sq.c115_legacy",
    "LG.Sq.c115_legacy_cyclic",
    "LG.Sound.lawful"
   ],
   "note": "depth_first_search with its events and is_cyclic_directed, on every storable shape and on the deprecated graph; order of discovery and the tree on lawful shapes. `Lawful` holds of every shape listed (Sound.lawful)."
  },
  {
   "property": "C116",
   "status": "proved",
   "theorems": [
    "LG.c116_tarjan",
    "LG.c116_exact",
    "LG.c116_lawful",
    "LG.c116_single",
    "LG.c116_double",
    "LG.c116_flat",
    "LG.c116_flat_loop",
    "LG.c116_axial",
    "LG.Sq.c116_legacy",
    "LG.Sound.lawful"
   ],
   "note": "tarjan_scc transcribed as a big-step relation with its debug assertions; c116_exact: a run exists iff neighbors of nodes are nodes, c116_tarjan: then one result, the components in reverse topological order; c116_lawful/double/flat/flat_loop/axial: for which maps that is so; single group on connected maps; the deprecated graph. `Lawful` holds of every shape listed (Sound.lawful)."
  },
  {
   "property": "C117",
   "status": "partial",
   "theorems": [
    "LG.c117_walk_partial",
    "LG.c117_exact",
    "LG.c117_lawful",
    "LG.c117_single",
    "LG.c117_double",
    "LG.Sq.c117_legacy",
    "LG.Sound.lawful"
   ],
   "note": "False as stated on double coordinates: c117_double shows the result is wrong on every such map of at least two nodes. c117_walk_partial gives the result for all shapes, c117_exact when it is right; c117_lawful, c117_single and Sq.c117_legacy give the full claim on the lawful shapes, on connected maps of at least two nodes and on the deprecated graph. `Lawful` holds of every shape listed (Sound.lawful)."
  },
  {
   "property": "C118",
   "status": "proved",
   "theorems": [
    "LG.c118_spfa",
    "LG.c118_distances",
    "LG.c118_predecessors",
    "LG.c118_like_bellman_ford",
    "LG.c118_connected",
    "LG.c118_potential",
    "LG.Sq.c118_legacy_spfa",
    "LG.Sq.c118_legacy_like_bellman_ford",
    "LG.Sq.c118_legacy_predecessors",
    "LG.Sound.lawful"
   ],
   "note": "Costs as integers added exactly (the test for overflow is left out of the model). `Lawful` holds of every shape listed (Sound.lawful)."
  },
  {
   "property": "C119",
   "status": "proved",
   "theorems": [
    "LG.c119_runs",
    "LG.c119_right",
    "LG.c119_exact",
    "LG.c119_one",
    "LG.c119_grow",
    "LG.c119_all",
    "LG.Sq.c119_legacy_runs",
    "LG.Sq.c119_legacy",
    "LG.Sound.lawful"
   ],
   "note": "KthWalk counts walks as sequences of positions in what edges() yields; the heap is a list of which any entry of least score may be popped. `Lawful` holds of every shape listed (Sound.lawful)."
  },
  {
   "property": "C120",
   "status": "proved",
   "theorems": [
    "LG.c120_runs",
    "LG.c120_tree",
    "LG.c120_min",
    "LG.c120_kruskal",
    "LG.c120_uneven",
    "LG.Sq.c120_legacy_runs",
    "LG.Sq.c120_legacy_min",
    "LG.Sq.c120_legacy_kruskal",
    "LG.Sound.lawful"
   ],
   "note": "Costs are natural numbers. The nodes and the edges are those of one complete iteration. `Lawful` holds of every shape listed (Sound.lawful)."
  },
  {
   "property": "C121",
   "status": "partial",
   "theorems": [
    "LG.c121_panics",
    "LG.c121_points_partial",
    "LG.c121_cuts_partial",
    "LG.Sq.c121_legacy",
    "LG.Sound.lawful"
   ],
   "note": "False of LatticeGraph: the crate's node_references has no size_hint, petgraph takes its lower bound 0 as the number of nodes, and articulation_points panics on every graph that has a node (c121_panics, an equivalence covering the empty graph too). c121_points_partial: with tables of node_bound entries it would return exactly the nodes that cut, in one way; c121_cuts_partial: on the crate's shapes these are the Cuts nodes of C114, with its closed forms. Sq.c121_legacy: on SquareGraph the property holds in full, with a closed form. Missing: LatticeGraph as it is. `Lawful` holds of every shape listed (Sound.lawful)."
  },
  {
   "property": "C122",
   "status": "proved",
   "theorems": [
    "LG.c122_runs",
    "LG.c122_coloring",
    "LG.c122_two",
    "LG.c122_degree",
    "LG.c122_bipartite",
    "LG.c122_square",
    "LG.c122_square_directed",
    "LG.Sq.c122_legacy_runs",
    "LG.Sq.c122_legacy",
    "LG.Sq.c122_legacy_number",
    "LG.Sound.lawful",
    "LG.c122_order"
   ],
   "note": "The heap is any list from which any entry of greatest score may be popped, so the theorems hold for every order of equal entries. `Lawful` holds of every shape listed (Sound.lawful)."
  },
  {
   "property": "C123",
   "status": "proved",
   "theorems": [
    "LG.c123_matching",
    "LG.c123_edges",
    "LG.c123_half",
    "LG.c123_perfect",
    "LG.Sq.c123_legacy",
    "LG.Sq.c123_legacy_result",
    "LG.Sound.lawful",
    "LG.c123_square",
    "LG.c123_square_directed",
    "LG.Sq.c123_legacy_most"
   ],
   "note": "neighbors() is taken to run to its end where the code stops asking at the first node not visited. `Lawful` holds of every shape listed (Sound.lawful)."
  },
  {
   "property": "C124",
   "status": "proved",
   "theorems": [
    "LG.c124_runs",
    "LG.c124_dominators",
    "LG.c124_separate",
    "LG.c124_uncut",
    "LG.c124_wide",
    "LG.c124_square",
    "LG.c124_offset",
    "LG.Sq.c124_legacy_runs",
    "LG.Sq.c124_legacy",
    "LG.Sq.c124_legacy_root",
    "LG.Sound.lawful",
    "LG.c124_row",
    "LG.c124_square_exact",
    "LG.c124_square_directed_exact",
    "LG.c124_diag_exact",
    "LG.c124_diag_directed_exact",
    "LG.c124_offset_exact",
    "LG.c124_offset_directed_exact",
    "LG.c124_axial_exact",
    "LG.c124_axial_directed_exact",
    "LG.c124_axial_flat_exact",
    "LG.c124_axial_flat_directed_exact",
    "LG.c124_loop_exact",
    "LG.Sq.c124_legacy_exact"
   ],
   "note": "simple_fast of petgraph 0.8 over the crate's neighbors and visit map: runs for every order of the hash sets; immediate_dominator and dominators against the set of nodes on every way `Lawful` holds of every shape listed (Sound.lawful)."
  }
 ]
}