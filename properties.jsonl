{"id": "C01", "title": "new_with visits every node and edge once, in order, and cannot fault", "statement": "For every sound shape and every pair of (possibly stateful) closures, LatticeGraph::new_with returns a graph without panicking or touching invalid memory; it calls the node closure exactly once per node in index order, and after each node the edge closure exactly once for every axis whose forward move from that node stays in the graph, in axis order, and for no other (node, axis). Here a 'sound shape' is any of: SquareShape (undirected/Directed), SquareDiagonalShape (undirected/Directed), HexOffsetShape<OddR|EvenR> (plain, LoopEW, DirectedMarker), HexAxialShape<any base> without loop (HexAxial or hex2d coordinates, DirectedMarker or not).", "quantifier": "all shapes, all sizes the allocator accepts, all stateful closures", "why_tests_cant": "a test fixes one size and one closure; the claim is about every size and every call history", "anchors": ["src/lattice_abstract/mod.rs: LatticeGraph::new_with, new_uninit, assume_init"]}
{"id": "C02", "title": "node_weight is total and exact after construction", "statement": "After new_with(s, n, e), node_weight(c) is Some(n(c)) for every coordinate c of a node and None for every other coordinate. (Axial coordinates whose shear overflows isize in debug builds: see C28.)", "quantifier": "all sound shapes, sizes, closures and coordinates", "why_tests_cant": "coordinates range over the whole integer type, including negative and out-of-range ones", "anchors": ["src/lattice_abstract/mod.rs: DataMap::node_weight", "src/lattice_abstract/shapes.rs: Shape::to_offset"]}
{"id": "C03", "title": "edge_weight is exact after construction", "statement": "After new_with(s, n, e), edge_weight((c, a)) is Some(e(c, a)) when c is a node and moving forward along a stays in the graph, and None in every other case; it never exposes an uninitialised slot. (Axial coordinates whose shear overflows isize in debug builds: see C28.)", "quantifier": "all sound shapes, sizes, closures, coordinates and axes", "why_tests_cant": "every size has a different set of boundary slots", "anchors": ["src/lattice_abstract/mod.rs: DataMap::edge_weight"]}
{"id": "C04", "title": "node index is a bijection with 0..node_count", "statement": "to_index maps the nodes one-to-one onto 0..node_bound() = 0..node_count(), from_index is its inverse in both directions, and node_count() = horizontal * vertical (the NodeCompactIndexable contract).", "quantifier": "all sound shapes, sizes, nodes, indices", "why_tests_cant": "petgraph algorithms size arrays by node_bound for every graph", "anchors": ["src/lattice_abstract/nodes.rs: NodeIndexable, NodeCompactIndexable", "src/lattice_abstract/shapes.rs: index_to_offset, offset_to_index"]}
{"id": "C05", "title": "node_identifiers lists every node exactly once in index order", "statement": "Repeatedly calling next on node_identifiers() yields exactly the nodes, each once, the i-th having index i; then None forever; len() always equals the number of items still to come.", "quantifier": "all sound shapes, sizes, and every point of the iteration", "why_tests_cant": "unbounded sizes and every intermediate iterator state", "anchors": ["src/lattice_abstract/nodes.rs: NodeIndices"]}
{"id": "C06", "title": "node_references pairs every node with its weight", "statement": "node_references() yields, in index order, exactly the pairs (c, w) with c a node and w = node_weight(c), in every state reachable by construction and weight mutation.", "quantifier": "all sound shapes, sizes, reachable graph states", "why_tests_cant": "quantifies over mutation histories", "anchors": ["src/lattice_abstract/nodes.rs: NodeReferences"]}
{"id": "C07", "title": "neighbors yields exactly the adjacent nodes", "statement": "neighbors(a) for a node a yields, in direction order, one item per direction whose move stays in the graph and nothing else; every item is a node of the graph.", "quantifier": "all sound shapes, sizes, nodes", "why_tests_cant": "boundary and interior nodes of every size", "anchors": ["src/lattice_abstract/neighbors.rs: Neighbors"]}
{"id": "C08", "title": "adjacency is symmetric", "statement": "b occurs in neighbors(a) exactly as often as a occurs in neighbors(b) (so neighbors_directed, which ignores its direction argument, is right for Incoming as well as Outgoing).", "quantifier": "all sound shapes, sizes, pairs of nodes", "why_tests_cant": "needs every pair of nodes in every size", "anchors": ["src/lattice_abstract/neighbors.rs: Neighbors, neighbors_directed", "src/lattice_abstract/shapes.rs: Shape::move_coord"]}
{"id": "C09", "title": "is_adjacent agrees with neighbors", "statement": "is_adjacent(m, a, b) is true iff b occurs in neighbors(a), and get_direction(a, b) returns the first direction leading from a to b.", "quantifier": "all sound shapes, sizes, node a, any coordinate b", "why_tests_cant": "pairs over unbounded sizes", "anchors": ["src/lattice_abstract/neighbors.rs: GetAdjacencyMatrix::is_adjacent", "src/lattice_abstract/shapes.rs: is_neighbor, get_direction"]}
{"id": "C10", "title": "edges(a) yields every incident edge with right endpoints and weight", "statement": "For a node a, edges(a) yields, in direction order, one edge reference per direction d with an in-graph target t: source() = a, target() = t, direction() = d and weight() = the weight stored for that edge (edge_weight((a, axis)) for a forward direction, edge_weight((t, axis)) for a backward one).", "quantifier": "all sound shapes, sizes, reachable states, nodes", "why_tests_cant": "all boundary cases and mutation histories", "anchors": ["src/lattice_abstract/edges.rs: Edges::next, AxisDirMarker::get_raw_id"]}
{"id": "C11", "title": "an undirected edge has one weight, seen from both ends", "statement": "In an undirected graph, for every edge reference e in edges(a) with target b there is one in edges(b) with target a, the opposite direction and the same weight, in every reachable state.", "quantifier": "all undirected sound shapes, sizes, reachable states, edges", "why_tests_cant": "mutation through one end must be seen from the other for every edge of every size", "anchors": ["src/lattice_abstract/edges.rs: Edges::next", "src/lattice_abstract/mod.rs: edge_weight_mut"]}
{"id": "C12", "title": "edges_directed respects direction", "statement": "edges_directed(a, Outgoing) yields what edges(a) yields; edges_directed(a, Incoming) yields one reference per in-neighbour b with source() = b, target() = a and the weight of the edge from b to a.", "quantifier": "all sound shapes (directed and undirected), sizes, reachable states, nodes, build modes", "why_tests_cant": "includes debug_assert behaviour for every directed shape", "anchors": ["src/lattice_abstract/edges.rs: DtMarker for petgraph::Direction, edges_directed"]}
{"id": "C13", "title": "edge_references lists every edge exactly once", "statement": "edge_references() yields exactly one reference for every (node, axis) whose forward move stays in the graph, with source the node, target the moved node and the stored weight; no edge is repeated or missed.", "quantifier": "all sound shapes, sizes, reachable states", "why_tests_cant": "exactly-once over unbounded edge sets", "anchors": ["src/lattice_abstract/edges.rs: EdgeReferences::next"]}
{"id": "C14", "title": "edge counts agree (handshake)", "statement": "The number of items of edges(a), summed over all nodes a, is twice the number of items of edge_references() in an undirected graph and equal to it in a directed one.", "quantifier": "all sound shapes, all sizes", "why_tests_cant": "counting identity over every size", "anchors": ["src/lattice_abstract/edges.rs: Edges, EdgeReferences"]}
{"id": "C15", "title": "an edge reference's id looks up its own weight", "statement": "For every edge reference e produced by edges, edges_directed or edge_references, edge_weight(e.id()) = Some(e.weight()).", "quantifier": "all sound shapes, sizes, reachable states, edge references", "why_tests_cant": "forward and backward directions at every node", "anchors": ["src/lattice_abstract/edges.rs: EdgeRef::id", "src/lattice_abstract/mod.rs: edge_weight"]}
{"id": "C16", "title": "weights behave like an independent map under any mutation history", "statement": "After any sequence of writes through node_weight_mut and edge_weight_mut, every node_weight, edge_weight, edges, edge_references read returns the last value written to that node or edge, or its initial value; writes never affect any other node or edge, and a write to an absent node or edge returns None and changes nothing. (Axial coordinates whose shear overflows isize in debug builds: see C28.)", "quantifier": "all sound shapes, sizes, operation sequences of any length", "why_tests_cant": "unbounded histories", "anchors": ["src/lattice_abstract/mod.rs: DataMapMut", "src/lattice_abstract/mod.rs: edge_weight_mut, node_weight_mut"]}
{"id": "C17", "title": "the visit map is a set of nodes", "statement": "For any sequence of visit, unvisit, is_visited and reset_map calls: is_visited(c) holds iff c was visited after its last unvisit/reset; visit returns true iff c was not yet visited; unvisit returns true iff c was visited (petgraph's VisitMap contract); off-graph coordinates are never visited. (Axial coordinates whose shear overflows isize in debug builds: see C28.)", "quantifier": "all sound shapes, sizes, operation sequences of any length", "why_tests_cant": "unbounded histories", "anchors": ["src/lattice_abstract/mod.rs: VisMap, VisitMap::visit, unvisit, is_visited, reset_map"]}
{"id": "C18", "title": "size_hint always brackets the remaining length, iterators stay exhausted", "statement": "At every point of node_identifiers, neighbors, edges, edges_directed and edge_references the lower size_hint is at most, and the upper at least, the number of items still to come, computing it never underflows, and after None the iterator keeps returning None (FusedIterator).", "quantifier": "all sound shapes, sizes, iterator states reachable from the constructor", "why_tests_cant": "every intermediate state of every iterator", "anchors": ["src/lattice_abstract/nodes.rs: size_hint", "src/lattice_abstract/edges.rs: size_hint", "src/lattice_abstract/neighbors.rs: size_hint"]}
{"id": "C19", "title": "in-graph arguments never cause an invalid memory access", "statement": "For a graph built by new_with and mutated through the safe API, no call of node_weight, edge_weight, node_references, neighbors, edges, edges_directed (release), edge_references with in-graph arguments reads outside an array, reads an uninitialised slot, or reaches an unreachable_unchecked.", "quantifier": "all sound shapes, sizes, reachable states, arguments", "why_tests_cant": "undefined behaviour need not show in a test run", "anchors": ["src/lattice_abstract/mod.rs: uget, edge_weight_unchecked_raw", "src/lattice_abstract/edges.rs: Edges::next"]}
{"id": "C20", "title": "edges of an off-graph coordinate is an empty iterator", "statement": "edges(c) and edges_directed(c, d) for a coordinate c outside the graph return an iterator that yields nothing, like neighbors of a missing node in petgraph.", "quantifier": "all sound shapes, sizes, off-graph coordinates, build modes", "why_tests_cant": "the safe API must not fault for any argument value", "anchors": ["src/lattice_abstract/edges.rs: Edges::new_d, Edges::new_unchecked"]}
{"id": "C21", "title": "node_references is an exact-size iterator", "statement": "node_references() claims ExactSizeIterator: len() returns the number of items still to come without panicking.", "quantifier": "all sound shapes, sizes, iterator states", "why_tests_cant": "trait contract over every state", "anchors": ["src/lattice_abstract/nodes.rs: NodeReferences, ExactSizeIterator"]}
{"id": "C22", "title": "dropping a graph drops each weight exactly once", "statement": "Dropping a graph runs the destructor of every existing node and edge weight exactly once, and never runs it on the uninitialised slots of absent edges.", "quantifier": "all sound shapes, sizes, reachable states, weight types with destructors", "why_tests_cant": "double drops and uninitialised drops are undefined behaviour that need not crash", "anchors": ["src/lattice_abstract/mod.rs: Drop for LatticeGraph"]}
{"id": "C23", "title": "comparing and cloning a graph reads only existing weights", "statement": "The derived Clone, PartialEq and Hash of LatticeGraph depend only on the shape and on the weights of existing nodes and edges; in particular a graph equals itself.", "quantifier": "all sound shapes, sizes, reachable states", "why_tests_cant": "uninitialised reads need not crash", "anchors": ["src/lattice_abstract/mod.rs: #[derive(Debug, Clone, PartialEq, Eq, Hash)] LatticeGraph"]}
{"id": "C24", "title": "square shape geometry", "statement": "In SquareShape(h, v), directed or not, the nodes are exactly the pairs with x < h and y < v, and the move in directions X, Y, RX, RY from a node succeeds iff the cell at +x, +y, -x, -y is a node, returning it.", "quantifier": "all h, v, nodes, directions", "why_tests_cant": "every boundary of every size", "anchors": ["src/lattice_abstract/square.rs: SquareShape, move_coord, range_check"]}
{"id": "C25", "title": "diagonal square shape geometry", "statement": "In SquareDiagonalShape(h, v), directed or not, the move in each of the eight compass directions from a node succeeds iff the king-move neighbour in that direction is a node, returning it.", "quantifier": "all h, v, nodes, directions", "why_tests_cant": "corner and edge combinations of every size", "anchors": ["src/lattice_abstract/square.rs: SquareDiagonalShape"]}
{"id": "C26", "title": "offset hex geometry (point-top)", "statement": "In HexOffsetShape<OddR|EvenR>(h, v) the move in each of the six directions from a node succeeds iff the hexagon whose centre is displaced by that direction (rows of the odd, resp. even, parity shifted half a cell to the east) is in the h x v rectangle, returning its offset.", "quantifier": "all h, v, nodes, directions, parities", "why_tests_cant": "row parity and boundary combinations of every size", "anchors": ["src/hex/offset_based/shapes.rs: move_coord_r, HexOffsetShape"]}
{"id": "C27", "title": "axial hex geometry (point-top layout)", "statement": "In HexAxialShape<B>(h, v) the nodes are exactly the axial coordinates with 0 <= q < v and 0 <= r + floor((q + c)/2) < h (c = 1 for even bases), and each direction's move from a node succeeds iff the coordinate displaced by that direction's axial vector is a node, returning it.", "quantifier": "all h, v, coordinates, directions, bases", "why_tests_cant": "negative coordinates and all boundaries of every size", "anchors": ["src/hex/axial_based/shapes.rs: to_offset, offset_to_coordinate, move_coord, move_coord_r, move_coord_q"]}
{"id": "C28", "title": "axial conversions survive machine integers", "statement": "On every machine word size, with wrapping casts between isize and usize, the axial conversions accept no coordinate outside the graph, no arithmetic on an in-graph coordinate overflows, and looking up an off-graph coordinate returns None rather than panicking.", "quantifier": "all word sizes, build modes, sizes, isize coordinates", "why_tests_cant": "the full range of isize cannot be sampled", "anchors": ["src/hex/axial_based/shapes.rs: to_offset, to_offset_unchecked"]}
{"id": "C29", "title": "offset and axial hex graphs are the same graph", "statement": "For the same base and size, converting each offset coordinate to the axial coordinate of the same storage offset is a bijection between the nodes of HexOffsetShape<B> and HexAxialShape<B> that commutes with every direction's move (B = OddR, EvenR).", "quantifier": "all h, v, nodes, directions", "why_tests_cant": "equivalence of two implementations over all sizes", "anchors": ["src/hex/offset_based/shapes.rs: move_coord_r", "src/hex/axial_based/shapes.rs: move_coord"]}
{"id": "C30", "title": "offset hex east-west loop", "statement": "In HexOffsetShape<OddR|EvenR, LoopEW>(h, v) every row is a cycle: the move succeeds iff the target row exists and returns the hexagon displaced by that direction with its column taken modulo h.", "quantifier": "all h >= 1, v, nodes, directions", "why_tests_cant": "seam behaviour for every size and parity", "anchors": ["src/hex/offset_based/shapes.rs: move_coord_r_lew"]}
{"id": "C31", "title": "axial hex east-west loop", "statement": "In HexAxialShape<B, LoopEW>(h, v) a move from a node succeeds iff the target row exists, terminates, and returns a node: the displaced coordinate with its column taken modulo h.", "quantifier": "all h, v, nodes, directions, bases", "why_tests_cant": "seam behaviour for every row of every size", "anchors": ["src/hex/axial_based/shapes.rs: impl Shape for HexAxialShape<B, LoopEW, ..>::move_coord"]}
{"id": "C32", "title": "offset hex geometry (flat-top)", "statement": "In HexOffsetShape<OddQ|EvenQ>(h, v) a move from a node that succeeds returns a node, and moving back in the opposite direction returns to the start.", "quantifier": "all h, v, nodes, directions, parities", "why_tests_cant": "column parity and boundary combinations of every size", "anchors": ["src/hex/offset_based/shapes.rs: move_coord_q"]}
{"id": "C33", "title": "offset hex east-west loop (flat-top)", "statement": "In HexOffsetShape<OddQ|EvenQ, LoopEW>(h, v) a move from a node that succeeds returns a node, north and south change the vertical position, and moving back returns to the start.", "quantifier": "all h, v, nodes, directions, parities", "why_tests_cant": "seam and parity combinations of every size", "anchors": ["src/hex/offset_based/shapes.rs: move_coord_q_lew"]}
{"id": "C34", "title": "double-coordinate hex shape", "statement": "In DoubleCoordShape<OddR>(h, v) coordinates and nodes are in bijection, each direction's move from a node succeeds iff the doubled coordinate displaced by it belongs to the graph, is_adjacent agrees with neighbors, and edges reads only initialised weights.", "quantifier": "all h, v, nodes, directions", "why_tests_cant": "every size beyond the smallest", "anchors": ["src/hex/double_coord/shapes.rs: move_coord_r, to_offset, is_neighbor"]}
{"id": "C35", "title": "flat-top axial layout matches the documentation", "statement": "HexAxialShape<OddQ|EvenQ>(h, v) contains the coordinates drawn in the module documentation, i.e. columns 0 <= r < h and 0 <= q + floor((r + c)/2) < v.", "quantifier": "all h, v, coordinates", "why_tests_cant": "the set of nodes for every size", "anchors": ["src/hex/shapes/mod.rs: RQ for OddQ, RQ for EvenQ", "src/hex/axial_based/mod.rs: module docs", "src/hex/axial_based/shapes.rs: to_offset"]}
{"id": "C36", "title": "axis and direction indices are bijections with opposite directions paired", "statement": "For each of the 8 axis types: to_index and from_index are inverse bijections between the axes and 0..COUNT, directions likewise with 0..UNDIRECTED_COUNT, forward/backward give the two directions of an axis, from_direction maps both back (for directed axis types each direction is an axis of its own), is_forward_direction separates them, and backward is the geometric opposite.", "quantifier": "all axis types, axes, directions, indices (from_index over all naturals)", "why_tests_cant": "from_index must reject every other index", "anchors": ["src/lattice_abstract/square.rs: Axis impls", "src/hex/shapes/mod.rs: Axis impls", "src/lattice_abstract/shapes.rs: Axis, AxisDirection"]}
{"id": "C37", "title": "the generic Direction<T> wrapper is a lawful direction type", "statement": "For every axis type T with bijective indices, Direction<T>::dir_to_index and dir_from_index are inverse bijections with 0..2*COUNT, forward directions having the indices below COUNT, and dir_from_index rejects all other indices.", "quantifier": "all lawful axis types (parametric), all indices", "why_tests_cant": "parametric in a user-supplied axis type", "anchors": ["src/lattice_abstract/shapes.rs: Direction<T>, AxisDirection for Direction<T>"]}
{"id": "C38", "title": "hex2d direction conversions preserve direction", "statement": "Converting a hex2d::Direction to AxisDR or AxisDQ and back is the identity, both ways, and the converted direction moves a coordinate by the same vector as the hex2d direction.", "quantifier": "all directions, all coordinates", "why_tests_cant": "agreement with coordinate arithmetic for all coordinates", "anchors": ["src/hex/hex2d.rs: From impls"]}
{"id": "C39", "title": "hex2d coordinates with a narrow integer type", "statement": "HexGraph over hex2d::Coordinate<I> behaves exactly as the HexAxial graph of the same size whenever every coordinate one step around the graph fits I, and no conversion between I and isize fails for in-graph coordinates.", "quantifier": "all integer ranges I, all sizes fitting I, coordinates", "why_tests_cant": "integer range of I against graph size", "anchors": ["src/hex/hex2d.rs: AxialCoord for hex2d::Coordinate"]}
{"id": "C40", "title": "lattices are connected", "statement": "In every sound shape with at least one node, every node can be reached from every other node by repeatedly taking an item of neighbors.", "quantifier": "all sound shapes, sizes, pairs of nodes", "why_tests_cant": "paths of unbounded length", "anchors": ["src/lattice_abstract/neighbors.rs: Neighbors", "src/lattice_abstract/shapes.rs: move_coord"]}
{"id": "C41", "title": "graph search never leaves the graph", "statement": "Any walk that starts at a node and follows targets of edges or neighbors, of any length, visits only nodes of the graph, so every further edges/neighbors call it makes is fault-free (this is what astar, bfs and dijkstra rely on).", "quantifier": "all sound shapes, sizes, reachable states, walks of any length", "why_tests_cant": "unbounded walks", "anchors": ["src/lattice_abstract/edges.rs: Edges", "src/lattice_abstract/neighbors.rs: Neighbors"]}
{"id": "C42", "title": "a reference to a shape behaves like the shape", "statement": "Shape for &S answers every Shape method exactly as S does.", "quantifier": "all shapes, arguments", "why_tests_cant": "delegation of every method for every implementor", "anchors": ["src/lattice_abstract/shapes.rs: impl Shape for &S"]}
{"id": "C43", "title": "SquareGraph::new_with builds consistent arrays", "statement": "SquareGraph::new_with(h, v, ..) with h, v >= 1 and h * v at most isize::MAX (the limit of ndarray, past which it panics) never faults, calls the node closure once per cell and the edge closure once per existing edge, and produces arrays that satisfy the size check; h = 0 is rejected by a panic.", "quantifier": "all h, v, loop markers, closures", "why_tests_cant": "all sizes and four loop shapes", "anchors": ["src/square/mod.rs: new_with, new_raw, check_gen"]}
{"id": "C44", "title": "SquareGraph weights are exact", "statement": "After SquareGraph::new_with, node_weight and edge_weight return the closures' values exactly on existing nodes and edges, None elsewhere.", "quantifier": "all h, v, loop markers, closures, indices", "why_tests_cant": "boundary slots differ per loop marker and size", "anchors": ["src/square/mod.rs: DataMap"]}
{"id": "C45", "title": "SquareGraph node enumeration and index bijection", "statement": "On a SquareGraph whose sides the index type can represent, node_identifiers lists every node exactly once in index order with exact len() at every point; to_index/from_index are inverse bijections with 0..node_count.", "quantifier": "all h, v, iterator states", "why_tests_cant": "odometer state machine over all sizes", "anchors": ["src/square/nodes.rs: NodeIndices, NodeIndexable"]}
{"id": "C46", "title": "SquareGraph neighbors", "statement": "On a SquareGraph whose sides the index type can represent, neighbors(n) of a node yields exactly left, right, down, up in that order, those that exist, wrapping on looped axes.", "quantifier": "all h, v, loop markers, nodes", "why_tests_cant": "four loop shapes times all boundary cases", "anchors": ["src/square/neighbors.rs: Neighbors"]}
{"id": "C47", "title": "SquareGraph edges(n)", "statement": "On a SquareGraph whose sides the index type can represent, edges(n) of a node yields one reference per neighbor in the same order, with source n, target the neighbor, and the weight edge_weight(id()); the same weight is seen from the other end.", "quantifier": "all h, v, loop markers, nodes, reachable states", "why_tests_cant": "four loop shapes times all boundary cases", "anchors": ["src/square/edges.rs: Edges, EdgeReference"]}
{"id": "C48", "title": "SquareGraph edge_references lists every edge exactly once", "statement": "On a SquareGraph whose sides the index type can represent, edge_references() yields exactly one reference per existing edge id, with its weight and its two endpoints.", "quantifier": "all h, v, loop markers, reachable states", "why_tests_cant": "exactly-once over unbounded edge sets", "anchors": ["src/square/edges.rs: EdgeReferences"]}
{"id": "C49", "title": "SquareGraph get_edge_id agrees with edges", "statement": "get_edge_id(n, dir) returns the id (and orientation) of the edge that edges(n) yields for that direction, None iff there is none, and get_edge_reference(n, dir) has source n and the neighbor in that direction as target.", "quantifier": "all h, v, loop markers, nodes, directions", "why_tests_cant": "wrap cases for all sizes", "anchors": ["src/square/mod.rs: get_edge_id, get_edge_reference"]}
{"id": "C50", "title": "NodeIndex::distance is the graph distance", "statement": "distance is a metric, changes by at most one along any edge of a non-looped SquareGraph, and equals the length of a shortest path there, hence is an exact, admissible A* heuristic.", "quantifier": "all nodes, sizes, paths of any length", "why_tests_cant": "shortest paths of unbounded length", "anchors": ["src/square/index.rs: NodeIndex::distance"]}
{"id": "C51", "title": "SquareGraph visit map is a set", "statement": "For any sequence of visit/unvisit/is_visited/reset_map on in-graph nodes, the map behaves as a set and visit/unvisit return whether they changed it. On an index that is not a node visit and unvisit panic; is_visited is false past the last row and panics past the last column.", "quantifier": "all sizes, histories", "why_tests_cant": "unbounded histories", "anchors": ["src/square/mod.rs: VisMap"]}
{"id": "C52", "title": "narrow index types", "statement": "A SquareGraph whose sides fit the index type Ix behaves the same for u8, u16, u32 and usize.", "quantifier": "all index widths, sizes, operations", "why_tests_cant": "behaviour at the width limit", "anchors": ["src/square/index.rs: NodeIndex", "src/square/nodes.rs: NodeIndices", "src/square/mod.rs: get_edge_id"]}
{"id": "C53", "title": "SquareGraph safe API cannot read out of bounds", "statement": "No sequence of safe calls on a SquareGraph makes edges, edge_references or get_edge_reference read outside its arrays.", "quantifier": "all sizes, loop markers, safe call sequences, index arguments", "why_tests_cant": "undefined behaviour need not show in a test run", "anchors": ["src/square/edges.rs: uget", "src/square/mod.rs: get_edge_reference, nodes_mut, horizontal_mut, vertical_mut"]}
{"id": "C54", "title": "SquareGraph weights behave like a map under any mutation history", "statement": "After any sequence of node_weight_mut/edge_weight_mut writes, reads through node_weight, edge_weight, node_references, edges and edge_references return the last value written.", "quantifier": "all sizes, loop markers, operation sequences", "why_tests_cant": "unbounded histories", "anchors": ["src/square/mod.rs: DataMapMut"]}
{"id": "C55", "title": "the new_uninit workflow is sound", "statement": "Starting from new_uninit, writing every node and every existing edge through node_weight_mut/edge_weight_mut and calling assume_init gives a graph indistinguishable, through the API, from new_with with the same values.", "quantifier": "all sound shapes, sizes, values, write orders", "why_tests_cant": "any order of writes", "anchors": ["src/lattice_abstract/mod.rs: new_uninit, assume_init"]}
{"id": "C56", "title": "SquareGraph iterators keep their size contract", "statement": "size_hint of SquareGraph's neighbors, edges and node_references brackets the items still to come at every point, without underflow, and the iterators are fused.", "quantifier": "all sizes, loop markers, iterator states", "why_tests_cant": "every intermediate state", "anchors": ["src/square/edges.rs: size_hint", "src/square/neighbors.rs: size_hint", "src/square/nodes.rs: size_hint"]}
{"id": "C57", "title": "storage is exact even on the shapes with wrong moves", "statement": "On every built-in shape, including the flat-top offset, looped axial and double-coordinate shapes whose moves violate C31-C34, new_with calls the closures once per node and once per edge announced by move_coord, and node_weight, edge_weight, node_references and edge_references then agree with those values (and with later writes), reading only initialised memory. (On the double-coordinate shape for coordinates of the right parity; the others are in C34.)", "quantifier": "all shapes, sizes, closures, reachable states", "why_tests_cant": "uninitialised reads need not show in a test run", "anchors": ["src/lattice_abstract/mod.rs: new_with, node_weight, edge_weight", "src/lattice_abstract/edges.rs: EdgeReferences", "src/lattice_abstract/nodes.rs: NodeReferences"]}
{"id": "C58", "title": "edges(n) reads only initialised weights on every shape", "statement": "On every built-in shape, iterating edges(n) of a node n yields one reference per neighbour without reading uninitialised memory.", "quantifier": "all shapes, sizes, nodes, reachable states", "why_tests_cant": "uninitialised reads need not show in a test run", "anchors": ["src/lattice_abstract/edges.rs: Edges::next", "src/hex/offset_based/shapes.rs: move_coord_q, move_coord_q_lew"]}
{"id": "C59", "title": "hop distance equals the lattice metric", "statement": "The least number of neighbors steps between two nodes is the Manhattan distance on square shapes, the Chebyshev distance with diagonals, the hexagonal distance on point-top offset and on axial shapes (for every parity, also in the sheared rectangles of axial maps and for width or height 1), and the hexagonal distance with the shorter way round on LoopEW offset shapes; directed variants have the same distances.", "quantifier": "all sound shapes, sizes, pairs of nodes", "why_tests_cant": "all pairs of all sizes; borders and parity decide whether a geodesic leaves the map", "anchors": ["src/lattice_abstract/neighbors.rs: Neighbors::next", "src/lattice_abstract/square.rs: move_coord", "src/hex/offset_based/shapes.rs: move_coord_r, move_coord_r_lew", "src/hex/axial_based/shapes.rs: move_coord"]}
{"id": "C60", "title": "the number of edges is the closed form of the lattice", "statement": "edge_references yields, and new_with called the edge closure, exactly h(w-1)+(h-1)w times on a w x h square graph, 2(h-1)(w-1) more with diagonals, h(w-1)+(h-1)(2w-1) times on point-top hexagons in offset or axial coordinates (w and h exchanged for flat-top axial maps), hw+2(h-1)w on LoopEW offset shapes, and twice that on directed shapes; zero for empty graphs.", "quantifier": "all sound shapes and sizes, all reachable states", "why_tests_cant": "an off-by-one at a border or row parity only shows at particular sizes", "anchors": ["src/lattice_abstract/mod.rs: new_with", "src/lattice_abstract/edges.rs: EdgeReferences"]}
{"id": "C61", "title": "the public moves of DoubleCoordShapeBase are exact in the doubled rectangle", "statement": "For OddR and OddQ, DoubleCoordShapeBase::move_coord(c, dir, h_max, v_max) with c inside the bounds succeeds iff the coordinate displaced by the direction's doubled vector ((+-2,0), (+-1,+-1) point-top; (0,+-2), (+-1,+-1) flat-top) is inside the bounds, and returns it; the opposite direction leads back; h+v keeps its parity. Passing 2h as h_max would make DoubleCoordShape satisfy C34.", "quantifier": "all bounds (below usize::MAX), coordinates, directions", "why_tests_cant": "borders of every size", "anchors": ["src/hex/double_coord/shapes.rs: move_coord_r, move_coord_q"]}
{"id": "C62", "title": "the unchecked accessors agree with the checked ones", "statement": "Wherever to_offset, move_coord, node_weight, edge_weight, node_weight_mut or edge_weight_mut succeed, the corresponding unsafe unchecked variants (and the raw ones taking a storage position) return the same value, respectively leave the same graph, on every shape and in every reachable state.", "quantifier": "all shapes, sizes, coordinates, directions, reachable states", "why_tests_cant": "each shape overrides the unchecked variants separately; a divergence shows only at the coordinates tried", "anchors": ["src/lattice_abstract/shapes.rs: to_offset_unchecked, move_coord_unchecked", "src/lattice_abstract/mod.rs: node_weight_unchecked, edge_weight_unchecked_raw, edge_weight_mut_unchecked", "src/hex/axial_based/shapes.rs: to_offset_unchecked, move_coord_unchecked"]}
{"id": "C63", "title": "is_directed tells whether the two directions share a weight", "statement": "is_directed() is false exactly for the graphs where, in every reachable state, the edge from a to b seen by edges(a) and the edge from b to a seen by edges(b) have the same weight; where it is true, the two weights can be set independently through edge_weight_mut.", "quantifier": "all sound shapes with an edge, reachable states, edge types with two values", "why_tests_cant": "petgraph algorithms trust this flag; a wrong flag shows only in particular states", "anchors": ["src/lattice_abstract/mod.rs: EdgeTypeWrap::is_directed, GraphProp", "src/lattice_abstract/shapes.rs: Axis::DIRECTED", "src/lattice_abstract/edges.rs: Edges::next"]}
{"id": "C64", "title": "breadth-first and depth-first search return every node exactly once", "statement": "petgraph's Bfs and Dfs, run from any node on neighbors and the visit map, never fault, terminate, return every node exactly once with the start first, and Bfs returns the nodes in the order of their distance (least number of neighbors steps) from the start.", "quantifier": "all sound shapes, sizes, start nodes, reachable states", "why_tests_cant": "the result depends on neighbors and the visit map together on every node of every size", "anchors": ["src/lattice_abstract/neighbors.rs: Neighbors::next", "src/lattice_abstract/mod.rs: VisMap::visit, is_visited, visit_map"]}
{"id": "C65", "title": "Dijkstra's algorithm over edges returns least costs", "statement": "petgraph's dijkstra without a goal, run from any node with any natural-number edge cost, never faults, terminates within 9 times the number of nodes plus one turns whatever entry of least score the heap returns, and ends with exactly the nodes scored, each with the least total cost of a walk along edges().", "quantifier": "all sound shapes, sizes, reachable states, costs, start nodes, heap orders", "why_tests_cant": "the result depends on edges and the visit map together on every node of every size", "anchors": ["src/lattice_abstract/edges.rs: Edges::next", "src/lattice_abstract/mod.rs: VisMap::visit, is_visited, visit_map"]}
{"id": "C66", "title": "Legacy directions and unchecked edge names", "statement": "SquareDirection and (Axis, bool) convert into each other without loss, up/down/left/right and is_horizontal/is_vertical mean what they say, NodeIndex::up etc. make that displacement, and get_edge_id_unchecked (also reached from safe code through From<(NodeIndex, SquareDirection)>) names the edge to the neighbour in that direction.", "quantifier": "all sizes, loops, index types, nodes and directions", "why_tests_cant": "the unchecked name goes wrong only at the border cells of a particular size and build", "anchors": ["src/square/index.rs: SquareDirection, NodeIndex::get_edge_id_unchecked, NodeIndex::up, down, left, right, From<(NodeIndex, SquareDirection)> for EdgeIndex"]}
{"id": "C67", "title": "Legacy edge totals", "statement": "edge_references() of a legacy h x v graph yields exactly (h or h-1)*v + h*(v or v-1) edges (the full side if looped), the numbers of items of edges(n) over all nodes sum to twice that, and new_edge_graph calls its closure exactly once for each of them and stores the results.", "quantifier": "all sizes, loops, index types, weights", "why_tests_cant": "a total over an unbounded grid cannot be tested for every size", "anchors": ["src/square/edges.rs: EdgeReferences::next, Edges::next", "src/square/mod.rs: new_edge_graph, new_with"]}
{"id": "C68", "title": "searches on the shapes whose moves may leave the graph", "statement": "Also on OddQ/EvenQ offset shapes (plain, directed, LoopEW) and LoopEW axial shapes, whose neighbors may name coordinates outside the graph or miss some, petgraph's Bfs and Dfs never fault, terminate, return every node exactly once and nothing else, the start first; Bfs in the order of the least number of neighbors steps inside the graph. (On the double-coordinate shape: every node within reach, see C72.)", "quantifier": "all modelled shapes, all sizes, start nodes, reachable states", "why_tests_cant": "whether an off-graph coordinate is ever returned or stops the search depends on every border cell of every size", "anchors": ["src/lattice_abstract/neighbors.rs: Neighbors::next", "src/lattice_abstract/mod.rs: VisMap::visit, is_visited", "src/hex/offset_based/shapes.rs: move_coord", "src/hex/axial_based/shapes.rs: move_coord"]}
{"id": "C69", "title": "Dijkstra on the shapes whose moves may leave the graph", "statement": "petgraph's dijkstra, run from any node with any costs on those same shapes, is always completed and returns the least costs.", "quantifier": "all modelled shapes, all sizes, start nodes, reachable states, costs, heap orders", "why_tests_cant": "a fault needs a walk to a particular border cell", "anchors": ["src/lattice_abstract/edges.rs: Edges::next, edges", "src/lattice_abstract/mod.rs: VisMap::visit, is_visited", "src/hex/offset_based/shapes.rs: move_coord", "src/hex/axial_based/shapes.rs: move_coord"]}
{"id": "C70", "title": "new_with with a closure that panics", "statement": "If a closure given to new_with panics at some call, new_with has made the calls of C01 in order up to that one and makes no other, the values already returned are each in the slot of their call, every other slot is unwritten, and unwinding is free of undefined behaviour because the arrays hold MaybeUninit (as arrays of the weights it would run a destructor on an unwritten slot). If no call panics it returns what C01 says.", "quantifier": "all modelled shapes, all sizes, closures with any state, any panicking call", "why_tests_cant": "which slots are written when a call panics depends on the call and the shape", "anchors": ["src/lattice_abstract/mod.rs: LatticeGraph::new_with, new_uninit, Drop"]}
{"id": "C71", "title": "node numbering, node iteration and adjacency on the shapes whose moves may leave the graph", "statement": "Also on OddQ/EvenQ offset shapes, LoopEW axial shapes and (but for adjacency, see C34) double-coordinate shapes, node_count is the product of the sides, to_index/from_index are inverse bijections and to_index panics off the graph, node_identifiers yields every node once in index order, new_with makes each call once, is_adjacent(a,b) says whether neighbors(a) yields b, and get_direction(a,b) is a direction that leads from a to b whenever there is one.", "quantifier": "all modelled shapes, all sizes, coordinates, reachable states", "why_tests_cant": "the moves of these shapes are wrong on some borders, so what still holds has to be shown for every cell", "anchors": ["src/lattice_abstract/mod.rs: NodeIndexable, NodeCount, IntoNodeIdentifiers, GetAdjacencyMatrix", "src/lattice_abstract/nodes.rs: NodeIndices::next", "src/lattice_abstract/shapes.rs: get_direction, is_neighbor"]}
{"id": "C72", "title": "which nodes a search finds on a double-coordinate map", "statement": "On DoubleCoordShape<OddR>(h, v), petgraph's Bfs and Dfs from a node a never fault, terminate and return exactly once each the nodes c with c.h < h (none by this rule if h = 1) or |c.v - a.v| <= a.h - c.h; so on every map of more than one node some node is missed from every western start. petgraph's dijkstra can be completed exactly from the nodes with a.h < h.", "quantifier": "all sizes, start nodes, reachable states, costs", "why_tests_cant": "which nodes are out of reach depends on the size and the start; the faulting reads need not crash", "anchors": ["src/hex/double_coord/shapes.rs: move_coord_r", "src/lattice_abstract/neighbors.rs: Neighbors::next", "src/lattice_abstract/edges.rs: Edges::next", "src/lattice_abstract/mod.rs: VisMap"]}
{"id": "C73", "title": "Legacy graph: breadth-first, depth-first search and Dijkstra", "statement": "petgraph's Bfs, Dfs and dijkstra, run from any node of a SquareGraph whose sides fit its index type, never fault and terminate; Bfs and Dfs return every node exactly once, the start first, Bfs in order of distance; dijkstra ends, whatever entry of least score the heap returns, within 5 times the number of nodes plus one turns with exactly the nodes scored, each with the least total cost of a walk along edges().", "quantifier": "all sizes, loops, index types, start nodes, costs, heap orders", "why_tests_cant": "the result depends on neighbors, edges and the visit map together on every node of every size", "anchors": ["src/square/neighbors.rs: Neighbors::next", "src/square/edges.rs: Edges::next", "src/square/mod.rs: VisMap, Visitable"]}
{"id": "C74", "title": "Legacy new_with with a closure that panics", "statement": "If a closure given to SquareGraph::new_with panics, or new_with itself panics for the sides it was given, every value the closures had returned is dropped exactly once and nothing else is; the calls made are those of the undisturbed run up to the first panic. If nothing panics, the values are in the graph in the order of the calls. With closures that do not panic the result is that of C43.", "quantifier": "all sizes (accepted or not), loops, index types, builds, closures with any state, any panicking call", "why_tests_cant": "leaks and double drops need a destructor with effects and a panic at a particular call", "anchors": ["src/square/mod.rs: SquareGraph::new_with, new_raw"]}
{"id": "C75", "title": "a lattice written by a user of the crate", "statement": "For every implementation of the traits whose methods agree with some lattice (positions, moves that can be undone, axis and direction numbers), not only the built-in ones, new_with followed by any sequence of weight changes refines a map from nodes and edges to weights, neighbors and node_identifiers list what the lattice says, and petgraph's Bfs, Dfs and dijkstra are complete and correct. A torus, written with the crate's Direction<T>, is such an implementation for every size; its graph is connected and has exactly 2*h*v edges.", "quantifier": "all implementations obeying the laws, all sizes, closures with any state, programs, start nodes, costs", "why_tests_cant": "user implementations do not exist yet", "anchors": ["src/lattice_abstract/shapes.rs: trait Shape, trait Axis, Direction<T>", "src/lattice_abstract/mod.rs: LatticeGraph", "src/lattice_abstract/edges.rs: Edges::next", "src/lattice_abstract/neighbors.rs: Neighbors::next"]}
{"id": "C76", "title": "a lattice written wrongly by a user of the crate", "statement": "Shape, Axis and AxisDirection are safe traits, so no implementation of them in safe code, however wrong, may lead to undefined behaviour in new_with, node_weight, node_weight_mut, edge_weight, edge_weight_mut or edges.", "quantifier": "all implementations in safe code, all sizes, closures, coordinates, reachable states", "why_tests_cant": "the set of implementations is not enumerable, and undefined behaviour need not be visible", "anchors": ["src/lattice_abstract/shapes.rs: trait Shape, trait Axis", "src/lattice_abstract/mod.rs: LatticeGraph::new_with, node_weight, node_weight_mut, edge_weight, edge_weight_mut", "src/lattice_abstract/edges.rs: Edges::next"]}
{"id": "C78", "title": "new, Default and the const-size constructors", "statement": "new puts the default node weight on every node and the default edge weight on every edge and nothing else, and panics exactly on the sizes ndarray rejects; new_s, default, new_with_s and new_uninit_s do what new, new_with and new_uninit do for the default value of the shape; that value has sides H and V for the const-size shapes and sides 0 for SquareShape, whose default graph is empty and answers every question about any coordinate accordingly.", "quantifier": "all modelled shapes, all sizes, H and V, markers, weights, closures with any state", "why_tests_cant": "every size and every node of it would have to be built; the const-size constructors are separate monomorphisations", "anchors": ["src/lattice_abstract/mod.rs: new, new_s, new_with_s, new_uninit_s, Default", "src/lattice_abstract/square.rs: SquareShape (derive Default)", "src/hex/offset_based/shapes.rs: Default for ConstHexOffsetShape", "src/hex/axial_based/shapes.rs: Default for ConstHexAxialShape", "src/hex/double_coord/shapes.rs: Default for ConstDoubleCoordShape"]}
{"id": "C79", "title": "orders and pair conversions of coordinates", "statement": "The derived order of Offset, SquareOffset, HexOffset and of the legacy NodeIndex is the order of the node indices of any graph (so a sorted list of coordinates is in to_index order), and so is the order of axial coordinates under a flat-top marker; under the point-top markers and for double coordinates it is not, on any map with three rows or more. Conversions between coordinates and pairs lose nothing, except that a legacy NodeIndex made from a pair equals the pair exactly if both parts fit the index type. The derived orders are total orders in which only equal coordinates compare equal, and those of the eight axis types and their directions are the orders of to_index and dir_to_index.", "quantifier": "all modelled shapes, all sizes, pairs of nodes, index types", "why_tests_cant": "an order is a statement about all pairs of nodes of all sizes", "anchors": ["src/lattice_abstract/shapes.rs: Offset (derive Ord), From<(T, T)>", "src/lattice_abstract/square.rs: PartialEq and From between SquareOffset and pairs", "src/hex/axial_based/shapes.rs: HexAxial (derive Ord)", "src/hex/double_coord/shapes.rs: DoubleCoord (derive Ord)", "src/square/index.rs: NodeIndex (derive Ord), From, PartialEq"]}
{"id": "C77", "title": "LatticeGraph<SquareShape> replaces the deprecated SquareGraph", "statement": "A legacy SquareGraph without loops and a LatticeGraph<SquareShape> built from the same functions on the same sizes agree on every node and edge weight; any program of reads, writes and iterations returns the same on both (edges(n) and neighbors(n) up to order), and leaves them agreeing; node count, node order and node indices coincide. They differ in this: the closures are called in another order as soon as there are two nodes, and a side of length 0 makes the old constructor panic and the new one return an empty graph.", "quantifier": "all sizes, weights, index types that hold the sides, programs of any length, nodes", "why_tests_cant": "equivalence of two implementations over all programs and sizes; a test compares single values", "anchors": ["src/square/mod.rs: SquareGraph::new_with, node_weight, edge_weight, node_weight_mut, edge_weight_mut", "src/square/edges.rs", "src/square/nodes.rs", "src/lattice_abstract/square.rs: SquareShape", "src/lattice_abstract/mod.rs: LatticeGraph", "src/lattice_abstract/edges.rs", "src/lattice_abstract/nodes.rs"]}
{"id": "C80", "title": "a memory-safety contract for implementations of Shape and Axis", "statement": "The traits Shape and Axis are safe, so anyone may implement them, yet an implementation can make safe calls undefined behaviour (C76). The following is enough: the methods written in safe code do not misbehave themselves; positions returned by to_offset are in the storage and belong to the coordinate, and offset_to_coordinate and to_offset_unchecked agree with it; axis numbers are below COUNT and lead back to the axis; a forward direction numbered i is the forward direction of axis i, a backward one numbered i belongs to axis i - COUNT and every move in it ends on a cell with a forward move along that axis; with directed axes the same for the slot edges_directed(Incoming) reads. Then construction, weights, node_references, neighbors, edges, edges_directed and edge_references are never undefined behaviour on recognised coordinates. Moves need not form a lattice. For an arbitrary shape an edge iterator reads uninitialised or foreign memory exactly if the slot it computes is not one new_with filled.", "quantifier": "all shapes whatsoever, sizes, weights, closures, histories of safe writes, iterator states, both build modes", "why_tests_cant": "quantifies over all implementations of the traits, which do not exist yet", "anchors": ["src/lattice_abstract/shapes.rs: Shape, Axis, AxisDirection", "src/lattice_abstract/mod.rs: new_with, node_weight, edge_weight, edge_weight_unchecked_raw", "src/lattice_abstract/edges.rs: Edges, EdgeReferences, DtMarker", "src/lattice_abstract/nodes.rs: NodeReferences", "src/lattice_abstract/neighbors.rs: Neighbors"]}
{"id": "C81", "title": "graphs with zero-sized edge weights", "statement": "With an edge type of size zero, such as (), the slots of the edge arrays that belong to no edge are not uninitialised. Construction, reads and writes do what they do for other types. Clone, PartialEq and Hash, which are undefined behaviour for other types (C23), are right: a graph clones to itself, two graphs of one shape are equal exactly if all node weights agree, and the hash is fed the node weights and a fixed number of unit values. If the zero-sized type has a destructor, dropping a graph runs it twice per edge and once per slot without an edge.", "quantifier": "all modelled shapes, all sizes, node weights, closures, histories of writes", "why_tests_cant": "needs all sizes and histories; the derived code is instantiated per type", "anchors": ["src/lattice_abstract/mod.rs: new_with, assume_init, Drop, derive(Clone, PartialEq, Hash)", "src/lattice_abstract/edges.rs: Edges, EdgeReferences"]}
{"id": "C82", "title": "A* over edges returns cheapest paths", "statement": "petgraph's astar, run on a LatticeGraph from any node with any natural-number edge cost, estimate and goal, never faults and terminates, whatever entry of least estimate the heap returns. It returns None exactly if no goal can be walked to; otherwise a path from the start to a goal along edges(). If the estimate never exceeds the cost of a walk to a goal, which the number of steps to the goal (C59) times the least edge cost does not, the cost returned is the least cost of a walk to a goal and is the cost of the returned path.", "quantifier": "all lawful shapes, sizes, reachable states, costs, estimates, goals, start nodes, heap orders", "why_tests_cant": "the tests run four searches on two small graphs; optimality quantifies over all walks", "anchors": ["src/lattice_abstract/edges.rs: Edges::next, edges, EdgeReference::target", "src/lattice_abstract/square.rs: tests::astar", "benches/square_comparison.rs", "benches/bench_ndarray.rs"]}
{"id": "C83", "title": "legacy graph: A* with NodeIndex::distance as the estimate", "statement": "petgraph's astar on a SquareGraph never faults and terminates, returns None exactly if no node is a goal and otherwise a path to a goal. With distance() to the goal times a lower bound of the edge costs as the estimate, as in the crate's own test, the returned path is a cheapest one on every SquareGraph.", "quantifier": "all sizes, loops, index types, costs, start and goal nodes, heap orders", "why_tests_cant": "the test has no loop; optimality quantifies over all walks", "anchors": ["src/square/index.rs: NodeIndex::distance", "src/square/edges.rs: Edges::next, edges, EdgeReference::target", "src/square/tests.rs: astar"]}
{"id": "C84", "title": "floyd_warshall returns all least costs", "statement": "petgraph's floyd_warshall, run on a LatticeGraph with any natural-number cost of the edge weights, never faults. It reads edge_references(), to_index, node_identifiers() and is_directed(), not edges(), yet the entry for a pair of nodes is the least total cost of a walk along edges() from the one to the other, and the maximum exactly if there is none, which does not happen on the shapes of the crate. With every edge at cost one the entries are the least numbers of steps (C59).", "quantifier": "all lawful shapes, directed and undirected, sizes, reachable states, costs, pairs of nodes", "why_tests_cant": "relates two enumerations of the edges over all walks; no test runs it", "anchors": ["src/lattice_abstract/edges.rs: EdgeReferences::next, edge_references", "src/lattice_abstract/nodes.rs: NodeIndexable, NodeCompactIndexable, node_identifiers", "src/lattice_abstract/mod.rs: EdgeTypeWrap::is_directed, GraphProp"]}
{"id": "C85", "title": "connected components and cycles", "statement": "petgraph's connected_components and is_cyclic_undirected never fault on a LatticeGraph. The first returns the number of classes of nodes joined by edges(): one for every nonempty shape of the crate. The second returns true exactly if some edge of edge_references() joins what the others join without it, that is unless edges and components together are as many as the nodes; so exactly if there are at least two rows and two columns for undirected square and hexagonal graphs, always for cylinders, and for directed graphs as soon as there is an edge.", "quantifier": "all lawful shapes, sizes, reachable states", "why_tests_cant": "counting components and edges of all sizes at once", "anchors": ["src/lattice_abstract/edges.rs: EdgeReferences::next, edge_references", "src/lattice_abstract/nodes.rs: NodeIndexable"]}
{"id": "C86", "title": "legacy graph: floyd_warshall, connected components and cycles", "statement": "On every SquareGraph petgraph's floyd_warshall, connected_components and is_cyclic_undirected never fault. The entry for two nodes is the least total cost of a walk along edges() between them; there is one component; there is a cycle exactly if the graph is looped in a direction or has at least two rows and two columns, where a loop of length one or two counts as one.", "quantifier": "all sizes, loops, index types, costs, pairs of nodes, histories of writes", "why_tests_cant": "relates two enumerations of the edges over all walks and sizes; no test runs them", "anchors": ["src/square/edges.rs: EdgeReferences::next, edge_references", "src/square/nodes.rs: node_identifiers, NodeIndexable", "src/square/mod.rs: GraphProp"]}
{"id": "C87", "title": "bipartiteness", "statement": "petgraph's is_bipartite_undirected, run on a LatticeGraph from any node, terminates without a panic (its own assertions on the visit maps included) and answers true exactly if every closed walk along neighbors() has even length, equivalently if the nodes around the start can be given two colours that neighbors() always changes. So it answers true on every square graph; on square graphs with diagonals and on offset and axial hexagonal maps exactly if there is one row or one column; on the east-west loop exactly if there is one row of even length; on a user's torus exactly if both sides are even.", "quantifier": "all lawful shapes, sizes, reachable states, start nodes", "why_tests_cant": "all sizes and closed walks of all lengths; no test runs it", "anchors": ["src/lattice_abstract/neighbors.rs: NeighborsIter, neighbors", "src/lattice_abstract/mod.rs: VisitMap, Visitable"]}
{"id": "C88", "title": "legacy graph: bipartiteness", "statement": "On every SquareGraph petgraph's is_bipartite_undirected terminates without a panic and answers true exactly if every closed walk along neighbors() has even length, that is exactly if each looped side is even.", "quantifier": "all sizes, loops, index types, start nodes, histories of writes", "why_tests_cant": "all sizes and closed walks of all lengths; no test runs it", "anchors": ["src/square/neighbors.rs: Neighbors::next, neighbors", "src/square/mod.rs: VisMap, Visitable"]}
{"id": "C89", "title": "is_forward and is_backward of a direction", "statement": "The deprecated AxisDirection::is_forward says of a direction whether it is the forward direction of its axis, agreeing with Axis::is_forward_direction, and is_backward says the opposite, for every axis and direction of the crate and for Direction<T> over any axis.", "quantifier": "all axes of the crate, all directions, any user axis for Direction<T>", "why_tests_cant": "no test calls them; the blanket impl is chosen by the Direction type, not by the axis", "anchors": ["src/lattice_abstract/shapes.rs: AxisDirection::is_forward, is_backward, is_forward_direction, Direction<T>"]}
{"id": "C90", "title": "visit map, neighbours and indices of any shape", "statement": "For any implementation of Shape, lawful or not, a visit map is a set of storage positions: over any program of visit, is_visited, unvisit and reset_map calls (a caught panic included) each answer is that of the set; if to_offset returns, visit and unvisit panic exactly if the position lies outside the map and is_visited exactly if its column does, and then leave the set as it was; two coordinates with one position are one to the map. If the implementation is in safe code, no such program, and no call of to_index, from_index, node_count or node_identifiers, is undefined behaviour, nor are neighbors and get_direction if every number below UNDIRECTED_COUNT is that of a direction; running through neighbors is undefined behaviour exactly if it comes, all moves before having returned, to a number that is not, which a wrong COUNT in safe code brings about.", "quantifier": "all shapes without any law, all programs of calls", "why_tests_cant": "a test runs the shapes of the crate only; the claim covers every implementation and every history", "anchors": ["src/lattice_abstract/mod.rs: VisMap, VisitMap, Visitable", "src/lattice_abstract/neighbors.rs: NeighborsIter::next", "src/lattice_abstract/nodes.rs: NodeIndices::next", "src/lattice_abstract/shapes.rs: Shape::to_index, index_to_coordinate, get_direction"]}
{"id": "C91", "title": "minimum spanning trees", "statement": "petgraph's min_spanning_tree, run on a LatticeGraph, never faults. It returns every node weight once, at the index to_index gives the node, and then edges of edge_references(), each at most once and by the indices of its ends: they join exactly the nodes edges() joins, contain no cycle, and no other choice of edges joining the same nodes costs less in total. There are as many of them as nodes less connected components, so nodes less one on every connected map; the total does not depend on the order in which the heap yields edges of equal weight.", "quantifier": "all lawful shapes, sizes, edge weights, reachable states, orders of equal weights", "why_tests_cant": "all weights and all competing sets of edges; no test runs it", "anchors": ["src/lattice_abstract/edges.rs: edge_references, EdgeReferences::next", "src/lattice_abstract/nodes.rs: node_references, NodeIndexable"]}
{"id": "C92", "title": "legacy graph: minimum spanning trees", "statement": "On every SquareGraph petgraph's min_spanning_tree never faults. It returns every node weight once, at the index of its node, and then one edge fewer than there are nodes: edges of edge_references(), joining all nodes and without a cycle, of least total cost among all choices of edges that join all nodes.", "quantifier": "all sizes, loops, index types, edge weights, histories of writes, orders of equal weights", "why_tests_cant": "all weights and all competing sets of edges; no test runs it", "anchors": ["src/square/edges.rs: EdgeReferences::next, edge_references", "src/square/nodes.rs: node_references, NodeIndexable"]}
{"id": "C93", "title": "legacy graph: new_raw and the whole arrays", "statement": "SquareGraph::new_raw keeps the three arrays it is given; in debug it returns exactly if their sides belong together (one edge fewer along an axis without a loop) and panics otherwise, in release it checks nothing. Arrays that belong together, with at least one node, are exactly the graphs new_with and weight writes can make, with the weights at [horizontal][vertical] (so all other properties hold of them), and replacing a whole array through nodes_mut, horizontal_mut or vertical_mut by one of the same sides changes those weights only. With arrays that do not belong together, edges(n) of a node gives each link with what edge_weight answers for it if edge_weight has an answer for all of them, and otherwise panics in debug and reads out of bounds in release.", "quantifier": "all arrays of any sides, all markers, index types, both build modes", "why_tests_cant": "the only use of new_raw in the repository is by new_with, with arrays that fit", "anchors": ["src/square/mod.rs: new_raw, check_gen, nodes, horizontal, vertical, nodes_mut, horizontal_mut, vertical_mut", "src/square/edges.rs: Edges::next"]}
{"id": "C94", "title": "new_raw", "statement": "A graph LatticeGraph::new_raw makes of arrays with one slot per node (one array per axis for the edges), initialised at least where the shape has a node or an edge, holds the weights of the arrays column by column and answers every read, write and iteration as the graph new_with makes with these weights, wherever that is not undefined behaviour. If no slot is uninitialised, as in arrays made in safe code, cloning, comparing and hashing take all slots into account and never read uninitialised memory (which graphs of new_with do, C23), and dropping runs each node destructor once, that of an edge weight twice (the fault of C22) and that of a weight in a slot of no edge once.", "quantifier": "all storable shapes, lawful or not, all arrays of these sides, all histories of writes", "why_tests_cant": "nothing in the repository calls new_raw", "anchors": ["src/lattice_abstract/mod.rs: new_raw, shape, DataMap, DataMapMut, Drop, derive(Clone, PartialEq, Hash)", "src/lattice_abstract/edges.rs: Edges::next, EdgeReferences::next", "src/lattice_abstract/nodes.rs: NodeReferences::next", "src/square/edges.rs: Edges::next", "src/square/neighbors.rs: Neighbors::next"]}
{"id": "C95", "title": "equality of visit maps", "statement": "Two visit maps of one LatticeGraph, each after any sequence of visit, unvisit, is_visited and reset_map calls with any coordinates, are equal (derived ==) exactly if the same nodes are in the two sets; so a map equals a fresh one exactly if no node is visited. Two visit maps of legacy graphs are equal exactly if they have as many columns, columns (if any) as long, and the same nodes.", "quantifier": "all storable shapes, all pairs of histories; legacy: all pairs of sizes", "why_tests_cant": "no test compares visit maps", "anchors": ["src/lattice_abstract/mod.rs: VisMap derive(PartialEq)", "src/square/mod.rs: VisMap derive(PartialEq)"]}
{"id": "C96", "title": "equality and order of edge references", "statement": "References that edges(a) and edges(b) yield, in one graph or two of the same shape, are equal (derived ==) exactly if a = b, the direction is the same and the weights are equal. So no two references of one edges(a) are equal, even two that lead to the same node, and the references by which the two ends of an undirected edge see it are never equal though id and weight name one edge; each reference of edge_references() is found among edges of its source. The same holds for the legacy graph, whose edge_references() are moreover strictly increasing in the derived order. The derived orders of the legacy axes, directions, node and edge indices and references are total orders in which only equal values compare equal (for references: if the orders of the weights and sizes are).", "quantifier": "all lawful shapes, nodes, weights and weight equalities, histories; legacy: all sizes, loops, index types", "why_tests_cant": "no test compares references", "anchors": ["src/lattice_abstract/edges.rs: EdgeReference derive(PartialEq)", "src/square/edges.rs: EdgeReference derive(PartialEq, Ord)", "src/square/index.rs: EdgeIndex derive(Ord)"]}
{"id": "C97", "title": "strongly connected components", "statement": "petgraph's kosaraju_scc, run on a LatticeGraph, ends without a fault and its groups are the strongly connected components: every node is in exactly one group, and two nodes are in one group exactly if neighbors() leads from each to the other. On the legacy SquareGraph there is one group, holding every node once.", "quantifier": "all storable shapes, sizes, reachable states; legacy: all sizes, loops, index types", "why_tests_cant": "all sizes; kosaraju_scc relies on neighbors_directed(_, Incoming), which no test calls on a shape whose moves cannot be undone", "anchors": ["src/lattice_abstract/neighbors.rs: neighbors_directed, neighbors", "src/lattice_abstract/mod.rs: VisMap, Visitable, reset_map", "src/lattice_abstract/nodes.rs: node_identifiers", "src/square/neighbors.rs: neighbors_directed"]}
{"id": "C98", "title": "topological order", "statement": "petgraph's toposort, run on a LatticeGraph or SquareGraph, ends without a fault; if neighbors() has a closed walk it returns Err(Cycle), and otherwise an order of all nodes, each once, in which every neighbour comes later.", "quantifier": "all storable shapes, sizes, reachable states; legacy: all sizes, loops, index types", "why_tests_cant": "all sizes and closed walks of all lengths; no test runs it", "anchors": ["src/lattice_abstract/neighbors.rs: neighbors_directed, neighbors", "src/lattice_abstract/mod.rs: VisMap, Visitable, reset_map", "src/lattice_abstract/nodes.rs: node_identifiers", "src/square/neighbors.rs: neighbors_directed"]}
{"id": "C99", "title": "has_path_connecting", "statement": "petgraph's has_path_connecting(g, a, b), from a node a and to any coordinate b, ends without a fault and answers true exactly if neighbors() leads from a to b inside the graph: on every map of C68 and every SquareGraph exactly if b is a node; on DoubleCoordShape<OddR>(h, v) exactly if b is a node with b.h < h (and h > 1) or |b.v - a.v| <= a.h - b.h.", "quantifier": "all storable shapes, sizes, nodes a, coordinates b, reachable states; legacy: all sizes, loops, index types", "why_tests_cant": "all pairs of nodes in all sizes", "anchors": ["src/lattice_abstract/neighbors.rs: neighbors", "src/lattice_abstract/mod.rs: VisMap, Visitable", "src/square/neighbors.rs: Neighbors::next", "src/square/mod.rs: VisMap"]}
{"id": "C100", "title": "formatting shows only what exists", "statement": "{:?} and {:#?} of a LatticeGraph (derived Debug; also of its iterators Neighbors, Edges and EdgeReferences, which hold the graph) read only weights of nodes and edges that exist and write them in the order of to_index, the nodes first and then each axis.", "quantifier": "all storable shapes, sizes, reachable states, both formats", "why_tests_cant": "debug-printing with an integer edge type shows garbage instead of failing; no test prints a graph", "anchors": ["src/lattice_abstract/mod.rs: LatticeGraph derive(Debug)", "src/lattice_abstract/neighbors.rs: Neighbors derive(Debug)", "src/lattice_abstract/edges.rs: Edges, EdgeReferences derive(Debug)"]}
{"id": "C101", "title": "reflections and rotations of a map are symmetries of its graph", "statement": "Mirroring a square or diagonal map east-west or north-south, or exchanging its rows and columns, maps nodes one-to-one onto nodes and commutes with every move (the direction mirrored alike). An OddR hex map (offset or axial) mirrored east-west is the EvenR map of the same size; mirrored north-south it is itself if it has an odd number of rows and the EvenR map otherwise. A LoopEW offset map may be turned by any number of columns. Hence adjacency, neighbour lists up to order, and the lengths of walks are preserved.", "quantifier": "all sizes, nodes, directions; square, diagonal, offset and axial hex shapes, directed or not", "why_tests_cant": "needs all sizes and both parities of the number of rows; off-by-one slips at one edge of the map break only one side", "anchors": ["src/lattice_abstract/square.rs: move_coord", "src/hex/offset_based/shapes.rs: move_coord_r, move_coord_r_lew", "src/hex/axial_based/shapes.rs: move_coord, to_offset"]}
{"id": "C102", "title": "iterators after a caught panic", "statement": "A caller that catches panics around next() and goes on: where C05, C06, C07, C10 and C13 say nothing panics, it sees their items and then None for ever. On edges_directed(a, Incoming) of a directed graph in a debug build (where C12 fails) it sees one panic for every neighbour of a and then None for ever, no item, no undefined behaviour, and a size_hint that covers what is left. On any shape at all, once neighbors() or node_identifiers() has panicked every later call panics in the same way; edges() and edges_directed() either do that too or have moved on to the directions not tried yet, never past the last one; node_references() and edge_references() skip a node whose weight or whose own edges cannot be looked up, and go on as if started at the next node. On a SquareGraph a panic of neighbors() or edges() repeats at every later call.", "quantifier": "all graphs, shapes, iterator states, numbers of calls", "why_tests_cant": "needs catch_unwind and continued use, and a directed graph in a debug build", "anchors": ["src/lattice_abstract/edges.rs: Edges::next, EdgeReferences::next", "src/lattice_abstract/neighbors.rs: Neighbors::next", "src/lattice_abstract/nodes.rs: NodeIndices::next, NodeReferences::next", "src/square/edges.rs: Edges::next", "src/square/neighbors.rs: Neighbors::next"]}
{"id": "C103", "title": "distances in a SquareGraph that wraps around", "statement": "The least number of neighbors() steps between two nodes of a SquareGraph is |\u0394horizontal| + |\u0394vertical|, each difference taken the shorter way round if that side is looped. NodeIndex::distance is this number exactly for pairs at most half of every looped side apart; the largest such number in the graph is the sum over the sides of n/2 (looped) or n-1 (not looped). astar with this number times a lower bound of the edge costs as the estimate returns a cheapest path on every SquareGraph, where distance may fail to (C83).", "quantifier": "all sizes, nodes, loop settings, costs", "why_tests_cant": "the crate's tests only compare distance on small graphs without checking it against the neighbours; the failing pairs lie across the border", "anchors": ["src/square/mod.rs: NodeIndex::distance", "src/square/neighbors.rs: Neighbors::next", "src/square/edges.rs: Edges::next"]}
{"id": "C104", "title": "weights too large for memory", "statement": "For all sizes of N and E: new_with returns the graph C01 describes exactly if the dimensions are in range and each array takes at most isize::MAX bytes, and panics otherwise; LatticeGraph does so before calling either closure. If N is at least as large as a FixedBitSet and there is a row, visit_map() then succeeds too; a graph without rows is always built, but its visit_map() panics if one FixedBitSet per column would exceed isize::MAX bytes.", "quantifier": "all shapes, dimensions, element sizes", "why_tests_cant": "needs arrays of more than 2^63 bytes, or 2^58 columns without rows", "anchors": ["src/lattice_abstract/mod.rs: new_uninit, new_with, VisMap::new", "src/square/mod.rs: new_with, VisMap::new"]}
{"id": "C105", "title": "symmetries of a SquareGraph", "statement": "Putting the columns or the rows of a SquareGraph in reverse order, turning it along a looped side by any number of cells, or exchanging rows and columns (loops and sides with them) maps nodes one-to-one onto nodes, and neighbors() of the image of a node is, up to order, the image of its neighbors(); so the lengths of walks between nodes are preserved. A combination of these takes any node to any other exactly when each side is looped or has at most two cells.", "quantifier": "all sizes, nodes, loop settings", "why_tests_cant": "needs every size and loop setting; a slip at one border breaks one side only", "anchors": ["src/square/neighbors.rs: Neighbors::next", "src/square/mod.rs: neighbors"]}
{"id": "C106", "title": "maps with obstacles", "statement": "petgraph's NodeFiltered and EdgeFiltered around a LatticeGraph or a SquareGraph: the filtered node_identifiers(), neighbors() and neighbors_directed() yield exactly the nodes and neighbours that are not blocked, in order, and nothing around a blocked node. has_path_connecting on the filtered graph ends without a fault and tells whether open cells lead from a to b; kosaraju_scc returns the regions of the map. astar over the filtered edges() ends without a fault, returns None exactly if no goal can be walked to along permitted edges, and otherwise a path along permitted edges, a cheapest one if the estimate is admissible; an estimate that is admissible without obstacles is so with them.", "quantifier": "all lawful shapes (lists and has_path_connecting: all storable shapes), sizes, reachable states, sets of blocked cells or edges, costs, estimates, goals; legacy: all sizes, loops, index types", "why_tests_cant": "all sets of obstacles in all sizes", "anchors": ["src/lattice_abstract/neighbors.rs: Neighbors::next, neighbors_directed", "src/lattice_abstract/edges.rs: edges, EdgesIter::next, EdgeReference::target", "src/lattice_abstract/nodes.rs: node_identifiers", "src/lattice_abstract/mod.rs: VisMap, Visitable", "src/square/neighbors.rs: Neighbors::next", "src/square/edges.rs: Edges::next, EdgeReference::target"]}
{"id": "C107", "title": "a lattice is the petgraph::Graph it stands for", "statement": "Copying a LatticeGraph or a SquareGraph into petgraph's general-purpose Graph, add_node for each of node_references() and add_edge for each of edge_references() with the ends by to_index, succeeds. The copy is directed if the lattice is, has as many nodes and edges, and the same weight at the node to_index(c). edges(c) and edges_directed(c, dir) (where that does not panic, C12) list the same edges with the same ends and weights as those of the copy: for directed lattices always, edges(c) in exactly the opposite order; for undirected ones exactly if the node has no edge to itself, which the crate lists twice and Graph once. The walks from node to node are the same in both and cost the same, so cheapest costs and reachability agree.", "quantifier": "all lawful shapes, sizes, reachable states, nodes, directions, costs; legacy: all sizes, loops, index types", "why_tests_cant": "compares two data structures on all sizes; a missing or doubled edge at one border would show on that border only", "anchors": ["README.md: smaller and faster than petgraph::Graph", "src/lattice_abstract/edges.rs: edges, edges_directed, EdgeReferences::next", "src/lattice_abstract/nodes.rs: node_references, to_index", "src/lattice_abstract/mod.rs: is_directed", "src/square/edges.rs: Edges::next, EdgeReferences::next", "src/square/nodes.rs: node_references, to_index"]}
{"id": "C108", "title": "least costs with negative weights (bellman_ford)", "statement": "petgraph's bellman_ford on a LatticeGraph or a SquareGraph completes without a fault from every node, with one result. It reports a negative cycle exactly if along edges() some node within reach can be left and entered again at a negative total; on an undirected graph exactly if some edge within reach has a negative weight. Otherwise it returns for every node the least total of a walk, infinite exactly if there is none, and following the predecessors back from a node within reach gives a walk of that cost. Without negative weights the costs are those of dijkstra (C65); on a connected LatticeGraph it succeeds exactly if the nodes can be given heights such that no edge costs less than the height it gains. (Weights as integers, added exactly.)", "quantifier": "all lawful shapes, sizes, reachable states, nodes, integer weights; legacy: all sizes, loops, index types", "why_tests_cant": "all weights on all sizes; termination and optimality are not observable from single runs", "anchors": ["src/lattice_abstract/edges.rs: edges, Edges::next, EdgeReference::target", "src/lattice_abstract/nodes.rs: node_identifiers, to_index, node_bound, node_count", "src/square/edges.rs: Edges::next, EdgeReference::target", "src/square/nodes.rs: node_identifiers, to_index, node_bound, node_count"]}
{"id": "C109", "title": "iteration follows the derived order exactly where that order is the numbering", "statement": "node_identifiers() lists the nodes in strictly ascending derived order exactly if nodes compare like their indices, and then the ids of edge_references() ascend strictly in the order of (coordinate, axis) pairs as well. This is so on every map with offset coordinates; on an axial map exactly if it has no column or no row is shifted (at most two rows, one for the even layout); on a double-coordinate map exactly if it has no column or at most two rows. The legacy node_identifiers() and the ids of edge_references() always ascend. Direction<T> values compare like dir_to_index. The orders of edge ids and of Direction<T> are total orders in which only equal values compare equal.", "quantifier": "all modelled shapes, all sizes, all nodes and edges; legacy: all sizes, loops, index types that hold the sides", "why_tests_cant": "sortedness of an iterator is a statement about all its elements on all sizes; tests compare a few elements on small maps, where the axial and double orders happen to agree", "anchors": ["src/lattice_abstract/shapes.rs: Direction (derive Ord), Offset (derive Ord)", "src/lattice_abstract/mod.rs: GraphBase (EdgeId)", "src/lattice_abstract/nodes.rs: NodeIndices", "src/lattice_abstract/edges.rs: EdgeReferences", "src/hex/axial_based/shapes.rs: HexAxial (derive Ord)", "src/hex/double_coord/shapes.rs: DoubleCoord (derive Ord)", "src/square/nodes.rs", "src/square/edges.rs"]}
{"id": "C110", "title": "the reversed view (petgraph's Reversed) has the edges the other way round", "statement": "Reversed(&g) is made of neighbors_directed and edges_directed. Its neighbors(a) yields every node as often as there are directions in which one can step from it to a, and neighbors_directed with Incoming every node as often as one can step to it from a. Its edges(a) ends and yields references from a, one per step, leading to b with weight w exactly if g.edges(b) leads to a with weight w; edges_directed(a, Incoming) lists g.edges(a) with the ends exchanged. astar over the view from a is finite, can always be completed, and finds with an admissible estimate the cheapest way from a goal to a: the list returned, read backwards, is a path of the graph of that cost; None only if no goal can walk to a. On undirected graphs walks cost the same both ways.", "quantifier": "all lawful shapes, sizes, reachable states, nodes, costs, estimates and goals", "why_tests_cant": "the reversed view is not exercised by any test of the crate; on undirected graphs a mix-up of the ends or of the weight read is invisible", "anchors": ["src/lattice_abstract/neighbors.rs: neighbors_directed", "src/lattice_abstract/edges.rs: edges_directed, EdgesDirected::next, EdgeReference"]}
{"id": "C111", "title": "number of neighbors of a cell and greatest distance on a map, in closed form", "statement": "neighbors(a) and edges(a) of the cell in column x and row y of a w x h map yield as many items as the closed form says: on squares one per side that is not the border; with diagonals the cells of the surrounding 3 x 3 block; on hexagonal maps one per side in the own row and in each adjacent row one, plus one towards the side the row is shifted to; on a cylinder two in the own and in each adjacent row. On a map that is not empty any two nodes are at most w + h - 2 steps apart on squares, max w h - 1 with diagonals, max (h - 1) (w - 1 + h / 2) on hexagonal maps (transposed if columns are sheared), max (h - 1) ((w + h - 1) / 2) on the cylinder, and some two nodes are that far apart. On the legacy SquareGraph a cell has two neighbors per looped side (the same node twice if the side has at most two nodes) and one per end not reached on the other sides; the greatest distance is the sum of n / 2 per looped side of n nodes and n - 1 per side that is not looped.", "quantifier": "all square, diagonal, offset, looped offset and axial shapes, directed and undirected, both parities, all sizes, all cells; legacy: all sizes, loops, index types, cells", "why_tests_cant": "the numbers depend on the border, on the parity of the row and on both sizes; the greatest distance is a statement about all pairs of nodes", "anchors": ["src/lattice_abstract/neighbors.rs: Neighbors::next", "src/lattice_abstract/edges.rs: Edges::next", "src/lattice_abstract/square.rs: move_coord (with and without diagonals)", "src/hex/offset_based/shapes.rs: move_coord", "src/hex/axial_based/shapes.rs: move_coord", "src/square/neighbors.rs: Neighbors::next", "src/square/edges.rs: Edges::next"]}
{"id": "C112", "title": "petgraph's maximal_cliques lists the maximal cliques, each once; on every map they are known", "statement": "maximal_cliques(&g) runs to its end without a panic whichever orders its hash sets have; its result is the list of all maximal sets of pairwise adjacent nodes, each of them once. On a square map of at least two nodes these are exactly the edges, (w-1)h + w(h-1) of them; with diagonals (w, h >= 2) the 2 x 2 blocks, (w-1)(h-1) of them; on a hexagonal map in offset or axial coordinates (w, h >= 2) the triangles, 2(w-1)(h-1) of them (w and h swapped if columns are sheared).", "quantifier": "all lawful shapes and all graphs built on them; closed forms for square, diagonal, offset and axial shapes, directed and undirected, all sizes from 2 on; all iteration orders of the hash sets and all admissible pivots", "why_tests_cant": "needs neighbors and is_adjacent to agree and to be symmetric for all pairs of nodes, and a statement about all subsets of the nodes", "anchors": ["src/lattice_abstract/neighbors.rs: GetAdjacencyMatrix::is_adjacent, IntoNeighbors::neighbors", "src/lattice_abstract/nodes.rs: node_identifiers", "src/lattice_abstract/shapes.rs: is_neighbor"]}
{"id": "C113", "title": "petgraph's all_simple_paths lists every simple path", "statement": "all_simple_paths(&g, a, b, min, max) on a LatticeGraph or a SquareGraph runs to its end and always returns the same paths: those from a to b that repeat no node on the way and have min to max nodes between the ends (max None: two fewer than the graph has nodes), each once for every choice of directions along it, and nothing else. Without limits these are all sequences of distinct nodes from a to another node b in which each is among the neighbors of the one before; for a = b no circle through all nodes is returned. On square, diagonal, offset and axial maps, and on cylinders exactly from circumference 3 on, at most one direction leads from a node to another, so no path is returned twice; so on the SquareGraph unless a side of one or two nodes is looped. On a square map the paths with no more nodes than needed between nodes x columns and y rows apart number (x+y)!/(x! y!), each of x + y steps. A limit of usize::MAX panics with overflow checks; without, as max, only paths with no node in between are returned.", "quantifier": "all lawful shapes, sizes, reachable states, start nodes, targets and limits; legacy: all sizes, loops, index types", "why_tests_cant": "the number of paths grows exponentially with the size; that none is missed or doubled is a statement about all sequences of nodes", "anchors": ["src/lattice_abstract/neighbors.rs: neighbors_directed, Neighbors::next", "src/lattice_abstract/nodes.rs: node_count", "src/lattice_abstract/square.rs: move_coord", "src/square/neighbors.rs: neighbors_directed, Neighbors::next", "src/square/nodes.rs: node_count"]}
{"id": "C114", "title": "cells and links without which a map falls apart", "statement": "On a map of at least two columns and two rows no single blocked cell separates two other cells, and no single missing link separates any two: has_path_connecting on NodeFiltered without the cell returns true between any two other nodes, and A* on EdgeFiltered without the link finds a way. On a map of one row or one column every link separates some two nodes and a cell does exactly if it is not at an end. On a cylinder a single row is a circle: no cell of it separates, and a link only if the row has two cells; a single column still falls apart. On the SquareGraph the same with the loops of its two axes.", "quantifier": "all square, diagonal, offset, looped offset and axial shapes, directed and undirected, both parities, all sizes, all cells and links; legacy: all sizes, loops, index types", "why_tests_cant": "separation is a statement about all ways between all pairs of nodes, for each blocked cell, at every size", "anchors": ["src/lattice_abstract/neighbors.rs: Neighbors::next", "src/lattice_abstract/edges.rs: Edges::next", "src/lattice_abstract/square.rs: move_coord (with and without diagonals)", "src/hex/offset_based/shapes.rs: move_coord", "src/hex/axial_based/shapes.rs: move_coord", "src/square/neighbors.rs: Neighbors::next"]}
{"id": "C115", "title": "petgraph's depth_first_search and is_cyclic_directed", "statement": "depth_first_search(&g, starts, visitor) from any nodes runs to its end without a panic (with its own debug assertion), and the events it reports are determined: a node is discovered once, as a start when nothing is open or right after a tree edge to it, and exactly the nodes that can be walked to from the starts are; every one of them is finished once, after its neighbours are discovered, the last opened first; tree edges lead to nodes not yet discovered, back edges to open ones, cross or forward edges to finished ones; the times are 0, 1, 2, ...; and the edges reported from a node are what neighbors yields there, once each and in this order. Where every step can be taken back, a cross or forward edge leads to a node discovered later (nothing leads across), further starts on a connected map add nothing and there is one tree edge for every node but the first. is_cyclic_directed(&g) answers whether some walk along neighbors inside the graph returns to where it began, hence on lawful shapes and the SquareGraph whether there is any edge; it agrees with toposort exactly if the outcome of toposort is right, which it is not on a column of double coordinates.", "quantifier": "all storable shapes, sizes, reachable states and lists of starts; order and tree: all lawful shapes; legacy: all sizes, loops, index types", "why_tests_cant": "the events depend on every neighbour list and on the visit map at every step; that none is missing or out of order is a statement about whole runs on graphs of every size", "anchors": ["src/lattice_abstract/neighbors.rs: Neighbors::next, neighbors", "src/lattice_abstract/nodes.rs: node_identifiers", "src/lattice_abstract/mod.rs: Visitable, VisMap::visit, VisMap::is_visited", "src/square/neighbors.rs: Neighbors::next", "src/square/nodes.rs: node_identifiers", "src/square/mod.rs: VisMap"]}
{"id": "C116", "title": "petgraph's tarjan_scc finds the strongly connected components", "statement": "tarjan_scc(&g) runs to its end, with its own debug assertions, exactly if neighbors of every node yields nodes of the graph only, and then it has one result: every node in exactly one group, no group empty, two nodes in the same group exactly if they lead to each other along neighbors, and no group leading to a later one. So on every lawful shape, on double coordinates (where kosaraju_scc is wrong, C97) and on looped flat-top offset maps it always ends; on flat-top offset maps exactly if there is one column or the last row does not lean upwards; on looped axial maps exactly if no row is sheared. On the connected maps the result is a single group with all nodes; so on the SquareGraph.", "quantifier": "all storable shapes, sizes and reachable states; legacy: all sizes, loops, index types", "why_tests_cant": "the low-link numbers depend on the order of all visits so far; that the groups are the components is a statement about all pairs of nodes of graphs of every size", "anchors": ["src/lattice_abstract/neighbors.rs: Neighbors::next, neighbors", "src/lattice_abstract/nodes.rs: node_identifiers", "src/lattice_abstract/mod.rs: NodeIndexable::to_index, node_bound", "src/hex/offset_based/shapes.rs: move_coord", "src/hex/axial_based/shapes.rs: move_coord", "src/square/neighbors.rs: Neighbors::next", "src/square/mod.rs: to_index"]}
{"id": "C117", "title": "petgraph's walker Topo returns the nodes no cycle leads to", "statement": "Topo::new(&g) and calling next until it returns None ends without a panic and returns the nodes that cannot be walked to from a cycle, each once, every edge among them leading to a node returned later. (False on double coordinates: neighbors_directed ignores the direction, so what is returned are exactly the nodes for which neighbors yields nothing, the last first; the result is right exactly if these are the nodes no cycle leads to. It is right on every lawful shape, on every connected map of at least two nodes, where nothing is returned, and on the SquareGraph; it is wrong on every map of double coordinates in which some node has a neighbour.)", "quantifier": "all storable shapes, sizes and reachable states; legacy: all sizes, loops, index types", "why_tests_cant": "the walker asks for incoming neighbours of every node; that it misses nodes only where moves cannot be undone is a statement about shapes of every size", "anchors": ["src/lattice_abstract/neighbors.rs: Neighbors::next, neighbors_directed", "src/lattice_abstract/nodes.rs: node_identifiers", "src/lattice_abstract/mod.rs: Visitable, VisMap::visit, VisMap::is_visited", "src/square/neighbors.rs: neighbors_directed", "src/square/nodes.rs: node_identifiers"]}
{"id": "C118", "title": "least costs by petgraph's spfa", "statement": "petgraph's spfa on a LatticeGraph or a SquareGraph ends without a panic from every node, with one result. It reports a negative cycle exactly if along edges() some node within reach can be left and entered again at a negative total; so it never mistakes a node taken up often for a cycle and never runs on. Otherwise it returns the distances of bellman_ford (C108): for every node the least total of a walk, infinite exactly if there is none, and following the predecessors back from a node within reach gives a walk of that cost. On connected undirected graphs it fails exactly if some edge has a negative weight, and in general it succeeds exactly if the nodes can be given heights such that no edge costs less than the height it gains. (Costs as integers, added exactly.)", "quantifier": "all lawful shapes, sizes, reachable states, nodes, integer costs; legacy: all sizes, loops, index types", "why_tests_cant": "the bound on how often a node is taken up only bites on particular weights at each size; that it is never reached without a negative cycle is a statement about all weights", "anchors": ["src/lattice_abstract/edges.rs: edges, Edges::next, EdgeReference::target", "src/lattice_abstract/nodes.rs: to_index, node_bound", "src/square/edges.rs: Edges::next, EdgeReference::target", "src/square/nodes.rs: to_index, node_bound"]}
{"id": "C119", "title": "the k-th cheapest walks by petgraph's k_shortest_path", "statement": "petgraph's k_shortest_path on a LatticeGraph or a SquareGraph ends without a panic from every node, for every k and with or without a goal, however ties in its heap are broken. Every score it returns for a node is the cost of the k-th cheapest walk to the node along edges(), walks being told apart by the edges taken, so that parallel edges count. Without a goal the nodes it returns are exactly those to which there are k walks or more; with one this holds of the goal. With k = 1 the scores are the least costs of dijkstra (C65), and they do not decrease with k. On a connected map of two nodes or more every node has a score for every k, at most the cost of any walk there and k - 1 round trips to any other node. (Costs as natural numbers, added exactly; edges of cost zero are allowed.)", "quantifier": "all lawful shapes, sizes, reachable states, nodes, goals, k, natural costs, orders of popping; legacy: all sizes, loops, index types", "why_tests_cant": "nodes are no longer expanded once popped k times; that no walk among the k cheapest is lost by that is a statement about all walks, of any length, on all sizes", "anchors": ["src/lattice_abstract/edges.rs: edges, Edges::next, EdgeReference::target", "src/lattice_abstract/nodes.rs: to_index, node_count", "src/square/edges.rs: Edges::next, EdgeReference::target", "src/square/nodes.rs: to_index, node_count"]}
{"id": "C120", "title": "a minimum spanning tree by petgraph's min_spanning_tree_prim", "statement": "petgraph's min_spanning_tree_prim on a LatticeGraph or a SquareGraph can be run to its end without a panic and never runs on, however ties in its heap are broken. It first returns the node weights in the order of min_spanning_tree (C91). Each edge it returns leads from the first node, or from where an earlier edge leads, to a node not reached so far, and no edge leading so costs less; the nodes reached in the end are those that can be walked to from the first node along edges(). On the shapes of the crate, if each edge can be gone back at the same cost, as on every undirected graph, the edges are a minimum spanning tree of edge_references(), each read in one direction or the other: one edge less than nodes, and the total cost of min_spanning_tree. On directed graphs where the way back is cheaper the total can exceed that of min_spanning_tree by any amount. (Costs as natural numbers.)", "quantifier": "all lawful shapes, sizes, reachable states, natural costs, orders of popping; legacy: all sizes, loops, index types", "why_tests_cant": "minimality is a statement about all parts of the edges that join the nodes, of which there are exponentially many, on all sizes", "anchors": ["src/lattice_abstract/nodes.rs: node_references, to_index, from_index", "src/lattice_abstract/edges.rs: edges, Edges::next, EdgeReference::source, EdgeReference::target, edge_references", "src/square/nodes.rs: node_references, to_index, from_index", "src/square/edges.rs: Edges::next, EdgeReference::source, EdgeReference::target, edge_references"]}
{"id": "C121", "title": "cut nodes by petgraph's articulation_points", "statement": "petgraph's articulation_points returns exactly the nodes that cut the graph: those without which two other nodes, between which there is a way along edges(), have none. It never panics.", "quantifier": "all lawful shapes, sizes, reachable states; legacy: all sizes, loops, index types", "why_tests_cant": "the result depends on the whole depth-first tree, whose low points are only right if every edge can be gone back; that holds or fails for all sizes at once", "anchors": ["src/lattice_abstract/nodes.rs: NodeReferences (Iterator without size_hint), node_references, to_index, from_index", "src/lattice_abstract/edges.rs: edges, Edges::next, EdgeReference::target", "src/square/nodes.rs: NodeReferences::size_hint, to_index, from_index", "src/square/edges.rs: Edges::next, EdgeReference::target"]}
{"id": "C122", "title": "colouring by petgraph's dsatur_coloring", "statement": "petgraph's dsatur_coloring always ends, whatever order its queue gives equal scores; it gives each node exactly one colour, adjacent nodes different ones, each node the least colour its neighbors allow, always next a node with neighbors of most colours and among these with most neighbors, and the number returned is that of the colours (one for no nodes). It is one exactly if no two nodes are adjacent, at most two exactly if two are enough (so a square graph gets two, a looped SquareGraph two exactly if its looped sides are even), and at most one more than some node has neighbors.", "quantifier": "all lawful shapes, sizes, reachable states, all orders of equal entries of the queue; legacy: all sizes, loops, index types", "why_tests_cant": "the order of the queue is not determined, and that two colours suffice on every bipartite lattice depends on the order of saturation being kept through every step", "anchors": ["src/lattice_abstract/nodes.rs: node_identifiers, node_bound, to_index, from_index", "src/lattice_abstract/edges.rs: edges, Edges::next, EdgeReference::target", "src/square/nodes.rs: NodeIndices::next, node_bound, to_index, from_index", "src/square/edges.rs: Edges::next, EdgeReference::target"]}
{"id": "C123", "title": "matching by petgraph's greedy_matching", "statement": "petgraph's greedy_matching returns on every graph, with one result: it pairs adjacent nodes, each with at most one other and both ways; no two adjacent nodes are left without a mate, so no way to pair adjacent nodes has more than twice as many pairs; edges() lists each pair once and len() is their number; is_perfect() says whether every node has a mate. On a square graph (undirected or directed) and on every legacy SquareGraph, looped or not, one walk visits every node, so h*v/2 pairs are found, as many as there can be.", "quantifier": "all lawful shapes, sizes, reachable states; legacy: all sizes, loops, index types", "why_tests_cant": "where a walk gets stuck depends on all walks before it; that the nodes left over are never adjacent holds for all sizes at once because neighbors is mutual", "anchors": ["src/lattice_abstract/nodes.rs: node_identifiers, node_bound, node_count, to_index, from_index", "src/lattice_abstract/neighbors.rs: neighbors, Neighbors::next", "src/lattice_abstract/mod.rs: VisMap", "src/square/nodes.rs: NodeIndices::next, node_count, to_index, from_index", "src/square/neighbors.rs: Neighbors::next", "src/square/mod.rs: VisitMap"]}
{"id": "C124", "title": "dominators by petgraph's simple_fast", "statement": "petgraph's dominators::simple_fast returns from every root, in whatever order its hash sets are iterated; immediate_dominator(c) is the last node before c that is on every way from the root to c (none for the root), and dominators(c) lists all nodes on every way, each once: the root and the nodes without which c cannot be reached from it. On maps of at least two rows and columns, and on every legacy SquareGraph but a single row or column that is not looped, the root is the immediate dominator of all other nodes. On a single row or column that is not closed to a circle the immediate dominator is the next node on the side of the root and the dominators are the nodes from the root on.", "quantifier": "all lawful shapes, sizes, reachable states, roots; legacy: all sizes, loops, index types, roots", "why_tests_cant": "the loop runs until nothing changes; that it stops, and then at the dominators, is a statement about all ways through the graph", "anchors": ["src/lattice_abstract/neighbors.rs: neighbors, Neighbors::next", "src/lattice_abstract/mod.rs: VisMap", "src/square/neighbors.rs: Neighbors::next", "src/square/mod.rs: VisitMap"]}
