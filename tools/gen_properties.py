#!/usr/bin/env python3
"""Writes /verif/properties.jsonl. One tuple per property: id, title, statement, quantifier, why_tests_cant, anchors."""
import json, os
LA='src/lattice_abstract/'; SQ='src/square/'; HX='src/hex/'
P=[]
def p(id,title,statement,quantifier,why,anchors):
    P.append(dict(id=id,title=title,statement=statement,quantifier=quantifier,why_tests_cant=why,anchors=anchors))

G="Here a 'sound shape' is any of: SquareShape (undirected/Directed), SquareDiagonalShape (undirected/Directed), HexOffsetShape<OddR|EvenR> (plain, LoopEW, DirectedMarker), HexAxialShape<any base> without loop (HexAxial or hex2d coordinates, DirectedMarker or not)."
p("C01","new_with visits every node and edge once, in order, and cannot fault",
  "For every sound shape and every pair of (possibly stateful) closures, LatticeGraph::new_with returns a graph without panicking or touching invalid memory; it calls the node closure exactly once per node in index order, and after each node the edge closure exactly once for every axis whose forward move from that node stays in the graph, in axis order, and for no other (node, axis). "+G,
  "all shapes, all sizes the allocator accepts, all stateful closures","a test fixes one size and one closure; the claim is about every size and every call history",
  [LA+"mod.rs: LatticeGraph::new_with, new_uninit, assume_init"])
p("C02","node_weight is total and exact after construction",
  "After new_with(s, n, e), node_weight(c) is Some(n(c)) for every coordinate c of a node and None for every other coordinate. (Axial coordinates whose shear overflows isize in debug builds: see C28.)",
  "all sound shapes, sizes, closures and coordinates","coordinates range over the whole integer type, including negative and out-of-range ones",
  [LA+"mod.rs: DataMap::node_weight", LA+"shapes.rs: Shape::to_offset"])
p("C03","edge_weight is exact after construction",
  "After new_with(s, n, e), edge_weight((c, a)) is Some(e(c, a)) when c is a node and moving forward along a stays in the graph, and None in every other case; it never exposes an uninitialised slot. (Axial coordinates whose shear overflows isize in debug builds: see C28.)",
  "all sound shapes, sizes, closures, coordinates and axes","every size has a different set of boundary slots",
  [LA+"mod.rs: DataMap::edge_weight"])
p("C04","node index is a bijection with 0..node_count",
  "to_index maps the nodes one-to-one onto 0..node_bound() = 0..node_count(), from_index is its inverse in both directions, and node_count() = horizontal * vertical (the NodeCompactIndexable contract).",
  "all sound shapes, sizes, nodes, indices","petgraph algorithms size arrays by node_bound for every graph",
  [LA+"nodes.rs: NodeIndexable, NodeCompactIndexable", LA+"shapes.rs: index_to_offset, offset_to_index"])
p("C05","node_identifiers lists every node exactly once in index order",
  "Repeatedly calling next on node_identifiers() yields exactly the nodes, each once, the i-th having index i; then None forever; len() always equals the number of items still to come.",
  "all sound shapes, sizes, and every point of the iteration","unbounded sizes and every intermediate iterator state",
  [LA+"nodes.rs: NodeIndices"])
p("C06","node_references pairs every node with its weight",
  "node_references() yields, in index order, exactly the pairs (c, w) with c a node and w = node_weight(c), in every state reachable by construction and weight mutation.",
  "all sound shapes, sizes, reachable graph states","quantifies over mutation histories",
  [LA+"nodes.rs: NodeReferences"])
p("C07","neighbors yields exactly the adjacent nodes",
  "neighbors(a) for a node a yields, in direction order, one item per direction whose move stays in the graph and nothing else; every item is a node of the graph.",
  "all sound shapes, sizes, nodes","boundary and interior nodes of every size",
  [LA+"neighbors.rs: Neighbors"])
p("C08","adjacency is symmetric",
  "b occurs in neighbors(a) exactly as often as a occurs in neighbors(b) (so neighbors_directed, which ignores its direction argument, is right for Incoming as well as Outgoing).",
  "all sound shapes, sizes, pairs of nodes","needs every pair of nodes in every size",
  [LA+"neighbors.rs: Neighbors, neighbors_directed", LA+"shapes.rs: Shape::move_coord"])
p("C09","is_adjacent agrees with neighbors",
  "is_adjacent(m, a, b) is true iff b occurs in neighbors(a), and get_direction(a, b) returns the first direction leading from a to b.",
  "all sound shapes, sizes, node a, any coordinate b","pairs over unbounded sizes",
  [LA+"neighbors.rs: GetAdjacencyMatrix::is_adjacent", LA+"shapes.rs: is_neighbor, get_direction"])
p("C10","edges(a) yields every incident edge with right endpoints and weight",
  "For a node a, edges(a) yields, in direction order, one edge reference per direction d with an in-graph target t: source() = a, target() = t, direction() = d and weight() = the weight stored for that edge (edge_weight((a, axis)) for a forward direction, edge_weight((t, axis)) for a backward one).",
  "all sound shapes, sizes, reachable states, nodes","all boundary cases and mutation histories",
  [LA+"edges.rs: Edges::next, AxisDirMarker::get_raw_id"])
p("C11","an undirected edge has one weight, seen from both ends",
  "In an undirected graph, for every edge reference e in edges(a) with target b there is one in edges(b) with target a, the opposite direction and the same weight, in every reachable state.",
  "all undirected sound shapes, sizes, reachable states, edges","mutation through one end must be seen from the other for every edge of every size",
  [LA+"edges.rs: Edges::next", LA+"mod.rs: edge_weight_mut"])
p("C12","edges_directed respects direction",
  "edges_directed(a, Outgoing) yields what edges(a) yields; edges_directed(a, Incoming) yields one reference per in-neighbour b with source() = b, target() = a and the weight of the edge from b to a.",
  "all sound shapes (directed and undirected), sizes, reachable states, nodes, build modes","includes debug_assert behaviour for every directed shape",
  [LA+"edges.rs: DtMarker for petgraph::Direction, edges_directed"])
p("C13","edge_references lists every edge exactly once",
  "edge_references() yields exactly one reference for every (node, axis) whose forward move stays in the graph, with source the node, target the moved node and the stored weight; no edge is repeated or missed.",
  "all sound shapes, sizes, reachable states","exactly-once over unbounded edge sets",
  [LA+"edges.rs: EdgeReferences::next"])
p("C14","edge counts agree (handshake)",
  "The number of items of edges(a), summed over all nodes a, is twice the number of items of edge_references() in an undirected graph and equal to it in a directed one.",
  "all sound shapes, all sizes","counting identity over every size",
  [LA+"edges.rs: Edges, EdgeReferences"])
p("C15","an edge reference's id looks up its own weight",
  "For every edge reference e produced by edges, edges_directed or edge_references, edge_weight(e.id()) = Some(e.weight()).",
  "all sound shapes, sizes, reachable states, edge references","forward and backward directions at every node",
  [LA+"edges.rs: EdgeRef::id", LA+"mod.rs: edge_weight"])
p("C16","weights behave like an independent map under any mutation history",
  "After any sequence of writes through node_weight_mut and edge_weight_mut, every node_weight, edge_weight, edges, edge_references read returns the last value written to that node or edge, or its initial value; writes never affect any other node or edge, and a write to an absent node or edge returns None and changes nothing. (Axial coordinates whose shear overflows isize in debug builds: see C28.)",
  "all sound shapes, sizes, operation sequences of any length","unbounded histories",
  [LA+"mod.rs: DataMapMut", LA+"mod.rs: edge_weight_mut, node_weight_mut"])
p("C17","the visit map is a set of nodes",
  "For any sequence of visit, unvisit, is_visited and reset_map calls: is_visited(c) holds iff c was visited after its last unvisit/reset; visit returns true iff c was not yet visited; unvisit returns true iff c was visited (petgraph's VisitMap contract); off-graph coordinates are never visited. (Axial coordinates whose shear overflows isize in debug builds: see C28.)",
  "all sound shapes, sizes, operation sequences of any length","unbounded histories",
  [LA+"mod.rs: VisMap, VisitMap::visit, unvisit, is_visited, reset_map"])
p("C18","size_hint always brackets the remaining length, iterators stay exhausted",
  "At every point of node_identifiers, neighbors, edges, edges_directed and edge_references the lower size_hint is at most, and the upper at least, the number of items still to come, computing it never underflows, and after None the iterator keeps returning None (FusedIterator).",
  "all sound shapes, sizes, iterator states reachable from the constructor","every intermediate state of every iterator",
  [LA+"nodes.rs: size_hint", LA+"edges.rs: size_hint", LA+"neighbors.rs: size_hint"])
p("C19","in-graph arguments never cause an invalid memory access",
  "For a graph built by new_with and mutated through the safe API, no call of node_weight, edge_weight, node_references, neighbors, edges, edges_directed (release), edge_references with in-graph arguments reads outside an array, reads an uninitialised slot, or reaches an unreachable_unchecked.",
  "all sound shapes, sizes, reachable states, arguments","undefined behaviour need not show in a test run",
  [LA+"mod.rs: uget, edge_weight_unchecked_raw", LA+"edges.rs: Edges::next"])
p("C20","edges of an off-graph coordinate is an empty iterator",
  "edges(c) and edges_directed(c, d) for a coordinate c outside the graph return an iterator that yields nothing, like neighbors of a missing node in petgraph.",
  "all sound shapes, sizes, off-graph coordinates, build modes","the safe API must not fault for any argument value",
  [LA+"edges.rs: Edges::new_d, Edges::new_unchecked"])
p("C21","node_references is an exact-size iterator",
  "node_references() claims ExactSizeIterator: len() returns the number of items still to come without panicking.",
  "all sound shapes, sizes, iterator states","trait contract over every state",
  [LA+"nodes.rs: NodeReferences, ExactSizeIterator"])
p("C22","dropping a graph drops each weight exactly once",
  "Dropping a graph runs the destructor of every existing node and edge weight exactly once, and never runs it on the uninitialised slots of absent edges.",
  "all sound shapes, sizes, reachable states, weight types with destructors","double drops and uninitialised drops are undefined behaviour that need not crash",
  [LA+"mod.rs: Drop for LatticeGraph"])
p("C23","comparing and cloning a graph reads only existing weights",
  "The derived Clone, PartialEq and Hash of LatticeGraph depend only on the shape and on the weights of existing nodes and edges; in particular a graph equals itself.",
  "all sound shapes, sizes, reachable states","uninitialised reads need not crash",
  [LA+"mod.rs: #[derive(Debug, Clone, PartialEq, Eq, Hash)] LatticeGraph"])
p("C24","square shape geometry",
  "In SquareShape(h, v), directed or not, the nodes are exactly the pairs with x < h and y < v, and the move in directions X, Y, RX, RY from a node succeeds iff the cell at +x, +y, -x, -y is a node, returning it.",
  "all h, v, nodes, directions","every boundary of every size",
  [LA+"square.rs: SquareShape, move_coord, range_check"])
p("C25","diagonal square shape geometry",
  "In SquareDiagonalShape(h, v), directed or not, the move in each of the eight compass directions from a node succeeds iff the king-move neighbour in that direction is a node, returning it.",
  "all h, v, nodes, directions","corner and edge combinations of every size",
  [LA+"square.rs: SquareDiagonalShape"])
p("C26","offset hex geometry (point-top)",
  "In HexOffsetShape<OddR|EvenR>(h, v) the move in each of the six directions from a node succeeds iff the hexagon whose centre is displaced by that direction (rows of the odd, resp. even, parity shifted half a cell to the east) is in the h x v rectangle, returning its offset.",
  "all h, v, nodes, directions, parities","row parity and boundary combinations of every size",
  [HX+"offset_based/shapes.rs: move_coord_r, HexOffsetShape"])
p("C27","axial hex geometry (point-top layout)",
  "In HexAxialShape<B>(h, v) the nodes are exactly the axial coordinates with 0 <= q < v and 0 <= r + floor((q + c)/2) < h (c = 1 for even bases), and each direction's move from a node succeeds iff the coordinate displaced by that direction's axial vector is a node, returning it.",
  "all h, v, coordinates, directions, bases","negative coordinates and all boundaries of every size",
  [HX+"axial_based/shapes.rs: to_offset, offset_to_coordinate, move_coord, move_coord_r, move_coord_q"])
p("C28","axial conversions survive machine integers",
  "On every machine word size, with wrapping casts between isize and usize, the axial conversions accept no coordinate outside the graph, no arithmetic on an in-graph coordinate overflows, and looking up an off-graph coordinate returns None rather than panicking.",
  "all word sizes, build modes, sizes, isize coordinates","the full range of isize cannot be sampled",
  [HX+"axial_based/shapes.rs: to_offset, to_offset_unchecked"])
p("C29","offset and axial hex graphs are the same graph",
  "For the same base and size, converting each offset coordinate to the axial coordinate of the same storage offset is a bijection between the nodes of HexOffsetShape<B> and HexAxialShape<B> that commutes with every direction's move (B = OddR, EvenR).",
  "all h, v, nodes, directions","equivalence of two implementations over all sizes",
  [HX+"offset_based/shapes.rs: move_coord_r", HX+"axial_based/shapes.rs: move_coord"])
p("C30","offset hex east-west loop",
  "In HexOffsetShape<OddR|EvenR, LoopEW>(h, v) every row is a cycle: the move succeeds iff the target row exists and returns the hexagon displaced by that direction with its column taken modulo h.",
  "all h >= 1, v, nodes, directions","seam behaviour for every size and parity",
  [HX+"offset_based/shapes.rs: move_coord_r_lew"])
p("C31","axial hex east-west loop",
  "In HexAxialShape<B, LoopEW>(h, v) a move from a node succeeds iff the target row exists, terminates, and returns a node: the displaced coordinate with its column taken modulo h.",
  "all h, v, nodes, directions, bases","seam behaviour for every row of every size",
  [HX+"axial_based/shapes.rs: impl Shape for HexAxialShape<B, LoopEW, ..>::move_coord"])
p("C32","offset hex geometry (flat-top)",
  "In HexOffsetShape<OddQ|EvenQ>(h, v) a move from a node that succeeds returns a node, and moving back in the opposite direction returns to the start.",
  "all h, v, nodes, directions, parities","column parity and boundary combinations of every size",
  [HX+"offset_based/shapes.rs: move_coord_q"])
p("C33","offset hex east-west loop (flat-top)",
  "In HexOffsetShape<OddQ|EvenQ, LoopEW>(h, v) a move from a node that succeeds returns a node, north and south change the vertical position, and moving back returns to the start.",
  "all h, v, nodes, directions, parities","seam and parity combinations of every size",
  [HX+"offset_based/shapes.rs: move_coord_q_lew"])
p("C34","double-coordinate hex shape",
  "In DoubleCoordShape<OddR>(h, v) coordinates and nodes are in bijection, each direction's move from a node succeeds iff the doubled coordinate displaced by it belongs to the graph, is_adjacent agrees with neighbors, and edges reads only initialised weights.",
  "all h, v, nodes, directions","every size beyond the smallest",
  [HX+"double_coord/shapes.rs: move_coord_r, to_offset, is_neighbor"])
p("C35","flat-top axial layout matches the documentation",
  "HexAxialShape<OddQ|EvenQ>(h, v) contains the coordinates drawn in the module documentation, i.e. columns 0 <= r < h and 0 <= q + floor((r + c)/2) < v.",
  "all h, v, coordinates","the set of nodes for every size",
  [HX+"shapes/mod.rs: RQ for OddQ, RQ for EvenQ", HX+"axial_based/mod.rs: module docs", HX+"axial_based/shapes.rs: to_offset"])
p("C36","axis and direction indices are bijections with opposite directions paired",
  "For each of the 8 axis types: to_index and from_index are inverse bijections between the axes and 0..COUNT, directions likewise with 0..UNDIRECTED_COUNT, forward/backward give the two directions of an axis, from_direction maps both back (for directed axis types each direction is an axis of its own), is_forward_direction separates them, and backward is the geometric opposite.",
  "all axis types, axes, directions, indices (from_index over all naturals)","from_index must reject every other index",
  [LA+"square.rs: Axis impls", HX+"shapes/mod.rs: Axis impls", LA+"shapes.rs: Axis, AxisDirection"])
p("C37","the generic Direction<T> wrapper is a lawful direction type",
  "For every axis type T with bijective indices, Direction<T>::dir_to_index and dir_from_index are inverse bijections with 0..2*COUNT, forward directions having the indices below COUNT, and dir_from_index rejects all other indices.",
  "all lawful axis types (parametric), all indices","parametric in a user-supplied axis type",
  [LA+"shapes.rs: Direction<T>, AxisDirection for Direction<T>"])
p("C38","hex2d direction conversions preserve direction",
  "Converting a hex2d::Direction to AxisDR or AxisDQ and back is the identity, both ways, and the converted direction moves a coordinate by the same vector as the hex2d direction.",
  "all directions, all coordinates","agreement with coordinate arithmetic for all coordinates",
  [HX+"hex2d.rs: From impls"])
p("C39","hex2d coordinates with a narrow integer type",
  "HexGraph over hex2d::Coordinate<I> behaves exactly as the HexAxial graph of the same size whenever every coordinate one step around the graph fits I, and no conversion between I and isize fails for in-graph coordinates.",
  "all integer ranges I, all sizes fitting I, coordinates","integer range of I against graph size",
  [HX+"hex2d.rs: AxialCoord for hex2d::Coordinate"])
p("C40","lattices are connected",
  "In every sound shape with at least one node, every node can be reached from every other node by repeatedly taking an item of neighbors.",
  "all sound shapes, sizes, pairs of nodes","paths of unbounded length",
  [LA+"neighbors.rs: Neighbors", LA+"shapes.rs: move_coord"])
p("C41","graph search never leaves the graph",
  "Any walk that starts at a node and follows targets of edges or neighbors, of any length, visits only nodes of the graph, so every further edges/neighbors call it makes is fault-free (this is what astar, bfs and dijkstra rely on).",
  "all sound shapes, sizes, reachable states, walks of any length","unbounded walks",
  [LA+"edges.rs: Edges", LA+"neighbors.rs: Neighbors"])
p("C42","a reference to a shape behaves like the shape",
  "Shape for &S answers every Shape method exactly as S does.",
  "all shapes, arguments","delegation of every method for every implementor",
  [LA+"shapes.rs: impl Shape for &S"])
p("C43","SquareGraph::new_with builds consistent arrays",
  "SquareGraph::new_with(h, v, ..) with h, v >= 1 and h * v at most isize::MAX (the limit of ndarray, past which it panics) never faults, calls the node closure once per cell and the edge closure once per existing edge, and produces arrays that satisfy the size check; h = 0 is rejected by a panic.",
  "all h, v, loop markers, closures","all sizes and four loop shapes",
  [SQ+"mod.rs: new_with, new_raw, check_gen"])
p("C44","SquareGraph weights are exact",
  "After SquareGraph::new_with, node_weight and edge_weight return the closures' values exactly on existing nodes and edges, None elsewhere.",
  "all h, v, loop markers, closures, indices","boundary slots differ per loop marker and size",
  [SQ+"mod.rs: DataMap"])
p("C45","SquareGraph node enumeration and index bijection",
  "On a SquareGraph whose sides the index type can represent, node_identifiers lists every node exactly once in index order with exact len() at every point; to_index/from_index are inverse bijections with 0..node_count.",
  "all h, v, iterator states","odometer state machine over all sizes",
  [SQ+"nodes.rs: NodeIndices, NodeIndexable"])
p("C46","SquareGraph neighbors",
  "On a SquareGraph whose sides the index type can represent, neighbors(n) of a node yields exactly left, right, down, up in that order, those that exist, wrapping on looped axes.",
  "all h, v, loop markers, nodes","four loop shapes times all boundary cases",
  [SQ+"neighbors.rs: Neighbors"])
p("C47","SquareGraph edges(n)",
  "On a SquareGraph whose sides the index type can represent, edges(n) of a node yields one reference per neighbor in the same order, with source n, target the neighbor, and the weight edge_weight(id()); the same weight is seen from the other end.",
  "all h, v, loop markers, nodes, reachable states","four loop shapes times all boundary cases",
  [SQ+"edges.rs: Edges, EdgeReference"])
p("C48","SquareGraph edge_references lists every edge exactly once",
  "On a SquareGraph whose sides the index type can represent, edge_references() yields exactly one reference per existing edge id, with its weight and its two endpoints.",
  "all h, v, loop markers, reachable states","exactly-once over unbounded edge sets",
  [SQ+"edges.rs: EdgeReferences"])
p("C49","SquareGraph get_edge_id agrees with edges",
  "get_edge_id(n, dir) returns the id (and orientation) of the edge that edges(n) yields for that direction, None iff there is none, and get_edge_reference(n, dir) has source n and the neighbor in that direction as target.",
  "all h, v, loop markers, nodes, directions","wrap cases for all sizes",
  [SQ+"mod.rs: get_edge_id, get_edge_reference"])
p("C50","NodeIndex::distance is the graph distance",
  "distance is a metric, changes by at most one along any edge of a non-looped SquareGraph, and equals the length of a shortest path there, hence is an exact, admissible A* heuristic.",
  "all nodes, sizes, paths of any length","shortest paths of unbounded length",
  [SQ+"index.rs: NodeIndex::distance"])
p("C51","SquareGraph visit map is a set",
  "For any sequence of visit/unvisit/is_visited/reset_map on in-graph nodes, the map behaves as a set and visit/unvisit return whether they changed it. On an index that is not a node visit and unvisit panic; is_visited is false past the last row and panics past the last column.",
  "all sizes, histories","unbounded histories",
  [SQ+"mod.rs: VisMap"])
p("C52","narrow index types",
  "A SquareGraph whose sides fit the index type Ix behaves the same for u8, u16, u32 and usize.",
  "all index widths, sizes, operations","behaviour at the width limit",
  [SQ+"index.rs: NodeIndex", SQ+"nodes.rs: NodeIndices", SQ+"mod.rs: get_edge_id"])
p("C53","SquareGraph safe API cannot read out of bounds",
  "No sequence of safe calls on a SquareGraph makes edges, edge_references or get_edge_reference read outside its arrays.",
  "all sizes, loop markers, safe call sequences, index arguments","undefined behaviour need not show in a test run",
  [SQ+"edges.rs: uget", SQ+"mod.rs: get_edge_reference, nodes_mut, horizontal_mut, vertical_mut"])
p("C54","SquareGraph weights behave like a map under any mutation history",
  "After any sequence of node_weight_mut/edge_weight_mut writes, reads through node_weight, edge_weight, node_references, edges and edge_references return the last value written.",
  "all sizes, loop markers, operation sequences","unbounded histories",
  [SQ+"mod.rs: DataMapMut"])
p("C55","the new_uninit workflow is sound",
  "Starting from new_uninit, writing every node and every existing edge through node_weight_mut/edge_weight_mut and calling assume_init gives a graph indistinguishable, through the API, from new_with with the same values.",
  "all sound shapes, sizes, values, write orders","any order of writes",
  [LA+"mod.rs: new_uninit, assume_init"])
p("C56","SquareGraph iterators keep their size contract",
  "size_hint of SquareGraph's neighbors, edges and node_references brackets the items still to come at every point, without underflow, and the iterators are fused.",
  "all sizes, loop markers, iterator states","every intermediate state",
  [SQ+"edges.rs: size_hint", SQ+"neighbors.rs: size_hint", SQ+"nodes.rs: size_hint"])
exec(open(os.path.join(os.path.dirname(os.path.abspath(__file__)),"more_properties.py")).read()) if os.path.exists(os.path.join(os.path.dirname(os.path.abspath(__file__)),"more_properties.py")) else None
with open(os.path.join(os.path.dirname(os.path.abspath(__file__)),"..","properties.jsonl"),"w") as f:
    for x in P: f.write(json.dumps(x)+"\n")
print(len(P))
