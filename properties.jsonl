{"id": "C01", "title": "Automatic node keys never collide", "statement": "In a diagram built by any sequence of add_node/add_edge/add_support/add_load/node_xyz calls, adding a node without a key returns a key that no existing node has, leaves every existing node's data and every edge untouched, and the new node is found under that key with the given coordinates.", "quantifier": "every finite history of construction calls (with explicit or automatic keys, succeeding or raising), every xyz", "why_tests_cant": "needs an invariant over all histories mixing explicit and automatic keys", "anchors": ["src/compas_cem/diagrams/mixins/node_mixins.py:add_node", "src/compas_cem/diagrams/mixins/edge_mixins.py:add_edge"]}
{"id": "C02", "title": "Coordinate lookup is a last-writer map", "statement": "After any construction history, node_key(xyz) returns exactly the key of the node most recently placed (added or moved) at a point with the same geometric key, and returns None when no node was ever placed there; the returned key always belongs to a node of the diagram.", "quantifier": "every history, every lookup point, every geometric-key (rounding) function", "why_tests_cant": "quantifies over all histories and all rounding functions", "anchors": ["src/compas_cem/diagrams/mixins/node_mixins.py:node_key", "src/compas_cem/diagrams/mixins/node_mixins.py:add_node", "src/compas_cem/diagrams/mixins/node_mixins.py:update_node_xyz"]}
{"id": "C03", "title": "Moving a node releases its old position", "statement": "After node_xyz(key, new), looking up a point at the node's old position no longer returns that node (unless it is at the new position).", "quantifier": "every diagram state, every node and pair of positions", "why_tests_cant": "a universal claim; the unchanged code violates it, which has to be exhibited and delimited", "anchors": ["src/compas_cem/diagrams/mixins/node_mixins.py:update_node_xyz"]}
{"id": "C04", "title": "Edges given by coordinates create no duplicate nodes", "statement": "Building a diagram only by adding edges whose ends are given as coordinates yields at most one node per geometric key: two edges share a node exactly when their end points have the same geometric key, and the number of nodes equals the number of distinct geometric keys used.", "quantifier": "every finite list of edges given by end points", "why_tests_cant": "depends on arbitrary overlap patterns between the edges", "anchors": ["src/compas_cem/diagrams/mixins/edge_mixins.py:add_edge", "src/compas_cem/diagrams/mixins/node_mixins.py:node_key"]}
{"id": "C05", "title": "add_edge stores what was asked and nothing else", "statement": "add_edge of a trail (deviation) edge between existing nodes u and v makes (u, v) an edge of type trail (deviation) with exactly the given length and plane (force); all other edges, all nodes and the lookup table are unchanged; re-adding keeps the number of edges; if an end is an integer key without a node the call raises.", "quantifier": "every diagram state and every edge element", "why_tests_cant": "frame property over all states", "anchors": ["src/compas_cem/diagrams/mixins/edge_mixins.py:add_edge", "src/compas_cem/elements/trail.py", "src/compas_cem/elements/deviation.py"]}
{"id": "C06", "title": "Supports and loads are assigned to exactly one node", "statement": "add_support / add_load change only the type / only the load vector of the designated node (a second load replaces the first, it is not accumulated); a point where no node exists raises ValueError, an unknown integer key raises KeyError, and in both cases the diagram is unchanged.", "quantifier": "every diagram state, node reference and load vector", "why_tests_cant": "frame and error property over all states", "anchors": ["src/compas_cem/diagrams/topology/topology.py:add_support", "src/compas_cem/diagrams/topology/topology.py:add_load"]}
{"id": "C07", "title": "node_exists reports existence", "statement": "node_exists(value) is True exactly when the diagram has a node designated by value.", "quantifier": "every diagram state and every node reference", "why_tests_cant": "universal claim; false for integer keys in the unchanged code, to be exhibited and delimited", "anchors": ["src/compas_cem/diagrams/mixins/node_mixins.py:node_exists", "src/compas_cem/diagrams/mixins/node_mixins.py:node_key"]}
{"id": "C08", "title": "build_trails always terminates", "statement": "The trail search stops for every diagram, whatever cycles, branchings or self-loops its trail edges form, and each support's walk visits a node at most once unless it carries a self-loop.", "quantifier": "every diagram", "why_tests_cant": "termination over all graphs cannot be tested", "anchors": ["src/compas_cem/diagrams/topology/topology.py:build_trails"]}
{"id": "C09", "title": "Every stored trail is a chain of trail edges from an origin", "statement": "After a successful build_trails, every trail is non-empty, is keyed by its first node, that node is an origin node, and consecutive nodes are joined by a trail edge.", "quantifier": "every diagram on which build_trails succeeds", "why_tests_cant": "all graphs", "anchors": ["src/compas_cem/diagrams/topology/topology.py:build_trails", "src/compas_cem/diagrams/topology/topology.py:trails"]}
{"id": "C10", "title": "Trails partition the nodes", "statement": "After a successful build_trails on a diagram where no node has more than two trail neighbours and every support has exactly one, every node lies in exactly one trail at exactly one position, every trail edge joins consecutive nodes of a trail, the last node of each trail is a support and no other node of it is, and the sequence of a node is its index in its trail.", "quantifier": "every such diagram", "why_tests_cant": "all graphs and all support orders; without the degree condition the unchanged code violates it (trails overwritten), which is exhibited", "anchors": ["src/compas_cem/diagrams/topology/topology.py:build_trails"]}
{"id": "C11", "title": "build_trails succeeds on every union of supported trails", "statement": "If the trail edges of a diagram form disjoint paths that cover all nodes, each with at least two nodes and a support at one end and no other support, then build_trails succeeds and the stored trails are exactly these paths, oriented from the free end to the support.", "quantifier": "every such diagram, any number and length of paths, any insertion order", "why_tests_cant": "all path systems and adjacency orders", "anchors": ["src/compas_cem/diagrams/topology/topology.py:build_trails"]}
{"id": "C12", "title": "A failing build_trails does not publish trails", "statement": "build_trails raises AssertionError exactly when there is no trail edge, no support left, or a node that no support's walk reaches, where the walks are determined by the stored edges; exactly the ends of walks become origins, a node gets its position in the last walk through it as sequence, and the trails stored after a success are the walks by their ends, a later walk replacing an earlier one with the same end; after a failure the previously stored trails are kept; whatever happens coordinates, loads, edges and the lookup table are unchanged, and only node types (set to origin) and sequences are written.", "quantifier": "every diagram", "why_tests_cant": "needs the complete set of failure paths", "anchors": ["src/compas_cem/diagrams/topology/topology.py:build_trails"]}
{"id": "C13", "title": "build_trails is idempotent", "statement": "On a diagram whose trails are valid, running build_trails again succeeds and changes nothing.", "quantifier": "every diagram reached by a successful build_trails under the degree condition", "why_tests_cant": "all graphs", "anchors": ["src/compas_cem/diagrams/topology/topology.py:build_trails"]}
{"id": "C14", "title": "Auxiliary trails repair unassigned nodes", "statement": "build_trails(auxiliary_trails=True) attaches to every node that no support's walk reaches exactly one new node with a support and one trail edge of the auxiliary length, placed at the auxiliary vector's direction and length from the node, and to no other node; existing nodes and edges keep their data. If no node has more than two trail neighbours and every support exactly one, the call succeeds on every non-empty diagram, so that afterwards no node is unassigned; without this condition it may raise.", "quantifier": "every diagram, every iteration order of the unassigned set", "why_tests_cant": "all graphs and all set iteration orders", "anchors": ["src/compas_cem/diagrams/topology/topology.py:build_trails"]}
{"id": "C15", "title": "Auxiliary trails survive a rebuild", "statement": "Running build_trails(auxiliary_trails=True) a second time keeps the set of auxiliary trails reported.", "quantifier": "every diagram", "why_tests_cant": "universal claim, violated by the unchanged code; to be exhibited", "anchors": ["src/compas_cem/diagrams/topology/topology.py:build_trails", "src/compas_cem/diagrams/topology/topology.py:auxiliary_trails"]}
{"id": "C16", "title": "shift_trail shifts one trail and nothing else", "statement": "shift_trail(key, s) gives the i-th node of the trail sequence s + i, leaves all other nodes and everything else unchanged, preserves validity of the trails for s >= 0, the last of several shifts of one trail wins and shifts of different trails commute; it raises on a non-origin key or a diagram without trails.", "quantifier": "every valid diagram, every trail, every s, every sequence of shifts", "why_tests_cant": "histories of shifts", "anchors": ["src/compas_cem/diagrams/topology/topology.py:shift_trail"]}
{"id": "C17", "title": "Deviation edges are direct or indirect, never both", "statement": "When every node has a sequence, every deviation edge is exactly one of direct and indirect, trail edges are neither, and number_of_deviation_edges = number_of_direct + number_of_indirect; a node without a sequence makes the test raise ValueError.", "quantifier": "every diagram", "why_tests_cant": "all graphs and sequence assignments", "anchors": ["src/compas_cem/diagrams/topology/topology.py:is_direct_deviation_edge", "src/compas_cem/diagrams/topology/topology.py:is_indirect_deviation_edge", "src/compas_cem/diagrams/topology/topology.py:number_of_deviation_edges"]}
{"id": "C18", "title": "Sequences partition the nodes", "statement": "With non-negative sequences assigned to all nodes, sequences() yields number_of_sequences() tuples, the k-th holding exactly the nodes of sequence k, so that every node occurs in exactly one tuple exactly once.", "quantifier": "every diagram with assigned sequences", "why_tests_cant": "all assignments", "anchors": ["src/compas_cem/diagrams/topology/topology.py:sequences", "src/compas_cem/diagrams/topology/topology.py:number_of_sequences", "src/compas_cem/diagrams/topology/topology.py:sequence_last"]}
{"id": "C19", "title": "trails_sequences inverts the sequence assignment", "statement": "On a valid diagram trails_sequences()[key][k] = n holds exactly when n is a node of the trail keyed by key and its sequence is k.", "quantifier": "every valid diagram including all shifts", "why_tests_cant": "all diagrams and shifts", "anchors": ["src/compas_cem/diagrams/topology/topology.py:trail_sequences", "src/compas_cem/diagrams/topology/topology.py:trails_sequences"]}
{"id": "C20", "title": "Form finding never fails on a valid diagram except by non-convergence", "statement": "On a valid diagram static_equilibrium with tmax >= 1 (not verbose, no kmax) either returns a form or raises the documented residual ValueError; no KeyError, TypeError or other exception can occur; if the diagram has no indirect deviation edge and eta >= 0 it always returns.", "quantifier": "every valid diagram, every tmax >= 1, every eta", "why_tests_cant": "all diagrams", "anchors": ["src/compas_cem/equilibrium/force.py:equilibrium_state"]}
{"id": "C21", "title": "Nodal static equilibrium up to the convergence threshold", "statement": "In the form returned by static_equilibrium (tmax >= 2) the applied load, the support reaction and the forces of all edges at a node, taken along the edges' directions in the returned geometry, sum to a vector of length at most the sum over the indirect deviation edges at the node of |force| * min(2, 2*eta/length).", "quantifier": "every valid diagram with non-zero trail lengths, every node, every eta and tmax >= 2 for which a form is returned", "why_tests_cant": "an error bound for all structures and thresholds", "anchors": ["src/compas_cem/equilibrium/force.py:static_equilibrium", "src/compas_cem/equilibrium/force.py:equilibrium_state", "src/compas_cem/equilibrium/force.py:node_equilibrium", "src/compas_cem/equilibrium/force.py:form_update"]}
{"id": "C22", "title": "Exact equilibrium without indirect deviation edges", "statement": "If the diagram has no indirect deviation edge, every node of the returned form is in exact equilibrium, for every tmax >= 1 and every eta.", "quantifier": "every valid diagram with non-zero trail lengths and only direct deviation edges", "why_tests_cant": "all structures", "anchors": ["src/compas_cem/equilibrium/force.py:static_equilibrium"]}
{"id": "C23", "title": "Global force equilibrium", "statement": "Without indirect deviation edges the sum of all loads and all support reactions of the returned form is zero; in general it is bounded by the sum of the nodal bounds.", "quantifier": "every valid diagram", "why_tests_cant": "all structures", "anchors": ["src/compas_cem/equilibrium/force.py:static_equilibrium", "src/compas_cem/equilibrium/force.py:form_update"]}
{"id": "C24", "title": "Global moment equilibrium", "statement": "Without indirect deviation edges the sum of the moments (about any point) of all loads and all support reactions of the returned form is zero.", "quantifier": "every valid diagram, every reference point", "why_tests_cant": "all structures", "anchors": ["src/compas_cem/equilibrium/force.py:static_equilibrium", "src/compas_cem/equilibrium/force.py:form_update"]}
{"id": "C25", "title": "Form finding keeps the data it was given", "statement": "The returned form has the same nodes and edges; origin nodes keep their position, all loads, node types, deviation edge forces and edge planes are those of the topology diagram, and only supports carry a computed reaction.", "quantifier": "every valid diagram, every tmax and eta", "why_tests_cant": "frame property over all structures", "anchors": ["src/compas_cem/equilibrium/force.py:form_update", "src/compas_cem/equilibrium/force.py:equilibrium_state", "src/compas_cem/diagrams/form.py:from_topology_diagram"]}
{"id": "C26", "title": "Trail edges get the prescribed length and sign", "statement": "In the returned form every trail edge without plane and with non-zero force has geometric length |length| as prescribed in the topology diagram, and its force has the sign of the prescribed length (positive tension, negative compression).", "quantifier": "every valid diagram, every trail edge", "why_tests_cant": "all structures", "anchors": ["src/compas_cem/equilibrium/force.py:equilibrium_state", "src/compas_cem/elements/trail.py"]}
{"id": "C27", "title": "Planes capture the end node of their trail edge", "statement": "In the returned form the second node (along the trail) of a trail edge with a plane lies on that plane, unless the residual vector is parallel to the plane within tolerance or the first node is already on it, in which case the prescribed length is used.", "quantifier": "every valid diagram, every trail edge with a plane", "why_tests_cant": "all structures and planes", "anchors": ["src/compas_cem/equilibrium/force.py:trail_length_from_plane_intersection", "src/compas_cem/equilibrium/force.py:equilibrium_state"]}
{"id": "C28", "title": "A plane preserves the force state of its trail edge", "statement": "Documented by TrailEdge: if a plane is defined it overrides the absolute length but the sign of the length (tension/compression) is preserved.", "quantifier": "every valid diagram, every trail edge with a plane", "why_tests_cant": "universal claim, violated by the unchanged code; to be exhibited", "anchors": ["src/compas_cem/elements/trail.py:TrailEdge", "src/compas_cem/equilibrium/force.py:equilibrium_state"]}
{"id": "C29", "title": "Form lengths are signed geometric lengths", "statement": "In every returned form the length attribute of an edge has the distance of the edge's end nodes as absolute value and the sign of the edge's force.", "quantifier": "every diagram, every edge", "why_tests_cant": "all structures", "anchors": ["src/compas_cem/equilibrium/force.py:form_update"]}
{"id": "C30", "title": "A returned form is converged", "statement": "If static_equilibrium with tmax >= 2 returns, the sum of node displacements in the last iteration is at most eta; otherwise it raises ValueError; it performs at most tmax iterations; tmax = 0 raises, and so does tmax = 1 with verbose=True.", "quantifier": "every diagram, tmax, eta", "why_tests_cant": "all inputs including the loop's exit paths", "anchors": ["src/compas_cem/equilibrium/force.py:equilibrium_state"]}
{"id": "C31", "title": "kmax stops the computation at its sequence", "statement": "With kmax given, nodes of sequences later than kmax are not moved and no forces are computed beyond it.", "quantifier": "every valid diagram, every kmax >= 0", "why_tests_cant": "universal claim, violated by the unchanged code beyond sequence kmax + 1; to be exhibited and delimited", "anchors": ["src/compas_cem/equilibrium/force.py:equilibrium_state"]}
{"id": "C32", "title": "The form does not depend on trail order or initial guess", "statement": "Without indirect deviation edges the returned node positions, forces and reactions depend only on the origin positions, loads, prescribed lengths/planes and deviation forces: permuting the trails and changing the coordinates of non-origin nodes does not change them.", "quantifier": "every pair of valid diagrams that agree on this data", "why_tests_cant": "relational property over pairs of runs", "anchors": ["src/compas_cem/equilibrium/force.py:equilibrium_state"]}
{"id": "C33", "title": "The plain and the numpy solver compute the same iterates", "statement": "On every valid diagram, as long as no zero-length deviation edge (or zero residual on a plane edge) produces a NaN, each iteration of the numpy solver has the same positions, forces and reactions as the plain solver, and the numpy solver stops no later.", "quantifier": "every valid diagram, every iteration count", "why_tests_cant": "relational property over pairs of runs", "anchors": ["src/compas_cem/equilibrium/force.py:equilibrium_state", "src/compas_cem/equilibrium/force_numpy.py:equilibrium_state_numpy"]}
{"id": "C34", "title": "Translation equivariance", "statement": "Translating all nodes (and planes) of a diagram translates the returned form and leaves forces and reactions unchanged.", "quantifier": "every diagram, every translation, tmax, eta", "why_tests_cant": "relational property over pairs of runs", "anchors": ["src/compas_cem/equilibrium/force.py:equilibrium_state"]}
{"id": "C35", "title": "Load scaling", "statement": "Multiplying all loads and deviation forces by the same positive factor leaves the geometry unchanged and multiplies all trail forces and reactions by that factor.", "quantifier": "every diagram, every positive factor", "why_tests_cant": "relational property over pairs of runs", "anchors": ["src/compas_cem/equilibrium/force.py:equilibrium_state"]}
{"id": "C36", "title": "Optimizer registry", "statement": "After any sequence of add_parameter/remove_parameter the registered parameters are those added and not removed, in order of addition, and keys are never reused; the vector of start values (and bounds) can be assembled exactly when the keys are 0..n-1, i.e. when the parameters that are left are the ones added first; otherwise IndexError is raised.", "quantifier": "every history of adds and removes", "why_tests_cant": "histories", "anchors": ["src/compas_cem/optimization/optimizer.py:add_parameter", "src/compas_cem/optimization/optimizer.py:remove_parameter", "src/compas_cem/optimization/optimizer.py:optimization_parameters", "src/compas_cem/optimization/optimizer.py:optimization_bounds"]}
{"id": "C37", "title": "Parameter bounds bracket the start value", "statement": "For every parameter bound_low <= start value <= bound_up, whatever the signs of the given bounds, with infinite bounds where None was given and equality exactly for a zero bound.", "quantifier": "every parameter, every topology diagram", "why_tests_cant": "all values", "anchors": ["src/compas_cem/optimization/parameters/parameter.py"]}
{"id": "C38", "title": "Writing parameters and reading them back", "statement": "After the optimizer writes a parameter vector into a diagram, reading the start values returns this vector if no two parameters designate the same attribute (otherwise the last one wins), and no attribute other than the designated ones changes.", "quantifier": "every parameter set, vector and diagram", "why_tests_cant": "all parameter sets", "anchors": ["src/compas_cem/optimization/optimizer.py:_update_parameters", "src/compas_cem/optimization/optimizer.py:optimization_parameters"]}
{"id": "C39", "title": "The penalty measures constraint violation", "statement": "With non-negative weights the objective is non-negative and does not depend on the order of constraints; with positive weights it is zero exactly when every constraint's reference equals its target.", "quantifier": "every set of constraints, every equilibrium state", "why_tests_cant": "all constraint sets", "anchors": ["src/compas_cem/optimization/optimizer.py:_calculate_penalty", "src/compas_cem/optimization/constraints/constraint.py"]}
{"id": "C40", "title": "Geometric targets are closest points", "statement": "The penalty of a line, plane or polyline constraint is weight times the squared distance of the node to the line, plane or polyline (its minimum over all its points).", "quantifier": "every node position, every line, plane with unit normal, and polyline", "why_tests_cant": "all geometry", "anchors": ["src/compas_cem/optimization/constraints/line.py", "src/compas_cem/optimization/constraints/plane.py", "src/compas_cem/optimization/constraints/polyline.py"]}
{"id": "C41", "title": "Edge direction constraint ignores orientation", "statement": "The penalty of an edge direction constraint lies between 0 and 2*weight, is unchanged when the target vector is scaled by any non-zero factor or reversed or the edge key is reversed, and is zero exactly when edge and target are parallel.", "quantifier": "every edge of non-zero length and non-zero target", "why_tests_cant": "all vectors", "anchors": ["src/compas_cem/optimization/constraints/direction.py"]}
{"id": "C42", "title": "Finite difference gradient", "statement": "grad_finite_differences fills entry i with (f(x + h e_i) - f(x)) / h, evaluates f exactly n + 1 times, never modifies x, and is exact for affine objectives.", "quantifier": "every objective function, x, and non-zero step", "why_tests_cant": "all functions and dimensions", "anchors": ["src/compas_cem/optimization/grad.py:grad_finite_differences"]}
{"id": "C43", "title": "The optimized form realizes the reported optimum", "statement": "The form returned by Optimizer.solve is the equilibrium of the topology diagram with the parameters x_opt reported by the optimizer.", "quantifier": "every optimizer, diagram and solver behaviour", "why_tests_cant": "universal over solver schedules; violated by the unchanged code (the last evaluated point is used), to be exhibited and delimited", "anchors": ["src/compas_cem/optimization/optimizer.py:solve", "src/compas_cem/optimization/optimizer.py:_optimize_form"]}
{"id": "C44", "title": "Solve rejects ill-posed problems untouched", "statement": "solve raises ValueError without evaluating or modifying the topology diagram when there are no parameters, no constraints, or the gradient method is unknown; an unknown algorithm name raises KeyError, also without touching the diagram.", "quantifier": "every optimizer and diagram", "why_tests_cant": "error paths over all states", "anchors": ["src/compas_cem/optimization/optimizer.py:solve", "src/compas_cem/optimization/optimizer.py:check_optimization_sanity", "src/compas_cem/optimization/nlopt.py"]}
{"id": "C45", "title": "Parameters and constraints survive serialization", "statement": "Converting a parameter or float constraint to data and back gives an equal object, for every key, bound, target and weight.", "quantifier": "every parameter and constraint", "why_tests_cant": "all values, string-level encoding", "anchors": ["src/compas_cem/optimization/parameters/edge.py", "src/compas_cem/optimization/parameters/node.py", "src/compas_cem/optimization/constraints/constraint.py"]}
{"id": "C46", "title": "Mesh polyedges become trails and deviations", "statement": "from_dualquadmesh puts every edge of every polyedge in exactly one of trail and deviation edges, except polyedges running along supports, which are dropped; a polyedge between two supports yields exactly one deviation edge and two trails ending at the supports; signs follow the given states.", "quantifier": "every list of polyedges and supports", "why_tests_cant": "all meshes", "anchors": ["src/compas_cem/diagrams/topology/mesh_mixins.py:from_dualquadmesh"]}
{"id": "C47", "title": "Rotation and reflection equivariance", "statement": "Applying one orthogonal map (rotation or reflection) to positions, loads, reactions and planes of a diagram applies it to the returned form; forces and lengths stay, and form finding raises on both diagrams or on none.", "quantifier": "every well-formed diagram, every orthogonal map, every kmax, tmax, eta", "why_tests_cant": "relational property over pairs of runs", "anchors": ["src/compas_cem/equilibrium/force.py:equilibrium_state"]}
{"id": "C48", "title": "Geometric enlargement", "statement": "Multiplying positions, plane origins, trail lengths and eta by one positive factor multiplies the geometry of the returned form by it and leaves forces and reactions unchanged.", "quantifier": "every well-formed diagram, every positive factor, every kmax, tmax", "why_tests_cant": "relational property over pairs of runs", "anchors": ["src/compas_cem/equilibrium/force.py:equilibrium_state"]}
{"id": "C49", "title": "Optimization changes only parameters and keeps them within bounds", "statement": "However the numerical solver and the gradients behave, Optimizer.solve changes nothing of the topology diagram but the numbers designated by the registered parameters; the diagram stays ready for form finding and the returned form is its equilibrium; if the solver evaluates the objective at least once and only within the bounds it is given, then after a call that returned a form every parameter value in the diagram is within the bounds of its parameter (of the last one, if several share a place).", "quantifier": "every optimizer, diagram and solver behaviour", "why_tests_cant": "universal over solver schedules", "anchors": ["src/compas_cem/optimization/optimizer.py:solve", "src/compas_cem/optimization/optimizer.py:optimization_bounds", "src/compas_cem/optimization/optimizer.py:_update_parameters"]}
{"id": "C50", "title": "Counters and queries agree with the stored diagram", "statement": "The numbers of nodes, edges, trail, deviation, direct, indirect, support, loaded and auxiliary items reported by a topology diagram are the numbers of stored items; on valid trails nodes = trails + trail edges and supports = trails; connected edges of a node are exactly the stored edges at it, the degrees adding up to twice the edges; a trail node has one or two connected trail edges.", "quantifier": "every diagram reached by calls; every diagram with valid trails", "why_tests_cant": "all graphs", "anchors": ["src/compas_cem/diagrams/diagram.py", "src/compas_cem/diagrams/topology/topology.py"]}
{"id": "C51", "title": "Edge widths grow with the force", "statement": "For a width range low <= high every drawn edge gets a width in the range, growing with the size of its force; an edge of largest force gets high and, unless all forces have one size, an edge of smallest force gets low. Plotter and viewer use the same widths. Without edges the plotter raises, whatever the width.", "quantifier": "every form, every list of edges, every range", "why_tests_cant": "all forces", "anchors": ["src/compas_cem/plotters/formartist.py:edge_width", "src/compas_cem/viewers/diagramobject.py:edge_width"]}
{"id": "C52", "title": "Arrows show forces to scale on the right side of the node", "statement": "A load or reaction not smaller than the tolerance is drawn as an arrow equal to the force times the scale, starting at the gap from the node, or ending there if shifted; a reaction is shifted if the largest force at its node is compressive; at a support of a form in equilibrium with one edge and no load the arrow lies outside the form on the line of the edge. A node without edges keeps the plotter from drawing any reaction.", "quantifier": "every form, scale, tolerance, gap and list of nodes", "why_tests_cant": "all vectors and graphs", "anchors": ["src/compas_cem/plotters/formartist.py:draw_reactions", "src/compas_cem/ghpython/artists.py:draw_reactions", "src/compas_cem/viewers/diagramobject.py:_force_vectors"]}
{"id": "C53", "title": "Edge colours show the kind or the sign of every edge", "statement": "Colouring a topology diagram by type or by state gives every edge the colour of its own kind or sign, whatever the order of edges, provided every edge has a type and, once there are trails, deviation edges join nodes with sequences; otherwise colouring fails or repeats the previous colour. The viewer draws every edge exactly once, in its own colour.", "quantifier": "every diagram, every list of edges", "why_tests_cant": "all graphs, loop-carried state", "anchors": ["src/compas_cem/plotters/topologyartist.py", "src/compas_cem/viewers/topologyobject.py", "src/compas_cem/viewers/formobject.py", "src/compas_cem/viewers/diagramobject.py:draw_edges"]}
{"id": "C54", "title": "Selections drawn in Grasshopper", "statement": "The artists draw exactly the nodes and edges of the requested kind among those asked for, at their positions and in order; trails are drawn through every node once. If no requested node is a support, the whole diagram is drawn as supports, while for the other kinds nothing is drawn.", "quantifier": "every diagram and selection", "why_tests_cant": "all selections", "anchors": ["src/compas_cem/ghpython/artists.py"]}
{"id": "C55", "title": "Visibility settings of viewer objects", "statement": "After any assignments to show_nodes and show_edges, edges are shown iff the last assignment to either was true, and show_nodes keeps its initial value; scales and tolerances are used as given unless zero.", "quantifier": "every sequence of assignments", "why_tests_cant": "all sequences", "anchors": ["src/compas_cem/viewers/diagramobject.py"]}
{"id": "C56", "title": "Assembling diagrams from Grasshopper parts and finding them again", "statement": "The topology component makes exactly the calls for the connected parts that are not None, in order, and raises what the first failing call raises. With parts given by points, and loads and supports at ends of edges, there is one node per geometric key, with the last load given there and a support if one is given there, and the edges are those given; a load or support elsewhere raises ValueError. Searching the line of an edge finds it, in its own direction only.", "quantifier": "every list of parts, every geometric key", "why_tests_cant": "all lists of parts", "anchors": ["src/compas_cem/ghpython/components/CompasCem_TopologyDiagram/code.py", "src/compas_cem/ghpython/components/CompasCem_SearchEdgeKey/code.py", "src/compas_cem/ghpython/components/CompasCem_SearchNodeKey/code.py"]}
{"id": "C57", "title": "Grasshopper components change, solve and read what they are given", "statement": "Shifting trails and moving origins pairs keys with values (the last value is repeated), changes nothing else and raises for unknown keys; edge results are aligned with the keys; form finding without indirect edges always returns a form in equilibrium whose reported reactions balance the loads; constrained form finding is idle exactly when switched off or a list is missing, changes only the numbers of given parameters otherwise, and raises ValueError with the diagram unchanged if all items of a list are None.", "quantifier": "every diagram, list of keys, values and settings", "why_tests_cant": "all inputs and solver schedules", "anchors": ["src/compas_cem/ghpython/components/CompasCem_TrailsShift/code.py", "src/compas_cem/ghpython/components/CompasCem_OriginNodesMove/code.py", "src/compas_cem/ghpython/components/CompasCem_ResultsEdges/code.py", "src/compas_cem/ghpython/components/CompasCem_ResultsSupportNodes/code.py", "src/compas_cem/ghpython/components/CompasCem_FormFinding/code.py", "src/compas_cem/ghpython/components/CompasCem_ConstrainedFormFinding/code.py"]}
{"id": "C58", "title": "The found form is the only equilibrium", "statement": "If a valid diagram has no indirect deviation edges, then every form with the given origins, loads, deviation forces and trail lengths or planes that is in equilibrium at all nodes with non-zero trail forces has exactly the positions, reactions and forces that static_equilibrium returns, and there is such a form exactly if no trail edge of the returned form has force zero.", "quantifier": "every valid diagram without indirect edges, with trail edges of non-zero length, and every form of it", "why_tests_cant": "a test compares with one expected form, not with all equilibria", "anchors": ["src/compas_cem/equilibrium/force.py:static_equilibrium", "src/compas_cem/equilibrium/force.py:equilibrium_state", "src/compas_cem/equilibrium/force.py:trail_vector_out", "src/compas_cem/equilibrium/force.py:trail_length_from_plane_intersection"]}
{"id": "C59", "title": "Load path theorem", "statement": "In a form found without indirect deviation edges the sum of force times length of all edges is the sum of the scalar products of loads and reactions with the positions of their nodes, seen from any point; in general the difference is at most the sum of the nodal residual bounds times the distances from that point.", "quantifier": "every valid diagram, point and setting", "why_tests_cant": "a theorem about all real positions and forces", "anchors": ["src/compas_cem/equilibrium/force.py:static_equilibrium", "src/compas_cem/equilibrium/force.py:form_update"]}
{"id": "C60", "title": "What a part of a form depends on", "statement": "Without indirect deviation edges, positions, reactions and trail forces up to sequence k depend only on data of sequences before k (and the trail edges and origins up to k); a part that is not connected with the rest has the same form as alone; stopping with kmax = k gives the nodes up to k the positions, trail forces and support reactions of the complete form, and leaves them in equilibrium with the cut forces stored as reactions.", "quantifier": "every pair of valid diagrams that agree on the part, every kmax >= 0", "why_tests_cant": "all changes of the remaining data", "anchors": ["src/compas_cem/equilibrium/force.py:static_equilibrium", "src/compas_cem/equilibrium/force.py:equilibrium_state"]}
{"id": "C61", "title": "Limits of found forms", "statement": "If forms returned with at least two iterations and thresholds that tend to zero approach a form, then all nodes of this form are balanced, unless an edge that carries a force shrinks to a point; if moreover trail edges have no planes and all carry forces in the limit, it is an equilibrium of the problem with the prescribed lengths, force states and deviation forces.", "quantifier": "every valid diagram whose trail edges have non-zero length, with or without indirect edges, every sequence of settings and every limit", "why_tests_cant": "a limit of infinitely many runs", "anchors": ["src/compas_cem/equilibrium/force.py:static_equilibrium", "src/compas_cem/equilibrium/force.py:equilibrium_state"]}
{"id": "C62", "title": "Grasshopper constraints ask for what they show", "statement": "A constraint component makes a constraint exactly if all its inputs but the weight are connected; the penalty of this constraint is zero exactly if the state has what the component asks for, and otherwise it is the weight times the penalty of weight one.", "quantifier": "every component, input, weight and state", "why_tests_cant": "all reals; violated at weight zero, to be exhibited and delimited", "anchors": ["src/compas_cem/ghpython/components/CompasCem_ConstraintNodePoint/code.py", "src/compas_cem/ghpython/components/CompasCem_ConstraintNodeLine/code.py", "src/compas_cem/ghpython/components/CompasCem_ConstraintNodePlane/code.py", "src/compas_cem/ghpython/components/CompasCem_ConstraintNodePolyline/code.py", "src/compas_cem/ghpython/components/CompasCem_ConstraintEdgeDirection/code.py", "src/compas_cem/ghpython/components/CompasCem_ConstraintDeviationEdgeLength/code.py", "src/compas_cem/ghpython/components/CompasCem_ConstraintTrailEdgeForce/code.py", "src/compas_cem/ghpython/components/CompasCem_ConstraintReactionForce/code.py"]}
{"id": "C63", "title": "Labels show the data of their own node or edge", "statement": "For every tag offered by the plotters and the viewer, every node and edge asked for gets one label, in order, with the datum of this node or edge; a missing sequence raises ValueError; plotter and viewer show the same lengths on returned forms; an edge that is not in a given dictionary of texts is labelled with its own key.", "quantifier": "every diagram, list of nodes or edges, tag and dictionary", "why_tests_cant": "all diagrams; violated by some tags of the viewer and by dictionaries, to be exhibited and delimited", "anchors": ["src/compas_cem/plotters/formartist.py", "src/compas_cem/plotters/topologyartist.py", "src/compas_cem/viewers/diagramobject.py", "src/compas_cem/viewers/formobject.py", "src/compas_cem/viewers/topologyobject.py"]}
{"id": "C64", "title": "Taking diagrams apart loses nothing", "statement": "A topology diagram ready for form finding is taken apart into its nodes and edges, each once; every edge is listed as trail or as deviation edge, every node in exactly one sequence, the one of its number, and in exactly one trail; trails start at listed origins and end at the listed supports. A form found from it is taken apart into the same nodes, supports and edges in the same order. A node without sequence makes the component raise.", "quantifier": "every valid diagram, every form returned from it", "why_tests_cant": "all graphs", "anchors": ["src/compas_cem/ghpython/components/CompasCem_DisassembleTopology/code.py", "src/compas_cem/ghpython/components/CompasCem_DisassembleForm/code.py"]}
{"id": "C65", "title": "Indirect deviation edges that do not feed back are solved exactly", "statement": "If no position needs itself (through the node before it in its trail and the deviation edges there), more iterations than nodes suffice for static_equilibrium to return an exactly balanced form with threshold zero; every equilibrium of the problem has its positions, reactions and forces, and there is one exactly if its trail edges carry forces. With stages 0..N of the nodes, N + 2 iterations suffice. Without the hypothesis there is a valid problem for which no number of iterations suffices.", "quantifier": "every valid diagram whose needs are acyclic and whose trail edges have non-zero length, every threshold and number of iterations", "why_tests_cant": "all graphs and reals; exactness and uniqueness", "anchors": ["src/compas_cem/equilibrium/force.py:static_equilibrium", "src/compas_cem/equilibrium/force.py:equilibrium_state", "src/compas_cem/equilibrium/force.py:deviation_edges_resultant_vector"]}
{"id": "C66", "title": "Diagrams that were saved to JSON and read again", "statement": "Saving a topology diagram and reading the file always succeeds and keeps nodes, edges, geometric keys, settings and trails; the trails are then stored under texts instead of integers. Both solvers return the same form or raise the same error as before, and constrained form finding through the proxy returns what a direct call returns. trail and shift_trail raise KeyError for every trail until the trails are built again.", "quantifier": "every diagram, every setting and solver behaviour", "why_tests_cant": "all diagrams; relational property over pairs of runs", "anchors": ["src/compas_cem/ghpython/components/CompasCem_JSONExportDiagram/code.py", "src/compas_cem/ghpython/components/CompasCem_JSONImportTopology/code.py", "src/compas_cem/optimization/proxy.py", "src/compas_cem/diagrams/topology/topology.py:shift_trail", "src/compas_cem/diagrams/topology/topology.py:trail"]}
{"id": "C67", "title": "Which optimization parameters have an effect", "statement": "Positions of nodes that do not start a trail, forces of trail edges and lengths of deviation edges have no effect: diagrams that differ in these numbers only have the same form with both solvers, parameters at these places leave the objective unchanged and have finite difference derivative zero, and solve with such parameters only returns the form of the unchanged diagram, whatever NLopt does. Every other number has an effect: if trail edges have no planes and carry force, diagrams that differ in another number have different forms. The parameter components make a parameter for every connected key and bound, zero included, and accept places without effect.", "quantifier": "every valid diagram, optimizer, setting, vector and behaviour of NLopt", "why_tests_cant": "relational property over pairs of runs with arbitrary reals", "anchors": ["src/compas_cem/equilibrium/force.py:equilibrium_state", "src/compas_cem/equilibrium/force.py:form_update", "src/compas_cem/equilibrium/force_numpy.py:static_equilibrium_numpy", "src/compas_cem/optimization/parameters/origin.py", "src/compas_cem/optimization/parameters/trail.py", "src/compas_cem/optimization/parameters/deviation.py", "src/compas_cem/optimization/optimizer.py:solve", "src/compas_cem/optimization/grad.py:grad_finite_differences", "src/compas_cem/ghpython/components/CompasCem_ParameterTrailEdge/code.py", "src/compas_cem/ghpython/components/CompasCem_ParameterDeviationEdge/code.py", "src/compas_cem/ghpython/components/CompasCem_ParameterNodeOriginX/code.py", "src/compas_cem/ghpython/components/CompasCem_ParameterNodeOriginY/code.py", "src/compas_cem/ghpython/components/CompasCem_ParameterNodeOriginZ/code.py", "src/compas_cem/ghpython/components/CompasCem_ParameterNodeLoadX/code.py", "src/compas_cem/ghpython/components/CompasCem_ParameterNodeLoadY/code.py", "src/compas_cem/ghpython/components/CompasCem_ParameterNodeLoadZ/code.py"]}
{"id": "C68", "title": "What the drawing components of Grasshopper show", "statement": "With any selection of nodes and edges of the diagram, the form component draws every form found from a valid topology diagram, and the topology component every diagram ready for form finding: the selected nodes and edges in order, all of them if nothing is selected, the supports, origins, trail and deviation edges among them, all trails, and arrows for exactly the loads and reactions of these nodes that are not smaller than the minimum, to scale and touching their node; reactions are drawn at supports only. Selected objects that are not in the diagram make the component raise. A selection without supports draws all nodes as supports, a minimum of zero acts as 1/1000 and a scale of zero as one; a node without edges keeps a form from being drawn.", "quantifier": "every valid diagram, form, selection, minimum and scale", "why_tests_cant": "all diagrams, selections and reals", "anchors": ["src/compas_cem/ghpython/components/CompasCem_ArtistForm/code.py", "src/compas_cem/ghpython/components/CompasCem_ArtistTopology/code.py", "src/compas_cem/ghpython/artists.py"]}
{"id": "C69", "title": "Small forces in indirect deviation edges", "statement": "Take a valid diagram whose indirect deviation edges carry no force, and an equilibrium of it in which no deviation edge has shrunk to a point and every plane clearly is or is not used. Then with all sufficiently small forces in these edges, also if positions need themselves, there is exactly one equilibrium; static_equilibrium returns a form as soon as c / 2^tmax is at most eta; nodes and reactions of every form returned after two iterations are within eta of the equilibrium; and the equilibrium moves at most in proportion to the forces. With large forces this fails.", "quantifier": "every valid diagram, all small forces, thresholds and numbers of iterations", "why_tests_cant": "all reals; convergence of an iteration, existence and uniqueness of a limit", "anchors": ["src/compas_cem/equilibrium/force.py:static_equilibrium", "src/compas_cem/equilibrium/force.py:equilibrium_state", "src/compas_cem/equilibrium/force.py:deviation_edges_resultant_vector"]}
{"id": "C70", "title": "Forms depend smoothly on the numbers of the problem", "statement": "Take problems whose origins, loads, trail edge lengths and deviation edge forces depend smoothly on parameters, without indirect deviation edges, or with indirect ones through which no position needs itself and threshold zero. Where all trail edges of the returned form carry forces, no deviation edge has shrunk to a point and every plane clearly is or is not used, the positions, reactions, forces and lengths of the returned forms are equally smooth functions of the parameters, and nearby forms all are equilibria. Where trail edges carry no force, forms may jump.", "quantifier": "every smooth family of valid diagrams, every order of differentiability", "why_tests_cant": "derivatives: relates infinitely many runs", "anchors": ["src/compas_cem/equilibrium/force.py:static_equilibrium", "src/compas_cem/equilibrium/force.py:equilibrium_state", "src/compas_cem/equilibrium/force.py:form_update"]}
{"id": "C71", "title": "Finite difference gradients converge to the derivative of the objective", "statement": "Take an optimization problem without indirect deviation edges, or with indirect ones through which no position needs itself, more rounds than nodes and threshold zero, and values of the parameters at which trail edges of the form carry forces, no deviation edge has shrunk to a point, every plane clearly is or is not used, and no constraint is at a kink. There the objective of the optimizer is a smooth function of the values, grad_finite_differences succeeds for all small enough steps, its entries converge to the partial derivatives as the step tends to zero, and the error is at most proportional to the step, whatever values were written into the diagram before. At a kink the sign of the entry can depend on the sign of the step.", "quantifier": "every valid diagram, optimizer, list of constraints, vector and small step", "why_tests_cant": "derivatives and limits over the reals; relates infinitely many runs", "anchors": ["src/compas_cem/optimization/grad.py:grad_finite_differences", "src/compas_cem/optimization/optimizer.py:_optimize_form", "src/compas_cem/optimization/optimizer.py:_update_parameters", "src/compas_cem/optimization/constraints/constraint.py", "src/compas_cem/equilibrium/force_numpy.py:equilibrium_state_numpy"]}
{"id": "C72", "title": "Rounding errors stay where they are made", "statement": "Compute static_equilibrium with arithmetic in which every operation has a relative error of at most u (1/100 or less; double precision without overflow and underflow has 2^-53). Then the imbalance of every node of a returned form is at most the one of the convergence threshold plus an error that depends only on this node, its edges and their ends: of the order of u times the number of its edges times its load and forces, plus the change of direction of its trail edges by rounding the coordinates. It does not grow along trails. Loads and reactions balance up to the sum of these errors. Without indirect deviation edges rounding never keeps form finding from returning; with indirect edges but without feedback between nodes neither, and threshold zero then leaves the rounding error of the node alone. The error can be as large as u times the load.", "quantifier": "every valid diagram, every arithmetic with relative error u, every setting", "why_tests_cant": "all rounding behaviours and reals", "anchors": ["src/compas_cem/equilibrium/force.py:static_equilibrium", "src/compas_cem/equilibrium/force.py:equilibrium_state", "src/compas_cem/equilibrium/force.py:node_equilibrium", "src/compas_cem/equilibrium/force.py:trail_vector_out", "src/compas_cem/equilibrium/force.py:deviation_edges_resultant_vector", "src/compas_cem/equilibrium/force.py:trail_length_from_plane_intersection"]}
{"id": "C73", "title": "Forms found with growing precision approach the exact form", "statement": "Take a problem without feedback between nodes, arithmetics whose relative errors approach zero and convergence thresholds that approach zero. Then the forms that static_equilibrium returns approach the form of exact arithmetic with threshold zero: positions, reactions and forces do. The exact form has to have no trail edge without force, no deviation edge of length zero, and no plane on the border between used and not used. Without indirect deviation edges any thresholds will do. If a trail edge of the exact form carries no force, the forms can stay at a distance from it whatever the precision.", "quantifier": "every valid diagram without feedback, all sequences of arithmetics and thresholds", "why_tests_cant": "limits over all precisions", "anchors": ["src/compas_cem/equilibrium/force.py:static_equilibrium", "src/compas_cem/equilibrium/force.py:equilibrium_state", "src/compas_cem/equilibrium/force.py:node_equilibrium", "src/compas_cem/equilibrium/force.py:trail_length_from_plane_intersection"]}
{"id": "C74", "title": "Form finding changes nothing away from the stored trails", "statement": "A form returned by static_equilibrium has the nodes and edges of the diagram with their loads, types, sequences and planes, and differs from it, apart from edge lengths, at most in the positions of nodes on a stored trail after its first sequence, in the reactions of supports on a stored trail and of nodes of stored trails in sequence kmax, and in the forces of edges that join consecutive nodes of a stored trail. It is returned only if there is a trail and every node has a sequence. A node that is on no stored trail, without reaction and without edges with a force, keeps its load as imbalance; build_trails produces such diagrams without an error where three trail edges meet.", "quantifier": "every well-formed diagram, valid or not, and every setting", "why_tests_cant": "all diagrams and settings", "anchors": ["src/compas_cem/equilibrium/force.py:static_equilibrium", "src/compas_cem/equilibrium/force.py:equilibrium_state", "src/compas_cem/equilibrium/force.py:form_update", "src/compas_cem/diagrams/topology/topology.py:build_trails"]}
{"id": "C75", "title": "A form found with rounding is the exact form of a problem next to the given one", "statement": "Compute static_equilibrium with arithmetic in which every operation has a relative error of at most u (1/100 or less), and let every trail edge of the returned form carry a force and join two different points. Then the form, with its positions, reactions and forces, is an exact equilibrium of a problem next to the given one: graph, trails, types, origins and deviation edges are the same; the load of a node differs by at most the bound of its imbalance; the length of a trail edge differs by at most 11 u times the distances of its ends from the origin; and a plane is moved in parallel by at most 30 u times such distances, or dropped where the edge is almost parallel to it or almost starts on it. Without indirect deviation edges the exact algorithm returns this form for the other problem with any setting; without feedback between nodes it does with threshold zero. With exact arithmetic only the loads have to change, by the bound that the threshold sets.", "quantifier": "every valid diagram, every arithmetic with relative error u, every setting", "why_tests_cant": "all rounding behaviours and reals; existence of another problem", "anchors": ["src/compas_cem/equilibrium/force.py:static_equilibrium", "src/compas_cem/equilibrium/force.py:equilibrium_state", "src/compas_cem/equilibrium/force.py:node_equilibrium", "src/compas_cem/equilibrium/force.py:trail_vector_out", "src/compas_cem/equilibrium/force.py:trail_length_from_plane_intersection"]}
{"id": "C76", "title": "The error of a form is proportional to precision and threshold", "statement": "Take a problem without feedback between nodes whose exact form has no trail edge without force, no deviation edge of length zero and no plane on the border between used and not used. Then there are a factor C and a bound such that for every arithmetic with relative errors u and every threshold eta, both below the bound, each form that static_equilibrium returns after two or more iterations differs from the exact one by at most C (u + eta) in every position, reaction and force; each added binary digit halves the bound of the error. Without indirect deviation edges it is C u for any threshold, and with exact arithmetic C eta. Every trail edge of such forms carries a force and joins different points. No slower growing bound holds: forces can differ by u.", "quantifier": "every valid diagram without feedback, every arithmetic with small relative error, every small threshold", "why_tests_cant": "all rounding behaviours; existence of one factor for infinitely many runs", "anchors": ["src/compas_cem/equilibrium/force.py:static_equilibrium", "src/compas_cem/equilibrium/force.py:equilibrium_state", "src/compas_cem/equilibrium/force.py:node_equilibrium", "src/compas_cem/equilibrium/force.py:trail_length_from_plane_intersection"]}
{"id": "C77", "title": "Rounding with the numpy solver", "statement": "Compute static_equilibrium_numpy with arithmetic in which every operation has a relative error of at most u (1/100 or less), adding to zero is exact, and np.sum adds in any order. After every sweep each position and reaction is NaN or the one of the plain solver with the same arithmetic, so a returned form has NaN or is the form of the plain solver after the same number of sweeps. A returned form without NaN balances at every node as the form of the plain solver does, with the threshold enlarged by the rounding of its distance, unless a position was NaN one sweep before the last. Without feedback between nodes and with more iterations than nodes it always returns; with threshold zero the form is that of the plain solver if no deviation edge has shrunk to a point and no trail edge with a plane is without force, and has NaN otherwise. If the exact form has no trail edge without force, no deviation edge of length zero and no plane on the border between used and not used, then for small u and eta the form has no NaN and differs from the exact one by at most C (u + eta).", "quantifier": "every valid diagram, every arithmetic with relative error u, every order of summation, every setting", "why_tests_cant": "all rounding behaviours and reals; relates runs of two solvers", "anchors": ["src/compas_cem/equilibrium/force_numpy.py:static_equilibrium_numpy", "src/compas_cem/equilibrium/force_numpy.py:equilibrium_state_numpy", "src/compas_cem/equilibrium/force_numpy.py:node_equilibrium", "src/compas_cem/equilibrium/force_numpy.py:deviation_edges_resultant_vector", "src/compas_cem/equilibrium/force_numpy.py:normalize_vector_numpy"]}
{"id": "C78", "title": "What the numpy solver returns has converged", "statement": "A form without NaN that static_equilibrium_numpy returns after two or more iterations is in equilibrium at every node up to the convergence threshold, and the solver raises where the plain solver raises because the positions do not converge.", "quantifier": "every valid diagram whose trail edges have non-zero length, every setting", "why_tests_cant": "all reals and numbers of iterations; violated if a position was NaN one sweep before the last, to be exhibited and delimited", "anchors": ["src/compas_cem/equilibrium/force_numpy.py:static_equilibrium_numpy", "src/compas_cem/equilibrium/force_numpy.py:equilibrium_state_numpy", "src/compas_cem/equilibrium/force_numpy.py:normalize_vector_numpy"]}
{"id": "C79", "title": "Finite difference gradients need a threshold small against the step", "statement": "Take an optimization problem with indirect deviation edges through which no position needs itself, more rounds than nodes, and values of the parameters at which with threshold zero trail edges of the form carry forces, no deviation edge has shrunk to a point, every plane clearly is or is not used, and no constraint is at a kink. Then for nearby values and small convergence thresholds eta the objective of the optimizer is a number that differs from the smooth objective of threshold zero by at most C eta. grad_finite_differences with steps and with thresholds small against the steps succeeds and its entries converge to the partial derivatives; the error is at most C (|step| + eta / |step|), with one C for all small steps and thresholds, whatever values were written into the diagram before. Thresholds as large as the step will not do: with the default values of solve, 1e-6 for both, the gradient can be exactly zero where the objective has a non-zero slope.", "quantifier": "every valid diagram without feedback, optimizer, list of constraints, vector, small step and threshold", "why_tests_cant": "derivatives and limits over the reals; existence of one factor for infinitely many runs", "anchors": ["src/compas_cem/optimization/grad.py:grad_finite_differences", "src/compas_cem/optimization/optimizer.py:_optimize_form", "src/compas_cem/optimization/optimizer.py:solve", "src/compas_cem/equilibrium/force_numpy.py:equilibrium_state_numpy"]}
{"id": "C80", "title": "Gradients by automatic differentiation are the derivatives of the objective", "statement": "Differentiate the objective of the optimizer as autograd does: run it on numbers that carry a derivative, apply the rules of differentiation to every operation, and take branches by the values. Such a run raises what the run on plain numbers raises and otherwise has its numbers; the gradient has one entry for each parameter, NaN if the objective is NaN, and leaves the diagram as the objective leaves it. Take a problem without feedback between nodes, more rounds than nodes and threshold zero, and values of the parameters at which trail edges of the form carry forces, no deviation edge has shrunk to a point, every plane clearly is or is not used, and no constraint is at a kink. There the entries are exactly the partial derivatives of the objective, whatever values were written into the diagram before.", "quantifier": "every valid diagram, optimizer, list of constraints and vector", "why_tests_cant": "derivatives over the reals", "anchors": ["src/compas_cem/optimization/optimizer.py:solve", "src/compas_cem/optimization/optimizer.py:_optimize_form", "src/compas_cem/optimization/optimizer.py:_update_parameters", "src/compas_cem/optimization/constraints/constraint.py", "src/compas_cem/equilibrium/force_numpy.py:equilibrium_state_numpy"]}
{"id": "C81", "title": "Gradients are the derivatives of what form finding computes, for any threshold", "statement": "Take an optimization problem with any number of rounds and any convergence threshold, with or without feedback between nodes, and values of the parameters for which form finding returns after some number of sweeps. Suppose that in each of these sweeps trail edges carry forces, no deviation edge has length zero, neither between positions of this sweep nor between positions of this sweep and the previous one, every plane clearly is or is not used, that the movement of the nodes is clearly above the threshold before the last sweep and clearly below it in the last one, and that no constraint is at a kink. Then the objective is smooth there; automatic differentiation returns exactly its partial derivatives, whatever values were written into the diagram before; finite differences converge to them, with an error of at most C |step|. The threshold can hide a parameter: there is a problem whose objective has slope -1/4 with threshold zero, while the gradient with every positive threshold is zero.", "quantifier": "every valid diagram, number of rounds, threshold, optimizer, list of constraints and vector", "why_tests_cant": "derivatives and limits over the reals", "anchors": ["src/compas_cem/optimization/optimizer.py:solve", "src/compas_cem/optimization/optimizer.py:_optimize_form", "src/compas_cem/optimization/grad.py:grad_finite_differences", "src/compas_cem/equilibrium/force_numpy.py:equilibrium_state_numpy"]}
{"id": "C82", "title": "The numerical solver sees fixed functions", "statement": "However the numerical solver behaves, with either gradient method, the value and the gradient that Optimizer.solve hands to it at a point are those of the given diagram with this point, whatever points were asked for before and whatever failed; the run is the one that the solver would make on functions without side effects. The gradient that solve reports is the one at the optimum it reports, and with automatic differentiation, where the objective is smooth, it has its partial derivatives. The numbers that the diagram has at the places of the parameters before the call matter only for the start and the bounds that the solver is given: a solver that makes the same calls ends with the same points, diagram, attributes and form.", "quantifier": "every well-formed diagram, optimizer, setting and behaviour of the numerical solver", "why_tests_cant": "all numerical solvers and runs; relates runs with and without side effects", "anchors": ["src/compas_cem/optimization/optimizer.py:solve", "src/compas_cem/optimization/optimizer.py:_optimize_form", "src/compas_cem/optimization/optimizer.py:_update_parameters", "src/compas_cem/optimization/objective_func.py", "src/compas_cem/optimization/grad.py"]}
{"id": "C83", "title": "The objective measures how far the returned form is from the constraints", "statement": "Optimizer.solve minimises the penalties of a state of the numpy solver, and then returns a form of the plain solver with a tolerance of its own. On a diagram without indirect deviation edges, if no deviation edge of the returned form has length zero and no trail edge with a plane is without force, the value of the objective at its last call is the weighted sum of what the returned form misses the constraints by, in the squares of distances to points, planes, lines, polylines, forces, reactions, lengths and directions; with positive weights it is zero exactly if the form meets all constraints. If such an edge is there, there is a constraint that the form meets at which the objective is not a number. With indirect deviation edges, without feedback between nodes and away from kinks, the value differs from the weighted sum by at most C times the sum of the convergence thresholds of both solvers.", "quantifier": "every valid diagram, optimizer, list of constraints, setting and behaviour of the numerical solver", "why_tests_cant": "all numerical solvers and reals; relates runs of two solvers", "anchors": ["src/compas_cem/optimization/optimizer.py:solve", "src/compas_cem/optimization/optimizer.py:_optimize_form", "src/compas_cem/optimization/constraints/constraint.py", "src/compas_cem/equilibrium/force.py:static_equilibrium", "src/compas_cem/equilibrium/force_numpy.py:equilibrium_state_numpy"]}
{"id": "C84", "title": "Optimization does not depend on the coordinate system and the units", "statement": "Move an optimization problem, with its origins, planes, constraints and origin parameters, and let a numerical solver make the same choices in the moved problem: then Optimizer.solve evaluates the moved points, sees the same values and gradients, ends in the same way and returns the moved form, with either gradient method. If all parameters belong to edges, turning or reflecting the problem changes nothing but the diagram and the form, with the same numerical solver. The states of the numpy solver and the value of the objective move and turn with the problem, NaN included. In another unit of force, or of length with the thresholds converted, and with bounds, targets and weights rewritten, values are the same and derivatives are divided by the factor of their parameter; with finite differences this needs parameters that are not of the converted kind, since the step is not converted. With automatic differentiation the unit of force needs every trail edge to carry a force in all sweeps: a trail edge without force can have a derivative that is the same number in every unit. The thresholds of the code are lengths that the code does not convert: for every positive threshold there are two descriptions of one problem in different units of length of which form finding accepts one and raises ValueError for the other.", "quantifier": "every well-formed diagram, optimizer, list of constraints, motion, factor, setting and behaviour of the numerical solver", "why_tests_cant": "all motions, factors and numerical solvers; relates two runs", "anchors": ["src/compas_cem/optimization/optimizer.py:solve", "src/compas_cem/optimization/optimizer.py:_optimize_form", "src/compas_cem/optimization/optimizer.py:optimization_bounds", "src/compas_cem/optimization/grad.py:grad_finite_differences", "src/compas_cem/optimization/constraints/constraint.py", "src/compas_cem/equilibrium/force_numpy.py:static_equilibrium_numpy"]}
{"id": "C85", "title": "Names of nodes and the order of storage do not matter", "statement": "Give the nodes of a diagram other names, and store nodes and edges in another order and edges in either orientation. If the supports are stored in the same order and the degree condition of build_trails holds, build_trails has the same outcome, with trails, types and sequences that are the same up to names. If the diagram is valid and the trails are stored in the same order, static_equilibrium and static_equilibrium_numpy raise the same exception or return forms that are the same up to names, for every setting. With parameters and constraints renamed in the same way, the objective of the optimizer has the same value at every point, and Optimizer.solve with finite differences gives every numerical solver the same problem, sees the same points and reports the same numbers, with a form that is the same up to names; with automatic differentiation it does if the edges of direction constraints keep their orientation. If they do not, the derivative of a direction constraint can change its sign where the edge is perpendicular to the target. With indirect deviation edges another order of the trails can give another form.", "quantifier": "every valid diagram, renaming, order of storage, optimizer, setting and behaviour of the numerical solver", "why_tests_cant": "all renamings, orders and numerical solvers; relates two runs", "anchors": ["src/compas_cem/diagrams/topology/topology.py:build_trails", "src/compas_cem/equilibrium/force.py:static_equilibrium", "src/compas_cem/equilibrium/force_numpy.py:static_equilibrium_numpy", "src/compas_cem/optimization/optimizer.py:solve", "src/compas_cem/optimization/optimizer.py:_optimize_form", "src/compas_cem/optimization/constraints/direction.py"]}
{"id": "C86", "title": "The reported norm of the gradient is the steepest slope of the objective", "statement": "Optimizer.solve reports gradient_norm. With automatic differentiation, where in each sweep trail edges carry forces, no deviation edge has length zero, planes clearly are or are not used, form finding clearly stops and no constraint is at a kink, it is the largest slope that the objective has in any direction of the parameters at the optimum reported: every slope in a direction of length one is at most the norm, and one of them equals it. So if it is positive the objective falls in some direction at half that rate or more, and it is zero at every optimum strictly within the bounds. With finite differences it differs from the largest slope by at most C |step|. If the objective at the optimum is not a number, neither is the norm. Where a trail edge carries no force the norm means nothing: it can be 6 at an optimum strictly better than all other values of the parameter.", "quantifier": "every valid diagram, number of rounds, threshold, optimizer, list of constraints and behaviour of the numerical solver", "why_tests_cant": "slopes in infinitely many directions over the reals; all numerical solvers", "anchors": ["src/compas_cem/optimization/optimizer.py:solve", "src/compas_cem/optimization/optimizer.py:_optimize_form", "src/compas_cem/optimization/grad.py:grad_finite_differences"]}
{"id": "C87", "title": "The callback runs once for every trail edge in every sweep", "statement": "The callback of static_equilibrium and static_equilibrium_numpy is documented to run at every iteration. It runs once for every trail edge in every sweep, in static_equilibrium without the edges that begin in sequence kmax, until it raises, and what it raises comes out. The number of sweeps is tmax, or the first number, at least two, after which the nodes move less than the threshold; without indirect deviation edges it is two if the threshold is positive. A callback that does not change the diagram does not change the result. A callback of the numpy solver that changes the diagram, but no trails, nodes, edges, types and sequences, does not change what is computed: the numbers are written into a copy of the changed diagram. If it changes loads, each node of the returned form is out of balance by the change of its load. static_equilibrium with the same callback, at least three sweeps and no indirect deviation edges returns the form of the diagram with the changed loads.", "quantifier": "every valid diagram, callback, setting and state of the world", "why_tests_cant": "all callbacks; number of sweeps not bounded", "anchors": ["src/compas_cem/equilibrium/force.py:static_equilibrium", "src/compas_cem/equilibrium/force.py:equilibrium_state", "src/compas_cem/equilibrium/force_numpy.py:static_equilibrium_numpy", "src/compas_cem/equilibrium/force_numpy.py:equilibrium_state_numpy"]}
{"id": "C88", "title": "Symmetric problems have symmetric forms", "statement": "Call a problem symmetric if a rotation or reflection followed by a translation takes its nodes to nodes, trails to trails, edges to edges, loads to loads, planes to planes and first nodes of trails to first nodes of trails, with equal lengths of trail edges and forces of deviation edges; where the other nodes are drawn does not matter. Without indirect deviation edges the form that static_equilibrium returns, with any settings, is symmetric: the motion takes positions and reactions to those of the image nodes, and forces and lengths of edges and their images are equal. If no position needs itself, this holds for forms found with threshold zero. It holds for the forms of static_equilibrium_numpy too, as far as they have no NaN. Both follow from a stronger statement: two problems that are the same up to the names of nodes and the order of nodes, edges and trails have forms that are the same up to names. If positions need themselves it fails: there is a mirror-symmetric problem whose form is different on both sides, for every threshold that is not negative and every number of iterations from three on, because a node that comes later sees where its counterpart has just been placed.", "quantifier": "every valid diagram, motion, correspondence of nodes and setting", "why_tests_cant": "all motions and diagrams over the reals; relates a form to its own image", "anchors": ["src/compas_cem/equilibrium/force.py:static_equilibrium", "src/compas_cem/equilibrium/force.py:equilibrium_state", "src/compas_cem/equilibrium/force.py:node_equilibrium", "src/compas_cem/diagrams/topology/topology.py:trails"]}
{"id": "C89", "title": "Flat structures stay flat", "statement": "If the nodes of a diagram lie in a plane or in a line, and its loads and stored reactions point along it, the nodes and reactions of every form found lie in that plane or line, for any number of sweeps, threshold, sequence to stop at and planes of edges, with either solver, as far as the numpy solver returns numbers. For valid diagrams it is enough that the first nodes of the trails and the loads are there, wherever the other nodes are drawn. If the first nodes share a coordinate and no load has a component along it, and no parameter of an optimizer is such a coordinate or component, the form that Optimizer.solve returns shares the coordinate, whatever the numerical solver does. A plane in which one coordinate is constant is kept exactly in floating point arithmetic by both solvers: no rounding error moves a node out of it.", "quantifier": "every well-formed diagram, plane or line, setting, optimizer and behaviour of the numerical solver", "why_tests_cant": "all planes, lines and numerical solvers; number of sweeps not bounded", "anchors": ["src/compas_cem/equilibrium/force.py:static_equilibrium", "src/compas_cem/equilibrium/force.py:equilibrium_state", "src/compas_cem/equilibrium/force_numpy.py:static_equilibrium_numpy", "src/compas_cem/equilibrium/force_numpy.py:equilibrium_state_numpy", "src/compas_cem/optimization/optimizer.py:solve"]}
{"id": "C90", "title": "Bounds known before form finding", "statement": "However many sweeps are made, converged or not, a trail edge of a returned form carries at most the sum of the loads and of the forces of deviation edges at the nodes of its trail up to it, and a support reacts with at most this sum over its trail. If no trail edge has a plane, a node is at most as far from the first node of its trail as the prescribed lengths of the edges between them add up to; a plane can place it farther away. So for a diagram without planes all forms that can be found, with any settings, are bounded, and every sequence of them has a subsequence that approaches a form. If form finding succeeds with thresholds that tend to zero, with trail forces and lengths of deviation edges bounded away from zero, the problem has an exact equilibrium, and a subsequence of the forms approaches it; if the problem has no other equilibrium all of them do.", "quantifier": "every valid diagram, setting and sequence of settings", "why_tests_cant": "number of sweeps not bounded; compactness over the reals", "anchors": ["src/compas_cem/equilibrium/force.py:static_equilibrium", "src/compas_cem/equilibrium/force.py:equilibrium_state", "src/compas_cem/equilibrium/force.py:node_equilibrium"]}
{"id": "C91", "title": "A form of the numpy solver without NaN is a form of the plain equations", "statement": "static_equilibrium_numpy divides by lengths without asking whether they are zero, and lets NaN and infinity pass through. Whatever happened in the sweeps before, and whatever the settings, a form it returns has a NaN, or it is the form of some sweep of the plain solver, at most tmax. So all that is known of every form of the plain solver holds of it: nodes, loads, types, planes, first nodes of trails and deviation forces are those of the diagram, trail edges with force have their prescribed length and sign, trail edges without force have length zero, planes are reached, lengths are signed distances, and the bounds of trail forces, reactions and positions hold. Without indirect deviation edges it is in exact equilibrium, and it is the form that static_equilibrium returns, for all settings of either solver.", "quantifier": "every valid diagram, number of iterations, threshold and form without NaN", "why_tests_cant": "arithmetic with NaN and infinity over all reals; number of sweeps not bounded", "anchors": ["src/compas_cem/equilibrium/force_numpy.py:static_equilibrium_numpy", "src/compas_cem/equilibrium/force_numpy.py:equilibrium_state_numpy", "src/compas_cem/equilibrium/force_numpy.py:form_update", "src/compas_cem/equilibrium/force_numpy.py:normalize_vector_numpy"]}
{"id": "C92", "title": "When the numpy solver cannot return NaN", "statement": "Suppose that no trail edge has a plane, and that for every deviation edge the first nodes of the two trails it joins are farther apart than the prescribed lengths on the way to its two ends add up to. This can be checked before form finding. Then no sweep of static_equilibrium_numpy has a NaN or an infinity, all sweeps have the numbers of the plain solver, every form it returns consists of numbers and is balanced up to the threshold times the forces of indirect deviation edges, without the exception that the property on unconverged numpy forms has to make, it succeeds whenever static_equilibrium does, and no deviation edge of a form of either solver has length zero.", "quantifier": "every valid diagram whose deviation edges are kept apart, every setting", "why_tests_cant": "number of sweeps not bounded; arithmetic with NaN and infinity over all reals", "anchors": ["src/compas_cem/equilibrium/force_numpy.py:static_equilibrium_numpy", "src/compas_cem/equilibrium/force_numpy.py:equilibrium_state_numpy", "src/compas_cem/equilibrium/force_numpy.py:normalize_vector_numpy", "src/compas_cem/equilibrium/force.py:static_equilibrium"]}
{"id": "C93", "title": "When the optimizer cannot see NaN", "statement": "Suppose that no trail edge has a plane, that planes of constraints have a normal, and that directions are asked for deviation edges only. If with the values x of the parameters the first nodes of the trails that a deviation edge joins are farther apart than the prescribed lengths on the way to its ends, the objective of the optimizer at x raises or is a number, for every number of iterations and threshold. If all parameters are loads and forces, it is enough that the given diagram is like this: then the objective is not NaN at any point, whatever was written into the diagram before, finite differences with a non-zero step have no NaN, and solve reports neither a gradient nor a gradient norm that is NaN, whatever the numerical solver does. If in addition no force of a trail edge is asked for, and lengths of deviation edges only, the same holds for gradients by automatic differentiation. If the direction of a trail edge is asked for, the objective can be NaN; if the force of a trail edge is asked for, the gradient by automatic differentiation can be NaN where the objective is a number.", "quantifier": "every valid diagram whose deviation edges are kept apart, optimizer, point, setting and behaviour of the numerical solver", "why_tests_cant": "all points and numerical solvers; number of sweeps not bounded; arithmetic with NaN and infinity over all reals", "anchors": ["src/compas_cem/optimization/optimizer.py:_optimize_form", "src/compas_cem/optimization/optimizer.py:solve", "src/compas_cem/optimization/grad.py:grad_finite_differences", "src/compas_cem/optimization/constraints/constraint.py", "src/compas_cem/equilibrium/force_numpy.py:equilibrium_state_numpy"]}
