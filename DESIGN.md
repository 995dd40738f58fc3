# Formal model of compas_cem: design

The subject is the Python package in `/repo/src/compas_cem` (combinatorial
equilibrium modelling, CEM).  `properties.jsonl` lists what a user relies on,
`lean/Verif` holds a Lean 4 model of the code and the proofs, `MANIFEST.json`
links the two.

## 1. Layout

| path | content |
|---|---|
| `lean/Verif/Model/*.lean` | the model: one Lean definition per Python function or loop, each with file and lines |
| `lean/Verif/Spec/*.lean`  | small specification vocabulary, independent of the model's helper functions |
| `lean/Verif/Lemmas/*.lean` | helper lemmas |
| `lean/Verif/Props/*.lean` | the property theorems `Cnn_...` and, beside each, a concrete case meeting its hypotheses |
| `seeded/LOG.jsonl` | wrong programs tried and the theorems that caught them |

The specification files to read first are `Spec/WellFormed` (what every reachable
diagram satisfies), `Spec/Trails` (valid trails), `Spec/ValidInput` (ready for
form finding), `Spec/History` (histories of calls) and `Spec/Statics` (forces at
a node).

## 2. Modelling decisions

* **Numbers.** The combinatorial part of the model is generic in the number
  type.  Equilibrium theorems that need norms are about the reals.  Rounding is
  modelled for the two solvers only (C72, C73, C75-C77): `Model/Rounded` and
  `Model/RoundedNumpy` are the same solvers with arbitrary operations in place of
  the exact ones, and the theorems assume a bound on the relative error of each
  operation.  Overflow, underflow, infinite
  values and signed zero of binary floating point are not modelled.
  `copysign(a, b)` is `|a|` for `b >= 0` and `-|a|` for `b < 0`.  Examples are
  evaluated over the rationals, where a stand-in is used for the square root;
  theorems never use the stand-in.
* **Vectors** are a structure of three numbers; `normalize_vector` returns the
  vector itself when its length is zero (COMPAS behaviour).
* **NaN.** The numpy solver divides by zero without raising.  There a number or
  vector is `some v` or `none`, which stands for NaN, absorbs every operation and
  fails every comparison.  Infinite values arising from a division by zero are
  not told apart from NaN.
* **Dictionaries** are insertion ordered association lists, as in Python >= 3.7.
* **Exceptions** are values (`PyErr`); operations that mutate a diagram return
  the state *and* the outcome, so effects of failing calls are visible.
* **Graph.** `compas.datastructures.Graph` is external.  It is modelled by a
  node dictionary, one edge dictionary keyed by `(u, v)` in insertion order,
  and the largest key.  Adjacency and the order of `edges()` are derived from it.
* **Geometric keys.** `compas.utilities.geometric_key` is an arbitrary function
  from points to strings, so theorems hold for every rounding.
* **Lazy generators.** `support_nodes()` is consumed lazily by `build_trails`
  while node types change; the model re-reads the type at each step.
* **Set iteration order** (`unassigned`, `supports`) is an arbitrary
  permutation, quantified in the theorems.
* **Termination.** `while True` in `build_trails` is modelled with fuel and a
  separate theorem (C08) shows that the fuel never runs out.
* **External solvers.** One call of NLopt's `optimize` is an arbitrary
  well-founded tree of evaluations; in the theorems on
  `solve` automatic differentiation is an arbitrary function that may modify the
  copy of the diagram it is given.
* **Autograd** is not in the repository.  `Model/Autodiff.lean` (C80, C81) runs the
  objective on pairs of a value and a derivative, once for each entry, with the
  rules of differentiation for `+ - * /`, `dot`, `norm`, `abs` and powers.
  Trusted: autograd applies these rules, and its pass backwards finds what passes
  forwards find.  NaN is `none`, also where only the derivative is NaN.
  `closest_points_in_cloud_numpy` acts on values.
* **Texts** in serialization are lists of characters; `repr` and
  `ast.literal_eval` are modelled for `None`, integers, floats, tuples and lists.
* **Prints, timing** are not modelled. Callbacks are in Model/Callback.lean (C87); everywhere else the callback is `None`.

## 3. Properties: what is modelled and how it is proved

| id | modelled | method |
|---|---|---|
| C01-C07 | `add_node`, `node_key`, `node_exists`, `node_xyz`, `add_edge`, `add_support`, `add_load` | invariant by induction over histories of construction calls; refinement to a last-writer map; C03 and C07 are violated by the code: negation with a witness and a `_partial` theorem |
| C08-C15 | `build_trails` | fuel bound; closure of walks under trail adjacency; loop invariant over the node list; for diagrams without the degree condition a separate specification of the walks (`Spec/Walks.lean`), to which the search is shown to conform; C15 violated: witness and exact condition |
| C16 | `shift_trail` | frame lemmas, preservation of the validity predicate |
| C17-C19 | edge predicates, sequences, `trail_sequences` | case analysis, list lemmas |
| C20-C30 | `equilibrium_state`, `node_equilibrium`, `form_update` | refinement of the triple loop to a fold over a schedule, loop invariant of a sweep, real analysis for the error bound; C28 violated: witness |
| C31 | `kmax` | witness for the violation and a theorem up to sequence `kmax + 1` |
| C32 | two runs | induction on sequence number |
| C33 | `equilibrium_state_numpy` | simulation between the two sweeps; with indirect edges induction over stages, and NaN as the least element of an order for which a sweep is monotone |
| C34, C35, C47, C48 | two runs | one simulation theorem (`Lemmas/Simulation`) for maps of positions and forces, instantiated for translations, load scaling, orthogonal maps, enlargement |
| C36-C38 | optimizer registry, parameters | induction over histories, frame lemmas |
| C39-C41 | constraints | real analysis (closest points as minimizers) |
| C42 | `grad_finite_differences` | loop invariant, trace of evaluations |
| C43, C44, C49 | `Optimizer.solve` | induction over the tree of evaluations of an arbitrary solver; C43 violated: witness, `_partial`, and the exact condition under which the form realizes a vector |
| C45 | `data` getters and setters | recursive descent parser inverted by induction on values; violated for infinite targets |
| C46 | `from_dualquadmesh` | list lemmas, history of calls; violated for three vertices |
| C50 | counters and queries | permutation lemmas, counting |
| C51-C53 | widths, arrows, colours in plotter and viewer | loop invariants; real analysis for arrows; loop-carried variables in the state |
| C54, C55 | Grasshopper selections, viewer settings | filter lemmas; induction over assignments |
| C56, C57 | Grasshopper components | refinement to histories of calls; earlier theorems on form finding and optimization |
| C58 | the returned form is the only equilibrium | any equilibrium satisfies the recursion of the algorithm; induction along the sequences; `C58_exact`: with indirect edges and threshold zero the returned form is an equilibrium |
| C59 | Maxwell's load path theorem, bound of the total moment | sum of works of all nodal imbalances, exchange of sums |
| C60 | causality, independence of parts, `kmax` as a cut | induction along the sequences on a set of nodes closed under what it depends on |
| C61 | limits of forms found with thresholds tending to zero are equilibria | continuity of the nodal imbalance, the residual bound of C21 tends to zero; convergence is assumed, not proved; one example beside the theorem has varying thresholds and no indirect edges, a second one (Props/Exact) has an indirect edge but is a constant sequence with threshold zero |
| C62 | constraint components: when they make a constraint, what it asks for, how it is weighted | case analysis over the components and C39 |
| C63 | node and edge labels of plotters and viewer | loop lemma: labels are the mapped data of the items or the first error |
| C64 | the parts of diagrams and forms | partitions from C18, C50 and `ValidTrails`; C25 for forms |
| C65 | indirect edges that do not feed back are solved exactly | lexicographic induction on stage and sequence over two families of rounds (iterates, fixed states or equilibria); stages by counting needed nodes |
| C66 | diagrams read from JSON | the keys of trails are only labels: every loop commutes with an injective renaming of them; induction over the tree of NLopt calls for the proxy |
| C67 | which numbers of a diagram have an effect | relational: the first sweep overwrites idle positions before they are read (states agree on the nodes placed so far), later sweeps start from equal states; Carries.unique for finite differences |
| C68 | what the drawing components show | composition of C25, C52 and C54; lists of arrows by induction over the nodes; every node of a valid diagram has a trail edge |
| C69 | small forces in indirect deviation edges | one sweep as a problem driven by the forces of the indirect edges; Lipschitz bounds by induction over the sequences (products, unit vectors, plane intersections near a solution that is not degenerate); a sweep contracts by a quarter, Cauchy sequence, its limit is reproduced by a sweep; uniqueness and error bound by the same contraction |
| C70 | forms depend smoothly on the numbers of the problem | a returned form is reproduced by one more round; induction along the needs of the nodes (well founded): sums, products, unit vectors of nonzero vectors and plane intersections keep smoothness; signs and choices of planes stay the same nearby |
| C71 | finite difference gradients converge to the derivative of the objective | every number of the diagram is constant or a coordinate of the vector; C70 and C33 give the smooth state of the numpy solver; every penalty is a smooth function of it away from kinks; little-o and mean value inequality for the quotients, C42 for the loop |
| C72 | rounding errors stay where they are made | the solver with arbitrary operations (`Model/Rounded`), equal to the model for exact ones; the schedule lemmas hold for any operations; error of each vector operation, of sums of terms and of the direction of a trail edge; the vector passed on along a trail is the one the edge carries, so errors cancel except at the node |
| C73 | forms found with growing precision approach the exact form | limits of the rounded vector operations (`Lemmas/RoundedLimit`); the positions approach the settled ones by induction on the number of nodes needed; a form near a fixed point of a round, up to the threshold |
| C74 | form finding changes nothing away from the stored trails | invariant of one step of the sweep, carried through the loops; no assumption on the trails |
| C75 | a rounded form is the exact form of a nearby problem | loads take up the imbalances bounded by C72, lengths and planes are fitted to the form; error analysis of scalar products and plane intersections; uniqueness by C58 and C65 |
| C76 | the error of a form is proportional to precision and threshold | rates of convergence carried through every operation and along the order of needs; one factor by contradiction, from sequences |
| C77 | rounding with the numpy solver | relation to the rounded plain solver: every value is NaN or the same; sweeps by stages; rates of C76 |
| C78 | what the numpy solver returns has converged (false) | witness followed through all sweeps by induction; otherwise the bound of C30 from the last two sweeps |
| C79 | finite difference gradients and the convergence threshold | forms of nearby problems and small thresholds differ by a multiple of the threshold (induction over the order in which positions settle); penalties as smooth functions of finitely many readings of the form; witness followed through two sweeps |
| C80 | gradients by automatic differentiation | runs with and without derivatives in step; derivatives followed node by node through the sweeps of C71; orthogonality of the closest point for polylines |
| C81 | gradients of what form finding computes, any threshold, feedback included | derivatives followed through every sweep (induction over sweeps and nodes); the number of sweeps is locally constant by continuity of the movement |
| C82 | `solve`: what the numerical solver is given | side effects of objective and gradient cannot be noticed (frame of the parameter places); simulation of the run by a run on functions, by induction over the tree of evaluations |
| C83 | `solve`: objective and returned form | both solvers return the result of some sweep of one schedule, all sweeps agree without indirect edges; penalties characterised by distances (C40, C41); with indirect edges both results are close to the settled form (C79) |
| C84 | optimization in other coordinates and units | numpy solver and penalties commute with the transformation, step by step (as C48 for the plain solver); finite differences and bounds; automatic differentiation: values and derivatives of each step scale, the rule of normalisation of a zero vector is the exception; runs by induction over the tree of evaluations |
| C85 | names and order of storage | the schedule of nodes is renamed; sums over neighbours do not depend on their order; states correspond step by step, also with NaN and with derivatives; walks of `build_trails` have one way to go; runs by induction over the tree of evaluations |
| C86 | norm of the gradient | the gradient is the derivative (C81, C82); Cauchy-Schwarz for the bound, the direction of the gradient for equality; a slope that is not zero makes a point near by better |
| C87 | callbacks | the loop with a callback is the loop without, paired with a number of calls; one call for each node that has a next node, which are as many as trail edges |
| C88 | symmetric problems | the rounds of the renamed problem are rounds of the problem, and rounds that repeat are unique stage by stage; then C34 and C47 for the motion. Feedback: the sweeps of the counterexample computed for all numbers of sweeps |
| C89 | flat structures | invariant of the states of both solvers; other nodes are moved into the plane first, which C67 allows; C49 for what an optimization leaves of the diagram; in rounded arithmetic the same invariant for coordinate planes, where every operation that matters has the exact result zero |
| C90 | bounds of forms, convergent subsequences | triangle inequality by induction along the trail over the final sweep; compactness of a countable product of intervals; C61 for the limit |
| C91 | forms of the numpy solver without NaN | every entry of every sweep is NaN or the entry of the plain solver (C33), so a last sweep of numbers is a sweep of the plain solver, to which the theorems on forms made from a state apply |
| C92 | no NaN in the numpy solver | the bound of C90 in each sweep keeps the ends of deviation edges apart, so no division by zero occurs; induction over the sweeps |
| C93 | no NaN in the optimizer | C92 for the diagram with the values written; each kind of constraint maps numbers to a number; the condition does not read loads and forces |

Not expressible: floating point accuracy outside the two solvers, NLopt's
convergence, the pictures made by matplotlib, COMPAS View2 and Rhino.

## 4. What is modelled

| source | modelled | not modelled |
|---|---|---|
| `diagrams/diagram.py` | attributes and defaults, counters, node and edge queries, text | `edge_coordinates`-like COMPAS methods except where used |
| `diagrams/form.py`, `diagrams/mixins/*` | all | |
| `diagrams/topology/topology.py` | construction, `build_trails`, `shift_trail`, auxiliary trails, all predicates, sequences, counters, text | printing of warnings |
| `diagrams/topology/mesh_mixins.py` | `from_dualquadmesh` | `collect_polyedges` (COMPAS) |
| `elements`, `loads`, `supports` | keys, points, lengths, forces, planes as given | `data` of elements (COMPAS `Data`) |
| `equilibrium/force.py` | all | callbacks that add or remove trails, nodes or edges, timing, printing |
| `equilibrium/force_numpy.py` | all | callbacks that add or remove trails, nodes or edges, printing, dtype of arrays |
| `optimization/parameters`, `optimization/constraints` | all but `mesh.py` (not imported by the package) | |
| `optimization/optimizer.py`, `objective_func.py`, `nlopt.py`, `grad.py` | registries, vectors, bounds, penalty, `solve`, norm of the gradient, finite differences, the objective as autograd differentiates it | autograd itself, NLopt, printing, timing |
| `optimization/proxy.py` | filling the registries, what is returned | remote procedure calls |
| `plotters/formartist.py`, `plotters/topologyartist.py` | widths, colours, loads, reactions, text labels (number formatting is a parameter) | matplotlib |
| `viewers/*object.py` | widths, colours, groups, arrows, settings, text labels (number formatting is a parameter) | cylinders, COMPAS View2 |
| `ghpython/artists.py` | selections, loads, reactions, trails | Rhino geometry |
| `ghpython/components/*/code.py` | `EdgeTrail`, `EdgeDeviation`, `NodeLoad`, `NodeSupport`, `TopologyDiagram`, `SearchNodeKey`, `SearchEdgeKey`, `TrailsShift`, `OriginNodesMove`, `FormFinding`, `ConstrainedFormFinding`, `ResultsEdges`, `ResultsSupportNodes`, `DisassembleTopology`, `DisassembleForm`, the eight `Constraint*`, the eight `Parameter*`, `JSONExportDiagram`, `JSONImportTopology`, `JSONImportForm`, `ArtistForm`, `ArtistTopology` | messages, Rhino types, the remote call except for the keys of its diagram, `ArtistColors`, `Info`, `Proxy` |
| `plotters/proxy.py` | nothing | the file is imported by nothing, and its functions import `FormPlotter` and `TopologyPlotter`, which do not exist |
| `plotters/plotter.py`, `viewers/viewer.py`, `*/register.py`, `ghpython/install.py`, `ghpython/uninstall.py` | none | glue to external programs |

## 5. Where code and expectation differ

Each is proved as a theorem about the model with a concrete witness.

| behaviour of the code | theorem |
|---|---|
| Moving a node leaves its old position registered, so a point at the old place still finds the node | C03_claim_false |
| `node_exists` is true for every integer | C07_claim_false |
| Three trail edges at a node: trails overwrite each other | C10_claim_false |
| A support without edges makes `build_trails` succeed once and fail when called again | C13_isolated_support_rebuild_fails |
| `build_trails(True)` drops nodes of paths without support | C14_unsupported_path_loses_nodes |
| A second `build_trails(True)` forgets the auxiliary trails | C15_claim_false |
| `build_trails(True)` raises for a support without trail edges, for which `build_trails()` succeeds | C14_isolated_support_raises |
| A plane on the other side of the node turns the sign of a trail edge, against its documentation | C28_sign_not_preserved |
| `kmax` does not stop trails that go on beyond `kmax + 1` | C31_moved_beyond_kmax |
| The numpy solver returns NaN silently | C33_nan_silent |
| `remove_parameter` breaks the numbering: afterwards `solve` raises `IndexError` | C36_remove_first_fails, C36_replace_last_fails |
| A failed write of parameters leaves the diagram changed | C38_failed_write_changes |
| Zero plane normals and zero-length edges give NaN penalties | C40_plane_zero_normal, C41_zero_length |
| `solve` returns the form of the last evaluation, not of the optimum reported | C43_claim_false |
| Infinite targets, plain lists and missing keys do not survive serialization; list keys become tuples | C45_claim_false, C45_plain_target, C45_no_key, C45_list_key |
| A polyedge with three vertices between supports yields a trail of one node; a polyedge along a support is dropped or not depending on its direction | C46_three_vertices, C46_drop_depends_on_direction |
| Nodes keep type `_origin` after a rebuild | C50_stale_origin |
| `connected_edges` loses an edge if both directions are stored | C50_both_directions |
| A form without edges cannot be plotted | C51_no_edges |
| A node without edges keeps the plotter from drawing reactions; the rule for shifting arrows is not the one in the comment; a negative scale misplaces shifted arrows | C52_isolated, C52_comment_wrong, C52_negative_scale |
| Colours of untyped edges repeat the previous edge | C53_untyped |
| A diagram without supports is drawn with every node as support | C54_no_supports |
| Hiding nodes in the viewer hides the edges | C55_hiding_nodes |
| An edge is not found if its line is searched in the other direction | C56_reversed |
| A list of `None` supports counts as supports, and makes assembling fail | C56_none_items |
| Moving origins leaves the lookup of points behind, and moves nodes that are no origins | C57_move, C57_move_not_found |
| `tmax` and `eta` of constrained form finding are not used for the returned form; zero settings are replaced | C57_constrained, C57_defaults |
| Constraint components replace weight zero by one | C62_zero_weight |
| The viewer raises AttributeError for the node tag `type`, and for states of forms | C63_node_types, C63_form_states |
| An edge missing in a dictionary of texts, also if given in the other direction, is labelled with the key of its first node | C63_dictionary, C63_claim_false |
| A topology diagram without trails cannot be taken apart, and nodes of negative sequence are in no listed sequence | C64_missing, C64_negative |
| Form finding need not converge if indirect edges feed back: a valid problem in which two nodes jump forever | C65_feedback |
| After a topology diagram was saved to JSON and read, or came back from the proxy, no trail can be shifted or looked up by its key: the keys have become texts | C66_shift_fails |
| Parameters at places without effect are accepted without a word: an origin parameter on a node that starts no trail, a length parameter on a deviation edge, a force parameter on a trail edge | C67_objective, C67_solve, C67_components |
| In Grasshopper a minimum force of zero is replaced by 1/1000 and a scale of zero by one, so small loads cannot be asked for with zero; nodes selected without a support draw all nodes as supports; a node without edges keeps a form from being drawn | C68_zero, C68_form, C68_isolated |
| Where a trail edge carries no force, the returned form may jump with arbitrarily small changes of the loads; nothing warns of it | C70_jump |
| Where three trail edges meet at a node, `build_trails` succeeds but the stored trails miss a support; form finding then returns a form that is not in equilibrium there | C74_branching |
| A NaN in the positions makes the numpy solver skip both comparisons with the threshold; it can return a form without NaN that has not converged, where the plain solver raises | C78_unconverged |
| Optimizer.solve has 1e-6 as default both for the step of finite differences and for the convergence threshold; the solver can then stop before a change of a parameter has reached all nodes, and the gradient is zero where the objective has a slope | C79_stale |
| With any positive convergence threshold, the default one included, the gradient by automatic differentiation can be zero where the exact objective has a slope, because the solver stops before a parameter has reached all nodes | C81_stale |
| The objective can be NaN for a form that meets all constraints, because the objective is computed by the numpy solver, which divides by the length of deviation edges, and the form by the plain solver, which does not | C83_degenerate |
| Convergence thresholds and the step of finite differences are fixed numbers with units that the code does not convert: one problem in two units of length can be accepted in one and raise ValueError in the other | C84_unit_matters |
| The automatic derivative of a direction constraint depends on the orientation in which the edge was given where the edge is perpendicular to the target (the penalty does not) | C85_reversed_derivative |
| Where a trail edge carries no force, the numpy solver takes the resulting force itself for the direction of the edge, so that automatic differentiation returns a derivative with the wrong unit: the same number in every unit of force | C84_slack_gradient |
| With indirect deviation edges the form depends on the order in which the trails are stored, which is the order in which supports were added | C85_order |
| At an optimum where a trail edge carries no force `gradient_norm` can be far from zero | C86_slack |
| `kappa` is documented as a threshold for the norm of the gradient; the code passes it to NLopt as the absolute tolerance of the objective (`Problem.ftol`) | read in optimizer.py 169-171 and 232, nlopt.py 139-142 |
| `callback` is documented to run at every iteration; it runs once for every trail edge in every sweep, and in the numpy solver changes of the diagram have no effect on the computation but appear in the form, which then is out of balance | C87_calls, C87_edits, C87_loads, C87_unbalanced; C87_live for the other solver |
| with feedback between nodes the form of a mirror-symmetric problem need not be symmetric, since nodes of one sequence are placed one after the other and later ones use the new positions | C88_feedback; C88_symmetric and C88_symmetric_acyclic without feedback |

## 6. Trusted base

* Lean's kernel.
* The axioms listed below, all from Lean's standard library.  No axioms are added.
* The hand translation from Python in `Model/*.lean`, with the simplifications of
  section 2 and those stated beside the definitions.
* The behaviour of COMPAS 1.17 (`Graph`, `Network`, `Data`, `compas.geometry`,
  `compas.utilities`) as described in section 2 and in `Model/Vec`, `Model/Diagram`
  and `Model/Constraints`, since COMPAS is not part of the repository.
* For C66: `Network.data` writes the node, edge and adjacency dictionaries in order
  with `repr` keys and reads them back with `literal_eval`; JSON turns the integer
  keys of dictionaries among the attributes into texts and keeps everything else.
* Hypotheses that stand for facts about Python or COMPAS: `Spec.FloatLaws` (the
  text of a finite float denotes that float) and `GeoData` (COMPAS objects
  survive their own `data` round trip), both only in C45; `topology.copy()` gives an
  equal, independent diagram (C43, C44, C49).

### Axioms of each theorem

* **propext** (6 theorems): `C18_no_nodes`, `C55_zero`, `C63_claim_false`, `C63_dictionary`, `C63_unknown`, `C64_missing`.
* **Quot.sound, propext** (38 theorems): `C03_moved_node_still_found`, `C06_errors`, `C06_load_replaces`, `C07_claim_false`, `C07_exists_int_always_true`, `C17_classification`, `C43_attributes`, `C43_automatic_gradient`, `C44_not_started`, `C44_value_error`, `C45_plain_target`, `C45_text_infinite`, `C46_drop_depends_on_direction`, `C46_history`, `C50_last_edge`, `C51_agree`, `C51_no_edges`, `C51_number`, `C51_refused`, `C51_same_widths`, `C52_to_scale`, `C52_viewer`, `C53_group_kinds`, `C55_hiding_nodes`, `C55_last_write`, `C55_points_lines`, `C56_of_points`, `C56_reversed`, `C57_idle`, `C62_connected`, `C63_key_texts`, `C66_agrees`, `C66_file_injective`, `C66_form`, `C66_form_file`, `C66_rebuild`, `C80_values`, `C87_none`.
* **Classical.choice, Quot.sound, propext** (418 theorems): `C01_fresh_key`, `C01_fresh_keys_distinct`, `C01_readd_keeps_data`, `C02_lookup_every_history`, `C02_lookup_last_writer`, `C03_claim_false`, `C03_move_partial`, `C04_segments`, `C05_add_edge`, `C05_readd_keeps_count`, `C05_unknown_key_raises`, `C06_add_load`, `C06_add_support`, `C07_exists_point_partial`, `C08_build_trails_aux_terminates`, `C08_build_trails_terminates`, `C08_walk_terminates`, `C09_trails_are_chains`, `C10_claim_false`, `C10_trails_partition`, `C11_path_systems`, `C12_exact`, `C12_frame`, `C12_success_iff`, `C12_success_only_if`, `C12_writes`, `C13_idempotent`, `C13_isolated_support_rebuild_fails`, `C14_aux_adds`, `C14_aux_succeeds`, `C14_aux_valid`, `C14_isolated_support_raises`, `C14_unsupported_path_loses_nodes`, `C14_unvisited`, `C15_claim_false`, `C15_rebuild_forgets`, `C15_same_iff`, `C16_commute`, `C16_errors`, `C16_history`, `C16_last_wins`, `C16_shift`, `C17_missing_sequence`, `C17_partition`, `C18_sequences`, `C19_inverse`, `C20_only_residual_error`, `C20_returns_without_indirect`, `C20_valid_of_history`, `C21_exact`, `C21_nodal_equilibrium`, `C22_exact_equilibrium`, `C23_global_force`, `C23_global_force_bound`, `C24_global_moment`, `C24_global_moment_bound`, `C25_keeps_data`, `C26_trail_length_sign`, `C26_zero_force`, `C27_plane`, `C28_sign_iff`, `C28_sign_not_preserved`, `C28_sign_preserved_partial`, `C28_unavoidable`, `C29_real`, `C29_signed_lengths`, `C30_converged`, `C30_negative_eta`, `C30_not_converged`, `C30_raises`, `C31_kmax_last`, `C31_kmax_partial`, `C31_moved_beyond_kmax`, `C32_determined`, `C33_acyclic`, `C33_direct`, `C33_each_sweep`, `C33_nan_silent`, `C33_numbers`, `C33_same_iterates`, `C33_staged`, `C33_stops_no_later`, `C34_translation`, `C35_load_scaling`, `C36_bounds_fail`, `C36_constraints`, `C36_order`, `C36_proxy`, `C36_registry`, `C36_remove`, `C36_remove_first_fails`, `C36_replace_last_fails`, `C36_vector`, `C37_bounds`, `C37_edge_classes`, `C37_node_classes`, `C37_vector`, `C38_failed_write_changes`, `C38_frame`, `C38_last`, `C38_read_back`, `C38_succeeds`, `C39_constraint`, `C39_nonneg`, `C39_order`, `C39_zero`, `C40_line`, `C40_plane`, `C40_plane_zero_normal`, `C40_polyline`, `C40_polyline_short`, `C41_edge`, `C41_largest`, `C41_range`, `C41_target`, `C41_value`, `C41_zero`, `C41_zero_length`, `C42_affine`, `C42_pure`, `C42_trace`, `C43_agreeing`, `C43_claim_false`, `C43_determined`, `C43_last_call`, `C43_realizes_iff`, `C43_realizes_partial`, `C43_status`, `C44_unknown_algorithm`, `C45_claim_false`, `C45_classes`, `C45_float_constraint_partial`, `C45_infinite_target`, `C45_large_weight`, `C45_list_key`, `C45_no_key`, `C45_parameter`, `C45_parameter_identical`, `C45_parameter_meaning`, `C45_text`, `C45_text_injective`, `C45_vector_constraint`, `C46_all`, `C46_diagram`, `C46_each_edge`, `C46_kinds`, `C46_partition`, `C46_signs`, `C46_three_vertices`, `C46_two_claim_false`, `C46_two_supports_partial`, `C47_rotation`, `C48_enlargement`, `C49_bounds`, `C49_frame`, `C49_ready`, `C50_add_load`, `C50_auxiliary`, `C50_both_directions`, `C50_connected`, `C50_direct_indirect`, `C50_edges`, `C50_loaded`, `C50_stale_origin`, `C50_supported`, `C50_text`, `C50_trail_degree`, `C50_trails`, `C51_defined`, `C51_range`, `C52_comment_wrong`, `C52_found_form`, `C52_isolated`, `C52_loads`, `C52_negative_scale`, `C52_reaction_side`, `C52_reactions`, `C52_shift_dominant`, `C52_shift_rule`, `C52_shifted`, `C52_unshifted`, `C53_form`, `C53_groups_form`, `C53_groups_topology`, `C53_no_sequence`, `C53_nodes`, `C53_state`, `C53_type`, `C53_untyped`, `C54_kinds`, `C54_no_supports`, `C54_selection`, `C54_supports`, `C54_trails`, `C56_assembles`, `C56_edge_data`, `C56_history`, `C56_missing_node`, `C56_none_items`, `C56_ready`, `C56_search`, `C57_constrained`, `C57_defaults`, `C57_edge_results`, `C57_form_finding`, `C57_kmax`, `C57_move`, `C57_move_not_found`, `C57_shift`, `C58_equilibrium`, `C58_exact`, `C58_solvable`, `C58_unique`, `C59_attributes`, `C59_load_path`, `C59_load_path_bound`, `C60_causality`, `C60_cut`, `C60_cut_bound`, `C60_independent`, `C60_kmax`, `C60_shared_part`, `C61_balanced`, `C61_limit`, `C62_claim_false`, `C62_library_zero`, `C62_met`, `C62_weight_partial`, `C62_zero_weight`, `C63_agree`, `C63_edges`, `C63_form_states`, `C63_node_types`, `C63_positions`, `C63_sequences`, `C64_claim_false`, `C64_form`, `C64_negative`, `C64_topology`, `C65_acyclic`, `C65_equilibria`, `C65_feedback`, `C65_returns`, `C65_same`, `C65_solvable`, `C65_unique`, `C66_proxy`, `C66_round_trip`, `C66_shift_fails`, `C67_components`, `C67_form`, `C67_gradient`, `C67_iff`, `C67_live`, `C67_objective`, `C67_solve`, `C68_complete`, `C68_form`, `C68_isolated`, `C68_topology`, `C68_unknown`, `C68_zero`, `C69_converges`, `C69_large`, `C69_near`, `C69_zero`, `C70_acyclic`, `C70_direct`, `C70_equilibria`, `C70_jump`, `C71_gradient`, `C71_kink`, `C71_order`, `C71_smooth`, `C72_acyclic`, `C72_attained`, `C72_binary`, `C72_direct`, `C72_exact`, `C72_linear`, `C72_moment`, `C72_nodal`, `C72_returns`, `C72_returns_direct`, `C72_returns_staged`, `C72_total`, `C72_zero`, `C73_border`, `C73_converges`, `C73_converges_direct`, `C74_branching`, `C74_frame`, `C74_needs_sequences`, `C74_unbalanced`, `C75_acyclic`, `C75_backward`, `C75_direct`, `C75_threshold`, `C76_attained`, `C76_binary`, `C76_proper`, `C76_rate`, `C76_rate_direct`, `C76_threshold`, `C77_acyclic`, `C77_binary`, `C77_digits`, `C77_exact`, `C77_iterates`, `C77_nan`, `C77_nodal`, `C77_rate`, `C77_returns`, `C77_staged`, `C78_claim_false`, `C78_nodal_partial`, `C78_unconverged`, `C79_gradient`, `C79_objective`, `C79_order`, `C79_stale`, `C80_gradient`, `C80_raises`, `C81_gradients`, `C81_order`, `C81_smooth`, `C81_stale`, `C82_derivative`, `C82_fixed`, `C82_reported`, `C82_start`, `C83_degenerate`, `C83_meets`, `C83_near`, `C83_value`, `C84_ad_forces`, `C84_ad_lengths`, `C84_ad_rotation`, `C84_ad_translation`, `C84_autograd_forces`, `C84_autograd_lengths`, `C84_autograd_motions`, `C84_objective_motions`, `C84_objective_units`, `C84_slack_gradient`, `C84_solve_forces`, `C84_solve_lengths`, `C84_solve_rotation`, `C84_solve_translation`, `C84_state_motions`, `C84_state_units`, `C84_unit_matters`, `C85_autograd`, `C85_form`, `C85_numpy`, `C85_objective`, `C85_order`, `C85_reversed_derivative`, `C85_solve`, `C85_solve_fd`, `C85_trails`, `C86_differences`, `C86_nan`, `C86_optimal`, `C86_slack`, `C86_steepest`, `C87_calls`, `C87_direct`, `C87_edits`, `C87_live`, `C87_loads`, `C87_unbalanced`, `C88_feedback`, `C88_names`, `C88_names_acyclic`, `C88_symmetric`, `C88_symmetric_acyclic`, `C88_symmetric_numpy`, `C88_symmetric_numpy_acyclic`, `C89_flat`, `C89_flat_numpy`, `C89_optimized`, `C89_origins`, `C89_rounded`, `C89_rounded_numpy`, `C89_rounded_zero`, `C90_bounded`, `C90_converges`, `C90_equilibrium`, `C90_plane_beyond`, `C90_reach`, `C90_reaction`, `C90_subsequence`, `C90_trail_force`, `C91_equilibrium`, `C91_keeps_data`, `C91_plane`, `C91_reach`, `C91_reaction`, `C91_same`, `C91_signed_lengths`, `C91_sweep`, `C91_trail_force`, `C91_trail_length_sign`, `C91_zero_force`, `C92_apart`, `C92_equilibrium`, `C92_no_nan`, `C92_returns`, `C92_sweeps`, `C93_autodiff`, `C93_differences`, `C93_never`, `C93_objective`, `C93_reported`, `C93_reported_autodiff`, `C93_slack_force`, `C93_trail_direction`.

## Wrong programs (seeded/LOG.jsonl)

Each line records one edit of a model definition, made in a copy of the project
outside `/verif`, and the property theorems that no longer compile after it.

* *Failed* means that the proof of the theorem, or of a lemma it uses, no longer
  compiles. This does not by itself show that the statement has become false:
  a proof may break for other reasons. An empty list is the informative case:
  all theorems still hold, so none of them excludes the edit.
* An edit after which a **definition** does not compile says nothing about the
  theorems. Three early entries were of this kind. They are kept, marked as
  withdrawn and with an empty list, and repeated with well-formed edits.
* Control runs without any edit come first. The results of a run are used only
  if all theorems compile in all controls. An early run was discarded because
  one proof (`C56_ready`) failed in the controls too.
* Lean's limit of 100 errors per file is lifted in these runs. With the limit,
  edits that break many proofs looked as if they broke every theorem.
