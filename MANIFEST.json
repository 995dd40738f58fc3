{
 "claims": [
  {
   "property": "C01",
   "status": "proved",
   "theorems": [
    "CEM.Props.C01_fresh_key",
    "CEM.Props.C01_readd_keeps_data",
    "CEM.Props.C01_fresh_keys_distinct"
   ],
   "note": ""
  },
  {
   "property": "C02",
   "status": "proved",
   "theorems": [
    "CEM.Props.C02_lookup_last_writer",
    "CEM.Props.C02_lookup_every_history"
   ],
   "note": "C02_lookup_last_writer computes the placements of histories without auxiliary trails; C02_lookup_every_history includes these, with one placement for each node on no walk."
  },
  {
   "property": "C03",
   "status": "partial",
   "theorems": [
    "CEM.Props.C03_moved_node_still_found",
    "CEM.Props.C03_claim_false",
    "CEM.Props.C03_move_partial"
   ],
   "note": "The claim is false for the code (C03_claim_false, C03_moved_node_still_found): the old position stays registered. C03_move_partial is what holds."
  },
  {
   "property": "C04",
   "status": "proved",
   "theorems": [
    "CEM.Props.C04_segments"
   ],
   "note": ""
  },
  {
   "property": "C05",
   "status": "proved",
   "theorems": [
    "CEM.Props.C05_add_edge",
    "CEM.Props.C05_readd_keeps_count",
    "CEM.Props.C05_unknown_key_raises"
   ],
   "note": ""
  },
  {
   "property": "C06",
   "status": "proved",
   "theorems": [
    "CEM.Props.C06_add_support",
    "CEM.Props.C06_add_load",
    "CEM.Props.C06_load_replaces",
    "CEM.Props.C06_errors"
   ],
   "note": ""
  },
  {
   "property": "C07",
   "status": "partial",
   "theorems": [
    "CEM.Props.C07_exists_int_always_true",
    "CEM.Props.C07_claim_false",
    "CEM.Props.C07_exists_point_partial"
   ],
   "note": "False for integer keys (C07_claim_false); proved for points (C07_exists_point_partial)."
  },
  {
   "property": "C08",
   "status": "proved",
   "theorems": [
    "CEM.Props.C08_walk_terminates",
    "CEM.Props.C08_build_trails_terminates",
    "CEM.Props.C08_build_trails_aux_terminates"
   ],
   "note": ""
  },
  {
   "property": "C09",
   "status": "proved",
   "theorems": [
    "CEM.Props.C09_trails_are_chains"
   ],
   "note": ""
  },
  {
   "property": "C10",
   "status": "proved",
   "theorems": [
    "CEM.Props.C10_trails_partition",
    "CEM.Props.C10_claim_false"
   ],
   "note": "Proved under the degree condition of the statement; C10_claim_false shows the condition is needed."
  },
  {
   "property": "C11",
   "status": "proved",
   "theorems": [
    "CEM.Props.C11_path_systems"
   ],
   "note": ""
  },
  {
   "property": "C12",
   "status": "proved",
   "theorems": [
    "CEM.Props.C12_frame",
    "CEM.Props.C12_success_only_if",
    "CEM.Props.C12_success_iff",
    "CEM.Props.C12_exact",
    "CEM.Props.C12_writes"
   ],
   "note": "C12_exact and C12_writes hold for every diagram, also with branching or closed trails and edges from a node to itself; the walks are those of Spec/Walks.lean."
  },
  {
   "property": "C13",
   "status": "proved",
   "theorems": [
    "CEM.Props.C13_idempotent",
    "CEM.Props.C13_isolated_support_rebuild_fails"
   ],
   "note": ""
  },
  {
   "property": "C14",
   "status": "proved",
   "theorems": [
    "CEM.Props.C14_aux_adds",
    "CEM.Props.C14_aux_succeeds",
    "CEM.Props.C14_aux_valid",
    "CEM.Props.C14_unsupported_path_loses_nodes",
    "CEM.Props.C14_unvisited",
    "CEM.Props.C14_isolated_support_raises"
   ],
   "note": "C14_unvisited: exactly the nodes on no walk get an auxiliary trail. Success for every diagram meeting the degree condition; C14_isolated_support_raises shows a diagram without it for which the call raises. Validity of the resulting trails if unreached nodes have no trail edges, C14_unsupported_path_loses_nodes shows this is needed."
  },
  {
   "property": "C15",
   "status": "partial",
   "theorems": [
    "CEM.Props.C15_claim_false",
    "CEM.Props.C15_rebuild_forgets",
    "CEM.Props.C15_same_iff"
   ],
   "note": "The claim is false for the code (C15_claim_false); C15_same_iff: it holds exactly when both calls add no auxiliary trail, C15_rebuild_forgets: when all nodes are reached the call forgets all auxiliary trails."
  },
  {
   "property": "C16",
   "status": "proved",
   "theorems": [
    "CEM.Props.C16_shift",
    "CEM.Props.C16_last_wins",
    "CEM.Props.C16_commute",
    "CEM.Props.C16_history",
    "CEM.Props.C16_errors"
   ],
   "note": ""
  },
  {
   "property": "C17",
   "status": "proved",
   "theorems": [
    "CEM.Props.C17_classification",
    "CEM.Props.C17_partition",
    "CEM.Props.C17_missing_sequence"
   ],
   "note": ""
  },
  {
   "property": "C18",
   "status": "proved",
   "theorems": [
    "CEM.Props.C18_no_nodes",
    "CEM.Props.C18_sequences"
   ],
   "note": ""
  },
  {
   "property": "C19",
   "status": "proved",
   "theorems": [
    "CEM.Props.C19_inverse"
   ],
   "note": ""
  },
  {
   "property": "C20",
   "status": "proved",
   "theorems": [
    "CEM.Props.C20_valid_of_history",
    "CEM.Props.C20_only_residual_error",
    "CEM.Props.C20_returns_without_indirect"
   ],
   "note": ""
  },
  {
   "property": "C21",
   "status": "proved",
   "theorems": [
    "CEM.Props.C21_nodal_equilibrium",
    "CEM.Props.C21_exact"
   ],
   "note": "C21_exact: with threshold zero the balance is exact, without further hypotheses."
  },
  {
   "property": "C22",
   "status": "proved",
   "theorems": [
    "CEM.Props.C22_exact_equilibrium"
   ],
   "note": ""
  },
  {
   "property": "C23",
   "status": "proved",
   "theorems": [
    "CEM.Props.C23_global_force",
    "CEM.Props.C23_global_force_bound"
   ],
   "note": ""
  },
  {
   "property": "C24",
   "status": "proved",
   "theorems": [
    "CEM.Props.C24_global_moment",
    "CEM.Props.C24_global_moment_bound"
   ],
   "note": ""
  },
  {
   "property": "C25",
   "status": "proved",
   "theorems": [
    "CEM.Props.C25_keeps_data"
   ],
   "note": ""
  },
  {
   "property": "C26",
   "status": "proved",
   "theorems": [
    "CEM.Props.C26_trail_length_sign",
    "CEM.Props.C26_zero_force"
   ],
   "note": ""
  },
  {
   "property": "C27",
   "status": "proved",
   "theorems": [
    "CEM.Props.C27_plane"
   ],
   "note": ""
  },
  {
   "property": "C28",
   "status": "partial",
   "theorems": [
    "CEM.Props.C28_sign_not_preserved",
    "CEM.Props.C28_sign_preserved_partial",
    "CEM.Props.C28_sign_iff",
    "CEM.Props.C28_unavoidable"
   ],
   "note": "The claim is false for the code (C28_sign_not_preserved): a plane on the other side turns the sign of the length. C28_sign_preserved_partial covers planes that are not used (parallel to the edge or through its first node). C28_sign_iff says exactly when the force is positive if the plane is used, and C28_unavoidable that the sign cannot be kept by any algorithm: there is a diagram all equilibria of which have the other sign."
  },
  {
   "property": "C29",
   "status": "proved",
   "theorems": [
    "CEM.Props.C29_signed_lengths",
    "CEM.Props.C29_real"
   ],
   "note": ""
  },
  {
   "property": "C30",
   "status": "proved",
   "theorems": [
    "CEM.Props.C30_converged",
    "CEM.Props.C30_not_converged",
    "CEM.Props.C30_raises",
    "CEM.Props.C30_negative_eta"
   ],
   "note": ""
  },
  {
   "property": "C31",
   "status": "partial",
   "theorems": [
    "CEM.Props.C31_kmax_partial",
    "CEM.Props.C31_kmax_last",
    "CEM.Props.C31_moved_beyond_kmax"
   ],
   "note": "The claim is false for the code (C31_moved_beyond_kmax): trails going on beyond kmax + 1 are still computed there. C31_kmax_partial and C31_kmax_last are what holds for the later nodes; for the nodes up to kmax see C60_kmax, C60_cut and C60_cut_bound."
  },
  {
   "property": "C32",
   "status": "proved",
   "theorems": [
    "CEM.Props.C32_determined"
   ],
   "note": ""
  },
  {
   "property": "C33",
   "status": "proved",
   "theorems": [
    "CEM.Props.C33_same_iterates",
    "CEM.Props.C33_numbers",
    "CEM.Props.C33_stops_no_later",
    "CEM.Props.C33_direct",
    "CEM.Props.C33_nan_silent",
    "CEM.Props.C33_staged",
    "CEM.Props.C33_acyclic",
    "CEM.Props.C33_each_sweep"
   ],
   "note": "C33_direct shows that outside the NaN condition of the statement the numpy solver returns NaN without raising (C33_nan_silent is a general family of such diagrams). C33_staged and C33_acyclic extend this to indirect deviation edges without feedback, with threshold zero: a NaN of an early sweep is overwritten, and only the final form decides. NaN is a single absorbing value in the model."
  },
  {
   "property": "C34",
   "status": "proved",
   "theorems": [
    "CEM.Props.C34_translation"
   ],
   "note": ""
  },
  {
   "property": "C35",
   "status": "proved",
   "theorems": [
    "CEM.Props.C35_load_scaling"
   ],
   "note": ""
  },
  {
   "property": "C36",
   "status": "proved",
   "theorems": [
    "CEM.Props.C36_registry",
    "CEM.Props.C36_order",
    "CEM.Props.C36_remove",
    "CEM.Props.C36_constraints",
    "CEM.Props.C36_vector",
    "CEM.Props.C36_proxy",
    "CEM.Props.C36_bounds_fail",
    "CEM.Props.OptEx.C36_remove_first_fails",
    "CEM.Props.OptEx.C36_replace_last_fails"
   ],
   "note": ""
  },
  {
   "property": "C37",
   "status": "proved",
   "theorems": [
    "CEM.Props.C37_bounds",
    "CEM.Props.C37_vector",
    "CEM.Props.C37_node_classes",
    "CEM.Props.C37_edge_classes"
   ],
   "note": ""
  },
  {
   "property": "C38",
   "status": "proved",
   "theorems": [
    "CEM.Props.C38_frame",
    "CEM.Props.C38_succeeds",
    "CEM.Props.C38_last",
    "CEM.Props.C38_read_back",
    "CEM.Props.OptEx.C38_failed_write_changes"
   ],
   "note": ""
  },
  {
   "property": "C39",
   "status": "proved",
   "theorems": [
    "CEM.Props.C39_constraint",
    "CEM.Props.C39_nonneg",
    "CEM.Props.C39_order",
    "CEM.Props.C39_zero"
   ],
   "note": ""
  },
  {
   "property": "C40",
   "status": "proved",
   "theorems": [
    "CEM.Props.C40_line",
    "CEM.Props.C40_plane",
    "CEM.Props.C40_plane_zero_normal",
    "CEM.Props.C40_polyline",
    "CEM.Props.C40_polyline_short"
   ],
   "note": ""
  },
  {
   "property": "C41",
   "status": "proved",
   "theorems": [
    "CEM.Props.C41_value",
    "CEM.Props.C41_range",
    "CEM.Props.C41_target",
    "CEM.Props.C41_edge",
    "CEM.Props.C41_zero",
    "CEM.Props.C41_largest",
    "CEM.Props.C41_zero_length"
   ],
   "note": ""
  },
  {
   "property": "C42",
   "status": "proved",
   "theorems": [
    "CEM.Props.C42_trace",
    "CEM.Props.C42_pure",
    "CEM.Props.C42_affine"
   ],
   "note": ""
  },
  {
   "property": "C43",
   "status": "partial",
   "theorems": [
    "CEM.Props.C43_agreeing",
    "CEM.Props.C43_determined",
    "CEM.Props.C43_realizes_iff",
    "CEM.Props.C43_last_call",
    "CEM.Props.C43_attributes",
    "CEM.Props.C43_status",
    "CEM.Props.C43_automatic_gradient",
    "CEM.Props.C43_realizes_partial",
    "CEM.Props.C43_claim_false"
   ],
   "note": "The claim is false for the code (C43_claim_false): the form belongs to the point at which the solver called the objective last, also if the solver returns an earlier, better point (C43_last_call). C43_realizes_partial covers solvers that return the last point, and the RoundoffLimited branch; C43_attributes describes what is reported. C43_realizes_iff says exactly when the form does realize a vector, the reported optimum for instance: if and only if it agrees with the last evaluated point in every entry that has an effect (over the reals, trail edges without planes and carrying force; C43_agreeing needs neither)."
  },
  {
   "property": "C44",
   "status": "proved",
   "theorems": [
    "CEM.Props.C44_not_started",
    "CEM.Props.C44_value_error",
    "CEM.Props.C44_unknown_algorithm"
   ],
   "note": "For an unknown algorithm the parameters must be readable, since the vectors are assembled first; if they are not, that error comes first (C36), also without touching the diagram (C44_not_started)."
  },
  {
   "property": "C45",
   "status": "partial",
   "theorems": [
    "CEM.Props.C45_text",
    "CEM.Props.C45_text_injective",
    "CEM.Props.C45_text_infinite",
    "CEM.Props.C45_parameter",
    "CEM.Props.C45_parameter_identical",
    "CEM.Props.C45_parameter_meaning",
    "CEM.Props.C45_classes",
    "CEM.Props.C45_list_key",
    "CEM.Props.C45_no_key",
    "CEM.Props.C45_float_constraint_partial",
    "CEM.Props.C45_large_weight",
    "CEM.Props.C45_vector_constraint",
    "CEM.Props.C45_plain_target",
    "CEM.Props.C45_infinite_target",
    "CEM.Props.C45_claim_false"
   ],
   "note": "False for infinite or NaN targets (C45_claim_false, C45_infinite_target): their text is no literal. C45_float_constraint_partial covers all keys and targets without them; C45_parameter* all parameters with bounds that are None, floats or integers equal to a float; C45_vector_constraint COMPAS targets (round trip of COMPAS objects assumed); C45_plain_target, C45_no_key, C45_list_key delimit. Python's float repr/parse round trip is assumed (Spec.FloatLaws)."
  },
  {
   "property": "C46",
   "status": "partial",
   "theorems": [
    "CEM.Props.C46_partition",
    "CEM.Props.C46_kinds",
    "CEM.Props.C46_two_supports_partial",
    "CEM.Props.C46_two_claim_false",
    "CEM.Props.C46_drop_depends_on_direction",
    "CEM.Props.C46_all",
    "CEM.Props.C46_diagram",
    "CEM.Props.C46_each_edge",
    "CEM.Props.C46_history",
    "CEM.Props.C46_three_vertices",
    "CEM.Props.C46_signs"
   ],
   "note": "The claim on polyedges between two supports is false with three vertices (C46_two_claim_false, C46_three_vertices: form finding then raises KeyError); C46_two_supports_partial covers all other cases. 'Along supports' means for the code that the second vertex is a support (Spec.AlongSupports), which depends on the direction of the polyedge (C46_drop_depends_on_direction). Partition, kinds, signs, stored data and history are proved in full."
  },
  {
   "property": "C47",
   "status": "proved",
   "theorems": [
    "CEM.Props.C47_rotation"
   ],
   "note": ""
  },
  {
   "property": "C48",
   "status": "proved",
   "theorems": [
    "CEM.Props.C48_enlargement"
   ],
   "note": ""
  },
  {
   "property": "C49",
   "status": "proved",
   "theorems": [
    "CEM.Props.C49_frame",
    "CEM.Props.C49_ready",
    "CEM.Props.C49_bounds"
   ],
   "note": "NLopt is an arbitrary well-founded run, automatic differentiation an arbitrary function on the copy of the diagram."
  },
  {
   "property": "C50",
   "status": "proved",
   "theorems": [
    "CEM.Props.C50_edges",
    "CEM.Props.C50_trails",
    "CEM.Props.C50_stale_origin",
    "CEM.Props.C50_connected",
    "CEM.Props.C50_both_directions",
    "CEM.Props.C50_trail_degree",
    "CEM.Props.C50_loaded",
    "CEM.Props.C50_add_load",
    "CEM.Props.C50_supported",
    "CEM.Props.C50_last_edge",
    "CEM.Props.C50_auxiliary",
    "CEM.Props.C50_direct_indirect",
    "CEM.Props.C50_text"
   ],
   "note": ""
  },
  {
   "property": "C51",
   "status": "proved",
   "theorems": [
    "CEM.Props.C51_range",
    "CEM.Props.C51_defined",
    "CEM.Props.C51_number",
    "CEM.Props.C51_no_edges",
    "CEM.Props.C51_same_widths",
    "CEM.Props.C51_agree",
    "CEM.Props.C51_refused"
   ],
   "note": ""
  },
  {
   "property": "C52",
   "status": "proved",
   "theorems": [
    "CEM.Props.C52_to_scale",
    "CEM.Props.C52_unshifted",
    "CEM.Props.C52_shifted",
    "CEM.Props.C52_negative_scale",
    "CEM.Props.C52_viewer",
    "CEM.Props.C52_loads",
    "CEM.Props.C52_shift_rule",
    "CEM.Props.C52_shift_dominant",
    "CEM.Props.C52_reactions",
    "CEM.Props.C52_isolated",
    "CEM.Props.C52_comment_wrong",
    "CEM.Props.C52_reaction_side",
    "CEM.Props.C52_found_form"
   ],
   "note": ""
  },
  {
   "property": "C53",
   "status": "proved",
   "theorems": [
    "CEM.Props.C53_type",
    "CEM.Props.C53_no_sequence",
    "CEM.Props.C53_untyped",
    "CEM.Props.C53_state",
    "CEM.Props.C53_form",
    "CEM.Props.C53_groups_topology",
    "CEM.Props.C53_groups_form",
    "CEM.Props.C53_group_kinds",
    "CEM.Props.C53_nodes"
   ],
   "note": ""
  },
  {
   "property": "C54",
   "status": "proved",
   "theorems": [
    "CEM.Props.C54_selection",
    "CEM.Props.C54_supports",
    "CEM.Props.C54_no_supports",
    "CEM.Props.C54_kinds",
    "CEM.Props.C54_trails"
   ],
   "note": ""
  },
  {
   "property": "C55",
   "status": "proved",
   "theorems": [
    "CEM.Props.C55_last_write",
    "CEM.Props.C55_points_lines",
    "CEM.Props.C55_hiding_nodes",
    "CEM.Props.C55_zero"
   ],
   "note": ""
  },
  {
   "property": "C56",
   "status": "proved",
   "theorems": [
    "CEM.Props.C56_history",
    "CEM.Props.C56_assembles",
    "CEM.Props.C56_missing_node",
    "CEM.Props.C56_of_points",
    "CEM.Props.C56_search",
    "CEM.Props.C56_edge_data",
    "CEM.Props.C56_reversed",
    "CEM.Props.C56_ready",
    "CEM.Props.C56_none_items"
   ],
   "note": ""
  },
  {
   "property": "C57",
   "status": "proved",
   "theorems": [
    "CEM.Props.C57_shift",
    "CEM.Props.C57_move",
    "CEM.Props.C57_move_not_found",
    "CEM.Props.C57_edge_results",
    "CEM.Props.C57_kmax",
    "CEM.Props.C57_form_finding",
    "CEM.Props.C57_idle",
    "CEM.Props.C57_constrained",
    "CEM.Props.C57_defaults"
   ],
   "note": ""
  },
  {
   "property": "C58",
   "status": "proved",
   "theorems": [
    "CEM.Props.C58_exact",
    "CEM.Props.C58_unique",
    "CEM.Props.C58_equilibrium",
    "CEM.Props.C58_solvable"
   ],
   "note": ""
  },
  {
   "property": "C59",
   "status": "proved",
   "theorems": [
    "CEM.Props.C59_load_path",
    "CEM.Props.C59_load_path_bound",
    "CEM.Props.C59_attributes"
   ],
   "note": ""
  },
  {
   "property": "C60",
   "status": "proved",
   "theorems": [
    "CEM.Props.C60_shared_part",
    "CEM.Props.C60_causality",
    "CEM.Props.C60_independent",
    "CEM.Props.C60_kmax",
    "CEM.Props.C60_cut",
    "CEM.Props.C60_cut_bound"
   ],
   "note": ""
  },
  {
   "property": "C61",
   "status": "proved",
   "theorems": [
    "CEM.Props.C61_balanced",
    "CEM.Props.C61_limit"
   ],
   "note": ""
  },
  {
   "property": "C62",
   "status": "partial",
   "theorems": [
    "CEM.Props.C62_connected",
    "CEM.Props.C62_met",
    "CEM.Props.C62_weight_partial",
    "CEM.Props.C62_zero_weight",
    "CEM.Props.C62_library_zero",
    "CEM.Props.C62_claim_false"
   ],
   "note": "The claim on weights is false at weight zero (C62_claim_false): the components replace it by one, so a constraint cannot be switched off by its weight (C62_zero_weight), unlike in the library (C62_library_zero). C62_weight_partial covers all other weights; C62_connected and C62_met are complete."
  },
  {
   "property": "C63",
   "status": "partial",
   "theorems": [
    "CEM.Props.C63_positions",
    "CEM.Props.C63_sequences",
    "CEM.Props.C63_node_types",
    "CEM.Props.C63_edges",
    "CEM.Props.C63_form_states",
    "CEM.Props.C63_unknown",
    "CEM.Props.C63_agree",
    "CEM.Props.C63_key_texts",
    "CEM.Props.C63_dictionary",
    "CEM.Props.C63_claim_false"
   ],
   "note": "False for dictionaries of texts (C63_claim_false: an edge missing in it is labelled with its first node only; C63_dictionary says what is shown in general), for the tag 'type' of nodes in the viewer (C63_node_types: AttributeError) and for states of forms in the viewer (C63_form_states: AttributeError). All other tags: C63_positions, C63_sequences, C63_node_types, C63_edges, C63_key_texts, C63_unknown, C63_agree. Numbers are formatted by an arbitrary function."
  },
  {
   "property": "C64",
   "status": "proved",
   "theorems": [
    "CEM.Props.C64_topology",
    "CEM.Props.C64_form",
    "CEM.Props.C64_missing",
    "CEM.Props.C64_negative",
    "CEM.Props.C64_claim_false"
   ],
   "note": "Validity is needed: C64_missing (no part is given before the trails are built), C64_negative and C64_claim_false (nodes of negative sequence, which shift_trail accepts, are in no listed sequence)."
  },
  {
   "property": "C65",
   "status": "proved",
   "theorems": [
    "CEM.Props.C65_returns",
    "CEM.Props.C65_unique",
    "CEM.Props.C65_equilibria",
    "CEM.Props.C65_solvable",
    "CEM.Props.C65_same",
    "CEM.Props.C65_acyclic",
    "CEM.Props.C65_feedback"
   ],
   "note": "C65_acyclic is the claim in terms of needs; C65_returns, C65_unique, C65_solvable, C65_same and C65_equilibria are the statements with stages. C65_feedback shows a valid problem with feedback that never settles: every run with threshold below 4 raises ValueError. acyclic_of_direct: diagrams without indirect edges are a special case."
  },
  {
   "property": "C66",
   "status": "proved",
   "theorems": [
    "CEM.Props.C66_round_trip",
    "CEM.Props.C66_file_injective",
    "CEM.Props.C66_form_file",
    "CEM.Props.C66_form",
    "CEM.Props.C66_agrees",
    "CEM.Props.C66_shift_fails",
    "CEM.Props.C66_rebuild",
    "CEM.Props.C66_proxy"
   ],
   "note": "The claim includes the defect: C66_shift_fails. C66_round_trip, C66_file_injective and C66_form_file are about the file, C66_form about the two solvers, C66_proxy about constrained form finding through the proxy, C66_rebuild about building trails again. C66_agrees: the model with arbitrary keys agrees with the main model. What COMPAS writes for nodes and edges is part of the trusted base. Automatic differentiation is assumed not to depend on the type of the trail keys."
  },
  {
   "property": "C67",
   "status": "proved",
   "theorems": [
    "CEM.Props.C67_form",
    "CEM.Props.C67_objective",
    "CEM.Props.C67_gradient",
    "CEM.Props.C67_solve",
    "CEM.Props.C67_live",
    "CEM.Props.C67_iff",
    "CEM.Props.C67_components"
   ],
   "note": "C67_form, C67_objective, C67_gradient and C67_solve: idle numbers have no effect. C67_live, C67_iff (over the reals): all others have one, if trail edges have no planes and carry force. kmax must be None. C67_components: the eight parameter components."
  },
  {
   "property": "C68",
   "status": "proved",
   "theorems": [
    "CEM.Props.C68_form",
    "CEM.Props.C68_complete",
    "CEM.Props.C68_unknown",
    "CEM.Props.C68_isolated",
    "CEM.Props.C68_topology",
    "CEM.Props.C68_zero"
   ],
   "note": "C68_form, C68_complete, C68_topology: what is drawn for every selection, minimum and scale (for reactions scales not negative). C68_unknown, C68_isolated: when nothing is drawn. C68_zero: zero as minimum or scale. What is drawn with selections without supports and with zero is hardly intended (DESIGN.md, section 5)."
  },
  {
   "property": "C69",
   "status": "proved",
   "theorems": [
    "CEM.Props.C69_converges",
    "CEM.Props.C69_near",
    "CEM.Props.C69_zero",
    "CEM.Props.C69_large"
   ],
   "note": "C69_converges: existence, uniqueness, convergence and error bound for small forces. C69_near: the equilibrium depends continuously on the forces. C69_zero: without forces the form to start from is found in two iterations. C69_large: a problem for which form finding fails with large forces. The size of the admitted forces is not computed. kmax is None."
  },
  {
   "property": "C70",
   "status": "proved",
   "theorems": [
    "CEM.Props.C70_direct",
    "CEM.Props.C70_acyclic",
    "CEM.Props.C70_equilibria",
    "CEM.Props.C70_jump"
   ],
   "note": "C70_direct: any settings, without indirect edges. C70_acyclic: threshold zero, if no position needs itself. C70_equilibria: any family of equilibria. Smooth means k times continuously differentiable (k up to analytic), parameters in any normed space. C70_jump: where trail edges carry no force the form may jump. Problems with feedback are left out (C69_near gives continuity in the forces of indirect edges). kmax is None."
  },
  {
   "property": "C71",
   "status": "proved",
   "theorems": [
    "CEM.Props.C71_smooth",
    "CEM.Props.C71_gradient",
    "CEM.Props.C71_order",
    "CEM.Props.C71_kink"
   ],
   "note": "C71_smooth: the objective near the point is a function as smooth as asked for. C71_gradient: the entries converge. C71_order: the error is of first order in the step. SmoothPoint lists the hypotheses (all eight kinds of constraints; for polylines the squared distance must be smooth near the node). C71_kink: an edge perpendicular to the direction asked for. Real arithmetic; rounding errors, which limit small steps in practice, are left out. Settles: no indirect deviation edge, or no feedback through the indirect ones with threshold zero. Feedback is left out."
  },
  {
   "property": "C72",
   "status": "proved",
   "theorems": [
    "CEM.Props.C72_binary",
    "CEM.Props.C72_exact",
    "CEM.Props.C72_returns",
    "CEM.Props.C72_returns_direct",
    "CEM.Props.C72_nodal",
    "CEM.Props.C72_direct",
    "CEM.Props.C72_total",
    "CEM.Props.C72_moment",
    "CEM.Props.C72_linear",
    "CEM.Props.C72_attained",
    "CEM.Props.C72_returns_staged",
    "CEM.Props.C72_zero",
    "CEM.Props.C72_acyclic"
   ],
   "note": "C72_nodal, C72_direct, C72_total, C72_moment: every arithmetic with Precise A u. C72_binary: rounding to p binary digits is one. C72_exact: exact operations give the model of all other theorems. C72_zero, C72_returns_staged, C72_acyclic: indirect edges with threshold zero. C72_attained: an error of u times the load occurs. No overflow, underflow or NaN; comparisons, changes of sign and copysign are exact, x**2 is one multiplication. The bound is on the imbalance of the returned form (exact statics of the rounded numbers); for the distance to the form of exact arithmetic see C73. force.py only; for the numpy solver see C77. The optimizer is left exact."
  },
  {
   "property": "C73",
   "status": "proved",
   "theorems": [
    "CEM.Props.C73_converges",
    "CEM.Props.C73_converges_direct",
    "CEM.Props.C73_border"
   ],
   "note": "C73_converges (no feedback, thresholds to zero), C73_converges_direct (no indirect edges, any thresholds); C73_border shows that the hypothesis on forces is needed. Limits only; there is no rate. Precision and limits as in C72. Problems with feedback are left out because the exact solver need not settle on them."
  },
  {
   "property": "C74",
   "status": "proved",
   "theorems": [
    "CEM.Props.C74_frame",
    "CEM.Props.C74_unbalanced",
    "CEM.Props.C74_needs_sequences",
    "CEM.Props.C74_branching"
   ],
   "note": "C74_frame and C74_needs_sequences for every well-formed diagram; C74_unbalanced for the node on no stored trail and C74_branching, a diagram that build_trails accepts. Edge lengths are the subject of C29."
  },
  {
   "property": "C75",
   "status": "proved",
   "theorems": [
    "CEM.Props.C75_backward",
    "CEM.Props.C75_direct",
    "CEM.Props.C75_acyclic",
    "CEM.Props.C75_threshold"
   ],
   "note": "C75_backward with indirect edges and any threshold, C75_direct and C75_acyclic for the algorithm on the other problem, C75_threshold for exact operations. If a plane is on the border between used and not used, the moved plane comes with the length that the edge has in the form."
  },
  {
   "property": "C76",
   "status": "proved",
   "theorems": [
    "CEM.Props.C76_rate",
    "CEM.Props.C76_rate_direct",
    "CEM.Props.C76_threshold",
    "CEM.Props.C76_binary",
    "CEM.Props.C76_attained",
    "CEM.Props.C76_proper"
   ],
   "note": "C76_rate with indirect edges, C76_rate_direct without, C76_threshold for exact operations, C76_binary for rounding to binary digits, C76_proper for the hypothesis of C75; C76_attained shows that the linear rate is best possible."
  },
  {
   "property": "C77",
   "status": "proved",
   "theorems": [
    "CEM.Props.C77_exact",
    "CEM.Props.C77_binary",
    "CEM.Props.C77_iterates",
    "CEM.Props.C77_returns",
    "CEM.Props.C77_nan",
    "CEM.Props.C77_nodal",
    "CEM.Props.C77_staged",
    "CEM.Props.C77_acyclic",
    "CEM.Props.C77_rate",
    "CEM.Props.C77_digits"
   ],
   "note": "C77_iterates, C77_nan, C77_returns, C77_nodal; C77_staged and C77_acyclic without feedback; C77_rate and C77_digits for the error. C77_exact: exact operations give the model of C33. C77_binary: rounding to p binary digits, with addition to zero exact, meets the hypotheses (numbers that already have p digits are added to zero without error). No overflow, underflow or infinite values."
  },
  {
   "property": "C78",
   "status": "partial",
   "theorems": [
    "CEM.Props.C78_nodal_partial",
    "CEM.Props.C78_unconverged",
    "CEM.Props.C78_claim_false"
   ],
   "note": "False (C78_claim_false): NaN compares false with the threshold, so the solver neither stops nor raises. C78_unconverged gives a valid problem whose positions never converge: the plain solver raises for every number of iterations, the numpy solver returns for every number of iterations and every threshold, with NaN after an even number and without NaN but out of balance after an odd number. C78_nodal_partial: without NaN one sweep before the last the claim holds; C77_nodal is the version with rounding."
  },
  {
   "property": "C79",
   "status": "proved",
   "theorems": [
    "CEM.Props.C79_stale",
    "CEM.Props.C79_objective",
    "CEM.Props.C79_gradient",
    "CEM.Props.C79_order"
   ],
   "note": "C79_objective: bound of the objective, proportional to the threshold, for all kinds of constraints. C79_gradient: the entries converge if the threshold is small against the step. C79_order: the error bound. C79_stale: a problem meeting these hypotheses whose gradient is zero for every step up to 1 below twice the threshold, while the slope is -1/4; the solver stops before the last node has heard of the change. SmoothPoint lists the hypotheses, as for C71, with threshold zero. Real arithmetic. Feedback is left out."
  },
  {
   "property": "C80",
   "status": "proved",
   "theorems": [
    "CEM.Props.C80_values",
    "CEM.Props.C80_raises",
    "CEM.Props.C80_gradient"
   ],
   "note": "C80_values: form finding, any field. C80_raises: the objective, any field. C80_gradient: the derivatives at a SmoothPoint, the hypotheses of C71. Autograd is not in the repository: that it applies the rules of differentiation to each operation is trusted; the model runs forward once for each entry where autograd runs backward once for all, which is the same in exact arithmetic. A NaN derivative of a number that does not depend on the entry is NaN in the model too. Feedback is left out."
  },
  {
   "property": "C81",
   "status": "proved",
   "theorems": [
    "CEM.Props.C81_smooth",
    "CEM.Props.C81_gradients",
    "CEM.Props.C81_order",
    "CEM.Props.C81_stale"
   ],
   "note": "ComputedPoint lists the hypotheses; Spec/Autodiff.lean states what a sweep at no kink is (Kinkless) and when form finding clearly stops (StopsAt), by AfterSweeps of the model without auxiliary data. C81_smooth: the objective. C81_gradients: automatic differentiation is exact, finite differences converge. C81_order: the error bound. C81_stale: the threshold that hides a parameter. Examples: two trails joined crosswise, so that positions need themselves, and the problem of C81_stale. Real arithmetic; autograd as for C80."
  },
  {
   "property": "C82",
   "status": "proved",
   "theorems": [
    "CEM.Props.C82_fixed",
    "CEM.Props.C82_reported",
    "CEM.Props.C82_start",
    "CEM.Props.C82_derivative"
   ],
   "note": "C82_fixed: the run, as a run on two functions (Spec/Play.lean: Plays); which there is one of (plays_unique). C82_reported: the reported gradient. C82_derivative: with C81, its entries are partial derivatives. C82_start: independence of the numbers given at the places of the parameters. Example: with the default settings a solver that stops where the gradient vanishes stops at the start of a problem whose exact objective has slope -1/4. Any field; C82_derivative for the reals."
  },
  {
   "property": "C83",
   "status": "proved",
   "theorems": [
    "CEM.Props.C83_value",
    "CEM.Props.C83_meets",
    "CEM.Props.C83_degenerate",
    "CEM.Props.C83_near"
   ],
   "note": "Spec/Meets.lean says when a form meets a constraint and what it misses it by, from the attributes of its nodes and edges alone. C83_value and C83_meets: without indirect deviation edges. C83_degenerate: why the hypothesis on edges is needed. C83_near: with indirect ones, at points that SmoothPoint (C71, C79) describes. Real arithmetic. Feedback is left out."
  },
  {
   "property": "C84",
   "status": "proved",
   "theorems": [
    "CEM.Props.C84_state_motions",
    "CEM.Props.C84_objective_motions",
    "CEM.Props.C84_solve_translation",
    "CEM.Props.C84_solve_rotation",
    "CEM.Props.C84_state_units",
    "CEM.Props.C84_objective_units",
    "CEM.Props.C84_solve_forces",
    "CEM.Props.C84_solve_lengths",
    "CEM.Props.C84_unit_matters",
    "CEM.Props.C84_autograd_motions",
    "CEM.Props.C84_ad_translation",
    "CEM.Props.C84_ad_rotation",
    "CEM.Props.C84_autograd_lengths",
    "CEM.Props.C84_ad_lengths",
    "CEM.Props.C84_autograd_forces",
    "CEM.Props.C84_ad_forces",
    "CEM.Props.C84_slack_gradient"
   ],
   "note": "Spec/Coordinates.lean rewrites problems, constraints and runs; transformations of diagrams as in C48 and C49. C84_state_motions, C84_objective_motions: numpy solver and objective under motions. C84_solve_translation, C84_solve_rotation: solve; two numerical solvers make related choices by SameChoices, for rotations one solver is enough. C84_state_units, C84_objective_units, C84_solve_forces, C84_solve_lengths: units. C84_unit_matters: the fixed thresholds. C84_autograd_motions, C84_ad_translation, C84_ad_rotation, C84_autograd_lengths, C84_ad_lengths, C84_autograd_forces, C84_ad_forces: the same for the model of automatic differentiation, where the hypotheses about gradients are proved; the unit of force needs Taut, no trail edge without force in any sweep. C84_slack_gradient: without it the derivative is not converted. In C84_solve_* the gradient functions of both problems are related by hypothesis, except that finite differences under motions need none. Exact arithmetic."
  },
  {
   "property": "C85",
   "status": "proved",
   "theorems": [
    "CEM.Props.C85_trails",
    "CEM.Props.C85_form",
    "CEM.Props.C85_numpy",
    "CEM.Props.C85_objective",
    "CEM.Props.C85_autograd",
    "CEM.Props.C85_solve_fd",
    "CEM.Props.C85_solve",
    "CEM.Props.C85_reversed_derivative",
    "CEM.Props.C85_order"
   ],
   "note": "Spec/Names.lean: SameUpToNames relates two diagrams by a renaming of nodes and edges, with any order of storage and either orientation of edges; SameOutcome, SameSolved, renameOptimizer. C85_trails: build_trails. C85_form, C85_numpy: both solvers. C85_objective, C85_autograd, C85_solve_fd, C85_solve: optimization, over the reals. The order of the trails (for build_trails: of the supports) is kept, since nodes are processed in this order. C85_order: with indirect deviation edges another order of the trails gives another form. C85_reversed_derivative shows why automatic differentiation needs the orientation of edges with direction constraints; it is about the penalty in a given state."
  },
  {
   "property": "C86",
   "status": "proved",
   "theorems": [
    "CEM.Props.C86_nan",
    "CEM.Props.C86_steepest",
    "CEM.Props.C86_optimal",
    "CEM.Props.C86_differences",
    "CEM.Props.C86_slack"
   ],
   "note": "Spec/Slope.lean: slopes along lines and the steepest of them, without the norm of the model. C86_steepest, C86_optimal, C86_differences, C86_nan. C86_slack: the norm at an optimum where a trail carries no force. ComputedPoint as in C81. The documentation of solve calls kappa a threshold for this norm; the code passes it to NLopt as the absolute tolerance of the objective, so that no theorem relates the two."
  },
  {
   "property": "C87",
   "status": "proved",
   "theorems": [
    "CEM.Props.C87_none",
    "CEM.Props.C87_calls",
    "CEM.Props.C87_edits",
    "CEM.Props.C87_direct",
    "CEM.Props.C87_loads",
    "CEM.Props.C87_live",
    "CEM.Props.C87_unbalanced"
   ],
   "note": "Model/Callback.lean: a callback as a function on the diagram and the rest of the world that may raise. Spec/Callback.lean: doing something n times, counting edges. C87_calls (plain solver, callbacks that leave the diagram alone), C87_direct (number of sweeps without indirect edges), C87_edits (numpy solver, callbacks that may change the diagram), C87_loads and C87_unbalanced (changed loads), C87_none (no callback). C87_live: the plain solver finds the form for loads set by the callback, when there are no indirect edges and at least three sweeps are allowed. What the plain solver returns when a callback changes anything else is modelled, but nothing is claimed about it. Callbacks that add or remove trails, nodes or edges are not modelled."
  },
  {
   "property": "C88",
   "status": "proved",
   "theorems": [
    "CEM.Props.C88_symmetric_numpy",
    "CEM.Props.C88_symmetric_numpy_acyclic",
    "CEM.Props.C88_names",
    "CEM.Props.C88_names_acyclic",
    "CEM.Props.C88_symmetric",
    "CEM.Props.C88_symmetric_acyclic",
    "CEM.Props.C88_feedback"
   ],
   "note": "Spec/Symmetry.lean: ProblemUpToNames (the same problem with other names, any order of storage, other drawn positions), carried (turned and moved), SymmetricProblem, FormUpToNames, SymmetricForm. C88_names, C88_symmetric: without indirect deviation edges, any settings. C88_names_acyclic, C88_symmetric_acyclic: no position needs itself, threshold zero. C88_feedback: a symmetric problem with feedback has a form that is not symmetric. Planes have to be taken to planes given by the same point and normal. C88_symmetric_numpy, C88_symmetric_numpy_acyclic: the forms of the numpy solver without NaN. static_equilibrium without kmax; over the reals."
  },
  {
   "property": "C89",
   "status": "proved",
   "theorems": [
    "CEM.Props.C89_flat",
    "CEM.Props.C89_flat_numpy",
    "CEM.Props.C89_origins",
    "CEM.Props.C89_optimized",
    "CEM.Props.C89_rounded",
    "CEM.Props.C89_rounded_numpy",
    "CEM.Props.C89_rounded_zero"
   ],
   "note": "Spec/Flat.lean: Directions (a set of vectors closed under sums and multiples), Flat, FlatNum (says nothing where a coordinate is NaN), FlatLoads, FlatOrigins. C89_flat and C89_flat_numpy: all nodes in the plane or line. C89_origins: only first nodes of trails and loads. C89_optimized: coordinate planes. These are in exact arithmetic. C89_rounded, C89_rounded_numpy and C89_rounded_zero: coordinate planes in any arithmetic with relative errors (Spec/Rounded.lean), exactly."
  },
  {
   "property": "C90",
   "status": "proved",
   "theorems": [
    "CEM.Props.C90_trail_force",
    "CEM.Props.C90_reaction",
    "CEM.Props.C90_reach",
    "CEM.Props.C90_bounded",
    "CEM.Props.C90_subsequence",
    "CEM.Props.C90_equilibrium",
    "CEM.Props.C90_converges",
    "CEM.Props.C90_plane_beyond"
   ],
   "note": "Spec/Reach.lean: deviationsAt, pushAt, pushes, lengthBetween, walked, NoPlanes. C90_trail_force, C90_reaction, C90_reach: the bounds, for static_equilibrium with kmax None. C90_plane_beyond: the distance bound fails with planes. C90_bounded, C90_subsequence, C90_equilibrium: bounded forms, subsequences, existence of an equilibrium. C90_converges: the whole sequence approaches a unique equilibrium. In contrast to C61 convergence is not assumed."
  },
  {
   "property": "C91",
   "status": "proved",
   "theorems": [
    "CEM.Props.C91_same",
    "CEM.Props.C91_sweep",
    "CEM.Props.C91_keeps_data",
    "CEM.Props.C91_trail_length_sign",
    "CEM.Props.C91_zero_force",
    "CEM.Props.C91_plane",
    "CEM.Props.C91_signed_lengths",
    "CEM.Props.C91_equilibrium",
    "CEM.Props.C91_trail_force",
    "CEM.Props.C91_reaction",
    "CEM.Props.C91_reach"
   ],
   "note": "C91_sweep: a returned form has a NaN or is the form of a sweep of the plain solver. C91_keeps_data, C91_trail_length_sign, C91_zero_force, C91_plane, C91_signed_lengths, C91_trail_force, C91_reaction, C91_reach for every returned form without NaN. C91_equilibrium, C91_same: without indirect deviation edges. What equilibrium is left with indirect ones is C78 and C92."
  },
  {
   "property": "C92",
   "status": "proved",
   "theorems": [
    "CEM.Props.C92_sweeps",
    "CEM.Props.C92_no_nan",
    "CEM.Props.C92_equilibrium",
    "CEM.Props.C92_returns",
    "CEM.Props.C92_apart"
   ],
   "note": "Spec/Apart.lean: KeptApart. C92_sweeps, C92_no_nan, C92_equilibrium, C92_returns, C92_apart. The condition is sufficient, not necessary; over the reals, so overflow is not modelled."
  },
  {
   "property": "C93",
   "status": "proved",
   "theorems": [
    "CEM.Props.C93_objective",
    "CEM.Props.C93_never",
    "CEM.Props.C93_differences",
    "CEM.Props.C93_reported",
    "CEM.Props.C93_autodiff",
    "CEM.Props.C93_reported_autodiff",
    "CEM.Props.C93_trail_direction",
    "CEM.Props.C93_slack_force"
   ],
   "note": "Spec/Numbers.lean: Measured, MeasuredSmoothly, ForceSlot. C93_objective, C93_never, C93_differences, C93_reported for the objective and finite differences; C93_autodiff, C93_reported_autodiff for automatic differentiation. C93_trail_direction and C93_slack_force show why directions and, for automatic differentiation, forces of trail edges are excluded."
  }
 ]
}