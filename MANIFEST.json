{
 "claims": [
  {
   "property": "C01",
   "status": "proved",
   "theorems": [
    "Tomopt.C01.hits_follow_muons",
    "Tomopt.C01.one_row_per_muon"
   ],
   "note": "Induction over arbitrary operation histories of a batch with recordings of one row per muon present."
  },
  {
   "property": "C02",
   "status": "proved",
   "theorems": [
    "Tomopt.C02.muons_conserved",
    "Tomopt.C02.removed_never_back"
   ],
   "note": "Permutation of kept and removed muons over arbitrary histories."
  },
  {
   "property": "C03",
   "status": "proved",
   "theorems": [
    "Tomopt.C03.dthetaDphi_downward",
    "Tomopt.C03.dthetaXY_downward",
    "Tomopt.C99.stays_down"
   ],
   "note": "After either angular scattering every surviving muon points strictly down; so does every muon that comes out of a whole volume."
  },
  {
   "property": "C04",
   "status": "proved",
   "theorems": [
    "Tomopt.C04.scatter_direction"
   ],
   "note": "Reflection of negative theta and reduction modulo 2 pi give the direction of the unreduced angles."
  },
  {
   "property": "C05",
   "status": "proved",
   "theorems": [
    "Tomopt.C05.theta_phi_roundtrip",
    "Tomopt.C05.theta_xy_roundtrip",
    "Tomopt.C05.nan_iff",
    "Tomopt.C05.vertical_phi_lost",
    "Tomopt.C05.scatter_xy_row",
    "Tomopt.C05.zero_scatter_identity",
    "Tomopt.C05.zero_scatter_violated"
   ],
   "note": "Inverse laws off the vertical; the vertical case is refuted with a witness (a zero scatter drops vertical muons)."
  },
  {
   "property": "C06",
   "status": "proved",
   "theorems": [
    "Tomopt.C06.dz_line",
    "Tomopt.C06.d_line",
    "Tomopt.C06.propagateDz_twice",
    "Tomopt.C06.d_eq_dz"
   ],
   "note": "Exact straight line propagation, additivity."
  },
  {
   "property": "C07",
   "status": "proved",
   "theorems": [
    "Tomopt.C07.window_spec",
    "Tomopt.C07.window_split_x",
    "Tomopt.C07.exactly_one_cell"
   ],
   "note": "Half-open windows tile the plane."
  },
  {
   "property": "C08",
   "status": "proved",
   "theorems": [
    "Tomopt.C08.copy_independent",
    "Tomopt.C08.copy_value"
   ],
   "note": "Store model with addresses; any interleaving of operations on original, copy and the caller's tensor."
  },
  {
   "property": "C09",
   "status": "proved",
   "theorems": [
    "Tomopt.C09.get_hits_spec"
   ],
   "note": "get_hits on every reachable batch: error exactly when nothing is recorded, otherwise the recorded values."
  },
  {
   "property": "C10",
   "status": "proved",
   "theorems": [
    "Tomopt.C10.delivers",
    "Tomopt.C10.empty_layer_straight"
   ],
   "note": "Loop with a limit on passes; whenever it returns, for every material and every sequence of draws."
  },
  {
   "property": "C11",
   "status": "proved",
   "theorems": [
    "Tomopt.C11.empty_terminates",
    "Tomopt.C11.terminates"
   ],
   "note": "Explicit bound on the number of passes; with material under the stated progress condition (each pass lowers tracked muons by at least delta)."
  },
  {
   "property": "C12",
   "status": "proved",
   "theorems": [
    "Tomopt.C12.index_correct",
    "Tomopt.C12.lookup_correct",
    "Tomopt.C12.outside_not_scattered",
    "Tomopt.C12.pass_never_fails"
   ],
   "note": "Exact reals; half-open footprint."
  },
  {
   "property": "C62",
   "status": "partial",
   "theorems": [
    "Tomopt.C62.displacement_opposite_violated"
   ],
   "note": "Refuted: the code's displacement and deflection always have a negative scalar product (shared component), for every direction."
  },
  {
   "property": "C63",
   "status": "proved",
   "theorems": [
    "Tomopt.C63.displacement_transverse",
    "Tomopt.frame_orthonormal"
   ],
   "note": "Displacement orthogonal to the flight direction, length as drawn."
  },
  {
   "property": "C65",
   "status": "proved",
   "theorems": [
    "Tomopt.C65.deflected_direction"
   ],
   "note": "Resulting direction is a multiple of dir - tan a0 axis0 - tan a1 axis1, positive when that points down."
  },
  {
   "property": "C66",
   "status": "partial",
   "theorems": [
    "Tomopt.C66.past_horizontal_reversed_violated",
    "Tomopt.C66.past_horizontal_kept"
   ],
   "note": "Refuted: such a muon continues downwards in the opposite direction; a concrete kept muon is exhibited."
  },
  {
   "property": "C67",
   "status": "partial",
   "theorems": [
    "Tomopt.C67.angle_below_partial",
    "Tomopt.C67.angle_above_violated",
    "Tomopt.C67.wrong_sign_violated"
   ],
   "note": "Upper side proved; lower side refuted (no lower clamp)."
  },
  {
   "property": "C68",
   "status": "partial",
   "theorems": [
    "Tomopt.C68.early_exit_violated"
   ],
   "note": "Refuted with a concrete run through a layer of 100 steps that ends after one pass."
  },
  {
   "property": "C13",
   "status": "proved",
   "theorems": [
    "Tomopt.C13.layer_spec",
    "Tomopt.C13.layer_error",
    "Tomopt.C13.argsort_exists"
   ],
   "note": "Any number of panels, any batch; hits recorded top panel first at panel height."
  },
  {
   "property": "C14",
   "status": "proved",
   "theorems": [
    "Tomopt.C14.forward_spec"
   ],
   "note": "Induction over the list of layers."
  },
  {
   "property": "C15",
   "status": "partial",
   "theorems": [
    "Tomopt.C15.edges_spec",
    "Tomopt.C15.edges_misaligned_violated"
   ],
   "note": "Bijection when the block's bottom is a whole number of voxels above zero; otherwise refuted with a concrete volume (four rows for three layers)."
  },
  {
   "property": "C16",
   "status": "proved",
   "theorems": [
    "Tomopt.C16.lookup_correct",
    "Tomopt.C16.cube_correct",
    "Tomopt.C16.layer_agrees"
   ],
   "note": "Any block, any list of points in the half-open block."
  },
  {
   "property": "C17",
   "status": "partial",
   "theorems": [
    "Tomopt.C17.lookup_in_range_partial",
    "Tomopt.C17.high_face_violated"
   ],
   "note": "Points exactly on a high face are accepted with an index one past the end, for every block."
  },
  {
   "property": "C18",
   "status": "partial",
   "theorems": [
    "Tomopt.C18.argument_changed_violated",
    "Tomopt.C18.repeat_violated",
    "Tomopt.C18.bottom_zero_partial"
   ],
   "note": "Refuted for every block whose bottom is not at zero; holds when it is."
  },
  {
   "property": "C19",
   "status": "proved",
   "theorems": [
    "Tomopt.C19.budget_spent",
    "Tomopt.C19.cost_is_sum",
    "Tomopt.C19.no_panels_error"
   ],
   "note": "With a budget the panel costs add up to it; without one the cost of the volume is the sum over all panels."
  },
  {
   "property": "C20",
   "status": "proved",
   "theorems": [
    "Tomopt.C20.shares_in_order",
    "Tomopt.C20.constructed_budgeted"
   ],
   "note": "Shares consumed in order, one each, none left."
  },
  {
   "property": "C21",
   "status": "proved",
   "theorems": [
    "Tomopt.C21.panel_budget",
    "Tomopt.C21.panel_no_budget",
    "Tomopt.C21.fresh_nominal",
    "Tomopt.C21.reassign"
   ],
   "note": "Aspect ratio preserved, cost equals share; reassigning depends on the last share only."
  },
  {
   "property": "C22",
   "status": "proved",
   "theorems": [
    "Tomopt.C22.conform_spec"
   ],
   "note": "Every panel of a layer after conforming, idempotent bounds."
  },
  {
   "property": "C23",
   "status": "proved",
   "theorems": [
    "Tomopt.C23.made_valid",
    "Tomopt.C23.resolution_training",
    "Tomopt.C23.efficiency_training",
    "Tomopt.C23.realistic_response"
   ],
   "note": "All points, both panel types."
  },
  {
   "property": "C24",
   "status": "proved",
   "theorems": [
    "Tomopt.C24.hits_on_panel",
    "Tomopt.C24.hits_training"
   ],
   "note": "Any noise."
  },
  {
   "property": "C25",
   "status": "proved",
   "theorems": [
    "Tomopt.C25.sigmoid_response",
    "Tomopt.C25.edge_value",
    "Tomopt.C25.smoothness_checked"
   ],
   "note": "The documented value one half at the edge is refuted by edge_value."
  },
  {
   "property": "C64",
   "status": "proved",
   "theorems": [
    "Tomopt.C64.construction"
   ],
   "note": "Construction succeeds exactly when the layers agree."
  },
  {
   "property": "C26",
   "status": "proved",
   "theorems": [
    "Tomopt.C26.fit_minimises",
    "Tomopt.C26.few_heights_nan",
    "Tomopt.C26.trajectory_spec",
    "Tomopt.C26.exact_line",
    "Tomopt.C26.too_few",
    "Tomopt.C26.infinite_unc_ignored"
   ],
   "note": "Any number of hits and positive uncertainties; degenerate fits give NaN."
  },
  {
   "property": "C27",
   "status": "proved",
   "theorems": [
    "Tomopt.C27.poca_midpoint",
    "Tomopt.C27.poca_intersection",
    "Tomopt.C27.coefs_solve",
    "Tomopt.C27.singular_iff",
    "Tomopt.C27.dxy_spec",
    "Tomopt.C27.kept_not_parallel",
    "Tomopt.C27.batch_never_singular"
   ],
   "note": "All pairs of lines; whole batch after filtering."
  },
  {
   "property": "C28",
   "status": "proved",
   "theorems": [
    "Tomopt.C28.angles",
    "Tomopt.C28.zero_nan",
    "Tomopt.C28.theta_xy"
   ],
   "note": "All track vectors."
  },
  {
   "property": "C29",
   "status": "proved",
   "theorems": [
    "Tomopt.C29.dtheta_xy",
    "Tomopt.C29.msc_is_angle",
    "Tomopt.C29.msc_zero_iff",
    "Tomopt.C29.msc_symm",
    "Tomopt.C29.msc_scale",
    "Tomopt.C29.msc_from_angles"
   ],
   "note": "All pairs of track vectors."
  },
  {
   "property": "C30",
   "status": "proved",
   "theorems": [
    "Tomopt.C30.decomposition",
    "Tomopt.C30.smallest"
   ],
   "note": "All pairs of directions, any tie break."
  },
  {
   "property": "C31",
   "status": "proved",
   "theorems": [
    "Tomopt.C31.mask_spec"
   ],
   "note": "All locations."
  },
  {
   "property": "C32",
   "status": "partial",
   "theorems": [
    "Tomopt.C32.filter_spec_partial",
    "Tomopt.C32.kept_iff",
    "Tomopt.C32.mask_iff",
    "Tomopt.C32.single_violated",
    "Tomopt.C32.single_violated_example"
   ],
   "note": "Proved for every batch size except one; a batch of a single muon that is to be dropped raises, which is proved."
  },
  {
   "property": "C33",
   "status": "proved",
   "theorems": [
    "Tomopt.C33.right_panels"
   ],
   "note": "Any numbers of panels above and below, both scatter batch classes."
  },
  {
   "property": "C70",
   "status": "proved",
   "theorems": [
    "Tomopt.C70.entry_exit",
    "Tomopt.C70.horizontal_none"
   ],
   "note": "All tracks and height ranges."
  },
  {
   "property": "C34",
   "status": "proved",
   "theorems": [
    "Tomopt.C34.group",
    "Tomopt.C34.batch",
    "Tomopt.C34.bounds",
    "Tomopt.C34.mono",
    "Tomopt.C34.too_few"
   ],
   "note": "Sum over all firing patterns of any number of panels; fewer than two panels raise."
  },
  {
   "property": "C35",
   "status": "proved",
   "theorems": [
    "Tomopt.C35.history",
    "Tomopt.C35.panel_history",
    "Tomopt.C35.failed_efficiency_violated"
   ],
   "note": "All histories. Where a user-supplied efficiency raises, later answers differ from first ones: proved as a violation; the panel inferrer cannot get there."
  },
  {
   "property": "C36",
   "status": "proved",
   "theorems": [
    "Tomopt.C36.kept_muons",
    "Tomopt.C36.kept_iff"
   ],
   "note": "Any batches and any pattern of non-finite values."
  },
  {
   "property": "C37",
   "status": "proved",
   "theorems": [
    "Tomopt.C37.mean_bounds",
    "Tomopt.C37.rms_bounds",
    "Tomopt.C37.scale",
    "Tomopt.C37.zero_weights",
    "Tomopt.C37.prediction_positive",
    "Tomopt.C37.no_muons"
   ],
   "note": "All data and weights; also: predictions are finite and positive for muons that pass the filter."
  },
  {
   "property": "C38",
   "status": "proved",
   "theorems": [
    "Tomopt.C38.inverts",
    "Tomopt.C38.with_log",
    "Tomopt.C38.voxel_inverts"
   ],
   "note": "Exact inverse of the first-order formula; with_log gives the exact bias against the simulated angle."
  },
  {
   "property": "C39",
   "status": "proved",
   "theorems": [
    "Tomopt.C39.probs_zxy",
    "Tomopt.C39.preds_zxy",
    "Tomopt.C39.shape_error"
   ],
   "note": "Every block of voxels."
  },
  {
   "property": "C71",
   "status": "proved",
   "theorems": [
    "Tomopt.C71.total",
    "Tomopt.C71.each"
   ],
   "note": "Every grid and distribution."
  },
  {
   "property": "C69",
   "status": "partial",
   "theorems": [
    "Tomopt.C69.conform_partial",
    "Tomopt.C69.outside_footprint_violated",
    "Tomopt.C69.collapse_violated",
    "Tomopt.C69.efficiency_bounds",
    "Tomopt.C69.resolution_violated",
    "Tomopt.C69.square_span_error"
   ],
   "note": "Height, scale and efficiency bounds hold; footprint, non-movement and the resolution bound are refuted with witnesses."
  },
  {
   "property": "C40",
   "status": "partial",
   "theorems": [
    "Tomopt.C40.train_rounds",
    "Tomopt.C40.batch_round",
    "Tomopt.C40.valid_scan",
    "Tomopt.C40.valid_leftover_violated"
   ],
   "note": "Training: one update per full batch, leftover volumes unused, for every world of callbacks and primitives that does not raise. Validation also drops leftover volumes, which contradicts the claim that every volume is scanned (witness valid_leftover_violated)."
  },
  {
   "property": "C41",
   "status": "proved",
   "theorems": [
    "Tomopt.C41.fit_trace",
    "Tomopt.C41.fit_trace_error",
    "Tomopt.C41.predict_trace",
    "Tomopt.C41.all_epochs",
    "Tomopt.C41.fit_ends"
   ],
   "note": "The log of every run (of an arbitrary world) is exactly the specified sequence of events, also when it is cut short by an exception."
  },
  {
   "property": "C42",
   "status": "proved",
   "theorems": [
    "Tomopt.C40.train_rounds",
    "Tomopt.C40.batch_round"
   ],
   "note": "Losses are summed over the batch, divided by its size, and one backward pass and step follow unless the loss is absent or steps are skipped."
  },
  {
   "property": "C43",
   "status": "partial",
   "theorems": [
    "Tomopt.C43.fit_clean",
    "Tomopt.C43.predict_clean",
    "Tomopt.C43.fit_mkdir_violated",
    "Tomopt.C43.predict_shuffle_violated"
   ],
   "note": "fit_params is removed however the loop ends; failing to create the callback folder leaves it set, and an exception in predict leaves the shuffle flag of the passives off."
  },
  {
   "property": "C44",
   "status": "partial",
   "theorems": [
    "Tomopt.C44.roundtrip_partial",
    "Tomopt.C44.scale_after_forward",
    "Tomopt.C44.scale_violated",
    "Tomopt.C44.name_violated",
    "Tomopt.C44.clash_violated",
    "Tomopt.C44.missing_error"
   ],
   "note": "Parameters and optimiser states return for optimisers whose names contain _opt; panel scales are stale until the next pass of muons, other optimiser names are not restored, an optimiser called volume destroys the file."
  },
  {
   "property": "C45",
   "status": "proved",
   "theorems": [
    "Tomopt.C45.freeze",
    "Tomopt.C45.turns",
    "Tomopt.C45.one_active"
   ],
   "note": "Every list of warm-ups (also with n_i = 0) and every number of epochs."
  },
  {
   "property": "C46",
   "status": "partial",
   "theorems": [
    "Tomopt.C46.no_warmups",
    "Tomopt.C46.on_time_partial",
    "Tomopt.C46.late_violated"
   ],
   "note": "Holds when the callback is listed after a warm-up; listed before all warm-ups it starts one epoch late (late_violated)."
  },
  {
   "property": "C47",
   "status": "partial",
   "theorems": [
    "Tomopt.C47.range",
    "Tomopt.C47.warm_phase",
    "Tomopt.C47.converge_phase",
    "Tomopt.C47.warm_rises_partial",
    "Tomopt.C47.converge_rises_violated",
    "Tomopt.C47.extra_epoch_violated",
    "Tomopt.C47.zero_length_error",
    "Tomopt.C47.late_activation_error"
   ],
   "note": "The rate stays in range and the first phase interpolates from initial to mid; the second phase runs from final to mid instead of mid to final, the first phase lasts one epoch too long, length zero divides by zero."
  },
  {
   "property": "C48",
   "status": "proved",
   "theorems": [
    "Tomopt.C48.limited",
    "Tomopt.C48.after_conform",
    "Tomopt.C48.negative_limit_violated"
   ],
   "note": "For non-negative maxima; a negative maximum is accepted and reverses steps (negative_limit_violated)."
  },
  {
   "property": "C49",
   "status": "partial",
   "theorems": [
    "Tomopt.C49.centred",
    "Tomopt.C49.independent",
    "Tomopt.C49.shared_violated",
    "Tomopt.C49.factor_violated",
    "Tomopt.C49.other_error"
   ],
   "note": "All panels share the mean; the code gives them one shared tensor, so later steps add up (shared_violated, factor_violated); with separate tensors they would be independent."
  },
  {
   "property": "C50",
   "status": "proved",
   "theorems": [
    "Tomopt.C50.no_nan",
    "Tomopt.C50.returns",
    "Tomopt.C50.none_grad_error"
   ],
   "note": "Every gradient; a parameter without gradient raises (none_grad_error)."
  },
  {
   "property": "C52",
   "status": "proved",
   "theorems": [
    "Tomopt.C52.penalty",
    "Tomopt.C52.steep_linear",
    "Tomopt.C52.steep_smooth",
    "Tomopt.C52.no_budget",
    "Tomopt.C52.zero_budget_violated"
   ],
   "note": "Every positive budget and smoothing; budget zero gives infinities or NaN."
  },
  {
   "property": "C53",
   "status": "partial",
   "theorems": [
    "Tomopt.C53.col_rows",
    "Tomopt.C53.single_rows",
    "Tomopt.C53.row_eq",
    "Tomopt.C53.zero_iff",
    "Tomopt.C53.le_one",
    "Tomopt.C53.further_is_worse",
    "Tomopt.C53.flat_targets_violated",
    "Tomopt.C53.flat_targets_error",
    "Tomopt.C53.single_class_violated",
    "Tomopt.C53.flat_weight_violated",
    "Tomopt.C53.reductions"
   ],
   "note": "Holds for (N,1) targets and at least two classes; documented (N,) targets and weights broadcast wrongly, one class gives NaN."
  },
  {
   "property": "C54",
   "status": "partial",
   "theorems": [
    "Tomopt.C54.own_class",
    "Tomopt.C54.class_targets",
    "Tomopt.C54.loss_targets_partial",
    "Tomopt.C54.interference_violated",
    "Tomopt.C54.back",
    "Tomopt.C54.unknown_error"
   ],
   "note": "The utility function is right for every table; the in-place loop of the losses is right when no class id equals a later X0 (witness otherwise)."
  },
  {
   "property": "C73",
   "status": "partial",
   "theorems": [
    "Tomopt.C73.schedule",
    "Tomopt.C73.geo_mono",
    "Tomopt.C73.single_epoch_violated"
   ],
   "note": "Every training of at least two epochs; in a single epoch the final value is never reached."
  },
  {
   "property": "C74",
   "status": "proved",
   "theorems": [
    "Tomopt.C74.coef",
    "Tomopt.C74.frozen",
    "Tomopt.C74.components",
    "Tomopt.C74.balanced",
    "Tomopt.C74.order_matters",
    "Tomopt.C74.mse_spec"
   ],
   "note": "Every history."
  },
  {
   "property": "C55",
   "status": "partial",
   "theorems": [
    "Tomopt.C55.inside",
    "Tomopt.C55.random_size",
    "Tomopt.C55.fixed_size",
    "Tomopt.C55.loaded",
    "Tomopt.C55.present_partial",
    "Tomopt.C55.random_block",
    "Tomopt.C55.target",
    "Tomopt.C55.present_target",
    "Tomopt.C55.thin_violated",
    "Tomopt.C55.layers_violated",
    "Tomopt.C55.large_violated",
    "Tomopt.C55.one_material_violated",
    "Tomopt.C55.ends",
    "Tomopt.C55.size_error",
    "Tomopt.C55.voxels"
   ],
   "note": "Full for random sizes and blocks at least one voxel thick; thin fixed blocks vanish, fixed blocks may exceed the volume, layers are picked by their tops, a single material never ends (witnesses)."
  },
  {
   "property": "C56",
   "status": "partial",
   "theorems": [
    "Tomopt.C56.each_once",
    "Tomopt.C56.len_list",
    "Tomopt.C56.generated",
    "Tomopt.C56.missing_error",
    "Tomopt.C56.callers_list_violated",
    "Tomopt.C56.negative_error"
   ],
   "note": "Every list and every permutation drawn; the caller's own list is permuted in place (witness)."
  },
  {
   "property": "C57",
   "status": "proved",
   "theorems": [
    "Tomopt.C57.between",
    "Tomopt.C57.by_volume",
    "Tomopt.C57.scale",
    "Tomopt.C57.single",
    "Tomopt.C57.args_error",
    "Tomopt.C57.zero_fractions_violated"
   ],
   "note": "Positive fractions of any length; fractions adding up to zero give NaN."
  },
  {
   "property": "C58",
   "status": "partial",
   "theorems": [
    "Tomopt.C58.probability",
    "Tomopt.C58.ranges",
    "Tomopt.C58.decode",
    "Tomopt.C58.flux2015_pos",
    "Tomopt.C58.flux2016_pos",
    "Tomopt.C58.usable",
    "Tomopt.C58.low_energy_violated"
   ],
   "note": "Every configuration with energies of at least the muon mass and angles below a right angle; lower energies give NaN momenta (witness)."
  },
  {
   "property": "C59",
   "status": "partial",
   "theorems": [
    "Tomopt.C59.resampled",
    "Tomopt.C59.check_spec",
    "Tomopt.C59.ends",
    "Tomopt.C59.never_ends_violated",
    "Tomopt.C59.side_entry_violated"
   ],
   "note": "Whenever the loop ends, for every generator; it need not end, and muons entering only through a side are also replaced (witnesses)."
  },
  {
   "property": "C75",
   "status": "partial",
   "theorems": [
    "Tomopt.C75.spectrum_violated",
    "Tomopt.C75.angles_partial"
   ],
   "note": "Angles at a given energy are distributed as the flux; energies are not, since the unequal widths of the energy bins are left out (witness)."
  },
  {
   "property": "C76",
   "status": "proved",
   "theorems": [
    "Tomopt.C76.margin",
    "Tomopt.C76.needed"
   ],
   "note": "Every volume and angle below a right angle."
  },
  {
   "property": "C51",
   "status": "partial",
   "theorems": [
    "Tomopt.C51.histories",
    "Tomopt.C51.best",
    "Tomopt.C51.few_validation_error"
   ],
   "note": "Every fit that ends normally, whatever the other callbacks do, if there is at least one complete validation batch; with fewer validation volumes the logger divides by zero and the fit fails."
  },
  {
   "property": "C77",
   "status": "proved",
   "theorems": [
    "Tomopt.C77.results",
    "Tomopt.C77.no_epoch_error"
   ],
   "note": "Every history of finite losses and metrics."
  },
  {
   "property": "C78",
   "status": "proved",
   "theorems": [
    "Tomopt.C78.first_wins"
   ],
   "note": "Every list of metrics, at every moment during the start of a training."
  },
  {
   "property": "C79",
   "status": "partial",
   "theorems": [
    "Tomopt.C79.composition_partial",
    "Tomopt.C79.all_predicted",
    "Tomopt.C79.composition_violated"
   ],
   "note": "One if all volumes are predicted; otherwise larger than one (witness)."
  },
  {
   "property": "C60",
   "status": "proved",
   "theorems": [
    "Tomopt.C60.decode",
    "Tomopt.C60.round_trip",
    "Tomopt.C60.classes",
    "Tomopt.C60.drawn_class",
    "Tomopt.C60.layer_class",
    "Tomopt.C60.loaded",
    "Tomopt.C60.walls",
    "Tomopt.C60.order",
    "Tomopt.C60.predicted_edge"
   ],
   "note": "Every furnace geometry and every class, for the generator and the decoding of classes to fill levels."
  },
  {
   "property": "C61",
   "status": "proved",
   "theorems": [
    "Tomopt.C61.model_rejected",
    "Tomopt.C61.panel_built_iff",
    "Tomopt.C61.heatmap_rejected",
    "Tomopt.C61.heatmap_budget_rejected",
    "Tomopt.C61.reduction_iff"
   ],
   "note": "Every invalid setting is rejected with an error and every valid one accepted."
  },
  {
   "property": "C72",
   "status": "partial",
   "theorems": [
    "Tomopt.C72.succeeds",
    "Tomopt.C72.range",
    "Tomopt.C72.homogeneous",
    "Tomopt.C72.near_violated",
    "Tomopt.C72.block_weight",
    "Tomopt.C72.block_size_violated",
    "Tomopt.C72.none_error"
   ],
   "note": "The range is proved for all positive predictions; with the default rescaling the statistic lies between 1/4 and 3/4, the block is at most a third of its size, and a missing prediction raises."
  },
  {
   "property": "C80",
   "status": "partial",
   "theorems": [
    "Tomopt.C80.distribution",
    "Tomopt.C80.scale_free",
    "Tomopt.C80.homogeneous",
    "Tomopt.C80.gauss_single",
    "Tomopt.C80.perfect_violated"
   ],
   "note": "Distribution and scale invariance hold for the default pipeline; the most probable class of a perfect image is three layers too low, and pipelines ending in gauss_1d collapse to one number."
  },
  {
   "property": "C81",
   "status": "proved",
   "theorems": [
    "Tomopt.C81.predictions",
    "Tomopt.C81.missing_raises"
   ],
   "note": "Through the whole prediction loop, for every environment of callbacks; a missing prediction raises AttributeError, so no shorter list is ever returned."
  },
  {
   "property": "C82",
   "status": "partial",
   "theorems": [
    "Tomopt.C82.appended",
    "Tomopt.C82.old_rows_stay",
    "Tomopt.C82.paired_partial",
    "Tomopt.C82.torn_violated"
   ],
   "note": "Appending and immutability of old rows hold for all histories; pairing is lost when a prediction has a refused shape, because the data sets are not written together."
  },
  {
   "property": "C83",
   "status": "proved",
   "theorems": [
    "Tomopt.C83.frozen"
   ],
   "note": "Through the whole training loop, with the warm-ups and arbitrary other callbacks."
  },
  {
   "property": "C84",
   "status": "partial",
   "theorems": [
    "Tomopt.C84.median_partial",
    "Tomopt.C84.not_yet",
    "Tomopt.C84.nan_violated"
   ],
   "note": "The median is proved when at least one training volume was predicted; otherwise the coefficient is NaN for good."
  },
  {
   "property": "C85",
   "status": "partial",
   "theorems": [
    "Tomopt.C85.rate_partial",
    "Tomopt.C85.infinite_violated",
    "Tomopt.C85.raises_violated",
    "Tomopt.C85.shapes_violated"
   ],
   "note": "The rate is proved for gradients that are present with a non-zero median; a zero median gives an infinite rate, a missing gradient an AttributeError, gradients of different sizes a ValueError."
  },
  {
   "property": "C86",
   "status": "partial",
   "theorems": [
    "Tomopt.C86.agrees_partial",
    "Tomopt.C86.reversed_violated"
   ],
   "note": "With signed zeros modelled the outcome agrees with the real-valued one unless a projected angle is a negative zero; then the muon leaves in the opposite direction with an azimuth outside [0, 2π)."
  },
  {
   "property": "C87",
   "status": "partial",
   "theorems": [
    "Tomopt.C87.range_partial",
    "Tomopt.C87.predict_range_partial",
    "Tomopt.C87.shift",
    "Tomopt.C87.grid_weight",
    "Tomopt.C87.smooth_iff",
    "Tomopt.C87.square_total_partial",
    "Tomopt.C87.majority_violated",
    "Tomopt.C87.no_muons_violated",
    "Tomopt.C87.oblong_violated"
   ],
   "note": "Range for muons of positive weight, shift for all; a majority of muons without weight gives NaN, no usable muon raises, and oblong volumes are not tiled."
  },
  {
   "property": "C88",
   "status": "partial",
   "theorems": [
    "Tomopt.C88.layout_partial",
    "Tomopt.C88.ends",
    "Tomopt.C88.start_inside",
    "Tomopt.C88.start_any",
    "Tomopt.C88.length_any",
    "Tomopt.C88.accepts_iff",
    "Tomopt.C88.short_violated",
    "Tomopt.C88.load_violated"
   ],
   "note": "The target is proved to be a layout of walls for all draws and generation to end; walls can be shorter than the minimal length, low volumes raise, and the layout can never be loaded."
  },
  {
   "property": "C89",
   "status": "partial",
   "theorems": [
    "Tomopt.C89.block_partial",
    "Tomopt.C89.absent",
    "Tomopt.C89.floor",
    "Tomopt.C89.dims_volume",
    "Tomopt.C89.covers",
    "Tomopt.C89.fill_iff_violated",
    "Tomopt.C89.unfit_violated",
    "Tomopt.C89.redraw_violated"
   ],
   "note": "The block is proved for sizes that fit; sizes that do not fit are accepted and cut, the fill level is off for volumes above the ground, and the background is redrawn on each load."
  },
  {
   "property": "C90",
   "status": "partial",
   "theorems": [
    "Tomopt.C90.walls_partial",
    "Tomopt.C90.walls_rejected",
    "Tomopt.C90.furnace_stacked",
    "Tomopt.C90.detectors_inside",
    "Tomopt.C90.uneven_violated",
    "Tomopt.C90.rounded_violated",
    "Tomopt.C90.efficiency_violated"
   ],
   "note": "Proved for voxel sizes of whole centimetres dividing the height; other sizes give overlaps or gaps, and one panel of every furnace detector ignores the efficiency."
  },
  {
   "property": "C91",
   "status": "partial",
   "theorems": [
    "Tomopt.C91.fit_record",
    "Tomopt.C91.predict_record",
    "Tomopt.C91.get_record",
    "Tomopt.C91.kept_points",
    "Tomopt.C91.layer_shift",
    "Tomopt.C91.layer_iff_violated",
    "Tomopt.C91.hit_layer_iff_violated"
   ],
   "note": "The records are proved for all runs; the layer labels are right exactly if the detectors above and below have the same height (scatters) and no panel moved (hits)."
  },
  {
   "property": "C92",
   "status": "proved",
   "theorems": [
    "Tomopt.C92.panel_opts",
    "Tomopt.C92.panel_once",
    "Tomopt.C92.heat_opts",
    "Tomopt.C92.unsuitable"
   ],
   "note": "All volumes; torch's optimiser constructor is taken to make one group of all parameters it is given."
  },
  {
   "property": "C93",
   "status": "partial",
   "theorems": [
    "Tomopt.C93.set_lr",
    "Tomopt.C93.set_mom",
    "Tomopt.C93.no_momentum",
    "Tomopt.C93.schedule_both",
    "Tomopt.C93.schedule_range",
    "Tomopt.C93.begin_ok",
    "Tomopt.C93.no_mid_error",
    "Tomopt.C93.groups_violated"
   ],
   "note": "Reading back, frame and schedules are proved for all histories; in an optimiser with several groups only the first gets the new values."
  },
  {
   "property": "C94",
   "status": "proved",
   "theorems": [
    "Tomopt.C94.sorted",
    "Tomopt.C94.mem_positions",
    "Tomopt.C94.positions_sorted",
    "Tomopt.C94.second_logger"
   ],
   "note": "All lists of callbacks; positions is characterised by mem_positions and positions_sorted."
  },
  {
   "property": "C95",
   "status": "partial",
   "theorems": [
    "Tomopt.C95.propagation",
    "Tomopt.C95.special",
    "Tomopt.C95.special_grad",
    "Tomopt.C95.vox_propagation",
    "Tomopt.C95.scale",
    "Tomopt.C95.mono",
    "Tomopt.C95.variance_linear",
    "Tomopt.C95.variance_affine",
    "Tomopt.C95.position_unc",
    "Tomopt.C95.position_std",
    "Tomopt.C95.best_linear",
    "Tomopt.C95.combine_ok",
    "Tomopt.C95.empty_batch_violated",
    "Tomopt.C95.gen_violated"
   ],
   "note": "Propagation and its meaning hold for all batches with muons, given that automatic differentiation returns partial derivatives; a batch without muons and scatters from true hits have no uncertainties, and the former makes every prediction raise."
  },
  {
   "property": "C96",
   "status": "partial",
   "theorems": [
    "Tomopt.C96.hits_training",
    "Tomopt.C96.hits_realistic",
    "Tomopt.C96.made_proper",
    "Tomopt.C96.moved_violated"
   ],
   "note": "Training is proved in full; in realistic validation it is proved what is reported, and that every heat map reports some covered muons at a wrong position although there is no noise."
  },
  {
   "property": "C97",
   "status": "partial",
   "theorems": [
    "Tomopt.C97.width",
    "Tomopt.C97.width_laws",
    "Tomopt.C97.displacement",
    "Tomopt.C97.angle",
    "Tomopt.C97.vertical",
    "Tomopt.C97.normal_draws",
    "Tomopt.C97.subdivision",
    "Tomopt.C97.subdivision_violated",
    "Tomopt.C97.steps_violated",
    "Tomopt.C97.one_sided_violated",
    "Tomopt.C97.normal_violated",
    "Tomopt.C97.thin_violated"
   ],
   "note": "Width of one step and moments of the displacement are proved as in the PDG review. Refuted: mean zero (the cut of large angles is one-sided), independence of the number of steps (logarithm per step; opposite signs of displacement and deflection). The walk over several steps is to first order in the angles."
  },
  {
   "property": "C98",
   "status": "partial",
   "theorems": [
    "Tomopt.C98.estimate",
    "Tomopt.C98.order",
    "Tomopt.C98.rescale",
    "Tomopt.C98.harmonic",
    "Tomopt.C98.excess",
    "Tomopt.C98.overestimates",
    "Tomopt.C98.average_violated",
    "Tomopt.C98.flat"
   ],
   "note": "Weights, independence of order and of a common factor are proved. Refuted: muons that scatter on average as the material gives the material's X0, since the weights depend on the averaged value; the estimate is at least, and for unequal scatterings more than, the material's X0. For exactly known angles the probabilities drop out."
  },
  {
   "property": "C99",
   "status": "partial",
   "theorems": [
    "Tomopt.C99.true_tracks",
    "Tomopt.C99.kept",
    "Tomopt.C99.reconstructed",
    "Tomopt.C99.stays_down",
    "Tomopt.C99.built_partial",
    "Tomopt.C99.single_built",
    "Tomopt.C99.single_violated"
   ],
   "note": "Tracks, angles, location and the choice of muons are proved for whole volumes. Refuted: building never fails; it fails if exactly one muon is left and this muon is unusable. It never fails otherwise."
  },
  {
   "property": "C100",
   "status": "partial",
   "theorems": [
    "Tomopt.C100.history_free",
    "Tomopt.C100.one",
    "Tomopt.C100.again",
    "Tomopt.C100.second_violated"
   ],
   "note": "History-freedom is proved for all sequences of requests. The number of muons is proved right for one scatter batch and for repeated ones of the same kind; refuted for a true scatter batch made after a reconstructed one, which removes muons under the first."
  },
  {
   "property": "C101",
   "status": "proved",
   "theorems": [
    "Tomopt.C101.reco_tracks",
    "Tomopt.C101.kept",
    "Tomopt.C101.single_built",
    "Tomopt.C101.reconstructed"
   ],
   "note": "Heat-map panels are not covered here; their hits are C96."
  },
  {
   "property": "C102",
   "status": "partial",
   "theorems": [
    "Tomopt.C102.batch_spec",
    "Tomopt.C102.order_free",
    "Tomopt.C102.calibration_free",
    "Tomopt.C102.perfect",
    "Tomopt.C102.unscanned_violated",
    "Tomopt.C102.predict_violated"
   ],
   "note": "Proved for batches of scanned volumes. Refuted for volumes that could not be scanned: the callback raises instead of leaving them out, and it cannot be used in predict."
  },
  {
   "property": "C103",
   "status": "partial",
   "theorems": [
    "Tomopt.C103.history",
    "Tomopt.C103.no_trace",
    "Tomopt.C103.no_worse",
    "Tomopt.C103.unscanned_violated"
   ],
   "note": "Proved for histories of scanned volumes. Refuted for volumes that could not be scanned: the callback raises."
  },
  {
   "property": "C104",
   "status": "proved",
   "theorems": [
    "Tomopt.C104.undisturbed",
    "Tomopt.C104.runs",
    "Tomopt.C104.again"
   ],
   "note": ""
  },
  {
   "property": "C105",
   "status": "partial",
   "theorems": [
    "Tomopt.C105.alone",
    "Tomopt.C105.alone_scatters_partial"
   ],
   "note": "Proved for the passage and the recordings. For the scatter batch the case in which the selection leaves one muon, which is not kept in the whole batch, is excluded: there the constructor raises, and the theorem says that this is the only case."
  },
  {
   "property": "C106",
   "status": "proved",
   "theorems": [
    "Tomopt.C106.unbiased",
    "Tomopt.C106.precision",
    "Tomopt.C106.best",
    "Tomopt.C106.hit",
    "Tomopt.C106.telescope",
    "Tomopt.C106.unequal_violated",
    "Tomopt.C106.realistic_violated"
   ],
   "note": "Distributions are arbitrary probability measures; the examples use independent standard normal noise, which is what the code draws. `unequal_violated` and `realistic_violated` show why equal efficiencies and training or non-realistic mode are assumed."
  },
  {
   "property": "C107",
   "status": "proved",
   "theorems": [
    "Tomopt.C107.batching",
    "Tomopt.C107.panel_batching"
   ],
   "note": "All histories and partitions, in exact arithmetic; batches without muons raise instead (C95)."
  },
  {
   "property": "C108",
   "status": "proved",
   "theorems": [
    "Tomopt.C108.tracks",
    "Tomopt.C108.scatters",
    "Tomopt.C108.singular"
   ],
   "note": "All motions that keep the vertical. The filter of scatters is not part of it: its limits are multiples of the volume's size around the origin."
  },
  {
   "property": "C109",
   "status": "partial",
   "theorems": [
    "Tomopt.C109.larger_panel",
    "Tomopt.C109.larger_hits",
    "Tomopt.C109.larger_panel_budget",
    "Tomopt.C109.larger_budget",
    "Tomopt.C109.tracks_partial",
    "Tomopt.C109.wider_violated"
   ],
   "note": "Panels, hits and budgets are proved in full. For tracks the property is false of the code: hits are weighted by efficiency as well as precision, and wider_violated shows three panels of which one is made wider, after which the fitted track scatters more. tracks_partial proves it for hits of equal efficiency."
  },
  {
   "property": "C110",
   "status": "partial",
   "theorems": [
    "Tomopt.C110.position",
    "Tomopt.C110.size",
    "Tomopt.C110.realistic_flat",
    "Tomopt.C110.middle_violated"
   ],
   "note": "Proved everywhere off the middle lines of the panel, where moving has first-order effects. Exactly in the middle of a sigmoid panel the efficiency has a corner and no derivative: middle_violated."
  },
  {
   "property": "C111",
   "status": "partial",
   "theorems": [
    "Tomopt.C111.hits",
    "Tomopt.C111.tracks",
    "Tomopt.C111.scatters",
    "Tomopt.C111.angles",
    "Tomopt.C111.detector",
    "Tomopt.C111.vertical_violated"
   ],
   "note": "Proved for hits, tracks, closest points, miss distances, scattering angles, crossings, and for polar angle and azimuth where the track is neither vertical nor along positive x; there the code's angles are not differentiable (vertical_violated)."
  },
  {
   "property": "C112",
   "status": "partial",
   "theorems": [
    "Tomopt.C112.inside",
    "Tomopt.C112.voxel",
    "Tomopt.C112.order",
    "Tomopt.C112.lookup",
    "Tomopt.C112.last_violated"
   ],
   "note": "Proved for layers whose footprint is at most the number of voxels times their size as exact numbers. Otherwise it is false: 6.3 m with voxels of 0.7 m in single precision, last_violated."
  },
  {
   "property": "C113",
   "status": "partial",
   "theorems": [
    "Tomopt.C113.grid",
    "Tomopt.C113.filled_partial",
    "Tomopt.C113.exact_sizes",
    "Tomopt.C113.filled_violated"
   ],
   "note": "Proved for the grid and for predictions. For layouts it is false, since they truncate the quotient instead of rounding it: 1.3 m with voxels of 0.1 m gives 12 voxels (filled_violated). Proved for layouts: n or n - 1 voxels, n if the rounded length is not shorter than n rounded sizes; everything agrees for exact sizes."
  },
  {
   "property": "C114",
   "status": "partial",
   "theorems": [
    "Tomopt.C114.arrives",
    "Tomopt.C114.ends",
    "Tomopt.C114.stuck_violated"
   ],
   "note": "Arrival is exact for heights within a factor of two of each other and for height zero. The loop ends if each step takes off at least 2^(1-p) of the height of the top. Otherwise it is false: a muon at less than a millionth of a radian from the horizontal keeps its height for ever in single precision (stuck_violated)."
  },
  {
   "property": "C115",
   "status": "partial",
   "theorems": [
    "Tomopt.C115.interior",
    "Tomopt.C115.centres",
    "Tomopt.C115.edge_violated"
   ],
   "note": "Proved for all positions at least 8 N / 2^p of the voxel size away from the faces and for reported centres. False for reported low edges: the edge of voxel 13 is looked up as voxel 12 for voxels of 0.1 m in single precision (edge_violated)."
  },
  {
   "property": "C116",
   "status": "partial",
   "theorems": [
    "Tomopt.C116.classes_partial",
    "Tomopt.C116.round_trip_partial",
    "Tomopt.C116.round_trip_violated",
    "Tomopt.C116.drawn_violated"
   ],
   "note": "Proved for levels at least 3 (c + 2) / 2^p of the size away from the boundaries of layers, and round trips for exact sizes. False at the boundaries: with layers of 0.1 m from height zero the level of class 4, 0.5 m, has class 3 in single precision, although the layer up to 0.5 m is filled (round_trip_violated); the largest draw can be rounded up to the top of the furnace, which has a class that does not exist (drawn_violated)."
  },
  {
   "property": "C117",
   "status": "proved",
   "theorems": [
    "Tomopt.C117.tables",
    "Tomopt.C117.rounded"
   ],
   "note": "The interference of C54 (class numbers taken for X0 values) cannot happen with built-in materials."
  },
  {
   "property": "C118",
   "status": "partial",
   "theorems": [
    "Tomopt.C118.saved",
    "Tomopt.C118.latest",
    "Tomopt.C118.resume",
    "Tomopt.C118.unique_violated",
    "Tomopt.C118.stale_violated",
    "Tomopt.C118.order_violated"
   ],
   "note": "The code refutes the last part: a second fit into the same folder replaces the files of the first, or leaves its later ones behind, and what later callbacks in the list change at the end of an epoch is not saved."
  },
  {
   "property": "C119",
   "status": "partial",
   "theorems": [
    "Tomopt.C119.frames",
    "Tomopt.C119.shown",
    "Tomopt.C119.leftover_violated",
    "Tomopt.C119.two_violated",
    "Tomopt.C119.nothing_violated"
   ],
   "note": "The code refutes the last sentence: two recorders use the same temporary files, and exceptions leave them in the folder. A detector without panels makes the end of the fit raise."
  },
  {
   "property": "C120",
   "status": "partial",
   "theorems": [
    "Tomopt.C120.history",
    "Tomopt.C120.logs",
    "Tomopt.C120.names_violated",
    "Tomopt.C120.exception_violated",
    "Tomopt.C120.order_violated"
   ],
   "note": "The code refutes the last sentence: metrics of equal name replace each other, a metric computed after the logger has been told makes it raise, and after an exception no metrics are returned."
  },
  {
   "property": "C121",
   "status": "partial",
   "theorems": [
    "Tomopt.C121.variables_smooth",
    "Tomopt.C121.uncertain",
    "Tomopt.C121.prediction",
    "Tomopt.C121.cost",
    "Tomopt.C121.loss",
    "Tomopt.C121.budget_violated"
   ],
   "note": "The code refutes it at one point: with the plain penalty the loss has a kink where the cost is exactly the target budget."
  },
  {
   "property": "C122",
   "status": "partial",
   "theorems": [
    "Tomopt.C122.gradient",
    "Tomopt.C122.alike",
    "Tomopt.C122.single",
    "Tomopt.C122.height_violated",
    "Tomopt.C122.gradient_violated",
    "Tomopt.C122.uphill_violated"
   ],
   "note": "The code refutes it: the places where muons cross the panels and the Jacobians that enter the uncertainties are recorded without a graph, so the backward pass takes them as constants. Height of a panel: a non-zero gradient where the prediction does not depend on it (height_violated). Small steps against the gradient can raise the loss (uphill_violated). It holds for batches of muons that are all alike, such as one muon, and cross each panel at one place wherever it is."
  },
  {
   "property": "C123",
   "status": "partial",
   "theorems": [
    "Tomopt.C123.answer",
    "Tomopt.C123.smooth",
    "Tomopt.C123.hits",
    "Tomopt.C123.scale",
    "Tomopt.C123.alone",
    "Tomopt.C123.closer_violated",
    "Tomopt.C123.corner_violated"
   ],
   "note": "Differentiability is proved where one centre is higher than the others and the efficiency is not exactly at its saturation; the scale and single clusters have derivatives that point the right way. The code refutes the rest: the normalisation by the highest centre gives corners where two centres are equally high, and makes a muon seen worse when a cluster comes closer to it."
  },
  {
   "property": "C124",
   "status": "partial",
   "theorems": [
    "Tomopt.C124.fails",
    "Tomopt.C124.kept",
    "Tomopt.C124.kept_alike",
    "Tomopt.C124.half",
    "Tomopt.C124.torn",
    "Tomopt.C124.conserved",
    "Tomopt.C124.hits_follow",
    "Tomopt.C124.agrees",
    "Tomopt.C124.moved_violated",
    "Tomopt.C124.turned_violated",
    "Tomopt.C124.lost_violated"
   ],
   "note": "Proved for all calls other than scatter_dxyz and scatter_dtheta_dphi, and for these two if their arguments have equal lengths, provided hits have one row per muon. The code refutes the rest: the two calls change one column after the other, and filter_muons removes the muons before it finds that hits have another number of rows."
  },
  {
   "property": "C125",
   "status": "partial",
   "theorems": [
    "Tomopt.C125.values",
    "Tomopt.C125.assigned",
    "Tomopt.C125.projected",
    "Tomopt.C125.augmented",
    "Tomopt.C125.follows",
    "Tomopt.C125.snapshots",
    "Tomopt.C125.rejected_violated",
    "Tomopt.C125.into_violated",
    "Tomopt.C125.before_violated",
    "Tomopt.C125.together_violated"
   ],
   "note": "Plain assignments are rejected without effect, snapshots and projected angles that were read keep their values. The code refutes the rest: attributes are views of the tensor of muons, so what was read changes with the muons until a muon is removed, augmented assignments change the muons and then raise, and writing into elements is accepted."
  },
  {
   "property": "C126",
   "status": "partial",
   "theorems": [
    "Tomopt.C126.same",
    "Tomopt.C126.answers",
    "Tomopt.C126.settled",
    "Tomopt.C126.lost",
    "Tomopt.C126.second_violated",
    "Tomopt.C126.momenta_violated"
   ],
   "note": "Proved for programs that do not remove muons or write momenta of a batch whose scatters were added, and for all programs from a question that was answered until the next addition. The code refutes the rest: momenta are read from the muon batch when the first question is asked, so a lost muon makes every question fail for good and new momenta change the prediction."
  },
  {
   "property": "C127",
   "status": "partial",
   "theorems": [
    "Tomopt.C127.physical",
    "Tomopt.C127.trained",
    "Tomopt.C127.limited",
    "Tomopt.C127.limited_centred",
    "Tomopt.C127.centred",
    "Tomopt.C127.trained_limited",
    "Tomopt.C127.drift",
    "Tomopt.C127.still",
    "Tomopt.C127.own",
    "Tomopt.C127.margin_violated",
    "Tomopt.C127.centring_violated",
    "Tomopt.C127.own_violated"
   ],
   "note": "Physical after every update: proved outright. Within the limits: proved for a limiter that comes last, and for centring after it if panels of a layer are at one place, which holds from the second update on; heights up to the random margin. Nothing changes without a step: proved for limiters and panels away from top and bottom. Each its own step: proved for a limiter of positions that comes last. The code refutes the rest (witnesses proved)."
  },
  {
   "property": "C128",
   "status": "partial",
   "theorems": [
    "Tomopt.C128.voxels",
    "Tomopt.C128.volumes",
    "Tomopt.C128.perfect",
    "Tomopt.C128.better",
    "Tomopt.C128.honest",
    "Tomopt.C128.attained",
    "Tomopt.C128.refused",
    "Tomopt.C128.binary",
    "Tomopt.C128.binary_term",
    "Tomopt.C128.flat_violated",
    "Tomopt.C128.confused_violated",
    "Tomopt.C128.ignored_violated"
   ],
   "note": "Value: proved for volumes in which no class number equals a larger X0 that occurs, and classes that were predicted; the code refutes the rest (confused_violated; a class numbered -100 is left out, ignored_violated). For two classes the error is flat where the truth is given less than exp(-100) (flat_violated)."
  },
  {
   "property": "C129",
   "status": "partial",
   "theorems": [
    "Tomopt.C129.batches_fit",
    "Tomopt.C129.muons",
    "Tomopt.C129.missing_violated",
    "Tomopt.C129.nothing_learned",
    "Tomopt.C129.breaks_off",
    "Tomopt.C129.x0_none",
    "Tomopt.C129.pocaZ_none",
    "Tomopt.C129.classifiers_violated",
    "Tomopt.C129.history",
    "Tomopt.C129.heads",
    "Tomopt.C129.most_probable"
   ],
   "note": "Number of muons: as many whole batches as fit, so exactly the number asked for if it is a multiple of the size of a batch, else fewer (missing_violated). Left out: proved for inferrers that answer None; classifiers raise instead (classifiers_violated), and the fit breaks off (breaks_off). Answers of classifiers and most probable class: proved, for efficiencies that can be computed as in C35."
  },
  {
   "property": "C130",
   "status": "partial",
   "theorems": [
    "Tomopt.C130.rows",
    "Tomopt.C130.panels",
    "Tomopt.C130.prediction",
    "Tomopt.C130.cost",
    "Tomopt.C130.loss",
    "Tomopt.C130.gradient",
    "Tomopt.C130.alike",
    "Tomopt.C130.height_violated"
   ],
   "note": "Predictions, cost and loss are differentiable, and the gradient is a number. That it is the derivative of the loss is proved for muons that are all alike and heights that are not parameters; it fails for heights (height_violated), and, as shown for panels (C122), for muons that differ."
  },
  {
   "property": "C131",
   "status": "partial",
   "theorems": [
    "Tomopt.C131.accuracy",
    "Tomopt.C131.kept",
    "Tomopt.C131.vertical",
    "Tomopt.C131.steps",
    "Tomopt.C131.ceiling",
    "Tomopt.C131.unscattered_violated",
    "Tomopt.C131.lost_violated",
    "Tomopt.C131.small_violated",
    "Tomopt.C131.air_violated"
   ],
   "note": "Squares of angles are right up to sixty units of rounding, larger angles are never lost, and angles to the vertical are always defined. The relative error is not small for small angles: they come in steps (steps), below which they are zero, NaN or more than doubled (lost_violated, unscattered_violated, small_violated); so there is a largest X0 that can be predicted (ceiling), which is below that of air (air_violated)."
  },
  {
   "property": "C132",
   "status": "partial",
   "theorems": [
    "Tomopt.C132.settles",
    "Tomopt.C132.expected_scat",
    "Tomopt.C132.turned_angle",
    "Tomopt.C132.turned_prob",
    "Tomopt.C132.biased_violated",
    "Tomopt.C132.diverges_violated",
    "Tomopt.C132.simulated_violated"
   ],
   "note": "Where the expected weights exist the prediction settles almost surely, at the inverted formula of expected values (settles), in which scatterings enter through their harmonic mean (expected_scat). So the limit is too large unless all muons scatter alike (biased_violated). For the distribution that the simulation itself draws from, the expected weight is infinite, as the chance of an angle below r is of order r squared (turned_prob): with known angles and one step the prediction grows without bound, almost surely (simulated_violated)."
  },
  {
   "property": "C133",
   "status": "partial",
   "theorems": [
    "Tomopt.C133.derivative",
    "Tomopt.C133.propagated",
    "Tomopt.C133.by_scatter",
    "Tomopt.C133.single",
    "Tomopt.C133.root_n",
    "Tomopt.C133.entry",
    "Tomopt.C133.history",
    "Tomopt.C133.overconfident_violated",
    "Tomopt.C133.more_is_better_violated"
   ],
   "note": "The derivatives used exist and have a closed form (derivative, by_scatter), and the uncertainty is their quadratic sum (propagated), for one muon the textbook formula (single); n times the muons have the same prediction with the uncertainty over the root of n (root_n); every entry of the tensor belongs to the entry of the prediction (entry), and answers are never outdated (history). False are: the true X0 lies within a bounded number of uncertainties (overconfident_violated), and more muons do not increase it (more_is_better_violated)."
  },
  {
   "property": "C134",
   "status": "partial",
   "theorems": [
    "Tomopt.C134.ended_iff",
    "Tomopt.C134.within",
    "Tomopt.C134.rejection",
    "Tomopt.C134.marginal",
    "Tomopt.C134.rounds",
    "Tomopt.C134.ends_almost_surely",
    "Tomopt.C134.unbiased_iff",
    "Tomopt.C134.spectrum_violated"
   ],
   "note": "For independent draws of any one law: which draw ends up in which slot (ended_iff); the joint law of the muons that come out is the product of the conditional laws (rejection, marginal; within: at a given number of rounds); the number of rounds (rounds); it ends almost surely if and only if a muon can hit (ends_almost_surely). The spectrum is kept exactly for properties independent of hitting the volume (unbiased_iff); in general it is not (spectrum_violated)."
  },
  {
   "property": "C135",
   "status": "partial",
   "theorems": [
    "Tomopt.C135.sorted",
    "Tomopt.C135.edges",
    "Tomopt.C135.in_range",
    "Tomopt.C135.drawn_positive",
    "Tomopt.C135.cumulative",
    "Tomopt.C135.probability",
    "Tomopt.C135.precise",
    "Tomopt.C135.never_fails",
    "Tomopt.C135.phi_violated",
    "Tomopt.C135.absorbed_violated",
    "Tomopt.C135.zero_violated"
   ],
   "note": "Shares of bins and cumulative shares are right up to a relative error of 1e-11 and 6e-16 for tables of 40000 bins in double precision, every draw has a bin, and generation never fails. Azimuths may exceed 2 pi by rounding to single precision (phi_violated), a flux that is lost in the sum is never drawn (absorbed_violated), and the draw zero ignores the flux of the first bin (zero_violated)."
  },
  {
   "property": "C136",
   "status": "proved",
   "theorems": [
    "Tomopt.C136.accuracy",
    "Tomopt.C136.single",
    "Tomopt.C136.order",
    "Tomopt.C136.measured",
    "Tomopt.C136.accuracy_measured"
   ],
   "note": "Relative error of 115 roundings, ten for each addition following another in a sum, and those of the cosine. Orders of summation as in pairwise_exists and sequential. Variables, efficiencies and probabilities are given; their own errors are C131 and C137; overflow and underflow are not modelled."
  },
  {
   "property": "C137",
   "status": "partial",
   "theorems": [
    "Tomopt.C137.weights",
    "Tomopt.C137.steps",
    "Tomopt.C137.accuracy",
    "Tomopt.C137.accuracy_edges",
    "Tomopt.C137.single",
    "Tomopt.C137.far",
    "Tomopt.C137.lost_violated"
   ],
   "note": "Range and absolute error are proved. The code refutes the relative error: distribution functions are multiples of 2 to the power of -25 in single precision, so six uncertainties away from the PoCA the weight is the number added in the code, whatever the distance. The formula of Normal.cdf is that of torch; underflow is not modelled."
  },
  {
   "property": "C138",
   "status": "partial",
   "theorems": [
    "Tomopt.C138.accuracy",
    "Tomopt.C138.centre",
    "Tomopt.C138.single",
    "Tomopt.C138.tilted_violated",
    "Tomopt.C138.lost_violated"
   ],
   "note": "Errors are bounded for any number of hits and any order of summation, in proportion to the inverse of the spread (variance of the heights over their mean square); at the mean height the bound does not depend on the spread. The code refutes a small error of the slope: a vertical muon with exact hits on panels 16 mm apart at a height of one metre gets a slope of half a milliradian in single precision, and panels an eighth of a millimetre apart give no track at all. Overflow and underflow are not modelled."
  },
  {
   "property": "C139",
   "status": "partial",
   "theorems": [
    "Tomopt.C139.mirror",
    "Tomopt.C139.chance",
    "Tomopt.C139.materials",
    "Tomopt.C139.materials_end",
    "Tomopt.C139.place_violated",
    "Tomopt.C139.layer_violated"
   ],
   "note": "Proved: the law of the corners is symmetric along every axis, the chance of a point is given in closed form, every ordered pair of different materials is equally likely, and the loop for them ends after N draws except with chance n to the power of -N. Refuted: points near the sides are in blocks much less often than the middle, and no block of random size is ever in the top layer. The orientation is any permutation that is independent of the other draws."
  },
  {
   "property": "C140",
   "status": "partial",
   "theorems": [
    "Tomopt.C140.spent",
    "Tomopt.C140.share",
    "Tomopt.C140.order",
    "Tomopt.C140.exceeded_violated",
    "Tomopt.C140.vanishes_violated"
   ],
   "note": "The total and every single cost are bounded for any number of panels and any order of summation, and the order of shares is kept. The code refutes two parts: shares of three equal weights add up to slightly more than the budget, and a panel whose weight is 104 or more below the largest underflows to no size at all, upon which training with Gaussian panels stops with a ValueError. Overflow, and underflow other than in exponentials, are not modelled."
  },
  {
   "property": "C141",
   "status": "partial",
   "theorems": [
    "Tomopt.C141.smooth_layers",
    "Tomopt.C141.smooth_rows",
    "Tomopt.C141.runs",
    "Tomopt.C141.homogeneous",
    "Tomopt.C141.blank_iff",
    "Tomopt.C141.blank",
    "Tomopt.C141.max_sub_min",
    "Tomopt.C141.mirror",
    "Tomopt.C141.mirror_prewit",
    "Tomopt.C141.mirror_gauss3",
    "Tomopt.C141.blank_violated",
    "Tomopt.C141.gauss_violated",
    "Tomopt.C141.gauss3_single"
   ],
   "note": "Range, size, homogeneous images and mirror images are proved for all images. The code refutes two parts: four of six edge filters answer to homogeneous images, among them the one used by default, and no pipeline with a Gaussian filter gives probabilities of classes, because these filters drop the batch dimension. Images with a single layer, row or column are not considered after a Gaussian filter."
  },
  {
   "property": "C142",
   "status": "partial",
   "theorems": [
    "Tomopt.C142.best",
    "Tomopt.C142.best_lower",
    "Tomopt.C142.best_higher",
    "Tomopt.C142.last",
    "Tomopt.C142.all_nan_error",
    "Tomopt.C142.shown",
    "Tomopt.C142.numbers",
    "Tomopt.C142.nan_violated"
   ],
   "note": "Proved whenever some epoch had a value that is not NaN and not the worst infinite one. The code refutes the rest: if all values are NaN or (worst) infinite, and NaN came first, the epoch with NaN is reported as best."
  },
  {
   "property": "C143",
   "status": "partial",
   "theorems": [
    "Tomopt.C143.same",
    "Tomopt.C143.same_zero",
    "Tomopt.C143.single",
    "Tomopt.C143.spread",
    "Tomopt.C143.number",
    "Tomopt.C143.symm",
    "Tomopt.C143.error",
    "Tomopt.C143.pairs",
    "Tomopt.C143.pairs_violated"
   ],
   "note": "Proved for targets of the same shape and for targets that are one number (with at least one entry; without entries the loss is NaN). The code refutes it for other shapes that fit: a column of predictions is compared with a row of targets pair by pair."
  },
  {
   "property": "C144",
   "status": "partial",
   "theorems": [
    "Tomopt.C144.costs",
    "Tomopt.C144.shift",
    "Tomopt.C144.raise",
    "Tomopt.C144.reach",
    "Tomopt.C144.deriv_share",
    "Tomopt.C144.deriv_size",
    "Tomopt.C144.descent",
    "Tomopt.C144.cross_violated"
   ],
   "note": "Everything is proved but the last part, which the code refutes: a weight belongs to a place in the order of heights, so that panels which pass each other change sizes at once. Steps are those of plain gradient descent."
  },
  {
   "property": "C145",
   "status": "partial",
   "theorems": [
    "Tomopt.C145.warm",
    "Tomopt.C145.tuned",
    "Tomopt.C145.cycle",
    "Tomopt.C145.metrics",
    "Tomopt.C145.logger",
    "Tomopt.C145.cycle_violated",
    "Tomopt.C145.rank_violated"
   ],
   "note": "Everything is proved but two parts, which the code refutes: a used one-cycle schedule does not raise the error a new one raises when warm-ups outlast its rising phase, and a metric that gave way to another main metric has lost its rank for all later fits. For schedules the theorem compares fits in which a new one does not fail."
  },
  {
   "property": "C146",
   "status": "partial",
   "theorems": [
    "Tomopt.C146.where_",
    "Tomopt.C146.centres",
    "Tomopt.C146.mirrored",
    "Tomopt.C146.right",
    "Tomopt.C146.meaning",
    "Tomopt.C146.mirror_violated",
    "Tomopt.C146.scale_violated"
   ],
   "note": "The square, its content and the meaning of the numbers are proved. The code refutes the rest: x and y are exchanged, so that the picture is that of the mirrored map, and the numbers are not limited to one since the result of the minimum is thrown away."
  },
  {
   "property": "C147",
   "status": "partial",
   "theorems": [
    "Tomopt.C147.places",
    "Tomopt.C147.losses",
    "Tomopt.C147.errors",
    "Tomopt.C147.in_a_fit",
    "Tomopt.C147.shapes",
    "Tomopt.C147.panels",
    "Tomopt.C147.visible",
    "Tomopt.C147.metric_violated",
    "Tomopt.C147.overlap_violated",
    "Tomopt.C147.epochs_violated",
    "Tomopt.C147.outline_violated",
    "Tomopt.C147.layers_violated"
   ],
   "note": "Losses, panels and, without metrics, the places of plots are proved. The code refutes the rest: with metrics the plain figure cannot be made and in that of panels plots lie over each other; metrics are drawn over updates instead of epochs; the outline of the volume can be cut off; layers of heat maps and of more than ten panels make the plot fail."
  },
  {
   "property": "C148",
   "status": "partial",
   "theorems": [
    "Tomopt.C148.volume",
    "Tomopt.C148.heatmap_error",
    "Tomopt.C148.corners",
    "Tomopt.C148.boxes",
    "Tomopt.C148.predictions",
    "Tomopt.C148.records",
    "Tomopt.C148.limits_violated",
    "Tomopt.C148.thin_violated",
    "Tomopt.C148.predictions_violated",
    "Tomopt.C148.records_violated"
   ],
   "note": "What is shown, where, and that nothing is lost or doubled is proved. The code refutes the rest: the limits of x and y are exchanged; boxes of layers are moved by up to half a centimetre, so that thin layers are drawn out of their place; the top layer of predictions comes first, contrary to the documentation; a single layer, of predictions or of a record, cannot be drawn; entries without a layer are in no plot."
  },
  {
   "property": "C149",
   "status": "partial",
   "theorems": [
    "Tomopt.C149.passage",
    "Tomopt.C149.layer",
    "Tomopt.C149.limit_violated"
   ],
   "note": "Proved for all flights in which no deflection reaches the limit of pi/2.2. The code refutes the rest: only positive deflections are limited, so that beyond the limit left and right differ."
  },
  {
   "property": "C150",
   "status": "partial",
   "theorems": [
    "Tomopt.C150.curve_spec",
    "Tomopt.C150.raw",
    "Tomopt.C150.optimised",
    "Tomopt.C150.baselines",
    "Tomopt.C150.weighted",
    "Tomopt.C150.agree",
    "Tomopt.C150.columns_violated"
   ],
   "note": "What each curve and legend shows is proved. The code refutes the last clause: the comparison with the optimised detector fails if the first table lacks columns that are not shown."
  },
  {
   "property": "C151",
   "status": "partial",
   "theorems": [
    "Tomopt.C151.strict",
    "Tomopt.C151.restored",
    "Tomopt.C151.behaves",
    "Tomopt.C151.optimisers",
    "Tomopt.C151.panel_wrapper",
    "Tomopt.C151.heat_wrapper",
    "Tomopt.C151.refused_violated",
    "Tomopt.C151.optimiser_violated",
    "Tomopt.C151.width_violated",
    "Tomopt.C151.count"
   ],
   "note": "What is restored is proved. The code refutes two clauses: when a file is refused the volume has been changed, and the width of heat maps is not saved."
  },
  {
   "property": "C152",
   "status": "partial",
   "theorems": [
    "Tomopt.C152.hits",
    "Tomopt.C152.scatters",
    "Tomopt.C152.budget",
    "Tomopt.C152.prediction",
    "Tomopt.C152.loss",
    "Tomopt.C152.heatmap_violated"
   ],
   "note": "Proved for all panels and heat maps with everything exchanged, including the two limits of a heat map's span, and under C149's assumption on deflections. The code refutes it for heat maps as they can be made: in realistic evaluation x is cut off at the smaller and y at the larger number of the span."
  },
  {
   "property": "C153",
   "status": "proved",
   "theorems": [
    "Tomopt.C153.order",
    "Tomopt.C153.printed",
    "Tomopt.C153.best",
    "Tomopt.C153.animation"
   ],
   "note": "Metrics are numbers, at least one per metric. If there is no complete batch of training volumes, what is printed as training loss is not a number. Decoding of pictures is left out: what was saved is read back."
  },
  {
   "property": "C154",
   "status": "partial",
   "theorems": [
    "Tomopt.C154.flight",
    "Tomopt.C154.cost",
    "Tomopt.C154.voxels",
    "Tomopt.C154.scatters",
    "Tomopt.C154.prediction",
    "Tomopt.C154.prediction_violated"
   ],
   "note": "Predictions are shown to be unchanged for volumes standing at and moved by multiples of the voxel size, and the code refutes it otherwise: half a voxel higher, more voxels are listed than there are and predicting raises an error (prediction_violated). Panels at equal heights are assumed to be ordered alike."
  },
  {
   "property": "C155",
   "status": "proved",
   "theorems": [
    "Tomopt.C155.continued",
    "Tomopt.C155.broken_off"
   ],
   "note": "The directory for callbacks is assumed to exist already or creating it not to matter. Iterating over the passive volumes is assumed to yield the same list in every epoch; which volumes these stand for may depend on the state of the world."
  },
  {
   "property": "C156",
   "status": "proved",
   "theorems": [
    "Tomopt.C156.predicting",
    "Tomopt.C156.validating"
   ],
   "note": "The part of the world is any function of its state; that callbacks, inferrers and losses leave it alone is an assumption, and updates are the only calls that may change it."
  },
  {
   "property": "C157",
   "status": "partial",
   "theorems": [
    "Tomopt.C157.step",
    "Tomopt.C157.total",
    "Tomopt.C157.sideways_violated"
   ],
   "note": "The lengths are proved for every step and their total for undeflected muons. That the material is the one crossed is refuted: a step leaving its voxel sideways is scattered by the material of the voxel it starts in."
  },
  {
   "property": "C158",
   "status": "partial",
   "theorems": [
    "Tomopt.C158.flight",
    "Tomopt.C158.cost",
    "Tomopt.C158.response",
    "Tomopt.C158.floor_violated",
    "Tomopt.C158.clamp",
    "Tomopt.C158.clamp_violated",
    "Tomopt.C158.argsort_scales"
   ],
   "note": "Proved for volumes of panels in evaluation with realistic validation and of heat maps, and for costs always. For the continuous responses it holds above the floor of 1e-10 of the resolution and is refuted on it: the floor is a number without a unit. So is the random margin with which panels are kept off the faces of their layer."
  },
  {
   "property": "C159",
   "status": "partial",
   "theorems": [
    "Tomopt.C159.reconstruction",
    "Tomopt.C159.quantities",
    "Tomopt.C159.telescope",
    "Tomopt.C159.cut_violated",
    "Tomopt.C159.x0",
    "Tomopt.C159.probability",
    "Tomopt.C159.probability_violated"
   ],
   "note": "Proved for true hits always, and for measured hits if no uncertainty is below 1e10 in one unit only. Refuted otherwise: the cut at 1e10 has no unit. Predictions of voxels scale for given probabilities; the probabilities do not, as 1e-7 is added to every uncertainty. Derived uncertainties are inputs."
  },
  {
   "property": "C160",
   "status": "partial",
   "theorems": [
    "Tomopt.C160.replaced",
    "Tomopt.C160.filled",
    "Tomopt.C160.geometry",
    "Tomopt.C160.agrees",
    "Tomopt.C160.cube",
    "Tomopt.C160.broken_violated",
    "Tomopt.C160.cube_violated"
   ],
   "note": "Proved for loads that succeed, after any history. Refuted for loads that fail: they leave the new target and the new materials above the layer at which the layout raised."
  },
  {
   "property": "C161",
   "status": "proved",
   "theorems": [
    "Tomopt.C161.forgets",
    "Tomopt.C161.separately",
    "Tomopt.C161.returned",
    "Tomopt.C161.validated",
    "Tomopt.C161.loading"
   ],
   "note": "For environments in which loading, making an inferrer, and all else depend only on what is listed in `Spec/Separate` (`loading` proves it of loading, C126 of inferrers), and for predictions and validations that return."
  },
  {
   "property": "C162",
   "status": "proved",
   "theorems": [
    "Tomopt.C162.fitting",
    "Tomopt.C162.predicting",
    "Tomopt.C162.recorders",
    "Tomopt.C162.recorders_predict"
   ],
   "note": "Onlookers are callbacks that do not raise and touch neither `fit_params` nor what matters in the world (`Spec/Onlookers`). That `ScatterRecord` and `HitRecord` are onlookers, as far as saving does not raise, are `recorders` and `recorders_predict`; of other library callbacks it is not claimed."
  }
 ]
}