{"id": "C01", "title": "Hits stay aligned with their muons", "statement": "In a MuonBatch, after any history of displacements, angular scatterings, propagations, filters, snapshots and hit recordings (each recording supplying one row per current muon), every recorded hit tensor at every detector position has exactly one row per surviving muon, and row i of every tensor is the row that was recorded for the muon that is now row i.", "quantifier": "every batch, every finite sequence of MuonBatch operations, every mask and every hit content", "why_tests_cant": "misalignment only appears for particular interleavings of removals and recordings; tests sample a few histories", "anchors": ["tomopt/muon/muon_batch.py:MuonBatch.filter_muons", "tomopt/muon/muon_batch.py:MuonBatch.append_hits", "tomopt/muon/muon_batch.py:MuonBatch.remove_upwards_muons"]}
{"id": "C02", "title": "Muons are conserved", "statement": "At any time the surviving muons together with the removed (upwards_muons) muons are exactly the muons the batch was created with: none duplicated, none lost, survivors keep their relative order and a removed muon never comes back.", "quantifier": "every batch and every finite sequence of operations", "why_tests_cant": "needs induction over histories", "anchors": ["tomopt/muon/muon_batch.py:MuonBatch.filter_muons", "tomopt/muon/muon_batch.py:MuonBatch.upwards_muons"]}
{"id": "C03", "title": "Surviving muons travel downwards", "statement": "After any angular scattering call (scatter_dtheta_dphi or scatter_dtheta_xy, any angles, any mask) every muon left in the batch has 0 <= theta < pi/2 and 0 <= phi < 2pi, provided the muons had before the call; and the removed ones are exactly those that did not qualify.", "quantifier": "every batch with in-range angles, every scattering amount including huge and negative ones, every mask", "why_tests_cant": "range claim over all real angles and wrap-arounds", "anchors": ["tomopt/muon/muon_batch.py:MuonBatch.scatter_dtheta_dphi", "tomopt/muon/muon_batch.py:MuonBatch.scatter_dtheta_xy", "tomopt/muon/muon_batch.py:MuonBatch.remove_upwards_muons"]}
{"id": "C04", "title": "Angle wrapping preserves the physical direction", "statement": "scatter_dtheta_dphi gives the muon the unit direction of polar angle theta+dtheta and azimuth phi+dphi; folding back into the canonical ranges never changes that direction.", "quantifier": "every theta, phi, dtheta, dphi", "why_tests_cant": "continuum of angles including multiples of pi", "anchors": ["tomopt/muon/muon_batch.py:MuonBatch.scatter_dtheta_dphi"]}
{"id": "C05", "title": "theta/phi and theta_x/theta_y are inverse descriptions", "statement": "For a non-vertical downward muon, converting (theta, phi) to (theta_x, theta_y) and back returns the same angles, and conversely for every non-zero projected-angle pair below pi/2; so scatter_dtheta_xy with no angular change alters nothing. For an exactly vertical muon the library loses phi (NaN) and removes the muon.", "quantifier": "every theta in (0, pi/2), phi in [0, 2pi); every theta_x, theta_y in (-pi/2, pi/2)", "why_tests_cant": "all four quadrants and the axes of a continuum; the vertical case has measure zero in random tests", "anchors": ["tomopt/muon/muon_batch.py:MuonBatch.phi_from_theta_xy", "tomopt/muon/muon_batch.py:MuonBatch.theta_from_theta_xy", "tomopt/muon/muon_batch.py:MuonBatch.theta_x_from_theta_phi", "tomopt/muon/muon_batch.py:MuonBatch.theta_y_from_theta_phi", "tomopt/muon/muon_batch.py:MuonBatch.scatter_dtheta_xy"]}
{"id": "C06", "title": "Propagation is exact straight-line flight", "statement": "propagate_dz(dz) lowers every selected muon by exactly dz and moves it along its own direction; propagating by a then b equals propagating by a+b, propagating by -a undoes a, propagate_d(d) moves exactly distance d, both agree when d = dz/cos(theta), unselected muons and all angles, momenta are untouched.", "quantifier": "every batch, mask, distance", "why_tests_cant": "algebraic law over reals", "anchors": ["tomopt/muon/muon_batch.py:MuonBatch.propagate_dz", "tomopt/muon/muon_batch.py:MuonBatch.propagate_d"]}
{"id": "C07", "title": "xy windows are half-open and tile", "statement": "get_xy_mask(low, high) selects exactly the muons with low <= xy < high (a missing bound is no bound), so adjacent windows never share a muon and a tiling of the plane by windows selects every muon exactly once.", "quantifier": "every muon, every grid of windows", "why_tests_cant": "boundary cases on every cell edge", "anchors": ["tomopt/muon/muon_batch.py:MuonBatch.get_xy_mask"]}
{"id": "C08", "title": "copy() is an independent batch", "statement": "A copied batch has the same positions, momenta and directions, no hits and no history; no later operation on either batch is visible through the other.", "quantifier": "every batch and every pair of later operation histories on the two batches", "why_tests_cant": "aliasing shows only for some in-place operations", "anchors": ["tomopt/muon/muon_batch.py:MuonBatch.copy", "tomopt/muon/muon_batch.py:MuonBatch.__init__"]}
{"id": "C09", "title": "get_hits returns each muon's hits in recording order", "statement": "get_hits raises ValueError exactly when nothing was recorded; otherwise element (i, j) of each variable is the j-th recorded row of the i-th muon, and with an xy window the rows are exactly those of the muons within the window, in order.", "quantifier": "every recording history and window", "why_tests_cant": "stacking axis and filtering order over all sizes", "anchors": ["tomopt/muon/muon_batch.py:MuonBatch.get_hits", "tomopt/muon/muon_batch.py:MuonBatch.append_hits"]}
{"id": "C10", "title": "A passive layer delivers every muon to its bottom", "statement": "Whatever the material, scattering outcomes and entry heights, if PassiveLayer.forward returns then every surviving muon is exactly at the bottom face z - size.", "quantifier": "every batch, layer, material and sequence of scattering outcomes", "why_tests_cant": "adversarial scattering outcomes", "anchors": ["tomopt/volume/layer.py:PassiveLayer.forward", "tomopt/volume/layer.py:PassiveLayer.scatter_and_propagate"]}
{"id": "C11", "title": "Traversal of a passive layer terminates", "statement": "PassiveLayer.forward returns after at most ceil(size/(step*cos theta_max))+1 passes when the material does not displace muons upwards by more than a step gains; without material the bound is unconditional for downward muons.", "quantifier": "every batch, layer geometry and admissible scattering sequence", "why_tests_cant": "a loop bound over all inputs", "anchors": ["tomopt/volume/layer.py:PassiveLayer.forward"]}
{"id": "C12", "title": "Voxel index of a muon is in range and correct", "statement": "For a muon inside the layer footprint the voxel index used to look up the radiation length is inside the material array and the muon is within the footprint of that voxel; muons outside the footprint are never scattered.", "quantifier": "every muon position and every layer whose sides are whole numbers of voxels", "why_tests_cant": "all positions including faces", "anchors": ["tomopt/volume/layer.py:PassiveLayer.abs2idx", "tomopt/volume/layer.py:PassiveLayer.mu_abs2idx", "tomopt/volume/layer.py:PassiveLayer.scatter_and_propagate"]}
{"id": "C13", "title": "A detector layer records one hit per panel, top panel first", "statement": "PanelDetectorLayer.forward records for every muon exactly one hit per panel, in order of decreasing panel height whatever order the panels were given in and wherever the optimiser moved them, each hit taken with the muon at that panel's height, and leaves muons at the layer bottom.", "quantifier": "every set of panels (any number, any heights) and every batch", "why_tests_cant": "permutations of panels of any number", "anchors": ["tomopt/volume/layer.py:PanelDetectorLayer.forward", "tomopt/volume/layer.py:PanelDetectorLayer.get_panel_zorder", "tomopt/volume/layer.py:PanelDetectorLayer.yield_zordered_panels"]}
{"id": "C14", "title": "Volume traversal visits layers top to bottom and snapshots after each", "statement": "Volume.forward applies the budget first, then every layer once in order, ending with one position snapshot per layer and all muons at the bottom of the last layer.", "quantifier": "every volume and batch", "why_tests_cant": "arbitrary number of layers", "anchors": ["tomopt/volume/volume.py:Volume.forward"]}
{"id": "C15", "title": "Voxel grid enumeration is a bijection", "statement": "xyz_edges lists every voxel of the passive volume exactly once, with z fastest and starting at the lowest corner; flat index and (ix, iy, iz) determine each other.", "quantifier": "every grid size", "why_tests_cant": "unbounded sizes", "anchors": ["tomopt/volume/volume.py:Volume.build_xyz_edges", "tomopt/volume/volume.py:Volume.xyz_edges", "tomopt/volume/volume.py:Volume.xyz_centres"]}
{"id": "C16", "title": "Coordinate lookup agrees with the voxel grid and material cube", "statement": "For any point strictly inside the passive volume lookup_passive_xyz_coords returns the indices of the voxel containing it, and get_rad_cube at those indices is the radiation length of the layer and cell containing the point.", "quantifier": "every volume, every point inside", "why_tests_cant": "all points; ordering of layers top-down versus cube bottom-up", "anchors": ["tomopt/volume/volume.py:Volume.lookup_passive_xyz_coords", "tomopt/volume/volume.py:Volume.get_rad_cube"]}
{"id": "C17", "title": "Coordinate lookup never returns an index outside the cube", "statement": "lookup_passive_xyz_coords either raises ValueError or returns valid indices.", "quantifier": "every point", "why_tests_cant": "fails only on the exact upper faces", "anchors": ["tomopt/volume/volume.py:Volume.lookup_passive_xyz_coords"]}
{"id": "C18", "title": "Coordinate lookup does not modify its argument", "statement": "Looking up a tensor of coordinates leaves the tensor unchanged, so repeating a lookup gives the same answer.", "quantifier": "every tensor and volume whose passive region does not start at z=0", "why_tests_cant": "aliasing: first call is right, second is wrong", "anchors": ["tomopt/volume/volume.py:Volume.lookup_passive_xyz_coords"]}
{"id": "C19", "title": "Budget is fully and exactly spent", "statement": "With a budget set, for any learnable budget weights the costs of all panels after assignment are non-negative and sum to the budget.", "quantifier": "every budget >= 0, every weight vector, every arrangement of layers and panels", "why_tests_cant": "all real weights", "anchors": ["tomopt/volume/volume.py:Volume.assign_budget", "tomopt/volume/layer.py:PanelDetectorLayer.assign_budget", "tomopt/volume/panel.py:DetectorPanel.assign_budget", "tomopt/volume/panel.py:DetectorPanel.get_cost"]}
{"id": "C20", "title": "Every budget share goes to exactly one panel", "statement": "Budget weights are consumed left to right, one per panel, layer after layer, with none skipped, reused or left over; within a layer they go to the panels in decreasing height.", "quantifier": "every number of layers and panels", "why_tests_cant": "index arithmetic over unbounded lists", "anchors": ["tomopt/volume/volume.py:Volume.assign_budget", "tomopt/volume/volume.py:Volume._configure_budget", "tomopt/volume/layer.py:PanelDetectorLayer.assign_budget"]}
{"id": "C21", "title": "Panel scaling preserves shape", "statement": "Assigning a budget to a panel makes its cost equal that budget and keeps its centre and aspect ratio; assigning None leaves cost at nominal.", "quantifier": "every positive span, cost rate and budget", "why_tests_cant": "real algebra", "anchors": ["tomopt/volume/panel.py:DetectorPanel.assign_budget", "tomopt/volume/panel.py:DetectorPanel.get_scaled_xy_span", "tomopt/volume/panel.py:DetectorPanel.get_cost"]}
{"id": "C22", "title": "Conforming a detector keeps panels physical", "statement": "After conform_detector every panel centre is within the layer footprint, every height is strictly usable within the layer and spans are within [1/20, 10] of the layer width, whatever the optimiser did; a second conform with the same jitter changes nothing.", "quantifier": "every parameter vector after any optimiser history", "why_tests_cant": "all reals", "anchors": ["tomopt/volume/layer.py:PanelDetectorLayer.conform_detector", "tomopt/volume/panel.py:DetectorPanel.clamp_params"]}
{"id": "C23", "title": "Panel response is bounded by its nominal values", "statement": "Training-time resolution and efficiency are positive and never exceed nominal values, are maximal at the panel centre and decrease with distance in each axis; in realistic validation they are nominal inside the panel and zero outside.", "quantifier": "every panel, hit position", "why_tests_cant": "all reals", "anchors": ["tomopt/volume/panel.py:DetectorPanel.get_resolution", "tomopt/volume/panel.py:DetectorPanel.get_efficiency", "tomopt/volume/panel.py:DetectorPanel.get_gauss"]}
{"id": "C24", "title": "Reconstructed hits stay on the panel in realistic validation", "statement": "In realistic validation the reconstructed hit of any muon crossing the panel lies on the panel, whatever the smearing; muons missing the panel get infinite uncertainty and zero efficiency. In training each hit is displaced along each axis by the drawn noise divided by that axis' resolution, and carries the reciprocal of that resolution as its uncertainty.", "quantifier": "every panel, muon and noise value", "why_tests_cant": "unbounded Gaussian noise", "anchors": ["tomopt/volume/panel.py:DetectorPanel.get_hits", "tomopt/volume/panel.py:DetectorPanel.get_xy_mask"]}
{"id": "C25", "title": "Sigmoid panel response is bounded and tightens to the sharp panel", "statement": "The sigmoid panel response is 1 at the centre, in (0,1], symmetric and decreasing away from the centre; non-positive smoothness is rejected.", "quantifier": "every smoothness > 0, position", "why_tests_cant": "all reals", "anchors": ["tomopt/volume/panel.py:SigmoidDetectorPanel.sig_model", "tomopt/volume/panel.py:SigmoidDetectorPanel.smooth"]}
{"id": "C26", "title": "Track fit is the weighted least-squares line", "statement": "get_muon_trajectory returns, per axis, the line that minimises the weighted sum of squared residuals, so hits on a straight line are reproduced exactly whatever the weights.", "quantifier": "every number (>= 2) of hits with distinct heights, every positive weights", "why_tests_cant": "optimality over all lines", "anchors": ["tomopt/inference/scattering.py:ScatterBatch.get_muon_trajectory"]}
{"id": "C27", "title": "PoCA is the midpoint of closest approach", "statement": "The reported scatter location is the midpoint of the shortest segment joining the incoming and outgoing lines; when the lines meet it is their intersection.", "quantifier": "every pair of non-parallel lines", "why_tests_cant": "minimality over all points of two lines", "anchors": ["tomopt/inference/scattering.py:ScatterBatch._compute_scatters", "tomopt/inference/scattering.py:ScatterBatch.poca_xyz"]}
{"id": "C28", "title": "Track angles are canonical and reproduce the track", "statement": "theta is in [0, pi) and phi in [0, 2pi) and they are the spherical angles of the (downward) track vector.", "quantifier": "every non-degenerate track vector", "why_tests_cant": "quadrants and axes", "anchors": ["tomopt/inference/scattering.py:ScatterBatch._compute_theta", "tomopt/inference/scattering.py:ScatterBatch._compute_phi"]}
{"id": "C29", "title": "Scattering angle is the angle between tracks", "statement": "The total scattering angle is in [0, pi], zero exactly for parallel tracks and unchanged when the tracks are swapped or rescaled; the scattering angles in the zx and zy planes are the absolute differences of the projected angles of the two tracks, in [0, pi), and are both zero exactly for parallel downward tracks.", "quantifier": "every pair of non-zero track vectors", "why_tests_cant": "Cauchy-Schwarz over reals", "anchors": ["tomopt/inference/scattering.py:ScatterBatch._compute_theta_msc", "tomopt/inference/scattering.py:ScatterBatch.theta_msc"]}
{"id": "C30", "title": "Change of direction is decomposed consistently", "statement": "The (dtheta, dphi) reported for a scatter bring the incoming direction to the outgoing direction, and among the two admissible decompositions the smaller is reported.", "quantifier": "every pair of in-range angles", "why_tests_cant": "wrap-around cases", "anchors": ["tomopt/inference/scattering.py:ScatterBatch._compute_dtheta_dphi_scatter"]}
{"id": "C31", "title": "Scatter selection is half-open in the volume", "statement": "get_scatter_mask keeps exactly scatters whose location is inside the half-open passive volume.", "quantifier": "every location", "why_tests_cant": "faces", "anchors": ["tomopt/inference/scattering.py:ScatterBatch.get_scatter_mask"]}
{"id": "C32", "title": "Filtering scatters works for every batch size", "statement": "Filtering keeps every derived quantity aligned one row per kept muon for any number of muons, including one.", "quantifier": "every batch size", "why_tests_cant": "size-one corner", "anchors": ["tomopt/inference/scattering.py:ScatterBatch._filter_scatters"]}
{"id": "C33", "title": "Scatter reconstruction uses the right panels", "statement": "The hits above and below are split at the number of panels above, so the incoming track uses only hits above and the outgoing only hits below, in recorded order.", "quantifier": "every number of panels above and below", "why_tests_cant": "index arithmetic", "anchors": ["tomopt/inference/scattering.py:ScatterBatch._extract_hits", "tomopt/inference/scattering.py:ScatterBatch._compute_tracks"]}
{"id": "C34", "title": "Muon efficiency is the probability of two or more hits on each side", "statement": "The efficiency assigned to a muon is the product of the probabilities that at least two panels fire above and at least two below, for independent panels; it lies in [0,1] and rises with each panel efficiency.", "quantifier": "every number (>= 2) of panels each side, every efficiency in [0,1]", "why_tests_cant": "sum over all subsets of panels", "anchors": ["tomopt/inference/volume.py:PanelX0Inferrer.compute_efficiency"]}
{"id": "C35", "title": "Prediction reflects all scatters added so far", "statement": "An inferrer's prediction depends only on the sequence of added scatter batches, never on when predictions were requested in between; adding a batch invalidates cached values.", "quantifier": "every interleaving of add_scatters and get_prediction", "why_tests_cant": "histories", "anchors": ["tomopt/inference/volume.py:AbsVolumeInferrer.add_scatters", "tomopt/inference/volume.py:AbsX0Inferrer._reset_vars", "tomopt/inference/volume.py:AbsX0Inferrer.get_prediction"]}
{"id": "C36", "title": "Non-finite muons are dropped consistently", "statement": "When scatters are combined, a muon is used iff all its quantities and uncertainties are finite, all combined tensors keep the same rows, and finite muons are never dropped.", "quantifier": "every set of batches and any pattern of NaN/inf", "why_tests_cant": "patterns over unbounded batches", "anchors": ["tomopt/inference/volume.py:AbsX0Inferrer._combine_scatters"]}
{"id": "C37", "title": "Weighted averages stay within the data", "statement": "The weighted mean/RMS used for X0 lies between the smallest and largest inputs and is unchanged when all weights are scaled.", "quantifier": "every non-negative weight vector with positive sum", "why_tests_cant": "all real data", "anchors": ["tomopt/inference/volume.py:AbsX0Inferrer._weighted_mean", "tomopt/inference/volume.py:AbsX0Inferrer._weighted_rms"]}
{"id": "C38", "title": "X0 inference inverts the scattering model", "statement": "Plugging the RMS angle given by the scattering formula (first order) for a material of radiation length X0 into the inference formula gives back X0.", "quantifier": "every X0, momentum, angles, voxel size > 0", "why_tests_cant": "algebra over reals", "anchors": ["tomopt/inference/volume.py:AbsX0Inferrer.x0_from_scatters", "tomopt/volume/layer.py:PassiveLayer._pdg_scatter"]}
{"id": "C39", "title": "Per-voxel results refer to the right voxel", "statement": "The per-voxel tensors are in (z, x, y) order: entry (k, i, j) is computed from the edges of voxel (i, j, k).", "quantifier": "every grid shape", "why_tests_cant": "axis permutations over unbounded shapes", "anchors": ["tomopt/inference/volume.py:AbsX0Inferrer.muon_probs_per_voxel_zxy", "tomopt/volume/volume.py:Volume.xyz_edges"]}
{"id": "C40", "title": "Number of parameter updates per epoch", "statement": "A training epoch over N passive volumes with batch size b makes exactly floor(N/b) update rounds, each from exactly b consecutive volumes; leftovers contribute nothing. Validation scans all N and updates nothing.", "quantifier": "every N, b >= 1", "why_tests_cant": "all sizes", "anchors": ["tomopt/optimisation/wrapper/volume_wrapper.py:AbsVolumeWrapper._scan_volumes"]}
{"id": "C41", "title": "Callback protocol is well nested", "statement": "For every run the callback events form the documented nesting: epoch > volume batch > volume > muon batch, backward steps after each volume batch.", "quantifier": "every number of epochs, passives, muon batches", "why_tests_cant": "trace language over all sizes", "anchors": ["tomopt/optimisation/wrapper/volume_wrapper.py:AbsVolumeWrapper._fit_epoch", "tomopt/optimisation/wrapper/volume_wrapper.py:AbsVolumeWrapper._scan_volumes", "tomopt/optimisation/wrapper/volume_wrapper.py:AbsVolumeWrapper._scan_volume"]}
{"id": "C42", "title": "Loss of a batch is the mean of its volumes", "statement": "The value back-propagated is the sum of the available losses divided by batch size, and no update happens if no volume gave a prediction.", "quantifier": "every pattern of missing predictions", "why_tests_cant": "patterns", "anchors": ["tomopt/optimisation/wrapper/volume_wrapper.py:AbsVolumeWrapper._scan_volumes"]}
{"id": "C43", "title": "fit and predict clean up", "statement": "After fit or predict returns or raises, fit_params is reset, and predict leaves the caller's callback list and the passive yielder as they were.", "quantifier": "every exception point", "why_tests_cant": "crash points", "anchors": ["tomopt/optimisation/wrapper/volume_wrapper.py:AbsVolumeWrapper.fit", "tomopt/optimisation/wrapper/volume_wrapper.py:AbsVolumeWrapper.predict"]}
{"id": "C44", "title": "save then load restores the wrapper", "statement": "Loading a file written by save restores the volume parameters and every optimiser state, and applies the restored budget weights to the panels.", "quantifier": "every optimiser naming and state", "why_tests_cant": "naming-dependent", "anchors": ["tomopt/optimisation/wrapper/volume_wrapper.py:AbsVolumeWrapper.save", "tomopt/optimisation/wrapper/volume_wrapper.py:AbsVolumeWrapper.load"]}
{"id": "C45", "title": "Optimiser freeze during warm-up", "statement": "With warm-up callbacks each requesting n_i >= 1 epochs, optimiser steps are skipped for exactly the first sum n_i training epochs and never after; each warm-up is active in its own consecutive epochs.", "quantifier": "every list of warm-ups and number of epochs", "why_tests_cant": "schedules of any length", "anchors": ["tomopt/optimisation/callbacks/warmup_callbacks.py:WarmupCallback", "tomopt/optimisation/callbacks/warmup_callbacks.py:CostCoefWarmup"]}
{"id": "C46", "title": "Post-warm-up callbacks start right after warm-up", "statement": "A post-warm-up callback becomes active at the first epoch after all warm-ups finished.", "quantifier": "every order of the callback list", "why_tests_cant": "depends on order", "anchors": ["tomopt/optimisation/callbacks/warmup_callbacks.py:PostWarmupCallback"]}
{"id": "C47", "title": "One-cycle schedule shape", "statement": "The one-cycle schedule raises the rate for exactly warmup_length epochs to the mid value, then lowers it to the final value, never leaving the [min,max] of the given rates.", "quantifier": "every length of training and warm-up", "why_tests_cant": "schedules", "anchors": ["tomopt/optimisation/callbacks/opt_callbacks.py:OneCycle", "tomopt/optimisation/callbacks/opt_callbacks.py:AbsOptSchedule"]}
{"id": "C48", "title": "Panel update limiter bounds every step", "statement": "With PanelUpdateLimiter no panel parameter changes by more than its maximum in one update, and an update within limits is untouched.", "quantifier": "every update", "why_tests_cant": "all reals", "anchors": ["tomopt/optimisation/callbacks/detector_callbacks.py:PanelUpdateLimiter"]}
{"id": "C49", "title": "Panel centring keeps panels independent", "statement": "After centring, all panels of a layer share the mean position, and later updates move each panel only by its own gradient.", "quantifier": "every number of panels and updates", "why_tests_cant": "aliasing", "anchors": ["tomopt/optimisation/callbacks/detector_callbacks.py:PanelCentring"]}
{"id": "C50", "title": "Non-finite gradients are neutralised", "statement": "NoMoreNaNs leaves no NaN gradient.", "quantifier": "every gradient", "why_tests_cant": "patterns", "anchors": ["tomopt/optimisation/callbacks/grad_callbacks.py:NoMoreNaNs"]}
{"id": "C51", "title": "Reported losses are the averages of what happened", "statement": "MetricLogger histories equal the averages over the epoch of the recorded losses.", "quantifier": "every run", "why_tests_cant": "histories", "anchors": ["tomopt/optimisation/callbacks/monitors.py:MetricLogger"]}
{"id": "C52", "title": "Budget penalty is continuous and increasing", "statement": "The cost penalty is >= 0, increasing in the cost, 1 exactly at budget, and continuous there; the steep form is linear above budget.", "quantifier": "every cost, budget > 0", "why_tests_cant": "all reals", "anchors": ["tomopt/optimisation/loss/loss.py:AbsDetectorLoss._get_budget_coef"]}
{"id": "C53", "title": "Integer-class loss properties", "statement": "The integer class loss is non-negative, zero iff all probability is on the target, and grows with the probability and the distance of wrong classes.", "quantifier": "every class list, prediction and target", "why_tests_cant": "all simplices", "anchors": ["tomopt/optimisation/loss/sub_losses.py:integer_class_loss"]}
{"id": "C54", "title": "Class targets map every X0 to its class", "statement": "Relabelling X0 targets to class ids maps each voxel to the class of its material.", "quantifier": "every material table and target", "why_tests_cant": "interference between ids and values", "anchors": ["tomopt/optimisation/loss/loss.py:VoxelClassLoss", "tomopt/optimisation/loss/loss.py:VolumeClassLoss", "tomopt/utils.py:x0targs_to_classtargs", "tomopt/utils.py:class_to_x0preds"]}
{"id": "C55", "title": "Random block is inside and present", "statement": "A random block passive lies within the volume, intersects at least one layer, contains at least one voxel, and the target is the X0 of the block material.", "quantifier": "every random draw and geometry", "why_tests_cant": "draws", "anchors": ["tomopt/optimisation/data/passives.py:RandomBlockPassiveGenerator", "tomopt/optimisation/data/passives.py:AbsBlockPassiveGenerator"]}
{"id": "C56", "title": "Passive yielder yields each passive once per pass", "statement": "Iterating yields a permutation of the given passives (fixed order without shuffle), or exactly n generated ones; len agrees.", "quantifier": "every list, permutation, generator", "why_tests_cant": "permutations", "anchors": ["tomopt/optimisation/data/passives.py:PassiveYielder"]}
{"id": "C57", "title": "Mixture radiation length is a proper mean", "statement": "The X0 of a mixture lies between the smallest and largest X0 of its components, is unchanged by scaling the fractions, and a single component gives its own X0; bad argument combinations are rejected.", "quantifier": "every list of components", "why_tests_cant": "all reals", "anchors": ["tomopt/utils.py:x0_from_mixture"]}
{"id": "C58", "title": "Muon generator samples valid muons", "statement": "Every generated muon has x,y in range, theta, energy within the configured ranges, and the flattened flux index decodes to one (theta, energy) bin with probability proportional to its flux.", "quantifier": "every random draw", "why_tests_cant": "all draws", "anchors": ["tomopt/muon/generation.py:AbsMuonGenerator.generate_set", "tomopt/muon/generation.py:AbsMuonGenerator.__init__"]}
{"id": "C59", "title": "Resampled muons hit the volume", "statement": "MuonResampler returns the requested number of muons, each of which would cross the passive volume if unscattered.", "quantifier": "every generator output sequence", "why_tests_cant": "rejection loop", "anchors": ["tomopt/optimisation/callbacks/data_callbacks.py:MuonResampler"]}
{"id": "C60", "title": "Ladle fill level encoding round-trips", "statement": "The integer class of a furnace fill height converts back to the lower edge of its layer; distinct layers have distinct classes; predictions are layer edges.", "quantifier": "every layer index", "why_tests_cant": "all sizes", "anchors": ["tomopt/benchmarks/ladle_furnace/loss.py:LadleFurnaceIntClassLoss._targ2int", "tomopt/benchmarks/ladle_furnace/inference.py:LadleFurnaceFillLevelInferrer._class2float"]}
{"id": "C61", "title": "Warning-free edge cases fail loudly", "statement": "An alternative scattering model that is unavailable, unknown scattering model names, unsupported reductions, panels with non-positive resolution or efficiency, and budgets on heat-map detectors are rejected with an exception instead of producing numbers.", "quantifier": "every argument", "why_tests_cant": "all arguments", "anchors": ["tomopt/volume/layer.py:PassiveLayer._compute_scattering", "tomopt/volume/scatter_model.py:PGeant.compute_scattering", "tomopt/volume/panel.py:DetectorPanel.__init__", "tomopt/volume/heatmap.py:DetectorHeatMap.assign_budget", "tomopt/optimisation/loss/sub_losses.py:integer_class_loss"]}
{"id": "C62", "title": "Deflection and displacement of a scattered muon point the same way", "statement": "In the multiple-scattering model (PDG) the transverse displacement and the angular deflection share a random component, so with the independent component zero a muon is displaced towards the side it is deflected to.", "quantifier": "every muon direction, momentum, radiation length, step and random draw", "why_tests_cant": "a sign over a continuum; the library's tests compare only magnitudes and marginal distributions", "anchors": ["tomopt/volume/layer.py:PassiveLayer._pdg_scatter"]}
{"id": "C63", "title": "Scattering displacement is transverse to the flight direction", "statement": "The displacement applied by the scattering model is orthogonal to the muon's direction and its length is that drawn in the muon frame.", "quantifier": "every direction and draw", "why_tests_cant": "identity over reals", "anchors": ["tomopt/volume/layer.py:PassiveLayer._pdg_scatter"]}
{"id": "C64", "title": "Volume construction rejects inconsistent layers", "statement": "Volume construction raises exactly when passive layers disagree in footprint or voxel size or devices differ.", "quantifier": "every layer list", "why_tests_cant": "position of the odd layer in an unbounded list", "anchors": ["tomopt/volume/volume.py:Volume._check_passives", "tomopt/volume/volume.py:Volume._get_device"]}
{"id": "C65", "title": "A scattered muon leaves in the direction drawn in its own frame", "statement": "After scattering, the muon's direction is its old direction deflected by the two projected angles drawn in the muon's own frame, whatever its orientation; position and momentum are untouched by the deflection.", "quantifier": "every downward direction, radiation length, momentum, step and draw", "why_tests_cant": "the change of frame must be right for every orientation, tests compare distributions of a few angles", "anchors": ["tomopt/volume/layer.py:PassiveLayer._pdg_scatter", "tomopt/muon/muon_batch.py:MuonBatch.scatter_dtheta_xy"]}
{"id": "C66", "title": "A muon scattered past the horizontal is removed", "statement": "A muon whose deflected direction points upwards leaves the batch (it never continues downwards).", "quantifier": "every downward direction and draw", "why_tests_cant": "rare draws at large angles", "anchors": ["tomopt/volume/layer.py:PassiveLayer._pdg_scatter", "tomopt/muon/muon_batch.py:MuonBatch.remove_upwards_muons"]}
{"id": "C67", "title": "In-frame scattering angles stay below a quarter turn", "statement": "The projected scattering angles used for the change of frame are within (-pi/2, pi/2), as the code's comment requires.", "quantifier": "every draw and every theta0", "why_tests_cant": "tails of a normal distribution", "anchors": ["tomopt/volume/layer.py:PassiveLayer._pdg_scatter"]}
{"id": "C68", "title": "A muon is scattered until it leaves through the bottom", "statement": "As long as a muon is above the bottom face of a passive layer and inside its footprint it keeps being scattered, step by step.", "quantifier": "every layer, batch and sequence of draws", "why_tests_cant": "needs an upward displacement larger than a step, a rare draw", "anchors": ["tomopt/volume/layer.py:PassiveLayer.forward"]}
{"id": "C70", "title": "Entry and exit points lie on the tracks at the volume's top and bottom", "statement": "The position at which a muon is said to enter (leave) the passive volume lies on its incoming (outgoing) fitted track, at exactly the height of the top (bottom) of the volume, for every track that is not horizontal; a horizontal track has no such point.", "quantifier": "every fitted track and every volume height range", "why_tests_cant": "tracks are arbitrary real lines and the extrapolation divides by the track's vertical component", "anchors": ["tomopt/inference/scattering.py: ScatterBatch._compute_xyz_in, _compute_xyz_out, xyz_in, xyz_out"]}
{"id": "C71", "title": "Voxel probabilities add up to the probability of being in the volume", "statement": "The probabilities that a muon scattered in each of the voxels are in [0,1] and together equal the probability, under the same distribution, that it scattered inside the passive volume, whatever the grid (up to the 1e-15 added to each).", "quantifier": "every grid shape and voxel size, every location, uncertainty and distribution", "why_tests_cant": "a telescoping sum over a grid of arbitrary size", "anchors": ["tomopt/inference/volume.py:AbsX0Inferrer.muon_probs_per_voxel_zxy"]}
{"id": "C69", "title": "Heat-map detectors stay in their layer and never beat the nominal response", "statement": "After the detector is conformed, a heat-map detector lies inside its layer: height within the layer, every cluster centre inside the layer's footprint, clusters not moved if already allowed. Efficiency and resolution at any point never exceed the nominal ones.", "quantifier": "every parameter setting, layer footprint and muon position", "why_tests_cant": "parameters are arbitrary reals after optimisation steps; the mixture has any number of clusters", "anchors": ["tomopt/volume/heatmap.py:DetectorHeatMap", "tomopt/volume/heatmap.py:GMM", "tomopt/volume/layer.py:PanelDetectorLayer.conform_detector"]}
{"id": "C73", "title": "Panel smoothness schedule runs from the initial to the final value", "statement": "Over a training of n epochs the sigmoid panels' smoothness follows a geometric sequence, monotone, starting at the initial value and reaching the final value in the last epoch.", "quantifier": "every number of epochs, every pair of positive smoothness values", "why_tests_cant": "schedules of any length, real exponents", "anchors": ["tomopt/optimisation/callbacks/detector_callbacks.py:SigmoidPanelSmoothnessSchedule"]}
{"id": "C74", "title": "Cost coefficient is fixed by the first evaluation", "statement": "Whatever the history of evaluations, the coefficient of the cost is the configured or last explicitly set one, else the inference error of the very first evaluation; each evaluation returns error plus coefficient times penalty, so a detector exactly on budget counts as much as the first error.", "quantifier": "every history of evaluations and explicit settings", "why_tests_cant": "histories of any length; the result depends on the order of evaluations", "anchors": ["tomopt/optimisation/loss/loss.py:AbsDetectorLoss.forward", "tomopt/optimisation/loss/loss.py:AbsDetectorLoss._compute_cost_coef", "tomopt/optimisation/loss/loss.py:VoxelX0Loss"]}
{"id": "C75", "title": "Sampled muons follow the flux", "statement": "The probability that a generated muon's energy and angle fall in a given range is proportional to the integral of the generator's flux over that range (up to the resolution of the binning).", "quantifier": "every configuration of the generator, every bin", "why_tests_cant": "a statement about distributions, not samples", "anchors": ["tomopt/muon/generation.py:AbsMuonGenerator.__init__", "tomopt/muon/generation.py:AbsMuonGenerator.generate_set"]}
{"id": "C76", "title": "Generation area built from a volume covers the volume", "statement": "The x and y ranges chosen by from_volume contain every starting point from which a muon with angle up to min_angle could reach the passive volume.", "quantifier": "every volume, every angle", "why_tests_cant": "all directions and starting points", "anchors": ["tomopt/muon/generation.py:AbsMuonGenerator.from_volume"]}
{"id": "C77", "title": "Reported results belong to one epoch", "statement": "MetricLogger.get_results returns loss and metrics of one and the same validation epoch: the last one, or after loading the best state the first epoch that was best according to the main metric (or the loss without main metric).", "quantifier": "every history of losses and metrics, every list of metrics", "why_tests_cant": "histories of any length", "anchors": ["tomopt/optimisation/callbacks/monitors.py:MetricLogger.get_results"]}
{"id": "C78", "title": "There is one main metric", "statement": "Whatever list of metrics is used, at most one decides: the first that asks for it, and logger and metrics agree on which one, independently of the order of the callbacks.", "quantifier": "every list of metrics, every order of callbacks", "why_tests_cant": "orders and lengths", "anchors": ["tomopt/optimisation/callbacks/eval_metric.py:EvalMetric.on_train_begin", "tomopt/optimisation/callbacks/monitors.py:MetricLogger._reset"]}
{"id": "C79", "title": "Loss composition adds up to one", "statement": "The recorded fractions of the validation loss due to inference error and to cost add up to one.", "quantifier": "every validation epoch", "why_tests_cant": "includes volumes that could not be predicted", "anchors": ["tomopt/optimisation/callbacks/monitors.py:MetricLogger.on_volume_end", "tomopt/optimisation/callbacks/monitors.py:MetricLogger.on_epoch_end"]}
{"id": "C72", "title": "The dense-block statistic separates volumes with and without a block", "statement": "DenseBlockClassifierFromX0s treats the n_block_voxels voxels of lowest X0 as block and the others as background, and returns a statistic near 0 for volumes without a block, near 1 for volumes with a much denser block, that never leaves the range allowed by its rescaling; without an X0 prediction it gives no statistic.", "quantifier": "every X0 prediction of every volume shape, every block size and rescaling", "why_tests_cant": "all predictions and shapes; the tests use one synthetic volume", "anchors": ["tomopt/inference/volume.py:DenseBlockClassifierFromX0s"]}
{"id": "C80", "title": "Furnace class probabilities find the fill level", "statement": "The ladle-furnace classifier turns the X0 predictions into a probability distribution over fill levels that does not depend on a common factor of the X0 values, and whose most probable class is the fill level of a perfectly reconstructed furnace.", "quantifier": "every X0 prediction, every number of layers, every pipeline of filter steps", "why_tests_cant": "all images and pipelines", "anchors": ["tomopt/benchmarks/ladle_furnace/inference.py:EdgeDetLadleFurnaceFillLevelInferrer"]}
{"id": "C81", "title": "predict returns one result per volume, in order", "statement": "VolumeWrapper.predict returns a list with exactly one (prediction, target) pair per passive volume, in the order of the passives, whatever was predicted before with the same handler (also the shared default one); lists returned earlier do not change. If some volume has no prediction the call raises instead of returning a shorter list.", "quantifier": "every sequence of passives and muon batches, every set of callbacks, every earlier use of the handler", "why_tests_cant": "all histories of calls and all callbacks; tests call predict once", "anchors": ["tomopt/optimisation/wrapper/volume_wrapper.py:VolumeWrapper.predict", "tomopt/optimisation/callbacks/pred_callbacks.py:PredHandler"]}
{"id": "C82", "title": "Predictions saved to file stay paired with their targets", "statement": "Save2HDF5PredHandler appends the predictions of each run behind the rows already in the file, never alters earlier rows, and row k of the predictions always belongs to row k of the targets, also when a run is interrupted by an error.", "quantifier": "every sequence of runs on one file, every shape of prediction and target, every failing run", "why_tests_cant": "all histories of runs and failure points", "anchors": ["tomopt/optimisation/callbacks/pred_callbacks.py:Save2HDF5PredHandler", "tomopt/benchmarks/ladle_furnace/inference.py"]}
{"id": "C83", "title": "Detectors do not move during warm-up", "statement": "When fit is run with warm-up callbacks asking for n1, n2, ... training epochs, no optimiser step is taken in the first n1+n2+... training epochs and one step per optimiser and backward pass is taken in every later training epoch.", "quantifier": "every schedule of epochs and batches, every other callback that does not touch the warm-up state", "why_tests_cant": "all schedules and callback orders; the real training loop is too slow for more than a few", "anchors": ["tomopt/optimisation/callbacks/warmup_callbacks.py:WarmupCallback", "tomopt/optimisation/wrapper/volume_wrapper.py:VolumeWrapper._scan_volumes"]}
{"id": "C84", "title": "The warmed-up cost coefficient is the median error of its epochs", "statement": "After the epochs of a CostCoefWarmup the cost coefficient of the loss is the median of the inference errors of exactly the training volumes predicted in those epochs, hence a finite number between the smallest and the largest of them, whatever the coefficient was before, and it no longer changes.", "quantifier": "every list of callbacks, every schedule, every sequence of errors and of missing predictions", "why_tests_cant": "all sequences of errors and positions among other warm-ups", "anchors": ["tomopt/optimisation/callbacks/warmup_callbacks.py:CostCoefWarmup", "tomopt/optimisation/loss/loss.py:AbsDetectorLoss._compute_cost_coef"]}
{"id": "C85", "title": "The warmed-up learning rates move parameters by the requested amounts", "statement": "After the epochs of an OptConfig the learning rate of each listed optimiser is finite and such that a parameter whose gradient has the median size seen in those epochs moves by exactly the requested rate; before, learning rates are unchanged. The warm-up never makes a fit fail.", "quantifier": "every list of callbacks, every schedule, every history of gradients including NaN and missing ones", "why_tests_cant": "all histories of gradients", "anchors": ["tomopt/optimisation/callbacks/warmup_callbacks.py:OptConfig"]}
{"id": "C86", "title": "Scattering in projected angles keeps the direction's quadrant", "statement": "Scattering a muon by angles in the x and y projections produces the muon whose slopes are those of the tangents of the summed projected angles, with an azimuth in [0, 2π), for every starting direction including exactly vertical ones with any azimuth; floating-point signed zeros do not change the outcome.", "quantifier": "every polar angle below π/2, every azimuth, every pair of scattering angles, both signs of zero", "why_tests_cant": "only exact zeros with a particular sign trigger the difference", "anchors": ["tomopt/muon/muon_batch.py:MuonBatch.scatter_dtheta_xy", "tomopt/muon/muon_batch.py:MuonBatch.theta_x_from_theta_phi", "tomopt/muon/muon_batch.py:MuonBatch.phi_from_theta_xy"]}
{"id": "C87", "title": "The fill level from points of closest approach is a weighted average of their heights", "statement": "The prediction is absent exactly if no scatters were recorded; otherwise it is a finite height between the lowest and highest point of closest approach of the detected muons, moves with them, and weights each muon by the probability of being over the volume, with pixels tiling the volume, down-weighted smoothly towards the sides.", "quantifier": "every set of scatters, uncertainty, efficiency, smoothness and volume size, every distribution function", "why_tests_cant": "percentile clipping over arbitrary lists and volumes of any aspect ratio", "anchors": ["tomopt/benchmarks/ladle_furnace/inference.py:PocaZLadleFurnaceFillLevelInferrer"]}
{"id": "C88", "title": "Generated wall layouts are walls that can be loaded", "statement": "Every target generated for the small-walls benchmark is a layout of the requested number of walls: runs of neighbouring columns at least the minimal length, all on one ground level in the lower half, at least the minimal height and inside the volume; generation ends without an error whatever is drawn; and the layout can be loaded into the volume.", "quantifier": "every grid, minimal height, minimal and maximal length, and every sequence of random draws", "why_tests_cant": "the walls are random walks whose length and shape depend on every draw", "anchors": ["tomopt/benchmarks/small_walls/data.py:SmallWallsPassiveGenerator"]}
{"id": "C89", "title": "A generated lorry load contains the block of uranium it was asked for", "statement": "A generated lorry contains a block of uranium exactly if the draw is below the configured probability; the block is a cuboid of the configured volume, inside the cargo, above the lorry's floor and below the stated fill level; the floor is the lorry's material; the target is 1 exactly if there is a block; and a generated layout is the same volume whenever it is loaded.", "quantifier": "every geometry, volume, fill fraction, material list and sequence of draws", "why_tests_cant": "block sizes are factorisations of a real volume in arbitrary orientation, clipped silently by slices", "anchors": ["tomopt/benchmarks/u_lorry/data.py:ULorryPassiveGenerator"]}
{"id": "C90", "title": "Benchmark volumes are stacked without gaps and have the panels asked for", "statement": "The layers of a benchmark volume follow one another without gap or overlap down to the ground, with as many passive layers as fit; every panel lies inside its layer and has the resolution and efficiency asked for; settings that are not positive are refused.", "quantifier": "every voxel size, height, detector height, span, resolution and efficiency", "why_tests_cant": "heights are rounded; whether gaps appear depends on arithmetic of the sizes", "anchors": ["tomopt/benchmarks/small_walls/volume.py:get_small_walls_volume", "tomopt/benchmarks/ladle_furnace/volume.py"]}
{"id": "C91", "title": "Diagnostic records hold exactly this run's scatters and hits, with the right layer", "statement": "After a fit or a prediction the scatter (hit) record holds what was reconstructed from every batch of muons of that run, in order and nothing from earlier runs, and at most the last batch is missing if the run raised; scatter records contain exactly the points of closest approach inside the passive volume; read as a table, each scatter is labelled with the passive layer it is in and each hit with the panel it is on, counted from the top.", "quantifier": "every run, with any callbacks, volumes and exceptions; every geometry and history of panel positions", "why_tests_cant": "the loops, early stops and exceptions are unbounded, and the labels depend on the geometry and on how panels moved", "anchors": ["tomopt/optimisation/callbacks/diagnostic_callbacks.py:ScatterRecord", "tomopt/optimisation/callbacks/diagnostic_callbacks.py:HitRecord"]}
{"id": "C92", "title": "Every detector parameter is driven by exactly one optimiser", "statement": "A wrapper's optimisers drive exactly the positions, heights and sizes (or centres, norms, widths and heights) of all panels (heat maps) of the volume, each by the optimiser of its name and exactly once, and the budget weights iff an optimiser for them is given; volumes that do not suit the wrapper are rejected when it is built.", "quantifier": "every volume with any number of layers and panels, every choice of optimisers", "why_tests_cant": "the number and kinds of detectors are unbounded, and a parameter left out or driven twice shows only as a slightly different training", "anchors": ["tomopt/optimisation/wrapper/volume_wrapper.py:PanelVolumeWrapper._build_opt", "tomopt/optimisation/wrapper/volume_wrapper.py:HeatMapVolumeWrapper._build_opt"]}
{"id": "C93", "title": "Learning rates and momenta read back, and schedules reach only their optimiser", "statement": "Setting the learning rate or momentum of an optimiser by name reads back and changes nothing else of this or any other optimiser (the second beta stays); a one-cycle schedule moves the two quantities of the named optimiser independently, each through its own cycle and within its own range, also when the callback is used again, and leaves a quantity whose initial value is not given alone; the whole optimiser gets the new values.", "quantifier": "every set of optimisers with any settings, every history of a fit, first or repeated", "why_tests_cant": "settings live in nested dictionaries shared by callbacks, over histories of any length", "anchors": ["tomopt/optimisation/wrapper/volume_wrapper.py:AbsVolumeWrapper.get_opt_lr", "tomopt/optimisation/wrapper/volume_wrapper.py:AbsVolumeWrapper.set_opt_lr", "tomopt/optimisation/wrapper/volume_wrapper.py:AbsVolumeWrapper.get_opt_mom", "tomopt/optimisation/wrapper/volume_wrapper.py:AbsVolumeWrapper.set_opt_mom", "tomopt/optimisation/callbacks/opt_callbacks.py:AbsOptSchedule", "tomopt/optimisation/callbacks/opt_callbacks.py:OneCycle"]}
{"id": "C94", "title": "Callbacks are told about exactly the callbacks in use", "statement": "In every fit the lists of warm-up, cyclic and metric callbacks that other callbacks see are exactly those passed by the user, in the user's order, the announced warm-up is the sum of theirs, and the metric logger is the first one given or None.", "quantifier": "every list of callbacks of any classes", "why_tests_cant": "lists and class combinations are unbounded", "anchors": ["tomopt/optimisation/wrapper/volume_wrapper.py:AbsVolumeWrapper._sort_cbs", "tomopt/optimisation/wrapper/volume_wrapper.py:AbsVolumeWrapper.fit"]}
{"id": "C95", "title": "Uncertainties of inferred variables are the propagated uncertainties of the muon's own hits", "statement": "The uncertainty of any variable inferred for a muon is the first-order propagation of the uncertainties of its own hits, whatever else is in the batch, so that with independent errors of those standard deviations it is the standard deviation of the variable to first order - exactly for fitted positions, where it is the textbook formula and smaller than that of any other linear unbiased estimate; it scales with the hits' uncertainties and never grows when a hit gets more precise; hits with infinite uncertainty do not count. Uncertainties can be had for every batch and every kind of scatters, and an inferrer whose batch lost all muons still predicts.", "quantifier": "every batch of any number of muons and hits, every differentiable variable, every distribution of independent errors", "why_tests_cant": "an error in the propagation shows as a plausible but wrong number; batches and distributions are unbounded", "anchors": ["tomopt/inference/scattering.py:ScatterBatch._compute_out_var_unc", "tomopt/utils.py:jacobian", "tomopt/inference/volume.py:AbsX0Inferrer._combine_scatters", "tomopt/inference/volume.py:AbsX0Inferrer._get_voxel_zxy_x0_pred_uncs"]}
{"id": "C96", "title": "Heat-map hits are off by noise of the reported size", "statement": "Every muon crossing a heat-map detector leaves a hit at the detector's height, displaced along both axes by noise scaled with the reported uncertainty, with the detector's efficiency at that point; in realistic validation muons outside the detector's range leave nothing usable, and those inside are reported on the detector within their uncertainty.", "quantifier": "every heat map with any clusters, every batch, every noise", "why_tests_cant": "positions, clusters and noise are arbitrary reals; a systematic displacement hides in the noise", "anchors": ["tomopt/volume/heatmap.py:DetectorHeatMap.get_hits", "tomopt/volume/heatmap.py:DetectorHeatMap.get_resolution", "tomopt/volume/heatmap.py:DetectorHeatMap.get_efficiency"]}
{"id": "C97", "title": "Material scatters as strongly as the PDG formula says", "statement": "In each simulation step a muon's direction and position change by random amounts of mean zero whose widths and correlation are those of the PDG review for the crossed radiation lengths and the momentum; the result for a slab does not depend on the number of steps it is crossed in.", "quantifier": "every momentum, radiation length, step length and number of steps, every distribution of independent standard draws", "why_tests_cant": "widths are properties of a distribution and of all numbers of steps; a test sees samples of one setting", "anchors": ["tomopt/volume/layer.py:PassiveLayer._pdg_scatter", "tomopt/core.py:SCATTER_COEF_A", "tomopt/core.py:SCATTER_COEF_B"]}
{"id": "C98", "title": "A voxel averages its muons with the right weights", "statement": "The X0 of a voxel is the inverted scattering formula at averages over the muons, each muon counting in proportion to its efficiency, the probability that it scattered in this voxel, and the inverse variance of the averaged quantity; it does not depend on the order of the muons or on a common factor of the weights. Muons that on average scatter as strongly as a material gives them the material's X0.", "quantifier": "every list of muons, every efficiency, probability, angle, momentum and uncertainty", "why_tests_cant": "a bias of a weighted average is a statement about all samples of muons; a test compares one sample with a recorded number", "anchors": ["tomopt/inference/volume.py:AbsX0Inferrer._get_voxel_zxy_x0_preds", "tomopt/inference/volume.py:AbsX0Inferrer._weighted_rms", "tomopt/inference/volume.py:AbsX0Inferrer.x0_from_scatters"]}
{"id": "C99", "title": "From the muons that enter to the tracks reconstructed", "statement": "Let muons going down pass through detectors, passive material and detectors. For every muon of the true scatter batch, the incoming track is the line on which this muon entered the volume and the outgoing track the line on which it left; the reported angles are the muon's, the scattering angle is the angle between its two directions and the scattering location is the middle of the shortest segment between its two lines (their meeting point if they meet). The batch contains exactly the muons that bent and stayed close, and building it never fails.", "quantifier": "every telescope with at least two panels on each side, every budget, material, random draw, number of steps and batch of downward muons", "why_tests_cant": "a passage through many layers, passes, removals, panels visited in sorted order and filters must keep each muon with its own hits; a test checks one volume and one seed", "anchors": ["tomopt/volume/volume.py:Volume.forward", "tomopt/volume/layer.py:PassiveLayer.forward", "tomopt/volume/layer.py:PanelDetectorLayer.forward", "tomopt/muon/muon_batch.py:MuonBatch.filter_muons", "tomopt/muon/muon_batch.py:MuonBatch.get_hits", "tomopt/inference/scattering.py:GenScatterBatch", "tomopt/inference/scattering.py:ScatterBatch._filter_scatters"]}
{"id": "C100", "title": "Scatter variables do not depend on what was asked before", "statement": "Ask a scatter batch for its variables and their uncertainties in any order and as often as you like, also when some of the requests raise: every answer is the one a fresh scatter batch of these muons would give, and no variable is computed twice or without need. A scatter batch reports as many muons as its variables have rows, also after further scatter batches were made from the same muons.", "quantifier": "every batch of tracks, every sequence of requests, every sequence of scatter batches made from the same muons", "why_tests_cant": "the variables are memoised separately and are built from one another, so the result could depend on the order of any sequence of requests; tests ask each variable once", "anchors": ["tomopt/inference/scattering.py:ScatterBatch", "tomopt/inference/scattering.py:ScatterBatch._set_dtheta_dphi_scatter", "tomopt/inference/scattering.py:ScatterBatch.__init__", "tomopt/inference/scattering.py:ScatterBatch.__len__", "tomopt/inference/scattering.py:GenScatterBatch"]}
{"id": "C101", "title": "Without noise the detectors reconstruct what happened", "statement": "Let muons going down pass a volume with at least two panels above and below the passive layers, where the panels (of whatever kind, size, position, resolution and efficiency) add no noise to the hits. The reconstructed tracks of every muon of the scatter batch are the straight lines on which this muon entered and left, and angles, scattering angle and scattering location are the true ones. Exactly those muons are kept that changed their direction, came neither too flat nor too far out and were seen by every panel; in realistic evaluation a panel sees a muon if it crosses inside the panel.", "quantifier": "every stack of detector and passive layers with at least two panels above and below, every panel response, every batch of muons, all random draws of the scattering", "why_tests_cant": "the chain from propagation over the panels' responses to the weighted fit must be exact for every geometry and response, in training and evaluation mode; tests fit single hand-made tracks", "anchors": ["tomopt/inference/scattering.py:ScatterBatch", "tomopt/inference/scattering.py:ScatterBatch.get_muon_trajectory", "tomopt/volume/panel.py:DetectorPanel.get_hits", "tomopt/volume/layer.py:PanelDetectorLayer.forward", "tomopt/volume/volume.py:Volume.forward"]}
{"id": "C102", "title": "The spread-over-range loss depends only on how well fill levels are told apart", "statement": "The furnace loss of a volume batch is the average standard deviation of the predictions for volumes with the same true fill level, divided by the standard deviation of the mean predictions of the levels, counting only levels that occur at least twice. It does not depend on the order of the volumes nor on a linear recalibration of all predictions, is not negative, and is zero exactly if equal volumes get equal predictions. A volume that could not be scanned is left out.", "quantifier": "every batch of volumes with any true values and predictions, every order, every linear recalibration", "why_tests_cant": "grouping by floating-point targets, batches without repeated levels and the invariances concern all batches; the code is marked as having no unit tests", "anchors": ["tomopt/benchmarks/ladle_furnace/loss.py:SpreadRangeLoss"]}
{"id": "C103", "title": "The linear correction learns only from finished training batches", "statement": "A prediction passed through the linear correction is the raw prediction on a line that was fitted to the raw predictions and true values of the training batches finished before: validation, prediction, the current batch and the gradient of the detector loss have no influence on it. With plain gradient descent of small enough rate the line fits a batch no worse after the callback than before. A volume that could not be scanned is left out.", "quantifier": "every history of training, validation and prediction batches, every optimiser step function, every initial line", "why_tests_cant": "information leaking from validation or from the current batch shows only over histories of batches; the code is marked as having no unit tests", "anchors": ["tomopt/benchmarks/ladle_furnace/inference.py:LinearCorrectionCallback"]}
{"id": "C104", "title": "Detectors observe the muons without disturbing them", "statement": "Two volumes with the same passive layers between detector layers of the same extent, but with any panels, budgets, modes and measurement noise, let the same muons through: sent through both with the same random numbers for the scattering, the same muons come out at the same places in the same directions, the same are removed on the way, and their positions after every layer agree. So changing the detectors in an optimisation changes what is recorded of the muons and nothing else.", "quantifier": "every pair of volumes with the same passive layers, every arrangement, kind and number of panels, every noise, every batch of muons", "why_tests_cant": "a detector that moved the muons or drew from the same random numbers as the scattering would show only in comparing whole passages", "anchors": ["tomopt/volume/volume.py:Volume.forward", "tomopt/volume/layer.py:PanelDetectorLayer.forward", "tomopt/volume/layer.py:PassiveLayer.forward"]}
{"id": "C105", "title": "A muon's flight, hits and tracks do not depend on the other muons of the batch", "statement": "Send only some of the muons of a batch through a volume, with the same random numbers for each of them: what comes out are the selected ones of the muons that come out of the whole batch, every recording holds the same row for each of them, and the scatter batch holds the same tracks and coefficients for them. In particular splitting the muons of a scan into smaller batches does not change what is known of each of them.", "quantifier": "every batch, every selection of its muons, every volume, recorded and true hits", "why_tests_cant": "masks, filters and rows are indexed per batch: an error in the alignment shows only for particular combinations of muons that leave the volume early, turn upwards or are filtered", "anchors": ["tomopt/volume/layer.py:PassiveLayer.forward", "tomopt/muon/muon_batch.py:MuonBatch.filter_muons", "tomopt/inference/scattering.py:ScatterBatch"]}
{"id": "C106", "title": "Noise in the detectors does not bias fitted tracks", "statement": "However the measured positions of a muon's hits scatter about the points where it crossed the panels, as long as their mean is right: the track that get_muon_trajectory fits is always found and, at every height, passes on average exactly where the muon flew. If the errors of the hits are independent and proportional to the uncertainties handed to the fit (all panels equally efficient), the variance at height h is s^2 (1/W + (h - zm)^2 / sum (z - zm)^2/u^2) and no other linear combination of the hits that is right for every straight line is more precise. Panels in training or non-realistic mode record positions with the right mean and with the stated uncertainty as standard deviation, so both tracks of every muon that passes a whole volume are unbiased, and what comes out of the volume does not depend on the noise.", "quantifier": "all numbers, heights, kinds and settings of panels, all uncertainties, all distributions of the noise with mean zero, all muons, volumes and heights", "why_tests_cant": "Bias and optimality are statements about all noise distributions and all competing estimators; a test sees finitely many random draws and a tolerance.", "anchors": ["tomopt/inference/scattering.py: ScatterBatch.get_muon_trajectory, _compute_tracks", "tomopt/volume/panel.py: DetectorPanel.get_hits", "tomopt/volume/volume.py: Volume.forward"]}
{"id": "C107", "title": "The prediction does not depend on how muons are split into batches", "statement": "For every two histories of additions of scatter batches and questions to an X0 inferrer: if the usable muons added are the same up to their order, in whatever batches they came and whatever was asked in between, the predicted X0 of every voxel and the number of muons are the same at the end. Muons with a NaN or infinite variable or uncertainty make no difference.", "quantifier": "all histories, all partitions and orders of any number of muons, all volumes", "why_tests_cant": "a test splits a handful of muons in one or two ways; partitions, orders and interleavings with queries are unbounded", "anchors": ["tomopt/inference/volume.py: AbsX0Inferrer.add_scatters, _combine_scatters, get_prediction, _get_voxel_zxy_x0_preds", "tomopt/inference/volume.py: PanelX0Inferrer.compute_efficiency"]}
{"id": "C108", "title": "The reconstruction has no preferred origin, axis, handedness or unit of length", "statement": "If all hits of a muon and their uncertainties are expressed in other coordinates - shifted, turned about the vertical, mirrored, in another unit of length - the fitted tracks, the point of closest approach, the gap between the tracks and the entry and exit points are the same ones in those coordinates, and the scattering angle and polar angles do not change. Parallel tracks stay parallel.", "quantifier": "all hits (two or more per side, at different heights, positive uncertainties), all shifts, turns, mirrorings and units; for turns other than by quarters the uncertainties in x and y are equal", "why_tests_cant": "a test compares a few placements of a few muons; the statement is for all placements and all hits", "anchors": ["tomopt/inference/scattering.py: ScatterBatch.get_muon_trajectory, _compute_theta_msc, _compute_theta, _compute_scatters, poca_xyz, dxy, _compute_xyz_in, _compute_xyz_out"]}
{"id": "C109", "title": "Larger panels and larger budgets never make a detector see worse", "statement": "A panel that is longer or wider than another and otherwise the same has, at every point, a resolution in x and in y and an efficiency that are no lower, so its hits have no larger uncertainties. The same holds for each panel of a volume when the budget of the volume is raised. Tracks fitted to hits that are each at least as precise are at least as precise.", "quantifier": "all valid panels of both kinds, in training and in realistic validation, all points, all pairs of budgets, all volumes with a budget; for tracks all numbers, heights and precisions of hits", "why_tests_cant": "a test compares two sizes at a few points; the gradient-based optimisation relies on it everywhere", "anchors": ["tomopt/volume/panel.py: DetectorPanel.get_resolution, get_efficiency, get_hits, assign_budget, get_scaled_xy_span; SigmoidDetectorPanel.sig_model", "tomopt/volume/volume.py: Volume.assign_budget", "tomopt/inference/scattering.py: ScatterBatch._get_hit_uncs, get_muon_trajectory"]}
{"id": "C110", "title": "In training, the response of a panel can be learnt from: it is differentiable and its derivatives point the right way", "statement": "For a muon crossing at any point at which the answers are above their lower limit, resolution and efficiency of a panel in training are differentiable in the position, length, width and budget share of the panel. Moving the panel towards the muon improves resolution and efficiency to first order, and so does growing it. In realistic validation the answers do not react to small changes at all.", "quantifier": "all valid panels of both kinds, all positions of the muon off the middle lines, in training; in realistic validation all points off the edge and all continuous changes of position and size", "why_tests_cant": "a test compares gradients at a few points; the optimisation follows them everywhere", "anchors": ["tomopt/volume/panel.py: DetectorPanel.get_resolution, get_efficiency, get_scaled_xy_span, get_gauss; SigmoidDetectorPanel.sig_model, get_resolution, get_efficiency"]}
{"id": "C111", "title": "What is reconstructed from a muon in training is differentiable in every parameter of the detector", "statement": "For fixed noise, the recorded hit, its uncertainty, the fitted track, the points where the track enters and leaves the volume, the closest point of the two tracks and the scattering angle are differentiable functions of position, height, size and budget share of every panel, for any number of panels and any way of changing their parameters together. Polar angle and azimuth of a track are differentiable too, unless the track is vertical or points along positive x.", "quantifier": "all panels of both kinds in training with answers above their lower limit, all muons off the middle lines of sigmoid panels, all differentiable paths of parameters, all numbers of panels, all noise, all pairs of tracks that are not parallel", "why_tests_cant": "a gradient check samples a few points; the optimiser needs the gradient wherever the parameters go", "anchors": ["tomopt/volume/panel.py: DetectorPanel.get_hits; SigmoidDetectorPanel", "tomopt/inference/scattering.py: get_muon_trajectory, _compute_theta_msc, _compute_theta, _compute_phi, _compute_xyz_in, _compute_xyz_out, poca_xyz, dxy"]}
{"id": "C112", "title": "Floating-point rounding does not take a muon out of its layer's voxel grid", "statement": "The index of the voxel under a muon is computed from a rounded quotient. For floating-point numbers of any precision and any rounding to nearest: a muon over the footprint gets the index of a voxel of the layer, that voxel is the one the muon is in or a neighbour it misses by less than the precision of the numbers, and indices grow with positions.", "quantifier": "all precisions, all rules for ties, all voxel sizes, all numbers of voxels, all positions over the footprint, for layers whose footprint is not longer or wider than its voxels as exact numbers", "why_tests_cant": "the failures sit on single floating-point numbers next to the edge of a footprint, for some pairs of length and voxel size only", "anchors": ["tomopt/volume/layer.py: PassiveLayer.abs2idx, PassiveLayer.scatter_and_propagate", "tomopt/muon/muon_batch.py: MuonBatch.get_xy_mask"]}
{"id": "C113", "title": "Generated layouts have as many voxels as the volume's grid, despite floating-point rounding", "statement": "A side of n voxels of size d is given as a length and a size, each rounded to floating point. The number of voxels of the volume's grid and of predictions is n, and so is the number of voxels of the layouts made by the passive generators, so that every muon over the footprint finds an X0 value.", "quantifier": "all lengths and sizes with an integral ratio n, all n up to an eighth of the largest exact integer, all precisions, all rules for ties", "why_tests_cant": "whether a quotient ends just below an integer depends on the last bit of both numbers; tests use a few round numbers", "anchors": ["tomopt/optimisation/data/passives.py: RandomBlockPassiveGenerator, BlockPresentPassiveGenerator, VoxelPassiveGenerator", "tomopt/volume/volume.py: Volume.build_xyz_edges", "tomopt/inference/volume.py: AbsVolumeInferrer.__init__", "tomopt/volume/layer.py: PassiveLayer"]}
{"id": "C114", "title": "A passive layer lets every muon through, despite floating-point rounding", "statement": "Moving a muon to a face of a layer puts it exactly on that face, so that it enters at the top and leaves at the bottom. The loop over steps ends for every downgoing muon, with the muon at or below the bottom.", "quantifier": "all precisions, all rules for ties, all layers above height zero, all angles and step sizes of muons that are not scattered", "why_tests_cant": "whether a small step changes a rounded height depends on the last bits of the height; the steps of tests are large", "anchors": ["tomopt/volume/layer.py: PassiveLayer.forward, PassiveLayer.scatter_and_propagate", "tomopt/muon/muon_batch.py: MuonBatch.propagate_dz, MuonBatch.propagate_d"]}
{"id": "C115", "title": "Looking up the voxel of a position gives the right voxel, despite floating-point rounding", "statement": "A position in the passive volume is looked up as the voxel it is in, if it is not closer to a face of the voxel than a few rounding errors. In particular the centre of every voxel, as the volume reports it, is looked up as this voxel, and so is the low edge of every voxel.", "quantifier": "all voxel sizes, all numbers of voxels and layers up to 2^p / 32, all heights of the passive volume, all positions, all precisions, all rules for ties", "why_tests_cant": "rounding errors of sizes, heights, differences and quotients add up in a way that depends on the last bits of every number; tests use a few positions in one volume", "anchors": ["tomopt/volume/volume.py: Volume.lookup_passive_xyz_coords, Volume.get_passive_z_range, Volume.build_xyz_edges, Volume.xyz_centres"]}
{"id": "C116", "title": "Fill levels of a furnace are put into the right class, despite floating-point rounding", "statement": "The class of a fill level is the position of the layer it lies in, a class that is converted to a height and back is unchanged, the layers up to the class are the filled ones, and drawn fill levels have a class that exists.", "quantifier": "all layer sizes, bottoms of the passive volume, fill levels, classes and draws, all precisions, all rules for ties", "why_tests_cant": "fill levels at the boundaries of layers are the usual ones, and which class they get depends on the last bits of size and bottom", "anchors": ["tomopt/benchmarks/ladle_furnace/loss.py: LadleFurnaceIntClassLoss._targ2int", "tomopt/benchmarks/ladle_furnace/inference.py: EdgeDetLadleFurnaceFillLevelInferrer._class2float", "tomopt/benchmarks/ladle_furnace/data.py: LadleFurnacePassiveGenerator"]}
{"id": "C117", "title": "The built-in materials are told apart by their X0 in single precision", "statement": "Each built-in material has one X0 and every density belongs to a material with an X0. If classes are given to any of them, by their X0 values in double precision, and a volume is filled with these materials, in single precision, then every X0 is converted to the class of its own material, by the conversion function and by the class losses.", "quantifier": "all sets of built-in materials, all class numbers, all fillings, all rules for ties", "why_tests_cant": "the number of sets of materials and fillings is astronomical; class losses overwrite their targets one after the other, so that a class number must not be taken for an X0", "anchors": ["tomopt/core.py: X0, DENSITIES", "tomopt/utils.py: x0targs_to_classtargs", "tomopt/optimisation/loss/loss.py: VoxelClassLoss, VolumeClassLoss"]}
{"id": "C118", "title": "States saved at the ends of epochs can be relied on, wherever a fit breaks off", "statement": "With the callback that saves the wrapper at the end of each training epoch: after a fit, whether it ended or raised an exception at any point, the file of every completed epoch holds the wrapper as it was at the end of that epoch, and no other file has changed except that of an epoch that was begun. After a fit that ended normally there is a file of its last epoch that holds the wrapper as it is now, and loading it gives back parameters and optimisers. Every epoch is saved to a unique file, the file with the highest number is the latest, and what other callbacks do at the end of an epoch is in the file.", "quantifier": "all callbacks, volumes, losses and optimisers that do not write these files themselves; all numbers of epochs, early stops and points at which an exception is raised; all contents of the folder beforehand", "why_tests_cant": "exceptions can be raised at any of the calls of a fit; files of earlier fits may be in the folder", "anchors": ["tomopt/optimisation/callbacks/opt_callbacks.py: EpochSave", "tomopt/optimisation/wrapper/volume_wrapper.py: AbsVolumeWrapper.fit, save, load"]}
{"id": "C119", "title": "A recorded animation shows the heat map at the start and after every epoch, and leaves nothing behind", "statement": "With the callback that records heat maps: a fit that ends normally, early or not, leaves an animation with one picture more than there were epochs, of which the i-th shows the first heat map as it was after i epochs. The temporary pictures are removed and no other file is changed. The same holds for several such callbacks in one fit, and temporary pictures are removed if the fit raises.", "quantifier": "all callbacks, volumes, losses and optimisers that leave the recording alone and do not move the detector when an epoch begins; all numbers of epochs, with and without validation, and early stops; all contents of the folder beforehand", "why_tests_cant": "the number of epochs and the contents of the folder are unbounded", "anchors": ["tomopt/optimisation/callbacks/heatmap_gif.py: HeatMapGif", "tomopt/optimisation/wrapper/volume_wrapper.py: AbsVolumeWrapper.fit"]}
{"id": "C120", "title": "The history of a fit has one value of every metric for every epoch, the value at the end of that epoch", "statement": "After a fit with validation that ends normally, early or not, the history returned by the logger has one validation loss per epoch and, for every metric in use, one value per epoch: what the metric was when that epoch had ended. This holds whatever the names of the metrics and wherever they stand in the list of callbacks; and after a fit that raised, the history has what was recorded until then.", "quantifier": "all callbacks, volumes, losses and optimisers that leave the records alone; all numbers of metrics and epochs; early stops", "why_tests_cant": "the numbers of metrics, callbacks and epochs are unbounded and the order of callbacks is arbitrary", "anchors": ["tomopt/optimisation/callbacks/monitors.py: MetricLogger.on_epoch_end, on_train_end, get_loss_history, print_losses", "tomopt/optimisation/callbacks/eval_metric.py: EvalMetric", "tomopt/optimisation/wrapper/volume_wrapper.py: AbsVolumeWrapper.fit"]}
{"id": "C121", "title": "The loss of a training batch is a differentiable function of every parameter of the detector", "statement": "Move, lower, widen or re-budget the panels smoothly with a parameter, keep the muons and their noise, and let every muon be answered by every panel and have two slanted tracks that are not parallel. Then the point of closest approach, the scattering angle and the angles of the tracks are twice differentiable in the hits, their propagated uncertainties are positive, the X0 predicted for every voxel is a number and differentiable in the parameter, and so is the loss, mean squared error plus cost penalty.", "quantifier": "all numbers of panels (at least two on each side), smooth one-parameter families of panels, batches of muons, noises, voxels, targets, budgets and both penalties", "why_tests_cant": "differentiability is a statement about all nearby detectors, and muons, panels and voxels are unbounded in number", "anchors": ["tomopt/inference/scattering.py: ScatterBatch, _compute_out_var_unc", "tomopt/inference/volume.py: PanelX0Inferrer, AbsX0Inferrer", "tomopt/volume/panel.py: DetectorPanel", "tomopt/optimisation/loss/loss.py: AbsDetectorLoss, VoxelX0Loss"]}
{"id": "C122", "title": "The gradient which training follows is that of the loss", "statement": "The backward pass of a training batch gives the derivative of the batch's loss by the parameters of the detector.", "quantifier": "all batches, detectors, parameters, voxels and targets", "why_tests_cant": "the wrong part of the gradient is of the same order as the right one and every value is finite; only the derivative of the whole computation shows it", "anchors": ["tomopt/utils.py: jacobian", "tomopt/inference/scattering.py: ScatterBatch._compute_out_var_unc", "tomopt/inference/volume.py: AbsX0Inferrer", "tomopt/optimisation/wrapper/volume_wrapper.py: AbsVolumeWrapper._scan_volumes"]}
{"id": "C123", "title": "In training, the response of a heat map can be learnt from: it is differentiable and its derivatives point the right way", "statement": "In training, the hits, uncertainties and efficiencies a heat-map detector reports are differentiable functions of the centres, widths and scale of its clusters, and moving a cluster towards a muon, widening it or raising the scale does not make the detector see that muon worse.", "quantifier": "all heat maps with any number of clusters, all muons and all noise", "why_tests_cant": "derivatives exist or not at single parameter values, and the sign of a derivative has to be right for every arrangement of clusters; a test evaluates a few heat maps", "anchors": ["tomopt/volume/heatmap.py: GMM.forward", "tomopt/volume/heatmap.py: DetectorHeatMap.get_resolution", "tomopt/volume/heatmap.py: DetectorHeatMap.get_efficiency", "tomopt/volume/heatmap.py: DetectorHeatMap.get_hits"]}
{"id": "C124", "title": "A call on a batch of muons that fails leaves the batch as it was", "statement": "If a call on a batch of muons raises an exception, the batch is as it was before the call, so that a program which catches the exception can correct its arguments and call again. Calls fail exactly if a mask or an argument has the wrong length. Whatever calls fail, no muon is lost or doubled, and hits stay with their muons.", "quantifier": "all batches, all calls with arguments and masks of any lengths, and all programs that go on after any number of failed calls", "why_tests_cant": "a test checks that a wrong argument raises, not what is left behind; and the combinations of given arguments, lengths, masks and earlier failures are unbounded", "anchors": ["tomopt/muon/muon_batch.py: MuonBatch.scatter_dxyz", "tomopt/muon/muon_batch.py: MuonBatch.scatter_dtheta_dphi", "tomopt/muon/muon_batch.py: MuonBatch.scatter_dtheta_xy", "tomopt/muon/muon_batch.py: MuonBatch.filter_muons", "tomopt/muon/muon_batch.py: MuonBatch.propagate_dz", "tomopt/muon/muon_batch.py: MuonBatch.propagate_d", "tomopt/muon/muon_batch.py: MuonBatch.append_hits"]}
{"id": "C125", "title": "What is read from a batch of muons is what held then, and only the methods for it change muons", "statement": "Positions, momenta and directions read from a batch of muons are those of the moment they were read. Assigning to them is rejected and changes nothing: muons are moved and turned only by the methods for it.", "quantifier": "all batches, all attributes, all values, and all programs of method calls, assignments, augmented assignments and assignments to elements", "why_tests_cant": "what a program holds depends on everything it does afterwards; a test compares values at one or two moments of one program", "anchors": ["tomopt/muon/muon_batch.py: MuonBatch.x", "tomopt/muon/muon_batch.py: MuonBatch.xy", "tomopt/muon/muon_batch.py: MuonBatch.xyz", "tomopt/muon/muon_batch.py: MuonBatch.mom", "tomopt/muon/muon_batch.py: MuonBatch.theta", "tomopt/muon/muon_batch.py: MuonBatch.phi", "tomopt/muon/muon_batch.py: MuonBatch.theta_x", "tomopt/muon/muon_batch.py: MuonBatch.theta_xy", "tomopt/muon/muon_batch.py: MuonBatch.snapshot_xyz"]}
{"id": "C126", "title": "What an inferrer answers is fixed by the scatters it was given", "statement": "Predictions, scatter variables, efficiencies and numbers of muons that an inferrer reports are those of the scatters as they were when they were added. Nothing done to the muons afterwards changes an answer or makes a question fail: they may be propagated, scattered, filtered or measured again.", "quantifier": "all muon batches, all scatter batches made of them, and all programs of calls on the muons (failing or not), changes of momenta, additions of scatters and questions", "why_tests_cant": "the order of additions, questions and changes of the muons is unbounded; a test asks once, right after adding", "anchors": ["tomopt/inference/volume.py: AbsX0Inferrer._combine_scatters", "tomopt/inference/volume.py: AbsVolumeInferrer.add_scatters", "tomopt/inference/scattering.py: ScatterBatch", "tomopt/inference/scattering.py: GenScatterBatch", "tomopt/muon/muon_batch.py: MuonBatch.mom"]}
{"id": "C127", "title": "One update changes the detector only as far as allowed and leaves it physical", "statement": "After every update in training, whatever the optimisers and callbacks did, all panels are inside their layers with usable spans. With the update limiter no update moves or resizes a panel by more than the maximal steps that were asked for, also in combination with other callbacks and after panels were made to conform. An update without a step of the optimisers, as in warm-up, changes nothing. Each panel is moved by its own step.", "quantifier": "all detectors of panels in any number of layers, all steps of optimisers, all lists of limiters and centring callbacks in any order, all random margins, and training runs of any length", "why_tests_cant": "what is left of a step depends on the order of callbacks, on shared tensors and on random margins; unit tests run one callback on its own", "anchors": ["tomopt/optimisation/wrapper/volume_wrapper.py: AbsVolumeWrapper._scan_volumes", "tomopt/optimisation/callbacks/detector_callbacks.py: PanelUpdateLimiter", "tomopt/optimisation/callbacks/detector_callbacks.py: PanelCentring", "tomopt/volume/layer.py: PanelDetectorLayer.conform_detector", "tomopt/volume/panel.py: DetectorPanel.clamp_params"]}
{"id": "C128", "title": "Losses for classification measure how probable the truth was said to be", "statement": "The inference error of the voxelwise and the volume class loss is the mean, over voxels, of minus the logarithm of the probability that the prediction gave to the class of the true material. It is never negative, zero exactly if the truth was certain everywhere, smaller for a prediction that finds the truth more probable, indifferent to what is said about other classes, and least, among predictions that are the same everywhere, for the fractions of the classes. Predictions with one row are probabilities of class 1 and are treated alike. Predictions of a wrong shape and unknown classes are refused.", "quantifier": "all volumes, all tables of classes, all predictions", "why_tests_cant": "targets are looked up and overwritten value by value, voxels are matched by their place in a flattened cube, and the meaning of the result is a statement about all predictions; unit tests compare one random tensor with torch's own function", "anchors": ["tomopt/optimisation/loss/loss.py: VoxelClassLoss", "tomopt/optimisation/loss/loss.py: VolumeClassLoss"]}
{"id": "C129", "title": "A volume is scanned with the muons asked for, and one without muons is left out", "statement": "In a fit every volume that is loaded is scanned with the number of muons that was asked for. A volume for which there are no muons has no prediction and contributes nothing: if all are like this, no loss is computed and no step is taken, whatever inferrer is used. Inferrers that classify from X0 predictions answer, like those they are built on, from all scatters added so far, and the class they return is a most probable one.", "quantifier": "all numbers of muons and sizes of batches, all fits of any length over any volumes with any callbacks, all histories of additions, questions and resets", "why_tests_cant": "it depends on rounding in the number of batches and on what every inferrer does before it was given anything; unit tests of wrappers use numbers that divide each other", "anchors": ["tomopt/optimisation/wrapper/volume_wrapper.py: AbsVolumeWrapper._scan_volume", "tomopt/inference/volume.py: DenseBlockClassifierFromX0s", "tomopt/inference/volume.py: AbsIntClassifierFromX0", "tomopt/inference/volume.py: AbsX0Inferrer.get_prediction", "tomopt/benchmarks/ladle_furnace/inference.py: EdgeDetLadleFurnaceFillLevelInferrer"]}
{"id": "C130", "title": "The loss of a training batch is differentiable in the parameters of heat maps, and which gradient is followed", "statement": "For detectors made of heat maps, of panels, or of both: for muons whose tracks can be used and that do not cross exactly where an answer has a kink, the X0 predicted for every voxel, the cost of the detector and the loss are numbers and differentiable functions of centres, widths, scales and heights of heat maps and of all parameters of panels. Automatic differentiation gives a number, which is the derivative of the loss.", "quantifier": "all detectors with at least two panels or heat maps above and below, any number of clusters, all batches of usable muons, all noise, all differentiable paths of parameters, all voxels and targets", "why_tests_cant": "differentiability at every point and for every direction in the parameters cannot be sampled; unit tests check that gradients exist for one random batch", "anchors": ["tomopt/volume/heatmap.py: DetectorHeatMap.get_hits", "tomopt/volume/heatmap.py: GMM.forward", "tomopt/volume/heatmap.py: DetectorHeatMap.get_cost", "tomopt/volume/layer.py: PanelDetectorLayer.forward", "tomopt/inference/scattering.py: ScatterBatch", "tomopt/inference/volume.py: PanelX0Inferrer", "tomopt/optimisation/loss/loss.py: VoxelX0Loss"]}
{"id": "C131", "title": "Scattering angles in floating point", "statement": "The scattering angle of a muon, computed in floating point from its tracks, is the angle between the tracks up to a small relative error; a muon that was not scattered has angle zero, one that was scattered a positive angle, and neither angles between tracks nor angles to the vertical are undefined because of rounding.", "quantifier": "all tracks, all precisions of at least ten binary digits, all rules for ties, every arccos with a bounded relative error; for predictions all muons of a voxel, all materials", "why_tests_cant": "the cosine of a small angle is within a few units of rounding of one; tests compare angles of a few hundredths of a radian with tolerances and never sample tracks that are nearly parallel", "anchors": ["tomopt/inference/scattering.py: ScatterBatch._compute_theta_msc", "tomopt/inference/scattering.py: ScatterBatch._compute_theta", "tomopt/inference/scattering.py: ScatterBatch._filter_scatters", "tomopt/inference/scattering.py: ScatterBatch.total_scatter", "tomopt/inference/volume.py: PanelX0Inferrer.x0_from_scatters"]}
{"id": "C132", "title": "More muons give a better X0", "statement": "The X0 predicted for a voxel settles as ever more muons are used, and settles at the radiation length of the material if the muons scatter on average as that material makes them.", "quantifier": "all independent, identically distributed muons with arbitrary distributions of their variables; all voxel sizes; for simulated muons all materials, momenta, steps and downward directions", "why_tests_cant": "a statement about limits of random sequences; tests use one sample of muons, and the slow growth with their number looks like noise", "anchors": ["tomopt/inference/volume.py: PanelX0Inferrer.x0_from_scatters", "tomopt/inference/volume.py: PanelX0Inferrer._get_voxel_zxy_x0_preds", "tomopt/volume/layer.py: PassiveLayer._pdg_scatter"]}
{"id": "C133", "title": "The uncertainty of a predicted X0", "statement": "The uncertainty given with the X0 of a voxel is the propagated uncertainty of all variables of all muons added so far; it falls as the square root of the number of muons, never grows when muons are added, and the true X0 lies within a few of them.", "quantifier": "all non-empty lists of usable muons, all voxels, all smooth distributions of the PoCA, all numbers of copies, all histories of additions and queries", "why_tests_cant": "tests do not cover this computation at all (the code says so), and derivatives of a prediction by every variable of every muon cannot be listed", "anchors": ["tomopt/inference/volume.py: AbsX0Inferrer._get_voxel_zxy_x0_pred_uncs", "tomopt/inference/volume.py: AbsX0Inferrer.vox_zxy_x0_pred_uncs", "tomopt/utils.py: jacobian"]}
{"id": "C134", "title": "Resampled muons are fairly drawn", "statement": "Muons that are resampled until all of them hit the passive volume are independent and distributed as generated muons given that they hit it, whichever their place in the batch and however often they had to be redrawn; this ends with probability one if a muon can hit the volume at all; and the spectrum of the generator is kept.", "quantifier": "all laws of the generated muons, all volumes, all batch sizes, all measurable sets of outcomes, all numbers of rounds", "why_tests_cant": "a statement on probabilities over infinitely many draws; a test sees some muons of one seed, and a bias towards early rounds or slots would be invisible", "anchors": ["tomopt/optimisation/callbacks/data_callbacks.py: MuonResampler.resample", "tomopt/optimisation/callbacks/data_callbacks.py: MuonResampler.check_mu_batch", "tomopt/muon/generation.py: AbsMuonGenerator.__call__"]}
{"id": "C135", "title": "Muons drawn in floating point", "statement": "Drawing muons from the table of fluxes in floating point gives every bin of angle and energy its share of the flux up to a negligible error, never runs past the end of the table, never draws a bin without flux, and yields positions in the ranges asked for and azimuths between 0 and 2 pi.", "quantifier": "all precisions and rules for ties, all tables of fluxes of any length that are not negative, all numbers of possible draws", "why_tests_cant": "the cumulative sum has 40000 rounded entries and a bin is found by comparing a rounded draw with them; a draw beyond the last entry would be an IndexError once in many millions of muons, and shares can only be estimated by sampling", "anchors": ["tomopt/muon/generation.py: AbsMuonGenerator.generate_set", "tomopt/muon/generation.py: AbsMuonGenerator.__init__"]}
{"id": "C136", "title": "Predicted X0s in floating point", "statement": "The X0 predicted for a voxel in floating point, with every operation rounded and sums over the muons taken in any order, is the X0 of exact arithmetic up to a relative error that does not depend on the values, three parts in 100000 in single precision; the order of the muons changes it by no more.", "quantifier": "all non-empty lists of usable muons up to seventy degrees from the vertical, all efficiencies and probabilities, all voxel sizes, all rounding functions with a bounded relative error, all orders of summation, every cosine with a bounded relative error", "why_tests_cant": "tests compare single values with tolerances; a formula of quotients of sums of quotients may lose all digits for special weights or many muons, and how torch sums depends on the machine", "anchors": ["tomopt/inference/volume.py: PanelX0Inferrer._get_voxel_zxy_x0_preds", "tomopt/inference/volume.py: PanelX0Inferrer._weighted_rms", "tomopt/inference/volume.py: PanelX0Inferrer.x0_from_scatters"]}
{"id": "C137", "title": "Weights of voxels in floating point", "statement": "The weight with which a muon counts for a voxel, computed in floating point, is positive, at most one, and agrees with the exact probability that the muon was scattered in the voxel up to a small error, absolute and relative.", "quantifier": "all PoCAs, all uncertainties that are not negative, all voxels with representable corners and all sizes, all ways of rounding to nearest, every growing error function with a bounded absolute error", "why_tests_cant": "a difference of two distribution functions loses digits far from the PoCA; tests look at the voxels where muons are, with a tolerance that is larger than the weights that are lost", "anchors": ["tomopt/inference/volume.py: PanelX0Inferrer.muon_probs_per_voxel_zxy"]}
{"id": "C138", "title": "Fitted tracks in floating point", "statement": "The line fitted to the hits of a muon, computed in floating point, agrees with the exact fit up to a small error in slope and position, and is found wherever the exact fit exists.", "quantifier": "all numbers of hits, all positions above zero height, all weights, all orders of summation, all ways of rounding", "why_tests_cant": "the formula subtracts nearly equal numbers when panels are close to each other compared with their height; tests use a few panel positions and tolerances larger than the errors", "anchors": ["tomopt/inference/scattering.py: ScatterBatch.get_muon_trajectory"]}
{"id": "C139", "title": "Where random blocks are and what they are made of", "statement": "Generated random blocks favour no side, place, layer or material of the volume: every pair of materials is equally likely, and so is every position.", "quantifier": "all volumes, fixed and random block sizes, all orientations, all lists of materials; chances with respect to independent uniform draws", "why_tests_cant": "a bias in what is generated is only visible in the law of the draws; a test sees single layouts, all of which are valid", "anchors": ["tomopt/optimisation/data/passives.py: AbsBlockPassiveGenerator._get_block_coords, RandomBlockPassiveGenerator._generate"]}
{"id": "C140", "title": "Budgets in floating point", "statement": "With a budget, the costs of the panels add up to the budget and every panel gets the share its weight says, up to small errors of rounding; larger weights never get smaller shares.", "quantifier": "all budgets, weights, panels and prices, all orders of summation, all ways of rounding", "why_tests_cant": "shares are computed by exponentials, sums, quotients and square roots which are all rounded; tests use equal weights and tolerances", "anchors": ["tomopt/volume/volume.py: Volume.assign_budget", "tomopt/volume/panel.py: DetectorPanel.assign_budget, get_scaled_xy_span, get_cost"]}
{"id": "C141", "title": "Filters of the furnace classifier", "statement": "In the pipeline of the furnace classifier, smoothing filters keep the size and the range of an image and leave a homogeneous one as it is; edge filters find nothing in a homogeneous image; an image upside down gives the result upside down; and every filter can stand anywhere where its kind of image is expected.", "quantifier": "all images of any size, all pipelines of filters", "why_tests_cant": "the code is marked as having no unit tests; the range, the behaviour at the boundary and the interplay of filters concern all images and all pipelines", "anchors": ["tomopt/benchmarks/ladle_furnace/inference.py: EdgeDetLadleFurnaceFillLevelInferrer"]}
{"id": "C142", "title": "Results of a fit with losses that are NaN or infinite", "statement": "After a fit in which some epochs had no usable loss or metric (NaN or infinite), the results reported are those of one epoch: the first with the best value of the main metric (or of the loss) among all values that are not NaN. The best loss shown during the fit is that loss. If no value can be used, that is reported as an error.", "quantifier": "all histories of losses and metrics, each a number, NaN or infinite; all metrics", "why_tests_cant": "which epochs fail depends on the run; a test has one history", "anchors": ["tomopt/optimisation/callbacks/monitors.py: MetricLogger.get_results", "tomopt/optimisation/callbacks/monitors.py: MetricLogger.on_epoch_end"]}
{"id": "C143", "title": "Squared-error loss against the target of a volume", "statement": "The squared-error loss for volume targets is the squared deviation of every prediction from its own target, averaged over all predictions: never negative, and zero exactly when every prediction is right. A target that is one number is compared with every prediction. Shapes that do not fit, and volumes without a target, are errors.", "quantifier": "all shapes and values of predictions and targets", "why_tests_cant": "the code is marked as having no unit tests; which entries are compared depends on the shapes of both tensors", "anchors": ["tomopt/optimisation/loss/loss.py: VolumeMSELoss"]}
{"id": "C144", "title": "Learning how a budget is split", "statement": "The split of a fixed budget over the panels can be learnt from its weights: only differences of weights count; raising one weight enlarges its panel and shrinks all others; every split into positive amounts can be reached; sizes are differentiable in the weights; steps down the gradient keep the sum of the weights; and a small move of a panel changes sizes little.", "quantifier": "all arrangements of layers and panels, all budgets and weights, all differentiable losses", "why_tests_cant": "reachability, derivatives and conservation concern all weights and all losses", "anchors": ["tomopt/volume/volume.py: Volume.assign_budget", "tomopt/volume/volume.py: Volume._configure_budget", "tomopt/volume/layer.py: PanelDetectorLayer.assign_budget", "tomopt/volume/panel.py: DetectorPanel.assign_budget"]}
{"id": "C145", "title": "Using callbacks for another fit", "statement": "Callbacks that were used in an earlier fit, finished or broken off, do in another fit what new ones would do: warm-ups freeze the optimisation for the same epochs and set the same coefficients and learning rates, schedules set the same values and fail for the same fits, the same metrics have the same rank, and the logger forgets what it recorded.", "quantifier": "all lists of callbacks in all states an earlier fit can leave, all later fits", "why_tests_cant": "the state left by an earlier fit is arbitrary, since a fit may be interrupted anywhere", "anchors": ["tomopt/optimisation/callbacks/warmup_callbacks.py: WarmupCallback._reset", "tomopt/optimisation/callbacks/warmup_callbacks.py: PostWarmupCallback.on_train_begin", "tomopt/optimisation/callbacks/opt_callbacks.py: AbsOptSchedule.on_train_begin", "tomopt/optimisation/callbacks/eval_metric.py: EvalMetric.on_train_begin", "tomopt/optimisation/callbacks/monitors.py: MetricLogger.on_train_begin"]}
{"id": "C146", "title": "The picture of a heat map", "statement": "The picture of a heat-map detector shows, at every point of a square around its centre that contains all initial clusters, the fraction of the nominal efficiency that the detector has at that point.", "quantifier": "all heat maps, all points of the picture", "why_tests_cant": "the right place and value of every point, for all maps; a test with a round cluster cannot see that axes are exchanged", "anchors": ["tomopt/volume/heatmap.py: DetectorHeatMap.plot_map", "tomopt/volume/heatmap.py: GMM.forward"]}
{"id": "C147", "title": "Live plots of a fit", "statement": "The live plots of a fit show what happened: every plot has a place of its own in the figure; training losses are at the fraction of epochs done and validation losses and metrics at the numbers of their epochs; panels are drawn in their places with their extents, with colours of their own, and what is drawn is within the limits of its plot, as is the outline of the volume.", "quantifier": "all histories, numbers of epochs and of updates, all detector layers, with and without metrics", "why_tests_cant": "the curves must agree for every length of the history, and nothing must be cut off for any layout of panels", "anchors": ["tomopt/optimisation/callbacks/monitors.py: MetricLogger.update_plot", "tomopt/optimisation/callbacks/monitors.py: MetricLogger._prep_plots", "tomopt/optimisation/callbacks/monitors.py: PanelMetricLogger._prep_plots", "tomopt/optimisation/callbacks/monitors.py: PanelMetricLogger.update_plot", "tomopt/optimisation/callbacks/monitors.py: PanelMetricLogger._set_axes_labels"]}
{"id": "C148", "title": "Drawings of volumes, predictions and records", "statement": "Drawings show what they are given: in the drawing of a volume every passive layer and every panel is in its place, drawn from the lowest to the highest within the limits asked for; predictions of voxels are shown layer by layer, each once beside the truth of the same layer with common colours and in the documented order; every recorded position is in the plot of its layer.", "quantifier": "all volumes, limits, arrays of predictions with any number of layers and with missing values, all records", "why_tests_cant": "each layer must be paired with itself for every number of layers, and no entry of a record lost whatever layers occur in it", "anchors": ["tomopt/volume/volume.py: Volume.draw", "tomopt/plotting/predictions.py: plot_pred_true_x0", "tomopt/plotting/diagnostics.py: plot_scatter_density", "tomopt/plotting/diagnostics.py: plot_hit_density"]}
{"id": "C149", "title": "No preferred horizontal axis in the flight of muons", "statement": "Simulated muons do not know which horizontal axis is called x: with the axes of the materials and of the incoming muons exchanged, the muons that come out of a volume, and their positions after every layer, are exchanged and otherwise the same, for random numbers that are as probable.", "quantifier": "all volumes with any number of layers and voxels, all batches of muons, all random numbers, any number of scattering passes, any detectors at the same heights", "why_tests_cant": "a wrong sign or a mixed-up axis shows only in comparison of whole flights, for all directions of flight and materials", "anchors": ["tomopt/volume/layer.py: PassiveLayer.forward", "tomopt/volume/layer.py: PassiveLayer.scatter_and_propagate", "tomopt/volume/layer.py: PassiveLayer._pdg_scatter", "tomopt/volume/layer.py: PassiveLayer.abs2idx", "tomopt/muon/muon_batch.py: MuonBatch.scatter_dtheta_xy", "tomopt/volume/volume.py: Volume.forward"]}
{"id": "C150", "title": "Comparison plots of the furnace benchmark", "statement": "The plots that compare detectors on the ladle furnace show the data: each curve has one point for each true fill level in the table, in increasing order, at the mean of the column over all rows with that level and with the sample deviation as error bar; the legend gives the mean (modulus) over the whole table and agrees with the curve; the curves of biases and of squared errors agree; only the columns that are shown are needed.", "quantifier": "all tables with any levels, any numbers of rows in any order, and any missing columns", "why_tests_cant": "no row may be lost or doubled by grouping, for every number of rows per level; tests do not look at plots", "anchors": ["tomopt/benchmarks/ladle_furnace/plotting.py: compare_raw_init_to_bias_corrected_init", "tomopt/benchmarks/ladle_furnace/plotting.py: compare_init_to_optimised", "tomopt/benchmarks/ladle_furnace/plotting.py: compare_init_optimised_2", "tomopt/benchmarks/ladle_furnace/plotting.py: compare_optimised_to_baselines"]}
{"id": "C151", "title": "Opening a saved detector", "statement": "A detector saved with its optimisers and opened again from the file is the one that was saved: into a volume built alike, whatever the places, sizes, resolutions, efficiencies and costs of its panels, everything is restored, so that the opened detector does to any muons exactly what the saved one did; optimisers continue with the saved settings and with all they remembered about each parameter, whatever settings are given on opening; a file for other panels is refused and then nothing is changed. The number of parameters reported is the number of all that can be learnt.", "quantifier": "all pairs of volumes with any layers and panels or heat maps, with or without a budget, all settings and states of optimisers, all muons and random numbers", "why_tests_cant": "which parts are written to the file is spread over buffers and parameters of several classes; tests open a file in a volume of the same settings, so that parts that are not saved are not missed", "anchors": ["tomopt/optimisation/wrapper/volume_wrapper.py: AbsVolumeWrapper.save", "tomopt/optimisation/wrapper/volume_wrapper.py: AbsVolumeWrapper.load", "tomopt/optimisation/wrapper/volume_wrapper.py: AbsVolumeWrapper.get_param_count", "tomopt/optimisation/wrapper/volume_wrapper.py: PanelVolumeWrapper.from_save", "tomopt/optimisation/wrapper/volume_wrapper.py: HeatMapVolumeWrapper.from_save", "tomopt/volume/panel.py: DetectorPanel.__init__", "tomopt/volume/heatmap.py: DetectorHeatMap.__init__"]}
{"id": "C152", "title": "No preferred horizontal axis in what is recorded and reconstructed", "statement": "Detectors and reconstruction do not know which horizontal axis is called x: with the axes of materials, panels, incoming muons and measurement noise exchanged, every panel records the same as before with x and y exchanged and the same efficiencies, the same muons are kept for inference, and each is reconstructed with exchanged tracks, at the exchanged place and with the same angle of scattering; budgets are shared out in the same way and costs are the same; voxel predictions made from exchanged scatterings are the same with axes exchanged, and so is their error with respect to the exchanged truth.", "quantifier": "all volumes with any number of layers, panels and voxels, panels with Gaussian or sigmoid response and heat maps, in training and evaluation, all batches of muons, all random numbers and noise, measured and true hits", "why_tests_cant": "a coordinate taken from the wrong column or a limit of the wrong axis shows only for elongated or displaced panels and inclined muons, in comparison of whole simulations", "anchors": ["tomopt/volume/panel.py: DetectorPanel.get_hits", "tomopt/volume/panel.py: DetectorPanel.get_resolution", "tomopt/volume/panel.py: DetectorPanel.get_efficiency", "tomopt/volume/heatmap.py: DetectorHeatMap.get_hits", "tomopt/volume/heatmap.py: GMM.forward", "tomopt/volume/layer.py: PanelDetectorLayer.forward", "tomopt/inference/scattering.py: ScatterBatch.get_muon_trajectory", "tomopt/inference/scattering.py: ScatterBatch._filter_scatters", "tomopt/inference/scattering.py: ScatterBatch._compute_scatters", "tomopt/inference/volume.py: PanelX0Inferrer.get_prediction"]}
{"id": "C153", "title": "What a fit prints and animates", "statement": "Whoever follows a fit is told the truth: after every epoch the number of the epoch, the average training loss of its complete batches, its validation loss and every metric with its latest value are printed; the best value shown for the main metric is the smallest of its values, or the greatest if greater is better; and the animation of a training consists of the figure as it was at the beginning of every training epoch and at the end, together as long as asked for.", "quantifier": "all fits with validation that end normally, whatever the volumes, losses and other callbacks, all numbers of epochs and of batches, all metrics, all histories of interjections and earlier files", "why_tests_cant": "an average over the wrong batches or a picture from an earlier training shows only for particular numbers of batches and epochs, and numbers printed on the screen are not looked at by tests", "anchors": ["tomopt/optimisation/callbacks/monitors.py: MetricLogger.print_losses", "tomopt/optimisation/callbacks/monitors.py: MetricLogger.update_plot", "tomopt/optimisation/callbacks/monitors.py: MetricLogger._snapshot_monitor", "tomopt/optimisation/callbacks/monitors.py: MetricLogger._create_gif", "tomopt/optimisation/callbacks/monitors.py: MetricLogger.on_train_end"]}
{"id": "C154", "title": "No preferred height", "statement": "Only differences of heights matter: if every layer, panel and muon is moved up or down by the same height, then with the same random numbers the same budgets are assigned at the same cost, the same muons are lost, every hit, track and place of closest approach is merely moved, scattering angles and distances of closest approach are unchanged, the voxels are predicted to be the same, and if the one raises an error so does the other.", "quantifier": "all volumes, muons, heights, random numbers, measured and true hits, all sequences of batches and questions to inferrers", "why_tests_cant": "tests use volumes that stand on the ground; a height that is used as such instead of relative to another shows only for volumes elsewhere", "anchors": ["tomopt/volume/volume.py: Volume.forward", "tomopt/volume/layer.py: PassiveLayer.forward", "tomopt/volume/layer.py: PanelDetectorLayer.forward", "tomopt/volume/panel.py: DetectorPanel.get_hits", "tomopt/inference/scattering.py: ScatterBatch._compute_scattering", "tomopt/inference/volume.py: PanelX0Inferrer.get_prediction"]}
{"id": "C155", "title": "Continuing a fit", "statement": "Training can be done in instalments: a fit of n epochs followed by another fit of m epochs ends like one fit of n + m epochs, normally or with the same error, leaves detectors, optimisers, random numbers and files in the same state and makes the same calls in the same order, provided that callbacks look only at what was set since the epoch began, do not stop the fit or skip updates, and do nothing at the beginning and the end of a fit.", "quantifier": "all numbers of epochs, batches and volumes, with and without validation, all such callbacks, all volumes, inferrers, losses and optimisers whatever their state", "why_tests_cant": "whether something left behind by an epoch reaches the next one shows only for particular numbers of volumes and batches, and comparing whole trainings is too slow for tests", "anchors": ["tomopt/optimisation/wrapper/volume_wrapper.py: AbsVolumeWrapper.fit", "tomopt/optimisation/wrapper/volume_wrapper.py: AbsVolumeWrapper._fit_epoch", "tomopt/optimisation/wrapper/volume_wrapper.py: AbsVolumeWrapper._scan_volumes", "tomopt/optimisation/wrapper/volume_wrapper.py: FitParams"]}
{"id": "C156", "title": "Validating and predicting leave the detectors alone", "statement": "Only training changes detectors: predicting, validating, and training epochs with less than a batch of volumes leave everything as it was that only the steps of optimisers and the putting back of detectors into their layers change, in particular the parameters of the detectors, also if an error is raised on the way.", "quantifier": "all volumes, callbacks, inferrers and losses that do not change that part themselves, all numbers of epochs and volumes, every point at which an error may be raised", "why_tests_cant": "every exception point; tests compare detectors only after calls that succeed", "anchors": ["tomopt/optimisation/wrapper/volume_wrapper.py: AbsVolumeWrapper.predict", "tomopt/optimisation/wrapper/volume_wrapper.py: AbsVolumeWrapper.fit", "tomopt/optimisation/wrapper/volume_wrapper.py: AbsVolumeWrapper._scan_volumes"]}
{"id": "C157", "title": "The material met in a layer", "statement": "A muon in a passive layer is scattered, at each step, by the material of the voxel it is in, over exactly the part of the step that lies within the layer: a full step, or less only if the bottom face comes first. Over a crossing without deflection these lengths add up to the thickness of the layer over the cosine of the muon's angle, whatever the step length and the voxels. The material scattering a muon is the material it crosses.", "quantifier": "every layer, voxel size, step length, material, batch, muon direction and position, and every draw", "why_tests_cant": "whether the last step is cut right depends on how the heights, angles and step length divide; tests use one step length", "anchors": ["tomopt/volume/layer.py:PassiveLayer.scatter_and_propagate", "tomopt/volume/layer.py:PassiveLayer.forward"]}
{"id": "C158", "title": "No preferred unit of length", "statement": "Simulations do not depend on the unit lengths are given in: a volume and muons given in metres and the same given in centimetres, with the same random numbers, lead to the same muons lost, the same directions, the same budgets and costs, and hits at the same places.", "quantifier": "every unit, volume with any layers, panels, budget, batch of muons, random numbers and argsort not depending on the unit", "why_tests_cant": "tests are all in metres; a constant that silently carries a unit shows only when the unit is changed", "anchors": ["tomopt/volume/volume.py:Volume.forward", "tomopt/volume/volume.py:Volume.get_cost", "tomopt/volume/layer.py:PassiveLayer.forward", "tomopt/volume/panel.py:DetectorPanel.get_hits", "tomopt/volume/panel.py:SigmoidDetectorPanel.get_xy_resolution", "tomopt/volume/heatmap.py:DetectorHeatMap.get_hits"]}
{"id": "C159", "title": "No preferred unit of length in what is kept, reconstructed and predicted", "statement": "Reconstructed scatterings do not depend on the unit lengths are given in: from hits in metres and from the same hits in centimetres the same muons are kept, with the same angles, and scattering, entry and exit points at the same places. Radiation lengths predicted for voxels are the same lengths.", "quantifier": "every unit, volume, batch with any recorded hits, uncertainties and efficiencies, measured or true hits", "why_tests_cant": "tests are all in metres; weights, determinants and cuts must scale together for every configuration of hits", "anchors": ["tomopt/inference/scattering.py:ScatterBatch", "tomopt/inference/scattering.py:GenScatterBatch", "tomopt/inference/scattering.py:ScatterBatch.get_muon_trajectory", "tomopt/inference/scattering.py:ScatterBatch._filter_scatters", "tomopt/inference/volume.py:PanelX0Inferrer"]}
{"id": "C160", "title": "Loading a configuration replaces the one before", "statement": "After a passive configuration has been loaded, the volume holds exactly this configuration and its target, whatever was loaded before and whether or not earlier loads failed; nothing but the materials and the target changes. A load that fails leaves the volume as it was.", "quantifier": "every volume, layout function, target and history of successful and failing loads", "why_tests_cant": "a stale layer or target shows only after particular sequences of loads, or after a layout that raises for one layer only", "anchors": ["tomopt/volume/volume.py:Volume.load_rad_length", "tomopt/volume/layer.py:PassiveLayer.load_rad_length", "tomopt/volume/volume.py:Volume.target"]}
{"id": "C161", "title": "Volumes are predicted and validated separately", "statement": "The prediction for a passive volume, and its loss in validation, depend on the detectors, the muons, the random numbers and the volume itself, and not on what was loaded, scanned or predicted before; predicting volumes together gives the predictions of predicting them one after the other.", "quantifier": "every list of passive volumes, callbacks, inferrer, muon generator, and everything that happened before", "why_tests_cant": "a leak from one volume into the next (an inferrer not made anew, a prediction kept, materials left over) changes predictions only a little and only in certain orders", "anchors": ["tomopt/optimisation/wrapper/volume_wrapper.py:AbsVolumeWrapper.predict", "tomopt/optimisation/wrapper/volume_wrapper.py:AbsVolumeWrapper._scan_volumes", "tomopt/optimisation/wrapper/volume_wrapper.py:AbsVolumeWrapper._scan_volume", "tomopt/optimisation/wrapper/volume_wrapper.py:AbsVolumeWrapper._fit_epoch"]}
{"id": "C162", "title": "Callbacks that only look on change nothing", "statement": "Adding or removing callbacks that only watch (loggers, recorders, plots) changes nothing in a fit or a prediction: it makes the same calls in the same order, ends the same way, and detectors, optimisers, random numbers, losses and other callbacks are the same.", "quantifier": "every environment, number and position of onlookers, other callbacks, volumes, epochs, and errors at any point", "why_tests_cant": "that a logger influences training shows only by comparing whole fits with and without it", "anchors": ["tomopt/optimisation/wrapper/volume_wrapper.py:AbsVolumeWrapper.fit", "tomopt/optimisation/wrapper/volume_wrapper.py:AbsVolumeWrapper.predict", "tomopt/optimisation/callbacks/callback.py:Callback"]}
