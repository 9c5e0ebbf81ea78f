# Formal model of tomopt: design

Source: `/repo` (GilesStrong/tomopt, python, pinned commit). Model: Lean 4.33.0 + single Mathlib modules, in `/verif/lean/Verif`.

## Conventions

* **Numbers.** float32/float64 tensors are modelled by exact reals `ℝ` (or by an arbitrary linearly
  ordered field `K` when no transcendental function occurs). IEEE special values are modelled
  explicitly (`XF`: number, NaN, +inf, -inf) in the functions whose behaviour depends on them.
  Rounding is not modelled, except in C112 to C117, C131, C135 to C138 and C140.
* **Tensors** are lists of rows; a boolean mask is a list of booleans of the same length.
* **Mutation** becomes returning the new value; where aliasing is the point (copy, lookup,
  panel centring) the model has an explicit store of tensors.
* **Randomness** (randn, rand, numpy uniform, permutations) is a parameter: theorems quantify over all outcomes.
* **Exceptions** are values (`Except Err`), so "raises" is a theorem.
* **Layout.** `Verif/Model/*` mirrors the code and cites file:lines; `Verif/Spec/*` holds the
  independent specifications; `Verif/Lemmas/*` helper lemmas; `Verif/Props/*` the property theorems, one
  namespace per property, with a non-vacuity `example` beside each theorem.
* If the code violates a property, the negation is proved with a concrete witness
  (`..._violated`) and what does hold is proved with the suffix `_partial`.

## Plan per property

| id | model | proof |
|----|-------|-------|
| C01, C02 | `MuonBatch` as state + operation list; muons carry a ghost identity | invariant by induction over operations |
| C03, C04, C05 | real-valued angle functions mirrored branch by branch, NaN as `none` | trigonometry in Mathlib |
| C06, C07 | propagate/xy-mask on one muon and lifted to batches | algebra; floor tiling |
| C08 | store of tensors with addresses, batch = addresses | frame lemma, induction over two interleaved histories |
| C09 | hits map, stack, window | list indexing |
| C10, C11 | `forward` as a fuelled loop with scattering oracle | loop post-condition; ranking argument |
| C12 | floor index into layer array | floor inequalities |
| C13 | argsort as oracle satisfying the sort contract; panels any K | permutation + sortedness |
| C14 | fold over layers | induction |
| C15, C16, C17, C18 | mgrid enumeration, lookup with store | div/mod bijection; floor; witnesses |
| C19, C20, C21 | softmax, slices, panel scale | algebra, list induction |
| C22 | torch clamp (min>max gives max) | order lemmas |
| C23, C24, C25 | Gaussian/sigmoid response | monotonicity of exp |
| C26, C27, C28, C29, C30 | normal equations, PoCA solve, angle formulas | least-squares optimality, trigonometry |
| C31, C32, C33 | masks, shapes (including 0-dim), slices | list reasoning, witness |
| C34 | combinations-based sum | finite products and induction on panels |
| C35, C36 | inferrer with memo fields, operation list | refinement to a cache-free specification |
| C37, C38 | weighted mean/rms, x0 formula | algebra |
| C39 | reshape/permute index maps | mixed radix arithmetic |
| C40, C41, C42, C43 | fit loop emitting an event trace | induction over epochs/volumes/batches |
| C44 | save/load as association lists | round trip, witnesses |
| C45, C46, C47 | callback state machines over epochs | invariant over epochs |
| C48, C49, C50, C51 | callbacks | order lemmas, store model, fold |
| C52, C53, C54 | losses | calculus-free inequalities, continuity, relabelling model |
| C55, C56, C57, C58, C59, C60 | generators, yielder, mixture, sampler, resampler, ladle | inequalities, permutations, search |
| C61, C64 | constructors/dispatch as decision functions | case analysis |
| C62, C63 | `_pdg_scatter` on one muon with draws as parameters | trigonometric algebra; witness |
| C65, C66, C67, C68 | `_pdg_scatter`/`scatter_and_propagate` on one muon, draws as parameters; the layer loop | orthonormal frame algebra; witnesses for the refuted parts |
| C69 | heat-map detector: mixture of Gaussians, mesh, clamp, response | order lemmas; witnesses |
| C70, C71 | entry/exit points, voxel probabilities for an arbitrary distribution function | algebra; telescoping sum over the grid |
| C72 | dense-block classifier on any voxel volume | Chebyshev's sum inequality, sorting |
| C73, C74 | smoothness schedule, loss coefficient as state machine | induction over epochs / evaluations |
| C75, C76 | tabulated flux sampling, generation area | counting, trigonometry; witness |
| C77, C78, C79 | metric logger as a state machine | fold lemmas; witness |
| C80 | edge-detection pipeline on lists | window algebra, softmax; exact evaluation on a symbolic furnace |
| C81, C82 | prediction handlers as callbacks of the modelled loop; an HDF5 file as resizable arrays | the trace of `predict`; induction over runs; witness |
| C83 | warm-ups as callbacks of the modelled loop | counting steps along the trace of `fit` |
| C84, C85 | recorded errors and gradients, numpy medians | induction over epochs, sorted lists; witnesses |
| C86 | `scatter_dtheta_xy` on numbers with a signed zero | case analysis against the real-valued model; witness |
| C87 | `PocaZLadleFurnaceFillLevelInferrer`: pixels, weights, percentile clipping, mean | sorted lists, weighted means, telescoping; witnesses |
| C88 | `SmallWallsPassiveGenerator`: the random walk over columns as a loop with fuel, the draws as parameters | invariant over walls and passes (`Spec/Walls`), a measure for the end; witnesses |
| C89 | `ULorryPassiveGenerator`: factorisations of the volume, slices, background draws | interval arithmetic on slices and floors; witnesses |
| C90 | `get_small_walls_volume`, the ladle furnace volumes | induction over the stack (`Spec/Stack`), rounding lemmas; witnesses |
| C91 | `ScatterRecord`, `HitRecord` in the loops, their tables: `pd.cut`, categories | invariant over the loops for normal and raising runs, counting edges and distinct values; exact conditions for the labels |
| C92 | `_build_opt` of the two wrappers, tensors by identity | permutation of what is driven; decision logic for unsuitable volumes |
| C93 | settings of optimisers as nested dictionaries; `OneCycle` with both quantities acting on them | read/write laws with frame, simulation of C47's schedule by induction over events |
| C94 | `_sort_cbs` | loop invariant |
| C95 | `_compute_out_var_unc`, `jacobian` and the voxel counterpart, automatic differentiation as a parameter; which batches have uncertainties | calculus of partial derivatives in a batch; variance of sums of independent errors (Mathlib); Gauss-Markov by orthogonality |
| C96 | `get_hits` of heat maps | row by row; a covered muon outside the box hits are clamped to |
| C97 | scattering widths | Highland's formula as separate definition; moments by integration over any probability space with standard draws (normal draws as instance); induction on the number of steps for the moments of a walk |
| C98 | weights of a voxel | weighted means over a list of muons as separate definition, variance of the square through the derivative; excess of the mean over the harmonic mean in closed form |
| C99 | passage through a telescope | composition of C13, C14, C27–C32: an invariant linking every recorded row to the identity of its muon, through removals and sorted panels; lines compared as sets of points |
| C100 | memoised variables of scatter batches, several scatter batches of one batch of muons | the memo as state, invariant that every stored table is the directly computed one, induction over requests; idempotence of the filter for the same kind, two concrete muons for different kinds |
| C101 | volume with detectors above and below, noise-free hits, scatter batch of the recorded hits | what every panel records for every muon carried through the layers (readout lemma), fit of collinear points exact for any positive weights, filter rewritten as what the panels saw |
| C102 | `SpreadRangeLoss`: dictionary of predictions by target, its statistics | invariant of the dictionary over the volumes; algebra of mean and standard deviation |
| C103 | `LinearCorrectionCallback` as a state machine over the wrapper's events, optimiser step as parameter | induction over histories; convexity of the mean squared error for plain gradient descent |
| C104 | `Volume.forward` with its layers, as for C14 | simulation: the two runs stay on the same muons layer by layer; a detector layer moves each muon along its line to the lower face whatever its panels do |
| C105 | the passage, the hit dictionary and the scatter batch as for C01, C14, C32 | simulation between the batch and its part through passes, filters and recordings; tracks, masks and coefficients row by row |
| C106 | the track fit as a function of random hits, panels with random noise, whole volumes | The fitted position at any height is a weighted sum of the hits whose weights depend on heights and uncertainties only and reproduce straight lines (from the normal equations); means by linearity of the integral, variances by independence, optimality by the Gauss-Markov argument (cross term vanishes); lifted to volumes with the read-out lemmas of C101, whose readers are shown not to depend on the noise, and C104 |
| C107 | `Model/Infer` (the inferrer as a state machine) | C35 reduces a history to its batches, C36 to their usable muons; parsing, probabilities and voxel means are then shown invariant under permutations of muons |
| C108 | `Model/Scatter` (trajectory, coefficients, angles) | the fit is characterised by vanishing weighted residuals, which are linear in the coordinates; determinants, cross and dot products are computed for moved vectors |
| C109 | `Model/Panel`, `Model/Detector`, `Model/Volume` (shares of the budget), `Model/Scatter` (fit) | both responses are monotone in the size of the panel; shares are proportional to the budget; for tracks the weights of the old fit are compared with those of the new one (Gauss and Markov) |
| C110 | `Model/Panel` as functions of one parameter | derivatives of Gaussian and sigmoid responses; clamps are locally inactive; in realistic validation the mask is locally constant |
| C111 | `Model/Panel`, `Model/Scatter` as functions of one parameter that moves the whole detector | composition of differentiable functions: responses, rational fit weights with positive determinant, Cramer's rule, arccos inside (-1, 1) |
| C112 | `Model/Rounded`: the look-up of `Model/Layer` with a rounded quotient; floating-point numbers in `Spec/Floats` | different numbers of the same precision have a minimal relative distance, which is more than rounding can bridge; uniqueness of rounding for the witness |
| C113 | `Model/Rounded`: counts of voxels with rounded lengths, sizes and quotients | relative errors of three roundings; exact evaluation of roundings for the witness |
| C114 | `Model/Rounded`: heights of muons that are moved or stepped, all results rounded | Sterbenz's lemma for arrival; every pass takes off half of the step, by induction on the passes; exact evaluation of roundings for the witness |
| C115 | `Model/Rounded`: range of heights, look-up of a position, edges and centres, all results rounded | bounds on the sum of all rounding errors; exact evaluation of roundings for the witness |
| C116 | `Model/Rounded`: classes of fill levels and drawn levels, all results rounded | bounds on the rounding errors of size and difference; exact evaluation of roundings for the witnesses |
| C117 | `Model/Materials`: the tables of materials; `Model/Loss`: conversions of C54; rounding of `Spec/Floats` | the values of the table differ by half a percent and are no integers (evaluated by the kernel on the whole table), which is more than rounding can bridge; C54 for the rest |
| C118 | `Model/EpochSave`: the callback in the loops of `Model/Wrapper`, files as a map; `Spec/Epochs`: states at the ends of epochs | an invariant of every program of the loops that holds up to any exception; induction over epochs; file names are injective; concrete fits, evaluated by the kernel, for what fails |
| C119 | `Model/HeatmapGif`: the callback in the loops of `Model/Wrapper`, files as a map; `Spec/Epochs` | invariants of all programs of the loops (`Lemmas/Loops`); induction over the epochs reached; concrete fits, evaluated by the kernel, for what fails |
| C120 | `Model/History`: the logger's records of metrics in the loops of `Model/Wrapper`; `Spec/Epochs` | `Lemmas/Holds` (a callback that keeps something of its own, in a fit); induction over the epochs reached; lists of interjections for what fails |
| C121 | `Model/Chain` (hits to variables and uncertainties), `Model/Panel`, `Model/Infer`, `Model/Loss`; `Spec/Chain`, `Spec/Normal` | `Lemmas/SmoothVars`, `Lemmas/Chain` (twice differentiable variables; a direction in which each of them changes, so that no uncertainty is zero), `Lemmas/ChainLoss`, `Lemmas/ChainBatch` (composition) |
| C122 | `Model/Chain.graphed`: a Jacobian with and without a graph; `followsHeight`: whether the place where a muon crosses a panel follows the panel's height in the graph | as C121; `Lemmas/ChainFrozen`: rays that keep the places where they cross the panels; `Lemmas/ChainGrad`: derivatives with live and with constant Jacobians compared for two muons whose scattering and outgoing angles agree, in a voxel far enough away; `Lemmas/ChainUphill`: with a second volume whose muons are alike, targets are chosen for which the two derivatives have opposite signs |
| C123 | `Model/Heatmap` as for C69 and C96 | closed form of the answer (`answer`), then derivatives by the chain rule; near `t0` the highest centre stays the highest |
| C124 | calls that give the batch after them and the exception (`Model/MuonExec`): columns changed one after the other, hits filtered tensor by tensor | case analysis of each call; histories by induction, with the invariant of C01; `agrees` ties it to `Model/Muon` |
| C125 | attributes as views of columns of a tensor in a store, statements of a program (`Model/Access`) | an invariant of store and object by induction over programs; witnesses by computation |
| C126 | scatter batches that refer to a muon batch in a store (`Model/Shared`), events that call methods of muons, write momenta, add scatters or ask | simulation of the program by the inferrer of `Model/Infer` on copies, by induction over events; invariants on counts of momenta and rows; witnesses by computation and from C100 |
| C127 | the sequence of one update (`Model/Update`): record, step in place, callbacks in order, conform, with positions of panels in a store | invariants on addresses and layers kept by every part; equations of parameters for limiter, centring and conforming; induction over callbacks and updates; witnesses by computation |
| C128 | losses for classification (`Model/ClassLoss`): targets relabelled as in C54, then torch's `nll_loss` or `binary_cross_entropy` written out, with shape errors, ignored class and clamped logarithm | the value by induction over voxels; consequences by monotonicity of the logarithm; Gibbs' inequality by counting voxels per class |
| C129 | the loop of `_scan_volume` in `Model/Wrapper`; classifiers built on the X0 inferrer of `Model/Infer` (`Model/Composite`) | counting in the documented sequence of calls (C41); a Hoare-style invariant 'no loss so far' over the whole fit; simulation of the X0 inferrer (C35) for classifiers |
| C130 | what panels and heat maps record of a muon (`Model/Heatmap`, `Model/Panel`, read with `AnyPanel.tensorAt`), then the chain of C121 and C122 | the chain is proved once for anything that tells of muons in a differentiable way (`Lemmas/ChainAny`); heat maps do by C123's formula at a moving point |
| C131 | `_compute_theta_msc` and `_compute_theta` with every operation rounded to nearest (`Model/RoundedAngle`); predictions as in C98 | error analysis of the quotient against the true cosine, Jordan's inequality to go from cosines to squares of angles; gap between one and the next smaller floating-point number for the steps |
| C132 | predictions as in C98 for the first n of a sequence of random muons; angle by which a simulated muon is turned, as in C65 | strong law of large numbers for weights and weighted squares; excess of the mean over the harmonic mean under the integral; truncated inverse squares (a sum of steps) for divergence; density of the normal distribution near zero |
| C133 | `_get_voxel_zxy_x0_pred_uncs`, the Jacobian as derivatives of the modelled prediction by every variable of every muon (zero where automatic differentiation gives NaN), the cached property next to the state machine of C35 | derivative of weighted means along a change of one muon; closed forms per column; sums over copies; invariant of the cache by induction over histories |
| C134 | `resample` of C59 run on independent random draws of one law (probability space and draws are parameters; they exist for every law, `draws_exist`) | the slots finished in given rounds use disjoint draws, so probabilities multiply; sum over all rounds; geometric series and continuity of measures for the limit |
| C135 | `generate_set` with `np.cumsum`, `np.random.uniform` and the conversion to a tensor rounded to nearest (`Model/RoundedGen`) | induction over the sum for sortedness and for bounds on its entries; sorted look-up as comparison with one entry; counting of the draws k/N up to an entry |
| C136 | `_get_voxel_zxy_x0_preds`, `_weighted_rms` and `x0_from_scatters` with every operation rounded and sums in any order (`Model/RoundedInfer`) | all values are positive, so relative errors of products, quotients, roots and sums add up (`Lemmas/Within`); induction over the order of additions; cosines by their Lipschitz constant |
| C137 | `muon_probs_per_voxel_zxy` with every operation rounded, by torch's formula of the distribution function (`Model/RoundedProb`) | rounding to nearest is monotone; multiples of powers of two; relative errors of the argument move the normal distribution function by at most a third of them (`Lemmas/RoundedProb`); the Gaussian tail by a monotone function with limit one |
| C138 | the fit of `get_muon_trajectory` with every operation rounded and sums in any order (`Model/RoundedFit`) | absolute errors of the means relative to means of absolute values, carried through the two quotients (`Lemmas/RoundedFit`); witnesses traced operation by operation for every rounding to nearest |
| C139 | `_get_block_coords` with independent uniform draws (`Model/Passives`) | the uniform law is invariant under reflection, and products of it (`Measure.pi`); interval lengths; recursion over the sequences of draws of materials |
| C140 | `assign_budget`, the size and the cost of panels with every operation rounded, sums in any order and a parameter for the routine for exponentials (`Model/RoundedBudget`) | numbers of relative errors (`Lemmas/Within`) carried through softmax, square root and area; witnesses for every rounding to nearest |
| C141 | `gauss_3d` with its kernel of 27 weights and replicated ends, the filters along the height, and the loss of the batch dimension (`Model/Classifier`) | weighted means written out; reversal of indices; induction over the pipeline |
| C142 | `get_results` and the running best loss for NaN and infinite values, with numpy's replacement of NaN by infinity (`Model/MonitorNan`) | invariant of the search for the first minimum in the extended reals; agreement with C77 on numbers |
| C143 | tensors of any shape, broadcasting, and the mean squared deviation (`Model/VolumeMse`) | induction over dimensions: all indices are enumerated once, and aligning an index with its own shape changes nothing |
| C144 | the share of every weight as a real function, and the assignment of `Model/Volume` for all weights | softmax algebra, derivatives along each weight, invariance under a common shift; order of heights for the witness |
| C145 | `on_train_begin` of a schedule used before (`Model/Reuse`), and the warm-ups, metrics and logger of the other models in arbitrary states | equality of the states after `on_train_begin`, then induction over epochs; simulation between a new and a used schedule over all sequences of events |
| C146 | `plot_map` as numbers and the places they are drawn at (`Model/PlotMap`): mesh, stacking, reversal of dimensions, flattening and back | index arithmetic; densities of the mirrored mixture term by term; one cluster in closed form for the witnesses |
| C147 | the parts of the figure, the points of the curves, and the shapes and limits of the views of detectors (`Model/LivePlot`), with the errors of matplotlib for empty parts and curves of different lengths | the parts by evaluation of the four cases; curves by index arithmetic for all lengths, with the lengths in a fit from C51; limits by bounds of minima and maxima over all panels |
| C148 | the shapes of a drawing of a volume with their order and limits, the rows of a comparison of predictions, the plots of a record by layer (`Model/Draw`); rounding to hundredths and sorting are parameters with their specifications | permutation of the expected shapes by induction on layers, sortedness of merge sort; rows by induction with index arithmetic; ranges of colours by induction; refutations for all volumes, arrays and records |
| C149 | the flight through layers with exchanged axes (`Model/Layer`, `Model/Volume`); what exchanging means for muons, voxels and random numbers is in `Spec/Exchange` | a relation between exchanged rows, kept by every step of a pass; induction over passes and layers, choosing the random numbers of each pass |
| C150 | groups, means, deviations, curves and legends of the four comparison plots (`Model/FurnacePlots`, specification in `Spec/FurnacePlots`) | levels by sortedness and permutation of merge sort of a list without duplicates; sums over groups by induction on rows; the relation of the two figures from the expansion of the sum of squares; refutation for every table without the column |
| C151 | what of each panel, heat map and budget is written to a file, strict loading by names and sizes, optimisers by position, `from_save` and `get_param_count` (`Model/Reopen`, specification in `Spec/Reopen`) | the entries of a file determine the shapes of all panels (equal sizes exactly for volumes alike); each entry read back by a round trip of flattening; the opened volume differs from the saved one in shares of the budget only, which are assigned anew before use; optimisers by induction over their names; refutations for every file refused and every pair of widths |
| C152 | what panels and heat maps record (`Model/Panel`, `Model/Heatmap`, `Model/Detector`) and what is reconstructed from it (`Model/Scatter`) with exchanged axes, specified in `Spec/ExchangeHits` | C149's relation of flights, with an invariant that both batches hold rows of one common record; every step of the track fit, the filter and the closest approach commutes with the exchange, and so does the assignment of budgets (`Model/Volume`); predictions (`Model/Infer`, `Spec/ExchangePredict`) by C39's and C107's descriptions of what an inferrer answers |
| C153 | printing, the best metric and the pictures of the logger (`Model/Report`), what an animation shows in `Spec/Report` | C51's histories; equal blocks in a flattened list; invariant over interjections that the saved pictures are those taken so far |
| C154 | what it means to be higher (`Spec/Lift`, `Spec/LiftScatter`, `Spec/LiftPredict`) | every model function from panels to inferrers commutes with the change of heights, by induction over layers, steps and panels |
| C155 | the loops of `Model/Wrapper` with any environment, for which callbacks in `Spec/GoOn` | relational invariants between two runs that differ in what earlier epochs left behind, growing with the point reached within an epoch |
| C156 | the loops of `Model/Wrapper` with any environment, what only updates change in `Spec/Frozen` | invariant of all statements of the loops outside of updates; induction over volumes and epochs |
| C157 | `PassiveLayer.scatter_and_propagate`, `forward` | step length of the scattering characterised by the geometry of the layer (`Spec/Crossing`); induction over the passes of the loop with the draws zero |
| C158 | `Volume.forward`, `get_cost`, `PassiveLayer`, `DetectorLayer`, `DetectorPanel`, `DetectorHeatMap` | a change of unit (`Spec/Rescale`) commutes with each function of the flight; composed through the loops over panels, steps and layers |
| C159 | `ScatterBatch`, `GenScatterBatch` | a change of unit (`Spec/RescaleScatter`) commutes with the extraction of hits, fits, filter and coefficients; composed with C158 for whole telescopes |
| C160 | `Volume.load_rad_length` keeping the state when a layer raises (`Model/Load`) | induction over the layers and over the history of loads; layers of equal shape load alike |
| C161 | the prediction loop of `Model/Wrapper` in any environment in which loading forgets what was loaded (`Spec/Separate`) | two runs side by side: agreement in the core becomes agreement in the loaded volume, then in the inferrer, then in the prediction |
| C162 | `fit` and `predict` of `Model/Wrapper` in two environments that differ in onlookers (`Spec/Onlookers`) | the loops with and without onlookers side by side, program by program |

## Trusted base

* Lean 4.33.0's kernel, which checks every proof term. No `sorry`, no `admit`, no own axioms, no `native_decide`, no `bv_decide`, no `implemented_by`.
* The three standard axioms `propext`, `Classical.choice`, `Quot.sound`, at most (table at the end).
* Mathlib's definitions (ℝ, `Real.sin`, `Real.exp`, lists, permutations …) mean what they say.
* The hand translation from Python to Lean: the definitions of `Verif/Model` say what the cited lines do. It is checked by reading, by the examples
  beside the theorems, and by the wrong programs of `seeded/LOG.jsonl`; it is not checked by running tomopt.
* In `seeded/LOG.jsonl`, `theorems_failed` is what Lean reported when the wrong program was built. `property_theorems_lost` was not observed: it lists the claimed theorems
  which, in the present proofs, depend on one that failed, so it also names theorems proved after the attempt. Six entries (F04, F80, H20, H20rr, E05, S22) are wrong programs
  that did not compile; they test nothing and say so in their notes.
* The assumptions about libraries listed next.

## Assumptions about Python, torch and numpy

* Floating-point arithmetic on finite values is exact, except in C112 to C117 and C131, C135 to C138 and C140, where results are rounded to nearest and voxel sizes have the precision of positions; overflow and underflow are not modelled, except for the saturation of `nan_to_num` in track fits.
* `a % b` of floats is the non-negative remainder; `torch.clamp(min > max)` gives `max`; `Tensor.round`/`round` are half-to-even.
* `np.argsort`, `np.random.*`, `torch.randn`, `random.shuffle` may return anything that satisfies their contract.
* `torch.distributions` reject invalid parameters when built (argument validation is on by default).
* torch's `state_dict`/`load_state_dict` copy exactly what they are given; optimisers and automatic differentiation are opaque
  functions of what they are given.
* `np.searchsorted` on the cumulative flux counts smaller entries.

## What is modelled

| source | model |
|--------|-------|
| `muon/muon_batch.py` | `Model/Muon`, aliasing in `Model/Heap`, signed zeros in `Model/SignedZero` |
| `muon/generation.py` | `Model/Generation`, `Model/RoundedGen` |
| `volume/layer.py`, `scatter_model.py` (rejection only) | `Model/Layer` (passive layers), `Model/Detector`, `Model/Rounded` |
| `volume/panel.py`, `volume/heatmap.py` | `Model/Panel`, `Model/Heatmap`, `Model/RoundedBudget` |
| `volume/volume.py` | `Model/Volume`, `Model/Geometry`, `Model/Load` |
| `inference/scattering.py` | `Model/Scatter`, `Model/Uncert`, `Model/Lazy`, `Model/Chain`, `Model/RoundedAngle`, `Model/RoundedFit` |
| `inference/volume.py` | `Model/Infer`, `Model/PredUnc`, `Model/Classifier`, `Model/RoundedInfer`, `Model/RoundedProb` |
| `optimisation/wrapper/volume_wrapper.py` | `Model/Wrapper`, `Model/SaveLoad`, `Model/Optims`, `Model/Reopen` |
| `optimisation/callbacks/` warm-up, schedule, detector, gradient, data, metric, logger, prediction and record callbacks | `Model/Warmup`, `Model/WarmupLoop`, `Model/WarmupTune`, `Model/PredHandlers`, `Model/Records`, `Model/OneCycle`, `Model/DetCallbacks`, `Model/Generation`, `Model/Monitor`, `Model/EpochSave`, `Model/HeatmapGif`, `Model/History` |
| `optimisation/loss/*`, `utils.py` | `Model/Loss` |
| `core.py` | `Model/Materials` |
| `optimisation/data/passives.py` | `Model/Passives` |
| `benchmarks/ladle_furnace/` | `Model/Classifier`, `Model/PocaZ`, `Model/Benchmarks`, `Model/Furnace` |
| `benchmarks/small_walls/` | `Model/SmallWalls`, `Model/Benchmarks` |
| `benchmarks/u_lorry/data.py` | `Model/Lorry` |

Simplifications (also stated at the definitions):

* Scattering: a track with a NaN component is NaN as a whole.
* Inference: group efficiency of zero muons does not raise; efficiencies are finite reals; overflow of sums is ignored; muons of a scatter batch are not
  changed after it was added; the uncertainties of the predictions use automatic differentiation, which is assumed to compute derivatives, and NaN where a variance is zero (C133).
* Wrapper: callbacks may change only the prediction, the stop flag and the skip flag of `fit_params`; progress bars and CUDA are left out; batch sizes
  are natural numbers.
* Automatic differentiation (C95): what it returns is a parameter; that it is the partial derivative is a hypothesis of the theorems. Making a batch of zero muons is taken to succeed.
* One-cycle schedule (C47): a new object, one of the two annealed quantities; C93 reduces repeated use and both quantities to it.
* Passives: explicit block sizes are triples; in mixtures all lists have the same length with positive entries.
* Generation: a resampling generator returns exactly as many muons as asked for; horizontal muons are excluded.
* Monitor: results of finite losses (others in C142); sub-losses are the error and the cost.
* Classifier: ill-shaped pipelines are errors; division by zero is `none`.

## What is not modelled

* Overflow and run time of floating-point code, and rounding except for voxel look-ups, voxel counts, look-ups in the volume, heights in passive layers, classes of fill levels and of materials (C112 to C117), and angles of tracks (C131; sums from left to right, arccos with a bounded relative error), drawing of muons (C135; the table of fluxes as given), X0s of voxels (C136; relative errors), weights of voxels (C137; the error function as given), fitted tracks (C138), and budgets (C140; exponentials as given); the algorithm of automatic differentiation (it is taken to compute the derivatives of what it is given, C95, C121, C122).
* Everything that only draws, apart from which numbers are drawn where in the picture of a heat map (C146), in the live plots (C147), and in drawings of volumes, predictions and records (C148), and in comparisons of detectors (C150): colours, styles, labels.
* The parameterised GEANT4 scattering model, which needs a data file that is not shipped and whose constructor always raises (that it raises is proved, C61).
* Progress bars, printing other than of losses and metrics (C153), CUDA memory handling, file formats of torch.

## Findings: where the code disagrees with its documentation or with a property

Each is a theorem with a concrete witness, or for all inputs where stated.

| property | finding |
|----------|---------|
| C05 | a scattering by zero angle removes exactly vertical muons (φ becomes NaN) |
| C15, C39 | if the passive volume does not start at a multiple of the voxel size, the voxel grid is misaligned and may have the wrong number of entries |
| C17 | points on a high face of the volume are accepted with an index one past the end |
| C18 | the coordinate look-up changes the caller's tensor |
| C25 | the sigmoid panel's response at the edge is more than one half |
| C32 | filtering a batch of one muon that must be dropped raises |
| C35 | an efficiency that raises once leaves memoised values: later answers differ |
| C38 | the X0 inversion ignores the logarithmic term of the simulated angle: exact bias given |
| C40 | validation drops the volumes left over after the last full batch |
| C43 | a failing creation of the callback folder leaves `fit_params` set; an exception in `predict` leaves shuffling off |
| C44 | panel scales are stale after `load`; optimisers without `_opt` in their name are not restored; an optimiser called `volume` destroys the file |
| C46 | a callback listed before the warm-ups it waits for starts one epoch late |
| C47 | the second phase of a one-cycle schedule runs backwards; the first lasts one epoch too long; length zero divides by zero; activation after the last epoch raises |
| C48 | a negative limit reverses steps |
| C49 | centring gives all panels of a layer one shared tensor |
| C50 | parameters without a gradient make `NoMoreNaNs` raise |
| C51 | with fewer validation volumes than a batch the logger divides by zero |
| C52 | budget zero gives infinities or NaN |
| C53 | documented shapes of targets broadcast wrongly; a single class gives NaN |
| C54 | in-place relabelling interferes when a class id equals a later X0 |
| C55 | thin fixed blocks vanish, fixed blocks may stick out, layers are chosen by their tops, one material never ends |
| C56 | the caller's list of passives is shuffled in place |
| C57 | fractions adding up to zero give NaN |
| C58 | energies below the muon mass give NaN momenta |
| C59 | resampling replaces muons that enter through a side, and need not end |
| C62 | displacement and deflection in one scattering step are anti-correlated, for every direction |
| C66 | muons scattered past the horizontal continue downwards in the opposite direction |
| C67 | projected scattering angles have no lower limit |
| C68 | a muon displaced above the top of a layer leaves it without further scattering |
| C69 | heat-map panels: footprint, height and resolution are not limited as documented |
| C72 | dense-block classifier: the block is a third of its size; the statistic stays between 1/4 and 3/4 with defaults; a missing prediction raises |
| C73 | the final smoothness is never reached in a training of one epoch |
| C75 | energies are sampled without regard to the widths of the energy bins |
| C79 | the reported composition of the loss need not add up to one |
| C80 | the default furnace pipeline is three layers too low on a perfect image; pipelines ending in `gauss_1d` collapse to one number |
| C81 | a volume without prediction makes `predict` raise, so that all other results are lost |
| C82 | the data sets of the prediction file are written one after the other: a prediction of refused shape leaves a row without target and misaligns all later rows |
| C84 | if no training volume is predicted during its epochs, `CostCoefWarmup` sets the coefficient to NaN |
| C85 | `OptConfig` sets an infinite learning rate if the median gradient is zero, and raises if a batch has no loss or if its parameters differ in size |
| C86 | A vertical muon with azimuth π scattered only in y: the x slope is a negative zero, so the azimuth formula adds nothing or π wrongly and the muon leaves in the opposite direction |
| C87 | Once 84% of the muons have no weight the clipping removes all weight (NaN); all muons non-finite raises; the pixel grid in y uses the length in x, so oblong volumes are covered partly or twice |
| C88 | `SmallWallsPassiveGenerator`: walls can end before `min_length`; volumes with one layer, or too low for `min_height`, raise for some draws; the layout calls `.long()` on a numpy float and can never be loaded |
| C89 | `ULorryPassiveGenerator`: the fill level ignores the height of the volume above ground; block sizes longer than the volume are accepted and mostly cut off; the background differs each time the same layout is loaded |
| C90 | small walls: voxel sizes that do not divide the height, or are no whole centimetres, give overlapping or gapped layers; furnace: the second panel below always has efficiency 1 |
| C91 | `ScatterRecord` labels layers with `h - z`, right only if the detectors above and below have the same height; `HitRecord` labels by distinct heights, wrong as soon as a panel moved during the record |
| C93 | `set_opt_lr`/`set_opt_mom` (and hence every schedule) change only the first parameter group; setting the momentum of an optimiser without one silently adds an unused entry |
| C95 | a batch whose muons were all filtered out has no uncertainties (`nan_to_num(None)`, TypeError), so every prediction of an inferrer that was given one raises; the check for batches only catches that none was added. Scatters from true hits (`GenScatterBatch`) never have uncertainties: their variables are not connected to the recorded hits (AttributeError) |
| C96 | in realistic validation the range in which muons are detected (1.2 times the difference of the two spans on each side) and the box hits are clamped to (from half that difference below the centre, the two spans as sides) do not agree: for every heat map there are detected muons that are displaced by half the spread without any noise (the source says `fix this?`) |
| C97 | angles are cut at +pi/2.2 only, so with normal draws the mean deflection is negative for every width; the logarithm of the PDG formula is applied per step, so the same slab scatters less the finer it is stepped; because displacement and deflection have opposite signs, the displacement over `k` steps has variance `k³/3 - k² + k` in place of `k³/3` |
| C98 | the weights contain the variance of the squared value, `(2 x u)²`, which grows with the value itself, so that the "RMS" is a weighted harmonic mean of the squares: it is below the mean square as soon as the muons differ, and X0 is overestimated; a muon whose angle has uncertainty zero gets the same weight in every voxel |
| C100 | making a `GenScatterBatch` from the muons of an existing `ScatterBatch` filters the shared `MuonBatch` again; the `ScatterBatch` then reports fewer muons (`len`, `n_mu`) than its variables have rows |
| C102 | `SpreadRangeLoss` keeps `None` for a volume that could not be scanned, and `torch.cat` raises at the end of the batch if its target occurs twice (`C102.unscanned_violated`). Used in `predict` it raises on the first volume, since its dictionary is only made when a volume batch begins (`C102.predict_violated`). |
| C103 | `LinearCorrectionCallback` raises if a volume could not be scanned (`C103.unscanned_violated`). |
| C105 | a scatter batch of a single muon raises if that muon is to be dropped, although the same muon is quietly dropped from a larger batch (see C32) |
| C106 | In realistic evaluation hits are clamped to the panel, so the recorded position of a muon near an edge is biased towards the inside (`realistic_violated`); and the fit weights hits by efficiency as well as precision, so with panels of different efficiency it is not the most precise unbiased fit (`unequal_violated`). Both are deliberate in the code |
| C109 | The fit weights hits by efficiency as well as by precision. Widening one of three panels raises its efficiency for a muon passing beside it, so the fit trusts its hit more than the equally precise others, and the fitted position becomes less precise (`wider_violated`). |
| C110 | In the very middle of a sigmoid panel the efficiency is not differentiable in the position of the panel (`middle_violated`). |
| C111 | The polar angle of a track is not differentiable where the track is vertical, and the azimuth jumps by 2π where the track points along positive x (`vertical_violated`). Gradients of `theta_in`, `phi_in` and what is computed from them are wrong or undefined there. |
| C112 | A layer of 6.3 m by 6.3 m with voxels of 0.7 m: in single precision the length is rounded up and the voxel size down, and a muon at the last position before the far edge gets index 9 of 9 voxels; the look-up raises an `IndexError` (`last_violated`). Many other pairs behave the same. |
| C113 | Passive generators truncate `lw / size`, the volume rounds it. For a volume of 1.3 m with voxels of 0.1 m in single precision layouts have 12 voxels per side instead of 13, and a muon over the last tenth of a metre makes the look-up raise an `IndexError` (`filled_violated`). Other pairs: 0.9 m with 0.3 m, 2.1 m with 0.1 m. |
| C114 | A passive layer steps a muon until its height is at or below the bottom. For a muon that is almost horizontal and not scattered (no material, or beside the footprint) the step is smaller than half of the spacing of single precision numbers at its height, so that the height never changes and `forward` never returns: top at 0.9 m, steps of 1 cm, less than a millionth of a radian from the horizontal (`stuck_violated`). |
| C115 | The low edges of voxels reported by the volume are not always looked up as their own voxel: in single precision with voxels of 0.1 m the edge of voxel 13 gives 12 (`edge_violated`). Centres are safe (`centres`). |
| C116 | In single precision a furnace with layers of 0.1 m from height zero that is filled up to 0.5 m gets class 3, although layer 4 is filled and class 4 stands for 0.5 m: 0.5 is not five times the rounded 0.1 (`round_trip_violated`). With eight layers of an eighth of a metre from 3 m the largest random number gives a fill level at the top, the class of which (7) is not among the seven classes (`drawn_violated`). |
| C118 | `EpochSave` numbers its files by the epoch of the current fit, from 1: a second fit into the same folder replaces files of the first (`unique_violated`) and a shorter one leaves stale later files (`stale_violated`). It saves before callbacks later in the list have run their `on_epoch_end`, such as warm-ups that reset learning rates (`order_violated`). |
| C119 | Two `HeatMapGif` callbacks in one fit share their temporary files: the first deletes them, the second raises `FileNotFoundError` at the end of the fit (`two_violated`). After an exception the temporary pictures stay (`leftover_violated`). |
| C120 | `get_loss_history` keys metrics by name, by default the name of the class: two of the same class are merged (`names_violated`). `metric_cbs` is remembered at the end of the training only, so that after an exception the history has no metrics (`exception_violated`). A metric computed at `on_epoch_end` that stands after the logger is `None` when it is printed, which raises `TypeError` (`order_violated`). |
| C121 | With `steep_budget=False` the penalty is not differentiable where cost and target budget agree (`budget_violated`); torch takes the slope from below there. |
| C122 | `_compute_out_var_unc` calls `jacobian` without `create_graph`, so that the uncertainties, which weigh the muons in every voxel, have no gradient by way of the Jacobian. The gradient of the loss is wrong by that part: the derivative of the error by the height of a panel differs from what the backward pass gives (`gradient_violated`). For a batch of two volumes of two muons each, a step against the gradient raises the loss, however small the learning rate (`uphill_violated`). Independently, `PanelDetectorLayer.forward` moves muons to `p.z.detach()` and `get_hits` reads `mu.xy.data`, so that the recorded place stays where it is when automatic differentiation raises a panel: a muon recorded without noise has a prediction that does not depend on the height of a panel, and yet a gradient (`height_violated`). |
| C123 | The response of a heat map is divided by its value at its highest centre. With two clusters, moving one towards a muon on the far side of the other raises the highest value more than the value at the muon, and the muon is seen worse (`closer_violated`); where two centres are equally high the response has a corner (`corner_violated`). |
| C124 | `scatter_dxyz` and `scatter_dtheta_dphi` change x, y and z, or phi and theta, one after the other. If a later argument has the wrong length they raise after the earlier ones have taken effect; calling again with corrected arguments applies these twice (`moved_violated`, `turned_violated`). `append_hits` does not check the number of rows; `filter_muons` then raises after it has removed the muons, and the hits left behind belong to others (`lost_violated`). A mask of the wrong length passes `filter_muons` unnoticed if it has enough true elements. |
| C125 | `batch.x += d` raises an `AttributeError`, but the muons have been moved (`rejected_violated`). Writing into elements of what `theta` returned is accepted and leaves upwards muons in the batch (`into_violated`). A position read before a call shows the position after it, so that the difference of the two is zero (`before_violated`), until a muon is removed. `theta` read from a batch follows it and `theta_x` does not (`together_violated`). |
| C126 | `_combine_scatters` takes momenta from the muon batch when the first question is asked, and everything else from the scatter batch. If a muon is removed in between, for example by making a `GenScatterBatch` from the same muons (`second_violated`), every question raises from then on, also after more scatters were added (`lost`). Momenta written in between change the prediction (`momenta_violated`). |
| C127 | With `PanelCentring` after `PanelUpdateLimiter`, the first update moves panels that are apart by more than the maximal step, and does so in warm-up too, where no step is taken (`centring_violated`). Conforming moves a panel at the top or bottom of its layer by a random margin, whatever the maximal step of heights is, and without any step (`margin_violated`). With centring last, the next step moves each panel by the sum of the steps of its layer (`own_violated`). |
| C128 | Since targets are overwritten in place (see C54), a right prediction can have a larger error than a wrong one (`confused_violated`). A class with the number -100 is silently left out, and a volume of it alone gives NaN (`ignored_violated`). For two classes the error does not change where the truth is given a probability below exp(-100) (`flat_violated`). |
| C129 | `n_mu_per_volume // mu_bs` whole batches are made, so volumes get fewer muons than asked for unless the numbers divide (`missing_violated`), and none if a batch is larger: then a fit with a plain X0 inferrer runs through without learning anything (`nothing_learned`), while with a classifier built on it the same fit raises TypeError or AttributeError (`classifiers_violated`, `breaks_off`). |
| C130 | As for panels, `get_hits` of heat maps takes `mu.xy.data`: the gradient with respect to their heights is that of a detector whose hits do not follow the muon (`height_violated`: the prediction does not depend on the height, the gradient says it falls). |
| C131 | `_compute_theta_msc` takes the arccos of a rounded cosine, without limiting it to one. In single precision no angle between 0 and 0.34 mrad is ever reported: a muon scattered by 0.06 mrad is reported as unscattered and left out (`lost_violated`), a straight one at 45 degrees as NaN (`unscattered_violated`), and every true angle below 0.125 mrad is lost or more than doubled (`small_violated`). Since the remaining angles are at least 0.34 mrad, the X0 predicted from muons above 5 GeV for a voxel of 10 cm stays below a tenth of that of air (`air_violated`). |
| C132 | Each squared scattering is weighted by the inverse of its own variance, so by its own inverse. More muons do not cure this: the predicted X0 tends to a value above the true one (`biased_violated`), and for scatterings as simulated by `_pdg_scatter`, measured without error on the angle, it tends to infinity (`simulated_violated`), however thick the material is. |
| C133 | The propagated uncertainty only contains the resolution of the angles, not the spread of scatterings between muons nor the bias of C98: for enough muons the prediction is off by any number of its uncertainties (`overconfident_violated`). A single further muon with a small scattering angle takes over all weight and can make the uncertainty as large as one likes (`more_is_better_violated`). A muon with an angle of exactly zero contributes nothing for its PoCA, as its derivatives are NaN and replaced by zero. |
| C134 | Resampling changes the spectrum: the energies and angles of muons in training are those given that the volume is hit, not those of the generator (`spectrum_violated`), and the number of muons does not tell the exposure any more. |
| C135 | `generate_set` draws azimuths below 2π in double precision and converts them to single precision, where the largest become 6.28318548, which is above 2π (`phi_violated`). |
| C137 | In single precision, the probability that a PoCA lies in a voxel six uncertainties away from it or more is computed as zero, and the number 1e-15 that is added takes its place. Real probabilities there are up to a million times larger, so the relative weights of muons for voxels without nearby PoCAs carry no information about distance. |
| C138 | The fit is computed from moments about zero height, not about the mean height. With panels 16 mm apart at a height of one metre, a vertical muon with exact hits gets a slope of 0.48 mrad in single precision, as large as many real scatterings; with panels an eighth of a millimetre apart the denominator is computed as zero and no muon has a track. |
| C139 | Layers are chosen by their upper ends, and the upper end of a block of random size is below the upper end of the volume: the top layer never contains a block, while the lowest one does at least as often as the number of layers says. |
| C140 | In single precision a panel whose budget weight is 104 or more below the largest gets a share of exactly zero: a Gaussian panel then makes training stop with a ValueError. The shares of three equal weights add up to slightly more than the budget. |
| C141 | `ridge_1d_0` (used by default), `ridge_1d_4`, `ridge_1d_8` and `laplacian_1d` have kernels that do not add up to zero, so that they answer to a homogeneous furnace as if it were full of edges. `gauss_1d` and `gauss_3d` squeeze the batch dimension away: no pipeline that contains one of them can give class probabilities. |
| C142 | If a fit has only NaN and infinite losses (a validation batch without any loss counts as infinite), and NaN came first, `get_results` gives the NaN as the best loss while the best loss shown is infinite. |
| C143 | `VolumeMSELoss` with predictions of shape (n, 1) and targets of shape (n) compares every prediction with every target, so that perfect predictions have a loss above zero unless all targets are equal. |
| C144 | Budget weights belong to places in the order of heights: when an update moves one panel past another in its layer, the two swap their sizes at once, however small the move, so that what was learnt for one panel is applied to the other. |
| C145 | A metric created as main metric that gave way to an earlier one in some fit is never main again, also when it is later used alone; and a one-cycle schedule that fails in a fit when new does not fail in it when used before. |
| C146 | `plot_map` (and so the animation of a fit) draws heat maps with x and y exchanged, and does not limit what it draws to one although it computes the limited values. |
| C147 | With live plots and a metric a fit with the plain logger fails when it begins (the grid has too few rows); the logger of panels then draws detectors over the metric and over the composition of the loss. The axis of the metric says Epoch but counts updates. The logger of panels fails for heat maps and for more than ten panels. |
| C148 | `Volume.draw` gives `xlim` to the y axis and `ylim` to the x axis, and draws layers at heights rounded to centimetres. `plot_pred_true_x0` shows the top layer first, although its documentation says the bottom one, and fails for one layer; `plot_scatter_density` and `plot_hit_density` fail if all entries are in one layer. |
| C149 | `_pdg_scatter` clamps deflections from above only: deflections to one side are limited to pi/2.2, those to the other side are not, so that for strong scattering left and right differ. |
| C150 | `compare_init_to_optimised` and `compare_init_optimised_2` ask for uncorrected columns of `df_start` (and for `pred` of the second table), which they do not show. |
| C151 | `from_save` changes the volume before it finds that the file does not fit; `delta_xy` of heat maps is not a buffer, so that it is not saved; the settings of optimisers given to `from_save` have no effect. |
| C152 | In realistic evaluation `DetectorHeatMap.get_hits` clamps x relative to the panel to the first and y to the second entry of `xy_span`, which are the lower and upper ends of a range: a symmetric heat map records different x and y. |
| C154 | `Volume.edges` lists multiples of the voxel size between the rounded ends of the passive layers, so three layers from 0.5 to 3.5 are listed as four and predicting raises an error, while from 0 to 3 it does not |
| C157 | a step that leaves its voxel sideways is scattered as if all of it were in the voxel it starts in (the code has a TODO about it): the material of the voxel holding most of the step may not matter at all |
| C158 | the floor of 1e-10 on the resolution of a panel in training is a bare number: far from a panel the uncertainty of a hit is 1e10 whatever the unit of length. So is the margin of up to 1e-3 with which panels are kept off the faces of their layer |
| C159 | muons with hit uncertainties of at least 1e10 are dropped: the cut is a bare number, so that a muon kept in metres may be dropped in centimetres. Likewise 1e-7 is added to the uncertainty of every scattering point, whatever the unit |
| C160 | if the layout raises for one layer, the target and the layers before it already belong to the new configuration, the others still to the old one. In a volume without materials `get_rad_cube` then gives a cube of too few layers, with its first entry not the lowest layer |

## Axioms of each theorem

Output of `#print axioms` for every theorem named in `MANIFEST.json` (prefix `Tomopt.` left out). No other axiom occurs anywhere.

**propext, Classical.choice, Quot.sound** (788 theorems): C01: hits_follow_muons, one_row_per_muon; C02: muons_conserved, removed_never_back; C03: dthetaDphi_downward, dthetaXY_downward; C99: stays_down, true_tracks, kept, reconstructed, built_partial, single_built, single_violated; C04: scatter_direction; C05: theta_phi_roundtrip, theta_xy_roundtrip, nan_iff, vertical_phi_lost, scatter_xy_row, zero_scatter_identity, zero_scatter_violated; C06: dz_line, d_line, propagateDz_twice, d_eq_dz; C07: window_spec, window_split_x, exactly_one_cell; C08: copy_independent, copy_value; C09: get_hits_spec; C10: delivers, empty_layer_straight; C11: empty_terminates, terminates; C12: index_correct, lookup_correct, outside_not_scattered, pass_never_fails; C62: displacement_opposite_violated; C63: displacement_transverse; frame_orthonormal: frame_orthonormal; C65: deflected_direction; C66: past_horizontal_reversed_violated, past_horizontal_kept; C67: angle_below_partial, angle_above_violated, wrong_sign_violated; C68: early_exit_violated; C13: layer_spec, layer_error, argsort_exists; C14: forward_spec; C15: edges_spec, edges_misaligned_violated; C16: lookup_correct, cube_correct, layer_agrees; C17: lookup_in_range_partial, high_face_violated; C18: argument_changed_violated, repeat_violated, bottom_zero_partial; C19: budget_spent, cost_is_sum, no_panels_error; C20: shares_in_order, constructed_budgeted; C21: panel_budget, panel_no_budget, fresh_nominal, reassign; C22: conform_spec; C23: made_valid, resolution_training, efficiency_training, realistic_response; C24: hits_on_panel, hits_training; C25: sigmoid_response, edge_value, smoothness_checked; C64: construction; C26: fit_minimises, few_heights_nan, trajectory_spec, exact_line, too_few, infinite_unc_ignored; C27: poca_midpoint, poca_intersection, coefs_solve, singular_iff, dxy_spec, kept_not_parallel, batch_never_singular; C28: angles, zero_nan, theta_xy; C29: dtheta_xy, msc_is_angle, msc_zero_iff, msc_symm, msc_scale, msc_from_angles; C30: decomposition, smallest; C31: mask_spec; C32: filter_spec_partial, kept_iff, mask_iff, single_violated, single_violated_example; C33: right_panels; C70: entry_exit, horizontal_none; C34: group, batch, bounds, mono, too_few; C35: history, panel_history, failed_efficiency_violated; C36: kept_muons, kept_iff; C37: mean_bounds, rms_bounds, scale, zero_weights, prediction_positive, no_muons; C38: inverts, with_log, voxel_inverts; C39: probs_zxy, preds_zxy, shape_error; C71: total, each; C69: conform_partial, outside_footprint_violated, collapse_violated, efficiency_bounds, resolution_violated, square_span_error; C40: train_rounds, batch_round, valid_scan, valid_leftover_violated; C41: fit_trace, fit_trace_error, predict_trace, all_epochs, fit_ends; C43: fit_clean, predict_clean, fit_mkdir_violated, predict_shuffle_violated; C44: roundtrip_partial, scale_violated, name_violated, clash_violated, missing_error; C45: freeze, turns, one_active; C46: no_warmups, on_time_partial, late_violated; C47: range, warm_phase, converge_phase, warm_rises_partial, converge_rises_violated, extra_epoch_violated, zero_length_error, late_activation_error; C48: limited, after_conform, negative_limit_violated; C49: centred, independent, shared_violated, factor_violated, other_error; C50: no_nan, returns, none_grad_error; C52: penalty, steep_linear, steep_smooth, no_budget, zero_budget_violated; C53: col_rows, single_rows, row_eq, zero_iff, le_one, further_is_worse, flat_targets_violated, flat_targets_error, single_class_violated, flat_weight_violated, reductions; C54: own_class, class_targets, loss_targets_partial, interference_violated, back, unknown_error; C73: schedule, geo_mono, single_epoch_violated; C74: coef, frozen, components, balanced, order_matters, mse_spec; C55: inside, random_size, fixed_size, loaded, present_partial, random_block, target, present_target, thin_violated, layers_violated, large_violated, one_material_violated, size_error, voxels; C56: generated, negative_error; C57: between, by_volume, scale, single, args_error, zero_fractions_violated; C58: probability, ranges, decode, flux2015_pos, flux2016_pos, usable, low_energy_violated; C59: resampled, check_spec, ends, never_ends_violated, side_entry_violated; C75: spectrum_violated, angles_partial; C76: margin, needed; C51: histories, best, few_validation_error; C77: results, no_epoch_error; C78: first_wins; C79: composition_partial, all_predicted, composition_violated; C60: decode, round_trip, classes, drawn_class, layer_class, loaded, walls, order, predicted_edge; C61: model_rejected, panel_built_iff, heatmap_rejected, heatmap_budget_rejected, reduction_iff; C72: succeeds, range, homogeneous, near_violated, block_weight, block_size_violated, none_error; C80: distribution, scale_free, homogeneous, gauss_single, perfect_violated; C81: predictions, missing_raises; C82: appended, old_rows_stay, paired_partial, torn_violated; C83: frozen; C84: median_partial, not_yet, nan_violated; C85: rate_partial, infinite_violated, raises_violated, shapes_violated; C86: agrees_partial, reversed_violated; C87: range_partial, predict_range_partial, shift, grid_weight, smooth_iff, square_total_partial, majority_violated, no_muons_violated, oblong_violated; C88: layout_partial, ends, start_inside, start_any, length_any, accepts_iff, short_violated, load_violated; C89: block_partial, absent, floor, dims_volume, covers, fill_iff_violated, unfit_violated, redraw_violated; C90: walls_partial, walls_rejected, furnace_stacked, detectors_inside, uneven_violated, rounded_violated, efficiency_violated; C91: fit_record, predict_record, kept_points, layer_shift, layer_iff_violated, hit_layer_iff_violated; C92: panel_opts, panel_once, heat_opts, unsuitable; C93: set_lr, set_mom, no_momentum, schedule_both, schedule_range, begin_ok, no_mid_error, groups_violated; C95: propagation, special, special_grad, vox_propagation, scale, mono, variance_linear, variance_affine, position_unc, position_std, best_linear, combine_ok, empty_batch_violated, gen_violated; C96: hits_training, hits_realistic, made_proper, moved_violated; C97: width, width_laws, displacement, angle, vertical, normal_draws, subdivision, subdivision_violated, steps_violated, one_sided_violated, normal_violated, thin_violated; C98: estimate, order, rescale, harmonic, excess, overestimates, average_violated, flat; C100: history_free, one, again, second_violated; C101: reco_tracks, kept, single_built, reconstructed; C102: batch_spec, order_free, calibration_free, perfect, unscanned_violated, predict_violated; C103: history, no_trace, no_worse, unscanned_violated; C104: undisturbed, runs, again; C105: alone, alone_scatters_partial; C106: unbiased, precision, best, hit, telescope, unequal_violated, realistic_violated; C107: batching, panel_batching; C108: tracks, scatters, singular; C109: larger_panel, larger_hits, larger_panel_budget, larger_budget, tracks_partial, wider_violated; C110: position, size, realistic_flat, middle_violated; C111: hits, tracks, scatters, angles, detector, vertical_violated; C112: inside, voxel, order, lookup, last_violated; C113: grid, filled_partial, exact_sizes, filled_violated; C114: arrives, ends, stuck_violated; C115: interior, centres, edge_violated; C116: classes_partial, round_trip_partial, round_trip_violated, drawn_violated; C117: tables, rounded; C118: saved, latest, resume, unique_violated, stale_violated, order_violated; C119: frames, leftover_violated, two_violated; C120: history, logs, names_violated, exception_violated, order_violated; C121: variables_smooth, uncertain, prediction, cost, loss, budget_violated; C122: gradient, alike, single, height_violated, gradient_violated, uphill_violated; C123: answer, smooth, hits, scale, alone, closer_violated, corner_violated; C124: fails, kept, kept_alike, half, torn, conserved, hits_follow, agrees, moved_violated, turned_violated, lost_violated; C125: values, assigned, projected, augmented, follows, snapshots, rejected_violated, into_violated, before_violated, together_violated; C126: same, answers, settled, lost, second_violated, momenta_violated; C127: physical, trained, limited, limited_centred, centred, trained_limited, drift, still, own, margin_violated, centring_violated, own_violated; C128: voxels, volumes, perfect, better, honest, attained, refused, binary, binary_term, flat_violated, confused_violated, ignored_violated; C129: batches_fit, muons, missing_violated, nothing_learned, breaks_off, x0_none, pocaZ_none, classifiers_violated, history, heads, most_probable; C130: rows, panels, prediction, cost, loss, gradient, alike, height_violated; C131: accuracy, kept, vertical, steps, ceiling, unscattered_violated, lost_violated, small_violated, air_violated; C132: settles, expected_scat, turned_angle, turned_prob, biased_violated, diverges_violated, simulated_violated; C133: derivative, propagated, by_scatter, single, root_n, entry, history, overconfident_violated, more_is_better_violated; C134: ended_iff, within, rejection, marginal, rounds, ends_almost_surely, unbiased_iff, spectrum_violated; C135: sorted, edges, in_range, drawn_positive, cumulative, probability, precise, never_fails, phi_violated, absorbed_violated, zero_violated; C136: accuracy, single, order, measured, accuracy_measured; C137: weights, steps, accuracy, accuracy_edges, single, far, lost_violated; C138: accuracy, centre, single, tilted_violated, lost_violated; C139: mirror, chance, materials, materials_end, place_violated, layer_violated; C140: spent, share, order, exceeded_violated, vanishes_violated; C141: smooth_layers, smooth_rows, runs, homogeneous, blank_iff, blank, max_sub_min, mirror, mirror_prewit, mirror_gauss3, blank_violated, gauss_violated, gauss3_single; C142: best, best_lower, best_higher, last, all_nan_error, shown, numbers, nan_violated; C143: same, same_zero, single, spread, number, symm, error, pairs, pairs_violated; C144: costs, shift, raise, reach, deriv_share, deriv_size, descent, cross_violated; C145: warm, tuned, cycle, metrics, logger, cycle_violated, rank_violated; C146: where_, centres, mirrored, right, meaning, mirror_violated, scale_violated; C147: losses, errors, in_a_fit, shapes, panels, visible, epochs_violated, outline_violated, layers_violated; C148: volume, heatmap_error, corners, boxes, predictions, records, limits_violated, thin_violated, predictions_violated, records_violated; C149: passage, layer, limit_violated; C150: curve_spec, raw, optimised, baselines, weighted, agree, columns_violated; C151: strict, restored, behaves, optimisers, panel_wrapper, heat_wrapper, refused_violated, optimiser_violated, width_violated, count; C152: hits, scatters, budget, prediction, loss, heatmap_violated; C153: order, printed, best, animation; C154: flight, cost, voxels, scatters, prediction, prediction_violated; C155: continued, broken_off; C156: predicting, validating; C157: step, total, sideways_violated; C158: flight, cost, response, floor_violated, clamp, clamp_violated, argsort_scales; C159: reconstruction, quantities, telescope, cut_violated, x0, probability, probability_violated; C160: replaced, filled, geometry, agrees, cube, broken_violated, cube_violated; C161: forgets, separately, returned, validated, loading; C162: fitting, predicting, recorders, recorders_predict.

**propext, Quot.sound** (8 theorems): C56: each_once, len_list; C94: sorted, mem_positions, positions_sorted, second_logger; C119: nothing_violated; C147: overlap_violated.

**none** (5 theorems): C44: scale_after_forward; C55: ends; C56: missing_error; C147: places, metric_violated.

**propext** (3 theorems): C56: callers_list_violated; C91: get_record; C119: shown.
