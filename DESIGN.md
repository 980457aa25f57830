# Formal model of clmb (Lean 4)

The C++ in `/repo` is read as text and modelled by hand, function by function, as
total Lean functions under `lean/Verif/`.  `properties.jsonl` lists the claims,
`MANIFEST.json` maps each claim to the theorems that carry it, and
`seeded/LOG.jsonl` records the wrong programs the theorems were tried against.

## Trusted base

* Lean 4.33.0's kernel and the Mathlib definitions used in statements.
* Axioms: only `propext`, `Classical.choice`, `Quot.sound` (the standard three).
  No `sorry`, no own axioms, no `native_decide`/`bv_decide`.
* The reading of the C++: every model definition cites the file and lines it models.
  The translation is by hand and is not itself checked.

### Modelling conventions

* **Numbers.** `double`/`float` are exact: a linearly ordered field (`ℚ` for witnesses),
  `ℝ` where `exp`, `log`, `sqrt` or trigonometry is needed.  Rounding, overflow
  to infinity and denormals are *not* modelled, except in `Verif/LapF` (C77), `Verif/RTreeF` (C78),
  `Verif/MurtyF` (C79), `Verif/HypF` (C80), `Verif/GMF` (C82, C83) and `Verif/KalmanF` (C87, C94, C117, C118, C119, C120).  Where the code relies on IEEE
  infinities/NaN as ordinary values (linear assignment, Murty), an explicit extended type
  with the IEEE rules for `inf - inf`, comparisons with NaN etc. is used.
* **Undefined behaviour** (failed `ASSERT`, uninitialised read, out-of-range index, use
  after delete, signed overflow) is a distinct outcome (`none` / `ub`) of the model.
* **Loops** are structural recursions; unbounded loops take fuel, and termination is the
  theorem that enough fuel exists.  The result does not depend on the fuel: more fuel never
  changes a defined result (`Verif/System/Fuel.lean`, `Tracker.run_fuel`).
* **Parallel loops** are interleavings of their atomic steps (critical sections).
* **Randomness** (`sample`) is an arbitrary input stream.

### Modelled and not modelled

| code | model | left out |
|------|-------|----------|
| `RTree.h` | `Verif/RTree`: Insert, split and partition, Remove, Search, Count, RemoveAll, Save/Load, iterator; `Verif/RTreeF`: areas in binary64 | file I/O below a stream of words |
| `connectedcomponents.hpp`, `lmb.hpp:cluster` | `Verif/Cluster` | pointers are natural numbers |
| `rlapjv.h` | `Verif/Lap`: reduction, augmentation, the scalar `find_umins`; `Verif/Lap/Avx.lean`: the AVX2 variants; `Verif/LapF`: the scalar solver once more in binary64 | intrinsics are read as lane-wise choices; the tracker is modelled with the scalar search, as built by `Tuprules.tup` |
| `murty.hpp` | `Verif/Murty`, `Verif/MurtyF` (rounded arithmetic) | Eigen block copies are list operations |
| `apps/murty.cpp`, `apps/murty2.cpp` | `Verif/Murty/Apps.lean` | output is the list of lines and the count; no clock |
| `cluster.hpp:correct` | `Verif/Hyp` (hypothesis sums), `Verif/HypF` (the same in binary64), `Verif/Tracker` (effects) | the costs are inputs |
| `lmb.hpp`, `targettree.hpp`, `target.hpp` | `Verif/Tracker`: heap of targets, index, all public calls, interleavings | densities are an abstract environment `Env` |
| `lmb.hpp:ospa,gospa` | `Verif/Metric` | distances are inputs |
| `gm.hpp`, `gaussian.hpp` | `Verif/GM` (weights, joins, sampling indices), `Verif/GMF` (weights in binary64), `Verif/Kalman` (matrices over ℝ), `Verif/KalmanF` (correction and prediction in binary64), `Verif/BBox` (boxes) | the eigen solver and the inverse are used through their specification |
| `models.hpp`, `sensors.hpp` | `Verif/Kalman`, `Verif/BBox` (pD), `Verif/System` | `pdf_init2` (`sensors.hpp:78-93`), which returns at once and so changes nothing |
| `pf.hpp` | `Verif/PF`, `Verif/Particles` | the constructors without mean, the unread field `aabbox` |
| `bbox.hpp` | `Verif/BBox` | |
| `cf.hpp`, `bbox.hpp:llaabbox` | `Verif/CF` over ℝ | rounding |
| `lmb.hpp:pos_phd`, `sampled_pos_pdf` | `Verif/Phd` | draws are inputs |
| `lmb/lmb.cpp` pickling, `TargetSummary_` | `Verif/Py` | pybind11, the interpreter |
| `lmb/lmb.cpp:26-35` (the tracker with `GM<4>`, `PositionSensor`, `CV`, `NM`) | `Verif/System`: the environment of `Verif/Tracker` filled with the mixtures, the Kalman update and the frames | how boxes are computed; the sampled pD is an input |
| `statistics.hpp`, `statistics.inc` | `Verif/Kalman/Sample` (law of the samples), `Verif/Kalman/Race` (shared generator) | `mt19937` and `normal_distribution` themselves |
| `repr`, `operator<<` | `Verif/Json` | how a double is spelt is an input |
| `lmb/plot.py` (`cov_ellipse`, `tracks`), `clmb.py`, `plots/plot_results.py`, the log of `tests/crosstrack.cpp` | `Verif/Plot` | matplotlib, numpy (`PF.cov` of `clmb.py` is in `Verif/Particles/Log.lean`) |
| `lmb/application.py` (`_get` and the methods that use it) | `Verif/App` | asyncio and the pool as a transition system; plotting, `sample_phd` |

Not modelled at all: floating point rounding outside the assignment solver (`Verif/LapF`), the
k-best enumeration (`Verif/MurtyF`), the hypothesis weights (`Verif/HypF`),
the weights of mixtures (`Verif/GMF`), the corrected and predicted components (`Verif/KalmanF`) and the areas of the R-tree (`Verif/RTreeF`); allocation failure;
timing and printing helpers.

## What is proved, property by property

| id | claim | how | theorems (in `Verif.`) | limits |
|----|-------|-----|-----------------------|--------|
| C01 | Spatial query is exact | invariant of the tree preserved by every operation; search equals the filter of the contents | `RTree.C01_search_exact`, `RTree.touch_iff_overlap` | All histories of valid calls; the abstract bag semantics AbsRun is in Verif/RTree/Spec.lean. |
| C02 | Remove deletes exactly the stored entry | multiset of contents before and after `Remove`, induction on the level | `RTree.C02_remove_exact`, `RTree.C02_disciplined_contents` | When several entries share an id, which of them goes is the code's choice (it compares ids only at leaves). |
| C03 | The R-tree stays a valid R-tree and never trips its assertions | balance, fill and cover invariant over all histories; undefined outcome excluded | `RTree.C03_history_well_formed`, `RTree.C03_inverted_rectangles_undefined` | Precondition min <= max on inserted rectangles; the second theorem shows it is needed. |
| C04 | Count and RemoveAll | contents as a multiset | `RTree.C04_count` |  |
| C05 | A callback that stops ends the search at once | search as a fold with early exit | `RTree.C05_callback_stops` |  |
| C06 | Save then Load reproduces the index | prefix consumption, induction on the level | `RTree.C06_save_load`, `RTree.C06_bad_header`, `RTree.C06_truncated_accepted` | Stream modelled as tokens. Truncated files are accepted (finding). |
| C07 | Iterator visits every entry exactly once | stack invariant of the iterator | `RTree.C07_iterate` | Up to 2^65 entries, where the 32-deep iterator stack suffices. |
| C08 | Connected components partition the nodes | work-list invariant | `Cluster.C08_components_partition` | Node pointers are natural numbers; std::map/std::set as sorted lists. |
| C09 | Connected components need a symmetric relation | witness and characterisation | `Cluster.C09_asymmetric_witness`, `Cluster.C09_asymmetric` |  |
| C10 | Clustering covers and separates reports and targets | C08 on the graph the code builds | `Cluster.C10_clusters_cover`, `Cluster.C10_duplicates_witness` | The list of affected targets has no duplicates (shown necessary; established by the tracker model). |
| C11 | Clusters are the gating components | paths in the gating relation | `Cluster.C11_clusters_are_components` |  |
| C12 | lap() decides feasibility | Hall's theorem and a potential function | `Lap.C12_feasibility` | Exact arithmetic with IEEE infinities and NaN; 'exists F' is the fuel bound, i.e. termination. |
| C13 | lap() returns a minimum-cost assignment | complementary slackness | `Lap.C13_optimal` | At most 30 rows (beyond that see C16). |
| C14 | lap() terminates and stays in bounds | bounds-checked arrays, termination measure of ARR | `Lap.C14_terminates` | Out-of-range accesses and uses of -1 as index are the outcome none, excluded by the theorem. |
| C15 | The returned duals certify optimality | dual invariants | `Lap.C15_duals` |  |
| C16 | lap() row limit | overflow of the `int` subset counter | `Lap.C16_row_limit` | Finding: undefined behaviour for 31 or more rows. |
| C17 | Murty draws are valid assignments with the right cost | queue invariant | `Murty.C17_valid` | 1 to 30 rows, at least one column; any tie-breaking of the priority queue (PickOk). |
| C18 | Murty draws come in non-decreasing cost order | lower bounds of the states | `Murty.C18_order` | 1 to 30 rows, any tie-breaking. |
| C19 | Murty never repeats an assignment | states partition the solution space | `Murty.C19_no_repeat` | 1 to 30 rows, any tie-breaking. |
| C20 | Murty is exhaustive and terminates | measure on the remaining space | `Murty.C20_exhaustive`, `Murty.murty_row_limit` | 1 to 30 rows; from 31 rows on the first draw is undefined (murty_row_limit). |
| C21 | Posterior existence probabilities are probabilities | sums over the drawn hypotheses | `Hyp.C21_posterior`, `Hyp.cluster_underflow`, `Hyp.cluster_target_limit` | 1 to 30 targets per cluster (from 31 on undefined, cluster_target_limit); exact weights exp(-cost). With underflowing weights the posterior is lost (cluster_underflow). |
| C22 | Birth probabilities are probabilities | as C21 | `Hyp.C22_birth`, `Hyp.C22_birth_no_targets` | Same preconditions as C21. |
| C23 | Hypothesis budget | loop invariant | `Hyp.C23_budget` | Same preconditions as C21. |
| C24 | Every report gets a fresh birth probability | every complete schedule writes every report | `Tracker.C24_fresh_rB`, `Tracker.C24_no_stale_rB` | Every reachable state and every complete schedule of the clusters. |
| C25 | Births are bounded | sums over lists; `Tracker.Stay`: the others are the targets that were there, under the same ids | `Tracker.C25_births`, `Tracker.C25_rB_range` | Exact arithmetic. |
| C26 | Index and target list stay coherent | invariant over histories | `Tracker.C26_index_coherent`, `Tracker.C26_defined` | Histories of predict and correct; C26_defined: no undefined behaviour while at most 30 reports arrive in total (so no cluster has more than 30 targets, see C16). |
| C27 | Target ids are unique and never reused | counter invariant | `Tracker.C27_ids_call`, `Tracker.C27_ids_unique` | While fewer than 2^32 targets have been created (the counter is 32 bits wide). |
| C28 | Only viable targets survive | case analysis of the calls | `Tracker.C28_predict`, `Tracker.C28_correct`, `Tracker.C28_correct_fate` |  |
| C29 | Existence probabilities stay in [0,1] | invariant over histories | `Tracker.C29_r_range`, `Tracker.C29_cv_factor`, `Tracker.C29_time_back` | Exact arithmetic; the density class is abstract, EnvKeeps states what it keeps. C29_time_back: with time going back r leaves [0,1]. |
| C30 | Query summaries agree | filters of the same list | `Tracker.C30_queries_agree`, `Tracker.C30_region_le` |  |
| C31 | Correction does not depend on the order clusters are processed in | commutation of critical sections | `Tracker.C31_order_independent` | Over every complete interleaving of the clusters' critical sections. Ids and addresses of newborn targets depend on the order of the births (finding). |
| C32 | predict and correct are not safe to run concurrently | counterexample schedule | `Tracker.C32_use_after_delete`, `Tracker.C32_refuted`, `Tracker.C32_duplicate_entry` | The claim is refuted: predict running just after cluster() built its lists makes correct use a deleted target. predict is one atomic action of the model (it holds the lock throughout). |
| C33 | Metric queries and the index | invariant if boxes are kept; witnesses otherwise | `Tracker.C33_kept_if_box_kept`, `Tracker.C33_stale`, `Tracker.C33_phd`, `Tracker.C33_dangling`, `Tracker.C33_refuted` | Read-only behaviour is refuted. C33_refuted starts from nine targets created one by one by new_target, as birth does, and runs the three steps of one cluster, not a whole correct call. |
| C34 | OSPA range | bounds of the matched sum | `Metric.C34_ospa_range`, `Metric.C34_limit` | At most 30 targets and 30 truths; beyond that ospa and gospa are undefined (C34_limit). Exact arithmetic; the distances are the input. |
| C35 | OSPA is the optimal sub-pattern assignment distance | LP optimality for p = 1; witnesses | `Metric.C35_upper_bound`, `Metric.C35_exact`, `Metric.C35_refuted` | Optimality in general is refuted (transposed matrix; sum of distances minimised instead of p-th powers); proved: always the value of some matching, and optimal for p = 1 with at most two objects a side or symmetric distances. |
| C36 | GOSPA is the optimal assignment distance | as C35 | `Metric.C36_upper_bound`, `Metric.C36_exact`, `Metric.C36_refuted` | As C35, for every p; std::pow(.,p) is any monotone function. Undefined for 31 or more objects (C34_limit). |
| C37 | Mixture normalisation | field arithmetic | `GM.C37_normalize` | Exact arithmetic. |
| C38 | join keeps the heaviest components | merge invariant of the priority queue | `GM.C38_join` | Exact arithmetic; factors and weights not negative; std::sort is any function that returns a sorted permutation. |
| C39 | prune keeps the heaviest components | sorted prefix | `GM.C39_prune`, `GM.C39_add` | As C38. |
| C40 | Mixture moments are valid | positive semidefinite matrices | `Kalman.C40_moments` | Real numbers. |
| C41 | Sampling stays inside the sample buffer | floor sums | `GM.C41_in_bounds`, `GM.C41_unwritten` | The rows of the blocks are not modelled: sample() assigns 4-row blocks to 2 rows of the buffer (finding). C41_unwritten: columns of the buffer can stay uninitialised. |
| C42 | Measurement update keeps the covariance valid | Joseph form | `Kalman.C42_update` | Real numbers, exact inverse. |
| C43 | Prediction keeps the covariance valid | congruence | `Kalman.C43_predict_psd`, `Kalman.C43_cv_noise`, `Kalman.C43_cv_compose`, `Kalman.C43_init_psd`, `Kalman.C43_law`, `Kalman.C43_mixture`, `Kalman.C43_init_law`, `System.C43_cv_motion`, `System.C43_nm_motion`, `System.C43_cv_noise_exact` | Real numbers. The laws are identified by their characteristic functions. |
| C44 | AABBox intersects is exact | order reasoning | `BBox.C44_intersects`, `BBox.C44_symm`, `BBox.C44_within`, `BBox.C44_from_points` | Exact arithmetic. |
| C45 | BBox within is exact for axis-aligned boxes | half planes and convex combinations | `BBox.C45_axis_aligned`, `BBox.C45_sound`, `BBox.C45_complete` | For any four corners: within implies membership in the convex hull, and a point strictly on the same side of all four edges is within. |
| C46 | BBox intersects is sound and symmetric | witnesses; corner cases proved | `BBox.C46_refuted`, `BBox.C46_corner`, `BBox.C46_axis_aligned`, `BBox.C46_aabb`, `BBox.C46_aabb_refuted` | Symmetry, soundness and completeness are refuted; what holds is proved. |
| C47 | Gaussian bounding boxes cover the uncertainty ellipse | spectral bound | `BBox.C47_oriented`, `BBox.C47_aabb_widths`, `BBox.C47_aabb_iff`, `BBox.C47_refuted` | Real numbers; the eigen decomposition is assumed exact (EigOk). |
| C48 | NED rotation is orthogonal | trigonometric identities | `CF.C48_rotation` | Real numbers. |
| C49 | ECEF <-> NED is an exact inverse pair | C48 | `CF.C49_inverse`, `CF.C49_ne`, `CF.C49_altitude` | Real numbers. |
| C50 | Geodetic conversions agree with each other | `Complex.arg`, symmetry | `CF.C50_agree`, `CF.C50_longitude`, `CF.C50_mirror` | Real numbers; the decimal constants are exact. |
| C51 | Particle weights normalise | sums | `PF.C51_normalize`, `PF.C51_correct_missed`, `PF.C51_bayes`, `PF.C51_missed_wrong` | Finding C51_missed_wrong: missed weighs with pD instead of 1 - pD. |
| C52 | Systematic resampling is in bounds and proportional | invariant of the merge walk; schedule witness | `PF.C52_sequential`, `PF.C52_dead`, `PF.C52_refuted` | Proved for sequential execution and an offset strictly between 0 and 1; refuted for offset 0 and for other orders of the loop that is declared parallel. As the valid flag is never set, resample is dead code (C52_dead). |
| C53 | Particle join keeps the heaviest particles | merge invariant | `PF.C53_join` | Factors not negative, at least one filter. |
| C54 | Pickling round-trips | encode then decode | `Py.C54_bbox`, `Py.C54_aabb`, `Py.C54_summary`, `Py.C54_report`, `Py.C54_length`, `Py.C54_mean` | The interpreter's pickling of floats, integers and arrays is trusted. The comparison of doubles is any irreflexive relation, so bounds that are not numbers are covered. |
| C55 | repr is well-formed JSON | executable JSON grammar, compositional parsing lemma | `Json.C55_tracker`, `Json.C55_target`, `Json.C55_mixture`, `Json.C55_summary`, `Json.C55_reports`, `Json.C55_cluster`, `Json.C55_bbox`, `Json.C55_particles`, `Json.C55_aabb_refuted`, `Json.C55_aabb_rest`, `Json.C55_nonfinite_refuted` | JSON is an executable grammar without white space and escapes, stated apart from the model. An axis-aligned box never prints JSON, nor does a component whose weight is not finite. |
| C56 | PHD grid mass | sums over grid cells | `Phd.C56_grid`, `Phd.C56_mass`, `Phd.C56_defined`, `Phd.C56_tracker`, `Phd.C56_samples`, `Phd.C56_uninit`, `Phd.C56_stale` | Exact arithmetic; draws are inputs. Findings: if the first target does not fill the sample buffer, uninitialised samples are read (C56_uninit); columns a later target does not fill count the previous target's samples (C56_stale). |
| C57 | Metric queries do not move targets | closed form on the equator; convergence of the iterates | `CF.C57_refuted`, `CF.C57_equator`, `CF.C57_origin` | Refuted: on the equator from origin (0,0) the round trip maps lon to arctan(sin lon), so every query pulls targets towards its origin. |
| C58 | A scan that reaches no target only creates targets | frame of `correct` | `Tracker.C58_unreached_scan`, `Tracker.C58_reports_kept` | The frame change is abstract in the tracker model; see C57 for when it is the identity. |
| C59 | Measurement update is Bayes' rule | density identity | `Kalman.C59_bayes` | Real numbers, positive definite covariances. |
| C60 | Default field of view | computation | `BBox.C60_default_fov`, `BBox.C60_refuted` | The claim that a new sensor sees the whole earth is refuted. |
| C61 | A target's box encloses its components | cover of boxes | `BBox.C61_mixture_box`, `BBox.C61_smallest` | In the local frame, before llaabbox. |
| C62 | Detection probability is a probability | counting | `BBox.C62_pD_range`, `BBox.C62_pD_extremes`, `BBox.C62_pD_exact` | Exact arithmetic; for every sample outcome. |
| C63 | Summaries carry the probability of existence | memory model of the vector | `Py.C63_weights`, `Py.C63_refuted` | The member r is refuted: after the vector has grown it refers to freed memory. Python reads w, which is right. |
| C64 | Latitudes come back | series bounds by linear arithmetic over powers of sin², quadratic convergence of the Newton step | `CF.C64_latitude`, `CF.C64_origin` | Real numbers: the decimal constants are exact and rounding is not modelled. |
| C65 | Association probabilities are Bayes' rule | the drawn hypotheses and the joint events are two restrictions of one measure on assignments; the assignments that are no events are bounded by a product over the targets | `Hyp.C65_posterior`, `Hyp.C65_rounding`, `Hyp.spur_small` | At most 30 targets, each of which can be absent or missed (r = 1 is allowed); costs within delta of the exact logarithms. |
| C66 | Densities stay proper | invariant of single targets over all histories (`Tracker.run_tgt`); a joined mixture keeps a fixed share of the total weight | `System.C66_densities_proper` | Real numbers; positive definite report and velocity covariances, positive clutter intensity. |
| C67 | Geodetic coordinates mean what they say | gradient of the ellipsoid | `CF.C67_geodetic` | Real numbers. |
| C68 | A mixture corrected by a report is the Bayes posterior | measures with densities; C59 per component | `Kalman.C68_mixture`, `System.C68_correct`, `System.C68_same_pD` | Real numbers, positive definite covariances, evidence above 1e-8. |
| C69 | A mixture that was missed is the Bayes posterior | measures; witness | `System.C69_evidence`, `System.C69_same_pD`, `System.C69_refuted` | Refuted when the components have different pD. |
| C70 | Samples follow the density and the overlap is an unbiased estimate | image of white noise; Hoeffding's inequality | `Kalman.C70_sample_law`, `Kalman.C70_unbiased`, `Kalman.C70_error`, `Kalman.C70_pD_unbiased`, `Kalman.C70_pD_error` | Draws independent and standard normal; exact eigen decomposition. |
| C71 | Parallel draws are different draws | interleavings of reads and writes | `Race.C71_atomic`, `Race.C71_refuted` | Refuted; holds if no draw is interrupted. |
| C72 | A corrected cluster is the exact Bayes posterior up to known errors | joint events as in C65, with the measures of C68 and C69 as weights; chain of bounds: `join`, undrawn hypotheses, rounding, ignored reports, unweighted misses | `System.C72_cluster` | Proved, with every error term explicit; what pruning drops is bounded by `System.DropOk` (C66). |
| C73 | A whole scan is the exact Bayes posterior of all targets, up to known errors | the posterior of all live targets and all reports splits over the connected components of the gating (`Hyp.evidence_split`, `Tracker.prepare_closed`); then C72 for each | `System.C73_scan` | Proved for every defined call after every history. The specification has no clusters; a target can only have caused a report it is connected to by a chain of touching boxes. |
| C74 | Which scans can be processed | clusters are connected components; row limit of the assignment solver | `Tracker.C74_defined_iff`, `Tracker.C74_crash` | Finding: 31 overlapping reports in two consecutive scans are undefined behaviour. Costs are numbers or plus infinity, those of a false target finite. |
| C75 | Queries during a correction | loop invariant after every prefix of the schedule | `Tracker.C75_queries_during`, `Tracker.C75_refuted` | Refuted in part: regions omit the targets under update, positions are local. Data races of the reads with the writes outside the lock are not counted. |
| C76 | Vectorised search for the minima | invariants of a lane, of the two loops over the lanes and of the tail; the solver's proof is generic in the search | `Lap.C76_lanes`, `Lap.C76_same_optimum`, `Lap.C76_assignment_refuted`, `Lap.C76_all_infinite` | Refuted in part: ties are broken differently. |
| C77 | The assignment solver in `double` arithmetic | the model with the operations as a parameter; invariants with a slack that each augmentation multiplies by at most n+4; prices on the grid of `double`s and in a bounded range give termination; binary64 as an instance | `LapF.C77_terminates`, `LapF.C77_near_optimal`, `LapF.C77_certificate`, `LapF.C77_exact`, `LapF.C77_optimal_refuted`, `LapF.round64_nearest`, `LapF.isDouble_of_round64`, `LapF.rne_tie`, `LapF.lap_exact` | Refuted in part: not optimal for all matrices. The a priori bound is exponential in the rows. Scalar search; signed zeros not modelled. |
| C78 | The R-tree and the tracker in double arithmetic | the tree model is generic in the arithmetic on areas; what the proofs need of it (`Areas.Ok`) follows from monotone rounding | `RTreeF.C78_well_formed`, `RTreeF.C78_exact_answers`, `RTreeF.C78_same_contents`, `RTreeF.C78_tracker`, `RTreeF.C78_unbounded_refuted` | Coordinates within ±2²³ (the tracker stores degrees); a correctly rounded `sqrt`. |
| C79 | k-best enumeration in double arithmetic | the model is repeated with rounded operations; nodes are compared with exact ones of C17–C20, so only bounds and costs differ; `solve` recomputes the cost from the bound, so errors do not add up over the draws | `MurtyF.C79_valid`, `MurtyF.C79_exhaustive`, `MurtyF.C79_order`, `MurtyF.C79_exact`, `MurtyF.C79_order_refuted` | At most 30 rows, magnitudes away from overflow. The bound on the order is large for many rows. |
| C80 | existence and birth probabilities in double arithmetic | the loop is modelled with rounded operations on top of C79, `exp` as a function with a stated accuracy, sums in any order; errors relative to the exact masses of C21/C22 over the hypotheses that were drawn | `HypF.C80_associations`, `HypF.C80_existence`, `HypF.C80_birth`, `HypF.C80_existence_refuted`, `HypF.C80_overflow`, `HypF.C80_overflow_refuted` | Costs are inputs. Overflow is shown for costs with few significant bits. |
| C81 | Index boxes cover what they stand for | the point `ne2ll` converts is near the surface, so the corrected latitude stays off the poles and the longitude survives the two conversions; then monotonicity of arctan | `CF.C81_longitude`, `CF.C81_longitude_range`, `CF.C81_corner_north_refuted`, `CF.C81_corner_south_refuted`, `CF.C81_antimeridian_refuted`, `CF.C81_missed_refuted` | Latitudes up to 75 degrees, boxes up to 100 km around their origin; latitudes are C102. |
| C82 | Mixture weights stay normalised in double arithmetic | `Verif/GMF`: the functions of `Verif/GM` with rounded operations; the rounded sum is within `rho ^ n` of the sum and not below any term; the merge of C38 on the rounded products | `GMF.C82_normalize`, `GMF.C82_prune`, `GMF.C82_join`, `GMF.C82_sample`, `GMF.C82_resample_refuted` | Weights up to 2^500, up to 2^20 components. |
| C83 | The probability of a missed detection is a probability | error bound from the same sums; the counterexamples are computed in the binary64 models of the mixture, the solver and the hypothesis loop | `GMF.C83_missed`, `GMF.C83_cost`, `GMF.C83_missed_refuted`, `GMF.C83_lost_refuted` | In C83_lost the detection and false-target costs are given numbers. |
| C84 | The ellipse in the plot is the ellipse of the covariance | spectral form of a 2x2 covariance; the drawn set is the true set turned by a known angle; a turned ellipse is the same iff it is a circle or the sine of the angle is 0 | `Plot.C84_drawn`, `Plot.C84_drawn_old`, `Plot.C84_right_iff`, `Plot.C84_right_iff_old`, `Plot.C84_turned_refuted`, `Plot.C84_east_refuted`, `Plot.C84_old_refuted` | `eigh` and `Ellipse` by their documentation. |
| C85 | The tracks drawn from a log are the tracks of the tracker | composition of the writer (C55), the grammar and the reader; the dictionary after any prefix of the log holds the states of the prefix by id | `Plot.C85_log`, `Plot.C85_text`, `Plot.C85_joined`, `Plot.C85_long_refuted`, `Plot.C85_point`, `Plot.C85_mean_refuted` | Mixtures of four states; how numbers are spelt and read is an input. |
| C86 | plot.tracks draws one line per present target | the dictionary of lines after any prefix of the history | `Plot.C86_tracks`, `Plot.C86_colours`, `Plot.C86_colours_refuted`, `Plot.C86_repeated_refuted` | Lines, markers and colour numbers; texts and boxes left out. |
| C87 | A correction in double arithmetic leaves a covariance | `Verif/KalmanF`: every operation of `correct` rounded; relative error factors through determinant, inverse, gain and product; the terms are bounded by Cauchy-Schwarz in the prior covariance; the exact posterior keeps at least `r / (r + T)` of every variance | `KalmanF.C87_error`, `KalmanF.C87_variance`, `KalmanF.C87_positive`, `KalmanF.C87_positive_refuted`, `KalmanF.C87_symmetric_refuted`, `KalmanF.exact_update` | No over- or underflow (a hypothesis on the operands). Products with the zeros and ones of `H` are exact. The positive part bounds entries and variances; that the computed matrix is positive semidefinite is not shown. |
| C88 | The intensity of a target at given points | the 2x2 Cholesky factor and the triangular solve give the normal density; induction over the components; sums exchanged | `Phd.Sampled.C88_value`, `Phd.Sampled.C88_mass`, `Phd.Sampled.C88_bounds`, `Phd.Sampled.C88_far_refuted`, `Phd.Sampled.C88_between_refuted` | Real numbers. |
| C89 | A target that is not seen any more is forgotten | invariant over histories: the covariance of every component minus the noise of the elapsed time is positive semidefinite (noise matrices of consecutive steps compose); the norm tested by `viable` is at least the first diagonal entry; C28 and C66 for the steps | `System.C89_forgotten`, `System.C89_fades`, `System.C89_nm_refuted` | Real numbers; the default `NM` keeps targets for ever (finding). |
| C90 | With particles a target is indexed where its particles are | refuted. The abstract tracker instantiated with `PF<4>`; invariant over histories: `valid` is false and the box is the one of `AABBox()`; C26, C58 and C74 for the consequences | `Particles.C90_box`, `Particles.C90_query`, `Particles.C90_gated`, `Particles.C90_crash` | Real numbers. |
| C91 | Predicting a particle target moves its mean and widens its covariance by the process noise | sums over lists of particles; the covariance as a sum of rank-one matrices; the whole tracker (C28) for targets that stay | `Particles.C91_moments`, `Particles.C91_noise_refuted`, `Particles.C91_wait`, `Particles.C91_kept`, `Particles.C91_forgotten_refuted` | Noise refuted (finding). Real numbers. |
| C92 | The particles of a new target lie around the report that started it, with the report's accuracy | `nrand` along an eigenvector of the covariance; the frames on the equator (C57); Jordan's inequality | `Particles.C92_weights`, `Particles.C92_metres_refuted` | Accuracy refuted (finding). The draws are an input. |
| C93 | The log reader computes the mean and covariance the tracker has, for particles | sums over lists of weights | `Particles.C93_mean`, `Particles.C93_cov`, `Particles.C93_equal`, `Particles.C93_cov_refuted`, `Particles.C93_two` | Covariance refuted (finding). Real numbers. |
| C94 | A prediction in double arithmetic leaves a covariance | `Verif/KalmanF/Predict.lean`: every operation of `linear_update` with `CV` rounded; relative error factors, terms bounded by Cauchy-Schwarz | `KalmanF.C94_error`, `KalmanF.C94_mean`, `KalmanF.C94_positive`, `KalmanF.C94_symmetric`, `KalmanF.C94_nm`, `KalmanF.C94_positive_refuted`, `KalmanF.C94_symmetric_refuted`, `KalmanF.exact_predict` | No over- or underflow; no fused multiply-add. Symmetry and variances without noise refuted (finding). |
| C95 | The cluster statistics and cluster ids describe the clusters of the last scan | `Verif/Tracker/Stats.lean`: the parallel loop with the vectors it writes; invariant over schedules on top of that of the loop; C10, C11 and the closure of the gating for what a cluster is | `Tracker.C95_counts`, `Tracker.C95_hyps`, `Tracker.C95_cids`, `Tracker.C95_python_refuted`, `Tracker.C95_stale_refuted` | Python's `cluster_nhyps` and stale ids refuted (finding). |
| C96 | The enumeration programs list every assignment once and count them, at bounded effort | `Verif/Murty/Apps.lean`: the loop of the programs as a function of `draw`, from C17–C20 and a count of injections; `draw` with a counter for `lap`, induction with the number of unsolved states as potential | `Murty.C96_programs`, `Murty.C96_count_refuted`, `Murty.C96_effort` | The time a program prints is not modelled. |
| C97 | A target that survives is known to within cov_lim | `Verif/System/Units.lean`: `viable` as it is evaluated, in the global frame; C28 and C66 for reachable states, the norm is monotone in the Loewner order; an explicit mixture on the equator for the refutation | `System.C97_single`, `System.C97_within`, `System.C97_spread_refuted` | Exact arithmetic. |
| C98 | The frames in which targets are predicted and clusters corrected are near them | `Verif/System/Origin.lean`: averages with weights from C66; the prediction and the correction evaluated on both sides of the antimeridian with the formulas of `cf.hpp` | `System.C98_cluster`, `System.C98_target`, `System.C98_antimeridian_refuted`, `System.C98_report_refuted` | The refutation for clusters is about one call of the correction of a cluster; that the gate lets such a cluster form is not shown. |
| C99 | Predicting in two steps is predicting in one | `Verif/System/Split.lean`: the heaps after both ways from the specification of `predict`; the covariance of the position is convex in the step, in the Loewner order, so in between it is within the limit; the formulas of `cf.hpp` on the equator for the position | `System.C99_split`, `System.C99_position_refuted`, `System.C99_nm_refuted`, `Kalman.C99_nm` | Survivors are compared for targets of one component: for mixtures the limit depends on the means. |
| C100 | Positions with altitudes come back | `Verif/CF/Series.lean`, `Altitude.lean`, `Onto.lean`: at altitude the squared eccentricity is replaced by e2 N / (N + h) in the series, whose first and second orders cancel; one Newton step; the intermediate value theorem for the foot of the normal | `CF.C100_position`, `CF.C100_local`, `CF.C100_onto`, `CF.C100_back` | Real numbers: the decimal constants are exact and rounding is not modelled. |
| C101 | How far converting to local coordinates and back moves a position | `Verif/CF/Drift.lean`: feet of normals of a convex body are no further apart than the points over them; the depth under the tangent plane from the quadratic form of the ellipsoid; C100 for the conversions | `CF.C101_drift`, `CF.C101_near`, `CF.C101_repeated` | Real numbers: rounding is not modelled. |
| C102 | Index boxes contain the place they are made at, and reports find the targets they belong to | `Verif/CF/Corners.lean`: the foot of the normal from a point of the tangent plane (C100, C101) in its meridian plane; bounds on how far the parallel bends from the plane; C81 for longitudes, C47 for half widths | `CF.C102_latitude`, `CF.C102_covers`, `CF.C102_found`, `CF.C102_flat_refuted`, `CF.C102_elongated_refuted` | Real numbers; latitudes to 75 degrees, boxes to 100 km; the second refutation for covariances without correlation. |
| C103 | A target that is watched and not seen fades away | `Verif/Tracker/Alone.lean`: a cluster with one target and no reports, followed through gating, frames, enumeration and survival (C28); `Verif/System/Watched.lean`: odds over a history by induction (C28, C66); `Verif/HypF/Stuck.lean`: the enumeration in double arithmetic (C80) for one target, absorption of small summands | `Tracker.C103_missed`, `System.C103_fades`, `System.C103_gone`, `HypF.C103_sure_refuted`, `HypF.C103_saturates` | The first three over the reals; the last two for one target alone, not through a whole history. |
| C104 | An asyncio program uses the tracker through Application as if it called it directly | `Verif/App`: event loop, queue and threads as a transition system over any machine with steps; invariants by induction on reachability; the bindings as a machine, equal to C22's histories when a call runs alone; refutations from C32 | `App.C104_pool`, `App.C104_overlap`, `App.C104_progress`, `App.C104_single`, `App.C104_tracker`, `App.C104_shared_refuted`, `App.C104_timeout_refuted` | asyncio and concurrent.futures as documented; `sample_phd` and plotting not in the transition system. |
| C105 | A target that is seen is confirmed | `Verif/Tracker/Seen.lean`: a cluster with one target and one report, followed through gating, frames, enumeration (which of the three fates the loop leaves out) and survival; `Verif/System/Seen.lean`: the odds, and a history of two scans with the default parameters | `Tracker.C105_seen`, `System.C105_confirmed`, `System.C105_certain`, `System.C105_doubt_refuted` | Weights as real exponentials; one report and one target per cluster. |
| C106 | A report that a target explains starts no second target | `Verif/Tracker/Explained.lean`: `rB` of a report that has one target or none, and the reports that start targets (C25); `Verif/System/Explained.lean`: in terms of likelihoods, and histories of two scans with the default parameters; old and new targets told apart with `Tracker.Stay` | `Tracker.C106_share`, `Tracker.C106_free`, `System.C106_explained`, `System.C106_alone`, `System.C106_second`, `System.C106_newborn_refuted` | Weights as real exponentials; one report and one target per cluster. |
| C107 | The order of the reports in a scan does not matter | `Verif/Hyp/Order.lean`: the loop on a renumbered cluster; `Verif/Tracker/Order.lean`: two calls of `correct` side by side, clusters up to order; `Verif/GM/Order.lean`: `join` of permuted mixtures; `Verif/Hyp/Ties.lean`, `Verif/Tracker/Ties.lean`: equally likely hypotheses; `Verif/System/Order.lean`: Gaussian mixtures, and a history with the default parameters | `Hyp.order_spec`, `GM.join_order`, `Tracker.C107_order`, `Tracker.C107_unlimited`, `Tracker.C107_tied`, `Hyp.tied_spec`, `System.C107_tracker`, `System.C107_ties_refuted` | Exact arithmetic: in floating point the sums in the centre of mass and in the weights depend on the order in their last digits. Old and new targets are told apart with `Tracker.Stay`. |
| C108 | A scan depends only on the targets in its reach, and scans of separate places commute | `Verif/Tracker/Order.lean` (`local_order`): two calls of `correct` side by side in two states that agree within reach; `Verif/Tracker/Local.lean`: the two orders of two scans, and one scan against its two halves; `Verif/System/Local.lean`: Gaussian mixtures | `Tracker.C108_local`, `Tracker.C108_commute`, `Tracker.C108_split_refuted`, `System.C108_tracker` | As C107: exact arithmetic, and the costs settle which hypotheses are drawn.  Addresses of new targets are up to the allocator; they are matched by existence probability and density. |
| C109 | An object that is reported at every scan stays one track with one id | `Verif/System/Track.lean`: induction over the calls; each prediction multiplies the existence probability by its factor, each scan gives at least `ρ` back (the weights of C105, now also for a target with `r = 1`), and the sum of the shares of the reports that are left for new targets stays below `r_lim` (C106) | `System.C109_kept`, `System.C109_all` | Logarithms exact up to `δ`.  The covariance limit is assumed at each call, for all weights of the two alternatives. |
| C110 | Reports of one object can be taken in any order | `Verif/Kalman/Follow.lean`: information form of the update for mean and covariance, Bayes' rule (C59) for the weight; induction over the permutation | `Kalman.C110_order` | The detection probability is a number per report. |
| C111 | The last two reports bound what a component can be uncertain about | `Verif/Kalman/Follow.lean`: no linear estimate is better than the update (`correct_optimal`), applied to the estimate from the last two reports alone; predictions without a report in between are one prediction | `Kalman.C111_position`, `Kalman.C111_certain`, `Kalman.C111_gate` | One component; densities have no merging of components in the code. |
| C112 | A component follows its object and forgets old errors | `Verif/Kalman/Follow.lean`: completing the square (`exponent`) for updates, the conjugate inequality (`pred_err`) for predictions, induction over the history; C111 bounds the old covariance by a multiple of the process noise, so a prediction discounts the error by a fixed factor | `Kalman.C112_error`, `Kalman.C112_position`, `Kalman.C112_forgets`, `Kalman.C112_converges` | One component in one frame; association of reports is not part of it. |
| C113 | Every component is the Kalman filter of one report per scan since the birth of its target | `Verif/System/Trace.lean`: induction over the history with the last call split off; `Tracker.correct_touched` says what one scan does to a density, `touched_comp` what that means for a component (C38 for the join); frames do not change covariances, so the covariance is that of C111's histories | `System.C113_trace`, `System.C113_filter`, `System.C113_certain` | The mean is stated through the frames the code passes (`frame`), whose conversions are not inverse to each other (C57, C101). |
| C114 | OSPA and GOSPA are distances between sets | `Verif/Metric/Order.lean`: the solver is given the transposed matrix, so a perfect estimate in the order π is assigned by π and scored by π∘π; two transpositions compose to a 3-cycle | `Metric.C114_perfect`, `Metric.C114_swap`, `Metric.C114_triangle_refuted` | Refuted. Equal numbers of targets and truths. |
| C115 | Binding an assignment leaves exactly the other rows and columns | `Verif/Murty/AllBut.lean`: the four block copies of `allbut` into uninitialised memory, each shown to be in bounds and to write its quarter; the result is the state `partitionWith` of the enumeration model | `Murty.C115_allbut`, `Murty.C115_bind`, `Murty.C115_sub` | Matrices of fewer than 2³² rows and columns. |
| C116 | The same program run twice tracks the same targets | `Verif/Tracker/Order.lean`: two calls of `correct` side by side in states with renamed addresses; `Verif/Tracker/Again.lean`: two runs side by side, with a renaming of the targets that grows with the births; `Verif/System/Again.lean`: Gaussian mixtures | `Tracker.C116_again`, `Tracker.C116_ids_refuted`, `System.C116_tracker` | Exact arithmetic, as C107; the sampled detection probabilities do not depend on addresses and are the same in both runs. |
| C117 | The corrected mean in double arithmetic | `Verif/KalmanF/Mean.lean`: the factors of C87 carried through gain and innovation; the innovation is bounded by the Mahalanobis distance; `Verif/KalmanF/Exact.lean`: the reference values are those of `Verif/Kalman` | `KalmanF.C117_mean`, `KalmanF.exact_update` | No over- or underflow. Products with the zeros and ones of `H` are exact. |
| C118 | The corrected weight in double arithmetic | `Verif/KalmanF/Weight.lean`: errors as exponents, which add up under products, quotients and roots; the quadratic form as in C117; the determinant of the computed inverse | `KalmanF.C118_weight`, `KalmanF.ulp_exists` | No over- or underflow. The accuracy of `exp`, `sqrt` and `pow` is a hypothesis (`ExpUlp`, `SqrtUlp`, `PowUlp`). The detection probability and the clutter density are inputs. |
| C119 | The costs in double arithmetic give the posterior | `Verif/KalmanF/Cost.lean`: C118 summed over the components (C82), C83 for missed detections, the logarithm; the costs found discharge the hypothesis of `Hyp.C65_rounding` | `KalmanF.C119_detect`, `KalmanF.C119_missed`, `KalmanF.C119_absent`, `KalmanF.C119_posterior`, `KalmanF.log_exists` | No over- or underflow in the components. Accuracy of the library functions is a hypothesis (`ExpUlp`, `SqrtUlp`, `PowUlp`, `LogUlp`). The posterior over all joint events; dropping hypotheses is C22 and C80. |
| C120 | The computed existence probabilities are those of the posterior | `Verif/HypF/Posterior.lean`: the bound of C80 against the hypotheses drawn, then `Hyp.close` (C65) against all joint events, with the part left out bounded through the order of C79 and the test on `w_lim` as computed. `Verif/KalmanF/Posterior.lean`: the costs of C119 are in the range this needs, and `C119_posterior` | `HypF.C120_posterior`, `KalmanF.C120_program`, `KalmanF.logDouble_exists` | At most 30 targets; likelihood ratios up to `2^20`, missed detections of probability at least 1/512, existence below 1, `orderErr M N <= 300`. No over- or underflow in the components. Accuracy of the library functions is a hypothesis. |
| C121 | A scan weighs the particles with its likelihood | `Verif/Particles/Update.lean`: the weights after `upd` and `missPdf` written out; a target all of whose particles are out of view has weight 0 under both events, which the join, the normalisation and the change of frame keep, so `predict` finds `eta = 0` and existence 0 | `Particles.C121_detected`, `Particles.C121_missed`, `Particles.C121_lost`, `Particles.C121_lost_any` (`Particles/Lost.lean`), `Particles.C121_refuted` | Survival of targets out of view is refuted. Real numbers; a scan without reports is left out. |
| C122 | Numbers in the log are read back | `Verif/Json/Number.lean`: the conversion `%.pg` on rational numbers, digit by digit, and an independent value of a text; the three forms of the text are one product of digits and a power of ten. `Verif/Json/NotFinite.lean`: the characters of a document outside of strings, by induction over the parser, and where the numbers of a state are written. `Verif/Plot/Digits.lean`: C85 with these numbers | `Json.C122_number`, `Json.C122_exact`, `Json.C122_read`, `Json.C122_json`, `Json.C122_full_refuted`, `Plot.C122_tracks`, `Plot.C122_log_refuted` | The library's `operator<<` is trusted to be `%.pg`; Python's rounding is left out. |
| C123 | The tracks drawn from the log of a tracker with particles are those of its particles | `Verif/Plot/ParticleLog.lean`: the text of a line with `PF::repr` is parsed to one value (C60's composition lemmas); induction over the lines with the dictionary's content as invariant; the error of a sum of products from C122's error of each number | `Plot.C123_log`, `Plot.C123_tracks`, `Plot.C123_shapes` | Exact values of the texts are added; numpy's rounding is left out. |
| C124 | The particles of a target carry a probability distribution | `Verif/Particles/Weights.lean`: an invariant of histories (`run_tgt`), through normalisation, the likelihoods, `PF::join` (C53) and births (C92); a weighted mean lies between bounds of its terms | `Particles.C124_weights`, `Particles.C124_position`, `Particles.C124_predict`, `Particles.C124_neff` | Real numbers. |
| C125 | Positions are valid latitudes and longitudes; `CV::predict` forecasts what a prediction does | `Verif/System/Forecast.lean`: an invariant of histories (`run_tgt`); all components come from `ne2ll`, which converts a point of the ellipsoid (any two angles are equivalent to a latitude within 90 degrees, then C64); the weights add up to one, so means stay between the bounds; the forecast by linearity; `Verif/Particles/Range.lean` with the weights of C124 | `System.C125_range`, `System.C125_forecast`, `System.C125_forecast_refuted`, `Particles.C125_particles` | Real numbers. |
| C126 | Only reports change the velocity of a target | `Verif/System/Still.lean`: induction over the predictions; a prediction with weights that add up to one (C66) is a map over the components, and the rows of F for the velocity are those of the identity; positions by C101 with the origin at the target itself; `Verif/Particles/Still.lean` the same with C124 for the weights | `System.C126_velocity`, `System.C126_new`, `Particles.C126_particles` | Real numbers. |
| C127 | A target that moves over a pole keeps its course (refuted) | `Verif/System/Pole.lean`: the point of the tangent plane has geodetic coordinates near those computed (C100), on the meridian of 180 degrees; the conversions back and forth keep it there (C64) | `System.C127_pole_refuted` | Real numbers; the north pole, one component, the meridian of Greenwich. |
| C128 | Conversions do not depend on the meridian longitudes are counted from | `Verif/CF/Shift.lean`: both conversions commute with rotations about the axis; `ecef2ll` uses x and y only through the distance from the axis and `atan2`; points off the axis stay off it (C100) | `CF.C128_local`, `CF.C128_global`, `System.C128_predict` (`Verif/System/Shift.lean`) | Real numbers; predictions of targets of one component, away from the axis. |
| C129 | Reports and targets are moved into the same frame | `Verif/System/Agree.lean`: the conversions of the report and of the component are computed, the innovation is zero, so is the gain times it | `System.C129_agree`, `Particles.C129_particles` (`Verif/Particles/Agree.lean`: the quadratic form of a positive definite matrix) | Real numbers. Added because a mutant that swapped report and origin in `rLocal` survived `Verif.System.Explained`. |

## The model against the project's tests

`lean/Verif/Check/ProjectTests.lean` evaluates the model on the inputs of `/repo/tests/*.cpp` and
compares with what those tests expect.  These are tests of the model, not proofs, and no claim rests
on them; they guard against a model that is consistent but of another program.  Reproduced:

- `test_hypgen.cpp`: all assignments of `lap` (plain and vectorised search), including which of two
  equally cheap ones is returned (`6 1 8 0`, not `1 7 8 0`); first draws and costs of `Murty`; the
  numbers of draws 2, 90, 5040 (`C96_programs`) and 3333 (`C20_exhaustive`).
- `test_connectedcomponents.cpp`: components of 7 and 3 nodes, in this order.
- `test_bbox.cpp`: `Within`, `Without`, `Intersect`, `SwissCross`, `Disjoint` (the last one with the
  skewed box as it is written there).
- `test_gaussian.cpp`, `test_gm.cpp` `Correct`; `test_sensor.cpp` `Likelihood`; `test_cf.cpp`
  rotations; `test_targettree.cpp` (queries and their order); `test_lmb.cpp` OSPA and GOSPA values.

Not reproduced by evaluation: round trips of coordinates (theorems C49, C50, C64, C100, C101), runs of
the whole tracker (C105, C109), statistics of random numbers (C70, C92), infinite default boxes.

## Findings

Places where the code does not do what its user would expect.  Each is a theorem, unless marked
"read" (seen in the code, not modelled).

* **Index.** Inverted rectangles make `SplitNode` read uninitialised state (C03). `Load` accepts a
  truncated file (C06).
* **Assignment.** `lap` shifts a 32-bit one by the number of rows: 31 or more rows are undefined
  (C16), hence clusters of 31 targets (C21), `ospa`/`gospa` with 31 objects (C34). Two identical
  scans of 31 overlapping reports are enough to get there from an empty tracker (C74).
  `apps/murty.cpp` and `murty2.cpp` count draws in an `unsigned`, which is wrong from 13! on (C96).
* **Hypotheses.** If every weight underflows, `r` becomes 0, `rB` NaN, and nothing is born (C21).
* **Tracker.** With time going back, r leaves [0, 1] (C29). Ids of newborn targets depend on the
  schedule (C31, C116). `predict` and `correct` in parallel use deleted targets (C32).
  Queries during `correct` miss targets and give local positions (C75). Metric queries leave
  index entries stale or dangling (C33). The id counter wraps at 2³² (C27).
  With the default `NM` a target that is never seen again is never erased (C89).
  A target that a scan does not reach keeps its old `cid`, so targets that have nothing to do with
  each other show the same one (C95).
  A posterior is rounded to exactly 1 after one clear detection, and with the default survival
  probability 1 it stays there; the alternative then costs the constant `inf` = 30000, whose weight is
  0, so a target with r = 1 is never given up for not being seen, however often a sensor with detection
  probability below 1 looks at its place (C103).
  A clear sighting can make a target certain: when "not there" is less likely than "missed" and that is
  below `w_lim` times "detected", the loop ends before "not there", and the existence probability is
  exactly 1 even in exact arithmetic.  With the default parameters and a detection probability of 0.7
  the second report in the same place does it (C105).  Such a target is hardly ever given up for not
  being seen (C103), only when its covariance has grown beyond `cov_lim` (C89).
  `birth` divides the `rB` of a scan by their sum.  A single report that is not explained with
  probability 0.05 (`r_lim`) or more starts a target with existence probability
  `min(lambdaB, rB_max)` = 0.8, as if nothing were known; below 0.05 it starts none.  Two reports in the
  same place, the second five times as likely from the target as from clutter, leave two targets there,
  with existence probabilities above 0.9 and of 0.8 (C106).
  The result of a scan can depend on the order of its reports.  The hypothesis loop stops after the first
  hypothesis below `w_lim`; if two are equally likely there, one counts and the other does not.  With two
  reports at the same distance east and west of a target that a third report explains, one of the two gets
  `rB` below 1 and the other exactly 1, and swapping them in the scan swaps their parts (C107).
  Reports of one scan act on each other however far apart they are: `birth` divides `lambdaB` by the sum of
  `rB` over the scan.  Two unexplained reports in one scan start targets with existence probability 1/4
  each, in two scans 1/2 each (C108).
* **Metrics.** The cost matrix is passed in the other storage order, and distances instead of their
  p-th powers are minimised: neither OSPA nor GOSPA is optimal in general (C35, C36).
  A perfect estimate of three or more objects scores more than 0 unless the truths are listed in an order
  that is an involution of the order of the targets (C114).
* **Mixtures.** Rounding of sample counts leaves columns of the sample buffer unwritten (C41), and
  `pos_phd` counts them: uninitialised for the first target, the previous target's samples later
  (C56). `sample()` assigns four-row blocks to two rows (read). `missed` lowers the probability of
  existence but leaves the weights of the components alone: a component in view of the sensor should
  lose weight against one out of view (C69). A report whose likelihood ratio is at most 1e-8 is
  treated as impossible (C68, C72). `Target::pos_phd` normalises over the points it is given: points
  far from the target share its whole mass, and a target between coarse points has none (C88).
* **Boxes.** `BBox::intersects` is not symmetric, reports disjoint boxes and misses overlaps (C46);
  for an axis-aligned argument it misses nothing but reports boxes beside a turned one.
  The axis-aligned box of a Gaussian takes the half widths of rotated axes in the wrong order (C47).
  A default sensor does not see the whole earth (C60). `llaabbox` maps only two corners, so
  the index box misses the western (in the south: the eastern) edge of every local box, and at the
  antimeridian it is the complement: a target is not found there by its own reports (C81). `neaabbox`
  has the same form (read).
  Boxes in latitude and longitude are made from two corners, both of which lie on the side of the
  parallel towards the equator: a target that is accurate to the north and uncertain by kilometres to
  the east is not even found by a report at its own position. With the swapped half widths (C47), a
  target that is more uncertain to the north than to the east is not found by accurate reports well
  within one standard deviation, so they start new targets instead (C102).
* **Particles.** `missed` weighs with pD instead of 1 - pD (C51). So a target out of the field of view
  loses all weight in one scan, is reported at latitude 0 and longitude 0, and is removed by the next
  prediction (C121). `resample` is dead code; as written
  it is wrong for offset 0 and for other orders of its parallel loop (C52). `_llaabbox` is never
  assigned (read).
  `valid` is never set and `_llaabbox` never assigned, so every target fills the index: all targets
  are gated into one cluster, and 31 of them are too many (C90). `linear_update` ignores the process
  noise (C91). New particles are drawn with metres added to degrees, 50 km per metre (C92). `viable`
  compares `cov_lim` with square degrees. `PF()` and `PF(params)` read states they have not
  initialised. `clmb.PF.cov` divides by `1 - sum w^2`, the tracker does not; with all weight on one
  particle it is `nan` (C93).
* **Frames.** Converting to local coordinates and back is not the identity: every query pulls targets
  towards its origin (C57).
  `viable` compares `poscov().norm()` with `cov_lim` in the global frame: the spread of the components
  is added in square degrees to covariances in square metres, so it is not limited (C97); summaries
  report the same mixed covariance. Origins are averages of longitudes: members on both sides of the
  antimeridian have an origin near longitude 0 and are moved there (C98).
  The position a prediction gives depends on the number of steps: each one walks along a tangent plane
  (C99); with `NM` everything depends on it.
  C101 bounds by how much a conversion to local coordinates and back moves a position.
  Velocities are not turned with the frame: a target that passes a pole turns back (C127).
  `CV::predict(pdf, dT)` of a target's density adds metres per second times seconds to degrees: for a ship at
  10 m/s it is off the map after 37 seconds (C125).
* **Python and text.** Pickling an axis-aligned box with inverted or NaN bounds changes it, and a
  report's `rB` is not restored (C54). `TargetSummary_::r` dangles after the vector has grown (C63).
  `AABBox` does not print JSON, nor does anything that contains a NaN or infinity (C55, C122): one such number in one target and
  `plot_results.py` draws nothing of the log (C122). `FullPrecision` is 15 or 16 digits: neighbouring doubles
  are written alike (C122).
  `cluster_nhyps` is bound to `cluster_nreports` (C95); `nof_clusters` is uninitialised before
  the first scan (read). The covariance ellipses of both plotting
  modules are turned: an angle in radians is passed as degrees, and in `lmb/plot.py` its sign is
  wrong as well (C84). `plot_results.py` fails on the thirteenth line of a log, and weights printed
  with six digits move the means (C85), by up to a thousandth of a degree (C122). All targets with ids from 65535 on have one colour (C86).
  `Application.plot_tracks` calls `plot.plot_scan` and `plot.plot_tracks`, which do not exist, and
  `sample_phd` raises a string (read). `summary()` slices a derived density (read).
  Two coroutines that share an `Application` make the tracker use deleted targets, and so does a single
  coroutine that puts a timeout around a method: the call goes on in its thread and overlaps with the
  next one (C104).
* **Randomness.** One global `mt19937` is shared by the threads of the parallel loops without a lock:
  a data race, and two threads can draw the same numbers (C71).
* **Builds.** Which of several optimal assignments `lap` returns depends on whether AVX2 is enabled; a
  row without a finite reduced cost would make the AVX2 search return column -1 (C76).
* **Rounding.** In `double` arithmetic `lap` may return an assignment that is not optimal, already for
  3×3 matrices of integers up to 2⁵³ (C77).
  Nine copies of one rectangle of width 2²⁸ in the R-tree: the split finds no seeds, because
  `-coverSplitArea - 1` rounds to `-coverSplitArea`, and uses uninitialised variables (C78).
  Successive draws of `Murty` may report a lower cost than an earlier one (C79).
  A posterior existence probability may exceed 1, already for one target and eight equally likely
  reports (C80).  If the best hypothesis of a cluster has a total cost of -710 or less, `exp` and
  `w_sum` overflow, `R /= w_sum` gives 0 and NaN, and all targets of the cluster get `r = 0`: thirty
  targets, all detected with a likelihood ratio of exp(27) each, are all dropped (C80).
  With the default detection probability 1.0 and more than one component, the normalised weights may
  add up to more than 1; `missed` is then negative and its cost NaN. Three such targets and two
  reports: no hypothesis is found and all three get `r = 0` (C83). `PF::resample` can run past the
  end of the cumulative weights (C82).
  `Gaussian_::correct` subtracts `K H P` from `P`: elongated covariances get negative variances and
  the result is not symmetric (C87). The next `sampled_pos_pdf` then throws, and boxes from such a
  covariance are NaN (read). Within the default `cov_lim` this needs reports better than a
  millimetre or so.
  A prediction makes the covariance asymmetric as well, in the covariance of the two coordinates;
  without noise it may give a negative variance (C94).
