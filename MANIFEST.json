{
 "claims": [
  {
   "property": "C01",
   "status": "proved",
   "theorems": [
    "Verif.RTree.C01_search_exact",
    "Verif.RTree.touch_iff_overlap"
   ],
   "note": "All histories of valid calls; the abstract bag semantics AbsRun is in Verif/RTree/Spec.lean."
  },
  {
   "property": "C02",
   "status": "proved",
   "theorems": [
    "Verif.RTree.C02_remove_exact",
    "Verif.RTree.C02_disciplined_contents"
   ],
   "note": "When several entries share an id, which of them goes is the code's choice (it compares ids only at leaves)."
  },
  {
   "property": "C03",
   "status": "proved",
   "theorems": [
    "Verif.RTree.C03_history_well_formed",
    "Verif.RTree.C03_inverted_rectangles_undefined"
   ],
   "note": "Precondition min <= max on inserted rectangles; the second theorem shows it is needed."
  },
  {
   "property": "C04",
   "status": "proved",
   "theorems": [
    "Verif.RTree.C04_count"
   ],
   "note": ""
  },
  {
   "property": "C05",
   "status": "proved",
   "theorems": [
    "Verif.RTree.C05_callback_stops"
   ],
   "note": ""
  },
  {
   "property": "C06",
   "status": "proved",
   "theorems": [
    "Verif.RTree.C06_save_load",
    "Verif.RTree.C06_bad_header",
    "Verif.RTree.C06_truncated_accepted"
   ],
   "note": "Stream modelled as tokens. Truncated files are accepted (finding)."
  },
  {
   "property": "C07",
   "status": "proved",
   "theorems": [
    "Verif.RTree.C07_iterate"
   ],
   "note": "Up to 2^65 entries, where the 32-deep iterator stack suffices."
  },
  {
   "property": "C08",
   "status": "proved",
   "theorems": [
    "Verif.Cluster.C08_components_partition"
   ],
   "note": "Node pointers are natural numbers; std::map/std::set as sorted lists."
  },
  {
   "property": "C09",
   "status": "proved",
   "theorems": [
    "Verif.Cluster.C09_asymmetric_witness",
    "Verif.Cluster.C09_asymmetric"
   ],
   "note": ""
  },
  {
   "property": "C10",
   "status": "proved",
   "theorems": [
    "Verif.Cluster.C10_clusters_cover",
    "Verif.Cluster.C10_duplicates_witness"
   ],
   "note": "The list of affected targets has no duplicates (shown necessary; established by the tracker model)."
  },
  {
   "property": "C11",
   "status": "proved",
   "theorems": [
    "Verif.Cluster.C11_clusters_are_components"
   ],
   "note": ""
  },
  {
   "property": "C12",
   "status": "proved",
   "theorems": [
    "Verif.Lap.C12_feasibility"
   ],
   "note": "Exact arithmetic with IEEE infinities and NaN; 'exists F' is the fuel bound, i.e. termination."
  },
  {
   "property": "C13",
   "status": "proved",
   "theorems": [
    "Verif.Lap.C13_optimal"
   ],
   "note": "At most 30 rows (beyond that see C16)."
  },
  {
   "property": "C14",
   "status": "proved",
   "theorems": [
    "Verif.Lap.C14_terminates"
   ],
   "note": "Out-of-range accesses and uses of -1 as index are the outcome none, excluded by the theorem."
  },
  {
   "property": "C15",
   "status": "proved",
   "theorems": [
    "Verif.Lap.C15_duals"
   ],
   "note": ""
  },
  {
   "property": "C16",
   "status": "proved",
   "theorems": [
    "Verif.Lap.C16_row_limit"
   ],
   "note": "Finding: undefined behaviour for 31 or more rows."
  },
  {
   "property": "C17",
   "status": "proved",
   "theorems": [
    "Verif.Murty.C17_valid"
   ],
   "note": "1 to 30 rows, at least one column; any tie-breaking of the priority queue (PickOk)."
  },
  {
   "property": "C18",
   "status": "proved",
   "theorems": [
    "Verif.Murty.C18_order"
   ],
   "note": "1 to 30 rows, any tie-breaking."
  },
  {
   "property": "C19",
   "status": "proved",
   "theorems": [
    "Verif.Murty.C19_no_repeat"
   ],
   "note": "1 to 30 rows, any tie-breaking."
  },
  {
   "property": "C20",
   "status": "proved",
   "theorems": [
    "Verif.Murty.C20_exhaustive",
    "Verif.Murty.murty_row_limit"
   ],
   "note": "1 to 30 rows; from 31 rows on the first draw is undefined (murty_row_limit)."
  },
  {
   "property": "C21",
   "status": "proved",
   "theorems": [
    "Verif.Hyp.C21_posterior",
    "Verif.Hyp.cluster_underflow",
    "Verif.Hyp.cluster_target_limit"
   ],
   "note": "1 to 30 targets per cluster (from 31 on undefined, cluster_target_limit); exact weights exp(-cost). With underflowing weights the posterior is lost (cluster_underflow)."
  },
  {
   "property": "C22",
   "status": "proved",
   "theorems": [
    "Verif.Hyp.C22_birth",
    "Verif.Hyp.C22_birth_no_targets"
   ],
   "note": "Same preconditions as C21."
  },
  {
   "property": "C23",
   "status": "proved",
   "theorems": [
    "Verif.Hyp.C23_budget"
   ],
   "note": "Same preconditions as C21."
  },
  {
   "property": "C24",
   "status": "proved",
   "theorems": [
    "Verif.Tracker.C24_fresh_rB",
    "Verif.Tracker.C24_no_stale_rB"
   ],
   "note": "Every reachable state and every complete schedule of the clusters."
  },
  {
   "property": "C25",
   "status": "proved",
   "theorems": [
    "Verif.Tracker.C25_births",
    "Verif.Tracker.C25_rB_range"
   ],
   "note": "Exact arithmetic."
  },
  {
   "property": "C26",
   "status": "proved",
   "theorems": [
    "Verif.Tracker.C26_index_coherent",
    "Verif.Tracker.C26_defined"
   ],
   "note": "Histories of predict and correct; C26_defined: no undefined behaviour while at most 30 reports arrive in total (so no cluster has more than 30 targets, see C16)."
  },
  {
   "property": "C27",
   "status": "proved",
   "theorems": [
    "Verif.Tracker.C27_ids_call",
    "Verif.Tracker.C27_ids_unique"
   ],
   "note": "While fewer than 2^32 targets have been created (the counter is 32 bits wide)."
  },
  {
   "property": "C28",
   "status": "proved",
   "theorems": [
    "Verif.Tracker.C28_predict",
    "Verif.Tracker.C28_correct",
    "Verif.Tracker.C28_correct_fate"
   ],
   "note": ""
  },
  {
   "property": "C29",
   "status": "proved",
   "theorems": [
    "Verif.Tracker.C29_r_range",
    "Verif.Tracker.C29_cv_factor",
    "Verif.Tracker.C29_time_back"
   ],
   "note": "Exact arithmetic; the density class is abstract, EnvKeeps states what it keeps. C29_time_back: with time going back r leaves [0,1]."
  },
  {
   "property": "C30",
   "status": "proved",
   "theorems": [
    "Verif.Tracker.C30_queries_agree",
    "Verif.Tracker.C30_region_le"
   ],
   "note": ""
  },
  {
   "property": "C31",
   "status": "proved",
   "theorems": [
    "Verif.Tracker.C31_order_independent"
   ],
   "note": "Over every complete interleaving of the clusters' critical sections. Ids and addresses of newborn targets depend on the order of the births (finding)."
  },
  {
   "property": "C32",
   "status": "proved",
   "theorems": [
    "Verif.Tracker.C32_use_after_delete",
    "Verif.Tracker.C32_refuted",
    "Verif.Tracker.C32_duplicate_entry"
   ],
   "note": "The claim is refuted: predict running just after cluster() built its lists makes correct use a deleted target. predict is one atomic action of the model (it holds the lock throughout)."
  },
  {
   "property": "C33",
   "status": "proved",
   "theorems": [
    "Verif.Tracker.C33_kept_if_box_kept",
    "Verif.Tracker.C33_stale",
    "Verif.Tracker.C33_phd",
    "Verif.Tracker.C33_dangling",
    "Verif.Tracker.C33_refuted"
   ],
   "note": "Read-only behaviour is refuted. C33_refuted starts from nine targets created one by one by new_target, as birth does, and runs the three steps of one cluster, not a whole correct call."
  },
  {
   "property": "C58",
   "status": "proved",
   "theorems": [
    "Verif.Tracker.C58_unreached_scan",
    "Verif.Tracker.C58_reports_kept"
   ],
   "note": "The frame change is abstract in the tracker model; see C57 for when it is the identity."
  },
  {
   "property": "C34",
   "status": "proved",
   "theorems": [
    "Verif.Metric.C34_ospa_range",
    "Verif.Metric.C34_limit"
   ],
   "note": "At most 30 targets and 30 truths; beyond that ospa and gospa are undefined (C34_limit). Exact arithmetic; the distances are the input."
  },
  {
   "property": "C35",
   "status": "proved",
   "theorems": [
    "Verif.Metric.C35_upper_bound",
    "Verif.Metric.C35_exact",
    "Verif.Metric.C35_refuted"
   ],
   "note": "Optimality in general is refuted (transposed matrix; sum of distances minimised instead of p-th powers); proved: always the value of some matching, and optimal for p = 1 with at most two objects a side or symmetric distances."
  },
  {
   "property": "C36",
   "status": "proved",
   "theorems": [
    "Verif.Metric.C36_upper_bound",
    "Verif.Metric.C36_exact",
    "Verif.Metric.C36_refuted"
   ],
   "note": "As C35, for every p; std::pow(.,p) is any monotone function. Undefined for 31 or more objects (C34_limit)."
  },
  {
   "property": "C37",
   "status": "proved",
   "theorems": [
    "Verif.GM.C37_normalize"
   ],
   "note": "Exact arithmetic."
  },
  {
   "property": "C38",
   "status": "proved",
   "theorems": [
    "Verif.GM.C38_join"
   ],
   "note": "Exact arithmetic; factors and weights not negative; std::sort is any function that returns a sorted permutation."
  },
  {
   "property": "C39",
   "status": "proved",
   "theorems": [
    "Verif.GM.C39_prune",
    "Verif.GM.C39_add"
   ],
   "note": "As C38."
  },
  {
   "property": "C40",
   "status": "proved",
   "theorems": [
    "Verif.Kalman.C40_moments"
   ],
   "note": "Real numbers."
  },
  {
   "property": "C41",
   "status": "proved",
   "theorems": [
    "Verif.GM.C41_in_bounds",
    "Verif.GM.C41_unwritten"
   ],
   "note": "The rows of the blocks are not modelled: sample() assigns 4-row blocks to 2 rows of the buffer (finding). C41_unwritten: columns of the buffer can stay uninitialised."
  },
  {
   "property": "C42",
   "status": "proved",
   "theorems": [
    "Verif.Kalman.C42_update"
   ],
   "note": "Real numbers, exact inverse."
  },
  {
   "property": "C43",
   "status": "proved",
   "theorems": [
    "Verif.Kalman.C43_predict_psd",
    "Verif.Kalman.C43_cv_noise",
    "Verif.Kalman.C43_cv_compose",
    "Verif.Kalman.C43_init_psd",
    "Verif.Kalman.C43_law",
    "Verif.Kalman.C43_mixture",
    "Verif.Kalman.C43_init_law",
    "Verif.System.C43_cv_motion",
    "Verif.System.C43_nm_motion",
    "Verif.System.C43_cv_noise_exact"
   ],
   "note": "Real numbers."
  },
  {
   "property": "C51",
   "status": "proved",
   "theorems": [
    "Verif.PF.C51_normalize",
    "Verif.PF.C51_correct_missed",
    "Verif.PF.C51_bayes",
    "Verif.PF.C51_missed_wrong"
   ],
   "note": "Finding C51_missed_wrong: missed weighs with pD instead of 1 - pD."
  },
  {
   "property": "C52",
   "status": "proved",
   "theorems": [
    "Verif.PF.C52_sequential",
    "Verif.PF.C52_dead",
    "Verif.PF.C52_refuted"
   ],
   "note": "Proved for sequential execution and an offset strictly between 0 and 1; refuted for offset 0 and for other orders of the loop that is declared parallel. As the valid flag is never set, resample is dead code (C52_dead)."
  },
  {
   "property": "C53",
   "status": "proved",
   "theorems": [
    "Verif.PF.C53_join"
   ],
   "note": "Factors not negative, at least one filter."
  },
  {
   "property": "C59",
   "status": "proved",
   "theorems": [
    "Verif.Kalman.C59_bayes"
   ],
   "note": "Real numbers, positive definite covariances."
  },
  {
   "property": "C44",
   "status": "proved",
   "theorems": [
    "Verif.BBox.C44_intersects",
    "Verif.BBox.C44_symm",
    "Verif.BBox.C44_within",
    "Verif.BBox.C44_from_points"
   ],
   "note": "Exact arithmetic."
  },
  {
   "property": "C45",
   "status": "proved",
   "theorems": [
    "Verif.BBox.C45_axis_aligned",
    "Verif.BBox.C45_sound",
    "Verif.BBox.C45_complete"
   ],
   "note": "For any four corners: within implies membership in the convex hull, and a point strictly on the same side of all four edges is within."
  },
  {
   "property": "C46",
   "status": "proved",
   "theorems": [
    "Verif.BBox.C46_refuted",
    "Verif.BBox.C46_corner",
    "Verif.BBox.C46_axis_aligned",
    "Verif.BBox.C46_aabb",
    "Verif.BBox.C46_aabb_refuted"
   ],
   "note": "Symmetry, soundness and completeness are refuted; what holds is proved."
  },
  {
   "property": "C47",
   "status": "proved",
   "theorems": [
    "Verif.BBox.C47_oriented",
    "Verif.BBox.C47_aabb_widths",
    "Verif.BBox.C47_aabb_iff",
    "Verif.BBox.C47_refuted"
   ],
   "note": "Real numbers; the eigen decomposition is assumed exact (EigOk)."
  },
  {
   "property": "C60",
   "status": "proved",
   "theorems": [
    "Verif.BBox.C60_default_fov",
    "Verif.BBox.C60_refuted"
   ],
   "note": "The claim that a new sensor sees the whole earth is refuted."
  },
  {
   "property": "C61",
   "status": "proved",
   "theorems": [
    "Verif.BBox.C61_mixture_box",
    "Verif.BBox.C61_smallest"
   ],
   "note": "In the local frame, before llaabbox."
  },
  {
   "property": "C62",
   "status": "proved",
   "theorems": [
    "Verif.BBox.C62_pD_range",
    "Verif.BBox.C62_pD_extremes",
    "Verif.BBox.C62_pD_exact"
   ],
   "note": "Exact arithmetic; for every sample outcome."
  },
  {
   "property": "C56",
   "status": "proved",
   "theorems": [
    "Verif.Phd.C56_grid",
    "Verif.Phd.C56_mass",
    "Verif.Phd.C56_defined",
    "Verif.Phd.C56_tracker",
    "Verif.Phd.C56_samples",
    "Verif.Phd.C56_uninit",
    "Verif.Phd.C56_stale"
   ],
   "note": "Exact arithmetic; draws are inputs. Findings: if the first target does not fill the sample buffer, uninitialised samples are read (C56_uninit); columns a later target does not fill count the previous target's samples (C56_stale)."
  },
  {
   "property": "C48",
   "status": "proved",
   "theorems": [
    "Verif.CF.C48_rotation"
   ],
   "note": "Real numbers."
  },
  {
   "property": "C49",
   "status": "proved",
   "theorems": [
    "Verif.CF.C49_inverse",
    "Verif.CF.C49_ne",
    "Verif.CF.C49_altitude"
   ],
   "note": "Real numbers."
  },
  {
   "property": "C50",
   "status": "proved",
   "theorems": [
    "Verif.CF.C50_agree",
    "Verif.CF.C50_longitude",
    "Verif.CF.C50_mirror"
   ],
   "note": "Real numbers; the decimal constants are exact."
  },
  {
   "property": "C57",
   "status": "proved",
   "theorems": [
    "Verif.CF.C57_refuted",
    "Verif.CF.C57_equator",
    "Verif.CF.C57_origin"
   ],
   "note": "Refuted: on the equator from origin (0,0) the round trip maps lon to arctan(sin lon), so every query pulls targets towards its origin."
  },
  {
   "property": "C54",
   "status": "proved",
   "theorems": [
    "Verif.Py.C54_bbox",
    "Verif.Py.C54_aabb",
    "Verif.Py.C54_summary",
    "Verif.Py.C54_report",
    "Verif.Py.C54_length",
    "Verif.Py.C54_mean"
   ],
   "note": "The interpreter's pickling of floats, integers and arrays is trusted. The comparison of doubles is any irreflexive relation, so bounds that are not numbers are covered."
  },
  {
   "property": "C63",
   "status": "proved",
   "theorems": [
    "Verif.Py.C63_weights",
    "Verif.Py.C63_refuted"
   ],
   "note": "The member r is refuted: after the vector has grown it refers to freed memory. Python reads w, which is right."
  },
  {
   "property": "C55",
   "status": "proved",
   "theorems": [
    "Verif.Json.C55_tracker",
    "Verif.Json.C55_target",
    "Verif.Json.C55_mixture",
    "Verif.Json.C55_summary",
    "Verif.Json.C55_reports",
    "Verif.Json.C55_cluster",
    "Verif.Json.C55_bbox",
    "Verif.Json.C55_particles",
    "Verif.Json.C55_aabb_refuted",
    "Verif.Json.C55_aabb_rest",
    "Verif.Json.C55_nonfinite_refuted"
   ],
   "note": "JSON is an executable grammar without white space and escapes, stated apart from the model. An axis-aligned box never prints JSON, nor does a component whose weight is not finite."
  },
  {
   "property": "C64",
   "status": "proved",
   "theorems": [
    "Verif.CF.C64_latitude",
    "Verif.CF.C64_origin"
   ],
   "note": "Real numbers: the decimal constants are exact and rounding is not modelled."
  },
  {
   "property": "C65",
   "status": "proved",
   "theorems": [
    "Verif.Hyp.C65_posterior",
    "Verif.Hyp.C65_rounding",
    "Verif.Hyp.spur_small"
   ],
   "note": "Costs are rational numbers (every double is); how far they are from the exact logarithms is the parameter delta of C65_rounding. Requires for every target that it can be absent or missed, so that a report is never its only explanation; r = 1 is covered. exp and the sums are over the reals."
  },
  {
   "property": "C66",
   "status": "proved",
   "theorems": [
    "Verif.System.C66_densities_proper"
   ],
   "note": "Real numbers. Reports have positive definite covariances and positive clutter intensity, the velocity prior is positive definite, -log is finite on positive numbers and infinite at 0. (3n+4)/1e8 < r_lim for scans of n reports; 0 <= rB_max <= 1; cw_lim <= 0.01 and MAX_COMPONENTS * cw_lim <= 2 as in the defaults. Stated for runs that are defined (C26_defined, C21)."
  },
  {
   "property": "C67",
   "status": "proved",
   "theorems": [
    "Verif.CF.C67_geodetic"
   ],
   "note": "Real numbers."
  },
  {
   "property": "C68",
   "status": "proved",
   "theorems": [
    "Verif.Kalman.C68_mixture",
    "Verif.System.C68_correct",
    "Verif.System.C68_same_pD"
   ],
   "note": "Real numbers, positive definite covariances. If the evidence is at most 1e-8, normalize gives up (C37) and the theorem says nothing. pD is sampled per component; C68_correct takes the numbers it returned, C68_same_pD shows that for equal numbers the likelihood is the sensor's."
  },
  {
   "property": "C69",
   "status": "proved",
   "theorems": [
    "Verif.System.C69_evidence",
    "Verif.System.C69_same_pD",
    "Verif.System.C69_refuted"
   ],
   "note": "The evidence is right. The density is right if all components have the same pD (C69_same_pD), and wrong otherwise (C69_refuted): missed does not reweigh the components."
  },
  {
   "property": "C70",
   "status": "proved",
   "theorems": [
    "Verif.Kalman.C70_sample_law",
    "Verif.Kalman.C70_unbiased",
    "Verif.Kalman.C70_error",
    "Verif.Kalman.C70_pD_unbiased",
    "Verif.Kalman.C70_pD_error"
   ],
   "note": "Real numbers; the draws of nrand() are taken to be independent standard normal numbers (C71: they need not be in parallel loops) and the eigen decomposition is exact."
  },
  {
   "property": "C71",
   "status": "proved",
   "theorems": [
    "Verif.Race.C71_atomic",
    "Verif.Race.C71_refuted"
   ],
   "note": "Refuted: the generator is shared without a lock, and two threads can draw the same numbers. It holds for executions in which no draw is interrupted."
  },
  {
   "property": "C72",
   "status": "proved",
   "theorems": [
    "Verif.System.C72_cluster"
   ],
   "note": "Real numbers. -log is within delta of the exact one. Every target can be absent (r < 1) or missed, and the error `spur` shrinks with the larger of the two weights (`idle`); the detection probabilities within a mixture differ by at most tau relative to the probability of a miss (tau = 0 if they are equal; C69_refuted shows that some such term is needed). In the local frame of the cluster; the way there and back is C49, C57, C64."
  },
  {
   "property": "C73",
   "status": "proved",
   "theorems": [
    "Verif.System.C73_scan"
   ],
   "note": "As C72, for all clusters of a call at once: the posterior is over all live targets and the whole scan. States of a target are in the local frame of its connected component, whose origin is given. Stated for calls that are defined (C26_defined)."
  },
  {
   "property": "C74",
   "status": "proved",
   "theorems": [
    "Verif.Tracker.C74_defined_iff",
    "Verif.Tracker.C74_crash"
   ],
   "note": "Finding: 31 overlapping reports in two consecutive scans are undefined behaviour (C74_crash). The costs are numbers or plus infinity, those of a false target finite (CallCosts)."
  },
  {
   "property": "C75",
   "status": "proved",
   "theorems": [
    "Verif.Tracker.C75_queries_during",
    "Verif.Tracker.C75_refuted"
   ],
   "note": "The second half of the claim is refuted (C75_refuted). The reads of a query are one atomic action of the model; that they race with the writes of the cluster outside the lock is undefined behaviour by the letter of C++ and is not counted here."
  },
  {
   "property": "C76",
   "status": "proved",
   "theorems": [
    "Verif.Lap.C76_lanes",
    "Verif.Lap.C76_same_optimum",
    "Verif.Lap.C76_assignment_refuted",
    "Verif.Lap.C76_all_infinite"
   ],
   "note": "The builds described by Tuprules.tup use -march=x86-64, without AVX2. C76_same_optimum rests on the same proof as C12-C15, which asks of find_umins only what C76_lanes shows. The last sentence but one of the claim is C76_assignment_refuted, the last is C76_all_infinite."
  },
  {
   "property": "C77",
   "status": "proved",
   "theorems": [
    "Verif.LapF.C77_terminates",
    "Verif.LapF.C77_near_optimal",
    "Verif.LapF.C77_certificate",
    "Verif.LapF.C77_exact",
    "Verif.LapF.C77_optimal_refuted",
    "Verif.LapF.round64_nearest",
    "Verif.LapF.isDouble_of_round64",
    "Verif.LapF.rne_tie",
    "Verif.LapF.lap_exact"
   ],
   "note": "Rounding to nearest even with gradual underflow and overflow; signed zeros are not modelled. The scalar search. The bound (n+4)^n is large for many rows; C77_certificate gives the distance from the output. The last sentence of the claim is C77_optimal_refuted: a 3x3 matrix of integers up to 2^53. lap_exact ties the model to that of C12-C16."
  },
  {
   "property": "C78",
   "status": "proved",
   "theorems": [
    "Verif.RTreeF.C78_well_formed",
    "Verif.RTreeF.C78_exact_answers",
    "Verif.RTreeF.C78_same_contents",
    "Verif.RTreeF.C78_unbounded_refuted",
    "Verif.RTreeF.C78_tracker",
    "Verif.RTreeF.areas64_ok",
    "Verif.RTreeF.correctSqrt_exists",
    "Verif.RTreeF.vol64_mono"
   ],
   "note": "CorrectSqrt is what IEEE 754 requires of sqrt. The argument is that rounding is monotone, so a larger rectangle never has a smaller rounded area; the exact areas of C01-C07 are the other instance of the same proofs. The last sentence of the claim is C78_unbounded_refuted. All theorems about the tracker assume BoxOk, which C78_tracker derives for double areas."
  },
  {
   "property": "C79",
   "status": "proved",
   "theorems": [
    "Verif.MurtyF.C79_valid",
    "Verif.MurtyF.C79_exhaustive",
    "Verif.MurtyF.C79_order",
    "Verif.MurtyF.C79_exact",
    "Verif.MurtyF.C79_order_refuted",
    "Verif.MurtyF.draws_exact"
   ],
   "note": "Rounding to nearest even with gradual underflow and overflow; signed zeros are not modelled. The last sentence of the claim is C79_order_refuted: a 3x3 matrix of integers up to 2^53 whose third draw reports a lower cost than the second. draws_exact ties the model to that of C17-C20."
  },
  {
   "property": "C80",
   "status": "proved",
   "theorems": [
    "Verif.HypF.C80_associations",
    "Verif.HypF.C80_existence",
    "Verif.HypF.C80_birth",
    "Verif.HypF.C80_existence_refuted",
    "Verif.HypF.C80_overflow",
    "Verif.HypF.C80_overflow_refuted"
   ],
   "note": "The library exp is an arbitrary function with the accuracy ExpOk (expOk_exists shows one); signed zeros are not modelled. The sentences on values above 1 and on overflow are the _refuted theorems (findings). C80_overflow is for costs with few significant bits."
  },
  {
   "property": "C81",
   "status": "proved",
   "theorems": [
    "Verif.CF.C81_longitude",
    "Verif.CF.C81_longitude_range",
    "Verif.CF.C81_corner_north_refuted",
    "Verif.CF.C81_corner_south_refuted",
    "Verif.CF.C81_antimeridian_refuted",
    "Verif.CF.C81_missed_refuted"
   ],
   "note": "Real numbers. The positive part is C81_longitude and C81_longitude_range; the claims of covering are refuted for all boxes in range (findings). The box contains the place it is relative to. Latitudes of the corners are not bounded here."
  },
  {
   "property": "C82",
   "status": "proved",
   "theorems": [
    "Verif.GMF.C82_normalize",
    "Verif.GMF.C82_prune",
    "Verif.GMF.C82_join",
    "Verif.GMF.C82_sample",
    "Verif.GMF.C82_resample_refuted"
   ],
   "note": "IEEE binary64 with round to nearest even; weights at most 2^500. 1/2^1074 accounts for underflow. The particle filter part is a refutation (finding)."
  },
  {
   "property": "C83",
   "status": "proved",
   "theorems": [
    "Verif.GMF.C83_missed",
    "Verif.GMF.C83_cost",
    "Verif.GMF.C83_missed_refuted",
    "Verif.GMF.C83_lost_refuted"
   ],
   "note": "C83_missed is the positive part. The refutations are concrete mixtures and costs (findings); log is any function on positive numbers and NaN on negative ones."
  },
  {
   "property": "C84",
   "status": "proved",
   "theorems": [
    "Verif.Plot.C84_drawn",
    "Verif.Plot.C84_drawn_old",
    "Verif.Plot.C84_right_iff",
    "Verif.Plot.C84_right_iff_old",
    "Verif.Plot.C84_turned_refuted",
    "Verif.Plot.C84_east_refuted",
    "Verif.Plot.C84_old_refuted"
   ],
   "note": "Refuted (finding): the theorems say what is drawn instead and when it is right. eigh and matplotlib's Ellipse are used through their documentation; real numbers."
  },
  {
   "property": "C85",
   "status": "proved",
   "theorems": [
    "Verif.Plot.C85_log",
    "Verif.Plot.C85_text",
    "Verif.Plot.C85_joined",
    "Verif.Plot.C85_long_refuted",
    "Verif.Plot.C85_point",
    "Verif.Plot.C85_mean_refuted"
   ],
   "note": "C85_log and C85_text are the positive part; the log is parsed by the grammar of C55. Beyond twelve lines and for the mean the claim is refuted (findings). Mixtures of four states; the class PF is not modelled."
  },
  {
   "property": "C86",
   "status": "proved",
   "theorems": [
    "Verif.Plot.C86_tracks",
    "Verif.Plot.C86_colours",
    "Verif.Plot.C86_colours_refuted",
    "Verif.Plot.C86_repeated_refuted"
   ],
   "note": "Ids of one recall differ (C27); C86_repeated_refuted shows that this is needed. The colours beyond 65535 are a finding."
  },
  {
   "property": "C87",
   "status": "proved",
   "theorems": [
    "Verif.KalmanF.C87_error",
    "Verif.KalmanF.C87_variance",
    "Verif.KalmanF.C87_positive",
    "Verif.KalmanF.C87_positive_refuted",
    "Verif.KalmanF.C87_symmetric_refuted",
    "Verif.KalmanF.exact_update"
   ],
   "note": "Error bound and positivity proved under stated limits; without them refuted by concrete covariances computed in the kernel (findings). The 2x2 inverse is Eigen's: adjugate times the rounded reciprocal of the determinant."
  },
  {
   "property": "C88",
   "status": "proved",
   "theorems": [
    "Verif.Phd.Sampled.C88_value",
    "Verif.Phd.Sampled.C88_mass",
    "Verif.Phd.Sampled.C88_bounds",
    "Verif.Phd.Sampled.C88_far_refuted",
    "Verif.Phd.Sampled.C88_between_refuted"
   ],
   "note": "The Cholesky decomposition of Eigen is modelled for 2x2 matrices; real numbers. That the result is the intensity is refuted by two targets (findings)."
  },
  {
   "property": "C89",
   "status": "proved",
   "theorems": [
    "Verif.System.C89_forgotten",
    "Verif.System.C89_fades",
    "Verif.System.C89_nm_refuted"
   ],
   "note": "Position sensors, Gaussian mixtures, real numbers. Forgetting is proved for CV and refuted for the default NM."
  },
  {
   "property": "C90",
   "status": "proved",
   "theorems": [
    "Verif.Particles.C90_box",
    "Verif.Particles.C90_query",
    "Verif.Particles.C90_gated",
    "Verif.Particles.C90_crash"
   ],
   "note": "Refuted: the theorems say what happens instead. PF<4> with position sensors and the models CV and NM, real numbers."
  },
  {
   "property": "C91",
   "status": "proved",
   "theorems": [
    "Verif.Particles.C91_moments",
    "Verif.Particles.C91_noise_refuted",
    "Verif.Particles.C91_wait",
    "Verif.Particles.C91_kept",
    "Verif.Particles.C91_forgotten_refuted"
   ],
   "note": "Moments are proved; the process noise is refuted: PF::linear_update ignores it."
  },
  {
   "property": "C92",
   "status": "proved",
   "theorems": [
    "Verif.Particles.C92_weights",
    "Verif.Particles.C92_metres_refuted"
   ],
   "note": "Weights are proved; the place of the particles is refuted. Real numbers; the draws are an input."
  },
  {
   "property": "C93",
   "status": "proved",
   "theorems": [
    "Verif.Particles.C93_mean",
    "Verif.Particles.C93_cov",
    "Verif.Particles.C93_equal",
    "Verif.Particles.C93_cov_refuted",
    "Verif.Particles.C93_two"
   ],
   "note": "Mean and shape are proved; equality of the covariances is refuted. Real numbers."
  },
  {
   "property": "C94",
   "status": "proved",
   "theorems": [
    "Verif.KalmanF.C94_error",
    "Verif.KalmanF.C94_mean",
    "Verif.KalmanF.C94_positive",
    "Verif.KalmanF.C94_symmetric",
    "Verif.KalmanF.C94_nm",
    "Verif.KalmanF.C94_positive_refuted",
    "Verif.KalmanF.C94_symmetric_refuted",
    "Verif.KalmanF.exact_predict"
   ],
   "note": "Error bounds and positive variances with noise are proved; non-negative variances without noise and symmetry are refuted."
  },
  {
   "property": "C95",
   "status": "proved",
   "theorems": [
    "Verif.Tracker.C95_counts",
    "Verif.Tracker.C95_hyps",
    "Verif.Tracker.C95_cids",
    "Verif.Tracker.C95_python_refuted",
    "Verif.Tracker.C95_stale_refuted"
   ],
   "note": "Counts and ids of what a scan reached are proved; Python's cluster_nhyps, and the ids of targets that were not reached, are refuted."
  },
  {
   "property": "C96",
   "status": "proved",
   "theorems": [
    "Verif.Murty.C96_programs",
    "Verif.Murty.C96_count_refuted",
    "Verif.Murty.C96_effort"
   ],
   "note": "The lines printed and the bounds on the effort are proved; that the count printed is the number of draws is refuted (it wraps at 2^32)."
  },
  {
   "property": "C97",
   "status": "proved",
   "theorems": [
    "Verif.System.C97_single",
    "Verif.System.C97_within",
    "Verif.System.C97_spread_refuted"
   ],
   "note": "The bound is proved for one component and for the average of the component covariances; for mixtures it is refuted: the spread of the means is added in square degrees."
  },
  {
   "property": "C98",
   "status": "proved",
   "theorems": [
    "Verif.System.C98_cluster",
    "Verif.System.C98_target",
    "Verif.System.C98_antimeridian_refuted",
    "Verif.System.C98_report_refuted"
   ],
   "note": "Origins are between the members; at the antimeridian this is the other side of the earth, where targets and reports are then moved (refuted)."
  },
  {
   "property": "C99",
   "status": "proved",
   "theorems": [
    "Verif.System.C99_split",
    "Verif.System.C99_position_refuted",
    "Verif.System.C99_nm_refuted",
    "Verif.Kalman.C99_nm"
   ],
   "note": "Everything but the position is the same with the model CV; positions (tangent planes) and the model NM (ignores the time) are refuted. Which targets survive is compared for one component only."
  },
  {
   "property": "C100",
   "status": "proved",
   "theorems": [
    "Verif.CF.C100_position",
    "Verif.CF.C100_local",
    "Verif.CF.C100_onto",
    "Verif.CF.C100_back"
   ],
   "note": "Over the reals; rounding is not modelled."
  },
  {
   "property": "C101",
   "status": "proved",
   "theorems": [
    "Verif.CF.C101_drift",
    "Verif.CF.C101_near",
    "Verif.CF.C101_repeated"
   ],
   "note": "Over the reals; rounding is not modelled. Complements C57, which shows that positions do move."
  },
  {
   "property": "C102",
   "status": "proved",
   "theorems": [
    "Verif.CF.C102_latitude",
    "Verif.CF.C102_covers",
    "Verif.CF.C102_found",
    "Verif.CF.C102_flat_refuted",
    "Verif.CF.C102_elongated_refuted"
   ],
   "note": "Over the reals. Refuted: a report at exactly the place of a target is offered it (a target known to 1 m north and 10 km east at 60 degrees is not found by an accurate report at its own position), and a report within half a standard deviation is offered it (the axis-aligned box has its half widths swapped, C47: a target known to 200 m north and 5 m east is not found by a report 100 m north)."
  },
  {
   "property": "C103",
   "status": "proved",
   "theorems": [
    "Verif.Tracker.C103_missed",
    "Verif.System.C103_fades",
    "Verif.System.C103_gone",
    "Verif.HypF.C103_sure_refuted",
    "Verif.HypF.C103_saturates"
   ],
   "note": "Over the reals, given the logarithms (to an error delta), with fewer than 2^32 reports in the history; the last two in double arithmetic. Refuted: that a target with r = 1 fades (its cost of not being there is 30000, whose weight is 0, so r stays exactly 1 for every detection probability below 1); such targets exist, since a posterior is rounded to exactly 1 when the alternatives cost 45 more."
  },
  {
   "property": "C104",
   "status": "proved",
   "theorems": [
    "Verif.App.C104_pool",
    "Verif.App.C104_overlap",
    "Verif.App.C104_progress",
    "Verif.App.C104_single",
    "Verif.App.C104_tracker",
    "Verif.App.C104_shared_refuted",
    "Verif.App.C104_timeout_refuted"
   ],
   "note": "Calls are divided at the critical sections of the tracker; a query is one step. Refuted: sharing an Application between two coroutines (one predicts while the other corrects: the tracker uses a deleted target although every order of the calls is fine), and a timeout around a method (asyncio.wait does not cancel the call, which then overlaps with the next one of the same coroutine)."
  },
  {
   "property": "C105",
   "status": "proved",
   "theorems": [
    "Verif.Tracker.C105_seen",
    "Verif.System.C105_confirmed",
    "Verif.System.C105_certain",
    "Verif.System.C105_doubt_refuted"
   ],
   "note": "C105_confirmed needs nhyp_max > 2 and logarithms that are exact up to delta. Refuted: that doubt remains. If not there is less likely than missed and missed is below w_lim times detected, not there is left out and the existence probability is exactly 1 (C105_certain); two reports in one place do it with the default parameters and a detection probability of 0.7."
  },
  {
   "property": "C106",
   "status": "proved",
   "theorems": [
    "Verif.Tracker.C106_share",
    "Verif.Tracker.C106_free",
    "Verif.System.C106_explained",
    "Verif.System.C106_alone",
    "Verif.System.C106_second",
    "Verif.System.C106_newborn_refuted"
   ],
   "note": "One target and one report per cluster, nhyp_max > 2, logarithms exact up to delta. Refuted: that what a report starts exists with at most the probability that the report is new. The rB of a scan are divided by their sum, so a single report whose rB reaches r_lim starts a target with existence probability min(lambdaB, rB_max) (C106_second): two reports in one place can give two targets with 0.9 and 0.8."
  },
  {
   "property": "C107",
   "status": "proved",
   "theorems": [
    "Verif.Hyp.order_spec",
    "Verif.GM.join_order",
    "Verif.Tracker.C107_order",
    "Verif.Tracker.C107_unlimited",
    "Verif.Tracker.C107_tied",
    "Verif.Hyp.tied_spec",
    "Verif.System.C107_tracker",
    "Verif.System.C107_ties_refuted"
   ],
   "note": "Exact arithmetic; the centre of mass is a function of the positions, not of their order. Refuted without the condition on the costs: of two equally likely hypotheses at the limit w_lim the loop takes one, and which one depends on the order of the reports, with the default parameters."
  },
  {
   "property": "C108",
   "status": "proved",
   "theorems": [
    "Verif.Tracker.C108_local",
    "Verif.Tracker.C108_commute",
    "Verif.Tracker.C108_split_refuted",
    "Verif.System.C108_tracker"
   ],
   "note": "Exact arithmetic, as C107. Refuted for the parts of one scan: birth divides by the sum of rB over the whole scan, so two reports however far apart start targets with r = 1/4 each in one scan and 1/2 each in two."
  },
  {
   "property": "C109",
   "status": "proved",
   "theorems": [
    "Verif.System.C109_kept",
    "Verif.System.C109_all"
   ],
   "note": "Exact arithmetic up to an error delta of the logarithms. That the covariance stays below cov_lim is assumed at each call; for a less likely report a second target does appear (C106_second)."
  },
  {
   "property": "C110",
   "status": "proved",
   "theorems": [
    "Verif.Kalman.C110_order"
   ],
   "note": "Exact arithmetic. The detection probability is a number per report; for a sensor with a field of view it is evaluated at the component before the update and may depend on the order."
  },
  {
   "property": "C111",
   "status": "proved",
   "theorems": [
    "Verif.Kalman.C111_position",
    "Verif.Kalman.C111_certain",
    "Verif.Kalman.C111_gate"
   ],
   "note": "Exact arithmetic, one component with positive definite covariance, the constant-velocity model."
  },
  {
   "property": "C112",
   "status": "proved",
   "theorems": [
    "Verif.Kalman.C112_error",
    "Verif.Kalman.C112_position",
    "Verif.Kalman.C112_forgets",
    "Verif.Kalman.C112_converges"
   ],
   "note": "Exact arithmetic, one component in one local frame, reports assigned to their object; C112_forgets and C112_converges need q > 0 and a report every T."
  },
  {
   "property": "C113",
   "status": "proved",
   "theorems": [
    "Verif.System.C113_trace",
    "Verif.System.C113_filter",
    "Verif.System.C113_certain"
   ],
   "note": "Exact arithmetic, position sensor, Gaussian mixtures. C113_filter and C113_certain are for constant-velocity predictions with one process noise; C113_trace also has NM predictions."
  },
  {
   "property": "C114",
   "status": "proved",
   "theorems": [
    "Verif.Metric.C114_perfect",
    "Verif.Metric.C114_swap",
    "Verif.Metric.C114_triangle_refuted"
   ],
   "note": "Refuted, with the exact score of a perfect estimate for every order. Exact arithmetic, at most 30 objects (C34_limit)."
  },
  {
   "property": "C115",
   "status": "proved",
   "theorems": [
    "Verif.Murty.C115_allbut",
    "Verif.Murty.C115_bind",
    "Verif.Murty.C115_sub"
   ],
   "note": "Memory after resize is uninitialised in the model; blocks outside their matrix are undefined."
  },
  {
   "property": "C116",
   "status": "proved",
   "theorems": [
    "Verif.Tracker.C116_again",
    "Verif.Tracker.C116_ids_refuted",
    "Verif.System.C116_tracker"
   ],
   "note": "Exact arithmetic, and the sampled detection probabilities are the same in both runs. Refuted for the numbers of targets: birth numbers new targets in the order in which the iterations of a parallel loop enter the critical section, so of two reports on an empty tracker either may become target 0."
  },
  {
   "property": "C117",
   "status": "proved",
   "theorems": [
    "Verif.KalmanF.C117_mean",
    "Verif.KalmanF.exact_update"
   ],
   "note": "No over- or underflow (a hypothesis on the operands). exact_update ties the reference values to the Kalman update over the reals."
  },
  {
   "property": "C118",
   "status": "proved",
   "theorems": [
    "Verif.KalmanF.C118_weight",
    "Verif.KalmanF.ulp_exists"
   ],
   "note": "No over- or underflow (a hypothesis on the operands). The accuracy of exp, sqrt and pow is a hypothesis; ulp_exists shows that it can be met."
  },
  {
   "property": "C119",
   "status": "proved",
   "theorems": [
    "Verif.KalmanF.C119_detect",
    "Verif.KalmanF.C119_missed",
    "Verif.KalmanF.C119_absent",
    "Verif.KalmanF.C119_posterior",
    "Verif.KalmanF.log_exists"
   ],
   "note": "No over- or underflow in the components (a hypothesis). The accuracy of exp, sqrt, pow and log is a hypothesis that ulp_exists and log_exists show can be met. The exact posterior rules out, as the program does, reports with a computed likelihood ratio of at most 1e-8. It is the posterior over all joint events; what stopping early drops is C21, C22, C80."
  },
  {
   "property": "C120",
   "status": "proved",
   "theorems": [
    "Verif.HypF.C120_posterior",
    "Verif.KalmanF.C120_program",
    "Verif.KalmanF.logDouble_exists"
   ],
   "note": "C120_posterior is for arbitrary costs in range, C120_program for the costs computed from the mixtures. Hypotheses: no over- or underflow in the components, computed likelihood ratios up to 2^20, probabilities of a missed detection of at least 1/512, existence probabilities below 1 (with 1 the cost of absence is infinite), orderErr at most 300, and the accuracy of the library functions, which the _exists theorems show can be met. The exact posterior rules out, as the program does, reports with a computed likelihood ratio of at most 1e-8."
  },
  {
   "property": "C121",
   "status": "proved",
   "theorems": [
    "Verif.Particles.C121_detected",
    "Verif.Particles.C121_missed",
    "Verif.Particles.C121_lost",
    "Verif.Particles.C121_lost_any",
    "Verif.Particles.C121_refuted"
   ],
   "note": "Real numbers. The weights after a scan are proved for every particle set; that a target out of view survives is refuted by C121_lost for every history that has left one target, and by C121_refuted for a concrete one. C121_lost_any is for any number of targets and reports after any history, needs r_lim positive; C121_lost is the case of one of each."
  },
  {
   "property": "C122",
   "status": "proved",
   "theorems": [
    "Verif.Json.C122_number",
    "Verif.Json.C122_exact",
    "Verif.Json.C122_read",
    "Verif.Json.C122_json",
    "Verif.Json.C122_full_refuted",
    "Verif.Plot.C122_tracks",
    "Verif.Plot.C122_log_refuted"
   ],
   "note": "operator<< of the library is modelled as the conversion %.pg of C with rounding to nearest, ties to even. Reading gives the exact value of the text; Python's rounding to a double and of its sums is left out. That nan and inf are written nan and inf is the behaviour of the common libraries. C122_full_refuted and C122_log_refuted are the parts in which the code does not meet the expectation."
  },
  {
   "property": "C123",
   "status": "proved",
   "theorems": [
    "Verif.Plot.C123_log",
    "Verif.Plot.C123_tracks",
    "Verif.Plot.C123_shapes"
   ],
   "note": "C123_log holds for every way to print numbers as JSON numbers and every way to read them; C123_tracks is for the digits of C122 and the exact value of the text, without the reader's rounding. The covariance of clmb.PF is C93."
  },
  {
   "property": "C124",
   "status": "proved",
   "theorems": [
    "Verif.Particles.C124_weights",
    "Verif.Particles.C124_position",
    "Verif.Particles.C124_predict",
    "Verif.Particles.C124_neff"
   ],
   "note": "Real numbers. The draws of a new target are assumed to be N and the weights of hypotheses not to be negative; N is positive."
  },
  {
   "property": "C125",
   "status": "proved",
   "theorems": [
    "Verif.System.C125_range",
    "Verif.System.C125_forecast",
    "Verif.System.C125_forecast_refuted",
    "Verif.Particles.C125_particles"
   ],
   "note": "Real numbers. The forecast is refuted for targets as held: if the speed to the east times the time is above 360, its longitude is above 180 degrees."
  },
  {
   "property": "C126",
   "status": "proved",
   "theorems": [
    "Verif.System.C126_velocity",
    "Verif.System.C126_new",
    "Verif.Particles.C126_particles"
   ],
   "note": "Real numbers. C126_particles is the first part for particles."
  },
  {
   "property": "C127",
   "status": "proved",
   "theorems": [
    "Verif.System.C127_pole_refuted"
   ],
   "note": "Refuted: the velocity is turned round. Real numbers."
  },
  {
   "property": "C128",
   "status": "proved",
   "theorems": [
    "Verif.CF.C128_local",
    "Verif.CF.C128_global",
    "Verif.System.C128_predict"
   ],
   "note": "Real numbers."
  },
  {
   "property": "C129",
   "status": "proved",
   "theorems": [
    "Verif.System.C129_agree",
    "Verif.Particles.C129_particles"
   ],
   "note": "Real numbers."
  }
 ]
}