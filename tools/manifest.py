#!/usr/bin/env python3
"""Writes ../MANIFEST.json."""
import json, os
C = []
def c(prop, status, theorems, note):
    C.append(dict(property=prop, status=status, theorems=theorems, note=note))

R = "Verif.RTree."
c("C01", "proved", [R+"C01_search_exact", R+"touch_iff_overlap"],
  "All histories of valid calls; the abstract bag semantics AbsRun is in Verif/RTree/Spec.lean.")
c("C02", "proved", [R+"C02_remove_exact", R+"C02_disciplined_contents"],
  "When several entries share an id, which of them goes is the code's choice (it compares ids only at leaves).")
c("C03", "proved", [R+"C03_history_well_formed", R+"C03_inverted_rectangles_undefined"],
  "Precondition min <= max on inserted rectangles; the second theorem shows it is needed.")
c("C04", "proved", [R+"C04_count"], "")
c("C05", "proved", [R+"C05_callback_stops"], "")
c("C06", "proved", [R+"C06_save_load", R+"C06_bad_header", R+"C06_truncated_accepted"],
  "Stream modelled as tokens. Truncated files are accepted (finding).")
c("C07", "proved", [R+"C07_iterate"], "Up to 2^65 entries, where the 32-deep iterator stack suffices.")

K = "Verif.Cluster."
c("C08", "proved", [K+"C08_components_partition"], "Node pointers are natural numbers; std::map/std::set as sorted lists.")
c("C09", "proved", [K+"C09_asymmetric_witness", K+"C09_asymmetric"], "")
c("C10", "proved", [K+"C10_clusters_cover", K+"C10_duplicates_witness"],
  "The list of affected targets has no duplicates (shown necessary; established by the tracker model).")
c("C11", "proved", [K+"C11_clusters_are_components"], "")

L = "Verif.Lap."
c("C12", "proved", [L+"C12_feasibility"], "Exact arithmetic with IEEE infinities and NaN; 'exists F' is the fuel bound, i.e. termination.")
c("C13", "proved", [L+"C13_optimal"], "At most 30 rows (beyond that see C16).")
c("C14", "proved", [L+"C14_terminates"], "Out-of-range accesses and uses of -1 as index are the outcome none, excluded by the theorem.")
c("C15", "proved", [L+"C15_duals"], "")
c("C16", "proved", [L+"C16_row_limit"], "Finding: undefined behaviour for 31 or more rows.")

M = "Verif.Murty."
c("C17", "proved", [M+"C17_valid"], "1 to 30 rows, at least one column; any tie-breaking of the priority queue (PickOk).")
c("C18", "proved", [M+"C18_order"], "1 to 30 rows, any tie-breaking.")
c("C19", "proved", [M+"C19_no_repeat"], "1 to 30 rows, any tie-breaking.")
c("C20", "proved", [M+"C20_exhaustive", M+"murty_row_limit"], "1 to 30 rows; from 31 rows on the first draw is undefined (murty_row_limit).")

H = "Verif.Hyp."
c("C21", "proved", [H+"C21_posterior", H+"cluster_underflow", H+"cluster_target_limit"],
  "1 to 30 targets per cluster (from 31 on undefined, cluster_target_limit); exact weights exp(-cost). With underflowing weights the posterior is lost (cluster_underflow).")
c("C22", "proved", [H+"C22_birth", H+"C22_birth_no_targets"], "Same preconditions as C21.")
c("C23", "proved", [H+"C23_budget"], "Same preconditions as C21.")

T = "Verif.Tracker."
c("C24", "proved", [T+"C24_fresh_rB", T+"C24_no_stale_rB"], "Every reachable state and every complete schedule of the clusters.")
c("C25", "proved", [T+"C25_births", T+"C25_rB_range"], "Exact arithmetic.")
c("C26", "proved", [T+"C26_index_coherent", T+"C26_defined"], "Histories of predict and correct; C26_defined: no undefined behaviour while at most 30 reports arrive in total (so no cluster has more than 30 targets, see C16).")
c("C27", "proved", [T+"C27_ids_call", T+"C27_ids_unique"], "While fewer than 2^32 targets have been created (the counter is 32 bits wide).")
c("C28", "proved", [T+"C28_predict", T+"C28_correct", T+"C28_correct_fate"], "")
c("C29", "proved", [T+"C29_r_range", T+"C29_cv_factor", T+"C29_time_back"], "Exact arithmetic; the density class is abstract, EnvKeeps states what it keeps. C29_time_back: with time going back r leaves [0,1].")
c("C30", "proved", [T+"C30_queries_agree", T+"C30_region_le"], "")
c("C31", "proved", [T+"C31_order_independent"], "Over every complete interleaving of the clusters' critical sections. Ids and addresses of newborn targets depend on the order of the births (finding).")
c("C32", "proved", [T+"C32_use_after_delete", T+"C32_refuted", T+"C32_duplicate_entry"],
  "The claim is refuted: predict running just after cluster() built its lists makes correct use a deleted target. predict is one atomic action of the model (it holds the lock throughout).")
c("C33", "proved", [T+"C33_kept_if_box_kept", T+"C33_stale", T+"C33_phd", T+"C33_dangling", T+"C33_refuted"],
  "Read-only behaviour is refuted. C33_refuted starts from nine targets created one by one by new_target, as birth does, and runs the three steps of one cluster, not a whole correct call.")
c("C58", "proved", [T+"C58_unreached_scan", T+"C58_reports_kept"], "The frame change is abstract in the tracker model; see C57 for when it is the identity.")

Q = "Verif.Metric."
c("C34", "proved", [Q+"C34_ospa_range", Q+"C34_limit"], "At most 30 targets and 30 truths; beyond that ospa and gospa are undefined (C34_limit). Exact arithmetic; the distances are the input.")
c("C35", "proved", [Q+"C35_upper_bound", Q+"C35_exact", Q+"C35_refuted"], "Optimality in general is refuted (transposed matrix; sum of distances minimised instead of p-th powers); proved: always the value of some matching, and optimal for p = 1 with at most two objects a side or symmetric distances.")
c("C36", "proved", [Q+"C36_upper_bound", Q+"C36_exact", Q+"C36_refuted"], "As C35, for every p; std::pow(.,p) is any monotone function. Undefined for 31 or more objects (C34_limit).")

G = "Verif.GM."
Z = "Verif.Kalman."
F = "Verif.PF."
c("C37", "proved", [G+"C37_normalize"], "Exact arithmetic.")
c("C38", "proved", [G+"C38_join"], "Exact arithmetic; factors and weights not negative; std::sort is any function that returns a sorted permutation.")
c("C39", "proved", [G+"C39_prune", G+"C39_add"], "As C38.")
c("C40", "proved", [Z+"C40_moments"], "Real numbers.")
c("C41", "proved", [G+"C41_in_bounds", G+"C41_unwritten"], "The rows of the blocks are not modelled: sample() assigns 4-row blocks to 2 rows of the buffer (finding). C41_unwritten: columns of the buffer can stay uninitialised.")
c("C42", "proved", [Z+"C42_update"], "Real numbers, exact inverse.")
c("C43", "proved", [Z+"C43_predict_psd", Z+"C43_cv_noise", Z+"C43_cv_compose", Z+"C43_init_psd", Z+"C43_law", Z+"C43_mixture", Z+"C43_init_law", "Verif.System.C43_cv_motion", "Verif.System.C43_nm_motion", "Verif.System.C43_cv_noise_exact"], "Real numbers.")
c("C51", "proved", [F+"C51_normalize", F+"C51_correct_missed", F+"C51_bayes", F+"C51_missed_wrong"], "Finding C51_missed_wrong: missed weighs with pD instead of 1 - pD.")
c("C52", "proved", [F+"C52_sequential", F+"C52_dead", F+"C52_refuted"], "Proved for sequential execution and an offset strictly between 0 and 1; refuted for offset 0 and for other orders of the loop that is declared parallel. As the valid flag is never set, resample is dead code (C52_dead).")
c("C53", "proved", [F+"C53_join"], "Factors not negative, at least one filter.")
c("C59", "proved", [Z+"C59_bayes"], "Real numbers, positive definite covariances.")

B = "Verif.BBox."
c("C44", "proved", [B+"C44_intersects", B+"C44_symm", B+"C44_within", B+"C44_from_points"], "Exact arithmetic.")
c("C45", "proved", [B+"C45_axis_aligned", B+"C45_sound", B+"C45_complete"], "For any four corners: within implies membership in the convex hull, and a point strictly on the same side of all four edges is within.")
c("C46", "proved", [B+"C46_refuted", B+"C46_corner", B+"C46_axis_aligned", B+"C46_aabb", B+"C46_aabb_refuted"], "Symmetry, soundness and completeness are refuted; what holds is proved.")
c("C47", "proved", [B+"C47_oriented", B+"C47_aabb_widths", B+"C47_aabb_iff", B+"C47_refuted"], "Real numbers; the eigen decomposition is assumed exact (EigOk).")
c("C60", "proved", [B+"C60_default_fov", B+"C60_refuted"], "The claim that a new sensor sees the whole earth is refuted.")
c("C61", "proved", [B+"C61_mixture_box", B+"C61_smallest"], "In the local frame, before llaabbox.")
c("C62", "proved", [B+"C62_pD_range", B+"C62_pD_extremes", B+"C62_pD_exact"], "Exact arithmetic; for every sample outcome.")

Y = "Verif.Phd."
c("C56", "proved", [Y+"C56_grid", Y+"C56_mass", Y+"C56_defined", Y+"C56_tracker", Y+"C56_samples", Y+"C56_uninit", Y+"C56_stale"], "Exact arithmetic; draws are inputs. Findings: if the first target does not fill the sample buffer, uninitialised samples are read (C56_uninit); columns a later target does not fill count the previous target's samples (C56_stale).")

W = "Verif.CF."
c("C48", "proved", [W+"C48_rotation"], "Real numbers.")
c("C49", "proved", [W+"C49_inverse", W+"C49_ne", W+"C49_altitude"], "Real numbers.")
c("C50", "proved", [W+"C50_agree", W+"C50_longitude", W+"C50_mirror"], "Real numbers; the decimal constants are exact.")
c("C57", "proved", [W+"C57_refuted", W+"C57_equator", W+"C57_origin"], "Refuted: on the equator from origin (0,0) the round trip maps lon to arctan(sin lon), so every query pulls targets towards its origin.")

V = "Verif.Py."
c("C54", "proved", [V+"C54_bbox", V+"C54_aabb", V+"C54_summary", V+"C54_report", V+"C54_length", V+"C54_mean"], "The interpreter's pickling of floats, integers and arrays is trusted. The comparison of doubles is any irreflexive relation, so bounds that are not numbers are covered.")
c("C63", "proved", [V+"C63_weights", V+"C63_refuted"], "The member r is refuted: after the vector has grown it refers to freed memory. Python reads w, which is right.")

J = "Verif.Json."
c("C55", "proved", [J+"C55_tracker", J+"C55_target", J+"C55_mixture", J+"C55_summary", J+"C55_reports", J+"C55_cluster", J+"C55_bbox", J+"C55_particles", J+"C55_aabb_refuted", J+"C55_aabb_rest", J+"C55_nonfinite_refuted"], "JSON is an executable grammar without white space and escapes, stated apart from the model. An axis-aligned box never prints JSON, nor does a component whose weight is not finite.")

c("C64", "proved", [W+"C64_latitude", W+"C64_origin"], "Real numbers: the decimal constants are exact and rounding is not modelled.")
c("C65", "proved", [H+"C65_posterior", H+"C65_rounding", H+"spur_small"], "Costs are rational numbers (every double is); how far they are from the exact logarithms is the parameter delta of C65_rounding. Requires for every target that it can be absent or missed, so that a report is never its only explanation; r = 1 is covered. exp and the sums are over the reals.")
X = "Verif.System."
c("C66", "proved", [X+"C66_densities_proper"], "Real numbers. Reports have positive definite covariances and positive clutter intensity, the velocity prior is positive definite, -log is finite on positive numbers and infinite at 0. (3n+4)/1e8 < r_lim for scans of n reports; 0 <= rB_max <= 1; cw_lim <= 0.01 and MAX_COMPONENTS * cw_lim <= 2 as in the defaults. Stated for runs that are defined (C26_defined, C21).")
c("C67", "proved", [W+"C67_geodetic"], "Real numbers.")
c("C68", "proved", [Z+"C68_mixture", X+"C68_correct", X+"C68_same_pD"], "Real numbers, positive definite covariances. If the evidence is at most 1e-8, normalize gives up (C37) and the theorem says nothing. pD is sampled per component; C68_correct takes the numbers it returned, C68_same_pD shows that for equal numbers the likelihood is the sensor's.")
c("C69", "proved", [X+"C69_evidence", X+"C69_same_pD", X+"C69_refuted"], "The evidence is right. The density is right if all components have the same pD (C69_same_pD), and wrong otherwise (C69_refuted): missed does not reweigh the components.")
c("C70", "proved", [Z+"C70_sample_law", Z+"C70_unbiased", Z+"C70_error", Z+"C70_pD_unbiased", Z+"C70_pD_error"], "Real numbers; the draws of nrand() are taken to be independent standard normal numbers (C71: they need not be in parallel loops) and the eigen decomposition is exact.")
c("C71", "proved", ["Verif.Race.C71_atomic", "Verif.Race.C71_refuted"], "Refuted: the generator is shared without a lock, and two threads can draw the same numbers. It holds for executions in which no draw is interrupted.")

c("C72", "proved", [X+"C72_cluster"], "Real numbers. -log is within delta of the exact one. Every target can be absent (r < 1) or missed, and the error `spur` shrinks with the larger of the two weights (`idle`); the detection probabilities within a mixture differ by at most tau relative to the probability of a miss (tau = 0 if they are equal; C69_refuted shows that some such term is needed). In the local frame of the cluster; the way there and back is C49, C57, C64.")

c("C73", "proved", [X+"C73_scan"], "As C72, for all clusters of a call at once: the posterior is over all live targets and the whole scan. States of a target are in the local frame of its connected component, whose origin is given. Stated for calls that are defined (C26_defined).")
c("C74", "proved", [T+"C74_defined_iff", T+"C74_crash"],
  "Finding: 31 overlapping reports in two consecutive scans are undefined behaviour (C74_crash). The costs are numbers or plus infinity, those of a false target finite (CallCosts).")
c("C75", "proved", [T+"C75_queries_during", T+"C75_refuted"],
  "The second half of the claim is refuted (C75_refuted). The reads of a query are one atomic action of the model; that they race with the writes of the cluster outside the lock is undefined behaviour by the letter of C++ and is not counted here.")

c("C76", "proved", [L+"C76_lanes", L+"C76_same_optimum", L+"C76_assignment_refuted", L+"C76_all_infinite"],
  "The builds described by Tuprules.tup use -march=x86-64, without AVX2. C76_same_optimum rests on the same proof as C12-C15, which asks of find_umins only what C76_lanes shows. The last sentence but one of the claim is C76_assignment_refuted, the last is C76_all_infinite.")

E = "Verif.LapF."
c("C77", "proved", [E+"C77_terminates", E+"C77_near_optimal", E+"C77_certificate", E+"C77_exact", E+"C77_optimal_refuted", E+"round64_nearest", E+"isDouble_of_round64", E+"rne_tie", E+"lap_exact"],
  "Rounding to nearest even with gradual underflow and overflow; signed zeros are not modelled. The scalar search. The bound (n+4)^n is large for many rows; C77_certificate gives the distance from the output. The last sentence of the claim is C77_optimal_refuted: a 3x3 matrix of integers up to 2^53. lap_exact ties the model to that of C12-C16.")
N = "Verif.RTreeF."
U = "Verif.MurtyF."
c("C78", "proved", [N+"C78_well_formed", N+"C78_exact_answers", N+"C78_same_contents", N+"C78_unbounded_refuted", N+"C78_tracker", N+"areas64_ok", N+"correctSqrt_exists", N+"vol64_mono"],
  "CorrectSqrt is what IEEE 754 requires of sqrt. The argument is that rounding is monotone, so a larger rectangle never has a smaller rounded area; the exact areas of C01-C07 are the other instance of the same proofs. The last sentence of the claim is C78_unbounded_refuted. All theorems about the tracker assume BoxOk, which C78_tracker derives for double areas.")
c("C79", "proved", [U+"C79_valid", U+"C79_exhaustive", U+"C79_order", U+"C79_exact", U+"C79_order_refuted", U+"draws_exact"],
  "Rounding to nearest even with gradual underflow and overflow; signed zeros are not modelled. The last sentence of the claim is C79_order_refuted: a 3x3 matrix of integers up to 2^53 whose third draw reports a lower cost than the second. draws_exact ties the model to that of C17-C20.")

A = "Verif.HypF."
c("C80", "proved", [A+"C80_associations", A+"C80_existence", A+"C80_birth", A+"C80_existence_refuted", A+"C80_overflow", A+"C80_overflow_refuted"],
  "The library exp is an arbitrary function with the accuracy ExpOk (expOk_exists shows one); signed zeros are not modelled. The sentences on values above 1 and on overflow are the _refuted theorems (findings). C80_overflow is for costs with few significant bits.")

c("C81", "proved", [W+"C81_longitude", W+"C81_longitude_range", W+"C81_corner_north_refuted", W+"C81_corner_south_refuted", W+"C81_antimeridian_refuted", W+"C81_missed_refuted"],
  "Real numbers. The positive part is C81_longitude and C81_longitude_range; the claims of covering are refuted for all boxes in range (findings). The box contains the place it is relative to. Latitudes of the corners are not bounded here.")

D = "Verif.GMF."
c("C82", "proved", [D+"C82_normalize", D+"C82_prune", D+"C82_join", D+"C82_sample", D+"C82_resample_refuted"],
  "IEEE binary64 with round to nearest even; weights at most 2^500. 1/2^1074 accounts for underflow. The particle filter part is a refutation (finding).")
c("C83", "proved", [D+"C83_missed", D+"C83_cost", D+"C83_missed_refuted", D+"C83_lost_refuted"],
  "C83_missed is the positive part. The refutations are concrete mixtures and costs (findings); log is any function on positive numbers and NaN on negative ones.")

O = "Verif.Plot."
c("C84", "proved", [O+"C84_drawn", O+"C84_drawn_old", O+"C84_right_iff", O+"C84_right_iff_old", O+"C84_turned_refuted", O+"C84_east_refuted", O+"C84_old_refuted"],
  "Refuted (finding): the theorems say what is drawn instead and when it is right. eigh and matplotlib's Ellipse are used through their documentation; real numbers.")
c("C85", "proved", [O+"C85_log", O+"C85_text", O+"C85_joined", O+"C85_long_refuted", O+"C85_point", O+"C85_mean_refuted"],
  "C85_log and C85_text are the positive part; the log is parsed by the grammar of C55. Beyond twelve lines and for the mean the claim is refuted (findings). Mixtures of four states; the class PF is not modelled.")
c("C86", "proved", [O+"C86_tracks", O+"C86_colours", O+"C86_colours_refuted", O+"C86_repeated_refuted"],
  "Ids of one recall differ (C27); C86_repeated_refuted shows that this is needed. The colours beyond 65535 are a finding.")

I = "Verif.KalmanF."
c("C87", "proved", [I+"C87_error", I+"C87_variance", I+"C87_positive", I+"C87_positive_refuted", I+"C87_symmetric_refuted", I+"exact_update"],
  "Error bound and positivity proved under stated limits; without them refuted by concrete covariances computed in the kernel (findings). The 2x2 inverse is Eigen's: adjugate times the rounded reciprocal of the determinant.")

YS = "Verif.Phd.Sampled."
c("C88", "proved", [YS+"C88_value", YS+"C88_mass", YS+"C88_bounds", YS+"C88_far_refuted", YS+"C88_between_refuted"],
  "The Cholesky decomposition of Eigen is modelled for 2x2 matrices; real numbers. That the result is the intensity is refuted by two targets (findings).")

c("C89", "proved", [X+"C89_forgotten", X+"C89_fades", X+"C89_nm_refuted"],
  "Position sensors, Gaussian mixtures, real numbers. Forgetting is proved for CV and refuted for the default NM.")

PP = "Verif.Particles."
c("C90", "proved", [PP+"C90_box", PP+"C90_query", PP+"C90_gated", PP+"C90_crash"],
  "Refuted: the theorems say what happens instead. PF<4> with position sensors and the models CV and NM, real numbers.")
c("C91", "proved", [PP+"C91_moments", PP+"C91_noise_refuted", PP+"C91_wait", PP+"C91_kept", PP+"C91_forgotten_refuted"],
  "Moments are proved; the process noise is refuted: PF::linear_update ignores it.")
c("C92", "proved", [PP+"C92_weights", PP+"C92_metres_refuted"],
  "Weights are proved; the place of the particles is refuted. Real numbers; the draws are an input.")
c("C93", "proved", [PP+"C93_mean", PP+"C93_cov", PP+"C93_equal", PP+"C93_cov_refuted", PP+"C93_two"],
  "Mean and shape are proved; equality of the covariances is refuted. Real numbers.")

c("C94", "proved", [I+"C94_error", I+"C94_mean", I+"C94_positive", I+"C94_symmetric", I+"C94_nm", I+"C94_positive_refuted", I+"C94_symmetric_refuted", I+"exact_predict"],
  "Error bounds and positive variances with noise are proved; non-negative variances without noise and symmetry are refuted.")

c("C95", "proved", [T+"C95_counts", T+"C95_hyps", T+"C95_cids", T+"C95_python_refuted", T+"C95_stale_refuted"],
  "Counts and ids of what a scan reached are proved; Python's cluster_nhyps, and the ids of targets that were not reached, are refuted.")

c("C96", "proved", [M+"C96_programs", M+"C96_count_refuted", M+"C96_effort"],
  "The lines printed and the bounds on the effort are proved; that the count printed is the number of draws is refuted (it wraps at 2^32).")

c("C97", "proved", [X+"C97_single", X+"C97_within", X+"C97_spread_refuted"],
  "The bound is proved for one component and for the average of the component covariances; for mixtures it is refuted: the spread of the means is added in square degrees.")
c("C98", "proved", [X+"C98_cluster", X+"C98_target", X+"C98_antimeridian_refuted", X+"C98_report_refuted"],
  "Origins are between the members; at the antimeridian this is the other side of the earth, where targets and reports are then moved (refuted).")

c("C99", "proved", [X+"C99_split", X+"C99_position_refuted", X+"C99_nm_refuted", Z+"C99_nm"],
  "Everything but the position is the same with the model CV; positions (tangent planes) and the model NM (ignores the time) are refuted. Which targets survive is compared for one component only.")

c("C100", "proved", [W+"C100_position", W+"C100_local", W+"C100_onto", W+"C100_back"],
  "Over the reals; rounding is not modelled.")

c("C101", "proved", [W+"C101_drift", W+"C101_near", W+"C101_repeated"],
  "Over the reals; rounding is not modelled. Complements C57, which shows that positions do move.")

c("C102", "proved", [W+"C102_latitude", W+"C102_covers", W+"C102_found", W+"C102_flat_refuted", W+"C102_elongated_refuted"],
  "Over the reals. Refuted: a report at exactly the place of a target is offered it (a target known to 1 m north and 10 km east at 60 degrees is not found by an accurate report at its own position), and a report within half a standard deviation is offered it (the axis-aligned box has its half widths swapped, C47: a target known to 200 m north and 5 m east is not found by a report 100 m north).")

c("C103", "proved", [T+"C103_missed", X+"C103_fades", X+"C103_gone", A+"C103_sure_refuted", A+"C103_saturates"],
  "Over the reals, given the logarithms (to an error delta), with fewer than 2^32 reports in the history; the last two in double arithmetic. Refuted: that a target with r = 1 fades (its cost of not being there is 30000, whose weight is 0, so r stays exactly 1 for every detection probability below 1); such targets exist, since a posterior is rounded to exactly 1 when the alternatives cost 45 more.")

AP = "Verif.App."
c("C104", "proved", [AP+"C104_pool", AP+"C104_overlap", AP+"C104_progress", AP+"C104_single", AP+"C104_tracker", AP+"C104_shared_refuted", AP+"C104_timeout_refuted"],
  "Calls are divided at the critical sections of the tracker; a query is one step. Refuted: sharing an Application between two coroutines (one predicts while the other corrects: the tracker uses a deleted target although every order of the calls is fine), and a timeout around a method (asyncio.wait does not cancel the call, which then overlaps with the next one of the same coroutine).")

c("C105", "proved", [T+"C105_seen", X+"C105_confirmed", X+"C105_certain", X+"C105_doubt_refuted"],
  "C105_confirmed needs nhyp_max > 2 and logarithms that are exact up to delta. Refuted: that doubt remains. If not there is less likely than missed and missed is below w_lim times detected, not there is left out and the existence probability is exactly 1 (C105_certain); two reports in one place do it with the default parameters and a detection probability of 0.7.")

c("C106", "proved", [T+"C106_share", T+"C106_free", X+"C106_explained", X+"C106_alone", X+"C106_second", X+"C106_newborn_refuted"],
  "One target and one report per cluster, nhyp_max > 2, logarithms exact up to delta. Refuted: that what a report starts exists with at most the probability that the report is new. The rB of a scan are divided by their sum, so a single report whose rB reaches r_lim starts a target with existence probability min(lambdaB, rB_max) (C106_second): two reports in one place can give two targets with 0.9 and 0.8.")

c("C107", "proved", [H+"order_spec", G+"join_order", T+"C107_order", T+"C107_unlimited", T+"C107_tied", H+"tied_spec", X+"C107_tracker", X+"C107_ties_refuted"],
  "Exact arithmetic; the centre of mass is a function of the positions, not of their order. Refuted without the condition on the costs: of two equally likely hypotheses at the limit w_lim the loop takes one, and which one depends on the order of the reports, with the default parameters.")

c("C108", "proved", [T+"C108_local", T+"C108_commute", T+"C108_split_refuted", X+"C108_tracker"],
  "Exact arithmetic, as C107. Refuted for the parts of one scan: birth divides by the sum of rB over the whole scan, so two reports however far apart start targets with r = 1/4 each in one scan and 1/2 each in two.")

c("C109", "proved", [X+"C109_kept", X+"C109_all"],
  "Exact arithmetic up to an error delta of the logarithms. That the covariance stays below cov_lim is assumed at each call; for a less likely report a second target does appear (C106_second).")

c("C110", "proved", [Z+"C110_order"],
  "Exact arithmetic. The detection probability is a number per report; for a sensor with a field of view it is evaluated at the component before the update and may depend on the order.")
c("C111", "proved", [Z+"C111_position", Z+"C111_certain", Z+"C111_gate"],
  "Exact arithmetic, one component with positive definite covariance, the constant-velocity model.")
c("C112", "proved", [Z+"C112_error", Z+"C112_position", Z+"C112_forgets", Z+"C112_converges"],
  "Exact arithmetic, one component in one local frame, reports assigned to their object; C112_forgets and C112_converges need q > 0 and a report every T.")

c("C113", "proved", [X+"C113_trace", X+"C113_filter", X+"C113_certain"],
  "Exact arithmetic, position sensor, Gaussian mixtures. C113_filter and C113_certain are for constant-velocity predictions with one process noise; C113_trace also has NM predictions.")

c("C114", "proved", [Q+"C114_perfect", Q+"C114_swap", Q+"C114_triangle_refuted"],
  "Refuted, with the exact score of a perfect estimate for every order. Exact arithmetic, at most 30 objects (C34_limit).")

c("C115", "proved", [M+"C115_allbut", M+"C115_bind", M+"C115_sub"],
  "Memory after resize is uninitialised in the model; blocks outside their matrix are undefined.")

c("C116", "proved", [T+"C116_again", T+"C116_ids_refuted", X+"C116_tracker"],
  "Exact arithmetic, and the sampled detection probabilities are the same in both runs. Refuted for the numbers of targets: birth numbers new targets in the order in which the iterations of a parallel loop enter the critical section, so of two reports on an empty tracker either may become target 0.")

c("C117", "proved", [I+"C117_mean", I+"exact_update"],
  "No over- or underflow (a hypothesis on the operands). exact_update ties the reference values to the Kalman update over the reals.")
c("C118", "proved", [I+"C118_weight", I+"ulp_exists"],
  "No over- or underflow (a hypothesis on the operands). The accuracy of exp, sqrt and pow is a hypothesis; ulp_exists shows that it can be met.")

c("C119", "proved", [I+"C119_detect", I+"C119_missed", I+"C119_absent", I+"C119_posterior", I+"log_exists"],
  "No over- or underflow in the components (a hypothesis). The accuracy of exp, sqrt, pow and log is a hypothesis that ulp_exists and log_exists show can be met. The exact posterior rules out, as the program does, reports with a computed likelihood ratio of at most 1e-8. It is the posterior over all joint events; what stopping early drops is C21, C22, C80.")

c("C120", "proved", [A+"C120_posterior", I+"C120_program", I+"logDouble_exists"],
  "C120_posterior is for arbitrary costs in range, C120_program for the costs computed from the mixtures. Hypotheses: no over- or underflow in the components, computed likelihood ratios up to 2^20, probabilities of a missed detection of at least 1/512, existence probabilities below 1 (with 1 the cost of absence is infinite), orderErr at most 300, and the accuracy of the library functions, which the _exists theorems show can be met. The exact posterior rules out, as the program does, reports with a computed likelihood ratio of at most 1e-8.")

c("C121", "proved", [PP+"C121_detected", PP+"C121_missed", PP+"C121_lost", PP+"C121_lost_any", PP+"C121_refuted"],
  "Real numbers. The weights after a scan are proved for every particle set; that a target out of view survives is refuted by C121_lost for every history that has left one target, and by C121_refuted for a concrete one. C121_lost_any is for any number of targets and reports after any history, needs r_lim positive; C121_lost is the case of one of each.")

c("C122", "proved", [J+"C122_number", J+"C122_exact", J+"C122_read", J+"C122_json", J+"C122_full_refuted", O+"C122_tracks", O+"C122_log_refuted"],
  "operator<< of the library is modelled as the conversion %.pg of C with rounding to nearest, ties to even. Reading gives the exact value of the text; Python's rounding to a double and of its sums is left out. That nan and inf are written nan and inf is the behaviour of the common libraries. C122_full_refuted and C122_log_refuted are the parts in which the code does not meet the expectation.")

c("C123","proved",[O+"C123_log", O+"C123_tracks", O+"C123_shapes"],"C123_log holds for every way to print numbers as JSON numbers and every way to read them; C123_tracks is for the digits of C122 and the exact value of the text, without the reader's rounding. The covariance of clmb.PF is C93.")
c("C124","proved",[PP+"C124_weights", PP+"C124_position", PP+"C124_predict", PP+"C124_neff"],"Real numbers. The draws of a new target are assumed to be N and the weights of hypotheses not to be negative; N is positive.")
c("C125","proved",[X+"C125_range", X+"C125_forecast", X+"C125_forecast_refuted", PP+"C125_particles"],"Real numbers. The forecast is refuted for targets as held: if the speed to the east times the time is above 360, its longitude is above 180 degrees.")
c("C126","proved",[X+"C126_velocity", X+"C126_new", PP+"C126_particles"],"Real numbers. C126_particles is the first part for particles.")
c("C127","proved",[X+"C127_pole_refuted"],"Refuted: the velocity is turned round. Real numbers.")
c("C128","proved",[W+"C128_local", W+"C128_global", X+"C128_predict"],"Real numbers.")
c("C129","proved",[X+"C129_agree", PP+"C129_particles"],"Real numbers.")
json.dump(dict(claims=C), open(os.path.join(os.path.dirname(__file__), "..", "MANIFEST.json"), "w"), indent=1)
