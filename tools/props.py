#!/usr/bin/env python3
"""Writes ../properties.jsonl. One tuple per property."""
import json, os
P = []
def p(id, title, statement, quantifier, why, anchors):
    P.append(dict(id=id, title=title, statement=statement, quantifier=quantifier,
                  why_tests_cant=why, anchors=anchors))

# ---------------------------------------------------------------- spatial index
p("C01", "Spatial query is exact",
  "After any history of Insert / Remove / RemoveAll calls on the R-tree, Search(box) with a callback that always continues reports exactly the stored entries whose rectangle overlaps the (closed) box, each as many times as it is stored, and returns their number.",
  "every finite sequence of operations, every rectangle (any rational coordinates, a superset of the finite doubles), every payload, every query box, any number of entries and any tree height",
  "Splits, re-insertions and covering rectangles depend on the whole insertion/removal history; a test can only sample histories.",
  ["include/RTree.h: RTree::Search, Insert, Remove, RemoveAll", "include/targettree.hpp: TargetTree_::query"])
p("C02", "Remove deletes exactly the stored entry",
  "Remove(rect,id) for an entry stored under that rect and id deletes exactly one entry carrying that id and leaves every other entry in place; if no entry carries the id the contents do not change.",
  "every reachable tree, every rect and id", "Condense/re-insert paths are only hit by particular histories.",
  ["include/RTree.h: RemoveRect, RemoveRectRec, ReInsert, DisconnectBranch", "include/targettree.hpp: TargetTree_::remove"])
p("C03", "The R-tree stays a valid R-tree and never trips its assertions",
  "After any history all leaves are at the same depth, every node holds at most 8 entries, every non-root node at least 4 (an internal root at least 2), every internal rectangle covers everything below it, and no ASSERT fails and no uninitialised local (seed0/seed1, chosen, best) is read.",
  "every finite history of Insert/Remove/RemoveAll", "Universal over histories and depths.",
  ["include/RTree.h: SplitNode, ChoosePartition, PickSeeds, PickBranch, AddBranch, InsertRect, RemoveRect"])
p("C04", "Count and RemoveAll",
  "Count() equals the number of entries stored (inserted and not since removed); after RemoveAll() the count is 0 and every query is empty.",
  "every history", "Universal over histories.", ["include/RTree.h: Count, CountRec, RemoveAll"])
p("C05", "A callback that stops ends the search at once",
  "If the callback returns false at its k-th invocation then Search invokes it exactly k times, on the first k entries of the full result, and returns k.",
  "every reachable tree, every box, every stateful stopping point", "Early exit has to propagate through every recursion level.",
  ["include/RTree.h: Search"])
p("C06", "Save then Load reproduces the index",
  "Loading the stream written by Save succeeds and yields a tree with identical structure and contents, and consumes exactly the bytes written; a stream with an incompatible header is rejected and leaves an empty tree.",
  "every reachable tree and every trailing stream content", "Round-trip over unbounded trees.",
  ["include/RTree.h: Save, SaveRec, Load, LoadRec"])
p("C07", "Iterator visits every entry exactly once",
  "GetFirst followed by repeated GetNext visits every stored entry exactly once and then becomes null; the iterator stack never exceeds the tree height + 1.",
  "every reachable tree", "Unbounded trees.", ["include/RTree.h: Iterator, GetFirst, GetNext, FindNextData"])
# ---------------------------------------------------------------- connected components / clustering
p("C08", "Connected components partition the nodes",
  "For a symmetric connection relation over initialised nodes, repeated get_component calls return every node exactly once, two nodes are returned together iff they are connected by a chain of connections, every call terminates, and the first call after the last component returns false.",
  "every finite set of nodes, every symmetric relation built by init/connect calls", "Graphs of any size and shape.",
  ["include/connectedcomponents.hpp: ConnectedComponents::init, connect, get_component"])
p("C09", "Connected components need a symmetric relation",
  "If connect is called in one direction only, get_component may return a node in two components (the union is then not a partition); the symmetry hypothesis of C08 cannot be dropped.",
  "existence of a connection relation (witness) against the universal claim of C08", "It is a statement about the boundary of a universal claim.",
  ["include/connectedcomponents.hpp: get_component"])
p("C10", "Clustering covers and separates reports and targets",
  "In every correct() call each report of the scan belongs to exactly one cluster, each target that is in the sensor's field of view or gated by a report belongs to exactly one cluster, and no other target is in any cluster.",
  "every scan, every target set, every gating outcome", "Any bipartite gating graph.",
  ["include/lmb.hpp: SILMB::cluster"])
p("C11", "Clusters are the gating components",
  "A report and a target whose boxes overlap are always in the same cluster; two reports share a cluster iff they are linked by a chain of shared gated targets; cluster ids are 0..nof_clusters-1, in order, and the cid of every clustered report and target names its cluster.",
  "every scan, target set and gating outcome", "Any bipartite gating graph.", ["include/lmb.hpp: SILMB::cluster", "include/report.hpp: cid", "include/target.hpp: cid"])
# ---------------------------------------------------------------- LAP
p("C12", "lap() decides feasibility",
  "lap(C,..) returns true exactly when some one-to-one assignment of rows to columns uses only finite entries.",
  "every matrix with entries finite or +infinity, any number of columns, at most 30 rows", "Exponentially many infinity patterns.",
  ["include/rlapjv.h: lap (Hall check), rlap"])
p("C13", "lap() returns a minimum-cost assignment",
  "When lap returns true, the row solution is one-to-one, uses only finite entries and its total cost is minimal over all one-to-one assignments.",
  "every matrix with entries finite or +infinity", "Optimality quantifies over all assignments of all matrices.",
  ["include/rlapjv.h: rlap, find_umins_plain, lap"])
p("C14", "lap() terminates and stays in bounds",
  "On every matrix with entries finite or +infinity and at most 30 rows lap terminates, performs no out-of-range array access and no NaN reaches a result, in exact arithmetic.",
  "every matrix", "Termination of augmenting row reduction depends on all costs.", ["include/rlapjv.h: rlap"])
p("C15", "The returned duals certify optimality",
  "When lap returns true, the row and column duals satisfy u[i]+v[j] <= C[i][j] on every finite entry with a finite dual, with equality on assigned entries; v <= 0 and v = 0 on unassigned columns; rows with an infinite dual are forced (they have the same column in every feasible assignment).",
  "every matrix", "Universal over matrices.", ["include/rlapjv.h: rlap", "include/murty.hpp: sort_by_dual"])
p("C16", "lap() row limit",
  "With 31 or more rows and a feasible matrix the feasibility loop runs into signed overflow of its subset counter (undefined behaviour) before solving.",
  "every feasible matrix with >= 31 rows", "The loop would have to run 2^31 iterations.", ["include/rlapjv.h: lap"])
# ---------------------------------------------------------------- Murty
p("C17", "Murty draws are valid assignments with the right cost",
  "Every successful draw returns a one-to-one assignment that uses only finite entries of the original matrix, and the reported cost equals the sum of the original entries (also when entries are negative).",
  "every cost matrix (finite or +infinity entries), every draw number", "All matrices, all draws.", ["include/murty.hpp: Murty::Murty, draw, MurtyState::solve"])
p("C18", "Murty draws come in non-decreasing cost order",
  "The costs of successive draws never decrease, and the first draw is a minimum-cost assignment.",
  "every cost matrix, every pair of draws", "All matrices, all draws.", ["include/murty.hpp: Murty::draw, sort_by_dual, MurtyStatePtrCompare"])
p("C19", "Murty never repeats an assignment",
  "No two successful draws of one Murty object return the same assignment.",
  "every cost matrix, every pair of draws", "All matrices, all draws.", ["include/murty.hpp: partition_with, partition_without, get_partition_index"])
p("C20", "Murty is exhaustive and terminates",
  "Drawing until failure returns every finite-cost assignment exactly once, after finitely many draws; every later draw also fails.",
  "every cost matrix", "All matrices.", ["include/murty.hpp: Murty::draw"])
# ---------------------------------------------------------------- hypothesis marginals
p("C21", "Posterior existence probabilities are probabilities",
  "After a cluster's correction every target's existence probability is in [0,1], and equals the normalised weight of the drawn hypotheses in which the target exists (is detected or missed).",
  "every cluster, every cost matrix, every number of hypotheses", "All weights and assignments.", ["include/cluster.hpp: Cluster_::correct", "include/target.hpp: Target_::correct"])
p("C22", "Birth probabilities are probabilities",
  "After a cluster's correction every report's birth probability rB is in [0,1]: one minus the normalised weight of hypotheses that use the report; it is 1 if the cluster has no targets or no hypothesis.",
  "every cluster", "All weights and assignments.", ["include/cluster.hpp: Cluster_::correct"])
p("C23", "Hypothesis budget",
  "A cluster draws at most max(1, ceil(nhyp_max)) hypotheses, in order of decreasing weight, stopping after the first whose relative weight is below w_lim, and otherwise exhausts them all.",
  "every cluster and parameter setting", "All matrices and parameter values.", ["include/cluster.hpp: Cluster_::correct"])
p("C24", "Every report gets a fresh birth probability",
  "In every correct() call, when birth reads a report's rB it has been assigned by exactly one cluster in this same call (no uninitialised or stale read).",
  "every scan and target set", "Needs the partition property for all gating graphs.", ["include/lmb.hpp: SILMB::correct, birth", "include/cluster.hpp: correct", "include/report.hpp: rB"])
p("C25", "Births are bounded",
  "Each report gives birth to at most one target; a born target's existence probability is at most rB_max, and before capping at least r_lim; the uncapped birth probabilities of a scan sum to at most lambdaB; no target is born if the birth probabilities sum to less than r_lim; otherwise every report whose share reaches r_lim gives birth.",
  "every scan, sensor and parameter setting", "All numeric inputs.", ["include/lmb.hpp: SILMB::birth"])
# ---------------------------------------------------------------- tracker state machine
p("C26", "Index and target list stay coherent",
  "After any history of predict and correct calls the spatial index holds exactly one entry per live target, under the target's current bounding box, and nothing else; hence no query ever returns a deleted target.",
  "every history of predict/correct with arbitrary models, sensors and scans", "All histories.", ["include/lmb.hpp: SILMB::predict, correct", "include/targettree.hpp", "include/cluster.hpp: correct"])
p("C27", "Target ids are unique and never reused",
  "Every target gets an id strictly larger than all ids given before; two targets (live or dead) never share an id, in fewer than 2^32 births; ids never change.",
  "every history", "All histories.", ["include/targettree.hpp: new_target, id_counter"])
p("C28", "Only viable targets survive",
  "After predict every live target has r >= r_lim and position covariance norm <= cov_lim; after correct this holds for every target that was in a cluster; targets outside all clusters are untouched by correct; no target is deleted whose new value meets both limits.",
  "every history", "All histories.", ["include/target.hpp: viable", "include/lmb.hpp: predict", "include/cluster.hpp: correct"])
p("C29", "Existence probabilities stay in [0,1]",
  "In every state reachable by predict (pS in [0,1], time not decreasing) and correct, with 0 < rB_max <= 1, every target's r is in [0,1].",
  "every history", "All histories.", ["include/target.hpp", "include/models.hpp", "include/lmb.hpp"])
p("C30", "Query summaries agree",
  "enof_targets() is the sum of r over get_targets(); nof_targets(r_lim) is the number of get_targets() entries with r >= r_lim; the region variants are the same over exactly the targets whose box overlaps the region, so never exceed the global ones.",
  "every reachable tracker state and region", "All states.", ["include/lmb.hpp: enof_targets, nof_targets, get_targets"])
p("C31", "Correction does not depend on the order clusters are processed in",
  "For every interleaving of the clusters' critical sections in the parallel loop the final set of live targets with their values, and the index contents, are the same; only storage order differs.",
  "every schedule of every number of clusters", "Schedules cannot be enumerated by tests.", ["include/lmb.hpp: SILMB::correct (PARFOR)", "include/cluster.hpp: CRITICAL(ttree)", "include/omp.hpp"])
p("C32", "predict and correct are not safe to run concurrently",
  "Claim a user of the GIL-releasing Python API may rely on: predict and correct on one tracker from two threads never touch a deleted target. It is false: a schedule exists in which correct dereferences a target predict has deleted.",
  "all schedules (refuted by one)", "A schedule property.", ["include/lmb.hpp: correct, predict", "lmb/lmb.cpp: call_guard<gil_scoped_release>", "lmb/application.py"])
p("C33", "Metric queries and the index",
  "ospa, gospa and pos_phd are read-only for the user: afterwards the index should still hold each target under its current box. They recompute each target's box from a new origin without updating the index, so coherence (C26) is only preserved when the recomputed box equals the old one; otherwise a later correct can leave a dangling index entry.",
  "every state, every origin", "Depends on history and geometry.", ["include/lmb.hpp: ospa, gospa, pos_phd", "include/gm.hpp: transform_to_global", "include/RTree.h: RemoveRectRec"])
# ---------------------------------------------------------------- metrics
p("C34", "OSPA range",
  "ospa(truth,c,p) lies in [0,c] for c >= 0 and p > 0, is 0 when there are neither targets nor truths, and is c when exactly one side is empty.",
  "every target and truth set, every c and p", "All inputs.", ["include/lmb.hpp: ospa"])
p("C35", "OSPA is the optimal sub-pattern assignment distance",
  "ospa should equal the minimum over assignments. The code passes a column-major matrix to a row-major solver and minimises C instead of C^p, so it equals the optimum only for special matrices (e.g. at most two objects a side and p = 1); it is always an upper bound.",
  "every target and truth set, every c and p", "Optimality over all assignments.", ["include/lmb.hpp: ospa", "include/rlapjv.h: lap"])
p("C36", "GOSPA is the optimal assignment distance",
  "gospa should equal the minimum over assignments of the cut-off p-th power costs with c^p/2 per unmatched object. The column-major/row-major mix-up makes it only an upper bound in general; it is exact for symmetric cost matrices and for at most two objects a side.",
  "every target and truth set, every c and p", "Optimality over all assignments.", ["include/lmb.hpp: gospa", "include/rlapjv.h: lap, cost"])
# ---------------------------------------------------------------- Gaussian mixture
p("C37", "Mixture normalisation",
  "normalize() leaves the mixture with weights summing to 1 in unchanged proportions, and eta equal to the previous weight sum; if that sum is at most 1e-8 the mixture becomes empty and eta is 0.",
  "every mixture", "All weights.", ["include/gm.hpp: GM::normalize, clear"])
p("C38", "join keeps the heaviest components",
  "join() yields at most MAX_COMPONENTS components in non-increasing weight order, each a component of one of the inputs with weight scaled by that input's factor, used at most once; no discarded component outweighs a kept one; the result sums to 1 (or is empty).",
  "every list of mixtures and weights", "k-way merge over arbitrary inputs.", ["include/gm.hpp: GM::join"])
p("C39", "prune keeps the heaviest components",
  "prune() removes exactly the components below cw_lim and, beyond MAX_COMPONENTS, the lightest ones; the survivors are in non-increasing order with weights summing to 1.",
  "every mixture", "All mixtures.", ["include/gm.hpp: GM::prune, operator+, operator+="])
p("C40", "Mixture moments are valid",
  "The covariance reported for a mixture with non-negative weights and positive semidefinite components is symmetric positive semidefinite and does not exceed the second moment about any other point; the mean is invariant under component order.",
  "every mixture of any size and dimension", "All mixtures.", ["include/gm.hpp: mean, cov"])
p("C41", "Sampling stays inside the sample buffer",
  "sample/sample_pos of a normalised mixture never write outside the buffer, but leave up to one column per component unwritten; pos_phd therefore may read uninitialised samples.",
  "every normalised mixture and buffer size", "All weights.", ["include/gm.hpp: sample, sample_pos", "include/lmb.hpp: pos_phd"])
# ---------------------------------------------------------------- Kalman
p("C42", "Measurement update keeps the covariance valid",
  "Gaussian correct with a positive definite report covariance keeps P symmetric positive semidefinite and never increases it; the weight stays non-negative.",
  "every state dimension, covariance, report", "All matrices.", ["include/gaussian.hpp: correct", "include/report.hpp: likelihood"])
p("C43", "Prediction keeps the covariance valid",
  "linear_update keeps P symmetric positive semidefinite for every transition matrix when Q is; the CV model's Q is positive semidefinite for q >= 0 and non-negative time steps, and not for negative ones; consecutive CV steps dT1, dT2 compose to one step dT1+dT2. If a state is distributed as the mixture before the prediction, F x + noise with independent noise of covariance Q is distributed as the mixture after it, and the CV noise is that of white acceleration integrated over the step; a new target's density is the law of the report's position and an independent velocity.",
  "every covariance, time step and noise level", "All matrices.", ["include/gaussian.hpp: linear_update", "include/models.hpp: CV, NM"])
# ---------------------------------------------------------------- boxes
p("C44", "AABBox intersects is exact",
  "a.intersects(b) holds iff some point is within both boxes (for boxes with min <= max); it is symmetric; within agrees with the four inequalities.",
  "every pair of boxes", "All coordinates.", ["include/bbox.hpp: AABBox::intersects, within"])
p("C45", "BBox within is exact for axis-aligned boxes",
  "For a BBox built from an AABBox, within(x) holds iff x is in the half-open box [min,max); in general within implies the point is inside the enclosing AABBox.",
  "every box and point", "All coordinates.", ["include/bbox.hpp: BBox::within, aabbox, BBox(AABBox)"])
p("C46", "BBox intersects is sound and symmetric",
  "A user expects intersects to be symmetric and to hold only for boxes with a common point. Both are false: crossing boxes are detected in one argument order only, and disjoint boxes whose diagonal lines meet inside the first box are reported as intersecting. What holds: a corner of one inside the other is always detected, in both orders. With an axis-aligned box as the argument nothing is missed, and the answer is exact if both are axis-aligned; for a turned box it may report an axis-aligned box without a common point.",
  "every pair of boxes (two refuted claims, one proved)", "All coordinates.", ["include/bbox.hpp: BBox::intersects", "include/sensors.hpp: get_targets"])
p("C47", "Gaussian bounding boxes cover the uncertainty ellipse",
  "The oriented BBox of a Gaussian contains the nstd-ellipse. The axis-aligned AABBox should too, but its half-widths are swapped (x gets nstd*sqrt(Pyy), y gets nstd*sqrt(Pxx)), so it does exactly when Pxx = Pyy.",
  "every 2x2 covariance and nstd", "All covariances.", ["include/bbox.hpp: AABBox::from_gaussian, BBox::from_gaussian"])
# ---------------------------------------------------------------- coordinate frames
p("C48", "NED rotation is orthogonal",
  "nedrot(origin) is orthogonal with determinant +1 or -1 fixed for all origins, and nerot is its first two rows.",
  "every latitude/longitude", "All angles.", ["include/cf.hpp: nedrot, nerot"])
p("C49", "ECEF <-> NED is an exact inverse pair",
  "ned2ecef(ecef2ned(x,o),o) = x and ecef2ned(ned2ecef(n,o),o) = n; distances are preserved; the origin maps to 0.",
  "every point and origin", "All reals.", ["include/cf.hpp: ecef2ned, ned2ecef, lla2ned, ll2ne"])
p("C50", "Geodetic conversions agree with each other",
  "lla2ecef with altitude 0 equals ll2ecef; ecef2ll is the horizontal part of ecef2lla; longitude is recovered exactly from ll2ecef for latitudes strictly between the poles and longitudes in (-180,180]; hemispheres are mirror images.",
  "every latitude/longitude/altitude", "All reals.", ["include/cf.hpp: lla2ecef, ll2ecef, ecef2lla, ecef2ll"])
# ---------------------------------------------------------------- particle filter
p("C51", "Particle weights normalise",
  "After correct/missed/normalize the particle weights are non-negative and sum to 1, or the filter is marked invalid with eta 0; correct gives every particle its posterior probability under Bayes' rule.",
  "every particle set", "All weights.", ["include/pf.hpp: normalize, correct, missed"])
p("C52", "Systematic resampling is in bounds and proportional",
  "Sequentially executed, resample never reads past the cumulative weights and copies particle k between floor(N*w_k) and ceil(N*w_k) times; executed as the parallel loop it is written as, a schedule exists that violates this (shared cursor).",
  "every weight vector, every offset, every schedule", "All weights/schedules.", ["include/pf.hpp: resample"])
p("C53", "Particle join keeps the heaviest particles",
  "PF::join returns N particles in non-increasing weight order, each taken from an input at most once with scaled weight, and no dropped particle outweighs a kept one.",
  "every list of particle sets and weights", "k-way merge over arbitrary inputs.", ["include/pf.hpp: join, prepare_sort, wsorted, msorted"])
# ---------------------------------------------------------------- bindings / text
p("C54", "Pickling round-trips",
  "Unpickling a pickled BBox, AABBox (with min <= max), Target summary or GaussianReport gives back equal x, P, r/kappa, id, cid / corners / min,max; a tuple of the wrong length is rejected; an AABBox with min > max comes back with the bounds swapped.",
  "every object", "All values.", ["lmb/lmb.cpp: py::pickle definitions"])
p("C55", "repr is well-formed JSON",
  "operator<< of a tracker, target, mixture, report list and cluster emits well-formed JSON containing one element per target/component/report in order, provided the numbers print as JSON numbers. It is false for an axis-aligned box, which prints the word AABBox and the matrix of its two intervals.",
  "every tracker state of any size", "All sizes.", ["include/lmb.hpp: repr", "include/target.hpp: repr", "include/gm.hpp: repr", "include/gaussian.hpp: repr", "include/report.hpp: repr, operator<<", "include/constants.hpp: eigenformat"])
p("C56", "PHD grid mass",
  "Every cell of pos_phd is non-negative and the grid total is at most the expected number of targets in the queried region; no sample outside the region is counted.",
  "every state, region, grid size and sample outcome", "All samples.", ["include/lmb.hpp: pos_phd"])

p("C57", "Metric queries do not move targets",
  "ospa, gospa and pos_phd convert every queried target to the local frame of an origin and back; the state they leave behind is the state they found (the round trip ll2ne, ne2ll is the identity on positions).",
  "every state, every origin", "All origins and positions; the drift is visible only after the query, in later predictions.", ["include/cf.hpp: ll2ne, ne2ll, ecef2ne, ne2ecef", "include/gm.hpp: transform_to_local, transform_to_global", "include/lmb.hpp: ospa, gospa, pos_phd"])
p("C58", "A scan that reaches no target only creates targets",
  "A scan none of whose reports reaches a target leaves every existing target as it was and gives birth from all of its reports or from none (each newborn with r = min(lambdaB/n, rB_max)); and in every scan correct changes a report only by moving it into its cluster's local frame and back.",
  "every state, every scan, every cluster schedule", "All states and schedules.", ["include/lmb.hpp: correct, cluster, birth", "include/cluster.hpp: correct"])

p("C59", "Measurement update is Bayes' rule",
  "Gaussian::correct returns the mean and covariance of the Bayes posterior of a linear measurement with Gaussian noise, and the value it returns (before pD / kappa) is the marginal density of the measurement: prior(x) * likelihood(z | x) = marginal(z) * posterior(x) for every state x and every measurement z.",
  "every prior, measurement matrix and noise (positive definite covariances)", "All real vectors and matrices.", ["include/gaussian.hpp: correct, linear_update", "include/report.hpp: likelihood", "include/sensors.hpp: measurement"])

p("C60", "Default field of view",
  "A newly created PositionSensor should see targets anywhere. False: its field of view is latitude [-90,90), longitude [0,180), so no target west of Greenwich is ever in view; exactly that box is proved.",
  "every position", "All positions; the tests use eastern longitudes.", ["include/sensors.hpp: PositionSensor()", "include/bbox.hpp: BBox::within"])
p("C61", "A target's box encloses its components",
  "The axis-aligned box a mixture keeps in the spatial index (before the change of frame) contains the box of every component and the position of every component that lies in its own box, and it is the smallest box that does.",
  "every mixture", "All component lists.", ["include/gm.hpp: update_local_bbox"])
p("C62", "Detection probability is a probability",
  "PositionSensor::pD of a density with non-negative weights summing to at most 1 lies in [0, pD_] for every outcome of the sampling; it is pD_ times the weight sum when every sample is in view and 0 when none is; in general it is pD_ times the weighted share of the samples in view.",
  "every density, field of view and sample outcome", "All samples (the overlap is estimated by random samples).", ["include/sensors.hpp: pD", "include/gm.hpp: overlap", "include/gaussian.hpp: overlap"])

p("C63", "Summaries carry the probability of existence", "Every element of get_targets() has, as member r and as member w, the probability of existence of its target, in the order of the targets.", "every number of targets, every growth policy of the vector", "r is a reference that the implicit copy constructor copies; a test with one target, or one that happens to read freed memory before it is reused, passes.", ["include/target.hpp: TargetSummary_", "include/lmb.hpp: get_targets", "lmb/lmb.cpp: Target"])
p("C64", "Latitudes come back",
  "Converting a latitude and longitude to earth-centred coordinates and back returns the latitude within 1e-11 degrees (a micrometre on the ground) at every latitude and in both branches of the closed-form approximation; a target at the origin of a query stays where it is to that accuracy.",
  "every latitude in [-90, 90], every longitude", "A test samples latitudes; the accuracy of the series and of the Newton step is an inequality over an interval.", ["include/cf.hpp: ll2ecef, ecef2ll, ne2ecef, ne2ll", "include/gaussian.hpp: transform_to_local, transform_to_global"])
p("C65", "Association probabilities are Bayes' rule",
  "After a cluster has been corrected, the probability that target i caused report j, the posterior probability that target i exists and the probability that report j was caused by no target are those of Bayes' rule over all joint association events, for the weights r*likelihood, r*(missed) and 1-r. The error is at most the weight left undrawn by w_lim and nhyp_max, plus a bound below exp(-29000) for using 30000 as infinity; with neither limit active only the latter remains.",
  "every cluster of at most 30 targets, any number of reports, all costs, all limits", "The number of events is exponential; a test would have to enumerate them.", ["include/cluster.hpp: correct", "include/target.hpp: match, false_target, correct", "include/murty.hpp: draw", "include/constants.hpp: inf"])
p("C66", "Densities stay proper",
  "After any history of predict (CV with a non-negative time step, or NM) and correct (position sensors), every live target has an existence probability in [0,1] and a mixture of at least one and at most MAX_COMPONENTS Gaussians, whose weights are not negative and sum to one and whose covariances are positive definite; the overall covariance is positive definite. No live target ever has an empty mixture.",
  "every history, every scan of up to about 1.6 million reports, every outcome of the sampling in pD, every order of the parallel loops", "An induction over all histories: an empty or unnormalised mixture shows only after some unlucky sequence of updates, joins and prunings.", ["include/lmb.hpp: predict, correct, birth", "include/cluster.hpp: correct", "include/target.hpp: match, correct, predict", "include/gm.hpp: normalize, join, correct, missed, linear_update", "include/gaussian.hpp: correct", "include/models.hpp: CV, NM", "include/sensors.hpp: pdf_init1"])
p("C67", "Geodetic coordinates mean what they say",
  "ll2ecef returns a point of the WGS-84 ellipsoid in the meridian plane of the longitude at which the outward normal has the given latitude; lla2ecef adds the altitude along that normal, and nedrot maps the normal to straight up.",
  "every latitude, longitude and altitude", "All angles.", ["include/cf.hpp: ll2ecef, lla2ecef, nedrot"])

p("C68", "A mixture corrected by a report is the Bayes posterior",
  "After GM::correct with a report the mixture is, as a measure on states, the prior mixture reweighted by the likelihood of the report given the state (detection probability times normal density over clutter intensity) and normalised; the returned eta is the evidence, the integral of that likelihood.",
  "every mixture, report and probability of detection", "The statement is about measures on all states.", ["include/gm.hpp: correct, normalize", "include/gaussian.hpp: correct", "include/sensors.hpp: pD"])
p("C69", "A mixture that was missed is the Bayes posterior",
  "After GM::missed the mixture is the prior reweighted by the probability 1 - pD of not being detected, normalised, and the returned value is the evidence, the probability of not being detected.",
  "every mixture and probability of detection per component", "The statement is about measures on all states.", ["include/gm.hpp: missed"])
p("C70", "Samples follow the density and the overlap is an unbiased estimate",
  "nrand(res, x, P) fills columns with the normal law of mean x and covariance P; the expected value of overlap is the probability that a state of the component lies in the box, that of pD is pD_ times the mass of the mixture in the field of view, and with N samples the estimate is off by eps or more with probability at most 2 exp(-2 N eps^2).",
  "every mixture, box and number of samples", "The statement is about distributions.", ["include/statistics.hpp: nrand", "include/gaussian.hpp: sample, overlap", "include/gm.hpp: overlap", "include/sensors.hpp: pD"])
p("C71", "Parallel draws are different draws",
  "The threads of the parallel loops share out the consecutive numbers of the random number generator: no number is handed to two threads.",
  "every generator and every interleaving of the threads", "Interleavings.", ["include/statistics.inc: nrand, urand", "include/target.hpp: match", "include/gm.hpp: correct"])

p("C72", "A corrected cluster is the exact Bayes posterior up to known errors",
  "After correct, for every target of a cluster and every set A of states: existence probability times the mass of A in the new density is the exact Bayes posterior probability that the target exists with its state in A, computed by summing over all joint association events and integrating the likelihoods, up to an explicit error: hypotheses not drawn, rounding of the logarithms, reports with a likelihood ratio of at most 1e-8 (they are ignored), spread of the detection probability within a mixture, existence probabilities below 1e-6, and the weight of the components join drops. The birth probability of a report is near the posterior probability that no target caused it.",
  "every cluster of at most 30 targets, r = 1 included as long as such a target can be missed, and any number of reports, every mixture, every measurable or other set of states, all limits", "The exact posterior is a sum over exponentially many events of integrals over states.", ["include/cluster.hpp: correct", "include/target.hpp: match, false_target, correct", "include/gm.hpp: correct, missed, join, normalize", "include/gaussian.hpp: correct", "include/murty.hpp: draw"])

p("C73", "A whole scan is the exact Bayes posterior of all targets, up to known errors",
  "Clustering loses nothing. Take a reachable tracker state and a call of correct. Enumerate all joint events of all live targets and all reports of the scan, where a target can have caused a report only if both are connected by a chain of touching boxes. For every gated target and every set A of states, existence probability times the mass of A in the density the tracker computes is the posterior probability that the target exists with its state in A, up to an error that depends on the connected component of the target only, not on the rest of the scan. A target whose result is not viable is removed, the others are kept with that result. The birth probability of each report is near the posterior probability that no target caused it, and exactly that if no target is linked to it.",
  "every history of predictions and corrections with position sensors, every scan, all sets of states, any number of targets, any schedule of the parallel loop", "The exact posterior is a sum over exponentially many joint events of the whole scan; tests see single clusters.", ["include/lmb.hpp: correct, cluster", "include/cluster.hpp: correct", "include/target.hpp: match, correct, viable", "include/gm.hpp: correct, missed, join"])

p("C74", "Which scans can be processed",
  "After any history, correct processes a scan to its end exactly when no target that the scan reaches is connected, by chains of touching target and report boxes, to more than 29 other targets; otherwise the call is undefined behaviour. In particular the same scan of 31 or more reports with common overlap, given twice to an empty tracker, is processed the first time and breaks the tracker the second time if the births pass the threshold.",
  "every history, sensor with numeric costs, scan, schedule of the clusters and order of the births", "The condition depends on the state after all earlier scans; a test only sees a crash once such a crowd arises.", ["include/lmb.hpp: SILMB::correct, cluster", "include/cluster.hpp: correct", "include/rlapjv.h: lap"])

p("C75", "Queries during a correction",
  "While correct processes a scan in another thread, enof_targets, nof_targets and get_targets (with and without a region) are defined at every moment and never read a deleted target; without a region they cover exactly the live targets; with a region they omit exactly the targets that are being updated. The claim that they report all targets of the region at their geographic positions is false: a target under update is missing from its region, and its position is in the local frame of its cluster.",
  "every history, scan, schedule, moment of the schedule, and set of targets already moved to the local frame", "Depends on the interleaving of two threads; a test sees one interleaving at a time.", ["include/lmb.hpp: SILMB::correct, enof_targets, nof_targets, get_targets", "include/cluster.hpp: correct, transform_to_local", "lmb/lmb.cpp: call_guard", "lmb/application.py"])

p("C76", "The vectorised search finds the same minima",
  "In a build with AVX2, find_umins (4 lanes for double, 8 for float) returns the same smallest and second smallest reduced cost as find_umins_plain, with columns that attain them, whatever the number of columns; lap then returns the same truth value and the same cost, with an optimal assignment. The claim that the same assignment is returned is false: on ties the AVX2 build picks another column. If every reduced cost of a row is +inf the vectorised search returns column -1.",
  "every row of finite or +inf costs, every prices, any number of columns and lanes", "The vector code only runs for 100000 columns or more (64 for float) and only in some builds.", ["include/rlapjv.h: find_umins, find_umins_plain, rlap, lap"])

p("C77", "The assignment solver in double arithmetic",
  "With every sum and difference rounded as IEEE 754 binary64 does, lap still terminates without undefined behaviour, decides feasibility correctly, returns no NaN, and the assignment is one-to-one over finite entries with infinite row duals only for forced rows. Its cost is within 16 n (n+4)^n rounding units of the optimum, and within 2 n times the largest violation of the dual constraints that can be read off the output. If the costs are multiples of a power of two and need few enough bits, the result is optimal and the cost exact. The claim that the result is optimal for all double matrices is false.",
  "every matrix of finite or +inf doubles with at most 30 rows and magnitudes away from overflow", "Rounding makes reduced costs of tight edges negative; whether the search still ends, and with what, depends on all matrices.", ["include/rlapjv.h: find_umins_plain, rlap, lap"])

p("C78", "The R-tree and the tracker in double arithmetic",
  "With every area and difference of areas rounded as IEEE 754 binary64 does and a correctly rounded square root, any history of Insert and Remove calls with coordinates of size at most 2^23 runs without a failed assertion and without reading an uninitialised variable, keeps the R-tree well formed, and Search, Count and the iterator are exact; rounding only influences in which node an entry is stored. The tracker with this index keeps one entry per live target and answers queries exactly. Without the bound on the coordinates the claim is false: nine copies of one rectangle of width 2^28 make PickSeeds use uninitialised seeds.",
  "every history of insertions and removals, every correctly rounded square root, every tracker with boxes in range", "Whether rounding leaves the split without seeds, or an area difference with the wrong sign, depends on all sequences of rectangles.", ["include/RTree.h: RectSphericalVolume, PickBranch, PickSeeds, ChoosePartition", "include/targettree.hpp"])

p("C79", "k-best enumeration in double arithmetic",
  "With every difference, sum and product rounded as IEEE 754 binary64 does, the enumeration still lists every assignment over finite entries exactly once and then fails, without undefined behaviour; the reported cost is off by at most 2n+2 rounding units, and a drawn assignment is dearer than one not drawn yet by at most 16n(n+4)^n+6n+6 units. The errors do not grow with the number of draws. If costs and sums fit into 52 bits the draws are exact and in order. In general successive draws need not have non-decreasing cost.",
  "every matrix of finite or +inf doubles with at most 30 rows and magnitudes away from overflow, every tie-breaking of the priority queue, any number of draws", "Rounding changes lower bounds and duals in the queue; that no assignment is lost or repeated depends on all matrices and all numbers of draws.", ["include/murty.hpp: MurtyState, Murty::draw", "include/rlapjv.h: lap"])

p("C80", "Existence and birth probabilities in double arithmetic",
  "With every operation of the hypothesis loop rounded as IEEE 754 binary64 does, in whatever order the rows and columns of R are summed: every normalised association weight lies in [0,1]; a posterior existence probability is not negative, exceeds 1 by at most (6L+3N+6)/2^52 and equals the normalised weight of the L drawn hypotheses in which the target exists up to an explicit bound (or is 0 below 1e-6); a birth weight is at most 1, at least -(6L+3M+4)/2^52, and accurate likewise. Neither stays within [0,1]: a posterior above 1 occurs. If the best hypothesis has a total cost of -710 or less its weight overflows, and every target of the cluster gets existence probability 0 although the exact probabilities are near 1.",
  "every cluster of at most 30 targets with double costs up to 2^15 whose hypotheses cost at least -600 and at least one drawn at most 600, every exp accurate to one unit in the last place, every nhyp_max up to 2^20, every summation order", "The rounding errors of weights, sums and quotients combine over all hypotheses and all summation orders; overflow needs a combination of costs that tests do not produce.", ["include/cluster.hpp: Cluster_::correct", "include/target.hpp: Target_::correct", "include/murty.hpp: Murty::draw"])

p("C81", "Index boxes cover what they stand for",
  "AABBox::llaabbox turns a box in metres around a place into a box of latitudes and longitudes for the spatial index. Away from the antimeridian its longitudes are those of the south-west and the north-east corner, exactly longitude plus arctan(east over distance from the axis of the earth), with the place in between. The claim that the result covers the local box is false: in the northern hemisphere every point of the western edge except its southern end lies outside, in the southern hemisphere every point of the eastern edge except its northern end. Across the antimeridian the result is the complement: it excludes the place itself and takes in all the other longitudes, and a report at the same place with a smaller box that does not cross is not found by the query.",
  "every place between 75 degrees south and north, every box of up to 100 km to each side of it", "Tests use a few places, far from the antimeridian; the missing strip is centimetres wide for small boxes.", ["include/bbox.hpp: AABBox::llaabbox, within, intersects", "include/cf.hpp: ne2ll, ne2ecef, ecef2ll", "include/report.hpp: llaabbox", "include/gm.hpp: transform_to_global"])

p("C82", "Mixture weights stay normalised in double arithmetic",
  "In IEEE double arithmetic normalize empties a mixture only if its total weight is at most 1e-8 up to rounding; otherwise every new weight is a double in [0,1] within a relative error of (n+1)/2^51 of its exact share, heavier components stay heavier, and the weights sum to 1 up to (n+1)/2^51, however long the history. prune and join keep exactly the heaviest components (by the rounded scaled weights), never read out of range and never lose all of them to rounding. Sampling writes disjoint blocks inside the buffer and leaves at most n columns unwritten. PF::resample, in contrast, can read past the cumulative weights.",
  "every mixture of up to 2^20 components with finite non-negative weights, every buffer with columns*(n+2) <= 2^50", "Rounding errors depend on the weights; a test sees a few.", ["include/gm.hpp: normalize, prune, join, sample, sample_pos", "include/pf.hpp: resample"])

p("C83", "The probability of a missed detection is a probability",
  "GM::missed returns at most 1 and differs from the exact 1 - sum of w*pD by at most (3n+4)/2^51, so the cost of a missed detection is a number when the exact probability is larger than that; a probability of exactly zero costs +inf, a positive one never NaN. With the default detection probability 1.0 the claim is false: for two components of weights 0.29 and 0.03 the normalised weights add up to more than 1, missed returns -2^-52 and the cost -log(r*missed) is NaN. NaN costs can make the search for hypotheses fail: a cluster of three such targets and two reports gets no hypothesis at all and every target existence probability 0, although there are explanations without missed detections.",
  "every mixture of up to 2^20 components as normalize leaves it, every detection probability; every priority queue, exp and log for the loss", "The sign of a rounding error decides; single-component mixtures, as in tests, are exact.", ["include/gm.hpp: missed", "include/target.hpp: match, correct", "include/sensors.hpp: pD_, pD", "include/cluster.hpp: correct", "include/murty.hpp: solve, draw"])

p("C84", "The ellipse in the plot is the ellipse of the covariance",
  "plot.cov_ellipse (and plot_cov_ellipse of clmb.py) draws the nstd-sigma ellipse of the covariance it is given, around the position, in the axes of the figure. This is false: the drawn ellipse has the right axes' lengths and centre but is turned, by -(theta + theta*pi/180) in lmb/plot.py and theta*pi/180 - theta in clmb.py, where theta is the angle of the main eigenvector in radians. It is right exactly for circles, for theta = 0, and in lmb/plot.py for one stray direction near south. Every target that is at least as uncertain in east as in north is drawn wrongly, and an uncertainty in east only is drawn as an uncertainty in north.",
  "every positive definite covariance, every valid result of eigh (either sign of the eigenvectors), every position and nstd > 0", "The plot is looked at by people; the error is an angle in radians passed where degrees are expected, and circles hide it.", ["lmb/plot.py: eigsorted, calc_cov_ellipse, cov_ellipse", "clmb.py: eigsorted, cov_ellipse, plot_cov_ellipse"])

p("C85", "The tracks drawn from a log are the tracks of the tracker",
  "For a log of up to twelve lines as written by crosstrack.cpp, plot_results.py reads every line and figure k shows, for each target of line k, a track through the means of all states that target had up to line k, oldest first, none of other targets, labelled with its probability of existence. A log of more than twelve lines always ends in an exception. Weights are printed with six digits, so the mean is not the mean of the tracker: three components of weight 1/3 at the same place are drawn at 0.999999 times their coordinates.",
  "every log, any number of targets and components, every way to print numbers as JSON numbers", "Reader, writer and grammar interact over whole logs; tests of the plots do not exist.", ["clmb.py: GM, Target, plot_trace, plot_traces", "plots/plot_results.py: draw", "tests/crosstrack.cpp: main", "include/gaussian.hpp: repr", "include/target.hpp: repr", "include/lmb.hpp: repr"])

p("C86", "plot.tracks draws one line per present target",
  "plot.tracks(history, ...) draws exactly one line for each target of the last recall with r >= min_r, in the order of that recall: through all positions the target had in the history, oldest first, with the marker at its present position, whatever other targets came and went. Different ids get different colour numbers below 65535; all ids from 65535 on share one colour.",
  "every history with different ids in its last recall, every min_r", "The history is unbounded; a picture of a few steps does not show which states were joined.", ["lmb/plot.py: tracks, CMAP"])

p("C87", "A correction in double arithmetic leaves a covariance",
  "Gaussian::correct with double arithmetic gives the covariance P - P H'(H P H' + R)^-1 H P up to rounding: every entry is within kappa/2^46 of the prior standard deviations of its row and column, kappa being the product of the innovation variances over the determinant of the innovation covariance (at most 2^40). If the report has equal variances r and the position variances add up to at most 8000000 r, variances stay positive. Without such a limit the claim is false: for a target known to 1 m across and 11 km along a diagonal line and a report of 0.5 m standard deviation both position variances become negative, -0.38 where 0.22 is exact; and the covariance is not symmetric afterwards, already for small integers.",
  "every prior covariance and report covariance of doubles for which no operation over- or underflows", "Rounding errors depend on all bits of the operands; the bad cases need an elongated covariance that tests with round targets never meet.", ["include/gaussian.hpp: Gaussian_::correct", "include/sensors.hpp: PositionSensor::H"])

p("C88", "The intensity of a target at given points",
  "Target::pos_phd(points, res) adds to every point the existence probability times the sum over the components of weight times the component's normal density at the point, divided by the sum of that density over all points; components whose density at all points together is at most 1e-7 are left out; if a position covariance is not positive definite there is an exception. So with weights adding up to at most 1 the points together gain at most r, and no point loses anything. That this is the intensity of the target is false: a single point five standard deviations away gets all of r, and a target of standard deviation 1 in the middle of a cell of a grid of spacing 16 gives nothing to any point.",
  "every r, every mixture, every list of points and previous values", "Holds for any points; a test compares a few values on a fine grid, where the sum is close to the integral.", ["include/target.hpp: pos_phd", "include/gm.hpp: sampled_pos_pdf", "include/gaussian.hpp: sampled_pos_pdf"])

p("C89", "A target that is not seen any more is forgotten",
  "After any history of predictions and corrections, follow a target that takes no part in any later correction (it is never in the field of view of the sensor, and its box never touched by that of a report). If the later predictions use the constant-velocity model CV with noise at least q, the target is erased before their time steps (in units of tscale) add up to a T with q T^3 / 3 > cov_lim - with the defaults q = 1 and cov_lim = 150, before 7.7 time units, whatever its mixture and its existence probability. Until then it keeps its id, and r changes only by the factors pS^dT. With the model NM as constructed by default this is false: a target of one Gaussian stays for any number of predictions, with the same r.",
  "every history, every number of later calls, every density", "The bound is on all histories and densities; a test waits a while and looks at one target.", ["include/models.hpp: CV, NM", "include/target.hpp: viable", "include/lmb.hpp: predict, correct"])

p("C90", "With particles a target is indexed where its particles are",
  "For the tracker SILMB<PF<4>>: after any history, the box of a target in the index encloses its particles, a query returns the targets whose boxes touch the box asked for, a correction gates targets by their distance to the reports, and targets that are far apart do not limit each other. This is false: PF never sets valid and never assigns the box it returns, so the box of every target is [-30000, 30000]^2; every query returns every live target; one report anywhere gates all live targets into one cluster; and once 31 targets are alive no scan with a report can be processed.",
  "every history, every number of targets and particles, every sensor and motion parameter", "The claim is about every history; a test with one target sees no difference.", ["include/pf.hpp: llaabbox, update_local_bbox, transform_to_global", "include/lmb.hpp: correct, query"])
p("C91", "Predicting a particle target moves its mean and widens its covariance by the process noise",
  "The covariance PF computes is positive semidefinite; a prediction with the motion model CV keeps the weights, applies F to the mean, and makes F P F^T + Q of the covariance P. The last part is false for every target, every q > 0 and every time step: the covariance becomes F P F^T. So the covariance of the position of particles that share their velocity does not change with any number of predictions, and a target whose particles have collapsed into one state is never erased, whatever the noise (compare C89).",
  "every list of particles, every motion matrix, every number of predictions, every history", "The claims are about all particle sets and any number of predictions.", ["include/pf.hpp: mean, cov, linear_update", "include/models.hpp: CV", "include/target.hpp: viable"])
p("C92", "The particles of a new target lie around the report that started it, with the report's accuracy",
  "PositionSensor starts a target from an unassociated report: PF draws N particles of equal weight, the weights add up to one, and the particles lie around the position of the report with the covariance of the report, in metres. The last part is false: the position is in degrees and the covariance in square metres, and both are added. For a report at 0 N 0 E with standard deviation sigma (up to 90 m) in each direction, and any uncertainty of the velocity, there are draws of norm one for which the mean is the position of the report and every particle is more than 50000 sigma metres away.",
  "every number of particles (even, for the refutation), every standard deviation up to 90, every decomposition of the covariance, every velocity covariance", "The draws are random; a test sees particles, and not what they should have been.", ["include/sensors.hpp: pdf_init1", "include/pf.hpp: PF(params, mean, covariance)", "include/statistics.hpp: nrand"])
p("C93", "The log reader computes the mean and covariance the tracker has, for particles",
  "clmb.PF, made from the weights and states the tracker writes, returns the mean the tracker computes. If no particle has all the weight it returns the tracker's covariance multiplied by 1/(1 - sum w^2), which is at least one and is N/(N-1) for equal weights, so the result is a covariance matrix. That it returns the tracker's covariance is false whenever that is not zero: with two particles it returns half the squared difference whatever the weights are, and with all weight on one particle it divides zero by zero, where the tracker has zero.",
  "every list of particles and weights", "The claim is about all weights; the difference vanishes for many particles of equal weight.", ["clmb.py: PF", "include/pf.hpp: mean, cov, repr"])

p("C94", "A prediction in double arithmetic leaves a covariance",
  "The constant-velocity prediction of a Gaussian component, every operation rounded to binary64, without over- and underflow: every entry of the new covariance is within 2^-49 times the variances involved of F P F^T + Q, the mean is within 3*2^-52 of its terms, variances of the speed stay positive, variances of the position stay positive if q T^3/3 is at least 2^-47 of what they are made of, and NM without noise changes no bit. That variances stay non-negative without noise, and that the covariance stays symmetric, is false: there is a covariance within cov_lim whose predicted variance is negative, and one whose covariances of the two coordinates differ from each other after a tenth of a second; all other pairs of entries stay equal.",
  "every covariance, mean, noise and time step within the range", "The claims are about all doubles; the failures need particular ones.", ["include/gaussian.hpp: linear_update", "include/models.hpp: CV, NM"])

p("C95", "The cluster statistics and cluster ids describe the clusters of the last scan",
  "After any history and for every schedule of the parallel loop, correct leaves in nof_clusters the number of clusters, which is the length of the three vectors; cluster_nreports adds up to the length of the scan and cluster_ntargets to the number of targets reached; the entries at the cid of a report are the number of reports with this cid and of targets connected to it; every target reached has an entry with the number of targets and reports connected to it. cluster_nhyps is 0 for clusters without targets and between 1 and nhyp_max otherwise. Two reports share a cid if and only if a chain of targets connects them, targets reached share it with the reports and targets connected to them and no others, and a new target has that of its report. Two things are false: Python's cluster_nhyps returns cluster_nreports; and equal cids do not mean that targets belong together, as a target that was not reached keeps the cid of an earlier scan.",
  "every history, scan, schedule, number of targets and reports, every previous content of the vectors", "The claims are about all histories and all schedules of the parallel loop.", ["include/lmb.hpp: correct, cluster, nof_clusters, cluster_ntargets, cluster_nreports, cluster_nhyps", "lmb/lmb.cpp: cluster_nhyps"])

p("C96", "The enumeration programs list every assignment once and count them, at bounded effort",
  "On a matrix of at most 30 rows and at least as many columns with finite entries the programs murty and murty2 end after m!/(m-n)! draws: every one-to-one assignment is printed once, with the sum of its entries, cheapest first, and the costs printed add up to (m-1)!/(m-n)! times the sum of the matrix. For every matrix k+1 draws call lap at most 1+k*n times, and after s successful draws at most 1+s*(n-1) matrices are stored. That the number printed is the number of draws is false: it is only right modulo 2^32, so from 13 rows and columns on.",
  "every matrix, size, tie-breaking of the queue and number of draws", "Counting claims about all sizes; the wrong count needs six billion draws to show.", ["apps/murty.cpp: main", "apps/murty2.cpp: main", "include/murty.hpp: Murty::draw"])

p("C97", "A target that survives is known to within cov_lim",
  "After a prediction at the end of any history, for every target of one component the norm of the covariance of its position, in metres in the frame of its own position, is at most cov_lim, and for every target that of the weighted average of the component covariances is. For targets of several components the first statement is false: viable is evaluated in the global frame, where the spread of the means is in degrees, so two components 24 degrees apart pass a cov_lim of 150.",
  "every history, mixture, parameter and size", "An invariant of all reachable states; the mixture that is too wide and survives needs a state no test builds.", ["include/target.hpp: Target::viable, Target::predict", "include/gm.hpp: poscov", "include/params.hpp: cov_lim"])

p("C98", "The frames in which targets are predicted and clusters corrected are near them",
  "After any history the origin of the frame in which a target is predicted has a latitude and a longitude between the least and the greatest of its components, and that of a cluster between those of its targets and reports. That the origin is near them is false at the antimeridian: a target at rest with a component on each side of it, eps degrees away, has all components within eps degrees of longitude 0 after one prediction, and a cluster of one target and one report on both sides leaves the report, and creates the new target, within eps degrees of longitude 0.",
  "every history, target and cluster; every eps up to 90 degrees, sensor, covariance and weight", "Test scenarios are in one area of the world; the averages are right everywhere else.", ["include/cluster.hpp: center_of_mass", "include/target.hpp: transform_to_local", "include/gm.hpp: pos, transform_to_local, transform_to_global"])

p("C99", "Predicting in two steps is predicting in one",
  "After any history, with the constant-velocity model, predicting over a and then over b against predicting over a+b: a target left in both cases has the same number, existence probability, component weights and component covariances; a target of one component left after two steps is left after one, and conversely if its covariance was within cov_lim before. It is false for positions: a target moving along the equator is further east after two predictions than after one, for all speeds and steps. It is false for the model NM, which ignores the time: two predictions leave a lower existence probability and wider components; n calls multiply r by pS^n and add n times Q, whatever the time.",
  "every history, target, time step, noise, speed", "A relation between two executions, over all step lengths; the error in the position is too small to see in one scenario.", ["include/lmb.hpp: predict", "include/models.hpp: CV, NM", "include/target.hpp: predict, viable"])

p("C100", "Positions with altitudes come back",
  "For every latitude from -90 to 90 degrees, every longitude and every altitude from 20 km below the ellipsoid upwards, ecef2lla(lla2ecef(.)) returns the latitude within 2e-10 degrees (0.02 mm on the ground) and the altitude within 1 mm plus a part in 1e15; through any local frame, ned2lla(lla2ned(., o), o) does so too, with the longitude exact away from the poles. Conversely every point on or outside the ellipsoid has geodetic coordinates, and lla2ecef(ecef2lla(.)) returns it within 2 mm plus a part in 1e11 of its distance from the centre.",
  "every latitude, longitude, altitude >= -20 km, local origin; every point on or outside the ellipsoid", "The approximation has two branches and a single correction step; the tests convert one position.", ["include/cf.hpp: lla2ecef, ecef2lla, lla2ned, ned2lla"])

p("C101", "How far converting to local coordinates and back moves a position",
  "For every origin and every position, anywhere on the globe, the position after ne2ll(ll2ne(., o), o), which every component and report goes through in a correction or a metric query, is within d^3 / (2 (a(1-e^2))^2) + 0.2 mm of where it was, d being its distance from the origin: less than 1 mm within 100 m, less than 2 cm within 10 km. Over any sequence of such conversions the bounds add up.",
  "every origin, position, sequence of origins", "C57 shows positions move; tests at one position cannot bound by how much.", ["include/cf.hpp: ll2ne, ne2ecef, ne2ll, ecef2ll", "include/gaussian.hpp: transform_to_local, transform_to_global"])

p("C102", "Index boxes contain the place they are made at, and reports find the targets they belong to",
  "For every place up to 80 degrees and every point up to 100 km north and east of it, the latitude of the point is that of going n - sin(lat) (sqrt(A^2 + e^2) - A) metres along the meridian (A the distance from the axis), to 4 % and 0.1 mm. So every index box that is at most 18 times as wide as tall and does not cross the antimeridian contains the place it is made at, and two such boxes made at one place intersect: a report at the place of a target is offered it. Claims that fail: the same for flatter boxes; that a report within half a standard deviation of a target is offered it.",
  "every latitude to 75 or 80 degrees, longitude, box to 100 km, covariance, eigendecomposition", "Which boxes miss depends on latitude, shape and size together; a test at one place with round covariances sees none of it.", ["include/bbox.hpp: AABBox::llaabbox, from_gaussian, intersects", "include/report.hpp: llaabbox", "include/gm.hpp: update_local_bbox, transform_to_global", "include/lmb.hpp: create_clusters", "include/cf.hpp: ne2ll"])

p("C103", "A target that is watched and not seen fades away",
  "A scan that looks at a target with no report near it replaces the existence probability by (weight of missed)/(weight of missed + weight of not there), independently of everything else in the scan and in the tracker, and the target lives on at its address exactly if the new state is viable. If the sensors detect with probability at least 1 - mu, n such scans, with any predictions between them, multiply the odds r/(1-r) by at most mu^n up to the error of the logarithms, so after a known number of scans the target is gone and its identifier is not in use. Claim that fails: the same for a target with r = 1, which double arithmetic produces after one clear detection.",
  "every history of predictions and scans, every target, sensor, number of scans, fuel; every finite cost in the double precision part", "How long a lost target stays depends on the whole sequence of scans and on rounding of the posterior; a test sees one sequence and values of r away from 1.", ["include/lmb.hpp: correct, cluster_correct, predict", "include/target.hpp: correct, missed, false_target, predict", "include/cluster.hpp: correct", "include/constants.hpp: inf"])

p("C104", "An asyncio program uses the tracker through Application as if it called it directly",
  "A single coroutine that awaits the methods of Application: at most one call is queued or in a thread; whenever the coroutine has control the tracker is in the state of the history of its calls and every call has returned what the tracker returns in that history; undefined behaviour only if the history is undefined. For any number k of coroutines at most three calls run, calls begin in the order in which they were made, none is lost or made twice, at most k are pending, and the application does not hang. Claims that fail: that two coroutines may share an Application; that a coroutine may put a timeout around a method.",
  "every number of coroutines, every program (next call as a function of the results received), every order of events", "Orders of events of loop and threads cannot be enumerated by tests, and an overlap shows as a crash only sometimes.", ["lmb/application.py: Application._get, predict, correct, get_targets, enof_targets, nof_targets", "lmb/lmb.cpp: Tracker bindings, call_guard<gil_scoped_release>", "include/lmb.hpp: correct, predict"])

p("C105", "A target that is seen is confirmed",
  "If a target and a report touch only each other, the scan gives the target the existence probability (d + x) / (d + x + y) from the weights of detected, missed and not there, where at most a smallest of the three is left out, and only if another is below w_lim times the sum of the two kept; its density is the mixture of the corrected and the uncorrected one in the ratio d : x. If the report is L times as likely from the target as from clutter, the odds of existence are multiplied by at least L, and the target lives on unless its covariance exceeds cov_lim. Claim that fails: that the existence probability stays below 1.",
  "every history, every scan, whatever else is in scan and tracker, every target with existence probability below 1", "The pruning rule acts on the two or three weights of every cluster, so no finite set of weights shows that evidence is never lost; exact certainty in exact arithmetic cannot be told from rounding by a test.", ["include/cluster.hpp: correct (hypothesis loop, w_lim)", "include/target.hpp: match, correct, false_target", "include/gm.hpp: correct, missed, join", "include/params.hpp: w_lim, nhyp_max"])

p("C106", "A report that a target explains starts no second target",
  "A report that touches no target gets rB = 1. If a report and a target touch only each other, the rB of the report is (x + y) / (d + x + y) from the weights of detected, missed and not there that the hypothesis loop keeps. If the report is likely enough from the target, compared with the target being missed or not there (odds above lambdaB / (r_lim * sum of rB), for a single report above 1 / r_lim), it starts no target. Claim that fails: that a target started by a report exists with at most the probability rB that the report is not explained.",
  "every history, every scan, whatever else is in scan and tracker, every target with existence probability below 1", "The share of a report depends on all hypotheses of its cluster and on which of them are pruned, and what it starts on the rB of all other reports of the scan: a test fixes one scan.", ["include/lmb.hpp: birth", "include/cluster.hpp: correct (rB)", "include/params.hpp: r_lim, rB_max", "include/sensors.hpp: lambdaB"])

p("C107", "The order of the reports in a scan does not matter",
  "Let correct be called in the same state with the same reports in another order (and with any scheduling, addresses and priority queue). If the costs settle which hypotheses of a cluster are drawn (hypotheses of equal cost agree about every target, or the loop has no limits), then every report ends with the same value and the same rB, every target in reach gets the same existence probability and a density joined from the same terms (the same density unless different components have equal weight), every other target is unchanged, and as many targets are started, with the same existence probabilities and densities. Claim that fails: that the order never matters with the default parameters.",
  "every history, every two orders of a scan, every choice of scheduler, allocator and queue", "The order decides clustering, matrix layout, hypothesis order, tie breaking and joining order; a test compares a few permutations.", ["include/lmb.hpp: correct, birth", "include/cluster.hpp: correct", "include/gm.hpp: join", "include/murty.hpp: draw"])

p("C108", "A scan depends only on the targets in its reach, and scans of separate places commute",
  "Let correct be called with the same scan in two states, after any histories, that agree about the targets the scan reaches (in the field of view, or box touched by a report). Whatever else is tracked, the reports end with the same values and rB, the targets in reach get the same existence probabilities and alike densities, all others are unchanged, and targets with the same existence probabilities and densities are started. So two scans that reach none of each other's targets give the same result in either order. The hypotheses drawn must be settled by the costs, as in C107. Claim that fails: that a scan can likewise be split into scans of its far apart parts.",
  "every two histories, every scan and pair of scans, every choice of scheduler, allocator and queue", "The state is one index and one list shared by all targets; a test can only compare a few layouts of the rest of the world.", ["include/lmb.hpp: correct, birth", "include/cluster.hpp: correct", "include/targettree.hpp: query"])

p("C109", "An object that is reported at every scan stays one track with one id",
  "Take any history and any target with existence probability at least rho. Let any number of predictions and scans follow such that between two scans the survival factors multiply to at least sigma, every scan holds a report that touches this target only and is touched by no other report of the scan, each such report is at least lambda times as likely from the target as from clutter, and the covariance stays below cov_lim. If lambda is large enough to bring rho*sigma back to rho, the target is never lost and keeps its id: its existence probability is at least rho*sigma at all times and at least rho after every scan, whatever else the scans hold. If all targets are like this, every report is that of one of them, and lambda exceeds N/(r_lim*rho*sigma) for at most N reports per scan, the targets stay exactly the same ones: none is lost and no duplicate is ever started.",
  "every history, every length and interleaving of the calls that follow, every scheduler, allocator and queue, targets that are certain (r = 1) included", "Losing or doubling a track takes one scan out of thousands; a simulation that runs for a while without it says nothing about the next scan.", ["include/lmb.hpp: predict, correct, birth", "include/target.hpp: correct, false_target", "include/cluster.hpp: correct", "include/models.hpp: CV, NM"])

p("C110", "Reports of one object can be taken in any order",
  "Updating a component with several reports, of one sensor or of several sensors with different observation matrices, gives the same mean, covariance and weight in every order.",
  "every dimension, every component with a positive definite covariance, every list of reports with positive definite covariances and every permutation of it", "Two orders of two reports can be compared on examples up to rounding; that nothing depends on the order is a statement about all of them.", ["include/gaussian.hpp: correct"])

p("C111", "The last two reports bound what a component can be uncertain about",
  "Whatever happened to a component before, after a report its position has in no direction a larger variance than the report. With a second report a time T later, position and velocity are bounded at every later time by the covariances of these two reports, T, the process noise and the time since; the initial velocity covariance does not matter, nor do scans that miss the object in between. With a report every T of variance at most rho, the position expected for the next scan has a variance of at most 5 rho + 2 q T^3 / 3.",
  "every history of predictions, reports and missed scans of the constant-velocity model, every direction", "A test sees the covariance of a few histories; that no history lets it grow beyond a bound is what the gate, the index and cov_lim rely on.", ["include/gaussian.hpp: correct, linear_update", "include/models.hpp: CV", "include/sensors.hpp: pdf_init1"])

p("C112", "A component follows its object and forgets old errors",
  "Over any history, the squared error of a component in units of its covariance grows by no more than the errors of the reports (in units of their covariance) and the manoeuvres of the object (in units of the process noise). With a report every T, at least a fixed share of the old error is forgotten at each scan, so bounded errors of reports and bounded manoeuvres keep the errors of position and velocity bounded for ever; with exact reports of an object of constant velocity, the estimate converges to its position and velocity, whatever the first estimate was.",
  "every history and length, every true trajectory, every initial estimate and covariance, every detection probability and report covariance up to rho", "A simulation shows a bounded error for its noise and its length; divergence of a filter shows late and for particular trajectories.", ["include/gaussian.hpp: correct, linear_update", "include/models.hpp: CV"])

p("C113", "Every component is the Kalman filter of one report per scan since the birth of its target",
  "In every state the tracker can be in, all components of a target started from the one report of the one scan the target was born from; each has made every prediction since in the order of the calls, and was updated with at most one report of each scan since (or only moved to a local frame and back). Its covariance is exactly what the Kalman filter makes of the first report with these time steps and reports, so it is positive definite and never larger than that of the first report predicted over the time since birth.",
  "every history of predictions and scans from an empty tracker, every live target, every component, every choice of the unspecified orders and of the association weights", "Mixtures are joined, sorted, cut off and normalized at every scan; a test can look at the components of a few states but not at where each of them came from in all histories.", ["include/gm.hpp: join, correct, missed, linear_update", "include/target.hpp: correct, predict", "include/lmb.hpp: correct, predict"])

p("C114", "OSPA and GOSPA are distances between sets",
  "The scores do not depend on the order in which targets and truths are listed, a perfect estimate scores 0, swapping estimate and truth does not change a score, and the triangle inequality holds. (Refuted: a perfect estimate whose truths are listed in the order pi scores 0 exactly if pi is an involution; for three objects there are three orders of the same points with scores 0, 0 and more than 0. Swapping does not change the score if there is one best assignment.)",
  "every number of objects up to 30, every set of distinct points, every order, every cut-off and exponent", "A test with one or two objects, or with the truth in the order of the targets, gives 0 and agrees in both directions; the wrong orders start with three objects.", ["include/lmb.hpp: ospa, gospa", "include/rlapjv.h: lap"])

p("C115", "Binding an assignment leaves exactly the other rows and columns",
  "When the k-best enumeration fixes row i to column j, the copied sub-problem is the matrix with that row and column crossed out: every entry is written, no block reaches outside its matrix, the duals and the index maps are cut in the same way, and the assignments of the sub-problem are those of the problem with row i in column j, cheaper by that entry.",
  "every matrix size, every row and column including first and last, every content", "The copy is done in four guarded blocks; a wrong guard or offset shows only for some positions and leaves uninitialised numbers that may happen to be right.", ["include/murty.hpp: allbut, MurtyState::partition_with"])

p("C116", "The same program run twice tracks the same targets",
  "Run a program of predictions and scans twice from an empty tracker. The second time the allocator may return other addresses (clustering sorts pointers), the parallel loops may run in another schedule, the loops over targets and births in another order, the priority queue may choose differently among equals, and the reports of each scan may come in another order. If at every scan of the first run the costs settle which hypotheses are drawn and no different components of equal weight are joined, the second run is defined too and ends with the same targets: a one-to-one correspondence preserves existence probability, density and last action, and all queries return the same numbers. Claim that fails: that the numbers (id) of the targets are reproducible.",
  "every program, every length, every two outcomes of everything left to the machine, every reordering of the reports", "Differences between runs come from addresses and schedules, which a test does not control; a difference may show only many scans later.", ["include/lmb.hpp: correct, predict, birth, enof_targets, nof_targets", "include/cluster.hpp: correct", "include/targettree.hpp: query"])

p("C117", "The corrected mean in double arithmetic",
  "Gaussian::correct with double arithmetic gives the exact Kalman mean up to rounding: before the last addition is rounded, every coordinate is within kappa/2^46 of its prior standard deviation times the number of standard deviations (Mahalanobis) between report and prediction, kappa being the product of the innovation variances over the determinant of the innovation covariance (at most 2^40); the last addition adds half a unit in the last place. So the mean is right even where the covariance of the same call is not (C87).",
  "every prior mean and covariance, report and report covariance of doubles for which no operation over- or underflows", "Rounding errors depend on all bits of the operands; a test compares a few results with a tolerance.", ["include/gaussian.hpp: Gaussian_::correct", "include/sensors.hpp: PositionSensor::H"])

p("C118", "The corrected weight in double arithmetic",
  "The weight after Gaussian::correct, w * pD * likelihood / kappa, computed in double arithmetic is the exact one up to a factor whose logarithm is at most (33 m + 53) k / 2^52: m is the squared Mahalanobis distance of the report (at most 1000), k the condition of the innovation covariance (at most 2^40). For exp and sqrt an error of one unit in the last place is allowed, for pow(2*pi, 2) four.",
  "every component and report of doubles for which no operation over- or underflows, all library functions of that accuracy", "The error is relative, over all magnitudes of the weight; a test sees one weight.", ["include/gaussian.hpp: Gaussian_::correct", "include/report.hpp: likelihood", "include/sensors.hpp: PositionSensor::H"])

p("C119", "The costs in double arithmetic give the posterior",
  "Target::match and false_target compute the costs of a report, a missed detection and absence in double arithmetic, from the components through the Kalman innovation, likelihood, sum, normalize and logarithm. Each cost is the negative logarithm of the exact weight of the LMB model within an explicit bound: ((33m+53)k + n + 1002)/2^52 for a report (n components, squared Mahalanobis distances up to m, conditions up to k), (3n+4)/(2^50 q) + 1002/2^52 for a missed detection of probability at least q, 1002/2^52 for absence; reports with a likelihood ratio of at most 1e-8 cost infinity. So in a cluster of M targets the posterior probability of any event on the joint associations, with the costs as computed, is the exact one up to a factor exp(2 M delta), delta the sum of the bounds.",
  "every number of targets, reports and components, all values for which no operation over- or underflows, all library functions accurate to a unit in the last place", "The error of a posterior depends on every rounding of every cost in the cluster; a test compares with a tolerance it cannot justify.", ["include/target.hpp: match, false_target", "include/gm.hpp: correct, normalize, missed", "include/gaussian.hpp: Gaussian_::correct", "include/report.hpp: likelihood"])

p("C120", "The computed existence probabilities are those of the posterior",
  "What a cluster computes in double arithmetic, from the components of its targets to the association, existence and birth probabilities, is the exact posterior of the LMB filter with all joint events enumerated, within an explicit bound: rounding in the loop over the hypotheses (8 costErr + (7n+3N+14)/2^52 after n hypotheses), exp(2 M delta) - 1 for the rounding of the costs (C119), the price of writing 30000 for infinity, and the weight of what was not drawn. The last is at most (N+2)^M exp(orderErr)/n, about (N+2)^M w_lim if the limit nhyp_max was not reached, and 0 with w_lim = 0 and nhyp_max above (N+2M)^M. An existence probability that comes out below 1e-6 is set to 0.",
  "every number of targets up to 30, reports and components, every order of summation, all choices among equally good nodes, all library functions accurate to a unit in the last place", "The result of the whole chain of rounded operations is compared with a sum over all joint events, of which there are exponentially many; a test does this for one cluster with a tolerance it cannot justify.", ["include/cluster.hpp: Cluster", "include/target.hpp: match, false_target, correct", "include/gm.hpp: correct, normalize, missed", "include/gaussian.hpp: Gaussian_::correct"])

p("C121", "A scan weighs the particles with its likelihood",
  "With particles, a detection multiplies every weight by pD times the Gaussian density of the report over kappa if the particle is in the field of view and by 0 otherwise, and divides by the sum Z if Z > 1e-8; the cost is that of r Z. A missed detection multiplies by pD in view and by 0 out of view, so particles that could not be seen are the ones that die. Expected: a target out of view keeps its distribution. Refuted: whatever the number of targets and of reports in the plane, a target none of whose particles is in view has weight 0 everywhere after the scan (or is gone), is reported at latitude 0 and longitude 0, and is removed by the next prediction.",
  "every history, particle set, sensor, report and field of view; targets lost by correct then predict", "Depends on where every particle lies relative to the field of view in a frame that changes with each scan; the example tests have fields of view that cover everything.", ["include/pf.hpp: correct, missed, normalize, linear_update", "include/sensors.hpp: pD", "include/target.hpp: match, missed", "include/cluster.hpp: Cluster"])

p("C122", "Numbers in the log are read back",
  "A finite double written to the log with p digits (6 for weights and probabilities, 15 or 16 for matrices) is a JSON number whose value differs from the double by at most half a unit in the p-th digit, and is exact if the double has at most p digits. What a tracker writes is JSON if and only if every number in it is finite; with a nan or inf in any target of any line nothing of the log is drawn. The points of the drawn tracks are the means of the mixtures to within 5.1e-6 of the sum of their weighted coordinates' absolute values. Expected of FullPrecision: the double itself. Refuted: 1 and 1 + 2^-52 are both written 1.",
  "every finite double, every number of digits, every tracker state and every log", "The text of every double, in every position of every log; tests look at a handful of numbers, none of which needs an exponent or a carry.", ["include/constants.hpp: eigenformat", "include/gaussian.hpp: repr", "include/target.hpp: repr", "include/lmb.hpp: repr", "clmb.py: GM.mean, plot_trace", "plots/plot_results.py: draw", "tests/crosstrack.cpp: main"])

p("C123", "The tracks drawn from the log of a tracker with particles are those of its particles",
  "A log that a tracker with the density class PF has written, one line for each scan, is read and drawn by plot_results.py. There is a figure for every line, up to twelve. The figure of a line has a track for every target of the line, in order, with a point for each state of that target so far, oldest first, and no states of other targets. The point of a state is the mean that the tracker has for it, to within 1.1e-14 of the sum of the absolute values of the weighted coordinates. The number at a track is the target's probability of existence to within 5e-6 of it.",
  "every log of at most twelve lines, any number of targets and particles, every finite double", "Writer, grammar and reader interact over whole logs of hundreds of particles for each target; there is no test that writes a log of particles.", ["include/pf.hpp: repr, mean", "include/target.hpp: repr", "include/lmb.hpp: repr", "clmb.py: PF, Target, plot_trace, plot_traces", "plots/plot_results.py: draw"])

p("C124", "The particles of a target carry a probability distribution",
  "After any history of the tracker with particles, every target has exactly N particles, no weight is negative, and the weights add up to one or to at most 1e-8. If they add up to one, the state reported lies within every interval that holds the particles, coordinate by coordinate; if not, it is within 1e-8 of zero, relative to the largest coordinate. A prediction with a positive r_lim removes every target whose weights do not add up to one; all others keep their weights, and their probability of existence is multiplied by the probability of survival and by nothing else. The effective number of particles of a target whose weights add up to one is from one to N, and is N or one only for equal weights and for all the weight on one particle.",
  "every history of predictions and scans, every number of targets, reports and particles, every sensor with pD >= 0", "An invariant of all histories, through joins of any number of hypotheses; a test sees the sums of a few.", ["include/pf.hpp: PF(params, mean, covariance), linear_update, correct, missed, normalize, neff, join, mean", "include/target.hpp: predict, correct", "include/lmb.hpp: predict, correct", "include/cluster.hpp: correct"])

p("C125", "Positions are valid latitudes and longitudes; CV::predict forecasts what a prediction does",
  "After any history of predictions and scans, every component of every target has a longitude above -180 and at most 180 degrees and a latitude from -90 to 90 degrees to within 1e-11, and so has the position reported for the target; the same holds for every particle with a particle density. For a density in a local frame, CV::predict(pdf, dT) is the mean that the density has after the prediction over dT, and two forecasts one after the other are one over the sum of the times. For a target as the tracker holds it this is false: metres per second are added to degrees.",
  "every history, number of targets and reports; every density, time step and noise", "Whether a latitude or longitude ever leaves its range depends on all histories and all origins, also at the poles and at the antimeridian.", ["include/models.hpp: CV::predict, CV::operator()", "include/cf.hpp: ne2ll, ne2ecef, ll2ecef, ecef2ll", "include/gm.hpp: transform_to_global, mean", "include/target.hpp: predict", "include/pf.hpp: transform_to_global, PF(params, mean, covariance), mean"])

p("C126", "Only reports change the velocity of a target",
  "After any history, make any number of predictions with CV or NM and any time steps. A target that is left has the number it had, each of its components has the weight and the velocity it had, and so the velocity reported is the same. A target of one component without velocity stays where it is, to within 0.2 mm for each prediction. All targets after the first scan are of this kind: a moving object is not followed before its second report. With a particle density each particle keeps its weight and velocity.",
  "every history, every number of predictions with any models, time steps and noise, every number of targets and components", "Each prediction converts all components to a local frame and back; whether this ever leaks into the velocity, or adds up in the position, is a question about all origins and all numbers of predictions.", ["include/models.hpp: CV::operator(), NM::operator()", "include/gm.hpp: linear_update, transform_to_local, transform_to_global, mean", "include/sensors.hpp: pdf_init1", "include/lmb.hpp: predict"])

p("C127", "A target that moves over a pole keeps its course",
  "A target with constant velocity that a prediction takes over the pole moves on, away from the pole. This is false: conversions between frames change positions, not velocities. A target of one component that moves north on the meridian of Greenwich is on the meridian of 180 degrees after a prediction that takes it at least a metre beyond the pole, and its velocity still points north: in space it is turned round, and the target moves back.",
  "every latitude from 30 degrees north on, every speed and time step with a way of up to 1000 km that leads over the pole, every noise", "Needs the exact conversions of points of a tangent plane beyond the pole, for all latitudes and speeds; tests are far from the poles.", ["include/gaussian.hpp: transform_to_local, transform_to_global", "include/cf.hpp: ne2ll, ecef2ll, nedrot", "include/models.hpp: CV::operator()", "include/target.hpp: predict"])

p("C128", "Conversions do not depend on the meridian longitudes are counted from",
  "Add the same angle to the longitudes of a position and of an origin: ll2ne gives the same metres north and east. Add an angle to the longitude of an origin: ne2ll gives the same latitude, and a longitude larger by that angle, up to a multiple of 360 degrees, for every point of the tangent plane within 1000 km of the origin and at least a metre from the axis of the earth. So, under the same conditions, predict takes two targets of one component that differ by an angle in longitude to the same latitude, velocity and covariance, and to longitudes that differ by that angle, up to a multiple of 360 degrees.",
  "every angle, latitude, longitude, origin and position", "Symmetry over a continuum of rotations, through all branches of ecef2ll and across the antimeridian.", ["include/cf.hpp: ll2ne, ne2ll, ll2ecef, ecef2ll, nedrot, nerot"])

p("C129", "Reports and targets are moved into the same frame",
  "Whatever the origin of a cluster: after both were moved into its local frame, a report from the very position of a component of a target shows no innovation, and the correction with it leaves position and velocity of that component as they are. Of two particles detected with the same probability, the one at the position of the report has its weight multiplied by the larger factor, strictly if the other is elsewhere in the local frame and in view.",
  "every origin, report, target, component and detection probability", "A continuum of origins and positions; at the origin itself a swapped conversion goes unnoticed.", ["include/gm.hpp: transform_to_local", "include/gaussian.hpp: transform_to_local, correct", "include/cluster.hpp: correct", "include/pf.hpp: transform_to_local, correct"])

here = os.path.dirname(os.path.abspath(__file__))
with open(os.path.join(here, "..", "properties.jsonl"), "w") as f:
    for x in P:
        f.write(json.dumps(x) + "\n")
print(len(P))
