import Verif.App.Model
import Verif.App.Props
import Verif.BBox.Axis
import Verif.BBox.Gauss
import Verif.BBox.Model
import Verif.BBox.Props
import Verif.CF.Altitude
import Verif.CF.Boxes
import Verif.CF.Corners
import Verif.CF.Drift
import Verif.CF.Geodetic
import Verif.CF.Latitude
import Verif.CF.Model
import Verif.CF.Olson
import Verif.CF.Onto
import Verif.CF.Props
import Verif.CF.Series
import Verif.CF.Shift
import Verif.Check.ProjectTests
import Verif.Cluster.CC
import Verif.Cluster.CCModel
import Verif.Cluster.Lemmas
import Verif.Cluster.Model
import Verif.Cluster.Props
import Verif.GM.Join
import Verif.GM.Model
import Verif.GM.Order
import Verif.GM.Props
import Verif.GMF.Missed
import Verif.GMF.Model
import Verif.GMF.Props
import Verif.GMF.Round
import Verif.Hyp.Bayes
import Verif.Hyp.Bounds
import Verif.Hyp.Loop
import Verif.Hyp.Marginal
import Verif.Hyp.Model
import Verif.Hyp.Order
import Verif.Hyp.Props
import Verif.Hyp.Split
import Verif.Hyp.Ties
import Verif.HypF.Cluster
import Verif.HypF.Err
import Verif.HypF.Exp
import Verif.HypF.Loop
import Verif.HypF.Model
import Verif.HypF.Posterior
import Verif.HypF.Props
import Verif.HypF.Round
import Verif.HypF.Stuck
import Verif.HypF.Witness
import Verif.Json.Model
import Verif.Json.NotFinite
import Verif.Json.Number
import Verif.Json.Parser
import Verif.Json.Props
import Verif.Kalman.Bayes
import Verif.Kalman.Follow
import Verif.Kalman.Law
import Verif.Kalman.Model
import Verif.Kalman.Nm
import Verif.Kalman.Props
import Verif.Kalman.Race
import Verif.Kalman.Sample
import Verif.KalmanF.Cost
import Verif.KalmanF.Err
import Verif.KalmanF.Exact
import Verif.KalmanF.Mean
import Verif.KalmanF.Model
import Verif.KalmanF.Posterior
import Verif.KalmanF.Predict
import Verif.KalmanF.Props
import Verif.KalmanF.Weight
import Verif.Lap.Arr
import Verif.Lap.Augment
import Verif.Lap.Avx
import Verif.Lap.Basic
import Verif.Lap.Dijkstra
import Verif.Lap.Fuel
import Verif.Lap.Hall
import Verif.Lap.Model
import Verif.Lap.Opt
import Verif.Lap.Props
import Verif.Lap.XR
import Verif.LapF.Arr
import Verif.LapF.Augment
import Verif.LapF.Basic
import Verif.LapF.Binary64
import Verif.LapF.Dijkstra
import Verif.LapF.Exact
import Verif.LapF.Fuel
import Verif.LapF.Model
import Verif.LapF.Opt
import Verif.LapF.Props
import Verif.Metric.Match
import Verif.Metric.Model
import Verif.Metric.Order
import Verif.Metric.Props
import Verif.Murty.AllBut
import Verif.Murty.Apps
import Verif.Murty.Draw
import Verif.Murty.Model
import Verif.Murty.Node
import Verif.Murty.Parts
import Verif.Murty.Props
import Verif.MurtyF.Draw
import Verif.MurtyF.Exact
import Verif.MurtyF.Model
import Verif.MurtyF.Node
import Verif.MurtyF.Parts
import Verif.MurtyF.Props
import Verif.PF.Model
import Verif.PF.Props
import Verif.Particles.Agree
import Verif.Particles.Birth
import Verif.Particles.Log
import Verif.Particles.Lost
import Verif.Particles.Model
import Verif.Particles.Moments
import Verif.Particles.Props
import Verif.Particles.Range
import Verif.Particles.Still
import Verif.Particles.Update
import Verif.Particles.Weights
import Verif.Phd.Model
import Verif.Phd.Props
import Verif.Phd.Sampled
import Verif.Plot.Digits
import Verif.Plot.Ellipse
import Verif.Plot.Log
import Verif.Plot.LogProps
import Verif.Plot.Model
import Verif.Plot.ParticleLog
import Verif.Plot.Tracks
import Verif.Py.Model
import Verif.Py.Props
import Verif.RTree.Geom
import Verif.RTree.Insert
import Verif.RTree.Iter
import Verif.RTree.IterModel
import Verif.RTree.Model
import Verif.RTree.Props
import Verif.RTree.Remove
import Verif.RTree.Search
import Verif.RTree.Spec
import Verif.RTree.Split
import Verif.RTreeF.Area
import Verif.RTreeF.Model
import Verif.RTreeF.Props
import Verif.RTreeF.Tracker
import Verif.System.Again
import Verif.System.Age
import Verif.System.Agree
import Verif.System.Explained
import Verif.System.Forecast
import Verif.System.Fuel
import Verif.System.Law
import Verif.System.Local
import Verif.System.Mix
import Verif.System.Model
import Verif.System.Order
import Verif.System.Origin
import Verif.System.Pole
import Verif.System.Posterior
import Verif.System.Props
import Verif.System.Scan
import Verif.System.Seen
import Verif.System.Shift
import Verif.System.Split
import Verif.System.Step
import Verif.System.Still
import Verif.System.Trace
import Verif.System.Track
import Verif.System.Units
import Verif.System.Watched
import Verif.Tracker.Again
import Verif.Tracker.Alone
import Verif.Tracker.Closed
import Verif.Tracker.Conc
import Verif.Tracker.Correct
import Verif.Tracker.Defined
import Verif.Tracker.During
import Verif.Tracker.Explained
import Verif.Tracker.Hist
import Verif.Tracker.Index
import Verif.Tracker.Local
import Verif.Tracker.Loop
import Verif.Tracker.Model
import Verif.Tracker.Order
import Verif.Tracker.Props
import Verif.Tracker.Props2
import Verif.Tracker.Props3
import Verif.Tracker.Props4
import Verif.Tracker.Props5
import Verif.Tracker.Seen
import Verif.Tracker.Stats
import Verif.Tracker.Ties
