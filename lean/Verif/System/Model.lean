import Verif.Tracker.Model
import Verif.GM.Model
import Verif.Kalman.Model
import Verif.CF.Model
import Verif.RTreeF.Area

/-!
# The tracker with Gaussian mixtures

The template parameters of `SILMB` as `lmb/lmb.cpp:26-27,35` fixes them: `GM<4>` densities,
`PositionSensor`, and the motion models `CV` and `NM`.  The abstract `Env`, `Sensor` and `Motion` of
`Verif.Tracker.Model` are filled with the mixtures of `Verif.GM.Model`, the Kalman update of
`Verif.Kalman.Model` and the coordinate frames of `Verif.CF.Model`.

* Boxes are rectangles with rational corners (the values of `double`s) between `-2²³` and `2²³`; the
  corners are degrees (`bbox.hpp:87-91`, `cf.hpp:67-71`).  The areas of boxes are computed exactly or
  in `double` arithmetic.  How boxes they are computed from
  a mixture (`gm.hpp:57-77`, `bbox.hpp:49-66,87-96`) is a parameter here.
* The value of `s.pD(…)` is sampled (`gaussian.hpp:122-148`); it is an arbitrary number for each
  target, report and component.
* `-std::log(x)` is a parameter `lg`.
-/

namespace Verif.System

open Verif.RTree (Rect)
open Verif.Lap (XR)
open Verif.Kalman (Gauss Report)
open Verif.Tracker (Env Sensor Motion)
open Verif.GM (Mix)

/-- Mean and covariance of a component, `gaussian.hpp:19-20`. -/
abbrev GX := (Fin 4 → ℝ) × Matrix (Fin 4) (Fin 4) ℝ

/-- `Gaussian_<4>`, `gaussian.hpp:13-21`. -/
abbrev Cmp := GM.Cmp GX ℝ

/-- A component as the Kalman model has it, `gaussian.hpp:18-21`. -/
def toG (g : Cmp) : Gauss 4 := ⟨g.x.1, g.x.2, g.w⟩

/-- The converse of `toG`, `gaussian.hpp:18-21`. -/
def ofG (g : Gauss 4) : Cmp := ⟨(g.x, g.P), g.w⟩

/-- Latitude and longitude, or north and east, `cf.hpp:12`. -/
abbrev LL := Fin 2 → ℝ

/-- `AABBox`, `bbox.hpp:12-14`; the constructor sorts the corners (`bbox.hpp:30-33`).  The corners
are within `±2²³` (`RTreeF.box64`). -/
abbrev Box := {r : Rect // RTree.Good RTreeF.Bd64 r}

/-- `GM<4>`, `gm.hpp:18-31`.  The oriented box `bbox` is only used by `intersects`. -/
structure Pdf where
  mix : Mix GX ℝ
  origin : LL
  box : Box

/-- `GaussianReport_<2>`, `report.hpp:12-32`, with a positive definite covariance and a positive
clutter intensity. -/
abbrev Rpt := {z : Report 2 // z.P.PosDef ∧ 0 < z.kappa}

/-- What is left open: the sort (`gm.hpp:174`), `cw_lim` (`params.hpp:11`), `MAX_COMPONENTS`
(`gm.hpp:18`), the box of a mixture in the frame of an origin, converted to degrees (`gm.hpp:57-77`,
`bbox.hpp:87-91`; an empty mixture keeps its old box), the box of a report (`report.hpp:45-47`), and the
arithmetic on areas in the index (`RTree.h:1144-1184`), such as `RTree.Areas.exact` or
`RTreeF.areas64`. -/
structure Opts where
  srt : List Cmp → List Cmp
  lim : ℝ
  mx : Nat
  mkBox : List Cmp → Box → LL → Box
  rbox : Rpt → Box
  areas : {A : RTree.Areas // A.Ok RTreeF.Bd64}

/-- `x.head<2>()`, `gaussian.hpp:57`. -/
def head (x : Fin 4 → ℝ) : LL := ![x 0, x 1]

/-- Assignment to `x.head<2>()`, `gaussian.hpp:159,163`. -/
def setHead (p : LL) (x : Fin 4 → ℝ) : Fin 4 → ℝ := ![p 0, p 1, x 2, x 3]

/-- The loop of `transform_to_local`, `gm.hpp:293-295`, `gaussian.hpp:158-160`. -/
noncomputable def cLocal (o : LL) (c : List Cmp) : List Cmp :=
  c.map fun g => ⟨(setHead (CF.ll2ne (head g.x.1) o) g.x.1, g.x.2), g.w⟩

/-- The loop of `transform_to_global`, `gm.hpp:304-306`, `gaussian.hpp:162-164`. -/
noncomputable def cGlobal (o : LL) (c : List Cmp) : List Cmp :=
  c.map fun g => ⟨(setHead (CF.ne2ll (head g.x.1) o) g.x.1, g.x.2), g.w⟩

/-- `transform_to_local`, `gm.hpp:290-297`. -/
noncomputable def toLocal (o : LL) (p : Pdf) : Pdf :=
  ⟨⟨cLocal o p.mix.c, p.mix.eta⟩, o, p.box⟩

/-- `transform_to_global`, `gm.hpp:302-309`. -/
noncomputable def toGlobal (k : Opts) (p : Pdf) : Pdf :=
  ⟨⟨cGlobal p.origin p.mix.c, p.mix.eta⟩, p.origin, k.mkBox p.mix.c p.box p.origin⟩

/-- `pos`, `gm.hpp:252-254`. -/
noncomputable def pos (p : Pdf) : LL := head (Kalman.mean (p.mix.c.map toG))

/-- `poscov().norm()`, `gm.hpp:260-262`, `target.hpp:85`: the Frobenius norm. -/
noncomputable def covNorm (p : Pdf) : ℝ :=
  let P := Kalman.cov (p.mix.c.map toG)
  Real.sqrt (P 0 0 * P 0 0 + P 0 1 * P 0 1 + P 1 0 * P 1 0 + P 1 1 * P 1 1)

/-- `PDF::join(pdf, w, pdfs)`, `gm.hpp:166-197`, `target.hpp:165`; an index out of range does not
happen (`C38_join`). -/
noncomputable def joinPdf (k : Opts) (p : Pdf) (w : List ℝ) (ps : List Pdf) : Pdf :=
  match GM.join k.srt k.lim k.mx w (ps.map fun q => q.mix.c) with
  | some m => { p with mix := m }
  | none => p

/-- `Report::transform_to_local`, `gaussian.hpp:158-160`. -/
noncomputable def rLocal (o : LL) (z : Rpt) : Rpt :=
  ⟨{ z.1 with x := CF.ll2ne z.1.x o }, z.2⟩

/-- `Report::transform_to_global`, `gaussian.hpp:162-164`. -/
noncomputable def rGlobal (o : LL) (z : Rpt) : Rpt :=
  ⟨{ z.1 with x := CF.ne2ll z.1.x o }, z.2⟩

/-- `center_of_mass`, `cluster.hpp:156-162`. -/
noncomputable def center (l : List LL) : LL := (1 / (l.length : ℝ)) • l.sum

/-- The density class, the report class and the frames, `lmb/lmb.cpp:26-27,35`. -/
noncomputable def env (k : Opts) : Env Pdf Rpt LL where
  box p := p.box
  covNorm := covNorm
  pos := pos
  toLocal := toLocal
  toGlobal := toGlobal k
  normalize p := { p with mix := GM.normalize p.mix }
  eta p := p.mix.eta
  join := joinPdf k
  rpos z := z.1.x
  rbox z := k.rbox z
  rLocal := rLocal
  rGlobal := rGlobal
  center := center
  areas := k.areas.1

/-- `correct`, `gm.hpp:92-104`, with the sampled detection probability `pd i` for component `i`. -/
noncomputable def correctMix (pd : Nat → ℝ) (z : Rpt) (m : Mix GX ℝ) : Mix GX ℝ :=
  GM.normalize ⟨m.c.mapIdx fun i g => ofG (Kalman.correct Kalman.posH (pd i) z.1 (toG g)), m.eta⟩

/-- `missed`, `gm.hpp:106-113`: what is left in `eta`. -/
noncomputable def missedEta (pd : Nat → ℝ) (m : Mix GX ℝ) : ℝ :=
  (m.c.mapIdx fun i g => g.w * pd i).foldl (· + ·) 0

/-- `PositionSensor`, `sensors.hpp:14-41`, the outcome of the sampling in `pD` for target, report and
component, and the logarithm.  `inView` is `pdf.intersects(fov)`. -/
structure PSens where
  fovBox : Rect
  inView : Pdf → Bool
  lambdaB : ℝ
  pv : Matrix (Fin 2) (Fin 2) ℝ
  pdDet : Nat → Rpt → Nat → ℝ
  pdMiss : Nat → Nat → ℝ
  lg : ℝ → XR

/-- A box of no size, the content of a box not yet initialised (`gm.hpp:36-42`). -/
def Box.zero : Box :=
  ⟨⟨0, 0, 0, 0⟩, ⟨le_refl _, le_refl _⟩, by
    rintro q rfl
    unfold RTree.Rect.Sub RTreeF.box64
    norm_num⟩

/-- `pdf_init1`, `sensors.hpp:66-76`, with the constructor `gm.hpp:36-42`.  `eta`, `origin` and the
box are not initialised before they are assigned. -/
noncomputable def initPdf (k : Opts) (pv : Matrix (Fin 2) (Fin 2) ℝ) (z : Rpt) : Pdf :=
  let p : Pdf := ⟨⟨[ofG (Kalman.init1 pv z.1)], 0⟩, 0, Box.zero⟩
  toGlobal k (toLocal (pos p) p)

/-- The measurement update, `target.hpp:112-141,183-189`, of the position sensor. -/
noncomputable def sensor (k : Opts) (s : PSens) : Sensor Pdf Rpt where
  fovBox := s.fovBox
  inView := s.inView
  lambdaB := s.lambdaB
  upd a p z := { p with mix := correctMix (s.pdDet a z) z p.mix }
  detCost a r p z := s.lg (r * (correctMix (s.pdDet a z) z p.mix).eta)
  missPdf a p := { p with mix := ⟨p.mix.c, missedEta (s.pdMiss a) p.mix⟩ }
  missCost a r p := s.lg (r * (1 - missedEta (s.pdMiss a) p.mix))
  flsCost r := open Classical in if r < 1 then s.lg (1 - r) else XR.fin 30000
  init := initPdf k s.pv

/-- `linear_update` on a mixture, `gm.hpp:115-121`. -/
def moveMix (F Q : Matrix (Fin 4) (Fin 4) ℝ) (p : Pdf) : Pdf :=
  { p with mix := ⟨p.mix.c.map fun g => ofG (Kalman.linearUpdate F Q (toG g)), p.mix.eta⟩ }

/-- `CV`, `models.hpp:6-45`, at a time step `dT`. -/
noncomputable def cv (pS q dT : ℝ) : Motion Pdf where
  pdf := moveMix (Kalman.cvF dT) (Kalman.cvQ q dT)
  factor := pS ^ dT

/-- `NM`, `models.hpp:58-72`. -/
def nm (pS : ℝ) (Q : Matrix (Fin 4) (Fin 4) ℝ) : Motion Pdf where
  pdf := moveMix 1 Q
  factor := pS

end Verif.System
