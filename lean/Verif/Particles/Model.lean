import Verif.System.Model
import Verif.PF.Model
import Verif.BBox.Model
import Verif.Kalman.Sample

/-!
# The tracker with particles

`SILMB<PF<4>>`, the alternative `lmb/lmb.cpp:28` and `tests/crosstrack.cpp:18` name: the abstract
`Env`, `Sensor` and `Motion` of `Verif.Tracker.Model` are filled with the particle filter of
`include/pf.hpp`.

* The field `aabbox` (`pf.hpp:48`) is left out: it is written (`pf.hpp:127,261`) and never read.
* The random numbers of a new target are an input for each report.
* `-std::log(x)` is a parameter `lg`.
-/

namespace Verif.Particles

open Matrix
open Verif.RTree (Rect)
open Verif.Lap (XR)
open Verif.Tracker (Env Sensor Motion)
open Verif.System (LL Rpt head setHead)

/-- The state of a particle, `pf.hpp:41`. -/
abbrev X := Fin 4 → ℝ

/-- A particle, `pf.hpp:51-52`. -/
abbrev Part := GM.Cmp X ℝ

/-- `AABBox()`, `bbox.hpp:16-19`, with `inf = 30000` (`constants.hpp:5`). -/
def plane : System.Box :=
  ⟨⟨-30000, -30000, 30000, 30000⟩, by
    refine ⟨⟨by show (-30000 : ℚ) ≤ 30000; norm_num, by show (-30000 : ℚ) ≤ 30000; norm_num⟩, ?_⟩
    rintro q rfl
    unfold RTree.Rect.Sub RTreeF.box64
    norm_num⟩

/-- `BBox()`, `bbox.hpp:119-122`. -/
def wide : BBox.Box ℝ := ⟨(-30000, 30000), (-30000, -30000), (30000, -30000), (30000, 30000)⟩

/-- `PF<4, N>`, `pf.hpp:45-55`: weights, states, `eta` and `valid`; `origin`; `bbox`; and
`_llaabbox`. -/
structure Pdf where
  pf : PF.Pf X ℝ
  origin : LL
  bbox : BBox.Box ℝ
  box : System.Box

/-- What is left open: the order of `prepare_sort` (`pf.hpp:175-178`), the number of particles
(`pf.hpp:36`), the random number and the order of the iterations of `resample` (`pf.hpp:149,153`), the
box `from_gaussian` makes of position and covariance (`bbox.hpp:159-171`), the eigendecomposition
(`statistics.hpp:11`), the box of a report (`report.hpp:45-47`), and the arithmetic on areas in the
index (`RTree.h:1144-1184`). -/
structure Opts where
  srt : List Part → List Part
  N : Nat
  u : ℝ
  is : List Nat
  gauss : LL → Matrix (Fin 2) (Fin 2) ℝ → BBox.Box ℝ
  eig : Matrix (Fin 4) (Fin 4) ℝ → Matrix (Fin 4) (Fin 4) ℝ × (Fin 4 → ℝ)
  rbox : Rpt → System.Box
  areas : {A : RTree.Areas // A.Ok RTreeF.Bd64}

/-- `mean`, `pf.hpp:214-216`. -/
def mean (c : List Part) : X := (c.map fun g => g.w • g.x).sum

/-- `cov(m)`, `pf.hpp:218-225`. -/
def covAt (c : List Part) (m : X) : Matrix (Fin 4) (Fin 4) ℝ :=
  fun i j => (c.map fun g => (g.x i - m i) * g.w * (g.x j - m j)).sum

/-- `cov()`, `pf.hpp:227-229`. -/
def cov (c : List Part) : Matrix (Fin 4) (Fin 4) ℝ := covAt c (mean c)

/-- `pos`, `pf.hpp:231-233`. -/
def pos (p : Pdf) : LL := head (mean p.pf.c)

/-- `poscov`, `pf.hpp:235-237`. -/
def poscov (p : Pdf) : Matrix (Fin 2) (Fin 2) ℝ :=
  !![cov p.pf.c 0 0, cov p.pf.c 0 1; cov p.pf.c 1 0, cov p.pf.c 1 1]

/-- `poscov().norm()`, `target.hpp:85`. -/
noncomputable def covNorm (p : Pdf) : ℝ :=
  let P := poscov p
  Real.sqrt (P 0 0 * P 0 0 + P 0 1 * P 0 1 + P 1 0 * P 1 0 + P 1 1 * P 1 1)

/-- `transform_to_local(origin)`, `pf.hpp:243-248`. -/
noncomputable def toLocal (o : LL) (p : Pdf) : Pdf :=
  { p with
    pf := { p.pf with c := p.pf.c.map fun g => ⟨setHead (CF.ll2ne (head g.x) o) g.x, g.w⟩ }
    origin := o }

/-- `update_local_bbox`, `pf.hpp:124-128`. -/
def updateBox (k : Opts) (p : Pdf) : Pdf :=
  if !p.pf.valid then p else { p with bbox := k.gauss (pos p) (poscov p) }

/-- A point as a vector, `bbox.hpp:142-145`. -/
def vec (p : BBox.Pt ℝ) : LL := ![p.1, p.2]

/-- The converse of `vec`, `bbox.hpp:141`. -/
def pt (p : LL) : BBox.Pt ℝ := (p 0, p 1)

/-- `BBox::llbbox`, `bbox.hpp:139-147`. -/
noncomputable def llbbox (o : LL) (b : BBox.Box ℝ) : BBox.Box ℝ :=
  ⟨pt (CF.ne2ll (vec b.c0) o), pt (CF.ne2ll (vec b.c1) o), pt (CF.ne2ll (vec b.c2) o),
    pt (CF.ne2ll (vec b.c3) o)⟩

/-- `BBox::nebbox`, `bbox.hpp:149-157`. -/
noncomputable def nebbox (o : LL) (b : BBox.Box ℝ) : BBox.Box ℝ :=
  ⟨pt (CF.ll2ne (vec b.c0) o), pt (CF.ll2ne (vec b.c1) o), pt (CF.ll2ne (vec b.c2) o),
    pt (CF.ll2ne (vec b.c3) o)⟩

/-- `transform_to_global`, `pf.hpp:255-262`. -/
noncomputable def toGlobal (k : Opts) (p : Pdf) : Pdf :=
  let p := updateBox k p
  { p with
    pf := { p.pf with c := p.pf.c.map fun g => ⟨setHead (CF.ne2ll (head g.x) p.origin) g.x, g.w⟩ }
    bbox := llbbox p.origin p.bbox }

/-- `PF(params, mean, covariance)`, `pf.hpp:74-83`, for the numbers `draws` that `nrand` returns
(`statistics.hpp:9-18`).  `eta` and `origin` are not initialised before they are assigned. -/
noncomputable def construct (k : Opts) (m : X) (P : Matrix (Fin 4) (Fin 4) ℝ) (draws : List X) :
    Pdf :=
  let c : List Part := draws.map fun u =>
    ⟨Kalman.nrandCol m (k.eig P).1 (k.eig P).2 u, 1 / (k.N : ℝ)⟩
  let p : Pdf := ⟨⟨c, 0, false⟩, 0, wide, plane⟩
  toGlobal k (toLocal (pos p) p)

/-- `linear_update`, `pf.hpp:85-91`. -/
def linearUpdate (F _Q : Matrix (Fin 4) (Fin 4) ℝ) (p : Pdf) : Pdf :=
  { p with pf := { p.pf with c := p.pf.c.map fun g => ⟨F *ᵥ g.x, g.w⟩ } }

/-- `PF::join(pdf, w, pdfs)`, `pf.hpp:188-212`, `target.hpp:165`; reading out of range does not happen
(`C53_join`). -/
noncomputable def join (k : Opts) (p : Pdf) (w : List ℝ) (ps : List Pdf) : Pdf :=
  match PF.join k.srt k.N k.u k.is p.pf w (ps.map fun q => q.pf.c) with
  | some m => { p with pf := m }
  | none => p

/-- The density class, the report class and the frames, `lmb/lmb.cpp:28,35`. -/
noncomputable def env (k : Opts) : Env Pdf Rpt LL where
  box p := p.box
  covNorm := covNorm
  pos := pos
  toLocal := toLocal
  toGlobal := toGlobal k
  normalize p := { p with pf := PF.normalize p.pf }
  eta p := p.pf.eta
  join := join k
  rpos z := z.1.x
  rbox z := k.rbox z
  rLocal := System.rLocal
  rGlobal := System.rGlobal
  center := System.center
  areas := k.areas.1

/-- `PositionSensor`, `sensors.hpp:14-41`; `fovBox` is `fov.aabbox()`, `draws` are the random numbers
of a target started from the report, `lg` is `-std::log`. -/
structure PSens where
  fov : BBox.Box ℝ
  fovBox : Rect
  lambdaB : ℝ
  pv : Matrix (Fin 2) (Fin 2) ℝ
  pD : ℝ
  draws : Rpt → List X
  lg : ℝ → XR

/-- `pD(Particle(x), origin)`, `sensors.hpp:43-46`, `pf.hpp:31-33`. -/
noncomputable def PSens.pDAt (s : PSens) (o : LL) (x : X) : ℝ :=
  s.pD * if (nebbox o s.fov).within (x 0, x 1) then 1 else 0

/-- The factor of a weight in `correct`, `pf.hpp:95-99`. -/
noncomputable def PSens.lik (s : PSens) (o : LL) (z : Rpt) (x : X) : ℝ :=
  s.pDAt o x * Kalman.likelihood (z.1.x - head x) z.1.P⁻¹ / z.1.kappa

/-- The mean `pdf_init1` passes on, `sensors.hpp:71`. -/
def initMean (z : Rpt) : X := ![z.1.x 0, z.1.x 1, 0, 0]

/-- The covariance `pdf_init1` passes on, `sensors.hpp:72-74`. -/
def initCov (pv : Matrix (Fin 2) (Fin 2) ℝ) (z : Rpt) : Matrix (Fin 4) (Fin 4) ℝ :=
  !![z.1.P 0 0, z.1.P 0 1, 0, 0; z.1.P 1 0, z.1.P 1 1, 0, 0;
    0, 0, pv 0 0, pv 0 1; 0, 0, pv 1 0, pv 1 1]

open Classical in
/-- The measurement update, `target.hpp:112-141,183-189`, with `pf.hpp:93-113`, and `pdf_init1`,
`sensors.hpp:66-76`. -/
noncomputable def sensor (k : Opts) (s : PSens) : Sensor Pdf Rpt where
  fovBox := s.fovBox
  inView p := p.bbox.intersects s.fov
  lambdaB := s.lambdaB
  upd _ p z := { p with pf := (PF.correct (s.lik p.origin z) p.pf).1 }
  detCost _ r p z := s.lg (r * (PF.correct (s.lik p.origin z) p.pf).2)
  missPdf _ p := { p with pf := (PF.missed (s.pDAt p.origin) p.pf).1 }
  missCost _ r p := s.lg (r * (PF.missed (s.pDAt p.origin) p.pf).2)
  flsCost r := if r < 1 then s.lg (1 - r) else XR.fin 30000
  init z := construct k (initMean z) (initCov s.pv z) (s.draws z)

/-- `CV`, `models.hpp:6-45`, at a time step `dT`. -/
noncomputable def cv (pS q dT : ℝ) : Motion Pdf where
  pdf := linearUpdate (Kalman.cvF dT) (Kalman.cvQ q dT)
  factor := pS ^ dT

/-- `NM`, `models.hpp:58-72`. -/
def nm (pS : ℝ) (Q : Matrix (Fin 4) (Fin 4) ℝ) : Motion Pdf where
  pdf := linearUpdate 1 Q
  factor := pS

end Verif.Particles
