import Mathlib.Analysis.SpecialFunctions.Complex.Arg

/-!
# The ellipses drawn by `lmb/plot.py` and `clmb.py`

`numpy.linalg.eigh` is used through its specification, `matplotlib.patches.Ellipse` through its
documentation (`angle`: rotation in degrees, anti-clockwise).  Numbers are real.
-/

namespace Verif.Plot

/-- A symmetric 2x2 matrix, the argument `t.P[0:2, 0:2]` at `lmb/plot.py:68-69,112` and
`P[0:2, 0:2]` at `clmb.py:97-98`: entries 00, 01 = 10 and 11. -/
structure Cov where
  a : ℝ
  b : ℝ
  c : ℝ

/-- What `np.linalg.eigh(cov)` promises, `lmb/plot.py:29`, `clmb.py:79`: the eigenvalues in
ascending order and orthonormal columns of eigenvectors, of either sign. -/
structure Eigh (P : Cov) where
  v0 : ℝ
  v1 : ℝ
  u : ℝ × ℝ
  w : ℝ × ℝ
  asc : v0 ≤ v1
  unit_u : u.1 ^ 2 + u.2 ^ 2 = 1
  unit_w : w.1 ^ 2 + w.2 ^ 2 = 1
  orth : u.1 * w.1 + u.2 * w.2 = 0
  eig_u1 : P.a * u.1 + P.b * u.2 = v0 * u.1
  eig_u2 : P.b * u.1 + P.c * u.2 = v0 * u.2
  eig_w1 : P.a * w.1 + P.b * w.2 = v1 * w.1
  eig_w2 : P.b * w.1 + P.c * w.2 = v1 * w.2

/-- `calc_cov_ellipse`, `lmb/plot.py:27-40`, `cov_ellipse`, `clmb.py:77-90`: the eigenvalues in
descending order (`argsort()[::-1]`), `r1, r2 = nstd * np.sqrt(vals)` and
`theta = np.arctan2(*vecs[:, 0][::-1])`, radians. -/
noncomputable def calcCovEllipse {P : Cov} (e : Eigh P) (nstd : ℝ) : ℝ × ℝ × ℝ :=
  (nstd * √e.v1, nstd * √e.v0, Complex.arg ⟨e.w.1, e.w.2⟩)

/-- `matplotlib.patches.Ellipse(xy, width, height, angle)`: the outline, as the set of points of the
figure. `angle` is in degrees. -/
def patch (xy : ℝ × ℝ) (width height angle : ℝ) : Set (ℝ × ℝ) :=
  { p | ∃ t : ℝ, p =
    (xy.1 + (width / 2 * Real.cos t * Real.cos (angle * Real.pi / 180) -
        height / 2 * Real.sin t * Real.sin (angle * Real.pi / 180)),
     xy.2 + (width / 2 * Real.cos t * Real.sin (angle * Real.pi / 180) +
        height / 2 * Real.sin t * Real.cos (angle * Real.pi / 180))) }

/-- `cov_ellipse(cov, pos, nstd)`, `lmb/plot.py:95-101`: `pos` is (north, east), the figure has
east to the right and north upwards (`np.flipud`, and `plt.plot(nex[1], nex[0])` at line 65). -/
noncomputable def covEllipse {P : Cov} (e : Eigh P) (pos : ℝ × ℝ) (nstd : ℝ) : Set (ℝ × ℝ) :=
  let (r1, r2, theta) := calcCovEllipse e nstd
  patch (pos.2, pos.1) (2 * r2) (2 * r1) theta

/-- `plot_cov_ellipse(cov, pos, nstd)`, `clmb.py:142-148`: the figure has the first coordinate to the
right and the second upwards (`plt.plot(xs, ys)` at line 124). -/
noncomputable def plotCovEllipse {P : Cov} (e : Eigh P) (pos : ℝ × ℝ) (nstd : ℝ) : Set (ℝ × ℝ) :=
  let (r1, r2, theta) := calcCovEllipse e nstd
  patch pos (2 * r1) (2 * r2) theta

end Verif.Plot
